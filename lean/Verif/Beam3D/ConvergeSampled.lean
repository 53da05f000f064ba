import Verif.Beam3D.Converge
import Verif.Beam3D.GpuPusher

/-!
Property C68, second part: the fields come from arrays that sample them at the nodes of two layers; the first order in the substep cannot be improved for the CPU kernel.
-/

namespace Lcode.Beam3D

open Lcode.Plasma3D (stencil interpolate Fields3 nodeOf cell_inside stencil_inside Vec3 places cellOf localOf weight4 interpolate_shape axis_total bspline4 bspline4_nonneg bspline4_far)

/-! ### Specification -/

/-- The arrays `F` of the layer at `xi` hold the values of the fields `E`, `B` at the nodes of the grid. -/
def Sampled (c : BCfg) (xi : ℝ) (E B : Vec3 → Vec3) (F : Fields3) : Prop :=
  ∀ i j : ℤ, 0 ≤ i → i < c.N → 0 ≤ j → j < c.N →
    E ⟨c.h * nodeOf c.N i, c.h * nodeOf c.N j, xi⟩ = ⟨F.Ex i j, F.Ey i j, F.Ez i j⟩ ∧ B ⟨c.h * nodeOf c.N i, c.h * nodeOf c.N j, xi⟩ = ⟨F.Bx i j, F.By i j, F.Bz i j⟩

/-- The field changes by at most `D |t - t'|` between two moments. -/
def Slow (D : ℝ) (E : ℝ → Vec3 → Vec3) : Prop := ∀ t t' w, Within (E t w) (E t' w) (D * |t - t'|)

/-- `r 0, ..., r n` are the rows of a particle after 0, ..., n completed substeps; substep `k` takes place in the layer `idx` that has its half-step position, with arrays that
sample the fields on the two borders of the layer at some moment not more than `lag` away from the substep (the fields of a whole time step are computed once). -/
def PushedS (c : BCfg) (E B : ℝ → Vec3 → Vec3) (lag : ℝ) (n : ℕ) (r : ℕ → Row ℝ) : Prop :=
  ∀ k < n, ∃ (idx : ℤ) (F0 F1 : Fields3) (s : ℝ), turn c idx F0 F1 (r k) = .next (r (k + 1)) ∧ (halfPos (r k)).z ≤ -(idx * c.dxi) ∧
    Sampled c (-(idx * c.dxi)) (E s) (B s) F0 ∧ Sampled c (-((idx + 1) * c.dxi)) (E s) (B s) F1 ∧
    ∀ t, k * (r 0).dt ≤ t → t ≤ (k + 1) * (r 0).dt → |t - s| ≤ lag

/-! ### Interpolation -/

/-- The interpolated value is within `e` of `v` when all nodes that have a weight are. -/
theorem interpolate_near (N : ℤ) (hN : N % 2 = 1) (X Y : ℝ) (hX : |X| < N / 2 - (2 : ℤ)) (hY : |Y| < N / 2 - (2 : ℤ)) (F : ℤ → ℤ → ℝ) (v e : ℝ)
    (hF : ∀ i j, 0 ≤ i → i < N → 0 ≤ j → j < N → |X - nodeOf N i| < 5 / 2 → |Y - nodeOf N j| < 5 / 2 → |F i j - v| ≤ e) :
    |interpolate N (X + 1 / 2) (Y + 1 / 2) F - v| ≤ e := by
  have hx := cell_inside N 2 hN le_rfl X hX
  have hy := cell_inside N 2 hN le_rfl Y hY
  rw [interpolate_shape N X Y F (Finset.Ico 0 N) hx hy]
  obtain ⟨x0, -⟩ := axis_total N X _ hx
  obtain ⟨y0, -⟩ := axis_total N Y _ hy
  have hone : ∑ i ∈ Finset.Ico 0 N, ∑ j ∈ Finset.Ico 0 N, bspline4 (X - nodeOf N i) * bspline4 (Y - nodeOf N j) = 1 := by
    rw [← Finset.sum_mul_sum, x0, y0, one_mul]
  have e1 : ∑ i ∈ Finset.Ico 0 N, ∑ j ∈ Finset.Ico 0 N, F i j * (bspline4 (X - nodeOf N i) * bspline4 (Y - nodeOf N j)) - v =
      ∑ i ∈ Finset.Ico 0 N, ∑ j ∈ Finset.Ico 0 N, (F i j - v) * (bspline4 (X - nodeOf N i) * bspline4 (Y - nodeOf N j)) := by
    simp only [sub_mul, Finset.sum_sub_distrib, ← Finset.mul_sum]
    simp only [← Finset.mul_sum] at hone
    rw [hone, mul_one]
  rw [e1]
  have term : ∀ i ∈ Finset.Ico 0 N, ∀ j ∈ Finset.Ico 0 N, |(F i j - v) * (bspline4 (X - nodeOf N i) * bspline4 (Y - nodeOf N j))| ≤ e * (bspline4 (X - nodeOf N i) * bspline4 (Y - nodeOf N j)) := by
    intro i hi j hj
    rw [Finset.mem_Ico] at hi hj
    have b1 := bspline4_nonneg (X - nodeOf N i)
    have b2 := bspline4_nonneg (Y - nodeOf N j)
    rw [abs_mul, abs_of_nonneg (mul_nonneg b1 b2)]
    by_cases c1 : 5 / 2 ≤ |X - nodeOf N i|
    · rw [bspline4_far _ c1]; simp
    by_cases c2 : 5 / 2 ≤ |Y - nodeOf N j|
    · rw [bspline4_far _ c2]; simp
    exact mul_le_mul_of_nonneg_right (hF i j hi.1 hi.2 hj.1 hj.2 (not_le.mp c1) (not_le.mp c2)) (mul_nonneg b1 b2)
  calc _ ≤ ∑ i ∈ Finset.Ico 0 N, ∑ j ∈ Finset.Ico 0 N, e * (bspline4 (X - nodeOf N i) * bspline4 (Y - nodeOf N j)) := by
        refine (Finset.abs_sum_le_sum_abs _ _).trans (Finset.sum_le_sum fun i hi => ?_)
        exact (Finset.abs_sum_le_sum_abs _ _).trans (Finset.sum_le_sum fun j hj => term i hi j hj)
    _ = e := by
        simp only [← Finset.mul_sum] at hone ⊢
        rw [hone, mul_one]

/-- One component of the field the kernel computes, with its weights between -1 and 0 and between 1 and 2. -/
theorem interp3_near (c : BCfg) (hN : c.N % 2 = 1) (hh : 0 < c.h) (hd : 0 < c.dxi) (w : Vec3) (hx : |w.x| < c.h * (c.N / 2 - 2)) (hy : |w.y| < c.h * (c.N / 2 - 2)) (xiK v e : ℝ)
    (h1 : xiK - c.dxi ≤ w.z) (h2 : w.z ≤ xiK) (F0 F1 : ℤ → ℤ → ℝ)
    (hF : ∀ i j, 0 ≤ i → i < c.N → 0 ≤ j → j < c.N → |w.x - c.h * nodeOf c.N i| < c.h * (5 / 2) → |w.y - c.h * nodeOf c.N j| < c.h * (5 / 2) → |F0 i j - v| ≤ e ∧ |F1 i j - v| ≤ e) :
    |interp3 c.N (w.x / c.h + 1 / 2) (w.y / c.h + 1 / 2) ((w.z - xiK) / c.dxi) F0 F1 - v| ≤ 3 * e := by
  have units : ∀ (a : ℝ) (i : ℤ), |a / c.h - nodeOf c.N i| < 5 / 2 → |a - c.h * nodeOf c.N i| < c.h * (5 / 2) := by
    intro a i hi
    have : a - c.h * nodeOf c.N i = c.h * (a / c.h - nodeOf c.N i) := by field_simp
    rw [this, abs_mul, abs_of_pos hh]
    exact mul_lt_mul_of_pos_left hi hh
  have hX := fits_units hh hx
  have hY := fits_units hh hy
  have a0 := interpolate_near c.N hN (w.x / c.h) (w.y / c.h) hX hY F0 v e (fun i j k1 k2 k3 k4 k5 k6 => (hF i j k1 k2 k3 k4 (units _ _ k5) (units _ _ k6)).1)
  have a1 := interpolate_near c.N hN (w.x / c.h) (w.y / c.h) hX hY F1 v e (fun i j k1 k2 k3 k4 k5 k6 => (hF i j k1 k2 k3 k4 (units _ _ k5) (units _ _ k6)).2)
  obtain ⟨w0, w1, hi, hs, b1, b2, b3, b4, -⟩ := field_weights c hd c.N (w.x / c.h + 1 / 2) (w.y / c.h + 1 / 2) xiK w.z F0 F1 h1 h2
  rw [hi]
  generalize interpolate c.N (w.x / c.h + 1 / 2) (w.y / c.h + 1 / 2) F0 = i0 at *
  generalize interpolate c.N (w.x / c.h + 1 / 2) (w.y / c.h + 1 / 2) F1 = i1 at *
  have e1 : w0 * i0 + w1 * i1 - v = w0 * (i0 - v) + w1 * (i1 - v) := by
    have : w0 * (i0 - v) + w1 * (i1 - v) = w0 * i0 + w1 * i1 - (w0 + w1) * v := by ring
    rw [this, hs, one_mul]
  have he : 0 ≤ e := le_trans (abs_nonneg _) a0
  rw [e1]
  refine (abs_add_le _ _).trans ?_
  rw [abs_mul, abs_mul, abs_of_nonpos b2, abs_of_nonneg (by linarith : 0 ≤ w1)]
  have m1 := mul_le_mul (by linarith : -w0 ≤ 1) a0 (abs_nonneg _) (by norm_num : (0 : ℝ) ≤ 1)
  have m2 := mul_le_mul b4 a1 (abs_nonneg _) (by norm_num : (0 : ℝ) ≤ 2)
  linarith

/-- C68: the field a particle feels differs from the true one by at most `3 L (5/2 h + dxi)`: the exchanged weights of the two layers (C32) cost accuracy but not consistency. -/
theorem sampled_error (c : BCfg) (hN : c.N % 2 = 1) (hh : 0 < c.h) (hd : 0 < c.dxi) {M L : ℝ} {E B : ℝ → Vec3 → Vec3} (hE : Tame M L E) (hB : Tame M L B) (s : ℝ) (idx : ℤ) (F0 F1 : Fields3)
    (h0 : Sampled c (-(idx * c.dxi)) (E s) (B s) F0) (h1 : Sampled c (-((idx + 1) * c.dxi)) (E s) (B s) F1) (w : Vec3)
    (hx : |w.x| < c.h * (c.N / 2 - 2)) (hy : |w.y| < c.h * (c.N / 2 - 2)) (hz : -((idx + 1) * c.dxi) ≤ w.z) (hz' : w.z ≤ -(idx * c.dxi)) :
    Within (fieldE3 c (idx * -c.dxi) F0 F1 w) (E s w) (3 * (L * (5 / 2 * c.h + c.dxi))) ∧ Within (fieldB3 c (idx * -c.dxi) F0 F1 w) (B s w) (3 * (L * (5 / 2 * c.h + c.dxi))) := by
  have near : ∀ (i j : ℤ) (xi : ℝ), |w.x - c.h * nodeOf c.N i| < c.h * (5 / 2) → |w.y - c.h * nodeOf c.N j| < c.h * (5 / 2) → |xi - w.z| ≤ c.dxi →
      Within ⟨c.h * nodeOf c.N i, c.h * nodeOf c.N j, xi⟩ w (5 / 2 * c.h + c.dxi) := by
    intro i j xi k1 k2 k3
    refine ⟨?_, ?_, ?_⟩
    · rw [abs_sub_comm] at k1; show |c.h * nodeOf c.N i - w.x| ≤ _; linarith
    · rw [abs_sub_comm] at k2; show |c.h * nodeOf c.N j - w.y| ≤ _; linarith
    · show |xi - w.z| ≤ _; linarith
  have z0 : |-(idx * c.dxi) - w.z| ≤ c.dxi := by rw [abs_le]; constructor <;> linarith
  have z1 : |-((idx + 1) * c.dxi) - w.z| ≤ c.dxi := by rw [abs_le]; constructor <;> linarith
  have k0 : (idx : ℝ) * -c.dxi - c.dxi ≤ w.z := by linarith
  have k1 : w.z ≤ (idx : ℝ) * -c.dxi := by linarith
  have node : ∀ i j : ℤ, 0 ≤ i → i < c.N → 0 ≤ j → j < c.N → |w.x - c.h * nodeOf c.N i| < c.h * (5 / 2) → |w.y - c.h * nodeOf c.N j| < c.h * (5 / 2) →
      (Within ⟨F0.Ex i j, F0.Ey i j, F0.Ez i j⟩ (E s w) (L * (5 / 2 * c.h + c.dxi)) ∧ Within ⟨F1.Ex i j, F1.Ey i j, F1.Ez i j⟩ (E s w) (L * (5 / 2 * c.h + c.dxi))) ∧
      (Within ⟨F0.Bx i j, F0.By i j, F0.Bz i j⟩ (B s w) (L * (5 / 2 * c.h + c.dxi)) ∧ Within ⟨F1.Bx i j, F1.By i j, F1.Bz i j⟩ (B s w) (L * (5 / 2 * c.h + c.dxi))) := by
    intro i j a1 a2 a3 a4 a5 a6
    rw [← (h0 i j a1 a2 a3 a4).1, ← (h0 i j a1 a2 a3 a4).2, ← (h1 i j a1 a2 a3 a4).1, ← (h1 i j a1 a2 a3 a4).2]
    exact ⟨⟨hE.lipschitz _ _ _ _ (near i j _ a5 a6 z0), hE.lipschitz _ _ _ _ (near i j _ a5 a6 z1)⟩, ⟨hB.lipschitz _ _ _ _ (near i j _ a5 a6 z0), hB.lipschitz _ _ _ _ (near i j _ a5 a6 z1)⟩⟩
  refine ⟨⟨?_, ?_, ?_⟩, ⟨?_, ?_, ?_⟩⟩
  · exact interp3_near c hN hh hd w hx hy _ _ _ k0 k1 _ _ (fun i j a1 a2 a3 a4 a5 a6 => ⟨(node i j a1 a2 a3 a4 a5 a6).1.1.1, (node i j a1 a2 a3 a4 a5 a6).1.2.1⟩)
  · exact interp3_near c hN hh hd w hx hy _ _ _ k0 k1 _ _ (fun i j a1 a2 a3 a4 a5 a6 => ⟨(node i j a1 a2 a3 a4 a5 a6).1.1.2.1, (node i j a1 a2 a3 a4 a5 a6).1.2.2.1⟩)
  · exact interp3_near c hN hh hd w hx hy _ _ _ k0 k1 _ _ (fun i j a1 a2 a3 a4 a5 a6 => ⟨(node i j a1 a2 a3 a4 a5 a6).1.1.2.2, (node i j a1 a2 a3 a4 a5 a6).1.2.2.2⟩)
  · exact interp3_near c hN hh hd w hx hy _ _ _ k0 k1 _ _ (fun i j a1 a2 a3 a4 a5 a6 => ⟨(node i j a1 a2 a3 a4 a5 a6).2.1.1, (node i j a1 a2 a3 a4 a5 a6).2.2.1⟩)
  · exact interp3_near c hN hh hd w hx hy _ _ _ k0 k1 _ _ (fun i j a1 a2 a3 a4 a5 a6 => ⟨(node i j a1 a2 a3 a4 a5 a6).2.1.2.1, (node i j a1 a2 a3 a4 a5 a6).2.2.2.1⟩)
  · exact interp3_near c hN hh hd w hx hy _ _ _ k0 k1 _ _ (fun i j a1 a2 a3 a4 a5 a6 => ⟨(node i j a1 a2 a3 a4 a5 a6).2.1.2.2, (node i j a1 a2 a3 a4 a5 a6).2.2.2.2⟩)

/-- Where a completed substep reads the fields: inside the loss radius and not behind the layer. -/
theorem next_half (c : BCfg) (idx : ℤ) (F0 F1 : Fields3) (r r' : Row ℝ) (h : turn c idx F0 F1 r = .next r') :
    (halfPos r).x ^ 2 + (halfPos r).y ^ 2 < lostRadius c ^ 2 ∧ -((idx + 1) * c.dxi) ≤ (halfPos r).z := by
  unfold turn at h
  simp only at h
  split_ifs at h with h1 h2 h3
  unfold notInLayer at h1
  unfold isLost at h2
  push Not at h1 h2
  exact ⟨h2, by linarith⟩

theorem PushedS.pushed {c : BCfg} (hN : c.N % 2 = 1) (hh : 0 < c.h) (hd : 0 < c.dxi) (hR : lostRadius c ≤ c.h * (c.N / 2 - 2)) (hpos : 0 ≤ lostRadius c)
    {M L D lag : ℝ} (hD : 0 ≤ D) {E B : ℝ → Vec3 → Vec3} (hE : Tame M L E) (hB : Tame M L B) (hsE : Slow D E) (hsB : Slow D B) {n : ℕ} {r : ℕ → Row ℝ} (h : PushedS c E B lag n r) :
    Pushed c E B (3 * (L * (5 / 2 * c.h + c.dxi)) + D * lag) n r := by
  intro k hk
  obtain ⟨idx, F0, F1, s, ht, hxi, s0, s1, hlag⟩ := h k hk
  obtain ⟨hin, hz⟩ := next_half c idx F0 F1 _ _ ht
  have hx : |(halfPos (r k)).x| < c.h * (c.N / 2 - 2) := lt_of_lt_of_le (abs_lt_of_sq_lt_sq (by nlinarith [sq_nonneg (halfPos (r k)).y]) hpos) hR
  have hy : |(halfPos (r k)).y| < c.h * (c.N / 2 - 2) := lt_of_lt_of_le (abs_lt_of_sq_lt_sq (by nlinarith [sq_nonneg (halfPos (r k)).x]) hpos) hR
  obtain ⟨q1, q2⟩ := sampled_error c hN hh hd hE hB s idx F0 F1 s0 s1 (halfPos (r k)) hx hy hz hxi
  refine ⟨idx, F0, F1, ht, fun t t1 t2 => ?_⟩
  have hl := hlag t t1 t2
  rw [abs_sub_comm] at hl
  have hl' := mul_le_mul_of_nonneg_left hl hD
  exact ⟨(q1.trans (hsE s t _)).mono (by linarith), (q2.trans (hsB s t _)).mono (by linarith)⟩

/-- C68: the whole statement for arrays that sample smooth fields: at every substep the computed trajectory is within a constant (for a given time interval) times
`e0 + dt + h + dxi + lag` of the solution of the equations of motion. -/
theorem cpu_converges_sampled (c : BCfg) (hN : c.N % 2 = 1) (hh : 0 < c.h) (hd : 0 < c.dxi) (hR : lostRadius c ≤ c.h * (c.N / 2 - 2)) (hpos : 0 ≤ lostRadius c)
    {M L D lag T e0 : ℝ} (hL : 0 ≤ L) (hD : 0 ≤ D) (hlag : 0 ≤ lag) {E B : ℝ → Vec3 → Vec3} (hE : Tame M L E) (hB : Tame M L B) (hsE : Slow D E) (hsB : Slow D B)
    {X P : ℝ → Vec3} (n : ℕ) (r : ℕ → Row ℝ) (hq : (r 0).qm ≠ 0) (hm : Motion (r 0).qm E B T X P) (hdt : 0 ≤ (r 0).dt) (hT : n * (r 0).dt ≤ T)
    (hr : PushedS c E B lag n r) (hx : Within (posOf (r 0)) (X 0) e0) (hp : Within (momOf (r 0)) (P 0) e0) (k : ℕ) (hk : k ≤ n) :
    ∃ A del K err, A = 3 * L + 6 * |(r 0).qm| * M + 3 * |(r 0).qm| ∧ del = 3 * (L * (5 / 2 * c.h + c.dxi)) + D * lag ∧
      K = 9 * L + 18 * |(r 0).qm| * M ^ 2 + 27 / 2 * |(r 0).qm| * M + 9 / 2 * |(r 0).qm| * del ∧
      err = Real.exp (A * (k * (r 0).dt)) * e0 + (Real.exp (A * (k * (r 0).dt)) - 1) / A * (3 * del + (r 0).dt * K) ∧
      Within (posOf (r k)) (X (k * (r 0).dt)) err ∧ Within (momOf (r k)) (P (k * (r 0).dt)) err := by
  obtain ⟨A, K, err, h1, h2, h3, h4⟩ := cpu_converges c n r hq hm hE hB hL (by positivity) hdt hT (hr.pushed hN hh hd hR hpos hD hE hB hsE hsB) hx hp k hk
  exact ⟨A, _, K, err, h1, rfl, h2, h3, h4⟩

end Lcode.Beam3D
