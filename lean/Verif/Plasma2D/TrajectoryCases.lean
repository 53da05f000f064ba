import Verif.Plasma2D.TrajectoryLayers
import Verif.Plasma3D.TrajectoryCases

/-!
Property C79, third part: fields sampled on the grid, the variables of the code, and particles that meet all hypotheses.
-/

namespace Lcode.Plasma2D

open Lcode.Plasma3D (Vec3 lorentz3 PlasmaMotion Tame2 Upto noE2 oneB2 helP hel_energy hel_force hel_tame)
open Lcode.Beam3D (Within)
open Lcode.Beam2D (rot unit_le sqrt_near)
open Lcode.Num (DerivOn)

/-! ### Fields on the grid -/

/-- The arrays of the code hold the values of `E`, `B` on the positive x axis at the nodes `i h`, with errors up to `d`; the amplitude of the noise correction is at most `a`. -/
def SampledAxis (e : Env) (M : ℕ) (E B : ℝ → ℝ → Vec3) (d a : ℝ) : Prop :=
  ∀ i ≤ M, Within ⟨e.F.Er i, e.F.Ef i, e.F.Ez i⟩ (E (i * e.h) 0) d ∧ Within ⟨-e.F.Ef i, e.F.Bf i, e.F.Bz i⟩ (B (i * e.h) 0) d ∧ |e.noise i| ≤ a

/-- Interpolation of an array close to a function with Lipschitz constant `L`: the error is at most that of the samples plus `3/2 L h`, also next to the axis, where the transverse components are continued as odd functions, and next to the wall. -/
theorem interp_near (M : ℕ) (hM : 1 ≤ M) (h : ℝ) (hh : 0 < h) (x : ℝ) (hx0 : 0 ≤ x) (hx1 : x < M + 1 / 2) (F : ℕ → ℝ) (u : ℝ → ℝ) (L d : ℝ) (hL : 0 ≤ L) (hu : ∀ a b, |u a - u b| ≤ L * |a - b|) (hF : ∀ i ≤ M, |F i - u (i * h)| ≤ d) :
    |interpEven (M + 1) ⌊x + 1 / 2⌋₊ (x - ⌊x + 1 / 2⌋₊) F - u (x * h)| ≤ d + 3 / 2 * L * h ∧
    (u 0 = 0 → |interpOdd (M + 1) ⌊x + 1 / 2⌋₊ (x - ⌊x + 1 / 2⌋₊) F - u (x * h)| ≤ d + 3 / 2 * L * h) := by
  have hcM : ⌊x + 1 / 2⌋₊ ≤ M := by
    have : ⌊x + 1 / 2⌋₊ < M + 1 := by
      rw [Nat.floor_lt (by linarith)]; push_cast; linarith
    omega
  have hf1 := Nat.floor_le (by linarith : 0 ≤ x + 1 / 2)
  have hf2 := Nat.lt_floor_add_one (x + 1 / 2)
  generalize ⌊x + 1 / 2⌋₊ = c at *
  obtain ⟨l, hl⟩ : ∃ l, l = x - (c : ℝ) := ⟨_, rfl⟩
  rw [← hl]
  have l1 : -(1 / 2) ≤ l := by linarith
  have l2 : l ≤ 1 / 2 := by linarith
  -- a node at most 3/2 steps away
  have node : ∀ i ≤ M, |(i : ℝ) - x| ≤ 3 / 2 → |F i - u (x * h)| ≤ d + 3 / 2 * L * h := by
    intro i hi hd
    have h1 := hF i hi
    have h2 := hu (i * h) (x * h)
    rw [← sub_mul, abs_mul, abs_of_pos hh] at h2
    have h3 := mul_le_mul_of_nonneg_left (mul_le_mul_of_nonneg_right hd hh.le) hL
    have := abs_sub_le (F i) (u (i * h)) (u (x * h))
    linarith
  have avg : ∀ a b : ℕ, a ≤ M → b ≤ M → |(a : ℝ) - x| ≤ 3 / 2 → |(b : ℝ) - x| ≤ 3 / 2 →
      |(l - 1 / 2) * (1 / 2 * (l - 1 / 2)) * F a + (3 / 4 - l ^ 2) * F c + (l + 1 / 2) * (1 / 2 * (l + 1 / 2)) * F b - u (x * h)| ≤ d + 3 / 2 * L * h := by
    intro a b ha hb hax hbx
    have n1 := abs_le.mp (node a ha hax)
    have n2 := abs_le.mp (node c hcM (by rw [abs_le]; constructor <;> linarith))
    have n3 := abs_le.mp (node b hb hbx)
    have w1 : 0 ≤ (l - 1 / 2) * (1 / 2 * (l - 1 / 2)) := by nlinarith [sq_nonneg (l - 1 / 2)]
    have w2 : 0 ≤ 3 / 4 - l ^ 2 := by nlinarith
    have w3 : 0 ≤ (l + 1 / 2) * (1 / 2 * (l + 1 / 2)) := by nlinarith [sq_nonneg (l + 1 / 2)]
    have ws : (l - 1 / 2) * (1 / 2 * (l - 1 / 2)) + (3 / 4 - l ^ 2) + (l + 1 / 2) * (1 / 2 * (l + 1 / 2)) = 1 := by ring
    generalize (l - 1 / 2) * (1 / 2 * (l - 1 / 2)) = p1 at *
    generalize 3 / 4 - l ^ 2 = p2 at *
    generalize (l + 1 / 2) * (1 / 2 * (l + 1 / 2)) = p3 at *
    generalize d + 3 / 2 * L * h = D at *
    generalize u (x * h) = U at *
    have e : p1 * F a + p2 * F c + p3 * F b - U = p1 * (F a - U) + p2 * (F c - U) + p3 * (F b - U) := by linear_combination U * ws
    have eD : D = p1 * D + p2 * D + p3 * D := by linear_combination -D * ws
    rw [e, abs_le]
    constructor
    · have a1 := mul_le_mul_of_nonneg_left n1.1 w1
      have a2 := mul_le_mul_of_nonneg_left n2.1 w2
      have a3 := mul_le_mul_of_nonneg_left n3.1 w3
      linarith
    · have a1 := mul_le_mul_of_nonneg_left n1.2 w1
      have a2 := mul_le_mul_of_nonneg_left n2.2 w2
      have a3 := mul_le_mul_of_nonneg_left n3.2 w3
      linarith
  unfold interpEven interpOdd
  have hcc : c = 0 ∨ (1 ≤ c ∧ c < M) ∨ c = M ∧ 1 ≤ c := by omega
  rcases hcc with h0 | ⟨h0, h0'⟩ | ⟨h0, h0'⟩
  · simp (disch := omega) only [if_pos, if_neg]
    have hc0 : (c : ℝ) = 0 := by rw [h0]; norm_num
    have l0 : 0 ≤ l := by rw [hl, hc0]; linarith
    have d1 : |((c + 1 : ℕ) : ℝ) - x| ≤ 3 / 2 := by push_cast; rw [abs_le]; constructor <;> linarith
    refine ⟨avg (c + 1) (c + 1) (by omega) (by omega) d1 d1, fun hu0 => ?_⟩
    have f0 := hF c hcM
    have f1 := hF (c + 1) (by omega)
    push_cast at f1
    rw [hc0, zero_mul, hu0] at f0
    rw [hc0, zero_add, one_mul] at f1
    have u1 := hu h 0
    have ux := hu (x * h) 0
    rw [hu0, sub_zero, sub_zero, abs_of_pos hh] at u1
    rw [hu0, sub_zero, sub_zero, abs_of_nonneg (by positivity : 0 ≤ x * h)] at ux
    have e : (l + 1 / 2) * (1 / 2 * (l + 1 / 2)) - (l - 1 / 2) * (1 / 2 * (l - 1 / 2)) = l := by ring
    rw [e]
    have hxl : x = l := by rw [hl, hc0, sub_zero]
    rw [hxl] at ux ⊢
    have dpos : 0 ≤ d := le_trans (abs_nonneg _) f0
    rw [sub_zero] at f0
    have w2 : 0 ≤ 3 / 4 - l ^ 2 := by nlinarith
    have F1 : |F (c + 1)| ≤ d + L * h := by
      have := abs_sub_abs_le_abs_sub (F (c + 1)) (u h)
      linarith
    have t1 : |l * F (c + 1)| ≤ l * (d + L * h) := by rw [abs_mul, abs_of_nonneg l0]; exact mul_le_mul_of_nonneg_left F1 l0
    have t2 : |(3 / 4 - l ^ 2) * F c| ≤ (3 / 4 - l ^ 2) * d := by rw [abs_mul, abs_of_nonneg w2]; exact mul_le_mul_of_nonneg_left f0 w2
    have t3 : l * (L * h) ≤ 1 / 2 * (L * h) := mul_le_mul_of_nonneg_right l2 (by positivity)
    have t4 : (l + 3 / 4 - l ^ 2) * d ≤ 1 * d := mul_le_mul_of_nonneg_right (by nlinarith [sq_nonneg (l - 1 / 2)]) dpos
    have t5 : 0 ≤ L * h := by positivity
    rw [abs_le] at *
    constructor <;> linarith [t1.1, t1.2, t2.1, t2.2, ux.1, ux.2]
  · simp (disch := omega) only [if_pos, if_neg]
    have ec : ((c - 1 : ℕ) : ℝ) = c - 1 := by push_cast [Nat.cast_sub h0]; ring
    have ec' : ((c + 1 : ℕ) : ℝ) = c + 1 := by push_cast; ring
    have := avg (c - 1) (c + 1) (by omega) (by omega) (by rw [ec, abs_le]; constructor <;> linarith) (by rw [ec', abs_le]; constructor <;> linarith)
    exact ⟨this, fun _ => this⟩
  · simp (disch := omega) only [if_pos, if_neg]
    have ec : ((c - 1 : ℕ) : ℝ) = c - 1 := by push_cast [Nat.cast_sub h0']; ring
    have d1 : |((c - 1 : ℕ) : ℝ) - x| ≤ 3 / 2 := by rw [ec, abs_le]; constructor <;> linarith
    have := avg (c - 1) (c - 1) (by omega) (by omega) d1 d1
    rw [and_iff_left (fun _ => by simpa [h0, show ¬ M = 0 by omega] using this)]
    simpa [h0] using this

/-- The noise correction is at most its amplitude times the step. -/
theorem noise_le (n : ℕ) (amp : ℕ → ℝ) (jc : ℕ) (l h a : ℝ) (hh : 0 < h) (ha : 0 ≤ a) (hamp : jc < n → |amp jc| ≤ a) : |interpNoise n amp jc l h| ≤ a * h := by
  unfold interpNoise
  have z : |(0 : ℝ)| ≤ a * h := by rw [abs_zero]; positivity
  split_ifs with h1 h2
  · exact z
  · exact z
  · rw [not_or] at h2
    have hj : (1 : ℝ) ≤ jc := by exact_mod_cast Nat.one_le_iff_ne_zero.mpr h2.1
    have hp := Real.pi_gt_three
    have s1 := Real.abs_sin_le_one (Real.pi * l)
    have s2 := Real.abs_cos_le_one (Real.pi * l)
    have hj1 : 1 / (jc : ℝ) ≤ 1 := by rw [div_le_one (by linarith)]; exact hj
    have hj0 : 0 < 1 / (jc : ℝ) := by positivity
    have hnum : |Real.pi * Real.sin (Real.pi * l) + Real.cos (Real.pi * l) / jc| ≤ Real.pi ^ 2 + 1 / (jc : ℝ) ^ 2 := by
      have t1 : |Real.pi * Real.sin (Real.pi * l)| ≤ Real.pi := by
        rw [abs_mul, abs_of_pos Real.pi_pos]; exact mul_le_of_le_one_right Real.pi_pos.le s1
      have t2 : |Real.cos (Real.pi * l) / jc| ≤ 1 := by
        rw [div_eq_mul_one_div, abs_mul, abs_of_pos hj0]
        have := mul_le_mul s2 hj1 hj0.le (by norm_num)
        linarith
      have t3 : 0 ≤ 1 / (jc : ℝ) ^ 2 := by positivity
      have := abs_add_le (Real.pi * Real.sin (Real.pi * l)) (Real.cos (Real.pi * l) / jc)
      nlinarith
    have hden : 0 < Real.pi ^ 2 + 1 / (jc : ℝ) ^ 2 := by positivity
    rw [abs_mul, abs_mul, abs_of_pos hh, abs_div, abs_of_pos hden]
    have t := (div_le_one hden).mpr hnum
    have := mul_le_mul (mul_le_mul_of_nonneg_right (hamp (by omega)) hh.le) t (by positivity) (by positivity)
    linarith

/-- On the axis an axisymmetric field has no transverse components. -/
theorem axis_zero {E : ℝ → ℝ → ℝ → Vec3} (hE : AxiSym E) (s : ℝ) : (E s 0 0).x = 0 ∧ (E s 0 0).y = 0 := by
  have h := hE s 0 0 (-1) 0 (by norm_num)
  norm_num [rot] at h
  have h1 := congrArg Vec3.x h
  have h2 := congrArg Vec3.y h
  simp only at h1 h2
  constructor <;> linarith

/-- C79: arrays that sample axisymmetric fields give, at every radius of the window, the true fields with an error of first order in the grid step. -/
theorem sampled_axis_near {E B : ℝ → ℝ → ℝ → Vec3} {Mx L d a : ℝ} (hL : 0 ≤ L) (ha : 0 ≤ a) (hE : Tame2 Mx L E) (hB : Tame2 Mx L B) (aE : AxiSym E) (aB : AxiSym B) (e : Env) (M : ℕ) (hM : 1 ≤ M) (hn : e.n = M + 1) (hh : 0 < e.h)
    (hR : e.R < (M + 1 / 2) * e.h) (s : ℝ) (hS : SampledAxis e M (E s) (B s) d a) : FieldsNear e M (E s) (B s) (d + (3 / 2 * L + a) * e.h) := by
  intro ρ h0 h1
  obtain ⟨x, hx⟩ : ∃ x, x = ρ / e.h := ⟨_, rfl⟩
  have hxρ : x * e.h = ρ := by rw [hx]; field_simp
  have hx0 : 0 ≤ x := by rw [hx]; positivity
  have hx1 : x < M + 1 / 2 := by rw [hx, div_lt_iff₀ hh]; linarith
  rw [← hx]
  have lipE : ∀ p q : ℝ, Within (E s p 0) (E s q 0) (L * |p - q|) := fun p q => hE.lipschitz s p 0 q 0 _ le_rfl (by simp)
  have lipB : ∀ p q : ℝ, Within (B s p 0) (B s q 0) (L * |p - q|) := fun p q => hB.lipschitz s p 0 q 0 _ le_rfl (by simp)
  obtain ⟨zE1, zE2⟩ := axis_zero aE s
  obtain ⟨zB1, zB2⟩ := axis_zero aB s
  have ip := fun F => interp_shape M hM x hx0 hx1 F
  have near := fun F u => interp_near M hM e.h hh x hx0 hx1 F u L d hL
  have i1 := (near e.F.Er (fun p => (E s p 0).x) (fun p q => (lipE p q).1) (fun i hi => (hS i hi).1.1)).2 zE1
  have i2 := (near e.F.Ef (fun p => (E s p 0).y) (fun p q => (lipE p q).2.1) (fun i hi => (hS i hi).1.2.1)).2 zE2
  have i3 := (near e.F.Ez (fun p => (E s p 0).z) (fun p q => (lipE p q).2.2) (fun i hi => (hS i hi).1.2.2)).1
  have i4 := (near e.F.Ef (fun p => -(B s p 0).x) (fun p q => by
      have := (lipB p q).1
      rwa [← abs_neg, neg_sub, show (B s q 0).x - (B s p 0).x = -(B s p 0).x - -(B s q 0).x by ring] at this) (fun i hi => by
      have := (hS i hi).2.1.1
      rwa [← abs_neg, neg_sub, show (B s (i * e.h) 0).x - -e.F.Ef i = e.F.Ef i - -(B s (i * e.h) 0).x by ring] at this)).2 (by simp only [zB1, neg_zero])
  have i5 := (near e.F.Bf (fun p => (B s p 0).y) (fun p q => (lipB p q).2.1) (fun i hi => (hS i hi).2.1.2.1)).2 zB2
  have i6 := (near e.F.Bz (fun p => (B s p 0).z) (fun p q => (lipB p q).2.2) (fun i hi => (hS i hi).2.1.2.2)).1
  simp only [(ip _).1, (ip _).2, hxρ] at i1 i2 i3 i4 i5 i6
  have nz := noise_le e.n e.noise ⌊x + 1 / 2⌋₊ (x - ⌊x + 1 / 2⌋₊) e.h a hh ha (fun hlt => (hS _ (by rw [hn] at hlt; omega)).2.2)
  have ah : 0 ≤ a * e.h := by positivity
  have eD : d + (3 / 2 * L + a) * e.h = d + 3 / 2 * L * e.h + a * e.h := by ring
  rw [eD]
  unfold fieldE fieldB Vec.v3
  refine ⟨⟨?_, ?_, ?_⟩, ?_, ?_, ?_⟩
  · simp only
    have := abs_add_le (∑ i ∈ Finset.range (M + 1), e.F.Er i * shape M (-1) i x - (E s ρ 0).x) (interpNoise e.n e.noise ⌊x + 1 / 2⌋₊ (x - ⌊x + 1 / 2⌋₊) e.h)
    rw [show ∀ p q r : ℝ, p + r - q = p - q + r by intros; ring]
    linarith
  · simp only; linarith
  · simp only; linarith
  · simp only
    rw [← abs_neg, show ∀ p q : ℝ, -(-p - q) = p - -q by intros; ring]
    linarith
  · simp only; linarith
  · simp only; linarith

/-! ### The variables of the code -/

/-- C79: what closeness up to a rotation says about the variables the code keeps: the radius, the longitudinal momentum, and the radial and angular momenta. -/
theorem turned_error {s : PState} (hr : 0 ≤ s.r) {x y err : ℝ} {P : Vec3} (h : NearTurned s x y P err) :
    |s.r - Real.sqrt (x ^ 2 + y ^ 2)| ≤ 2 * err ∧ |s.pz - P.z| ≤ err ∧
    |s.r * s.pr - (x * P.x + y * P.y)| ≤ err * (2 * s.r + |P.x| + |P.y|) ∧ |s.r * s.pf - (x * P.y - y * P.x)| ≤ err * (2 * s.r + |P.x| + |P.y|) := by
  obtain ⟨u, v, huv, hx, hp⟩ := h
  obtain ⟨bu, bv⟩ := unit_le huv
  obtain ⟨x1, x2, x3⟩ := hx
  obtain ⟨p1, p2, p3⟩ := hp
  simp only [rot, PState.pos, PState.mom, mul_zero, sub_zero, add_zero] at x1 x2 x3 p1 p2 p3
  have he : 0 ≤ err := le_trans (abs_nonneg _) x1
  have er : Real.sqrt ((u * s.r) ^ 2 + (v * s.r) ^ 2) = s.r := by
    rw [show (u * s.r) ^ 2 + (v * s.r) ^ 2 = s.r ^ 2 by linear_combination s.r ^ 2 * huv, Real.sqrt_sq hr]
  refine ⟨?_, p3, ?_, ?_⟩
  · have a1 := sqrt_near x1 x2
    have a2 := sqrt_near ((abs_sub_comm _ _).trans_le x1) ((abs_sub_comm _ _).trans_le x2)
    rw [er] at a1 a2
    rw [abs_le]; constructor <;> linarith
  · have e : s.r * s.pr - (x * P.x + y * P.y) = u * s.r * (u * s.pr - v * s.pf - P.x) + v * s.r * (v * s.pr + u * s.pf - P.y) + (u * s.r - x) * P.x + (v * s.r - y) * P.y := by linear_combination -(s.r * s.pr) * huv
    rw [e]
    have t1 : |u * s.r * (u * s.pr - v * s.pf - P.x)| ≤ s.r * err := by
      rw [abs_mul, abs_mul, abs_of_nonneg hr]
      have := mul_le_mul (mul_le_mul_of_nonneg_right bu hr) p1 (abs_nonneg _) (by positivity)
      linarith
    have t2 : |v * s.r * (v * s.pr + u * s.pf - P.y)| ≤ s.r * err := by
      rw [abs_mul, abs_mul, abs_of_nonneg hr]
      have := mul_le_mul (mul_le_mul_of_nonneg_right bv hr) p2 (abs_nonneg _) (by positivity)
      linarith
    have t3 : |(u * s.r - x) * P.x| ≤ err * |P.x| := by rw [abs_mul]; exact mul_le_mul_of_nonneg_right x1 (abs_nonneg _)
    have t4 : |(v * s.r - y) * P.y| ≤ err * |P.y| := by rw [abs_mul]; exact mul_le_mul_of_nonneg_right x2 (abs_nonneg _)
    rw [abs_le] at *
    constructor <;> linarith [t1.1, t1.2, t2.1, t2.2, t3.1, t3.2, t4.1, t4.2]
  · have e : s.r * s.pf - (x * P.y - y * P.x) = u * s.r * (v * s.pr + u * s.pf - P.y) - v * s.r * (u * s.pr - v * s.pf - P.x) + (u * s.r - x) * P.y - (v * s.r - y) * P.x := by linear_combination -(s.r * s.pf) * huv
    rw [e]
    have t1 : |u * s.r * (v * s.pr + u * s.pf - P.y)| ≤ s.r * err := by
      rw [abs_mul, abs_mul, abs_of_nonneg hr]
      have := mul_le_mul (mul_le_mul_of_nonneg_right bu hr) p2 (abs_nonneg _) (by positivity)
      linarith
    have t2 : |v * s.r * (u * s.pr - v * s.pf - P.x)| ≤ s.r * err := by
      rw [abs_mul, abs_mul, abs_of_nonneg hr]
      have := mul_le_mul (mul_le_mul_of_nonneg_right bv hr) p1 (abs_nonneg _) (by positivity)
      linarith
    have t3 : |(u * s.r - x) * P.y| ≤ err * |P.y| := by rw [abs_mul]; exact mul_le_mul_of_nonneg_right x1 (abs_nonneg _)
    have t4 : |(v * s.r - y) * P.x| ≤ err * |P.x| := by rw [abs_mul]; exact mul_le_mul_of_nonneg_right x2 (abs_nonneg _)
    rw [abs_le] at *
    constructor <;> linarith [t1.1, t1.2, t2.1, t2.2, t3.1, t3.2, t4.1, t4.2]

/-- C79, summary in the variables of the code, for arrays that sample the true fields: in every run of the substepping loop over `n` layers the radius and the longitudinal momentum are within `C (e0 + d + (1 + a) h + step)` of the true ones. -/
theorem loop_converges {q m M L T W R μ : ℝ} (hq : q ≠ 0) (hm : 0 < m) (hM : 0 ≤ M) (hL : 0 ≤ L) (hT : 0 ≤ T) (hμ : μ ≤ 1 / 2) {E B : ℝ → ℝ → ℝ → Vec3} (hE : Tame2 M L E) (hB : Tame2 M L B) (aE : AxiSym E) (aB : AxiSym B)
    {X Y : ℝ → ℝ} {P : ℝ → Vec3} (hmo : PlasmaMotion q m E B T X Y P) (hst : Stays T W R X Y P) :
    ∃ C h0 : ℝ, 0 < C ∧ 0 < h0 ∧ ∀ (N n : ℕ) (e : ℕ → Env) (age : ℕ → ℝ) (h Rw d a step e0 : ℝ) (S : ℕ → PState), 1 ≤ N → 0 < h → Rw < (N + 1 / 2) * h → (∀ k, (e k).n = N + 1 ∧ (e k).h = h ∧ (e k).R = Rw) → W + 3 * μ ≤ Rw →
      0 ≤ d → 0 ≤ a → 0 < step → step ≤ h0 → n * step ≤ T → 0 ≤ (S 0).r → (S 0).q = q → NearTurned (S 0) (X 0) (Y 0) (P 0) e0 → C * (e0 + d + (1 + a) * h + step) ≤ μ →
      (∀ k < n, S (k + 1) = (moveSubstepped (moveOne (e k) m) h step (S k) (age k)).s ∧ ∀ τ, k * step ≤ τ → τ ≤ (k + 1) * step → SampledAxis (e k) N (E τ) (B τ) d a ∧ 2 * μ < Real.sqrt (X τ ^ 2 + Y τ ^ 2)) →
      ∀ k ≤ n, (S k).q = q ∧ |(S k).r - Real.sqrt (X (k * step) ^ 2 + Y (k * step) ^ 2)| ≤ C * (e0 + d + (1 + a) * h + step) ∧ |(S k).pz - (P (k * step)).z| ≤ C * (e0 + d + (1 + a) * h + step) := by
  obtain ⟨C, h0, hC, hh0, main⟩ := substepped_converges hq hm hM hL hT hμ hE hB aE aB hmo hst
  refine ⟨2 * (C + 1) * (2 + 3 / 2 * L), h0, by positivity, hh0, ?_⟩
  intro N n e age h Rw d a step e0 S hN hh hRw he hW hd ha hs hs0 hnT hr0 hq0 hc0 hsmall hrun
  have he0 : 0 ≤ e0 := by obtain ⟨u, v, -, k, -⟩ := hc0; exact k.nonneg
  obtain ⟨G, hG⟩ : ∃ G, G = e0 + d + (1 + a) * h + step := ⟨_, rfl⟩
  have hG0 : 0 ≤ G := by rw [hG]; positivity
  rw [← hG] at hsmall ⊢
  have key : e0 + (d + (3 / 2 * L + a) * h) + step ≤ (2 + 3 / 2 * L) * G := by
    have : 0 ≤ (1 + 3 / 2 * L) * (e0 + d + step) + 2 * h + (1 + 3 / 2 * L) * (a * h) := by positivity
    rw [hG]; linarith
  have key2 : C * (e0 + (d + (3 / 2 * L + a) * h) + step) ≤ C * ((2 + 3 / 2 * L) * G) := mul_le_mul_of_nonneg_left key hC.le
  have pos2 : 0 ≤ C * ((2 + 3 / 2 * L) * G) := by positivity
  have pos1 : 0 ≤ (2 + 3 / 2 * L) * G := by positivity
  have hdel : d + (3 / 2 * L + a) * h ≤ 1 / 2 := by
    have : 0 ≤ e0 + step := by positivity
    linarith
  have lay : Layers m E B X Y μ Rw (d + (3 / 2 * L + a) * h) step n S := by
    refine ⟨hr0, fun k hk => ?_⟩
    obtain ⟨h1, h2⟩ := hrun k hk
    obtain ⟨g1, g2, g3⟩ := he k
    refine ⟨e k, N, age k, hN, g1, by rw [g2]; exact hh, by rw [g2, g3]; exact hRw, by rw [g3], by rw [g2]; exact h1, fun τ t1 t2 => ?_, Or.inr (Or.inl fun τ t1 t2 => (h2 τ t1 t2).2)⟩
    have := sampled_axis_near hL ha hE hB aE aB (e k) N hN g1 (by rw [g2]; exact hh) (by rw [g2, g3]; exact hRw) τ (h2 τ t1 t2).1
    rwa [g2] at this
  intro k hk
  obtain ⟨f1, f2, -, f4⟩ := main Rw (d + (3 / 2 * L + a) * h) step e0 n S hW (by positivity) hdel hs hs0 hnT hq0 hc0 (by linarith) lay k hk
  obtain ⟨v1, v2, -⟩ := turned_error f2 f4
  exact ⟨f1, by linarith, by linarith⟩

/-! ### A particle on a helix that goes around the axis -/

/-- Arrays of a uniform magnetic field of strength 1 along z. -/
def unitBz : Flds := ⟨fun _ => 0, fun _ => 0, fun _ => 0, fun _ => 0, fun _ => 1⟩

theorem uniform_axi : AxiSym noE2 ∧ AxiSym oneB2 := by
  constructor <;> intro s x y u v _ <;> simp [noE2, oneB2, rot]

/-- The circle of radius 1 around the point (3, -1). -/
theorem hel3_motion (T : ℝ) : PlasmaMotion 1 1 noE2 oneB2 T (fun s => 3 + Real.sin s) (fun s => Real.cos s - 1) helP where
  dx := fun s _ _ => by
    beta_reduce; rw [hel_energy]
    exact ((Real.hasDerivAt_sin s).const_add 3).congr_deriv (by simp only [helP]; ring)
  dy := fun s _ _ => by
    beta_reduce; rw [hel_energy]
    exact ((Real.hasDerivAt_cos s).sub_const 1).congr_deriv (by simp only [helP]; ring)
  dpx := fun s _ _ => by
    simp only [hel_force]; exact Real.hasDerivAt_cos s
  dpy := fun s _ _ => by
    simp only [hel_force]; exact (Real.hasDerivAt_sin s).neg
  dpz := fun s _ _ => by
    simp only [hel_force]; exact hasDerivAt_const _ _

theorem hel3_stays (T : ℝ) : Stays T 5 1 (fun s => 3 + Real.sin s) (fun s => Real.cos s - 1) helP := by
  intro s _ _
  have a := Real.sin_sq_add_cos_sq s
  have b := abs_le.mp (Real.abs_sin_le_one s)
  have c := abs_le.mp (Real.abs_cos_le_one s)
  refine ⟨?_, Real.abs_cos_le_one s, by show |-Real.sin s| ≤ 1; rw [abs_neg]; exact Real.abs_sin_le_one s, by show |(1 / 2 : ℝ)| ≤ 1; norm_num⟩
  rw [Real.sqrt_le_left (by norm_num)]
  nlinarith

/-- C79, a concrete case: in a uniform magnetic field, on every grid at least 7 wide and for every number of layers, the particle that starts at radius 3 with momentum (1, 0, 1/2) follows its circle through the plane with an error of first order in the layer thickness, whatever substeps the loop chooses. -/
theorem circle_converges : ∃ C h0 : ℝ, 0 < C ∧ 0 < h0 ∧ ∀ (N n : ℕ) (e : Env) (age : ℕ → ℝ) (step : ℝ) (S : ℕ → PState), 1 ≤ N → 0 < e.h → e.n = N + 1 → 7 ≤ e.R → e.R < (N + 1 / 2) * e.h → e.F = unitBz → (∀ i, e.noise i = 0) →
    0 < step → step ≤ h0 → n * step ≤ 10 → S 0 = ⟨3, 1, 0, 1 / 2, 1⟩ → (∀ k < n, S (k + 1) = (moveSubstepped (moveOne e 1) e.h step (S k) (age k)).s) →
    (S n).q = 1 ∧ |(S n).r - Real.sqrt ((3 + Real.sin (n * step)) ^ 2 + (Real.cos (n * step) - 1) ^ 2)| ≤ C * step ∧ |(S n).pz - 1 / 2| ≤ C * step := by
  obtain ⟨C, h0, hC, hh0, main⟩ := substepped_converges (q := 1) (m := 1) (M := 1) (L := 0) (T := 10) (W := 5) (R := 1) (μ := 2 / 5) (by norm_num) (by norm_num) (by norm_num) le_rfl (by norm_num) (by norm_num)
    hel_tame.1 hel_tame.2 uniform_axi.1 uniform_axi.2 (hel3_motion 10) (hel3_stays 10)
  refine ⟨2 * C, min h0 (2 / 5 / C), by positivity, by positivity, ?_⟩
  intro N n e age step S hN hh hn hR7 hRN hF hnz hs hs0 hnT hS0 hrun
  have k1 : step ≤ h0 := hs0.trans (min_le_left _ _)
  have k2 : C * step ≤ 2 / 5 := by
    have := hs0.trans (min_le_right _ _)
    rw [le_div_iff₀ hC] at this; linarith
  have e0 : C * (0 + 0 + step) = C * step := by ring
  have lay : Layers 1 noE2 oneB2 (fun s => 3 + Real.sin s) (fun s => Real.cos s - 1) (2 / 5) e.R 0 step n S := by
    refine ⟨by rw [hS0]; norm_num, fun k hk => ⟨e, N, age k, hN, hn, hh, hRN, le_rfl, hrun k hk, fun τ _ _ => ?_, Or.inr (Or.inl fun τ _ _ => ?_)⟩⟩
    · have := sampled_axis_near (d := 0) (a := 0) le_rfl le_rfl hel_tame.1 hel_tame.2 uniform_axi.1 uniform_axi.2 e N hN hn hh hRN τ (fun i _ => by
        rw [hF, hnz]
        simp [unitBz, Within, noE2, oneB2])
      have z : (0 : ℝ) + (3 / 2 * 0 + 0) * e.h = 0 := by ring
      rwa [z] at this
    · apply Real.lt_sqrt_of_sq_lt
      have b := abs_le.mp (Real.abs_sin_le_one τ)
      nlinarith [sq_nonneg (Real.cos τ - 1)]
  have fin := main e.R 0 step 0 n S (by linarith) le_rfl (by norm_num) hs k1 hnT (by rw [hS0]) ⟨1, 0, by norm_num, by rw [hS0]; simp [rot, PState.pos, Within], by rw [hS0]; simp [rot, PState.mom, Within, helP]⟩ (by rw [e0]; exact k2) lay n le_rfl
  obtain ⟨f1, f2, -, f4⟩ := fin
  rw [e0] at f4
  obtain ⟨v1, v2, -⟩ := turned_error f2 f4
  have p0 : 0 ≤ C * step := by positivity
  refine ⟨f1, by linarith, ?_⟩
  have : (helP (n * step)).z = 1 / 2 := rfl
  rw [this] at v2
  linarith

/-! ### A particle that flies through the axis -/

def noFields : Flds := ⟨fun _ => 0, fun _ => 0, fun _ => 0, fun _ => 0, fun _ => 0⟩

theorem fly_motion (T : ℝ) : PlasmaMotion 1 1 noE2 noE2 T (fun s => 1 - 3 / 5 * s) (fun _ => 0) (fun _ => ⟨-3 / 4, 0, 0⟩) := by
  have hg : (⟨-3 / 4, 0, 0⟩ : Vec3).energy 1 = 5 / 4 := by
    unfold Vec3.energy
    rw [show (1 : ℝ) ^ 2 + (-3 / 4) ^ 2 + 0 ^ 2 + 0 ^ 2 = (5 / 4) ^ 2 by norm_num]
    exact Real.sqrt_sq (by norm_num)
  have hl : ∀ s x y, lorentz3 1 1 1 (noE2 s x y) (noE2 s x y) ⟨-3 / 4, 0, 0⟩ = ⟨0, 0, 0⟩ := by
    intro s x y; simp [lorentz3, noE2]
  refine ⟨fun s _ _ => ?_, fun s _ _ => ?_, fun s _ _ => ?_, fun s _ _ => ?_, fun s _ _ => ?_⟩
  · beta_reduce
    rw [hg]
    exact (((hasDerivAt_id s).const_mul (3 / 5)).const_sub 1).congr_deriv (by norm_num)
  · simpa using hasDerivAt_const s (0 : ℝ)
  · simp only [hl]; exact hasDerivAt_const _ _
  · simp only [hl]; exact hasDerivAt_const _ _
  · simp only [hl]; exact hasDerivAt_const _ _

/-- The azimuthal momentum of a particle that nothing turns stays zero in the whole loop. -/
theorem loop_unturned (e : Env) (M : ℕ) (hM : 1 ≤ M) (hn : e.n = M + 1) (hh : 0 < e.h) (hR : e.R < (M + 1 / 2) * e.h) (hR0 : 0 ≤ e.R) (m : ℝ) (hm : 0 < m) (h0 : ∀ i, e.F.Ef i = 0 ∧ e.F.Bz i = 0) (step : ℝ) (hs : 0 < step) (s : PState) (age : ℝ)
    (hf : s.pf = 0) : (moveSubstepped (moveOne e m) e.h step s age).s.pf = 0 := by
  obtain ⟨xs, c1, -⟩ := substeps_cover (moveOne e m) e.h step hs s age
  have c1' := congrArg Prod.fst c1
  simp only at c1'
  rw [← c1']
  clear c1 c1'
  induction xs generalizing s age with
  | nil => exact hf
  | cons x xs ih => exact ih _ _ (push_unturned e M hM hn hh hR hR0 m hm s x hf h0)

/-- C79, a second concrete case: a particle without fields that starts at radius 1 with radial momentum -3/4 flies through the axis and comes out on the other side: its radius is `|1 - 3/5 s|` up to the first order of the layer thickness, on every grid and for every number of layers. -/
theorem through_axis_converges : ∃ C h0 : ℝ, 0 < C ∧ 0 < h0 ∧ ∀ (N n : ℕ) (e : Env) (age : ℕ → ℝ) (step : ℝ) (S : ℕ → PState), 1 ≤ N → 0 < e.h → e.n = N + 1 → 3 ≤ e.R → e.R < (N + 1 / 2) * e.h → e.F = noFields → (∀ i, e.noise i = 0) →
    0 < step → step ≤ h0 → n * step ≤ 3 → S 0 = ⟨1, -3 / 4, 0, 0, 1⟩ → (∀ k < n, S (k + 1) = (moveSubstepped (moveOne e 1) e.h step (S k) (age k)).s) →
    (S n).q = 1 ∧ |(S n).r - abs (1 - 3 / 5 * (n * step))| ≤ C * step := by
  have tame := hel_tame.1
  have axi := uniform_axi.1
  have stays : Stays 3 1 1 (fun s => 1 - 3 / 5 * s) (fun _ => 0) (fun _ => ⟨-3 / 4, 0, 0⟩) := by
    intro s h0 h3
    refine ⟨?_, by norm_num [Upto, abs_le]⟩
    rw [Real.sqrt_le_left (by norm_num)]
    beta_reduce
    nlinarith
  obtain ⟨C, h0, hC, hh0, main⟩ := substepped_converges (q := 1) (m := 1) (M := 1) (L := 0) (T := 3) (W := 1) (R := 1) (μ := 2 / 5) (by norm_num) (by norm_num) (by norm_num) le_rfl (by norm_num) (by norm_num)
    tame tame axi axi (fly_motion 3) stays
  refine ⟨2 * C, min h0 (2 / 5 / C), by positivity, by positivity, ?_⟩
  intro N n e age step S hN hh hn hR7 hRN hF hnz hs hs0 hnT hS0 hrun
  have k1 : step ≤ h0 := hs0.trans (min_le_left _ _)
  have k2 : C * step ≤ 2 / 5 := by
    have := hs0.trans (min_le_right _ _)
    rw [le_div_iff₀ hC] at this; linarith
  have e0 : C * (0 + 0 + step) = C * step := by ring
  have quiet : ∀ i, e.F.Ef i = 0 ∧ e.F.Bz i = 0 := fun i => by rw [hF]; exact ⟨rfl, rfl⟩
  have unturned : ∀ k ≤ n, (S k).pf = 0 := by
    intro k
    induction k with
    | zero => intro _; rw [hS0]
    | succ k ih =>
      intro hk
      rw [hrun k hk]
      exact loop_unturned e N hN hn hh hRN (by linarith) 1 one_pos quiet step hs (S k) (age k) (ih (by omega))
  have lay : Layers 1 noE2 noE2 (fun s => 1 - 3 / 5 * s) (fun _ => 0) (2 / 5) e.R 0 step n S := by
    refine ⟨by rw [hS0]; norm_num, fun k hk => ⟨e, N, age k, hN, hn, hh, hRN, le_rfl, hrun k hk, fun τ _ _ => ?_, Or.inl ⟨unturned k hk.le, quiet⟩⟩⟩
    have := sampled_axis_near (d := 0) (a := 0) le_rfl le_rfl tame tame axi axi e N hN hn hh hRN τ (fun i _ => by
      rw [hF, hnz]
      simp [noFields, Within, noE2])
    have z : (0 : ℝ) + (3 / 2 * 0 + 0) * e.h = 0 := by ring
    rwa [z] at this
  have fin := main e.R 0 step 0 n S (by linarith) le_rfl (by norm_num) hs k1 hnT (by rw [hS0]) ⟨1, 0, by norm_num, by rw [hS0]; simp [rot, PState.pos, Within], by rw [hS0]; simp [rot, PState.mom, Within]⟩ (by rw [e0]; exact k2) lay n le_rfl
  obtain ⟨f1, f2, -, f4⟩ := fin
  rw [e0] at f4
  obtain ⟨v1, -⟩ := turned_error f2 f4
  refine ⟨f1, ?_⟩
  have er : Real.sqrt ((1 - 3 / 5 * (n * step)) ^ 2 + 0 ^ 2) = |1 - 3 / 5 * (n * step)| := by rw [zero_pow two_ne_zero, add_zero, Real.sqrt_sq_eq_abs]
  beta_reduce at v1
  rw [er] at v1
  linarith

end Lcode.Plasma2D
