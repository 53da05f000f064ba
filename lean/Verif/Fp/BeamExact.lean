import Verif.Fp.BeamCharge

/-!
C70: the 2D beam density in doubles and in the exact arithmetic of C08, node by node; sign; order of the particles.
-/

namespace Lcode.Fp

open Finset Lcode.Beam2D

/-- A particle of the exact model with these floats. -/
noncomputable def PF.real (p : PF) : Particle ℝ := ⟨p.xi, p.r, 0, 0, 0, 0, p.q, 0⟩

theorem cloud_cast (x : ℚ) : ((cloud x : ℚ) : ℝ) = hat x := by
  unfold cloud hat; push_cast; rfl

/-- Specification: the charge of node `k` in exact arithmetic. -/
def exactNode (h s : ℚ) (rho : ℤ → ℚ) (ps : List PF) (i : ℕ) (k : ℤ) : ℚ := rho k + (ps.map fun p => p.q * (cloud (p.r / h - k) * depth s i p)).sum

/-- Specification: the charge handed on at node `k` in exact arithmetic. -/
def exactNext (h s : ℚ) (ps : List PF) (i : ℕ) (k : ℤ) : ℚ := (ps.map fun p => p.q * (cloud (p.r / h - k) * (1 - depth s i p))).sum

theorem exact_is_model (h s : ℚ) (hh : 0 < h) (rho : ℤ → ℚ) (ps : List PF) (i : ℕ) (k : ℕ) :
    nodeVolume h k * (layoutBeamLayer (h : ℝ) s (fun j => (rho j : ℝ)) (ps.map PF.real) i).1 k = exactNode h s rho ps i k ∧
    (layoutBeamLayer (h : ℝ) s (fun j => (rho j : ℝ)) (ps.map PF.real) i).2 k = exactNext h s ps i k := by
  have hr : (0 : ℝ) < h := by exact_mod_cast hh
  obtain ⟨d1, d2⟩ := deposit_pointwise (ps.map PF.real) (fun j => (rho j : ℝ)) (fun _ => 0) (((i : ℝ) + 1) * -(s : ℝ)) h s k
  have e1 : nodeVolume h k * (layoutBeamLayer (h : ℝ) s (fun j => (rho j : ℝ)) (ps.map PF.real) i).1 k =
      (depositParticles (ps.map PF.real) (fun j => (rho j : ℝ)) (fun _ => 0) (((i : ℝ) + 1) * -(s : ℝ)) h s).1 k := by
    unfold layoutBeamLayer nodeVolume
    by_cases hi : k = 0
    · subst hi; simp; field_simp
    · have h1 : ((k : ℤ) ≥ 1) := by omega
      have h2 : ¬ ((k : ℤ) = 0) := by omega
      have h3 : (k : ℝ) ≠ 0 := by exact_mod_cast hi
      simp only [hi, h1, h2, if_true, if_false]
      push_cast
      field_simp
  have e2 : (layoutBeamLayer (h : ℝ) s (fun j => (rho j : ℝ)) (ps.map PF.real) i).2 k =
      (depositParticles (ps.map PF.real) (fun j => (rho j : ℝ)) (fun _ => 0) (((i : ℝ) + 1) * -(s : ℝ)) h s).2 k := rfl
  rw [e1, e2, d1, d2]
  have c : ∀ p : PF, ((depth s i p : ℚ) : ℝ) = ((p.xi : ℝ) - ((i : ℝ) + 1) * -(s : ℝ)) / s := by
    intro p; unfold depth; push_cast; ring
  unfold exactNode exactNext
  push_cast
  simp only [List.map_map, Function.comp_def, zero_add]
  constructor
  · congr 2
    apply List.map_congr_left
    intro p _
    simp only [PF.real]
    push_cast
    rw [cloud_cast, c]
    push_cast
    ring
  · congr 1
    apply List.map_congr_left
    intro p _
    simp only [PF.real]
    push_cast
    rw [cloud_cast, c]
    push_cast
    ring

/-- How far the weights of one particle are off. -/
theorem weight_close {h s M : ℚ} (hh : 0 < h) (hs : 0 < s) {i : ℕ} (hi : i < 2 ^ 40) {p : PF} (hp : InSlab s i p) (h0 : 0 ≤ p.r) (hM : p.r ≤ M * h) (k : ℤ) :
    |cloud (cellF h p - k) * dxiF (xiEndF s i) s p - cloud (p.r / h - k) * depth s i p| ≤ u * (2 * M + i + 6) ∧
    |cloud (cellF h p - k) * (1 - dxiF (xiEndF s i) s p) - cloud (p.r / h - k) * (1 - depth s i p)| ≤ u * (2 * M + i + 6) := by
  have h1 := dxi_close hs hi hp
  obtain ⟨h2, h2', -⟩ := dxi_bound hs hi hp
  have h3 := cloud_lip (cellF h p - k) (p.r / h - k)
  rw [sub_sub_sub_cancel_right] at h3
  have h4 : |cellF h p - p.r / h| ≤ u * M := by
    refine (fl_abs_err _).trans (mul_le_mul_of_nonneg_left ?_ u_pos.le)
    rw [abs_of_nonneg (div_nonneg h0 hh.le), div_le_iff₀ hh]; exact hM
  have h5 := cloud_nonneg (p.r / h - k)
  have h6 := cloud_le (p.r / h - k)
  have h7 : u * (2 * M + i + 6) = u * M * 2 + u * (i + 6) := by ring
  change |dxiF (xiEndF s i) s p - depth s i p| ≤ u * (i + 6) at h1
  rw [h7]
  generalize dxiF (xiEndF s i) s p = d at *
  generalize depth s i p = D at *
  generalize cloud (cellF h p - k) = c at *
  generalize cloud (p.r / h - k) = C at *
  have g1 : |c - C| ≤ u * M := h3.trans h4
  have step : ∀ x y : ℚ, |x| ≤ 2 → |x - y| ≤ u * (i + 6) → |c * x - C * y| ≤ u * M * 2 + u * (i + 6) := by
    intro x y hx hxy
    rw [show c * x - C * y = (c - C) * x + C * (x - y) by ring]
    refine (abs_add_le _ _).trans ?_
    rw [abs_mul, abs_mul, abs_of_nonneg h5]
    have k1 : |c - C| * |x| ≤ u * M * 2 := mul_le_mul g1 hx (abs_nonneg _) ((abs_nonneg _).trans g1)
    have k2 : C * |x - y| ≤ 1 * (u * (i + 6)) := mul_le_mul h6 hxy (abs_nonneg _) zero_le_one
    linarith
  refine ⟨step d D h2 h1, step (1 - d) (1 - D) h2' ?_⟩
  rw [show 1 - d - (1 - D) = -(d - D) by ring, abs_neg]
  exact h1

theorem sum_close (ps : List PF) (f g : PF → ℚ) (B : ℚ) (h : ∀ p ∈ ps, |f p - g p| ≤ B) :
    |(ps.map fun p => p.q * f p).sum - (ps.map fun p => p.q * g p).sum| ≤ B * absCharge ps := by
  induction ps with
  | nil => simp [absCharge]
  | cons p ps ih =>
    have h1 := ih (fun q hq => h q (List.mem_cons_of_mem _ hq))
    have h2 := h p List.mem_cons_self
    simp only [absCharge, List.map_cons, List.sum_cons] at h1 ⊢
    generalize (ps.map fun p => p.q * f p).sum = F at *
    generalize (ps.map fun p => p.q * g p).sum = G at *
    rw [show p.q * f p + F - (p.q * g p + G) = p.q * (f p - g p) + (F - G) by ring]
    refine (abs_add_le _ _).trans ?_
    rw [abs_mul]
    have := mul_le_mul_of_nonneg_left h2 (abs_nonneg p.q)
    linarith

theorem absSum_two (ps : List PF) (c d : PF → ℚ) (hc : ∀ p ∈ ps, 0 ≤ c p ∧ c p ≤ 1) (hd : ∀ p ∈ ps, |d p| ≤ 2) : absSum (ps.map fun p => p.q * (c p * d p)) ≤ 2 * absCharge ps := by
  unfold absSum
  rw [List.map_map, ← list_scale]
  apply list_le
  intro p hp
  simp only [Function.comp]
  rw [abs_mul, abs_mul, abs_of_nonneg (hc p hp).1]
  have h1 : c p * |d p| ≤ 1 * 2 := mul_le_mul (hc p hp).2 (hd p hp) (abs_nonneg _) zero_le_one
  have := mul_le_mul_of_nonneg_left h1 (abs_nonneg p.q)
  linarith

/-- C70: on every node the density computed in doubles stands for the charge of exact arithmetic (C08), and what is handed on as well. `M` is the largest number of cells between axis and particle. -/
theorem layout_close (h s M : ℚ) (hh : 0 < h) (hs : 0 < s) (i : ℕ) (hi : i < 2 ^ 40) (rho : ℤ → ℚ) (ps : List PF)
    (hr : ∀ p ∈ ps, 0 ≤ p.r ∧ p.r ≤ M * h) (hx : ∀ p ∈ ps, InSlab s i p) (k : ℕ) :
    |volume h k * (layoutF h s rho ps i).1 k - exactNode h s rho ps i k| ≤ gam (ps.length + 8) * (|rho k| + 2 * absCharge ps) + u * (2 * M + i + 6) * absCharge ps ∧
    |(layoutF h s rho ps i).2 k - exactNext h s ps i k| ≤ gam (ps.length + 4) * (2 * absCharge ps) + u * (2 * M + i + 6) * absCharge ps := by
  obtain ⟨d1, d2⟩ := deposit_doubles ps rho (fun _ => 0) (xiEndF s i) h s hh (fun p hp => (hr p hp).1) k
  have hv := density_doubles h s hh rho ps i k
  have c1 := sum_close ps (fun p => cloud (cellF h p - ((k : ℤ) : ℚ)) * dxiF (xiEndF s i) s p) (fun p => cloud (p.r / h - ((k : ℤ) : ℚ)) * depth s i p) (u * (2 * M + i + 6))
    (fun p hp => (weight_close hh hs hi (hx p hp) (hr p hp).1 (hr p hp).2 k).1)
  have c2 := sum_close ps (fun p => cloud (cellF h p - ((k : ℤ) : ℚ)) * (1 - dxiF (xiEndF s i) s p)) (fun p => cloud (p.r / h - ((k : ℤ) : ℚ)) * (1 - depth s i p)) (u * (2 * M + i + 6))
    (fun p hp => (weight_close hh hs hi (hx p hp) (hr p hp).1 (hr p hp).2 k).2)
  have a1 := absSum_two ps (fun p => cloud (cellF h p - ((k : ℤ) : ℚ))) (fun p => dxiF (xiEndF s i) s p) (fun p _ => ⟨cloud_nonneg _, cloud_le _⟩) (fun p hp => (dxi_bound hs hi (hx p hp)).1)
  have a2 := absSum_two ps (fun p => cloud (cellF h p - ((k : ℤ) : ℚ))) (fun p => 1 - dxiF (xiEndF s i) s p) (fun p _ => ⟨cloud_nonneg _, cloud_le _⟩) (fun p hp => (dxi_bound hs hi (hx p hp)).2.1)
  have e2 : (layoutF h s rho ps i).2 = (depositF ps rho (fun _ => 0) (xiEndF s i) h s).2 := rfl
  unfold exactNode exactNext
  rw [e2]
  have g4 := gam_nonneg 4
  have gl := gam_nonneg (ps.length + 4)
  have h7 : gam (ps.length + 8) = gam (ps.length + 4) + gam 4 * (1 + gam (ps.length + 4)) := by
    have := gam_add (ps.length + 4) 4
    rw [show ps.length + 8 = ps.length + 4 + 4 by ring]
    linarith [(by ring : (1 + gam (ps.length + 4)) * (1 + gam 4) = 1 + gam (ps.length + 4) + gam 4 * (1 + gam (ps.length + 4)))]
  beta_reduce at d2 c1 c2 a1 a2
  have b1 := abs_sum_le (ps.map fun p => p.q * (cloud (cellF h p - ((k : ℤ) : ℚ)) * dxiF (xiEndF s i) s p))
  generalize absSum (ps.map fun p => p.q * (cloud (cellF h p - ((k : ℤ) : ℚ)) * dxiF (xiEndF s i) s p)) = S1 at *
  generalize absSum (ps.map fun p => p.q * (cloud (cellF h p - ((k : ℤ) : ℚ)) * (1 - dxiF (xiEndF s i) s p))) = S2 at *
  generalize (ps.map fun p => p.q * (cloud (cellF h p - ((k : ℤ) : ℚ)) * dxiF (xiEndF s i) s p)).sum = T1 at *
  generalize (ps.map fun p => p.q * (cloud (cellF h p - ((k : ℤ) : ℚ)) * (1 - dxiF (xiEndF s i) s p))).sum = T2 at *
  generalize (ps.map fun p => p.q * (cloud (p.r / h - ((k : ℤ) : ℚ)) * depth s i p)).sum = E1 at *
  generalize (ps.map fun p => p.q * (cloud (p.r / h - ((k : ℤ) : ℚ)) * (1 - depth s i p))).sum = E2 at *
  generalize (depositF ps rho (fun _ => 0) (xiEndF s i) h s).1 (k : ℤ) = A at *
  generalize (depositF ps rho (fun _ => 0) (xiEndF s i) h s).2 (k : ℤ) = B at *
  generalize volume h k * (layoutF h s rho ps i).1 k = D at *
  generalize u * (2 * M + i + 6) * absCharge ps = W at *
  generalize absCharge ps = Q at *
  constructor
  · have m1 : |A| ≤ (1 + gam (ps.length + 4)) * (|rho k| + S1) := by
      have g3 := abs_add_le (A - (rho k + T1)) (rho k + T1)
      rw [sub_add_cancel] at g3
      have := abs_add_le (rho k) T1
      linarith
    have m2 := mul_le_mul_of_nonneg_left m1 g4
    have m3 := abs_sub_le D A (rho k + E1)
    have m4 := abs_sub_le A (rho k + T1) (rho k + E1)
    rw [add_sub_add_left_eq_sub] at m4
    have m5 : (gam (ps.length + 4) + gam 4 * (1 + gam (ps.length + 4))) * (|rho k| + S1) ≤ (gam (ps.length + 4) + gam 4 * (1 + gam (ps.length + 4))) * (|rho k| + 2 * Q) :=
      mul_le_mul_of_nonneg_left (by linarith) (add_nonneg gl (mul_nonneg g4 (by linarith)))
    rw [h7]
    linarith [(by ring : (gam (ps.length + 4) + gam 4 * (1 + gam (ps.length + 4))) * (|rho k| + S1) = gam (ps.length + 4) * (|rho k| + S1) + gam 4 * ((1 + gam (ps.length + 4)) * (|rho k| + S1)))]
  · rw [abs_zero, zero_add, zero_add] at d2
    have m3 := abs_sub_le B T2 E2
    have m5 := mul_le_mul_of_nonneg_left a2 gl
    linarith

/-! ### Sign -/

theorem addAtF_nonneg (out : ℤ → ℚ) (l : List (ℤ × ℚ)) (ho : ∀ k, 0 ≤ out k) (hl : ∀ t ∈ l, 0 ≤ t.2) (k : ℤ) : 0 ≤ addAtF out l k := by
  rw [addAtF_apply]
  apply sumF_nonneg _ _ (ho k)
  intro x hx
  obtain ⟨t, ht, rfl⟩ := List.mem_map.mp hx
  exact hl t (List.mem_filter.mp ht).1

/-- C70: charges of one sign, at computed depths between 0 and 1, give a density of that sign, exactly. -/
theorem density_sign (h s : ℚ) (hh : 0 < h) (i : ℕ) (rho : ℤ → ℚ) (ps : List PF) (hρ : ∀ k, 0 ≤ rho k)
    (hp : ∀ p ∈ ps, 0 ≤ p.r ∧ 0 ≤ p.q ∧ 0 ≤ dxiF (xiEndF s i) s p ∧ dxiF (xiEndF s i) s p ≤ 1) (k : ℤ) :
    0 ≤ (layoutF h s rho ps i).1 k ∧ 0 ≤ (layoutF h s rho ps i).2 k := by
  have hw : ∀ p ∈ ps, 0 ≤ (weightsF p (xiEndF s i) h s).2.1 ∧ 0 ≤ (weightsF p (xiEndF s i) h s).2.2.1 ∧ 0 ≤ (weightsF p (xiEndF s i) h s).2.2.2.1 ∧ 0 ≤ (weightsF p (xiEndF s i) h s).2.2.2.2 := by
    intro p hpp
    obtain ⟨h1, h2, h3, h4⟩ := hp p hpp
    have g0 := Int.floor_le (cellF h p)
    have g1 := Int.lt_floor_add_one (cellF h p)
    have e := dr_exact hh h1
    have a : 0 ≤ fl (1 - dxiF (xiEndF s i) s p) := fl_nonneg (by linarith)
    have b : 0 ≤ fl (1 - fl (cellF h p - ⌊cellF h p⌋)) := fl_nonneg (by rw [e]; linarith)
    have c : 0 ≤ fl (cellF h p - ⌊cellF h p⌋) := by rw [e]; linarith
    exact ⟨fl_nonneg (mul_nonneg h3 b), fl_nonneg (mul_nonneg h3 c), fl_nonneg (mul_nonneg a b), fl_nonneg (mul_nonneg a c)⟩
  have hd : ∀ k, 0 ≤ (depositF ps rho (fun _ => 0) (xiEndF s i) h s).1 k ∧ 0 ≤ (depositF ps rho (fun _ => 0) (xiEndF s i) h s).2 k := by
    intro k
    unfold depositF
    simp only [List.map_map, Function.comp_def]
    constructor
    · apply addAtF_nonneg
      · intro k; apply addAtF_nonneg _ _ hρ
        intro t ht
        obtain ⟨p, hpp, rfl⟩ := List.mem_map.mp ht
        exact fl_nonneg (mul_nonneg (hw p hpp).1 (hp p hpp).2.1)
      · intro t ht
        obtain ⟨p, hpp, rfl⟩ := List.mem_map.mp ht
        exact fl_nonneg (mul_nonneg (hw p hpp).2.1 (hp p hpp).2.1)
    · apply addAtF_nonneg
      · intro k; apply addAtF_nonneg _ _ (fun _ => le_refl _)
        intro t ht
        obtain ⟨p, hpp, rfl⟩ := List.mem_map.mp ht
        exact fl_nonneg (mul_nonneg (hw p hpp).2.2.1 (hp p hpp).2.1)
      · intro t ht
        obtain ⟨p, hpp, rfl⟩ := List.mem_map.mp ht
        exact fl_nonneg (mul_nonneg (hw p hpp).2.2.2 (hp p hpp).2.1)
  refine ⟨?_, (hd k).2⟩
  have h1 : 0 ≤ fl ((depositF ps rho (fun _ => 0) (xiEndF s i) h s).1 k / fl (h * h)) := fl_nonneg (div_nonneg (hd k).1 (fl_nonneg (mul_nonneg hh.le hh.le)))
  unfold layoutF
  simp only
  by_cases hk : k = 0
  · have g : ¬ ((0 : ℤ) ≥ 1) := by norm_num
    subst hk
    simp only [g, if_false, if_true]
    exact fl_nonneg (by linarith)
  · by_cases hk1 : k ≥ 1
    · simp only [hk, hk1, if_true, if_false]
      have : (0 : ℚ) ≤ k := by exact_mod_cast (by omega : 0 ≤ k)
      exact fl_nonneg (div_nonneg h1 this)
    · simp only [hk, hk1, if_false]
      exact h1

/-- But a particle that the code assigns to layer 6 with the usual `xi-step = 0.01` can have a computed depth above 1: a beam of positive charge hands a negative density (2e-16 of the charge) on to the next layer. -/
theorem tiny_negative : Between (border (fl (1 / 100))) 6 (-(8646911284551353 / 2 ^ 57)) ∧
    ∃ k, (layoutF (fl (1 / 20)) (fl (1 / 100)) (fun _ => 0) [⟨0, -(8646911284551353 / 2 ^ 57), 1⟩] 6).2 k < 0 := by
  refine ⟨?_, 0, ?_⟩
  · unfold Between; decide +kernel
  · decide +kernel

/-! ### Order -/

theorem totals_perm {ps ps' : List PF} (h : ps.Perm ps') : absCharge ps = absCharge ps' ∧ ps.length = ps'.length := ⟨(h.map _).sum_eq, h.length_eq⟩

/-- C70: particles of a layer in another order (after sorting, or received in another order) give the same charge at every node up to twice the rounding. -/
theorem order_close (h s : ℚ) (hh : 0 < h) (hs : 0 < s) (i : ℕ) (hi : i < 2 ^ 40) (rho : ℤ → ℚ) (ps ps' : List PF) (hp : ps.Perm ps')
    (hr : ∀ p ∈ ps, 0 ≤ p.r) (hx : ∀ p ∈ ps, InSlab s i p) (k : ℕ) :
    |(depositF ps rho (fun _ => 0) (xiEndF s i) h s).1 k - (depositF ps' rho (fun _ => 0) (xiEndF s i) h s).1 k| ≤ 2 * gam (ps.length + 4) * (|rho k| + 2 * absCharge ps) ∧
    |(depositF ps rho (fun _ => 0) (xiEndF s i) h s).2 k - (depositF ps' rho (fun _ => 0) (xiEndF s i) h s).2 k| ≤ 2 * gam (ps.length + 4) * (2 * absCharge ps) := by
  have hr' : ∀ p ∈ ps', 0 ≤ p.r := fun p hpp => hr p (hp.mem_iff.mpr hpp)
  obtain ⟨d1, d2⟩ := deposit_doubles ps rho (fun _ => 0) (xiEndF s i) h s hh hr k
  obtain ⟨f1, f2⟩ := deposit_doubles ps' rho (fun _ => 0) (xiEndF s i) h s hh hr' k
  have a1 := absSum_two ps (fun p => cloud (cellF h p - ((k : ℤ) : ℚ))) (fun p => dxiF (xiEndF s i) s p) (fun p _ => ⟨cloud_nonneg _, cloud_le _⟩) (fun p hp => (dxi_bound hs hi (hx p hp)).1)
  have a2 := absSum_two ps (fun p => cloud (cellF h p - ((k : ℤ) : ℚ))) (fun p => 1 - dxiF (xiEndF s i) s p) (fun p _ => ⟨cloud_nonneg _, cloud_le _⟩) (fun p hp => (dxi_bound hs hi (hx p hp)).2.1)
  beta_reduce at d2 f2 a1 a2
  have q1 : (ps.map fun p => p.q * (cloud (cellF h p - ((k : ℤ) : ℚ)) * dxiF (xiEndF s i) s p)).Perm (ps'.map fun p => p.q * (cloud (cellF h p - ((k : ℤ) : ℚ)) * dxiF (xiEndF s i) s p)) := hp.map _
  have q2 : (ps.map fun p => p.q * (cloud (cellF h p - ((k : ℤ) : ℚ)) * (1 - dxiF (xiEndF s i) s p))).Perm (ps'.map fun p => p.q * (cloud (cellF h p - ((k : ℤ) : ℚ)) * (1 - dxiF (xiEndF s i) s p))) := hp.map _
  rw [← q1.sum_eq, ← hp.length_eq] at f1
  rw [← q2.sum_eq, ← hp.length_eq] at f2
  have s1 : absSum (ps'.map fun p => p.q * (cloud (cellF h p - ((k : ℤ) : ℚ)) * dxiF (xiEndF s i) s p)) = absSum (ps.map fun p => p.q * (cloud (cellF h p - ((k : ℤ) : ℚ)) * dxiF (xiEndF s i) s p)) := (q1.map _).symm.sum_eq
  have s2 : absSum (ps'.map fun p => p.q * (cloud (cellF h p - ((k : ℤ) : ℚ)) * (1 - dxiF (xiEndF s i) s p))) = absSum (ps.map fun p => p.q * (cloud (cellF h p - ((k : ℤ) : ℚ)) * (1 - dxiF (xiEndF s i) s p))) := (q2.map _).symm.sum_eq
  rw [s1] at f1
  rw [s2] at f2
  have gl := gam_nonneg (ps.length + 4)
  generalize absSum (ps.map fun p => p.q * (cloud (cellF h p - ((k : ℤ) : ℚ)) * dxiF (xiEndF s i) s p)) = S1 at *
  generalize absSum (ps.map fun p => p.q * (cloud (cellF h p - ((k : ℤ) : ℚ)) * (1 - dxiF (xiEndF s i) s p))) = S2 at *
  generalize (ps.map fun p => p.q * (cloud (cellF h p - ((k : ℤ) : ℚ)) * dxiF (xiEndF s i) s p)).sum = T1 at *
  generalize (ps.map fun p => p.q * (cloud (cellF h p - ((k : ℤ) : ℚ)) * (1 - dxiF (xiEndF s i) s p))).sum = T2 at *
  rw [abs_zero, zero_add, zero_add] at d2 f2
  constructor
  · have m := abs_sub_le ((depositF ps rho (fun _ => 0) (xiEndF s i) h s).1 k) (rho k + T1) ((depositF ps' rho (fun _ => 0) (xiEndF s i) h s).1 k)
    rw [abs_sub_comm (rho k + T1)] at m
    have := mul_le_mul_of_nonneg_left (add_le_add_right a1 |rho k|) gl
    linarith
  · have m := abs_sub_le ((depositF ps rho (fun _ => 0) (xiEndF s i) h s).2 k) T2 ((depositF ps' rho (fun _ => 0) (xiEndF s i) h s).2 k)
    rw [abs_sub_comm T2] at m
    have := mul_le_mul_of_nonneg_left a2 gl
    linarith

/-- A case of the hypotheses of C70: two particles in layer 6, on a grid of 101 nodes. -/
example : ∀ p ∈ ([⟨fl (3 / 10), fl (-65 / 1000), 1⟩, ⟨fl (1 / 7), fl (-61 / 1000), -2⟩] : List PF), InGrid 101 (fl (1 / 20)) p ∧ InSlab (fl (1 / 100)) 6 p ∧ p.r ≤ 100 * fl (1 / 20) ∧
    0 ≤ dxiF (xiEndF (fl (1 / 100)) 6) (fl (1 / 100)) p ∧ dxiF (xiEndF (fl (1 / 100)) 6) (fl (1 / 100)) p ≤ 1 := by
  unfold InGrid InSlab
  decide +kernel

end Lcode.Fp
