import Verif.Beam2D.Pusher

/-!
Properties C06 (beam substeps), C08 (2D beam deposition weights), C09 (2D beam pusher).
-/

namespace Lcode.Beam2D

/-! ### C06 -/

section C06
variable {K : Type*} [Field K] [LinearOrder K] [IsStrictOrderedRing K]

theorem halvingLoop_spec (maxDt : K) (fuel : ℕ) (dt : K) (d : K)
    (h : halvingLoop maxDt fuel dt = some d) :
    ∃ k : ℕ, k ≤ fuel ∧ d = dt / 2 ^ k ∧ d ≤ maxDt ∧ (k = 0 ∨ maxDt < 2 * d) := by
  induction fuel generalizing dt with
  | zero =>
    simp only [halvingLoop] at h
    split_ifs at h with hc
    simp only [Option.some.injEq] at h; subst h
    exact ⟨0, le_refl _, by simp, not_lt.mp hc, Or.inl rfl⟩
  | succ fuel ih =>
    simp only [halvingLoop] at h
    split_ifs at h with hc
    · obtain ⟨k, hk, h1, h2, h3⟩ := ih _ h
      refine ⟨k + 1, by omega, by rw [h1, pow_succ]; field_simp, h2, Or.inr ?_⟩
      rcases h3 with rfl | h3
      · simp at h1; rw [h1]; linarith
      · exact h3
    · simp only [Option.some.injEq] at h; subst h
      exact ⟨0, by omega, by simp, not_lt.mp hc, Or.inl rfl⟩

theorem halvingLoop_terminates (maxDt : K) (fuel : ℕ) (dt : K)
    (h : dt / 2 ^ fuel ≤ maxDt) : ∃ d, halvingLoop maxDt fuel dt = some d := by
  induction fuel generalizing dt with
  | zero =>
    simp only [pow_zero, div_one] at h
    exact ⟨dt, by simp [halvingLoop, not_lt.mpr h]⟩
  | succ fuel ih =>
    simp only [halvingLoop]
    split_ifs with hc
    · apply ih
      rw [pow_succ'] at h
      rw [div_div]; exact h
    · exact ⟨_, rfl⟩

theorem halvingLoop_diverges (maxDt : K) (hm : maxDt ≤ 0) (fuel : ℕ) (dt : K) (hdt : 0 < dt) :
    halvingLoop maxDt fuel dt = none := by
  induction fuel generalizing dt with
  | zero => simp only [halvingLoop]; rw [if_pos (lt_of_le_of_lt hm hdt)]
  | succ fuel ih =>
    simp only [halvingLoop]; rw [if_pos (lt_of_le_of_lt hm hdt)]
    exact ih _ (by linarith)

theorem maxSubstep_pos (qm pz energy : ℝ) (hq : qm ≠ 0) (he : 0 < energy) :
    0 < maxSubstep qm pz energy := by
  unfold maxSubstep
  have : 0 < 1 / qm ^ 2 + pz ^ 2 := by positivity
  positivity

/-- C06: for every particle (non-zero charge-to-mass ratio, any momentum) and every positive
critical energy the search for the substep ends; it returns the largest power-of-two fraction of
the time step not above the energy limit; the number of substeps is that power of two and substeps
times substep is exactly the time step. -/
theorem substeps_exact (qm pz energy timeStep : ℝ) (hq : qm ≠ 0) (he : 0 < energy) :
    ∃ fuel₀ f, (∀ fuel, fuel₀ ≤ fuel → beamSubsteppingStep fuel qm pz energy = some f) ∧
      ∃ k : ℕ, f = 1 / 2 ^ k ∧ f ≤ maxSubstep qm pz energy ∧
        (∀ m : ℕ, (1 : ℝ) / 2 ^ m ≤ maxSubstep qm pz energy → (1 : ℝ) / 2 ^ m ≤ f) ∧
        (substepsOf f timeStep).2 = 2 ^ k ∧
        ((substepsOf f timeStep).2 : ℝ) * (substepsOf f timeStep).1 = timeStep := by
  have hpos := maxSubstep_pos qm pz energy hq he
  obtain ⟨n, hn⟩ := exists_pow_lt_of_lt_one hpos (show (1 / 2 : ℝ) < 1 by norm_num)
  have hn' : ∀ m, n ≤ m → (1 : ℝ) / 2 ^ m ≤ maxSubstep qm pz energy := by
    intro m hm
    refine le_trans ?_ hn.le
    rw [one_div, one_div, inv_pow]
    apply inv_anti₀ (by positivity)
    exact pow_le_pow_right₀ (by norm_num) hm
  obtain ⟨f, hf⟩ := halvingLoop_terminates (maxSubstep qm pz energy) n 1 (hn' n le_rfl)
  obtain ⟨k, hk, h1, h2, h3⟩ := halvingLoop_spec _ _ _ _ hf
  have hlargest : ∀ m : ℕ, (1 : ℝ) / 2 ^ m ≤ maxSubstep qm pz energy → (1 : ℝ) / 2 ^ m ≤ f := by
    intro m hm
    rw [h1]
    rcases h3 with rfl | h3
    · simp only [pow_zero, div_one]
      rw [div_le_one (by positivity)]
      exact one_le_pow₀ (by norm_num)
    · have hlt : (1 : ℝ) / 2 ^ m < 2 * (1 / 2 ^ k) := by rw [h1] at h3; exact lt_of_le_of_lt hm h3
      by_contra hcon
      push Not at hcon
      have hmk : m < k := by
        by_contra hc
        have : (1 : ℝ) / 2 ^ m ≤ 1 / 2 ^ k :=
          one_div_le_one_div_of_le (by positivity) (pow_le_pow_right₀ (by norm_num) (not_lt.mp hc))
        linarith
      have : (1 : ℝ) / 2 ^ (k - 1) ≤ 1 / 2 ^ m :=
        one_div_le_one_div_of_le (by positivity) (pow_le_pow_right₀ (by norm_num) (by omega))
      have h4 : (2 : ℝ) * (1 / 2 ^ k) = 1 / 2 ^ (k - 1) := by
        obtain ⟨k', rfl⟩ : ∃ k', k = k' + 1 := ⟨k - 1, by omega⟩
        rw [pow_succ]; simp
      linarith
  refine ⟨n, f, ?_, k, h1, h2, hlargest, ?_, ?_⟩
  · intro fuel hfuel
    unfold beamSubsteppingStep
    obtain ⟨g, hg⟩ := halvingLoop_terminates (maxSubstep qm pz energy) fuel 1 (hn' fuel hfuel)
    obtain ⟨k', -, g1, g2, g3⟩ := halvingLoop_spec _ _ _ _ hg
    rw [hg]
    congr 1
    apply le_antisymm
    · rw [g1]; exact hlargest k' (by rw [← g1]; exact g2)
    · -- symmetric argument
      by_contra hcon
      push Not at hcon
      rcases g3 with rfl | g3
      · rw [h1] at hcon
        simp at g1; rw [g1] at hcon
        have : (1 : ℝ) / 2 ^ k ≤ 1 := by
          rw [div_le_one (by positivity)]; exact one_le_pow₀ (by norm_num)
        linarith
      · have hkk : k < k' := by
          by_contra hc
          have : (1 : ℝ) / 2 ^ k ≤ 1 / 2 ^ k' :=
            one_div_le_one_div_of_le (by positivity) (pow_le_pow_right₀ (by norm_num) (not_lt.mp hc))
          rw [h1, g1] at hcon; linarith
        have h5 : (1 : ℝ) / 2 ^ (k' - 1) ≤ 1 / 2 ^ k :=
          one_div_le_one_div_of_le (by positivity) (pow_le_pow_right₀ (by norm_num) (by omega))
        have h4 : (2 : ℝ) * (1 / 2 ^ k') = 1 / 2 ^ (k' - 1) := by
          obtain ⟨k'', rfl⟩ : ∃ k'', k' = k'' + 1 := ⟨k' - 1, by omega⟩
          rw [pow_succ]; simp
        rw [g1, h4] at g3
        -- f itself is allowed and larger
        have h6 : (1 : ℝ) / 2 ^ (k' - 1) ≤ f := by rw [h1]; exact h5
        linarith
  · simp only [substepsOf, h1]
    have : (1 : ℝ) / (1 / 2 ^ k) = ((2 ^ k : ℤ) : ℝ) := by push_cast; field_simp
    rw [this, Lcode.Py.pyInt_intCast]
  · have h5 : (substepsOf f timeStep).2 = 2 ^ k := by
      simp only [substepsOf, h1]
      have : (1 : ℝ) / (1 / 2 ^ k) = ((2 ^ k : ℤ) : ℝ) := by push_cast; field_simp
      rw [this, Lcode.Py.pyInt_intCast]
    rw [h5]
    simp only [substepsOf, h1]
    push_cast
    field_simp

/-- C06, boundary of the claim: if the energy limit were zero the search would not end. -/
theorem substeps_need_positive_limit (fuel : ℕ) : halvingLoop (0 : ℝ) fuel 1 = none :=
  halvingLoop_diverges 0 le_rfl fuel 1 one_pos

/-- A particle at rest with energy limit 16 takes four substeps of a quarter. -/
example : halvingLoop (1/4 : ℚ) 5 1 = some (1/4) := by decide +kernel
example : maxSubstep 1 0 16 = 1 / 4 := by
  unfold maxSubstep
  have : Real.sqrt (1 / 1 ^ 2 + 0 ^ 2) / 16 = (1 / 4) ^ 2 := by norm_num
  rw [this, Real.sqrt_sq (by norm_num)]
end C06

/-! ### C08 -/

section C08

/-- C08: a particle inside the layer `[xiEnd, xiEnd + xiStep]` at radius `r ≥ 0` spreads its charge over two
layers and the radial nodes `j`, `j+1` surrounding it: all four shares are
non-negative, they sum to one, and the mean node position (radial and longitudinal) is exactly
the particle's position. -/
theorem weights_conserve (r xi xiEnd rStep xiStep : ℝ) (hr : 0 ≤ r) (hrs : 0 < rStep)
    (hxs : 0 < xiStep) (h1 : xiEnd ≤ xi) (h2 : xi ≤ xiEnd + xiStep) :
    ∃ (j : ℤ) (a00 a01 a10 a11 : ℝ),
      beamParticleWeights r xi xiEnd rStep xiStep = (j, a00, a01, a10, a11) ∧
      0 ≤ j ∧ j * rStep ≤ r ∧ r < (j + 1) * rStep ∧
      0 ≤ a00 ∧ 0 ≤ a01 ∧ 0 ≤ a10 ∧ 0 ≤ a11 ∧
      a00 + a01 + a10 + a11 = 1 ∧
      (a00 + a10) * (j * rStep) + (a01 + a11) * ((j + 1) * rStep) = r ∧
      (a00 + a01) * (xiEnd + xiStep) + (a10 + a11) * xiEnd = xi := by
  refine ⟨⌊r / rStep⌋, _, _, _, _, rfl, Int.floor_nonneg.mpr (by positivity), ?_, ?_, ?_⟩
  · have := Int.floor_le (r / rStep)
    rwa [le_div_iff₀ hrs] at this
  · have := Int.lt_floor_add_one (r / rStep)
    rwa [div_lt_iff₀ hrs] at this
  have hd0 : 0 ≤ -(xiEnd - xi) / xiStep := div_nonneg (by linarith) hxs.le
  have hd1 : -(xiEnd - xi) / xiStep ≤ 1 := by rw [div_le_one hxs]; linarith
  have hr0 : 0 ≤ r / rStep - ⌊r / rStep⌋ := by linarith [Int.floor_le (r / rStep)]
  have hr1 : r / rStep - ⌊r / rStep⌋ ≤ 1 := by linarith [Int.lt_floor_add_one (r / rStep)]
  refine ⟨mul_nonneg hd0 (by linarith), mul_nonneg hd0 hr0, mul_nonneg (by linarith) (by linarith), mul_nonneg (by linarith) hr0, by ring, ?_, ?_⟩
  · field_simp; ring
  · field_simp; ring

/-- A particle in the middle of a layer and 3/4 of a cell off the axis node. -/
example : beamParticleWeights (7/4) (-1/2) (-1) 1 1 = (1, 1/8, 3/8, 1/8, 3/8) := by
  unfold beamParticleWeights
  have h : ⌊(7/4 : ℝ) / 1⌋ = 1 := by
    rw [Int.floor_eq_iff]; norm_num
  simp only [h]
  norm_num
end C08
end Lcode.Beam2D
