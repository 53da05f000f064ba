import Verif.Fp.PlasmaQuiet

/-!
C72, continued: the energy of a particle in doubles, and what a substep of the plasma solver hands on.
-/

namespace Lcode.Fp

/-- C72: `gamma m` in doubles is the root of `m^2 + p^2` up to five roundings, for every mass and momentum. -/
theorem gamma_doubles (m px py pz : ℚ) :
    |(gammaF m px py pz : ℝ) - Real.sqrt ((m : ℝ) ^ 2 + (px : ℝ) ^ 2 + (py : ℝ) ^ 2 + (pz : ℝ) ^ 2)| ≤
      (gam 5 : ℝ) * Real.sqrt ((m : ℝ) ^ 2 + (px : ℝ) ^ 2 + (py : ℝ) ^ 2 + (pz : ℝ) ^ 2) := by
  have sq : ∀ x : ℚ, Rel 1 (fl (x * x)) (x ^ 2) := fun x => by rw [sq]; exact (Rel.refl _).fl
  have h : Rel 4 (fl (fl (fl (fl (m * m) + fl (px * px)) + fl (py * py)) + fl (pz * pz))) (m ^ 2 + px ^ 2 + py ^ 2 + pz ^ 2) := by
    have h1 := ((sq m).add (sq px) (by positivity) (by positivity)).fl
    have h2 := (h1.add ((sq py).mono (by norm_num)) (by positivity) (by positivity)).fl
    exact (h2.add ((sq pz).mono (by norm_num)) (by positivity) (by positivity)).fl
  have hT : (0 : ℚ) ≤ m ^ 2 + px ^ 2 + py ^ 2 + pz ^ 2 := by positivity
  have e : (m : ℝ) ^ 2 + (px : ℝ) ^ 2 + (py : ℝ) ^ 2 + (pz : ℝ) ^ 2 = ((m ^ 2 + px ^ 2 + py ^ 2 + pz ^ 2 : ℚ) : ℝ) := by push_cast; rfl
  have hS : 0 ≤ fl (fl (fl (fl (m * m) + fl (px * px)) + fl (py * py)) + fl (pz * pz)) :=
    fl_nonneg (add_nonneg (fl_nonneg (add_nonneg (fl_nonneg (add_nonneg (fl_nonneg (mul_self_nonneg _)) (fl_nonneg (mul_self_nonneg _)))) (fl_nonneg (mul_self_nonneg _)))) (fl_nonneg (mul_self_nonneg _)))
  rw [e]
  unfold gammaF
  generalize fl (fl (fl (fl (m * m) + fl (px * px)) + fl (py * py)) + fl (pz * pz)) = S at *
  generalize m ^ 2 + px ^ 2 + py ^ 2 + pz ^ 2 = T at *
  have h1 := sqrtF_err hS
  unfold Rel at h
  rw [abs_of_nonneg hT] at h
  have h' : |(S : ℝ) - T| ≤ gam 4 * T := by exact_mod_cast h
  have hT' : (0 : ℝ) ≤ T := by exact_mod_cast hT
  have hS' : (0 : ℝ) ≤ S := by exact_mod_cast hS
  have g0 : (0 : ℝ) ≤ (gam 4 : ℚ) := by exact_mod_cast gam_nonneg 4
  have g5 : ((gam 5 : ℚ) : ℝ) = (gam 4 : ℚ) + 1 / 2 ^ 53 * (1 + (gam 4 : ℚ)) := by
    have := gam_succ 4
    unfold u at this
    rw [this]; push_cast; ring
  rw [g5]
  generalize ((gam 4 : ℚ) : ℝ) = g at *
  generalize (S : ℝ) = s at *
  generalize (T : ℝ) = t at *
  have key : |Real.sqrt s - Real.sqrt t| ≤ g * Real.sqrt t := by
    rcases hT'.eq_or_lt with h0 | h0
    · rw [← h0] at h' ⊢
      simp only [sub_zero, mul_zero, abs_nonpos_iff] at h'
      rw [h']; simp
    · have ht := Real.sqrt_pos.mpr h0
      have hs := Real.sqrt_nonneg s
      have : (Real.sqrt s - Real.sqrt t) * (Real.sqrt s + Real.sqrt t) = s - t := by
        have a := Real.mul_self_sqrt hS'
        have b := Real.mul_self_sqrt hT'
        linarith [(by ring : (Real.sqrt s - Real.sqrt t) * (Real.sqrt s + Real.sqrt t) = Real.sqrt s * Real.sqrt s - Real.sqrt t * Real.sqrt t)]
      have h2 : |Real.sqrt s - Real.sqrt t| * (Real.sqrt s + Real.sqrt t) ≤ g * Real.sqrt t * Real.sqrt t := by
        rw [mul_assoc, Real.mul_self_sqrt hT', ← abs_of_nonneg (add_nonneg hs ht.le), ← abs_mul, this]
        exact h'
      have h3 := mul_nonneg (abs_nonneg (Real.sqrt s - Real.sqrt t)) hs
      refine le_of_mul_le_mul_right ?_ ht
      linarith [(by ring : |Real.sqrt s - Real.sqrt t| * (Real.sqrt s + Real.sqrt t) = |Real.sqrt s - Real.sqrt t| * Real.sqrt s + |Real.sqrt s - Real.sqrt t| * Real.sqrt t)]
  have h4 : Real.sqrt s ≤ (1 + g) * Real.sqrt t := by linarith [(abs_le.mp key).2]
  have h5 := abs_add_le ((sqrtF S : ℝ) - Real.sqrt s) (Real.sqrt s - Real.sqrt t)
  rw [sub_add_sub_cancel] at h5
  linarith

/-- C72: with at least one corrector step, a substep in doubles hands on: the particles of its start moved by the rounded mean of the old and the new fields (plus the external field), and the densities of exactly those particles. -/
theorem advance_centred_doubles (c : CfgF) (rhoBeam : ℕ → ℚ) (w : WorldF) (step : ℚ) (hk : 1 ≤ c.corrector) :
    ∃ e : EnvF, e.n = c.M + 1 ∧ e.h = c.h ∧ e.R = c.R ∧ (c.decl = false → ∀ i, e.noise i = 0) ∧
      (∀ i, e.F.Er i = fl (fl ((advanceF c rhoBeam w step).F.Er i + w.F.Er i) / 2) ∧ e.F.Ef i = fl (fl ((advanceF c rhoBeam w step).F.Ef i + w.F.Ef i) / 2) ∧
        e.F.Ez i = fl (fl ((advanceF c rhoBeam w step).F.Ez i + w.F.Ez i) / 2) ∧ e.F.Bf i = fl (fl ((advanceF c rhoBeam w step).F.Bf i + w.F.Bf i) / 2) ∧
        e.F.Bz i = fl (fl (fl ((advanceF c rhoBeam w step).F.Bz i + w.F.Bz i) / 2) + c.B0)) ∧
      (advanceF c rhoBeam w step).el = w.el.map (movePartF e step) ∧
      (∀ ps, w.ions = .mobile ps → (advanceF c rhoBeam w step).ions = .mobile (ps.map (movePartF e step))) ∧
      (∀ ni, w.ions = .background ni → (advanceF c rhoBeam w step).ions = .background ni) ∧
      (advanceF c rhoBeam w step).cur = computeRhojF c.h c.ppc (c.M + 1) (advanceF c rhoBeam w step).el (advanceF c rhoBeam w step).ions := by
  have : advanceF c rhoBeam w step = correctF c rhoBeam w step ((correctF c rhoBeam w step)^[c.corrector - 1] (predictF c w step)) := by
    unfold advanceF
    rw [← Function.iterate_succ_apply' (correctF c rhoBeam w step), show (c.corrector - 1).succ = c.corrector by omega]
  rw [this]
  generalize (correctF c rhoBeam w step)^[c.corrector - 1] (predictF c w step) = t
  refine ⟨c.env (computeFieldsF c.h c.M t.F w.F rhoBeam w.cur t.cur step).2 (noiseAmplitudeF (c.M + 1) t.cur c.decl), rfl, rfl, rfl, ?_, fun i => ⟨rfl, rfl, rfl, rfl, rfl⟩, rfl, ?_, ?_, rfl⟩
  · intro h i
    show noiseAmplitudeF _ _ c.decl i = 0
    rw [h]; exact noise_off_doubles _ _ i
  · intro ps h; unfold correctF; simp only [h]; rfl
  · intro ni h; unfold correctF; simp only [h]; rfl

end Lcode.Fp
