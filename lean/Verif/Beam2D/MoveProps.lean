import Verif.Beam2D.DepositProps

/-!
Property C09: the 2D beam pusher.
-/

namespace Lcode.Beam2D

/-- Position of a particle half a substep ahead with its present momentum: what the
pusher tests against the layer end and the wall. -/
noncomputable def halfPosition (dt : ℝ) (p : Particle ℝ) : V3 :=
  let g := Real.sqrt ((1 / p.qm) ^ 2 + (p.pr ^ 2 + (p.M / p.r) ^ 2 + p.pz ^ 2))
  ⟨p.r + dt / 2 / g * p.pr, dt / 2 / g * (p.M / p.r), p.xi + dt / 2 / g * p.pz - dt / 2⟩

theorem z_le_gamma (a : ℝ) (v : V3) : |v.z| ≤ Real.sqrt (a ^ 2 + v.sq) := by
  apply Real.abs_le_sqrt
  unfold V3.sq
  nlinarith [sq_nonneg a, sq_nonneg v.x, sq_nonneg v.y]

theorem z_lt_gamma (a : ℝ) (ha : a ≠ 0) (v : V3) : |v.z| < Real.sqrt (a ^ 2 + v.sq) := by
  rw [Real.lt_sqrt (abs_nonneg _), sq_abs]
  unfold V3.sq
  have : 0 < a ^ 2 := by positivity
  nlinarith [sq_nonneg v.x, sq_nonneg v.y]

theorem drift_nonpos (dt g z : ℝ) (hdt : 0 ≤ dt) (h : |z| ≤ g) : dt / g * z - dt ≤ 0 := by
  by_cases hg : g = 0
  · simp [hg]; exact hdt
  · have hgp : 0 < g := lt_of_le_of_ne ((abs_nonneg z).trans h) (Ne.symm hg)
    have : dt / g * z ≤ dt := by
      rw [div_mul_eq_mul_div, div_le_iff₀ hgp]
      exact mul_le_mul_of_nonneg_left ((le_abs_self z).trans h) hdt
    linarith

theorem drift_neg (dt g z : ℝ) (hdt : 0 < dt) (h : |z| < g) : dt / g * z - dt < 0 := by
  have hgp : 0 < g := lt_of_le_of_lt (abs_nonneg z) h
  have : dt / g * z < dt := by
    rw [div_mul_eq_mul_div, div_lt_iff₀ hgp]
    exact mul_lt_mul_of_pos_left ((le_abs_self z).trans_lt h) hdt
  linarith

/-- All the facts about one turn of the pusher loop. -/
theorem pushTurn_cases (c : PushCfg) (xiEnd : ℝ) (f1 f0 : Fields) (dt : ℝ) (p : Particle ℝ) :
    (¬ xiEnd ≤ (halfPosition dt p).z ∧ pushTurn c xiEnd f1 f0 dt p = .inl (p, false)) ∨
    (xiEnd ≤ (halfPosition dt p).z ∧
      (halfPosition dt p).x ^ 2 + (halfPosition dt p).y ^ 2 ≥ c.lostBoundary ^ 2 ∧
      ∃ p', pushTurn c xiEnd f1 f0 dt p = .inl (p', true) ∧ p'.xi = p.xi ∧ p'.r = |p.r| ∧
        p'.id = p.id ∧ p'.qm = p.qm ∧ p'.qnorm = p.qnorm ∧
        (c.magneticField = 0 → p'.M = p.M)) ∨
    (xiEnd ≤ (halfPosition dt p).z ∧
      (halfPosition dt p).x ^ 2 + (halfPosition dt p).y ^ 2 < c.lostBoundary ^ 2 ∧
      ∃ p' lost, pushTurn c xiEnd f1 f0 dt p = .inr (p', lost) ∧
        (0 ≤ dt → p'.xi ≤ p.xi) ∧ (0 < dt → p.qm ≠ 0 → p'.xi < p.xi) ∧
        0 ≤ p'.r ∧ (lost = true ↔ c.lostBoundary ^ 2 ≤ p'.r ^ 2) ∧
        p'.id = p.id ∧ p'.qm = p.qm ∧ p'.qnorm = p.qnorm ∧
        (c.magneticField = 0 → p'.M = p.M)) := by
  have hhalf : halfPosition dt p =
      ⟨p.r + dt / 2 / Real.sqrt ((1 / p.qm) ^ 2 + V3.sq ⟨p.pr, p.M / p.r, p.pz⟩) * p.pr,
       dt / 2 / Real.sqrt ((1 / p.qm) ^ 2 + V3.sq ⟨p.pr, p.M / p.r, p.pz⟩) * (p.M / p.r),
       p.xi + dt / 2 / Real.sqrt ((1 / p.qm) ^ 2 + V3.sq ⟨p.pr, p.M / p.r, p.pz⟩) * p.pz
          - dt / 2⟩ := rfl
  unfold pushTurn
  simp only [beamToVec, V3.add, V3.smul, inLayer, isLost, zero_add]
  set g := Real.sqrt ((1 / p.qm) ^ 2 + V3.sq ⟨p.pr, p.M / p.r, p.pz⟩) with hg
  rw [hhalf]
  simp only
  by_cases h1 : xiEnd ≤ p.xi + dt / 2 / g * p.pz - dt / 2
  · right
    by_cases h2 : (p.r + dt / 2 / g * p.pr) ^ 2 + (dt / 2 / g * (p.M / p.r)) ^ 2 ≥ c.lostBoundary ^ 2
    · left
      rw [if_neg (not_not.mpr h1), if_pos h2]
      refine ⟨h1, h2, _, rfl, ?_, ?_, ?_, ?_, ?_, ?_⟩
      · rfl
      · simp only [vecToBeam]
        rw [← Real.sqrt_sq_eq_abs]; congr 1; ring
      · rfl
      · rfl
      · rfl
      · intro hm; simp [vecToBeam, hm]
    · right
      rw [if_neg (not_not.mpr h1), if_neg h2]
      refine ⟨h1, not_le.mp h2, _, _, rfl, ?_, ?_, ?_, ?_, ?_, ?_, ?_, ?_⟩
      · intro hdt
        simp only [vecToBeam]
        rw [add_sub_assoc]
        apply add_le_of_nonpos_right
        exact drift_nonpos dt _ _ hdt (z_le_gamma (1 / p.qm) ⟨_, _, _⟩)
      · intro hdt hq
        simp only [vecToBeam]
        rw [add_sub_assoc]
        apply add_lt_of_neg_right
        exact drift_neg dt _ _ hdt (z_lt_gamma (1 / p.qm) (by positivity) ⟨_, _, _⟩)
      · simp only [vecToBeam]; positivity
      · simp only [vecToBeam]
        rw [Real.sq_sqrt (by positivity), decide_eq_true_eq]
      · rfl
      · rfl
      · rfl
      · intro hm; simp [vecToBeam, hm]
  · left
    exact ⟨h1, by rw [if_pos h1]⟩

/-- C09: pushing never moves a particle forward in the co-moving frame (information travels only towards
the tail), keeps its identity, charge and charge-to-mass ratio, and (without external
magnetic field) its angular momentum; the number of remaining substeps never grows. -/
theorem push_causal (c : PushCfg) (xiEnd : ℝ) (f1 f0 : Fields) (dt : ℝ) (hdt : 0 ≤ dt)
    (n : ℕ) (p : Particle ℝ) :
    let out := pushLoop c xiEnd f1 f0 dt n p
    out.1.xi ≤ p.xi ∧ out.2.1 ≤ n ∧ out.1.id = p.id ∧ out.1.qm = p.qm ∧ out.1.qnorm = p.qnorm ∧
      (c.magneticField = 0 → out.1.M = p.M) := by
  induction n generalizing p with
  | zero => simp [pushLoop]
  | succ n ih =>
    intro out
    rcases pushTurn_cases c xiEnd f1 f0 dt p with ⟨_, h⟩ | ⟨_, _, p', h, a1, a2, a3, a4, a5, a6⟩ |
      ⟨_, _, p', lost, h, a1, _, _, _, a3, a4, a5, a6⟩
    · have : out = (p, n + 1, false) := by show pushLoop _ _ _ _ _ _ _ = _; simp [pushLoop, h]
      rw [this]; simp
    · have : out = (p', n + 1, true) := by show pushLoop _ _ _ _ _ _ _ = _; simp [pushLoop, h]
      rw [this]; exact ⟨a1.le, le_rfl, a3, a4, a5, a6⟩
    · cases lost with
      | true =>
        have : out = (p', n, true) := by show pushLoop _ _ _ _ _ _ _ = _; simp [pushLoop, h]
        rw [this]; exact ⟨a1 hdt, by simp, a3, a4, a5, a6⟩
      | false =>
        have : out = pushLoop c xiEnd f1 f0 dt n p' := by
          show pushLoop _ _ _ _ _ _ _ = _; simp [pushLoop, h]
        rw [this]
        obtain ⟨b1, b2, b3, b4, b5, b6⟩ := ih p'
        exact ⟨b1.trans (a1 hdt), by omega, b3.trans a3, b4.trans a4, b5.trans a5,
          fun hm => (b6 hm).trans (a6 hm)⟩

/-- C09: every substep actually made moves the particle strictly backwards. -/
theorem push_strictly_backwards (c : PushCfg) (xiEnd : ℝ) (f1 f0 : Fields) (dt : ℝ) (hdt : 0 < dt)
    (n : ℕ) (p : Particle ℝ) (hq : p.qm ≠ 0)
    (hmade : (pushLoop c xiEnd f1 f0 dt n p).2.1 < n) :
    (pushLoop c xiEnd f1 f0 dt n p).1.xi < p.xi := by
  cases n with
  | zero => simp at hmade
  | succ n =>
    rcases pushTurn_cases c xiEnd f1 f0 dt p with ⟨_, h⟩ | ⟨_, _, p', h, _⟩ |
      ⟨_, _, p', lost, h, _, a1, _⟩
    · simp [pushLoop, h] at hmade
    · simp [pushLoop, h] at hmade
    · cases lost with
      | true => simp [pushLoop, h]; exact a1 hdt hq
      | false =>
        simp only [pushLoop, h]
        exact lt_of_le_of_lt (push_causal c xiEnd f1 f0 dt hdt.le n p').1 (a1 hdt hq)

/-- C09: a particle that is kept is inside the loss boundary (if it was when it came in), has a
non-negative radius, and either used all its substeps or stopped exactly because half of the
next substep would leave the layer. -/
theorem push_kept (c : PushCfg) (hB : 0 < c.lostBoundary) (xiEnd : ℝ) (f1 f0 : Fields) (dt : ℝ)
    (n : ℕ) (p : Particle ℝ) (hr0 : 0 ≤ p.r) (hr : p.r < c.lostBoundary)
    (hkept : (pushLoop c xiEnd f1 f0 dt n p).2.2 = false) :
    let out := pushLoop c xiEnd f1 f0 dt n p
    0 ≤ out.1.r ∧ out.1.r < c.lostBoundary ∧
      (out.2.1 = 0 ∨ (halfPosition dt out.1).z < xiEnd) := by
  induction n generalizing p with
  | zero => simp [pushLoop, hr0, hr]
  | succ n ih =>
    intro out
    rcases pushTurn_cases c xiEnd f1 f0 dt p with ⟨h0, h⟩ | ⟨_, _, p', h, _⟩ |
      ⟨_, _, p', lost, h, _, _, a1, a2, _⟩
    · have : out = (p, n + 1, false) := by show pushLoop _ _ _ _ _ _ _ = _; simp [pushLoop, h]
      rw [this]; exact ⟨hr0, hr, Or.inr (not_le.mp h0)⟩
    · simp [pushLoop, h] at hkept
    · cases lost with
      | true => simp [pushLoop, h] at hkept
      | false =>
        have : out = pushLoop c xiEnd f1 f0 dt n p' := by
          show pushLoop _ _ _ _ _ _ _ = _; simp [pushLoop, h]
        rw [this]
        have hk' : (pushLoop c xiEnd f1 f0 dt n p').2.2 = false := by
          simpa [pushLoop, h] using hkept
        refine ih p' a1 ?_ hk'
        have h2 : ¬ (c.lostBoundary ^ 2 ≤ p'.r ^ 2) := fun hc => by simpa using a2.mpr hc
        exact lt_of_pow_lt_pow_left₀ 2 hB.le (not_le.mp h2)

/-- C09: a particle is marked lost only if it reached the loss boundary, either at the tested
half-step position or at its new position. -/
theorem push_lost_reason (c : PushCfg) (xiEnd : ℝ) (f1 f0 : Fields) (dt : ℝ)
    (n : ℕ) (p : Particle ℝ) (hlost : (pushLoop c xiEnd f1 f0 dt n p).2.2 = true) :
    ∃ q : Particle ℝ, (c.lostBoundary ^ 2 ≤ (halfPosition dt q).x ^ 2 + (halfPosition dt q).y ^ 2 ∧
        xiEnd ≤ (halfPosition dt q).z ∧ q.id = p.id) ∨
      c.lostBoundary ^ 2 ≤ (pushLoop c xiEnd f1 f0 dt n p).1.r ^ 2 := by
  induction n generalizing p with
  | zero => simp [pushLoop] at hlost
  | succ n ih =>
    rcases pushTurn_cases c xiEnd f1 f0 dt p with ⟨h0, h⟩ | ⟨h0, h1, p', h, _⟩ |
      ⟨_, _, p', lost, h, _, _, _, a2, a3, _⟩
    · simp [pushLoop, h] at hlost
    · exact ⟨p, Or.inl ⟨h1, h0, rfl⟩⟩
    · cases lost with
      | true =>
        refine ⟨p, Or.inr ?_⟩
        simp only [pushLoop, h, if_true]
        exact a2.mp rfl
      | false =>
        simp only [pushLoop, h] at hlost ⊢
        obtain ⟨q, hq⟩ := ih p' hlost
        refine ⟨q, ?_⟩
        rcases hq with ⟨b1, b2, b3⟩ | b
        · exact Or.inl ⟨b1, b2, b3.trans a3⟩
        · exact Or.inr b

/-- C09: the half-step position at which fields are taken never lies ahead of the particle, so for a
particle of the current layer the interpolation is a convex combination of the two
layers surrounding it (with `weights_conserve`). -/
theorem halfPosition_in_layer (dt : ℝ) (hdt : 0 ≤ dt) (p : Particle ℝ) (xiEnd xiStep : ℝ)
    (htop : p.xi ≤ xiEnd + xiStep) (hin : xiEnd ≤ (halfPosition dt p).z) :
    xiEnd ≤ (halfPosition dt p).z ∧ (halfPosition dt p).z ≤ xiEnd + xiStep := by
  refine ⟨hin, ?_⟩
  have h := drift_nonpos (dt / 2) _ p.pz (by linarith)
    (z_le_gamma (1 / p.qm) ⟨p.pr, p.M / p.r, p.pz⟩)
  have : (halfPosition dt p).z = p.xi + (dt / 2 /
      Real.sqrt ((1 / p.qm) ^ 2 + V3.sq ⟨p.pr, p.M / p.r, p.pz⟩) * p.pz - dt / 2) := by
    simp only [halfPosition, V3.sq]; ring
  rw [this]
  linarith

/-- C09, index safety: the radial nodes `j`, `j+1` read (and written) for a particle inside the loss
boundary exist in arrays of `int(R/h) + 1` nodes whenever the loss boundary is at least one
cell away from the wall. -/
theorem nodes_exist (c : PushCfg) (hs : 0 < c.rStep)
    (hcell : c.rStep ≤ c.maxRadius - c.lostBoundary) (hR : 0 ≤ c.maxRadius)
    (r : ℝ) (hr0 : 0 ≤ r) (hr : r < c.lostBoundary) :
    0 ≤ ⌊r / c.rStep⌋ ∧ ⌊r / c.rStep⌋ + 1 < Lcode.Py.pyInt (c.maxRadius / c.rStep) + 1 := by
  refine ⟨Int.floor_nonneg.mpr (by positivity), ?_⟩
  rw [Lcode.Py.pyInt_of_nonneg (by positivity)]
  have h1 : r / c.rStep + 1 ≤ c.maxRadius / c.rStep := by
    rw [div_add_one hs.ne', div_le_div_iff_of_pos_right hs]; linarith
  have h2 : ⌊r / c.rStep + 1⌋ ≤ ⌊c.maxRadius / c.rStep⌋ := Int.floor_le_floor h1
  rw [Int.floor_add_one] at h2
  omega

/-- C09, index safety when the window is a whole number of cells. -/
theorem nodes_exist_whole_cells (c : PushCfg) (hs : 0 < c.rStep) (N : ℕ)
    (hN : c.maxRadius = N * c.rStep) (hR : 0 < c.maxRadius)
    (r : ℝ) (hr0 : 0 ≤ r) (hr : r < c.lostBoundary) :
    0 ≤ ⌊r / c.rStep⌋ ∧ ⌊r / c.rStep⌋ + 1 < Lcode.Py.pyInt (c.maxRadius / c.rStep) + 1 := by
  have hrR : r < c.maxRadius := by
    refine hr.trans_le ?_
    unfold PushCfg.lostBoundary
    exact max_le (by linarith) (by linarith)
  refine ⟨Int.floor_nonneg.mpr (by positivity), ?_⟩
  have h1 : c.maxRadius / c.rStep = ((N : ℤ) : ℝ) := by rw [hN]; field_simp; simp
  rw [h1, Lcode.Py.pyInt_intCast]
  have : ⌊r / c.rStep⌋ < (N : ℤ) := by
    rw [Int.floor_lt, div_lt_iff₀ hs]; rw [hN] at hrR; exact_mod_cast hrR
  omega

/-- Finding: without either condition the pusher reads outside the field arrays. With a window of
radius 5 and step 0.85 (6 nodes) a beam particle kept at r = 4.4 needs node 6. -/
theorem nodes_missing :
    ∃ (c : PushCfg) (r : ℝ), 0 < c.rStep ∧ 0 ≤ r ∧ r < c.lostBoundary ∧
      ¬ (⌊r / c.rStep⌋ + 1 < Lcode.Py.pyInt (c.maxRadius / c.rStep) + 1) := by
  refine ⟨⟨0.85, 0.1, 5, 0⟩, 4.4, by norm_num, by norm_num, ?_, ?_⟩
  · unfold PushCfg.lostBoundary; norm_num
  · have h1 : ⌊(4.4 : ℝ) / 0.85⌋ = 5 := by rw [Int.floor_eq_iff]; norm_num
    have h2 : Lcode.Py.pyInt ((5 : ℝ) / 0.85) = 5 := by
      rw [Lcode.Py.pyInt_of_nonneg (by norm_num), Int.floor_eq_iff]; norm_num
    simp only [h1, h2]; norm_num

section examples
/-- A particle at rest, dt = 1/2, in a field-free layer: it drifts back by dt per substep. -/
noncomputable def restParticle : Particle ℝ := ⟨-1/4, 1, 0, 0, 0, 1, 1, 5⟩

example : 0 ≤ restParticle.r ∧ restParticle.r < (PushCfg.mk 0.05 1 5 0).lostBoundary ∧
    restParticle.qm ≠ 0 ∧ -1 ≤ (halfPosition (1/2) restParticle).z := by
  unfold restParticle PushCfg.lostBoundary halfPosition
  norm_num
end examples

end Lcode.Beam2D
