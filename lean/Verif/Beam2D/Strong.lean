import Verif.Beam2D.DepositProps
import Verif.Beam2D.MoveProps

/-!
C08 and C41 in pointwise form.

Specification: the hat function, and a beam's density on a node as the sum over ALL particles of
charge × hat(radial distance) × hat(longitudinal distance) (cloud in cell); the leapfrog equations of motion.
-/

namespace Lcode.Beam2D

open Finset

/-- The hat (linear B-spline) function. -/
noncomputable def hat (x : ℝ) : ℝ := max 0 (1 - |x|)

theorem hat_of_mem (x : ℝ) (h : |x| ≤ 1) : hat x = 1 - |x| := max_eq_right (by linarith)
theorem hat_of_far (x : ℝ) (h : 1 ≤ |x|) : hat x = 0 := max_eq_left (by linarith)

theorem addAt_apply (l : List (ℤ × ℝ)) (f : ℤ → ℝ) (i : ℤ) :
    addAt f l i = f i + (l.map fun t => if t.1 = i then t.2 else 0).sum := by
  unfold addAt
  induction l generalizing f with
  | nil => simp
  | cons a l ih =>
    rw [List.foldl_cons, ih]
    by_cases h : a.1 = i
    · subst h; simp; ring
    · rw [Function.update_of_ne (Ne.symm h)]; simp [h]

/-- The two radial shares of a particle are the hat function of the distance to the node. -/
theorem radial_hat (x : ℝ) (i : ℤ) :
    (if ⌊x⌋ + 0 = i then 1 - (x - ⌊x⌋) else 0) + (if ⌊x⌋ + 1 = i then x - ⌊x⌋ else 0) = hat (x - i) := by
  have h0 := Int.floor_le x
  have h1 := Int.lt_floor_add_one x
  rcases lt_trichotomy i ⌊x⌋ with h | h | h
  · have : (i : ℝ) + 1 ≤ ⌊x⌋ := by exact_mod_cast h
    rw [if_neg (by omega), if_neg (by omega), hat_of_far]; · ring
    rw [abs_of_nonneg (by linarith)]; linarith
  · subst h
    rw [if_pos (by ring), if_neg (by omega), hat_of_mem, abs_of_nonneg (by linarith)]; · ring
    rw [abs_of_nonneg (by linarith)]; linarith
  · by_cases h2 : i = ⌊x⌋ + 1
    · subst h2
      rw [if_neg (by omega), if_pos rfl]
      have e : |x - ((⌊x⌋ + 1 : ℤ) : ℝ)| = 1 - (x - ⌊x⌋) := by
        push_cast
        rw [abs_of_nonpos (by linarith)]; ring
      rw [hat_of_mem _ (by rw [e]; linarith), e]; ring
    · have : (⌊x⌋ : ℝ) + 2 ≤ i := by exact_mod_cast (by omega : ⌊x⌋ + 2 ≤ i)
      rw [if_neg (by omega), if_neg (by omega), hat_of_far]; · ring
      rw [abs_of_nonpos (by linarith)]; linarith

theorem deposit_pointwise (ps : List (Particle ℝ)) (out0 out1 : ℤ → ℝ) (xiEnd rStep xiStep : ℝ) (i : ℤ) :
    (depositParticles ps out0 out1 xiEnd rStep xiStep).1 i =
      out0 i + (ps.map fun p => p.qnorm * hat (p.r / rStep - i) * ((p.xi - xiEnd) / xiStep)).sum ∧
    (depositParticles ps out0 out1 xiEnd rStep xiStep).2 i =
      out1 i + (ps.map fun p => p.qnorm * hat (p.r / rStep - i) * (1 - (p.xi - xiEnd) / xiStep)).sum := by
  unfold depositParticles
  simp only [addAt_apply, List.map_map, Function.comp_def, add_assoc, ← List.sum_map_add]
  constructor
  · congr 2
    apply List.map_congr_left
    intro p _
    simp only [beamParticleWeights, ← radial_hat]
    by_cases h1 : ⌊p.r / rStep⌋ + 0 = i <;> by_cases h2 : ⌊p.r / rStep⌋ + 1 = i <;>
      simp only [h1, h2, if_true, if_false] <;> ring
  · congr 2
    apply List.map_congr_left
    intro p _
    simp only [beamParticleWeights, ← radial_hat]
    by_cases h1 : ⌊p.r / rStep⌋ + 0 = i <;> by_cases h2 : ⌊p.r / rStep⌋ + 1 = i <;>
      simp only [h1, h2, if_true, if_false] <;> ring

/-- C08, pointwise for one layer: on every node, the charge the layer's density stands for is what was
inherited plus each particle's charge times the hat of its radial distance to the node times the hat of its longitudinal distance to
the layer, in cells; what is handed on is the same for the next layer. -/
theorem layout_pointwise (n : ℕ) (rStep xiStep : ℝ) (hr : 0 < rStep) (hx : 0 < xiStep)
    (rho : ℤ → ℝ) (ps : List (Particle ℝ)) (xiI : ℕ)
    (hps : ∀ p ∈ ps, Depositable n rStep xiStep xiI p) (i : ℕ) :
    let out := layoutBeamLayer rStep xiStep rho ps xiI
    nodeVolume rStep i * out.1 i = rho i + (ps.map fun p =>
      p.qnorm * hat (p.r / rStep - i) * hat ((p.xi - -(xiI * xiStep)) / xiStep)).sum ∧
    out.2 i = (ps.map fun p =>
      p.qnorm * hat (p.r / rStep - i) * hat ((p.xi - -((xiI + 1) * xiStep)) / xiStep)).sum := by
  intro out
  have hd := deposit_pointwise ps rho (fun _ => 0) (((xiI : ℝ) + 1) * -xiStep) rStep xiStep i
  have e1 : nodeVolume rStep i * out.1 (i : ℕ) =
      (depositParticles ps rho (fun _ => 0) (((xiI : ℝ) + 1) * -xiStep) rStep xiStep).1 (i : ℕ) := by
    show nodeVolume rStep i * (layoutBeamLayer rStep xiStep rho ps xiI).1 (i : ℕ) = _
    unfold layoutBeamLayer nodeVolume
    by_cases hi : i = 0
    · subst hi; simp; field_simp
    · have h1 : ((i : ℤ) ≥ 1) := by omega
      have h2 : ¬ ((i : ℤ) = 0) := by omega
      have h3 : (i : ℝ) ≠ 0 := by exact_mod_cast hi
      simp only [hi, h1, h2, if_true, if_false]
      push_cast
      field_simp
  have e2 : out.2 = (depositParticles ps rho (fun _ => 0) (((xiI : ℝ) + 1) * -xiStep) rStep xiStep).2 := rfl
  rw [e1, e2, hd.1, hd.2]
  constructor
  · congr 2
    apply List.map_congr_left
    intro p hp
    obtain ⟨-, -, a, b⟩ := hps p hp
    have : |(p.xi - -(xiI * xiStep)) / xiStep| = -((p.xi - -(xiI * xiStep)) / xiStep) :=
      abs_of_nonpos (div_nonpos_of_nonpos_of_nonneg (by linarith) hx.le)
    rw [hat_of_mem ((p.xi - -(xiI * xiStep)) / xiStep) (by rw [this, ← neg_div, div_le_one hx]; linarith), this]
    push_cast
    field_simp
    ring
  · simp only [zero_add]
    congr 1
    apply List.map_congr_left
    intro p hp
    obtain ⟨-, -, a, b⟩ := hps p hp
    have : |(p.xi - -((xiI + 1) * xiStep)) / xiStep| = (p.xi - -((xiI + 1) * xiStep)) / xiStep :=
      abs_of_nonneg (div_nonneg (by linarith) hx.le)
    rw [hat_of_mem ((p.xi - -((xiI + 1) * xiStep)) / xiStep) (by rw [this, div_le_one hx]; linarith), this]
    push_cast
    field_simp

/-- Charge of a list of particles seen by node `i` of layer `k` (cloud in cell). -/
noncomputable def cic (rStep xiStep : ℝ) (i k : ℕ) (ps : List (Particle ℝ)) : ℝ :=
  (ps.map fun p => p.qnorm * hat (p.r / rStep - i) * hat ((p.xi - -(k * xiStep)) / xiStep)).sum

theorem cic_zero (rStep xiStep : ℝ) (i k : ℕ) (ps : List (Particle ℝ))
    (h : ∀ p ∈ ps, 1 ≤ |(p.xi - -(k * xiStep)) / xiStep|) : cic rStep xiStep i k ps = 0 := by
  unfold cic
  apply List.sum_eq_zero
  intro x hx
  obtain ⟨p, hp, rfl⟩ := List.mem_map.1 hx
  rw [hat_of_far _ (h p hp), mul_zero]

theorem cic_append (rStep xiStep : ℝ) (i k : ℕ) (a b : List (Particle ℝ)) :
    cic rStep xiStep i k (a ++ b) = cic rStep xiStep i k a + cic rStep xiStep i k b := by
  simp [cic]

theorem cic_behind (n : ℕ) (rStep xiStep : ℝ) (hx : 0 < xiStep) (i k k' : ℕ) (h : k + 1 ≤ k') (ps : List (Particle ℝ))
    (hps : ∀ p ∈ ps, Depositable n rStep xiStep k' p) : cic rStep xiStep i k ps = 0 := by
  apply cic_zero
  intro p hp
  obtain ⟨-, -, a, b⟩ := hps p hp
  have : ((k : ℝ) + 1) * xiStep ≤ k' * xiStep := by
    apply mul_le_mul_of_nonneg_right _ hx.le; exact_mod_cast h
  rw [abs_div, abs_of_pos hx, le_div_iff₀ hx, abs_of_nonpos (by linarith)]; linarith

theorem cic_ahead (n : ℕ) (rStep xiStep : ℝ) (hx : 0 < xiStep) (i k k' : ℕ) (h : k' + 2 ≤ k) (ps : List (Particle ℝ))
    (hps : ∀ p ∈ ps, Depositable n rStep xiStep k' p) : cic rStep xiStep i k ps = 0 := by
  apply cic_zero
  intro p hp
  obtain ⟨-, -, a, b⟩ := hps p hp
  have : ((k' : ℝ) + 2) * xiStep ≤ k * xiStep := by
    apply mul_le_mul_of_nonneg_right _ hx.le; exact_mod_cast h
  rw [abs_div, abs_of_pos hx, le_div_iff₀ hx, abs_of_nonneg (by linarith)]; linarith

theorem cic_behind_flatten (n : ℕ) (rStep xiStep : ℝ) (hx : 0 < xiStep) (i k i₀ : ℕ) (h : k + 1 ≤ i₀)
    (layers : List (List (Particle ℝ)))
    (hps : ∀ m (hm : m < layers.length), ∀ p ∈ layers[m], Depositable n rStep xiStep (i₀ + m) p) :
    cic rStep xiStep i k layers.flatten = 0 := by
  induction layers generalizing i₀ with
  | nil => simp [cic]
  | cons ps rest ih =>
    rw [List.flatten_cons, cic_append, ih (i₀ + 1) (by omega) (fun m hm p hp => by
      have := hps (m + 1) (by simpa using hm) p (by simpa using hp)
      rwa [show i₀ + (m + 1) = i₀ + 1 + m by omega] at this),
      cic_behind n rStep xiStep hx i k i₀ h ps (fun p hp => by simpa using hps 0 (by simp) p (by simpa using hp))]
    ring

theorem sweep_pointwise_aux (n : ℕ) (rStep xiStep : ℝ) (hr : 0 < rStep) (hx : 0 < xiStep)
    (layers : List (List (Particle ℝ))) (rho : ℤ → ℝ) (i₀ : ℕ) (prev : List (Particle ℝ))
    (hps : ∀ k (hk : k < layers.length), ∀ p ∈ layers[k], Depositable n rStep xiStep (i₀ + k) p)
    (hprev : ∀ k (i : ℕ), 0 < k → cic rStep xiStep i (i₀ + k) prev = 0)
    (hrho : ∀ i : ℕ, rho i = cic rStep xiStep i i₀ prev)
    (k : ℕ) (hk : k < layers.length) (i : ℕ) :
    ∃ d, (layoutSweep rStep xiStep rho i₀ layers).1[k]? = some d ∧
      nodeVolume rStep i * d i = cic rStep xiStep i (i₀ + k) (prev ++ layers.flatten) := by
  induction layers generalizing rho i₀ prev k with
  | nil => simp at hk
  | cons ps rest ih =>
    have h0 : ∀ p ∈ ps, Depositable n rStep xiStep i₀ p := fun p hp => by simpa using hps 0 (by simp) p (by simpa using hp)
    have hrest : ∀ m (hm : m < rest.length), ∀ p ∈ rest[m], Depositable n rStep xiStep (i₀ + 1 + m) p := fun m hm p hp => by
      have := hps (m + 1) (by simpa using hm) p (by simpa using hp)
      rwa [show i₀ + (m + 1) = i₀ + 1 + m by omega] at this
    cases k with
    | zero =>
      refine ⟨_, rfl, ?_⟩
      rw [(layout_pointwise n rStep xiStep hr hx rho ps i₀ h0 i).1, hrho, List.flatten_cons, cic_append, cic_append,
        add_zero, cic_behind_flatten n rStep xiStep hx i i₀ (i₀ + 1) le_rfl rest hrest]
      unfold cic
      ring
    | succ k =>
      obtain ⟨d, hd, e⟩ := ih (layoutBeamLayer rStep xiStep rho ps i₀).2 (i₀ + 1) ps hrest
        (fun k i hk => cic_ahead n rStep xiStep hx i _ i₀ (by omega) ps h0)
        (fun i => by
          rw [(layout_pointwise n rStep xiStep hr hx rho ps i₀ h0 i).2]
          unfold cic; push_cast; rfl) k (by simpa using hk)
      refine ⟨d, hd, ?_⟩
      rw [e, List.flatten_cons, cic_append, cic_append, cic_append, hprev (k + 1) i (by omega),
        show i₀ + 1 + k = i₀ + (k + 1) by omega]
      ring

/-- C08, pointwise for a whole time step: the density laid out for layer `k` on radial node `i` is the cloud-in-cell sum
over ALL beam particles of the window, whatever layer they were delivered in. -/
theorem sweep_pointwise (n : ℕ) (rStep xiStep : ℝ) (hr : 0 < rStep) (hx : 0 < xiStep)
    (layers : List (List (Particle ℝ)))
    (hps : ∀ k (hk : k < layers.length), ∀ p ∈ layers[k], Depositable n rStep xiStep k p)
    (k : ℕ) (hk : k < layers.length) (i : ℕ) :
    ∃ d, (layoutSweep rStep xiStep (fun _ => 0) 0 layers).1[k]? = some d ∧
      nodeVolume rStep i * d i = (layers.flatten.map fun p =>
        p.qnorm * hat (p.r / rStep - i) * hat ((p.xi - -(k * xiStep)) / xiStep)).sum := by
  have := sweep_pointwise_aux n rStep xiStep hr hx layers (fun _ => 0) 0 [] (by simpa using hps)
    (by simp [cic]) (by simp [cic]) k hk i
  simpa [cic] using this

/-! ### Interpolation and motion -/

/-- Fields that are affine in radius and `xi` are interpolated exactly: `f0` holds the layer behind the
particle's start (`xiK1 + xiStep`), `f1` the layer at `xiK1`. -/
theorem interpolate_affine (a b c r xi xiK1 rStep xiStep : ℝ) (hr : rStep ≠ 0) (hx : xiStep ≠ 0) (v0 v1 : ℤ → ℝ)
    (h0 : ∀ j : ℤ, v0 j = a + b * (j * rStep) + c * (xiK1 + xiStep))
    (h1 : ∀ j : ℤ, v1 j = a + b * (j * rStep) + c * xiK1) :
    interpolateParticle v0 v1 (beamParticleWeights r xi xiK1 rStep xiStep) = a + b * r + c * xi := by
  unfold interpolateParticle beamParticleWeights
  simp only [h0, h1]
  push_cast
  field_simp
  ring

/-- An array of node values sampling the affine field `a + b r + c xi` on the layer at `xi`. -/
def Samples (rStep xi : ℝ) (k : ℝ × ℝ × ℝ) (v : ℤ → ℝ) : Prop := ∀ j : ℤ, v j = k.1 + k.2.1 * (j * rStep) + k.2.2 * xi

/-- C41, field part: if every component is affine in radius and xi and the two layers sample it (`f0` at `xiK1 + xiStep`, `f1` at `xiK1`), the particle
feels in its local frame exactly (E_r, E_f, E_z) and (-E_f, B_f, B_z) of its own position. -/
theorem particle_fields_exact (rv : V3) (f1 f0 : Fields) (xiK1 rStep xiStep : ℝ) (hr : rStep ≠ 0) (hx : xiStep ≠ 0)
    (er ef ez bf bz : ℝ × ℝ × ℝ)
    (h0 : Samples rStep (xiK1 + xiStep) er f0.Er ∧ Samples rStep (xiK1 + xiStep) ef f0.Ef ∧
      Samples rStep (xiK1 + xiStep) ez f0.Ez ∧ Samples rStep (xiK1 + xiStep) bf f0.Bf ∧ Samples rStep (xiK1 + xiStep) bz f0.Bz)
    (h1 : Samples rStep xiK1 er f1.Er ∧ Samples rStep xiK1 ef f1.Ef ∧
      Samples rStep xiK1 ez f1.Ez ∧ Samples rStep xiK1 bf f1.Bf ∧ Samples rStep xiK1 bz f1.Bz) :
    let r := Real.sqrt (rv.x ^ 2 + rv.y ^ 2)
    let at' : ℝ × ℝ × ℝ → ℝ := fun k => k.1 + k.2.1 * r + k.2.2 * rv.z
    particleFields rv f1 f0 xiK1 rStep xiStep = (⟨at' er, at' ef, at' ez⟩, ⟨-at' ef, at' bf, at' bz⟩) := by
  intro r at'
  obtain ⟨a1, a2, a3, a4, a5⟩ := h0
  obtain ⟨b1, b2, b3, b4, b5⟩ := h1
  unfold particleFields
  simp only [interpolate_affine _ _ _ _ _ _ _ _ hr hx _ _ a1 b1, interpolate_affine _ _ _ _ _ _ _ _ hr hx _ _ a2 b2,
    interpolate_affine _ _ _ _ _ _ _ _ hr hx _ _ a3 b3, interpolate_affine _ _ _ _ _ _ _ _ hr hx _ _ a4 b4,
    interpolate_affine _ _ _ _ _ _ _ _ hr hx _ _ a5 b5]
  rfl

/-- Angular component of the momentum. -/
noncomputable def pPhi (p : Particle ℝ) : ℝ := p.M / p.r

/-- Relativistic factor times rest mass. -/
noncomputable def gammaM (p : Particle ℝ) : ℝ := Real.sqrt ((1 / p.qm) ^ 2 + (p.pr ^ 2 + pPhi p ^ 2 + p.pz ^ 2))

/-- C41: a completed substep advances the longitudinal momentum by the Lorentz force at the half-step position with the velocity at the start of the
substep, and, in the Cartesian plane of the particle (x along its radius), the transverse
momentum likewise; the position is advanced by the velocity of the mean momentum. `E`, `B` are the fields
the particle feels at its half-step position. -/
theorem push_leapfrog (c : PushCfg) (xiEnd : ℝ) (f1 f0 : Fields) (dt : ℝ) (p p' : Particle ℝ) (lost : Bool)
    (h : pushTurn c xiEnd f1 f0 dt p = .inr (p', lost)) :
    ∃ E B : V3, ∃ b : ℝ, particleFields (halfPosition dt p) f1 f0 xiEnd c.rStep c.xiStep = (E, ⟨B.x, B.y, b⟩) ∧
      B.z = b + c.magneticField ∧
      ∃ px py pz x y : ℝ,
        px = p.pr + dt * SignType.sign p.qm * (E.x + (pPhi p * B.z - p.pz * B.y) / gammaM p) ∧
        py = pPhi p + dt * SignType.sign p.qm * (E.y + (p.pz * B.x - p.pr * B.z) / gammaM p) ∧
        pz = p.pz + dt * SignType.sign p.qm * (E.z + (p.pr * B.y - pPhi p * B.x) / gammaM p) ∧
        (∃ g, g = Real.sqrt ((1 / p.qm) ^ 2 + (((p.pr + px) / 2) ^ 2 + ((pPhi p + py) / 2) ^ 2 + ((p.pz + pz) / 2) ^ 2)) ∧
          x = p.r + dt / g * ((p.pr + px) / 2) ∧ y = dt / g * ((pPhi p + py) / 2) ∧
          p'.xi = p.xi + dt * ((p.pz + pz) / 2 / g - 1)) ∧
        p'.pz = pz ∧ p'.r = Real.sqrt (x ^ 2 + y ^ 2) ∧ p'.pr = (x * px + y * py) / p'.r ∧
        (c.magneticField ≠ 0 → p'.M = x * py - y * px) := by
  have hhalf : halfPosition dt p =
      ⟨p.r + dt / 2 / Real.sqrt ((1 / p.qm) ^ 2 + V3.sq ⟨p.pr, p.M / p.r, p.pz⟩) * p.pr,
       dt / 2 / Real.sqrt ((1 / p.qm) ^ 2 + V3.sq ⟨p.pr, p.M / p.r, p.pz⟩) * (p.M / p.r),
       p.xi + dt / 2 / Real.sqrt ((1 / p.qm) ^ 2 + V3.sq ⟨p.pr, p.M / p.r, p.pz⟩) * p.pz
          - dt / 2⟩ := rfl
  unfold pushTurn at h
  simp only [beamToVec, V3.add, V3.smul, inLayer, isLost, zero_add] at h
  rw [← hhalf] at h
  rw [ite_eq_iff] at h
  rcases h with ⟨-, h⟩ | ⟨-, h⟩
  · simp at h
  rw [ite_eq_iff] at h
  rcases h with ⟨-, h⟩ | ⟨-, h⟩
  · simp at h
  simp only [Sum.inr.injEq, Prod.mk.injEq] at h
  obtain ⟨h, -⟩ := h
  generalize particleFields (halfPosition dt p) f1 f0 xiEnd c.rStep c.xiStep = F at h ⊢
  obtain ⟨E, B⟩ := F
  have hg : Real.sqrt ((1 / p.qm) ^ 2 + V3.sq ⟨p.pr, p.M / p.r, p.pz⟩) = gammaM p := rfl
  rw [hg] at h
  generalize gammaM p = g at *
  have hphi : p.M / p.r = pPhi p := rfl
  rw [hphi] at h
  refine ⟨E, ⟨B.x, B.y, B.z + c.magneticField⟩, B.z, rfl, rfl, _, _, _, _, _, rfl, rfl, rfl, ⟨_, rfl, rfl, rfl, ?_⟩, ?_, ?_, ?_, ?_⟩
  all_goals
    rw [← h]
    simp only [vecToBeam, V3.cross, V3.sq]
  · ring_nf
  · ring
  · ring_nf
  · ring_nf
  · intro hm; rw [if_pos hm]; ring_nf

/-- C41, corollary: without fields a completed substep leaves the energy and all invariants of motion unchanged: longitudinal momentum,
transverse momentum squared and angular momentum; and `xi` drifts by exactly (velocity - 1) dt. -/
theorem free_motion (c : PushCfg) (hB : c.magneticField = 0) (xiEnd : ℝ) (dt : ℝ) (p p' : Particle ℝ) (lost : Bool)
    (hr : p.r ≠ 0) (hr' : p'.r ≠ 0)
    (h : pushTurn c xiEnd ⟨0, 0, 0, 0, 0⟩ ⟨0, 0, 0, 0, 0⟩ dt p = .inr (p', lost)) :
    p'.pz = p.pz ∧ p'.M = p.M ∧ p'.pr ^ 2 + pPhi p' ^ 2 = p.pr ^ 2 + pPhi p ^ 2 ∧
      gammaM p' = gammaM p ∧ p'.xi = p.xi + dt * (p.pz / gammaM p - 1) := by
  have hM : p'.M = p.M ∧ p'.qm = p.qm := by
    rcases pushTurn_cases c xiEnd ⟨0, 0, 0, 0, 0⟩ ⟨0, 0, 0, 0, 0⟩ dt p with ⟨_, h'⟩ | ⟨_, _, q, h', _⟩ |
      ⟨_, _, q, l, h', _, _, _, _, _, a4, _, a6⟩
    · rw [h'] at h; simp at h
    · rw [h'] at h; simp at h
    · rw [h'] at h
      simp only [Sum.inr.injEq, Prod.mk.injEq] at h
      rw [← h.1]; exact ⟨a6 hB, a4⟩
  obtain ⟨E, B, b, hf, hb, px, py, pz, x, y, e1, e2, e3, ⟨g, e4, e5, e6, e7⟩, e8, e9, e10, -⟩ := push_leapfrog _ _ _ _ _ _ _ _ h
  have hz : particleFields (halfPosition dt p) ⟨0, 0, 0, 0, 0⟩ ⟨0, 0, 0, 0, 0⟩ xiEnd c.rStep c.xiStep
      = (⟨0, 0, 0⟩, ⟨0, 0, 0⟩) := by
    simp [particleFields, interpolateParticle]
  rw [hz] at hf
  simp only [Prod.mk.injEq, V3.mk.injEq] at hf
  obtain ⟨rfl, f1, f2, f3⟩ := hf
  rw [← f3, hB] at hb
  simp only [hb, ← f2, ← f1, mul_zero, sub_self, zero_div, add_zero] at e1 e2 e3
  subst e1 e2 e3
  have hgg : g = gammaM p := by
    rw [e4]; unfold gammaM; congr 1; ring
  have hk : p'.pr ^ 2 + pPhi p' ^ 2 = p.pr ^ 2 + pPhi p ^ 2 := by
    have hsq : p'.r ^ 2 = x ^ 2 + y ^ 2 := by rw [e9]; exact Real.sq_sqrt (by positivity)
    have hm : p.M = x * pPhi p - y * p.pr := by
      rw [e5, e6]; unfold pPhi; field_simp; ring
    have hphi : pPhi p' = (x * pPhi p - y * p.pr) / p'.r := by
      rw [← hm, ← hM.1]; rfl
    rw [e10, hphi, div_pow, div_pow, ← add_div, div_eq_iff (by positivity), hsq]
    ring
  refine ⟨e8, hM.1, hk, ?_, ?_⟩
  · unfold gammaM; rw [hk, e8, hM.2]
  · rw [e7, hgg]; ring

/-- A particle at rest half a cell behind the layer start completes a substep: the hypothesis of `push_leapfrog` is met. -/
example : ∃ p' lost, pushTurn ⟨1, 1, 10, 0⟩ (-1) ⟨0, 0, 0, 0, 0⟩ ⟨0, 0, 0, 0, 0⟩ 1
    ⟨-1/2, 1, 0, 0, 0, 1, 1, 1⟩ = .inr (p', lost) := by
  rcases pushTurn_cases ⟨1, 1, 10, 0⟩ (-1) ⟨0, 0, 0, 0, 0⟩ ⟨0, 0, 0, 0, 0⟩ 1 ⟨-1/2, 1, 0, 0, 0, 1, 1, 1⟩ with ⟨h', _⟩ | ⟨_, h', _⟩ |
      ⟨_, _, q, l, h', _⟩
  · norm_num [halfPosition] at h'
  · norm_num [halfPosition, PushCfg.lostBoundary] at h'
  · exact ⟨q, l, h'⟩

end Lcode.Beam2D
