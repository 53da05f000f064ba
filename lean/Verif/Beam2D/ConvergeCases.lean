import Verif.Beam2D.Converge
import Verif.Beam3D.ConvergeCases

/-!
Property C69, second part: the fields come from arrays that sample them at the nodes of two layers; one constant for all grids; particles in a uniform magnetic field and without fields.
-/

namespace Lcode.Beam2D

open Lcode.Plasma3D (Vec3)
open Lcode.Beam3D (Within Motion Tame vel vel1 lorentz shift3 vel_le_one Slow noE oneB noE_tame circX circP circ_smooth om om_sq om_pos)

/-! ### Specification -/

/-- The arrays `F` of the layer at `xi` hold the components of the fields `E`, `B` at the nodes 0, h, ..., n h of the radial grid. `B` contains the external field `b0`, the arrays do not; there is no array for B_r: `B_r = -E_phi`. -/
def Sampled (rStep : ℝ) (nodes : ℕ) (b0 xi : ℝ) (E B : Vec3 → Vec3) (F : Fields) : Prop :=
  ∀ j : ℤ, 0 ≤ j → j ≤ nodes → E ⟨j * rStep, 0, xi⟩ = ⟨F.Er j, F.Ef j, F.Ez j⟩ ∧ B ⟨j * rStep, 0, xi⟩ = ⟨-F.Ef j, F.Bf j, F.Bz j + b0⟩

/-- `p 0, ..., p n` are the states of one particle after 0, ..., n completed substeps `dt`; substep `k` takes place in the layer that ends at `xiEnd`, has the half-step position, and whose arrays
sample the fields on its two borders at some moment not more than `lag` away from the substep. -/
def PushedS (c : PushCfg) (nodes : ℕ) (E B : ℝ → Vec3 → Vec3) (lag dt : ℝ) (n : ℕ) (p : ℕ → Particle ℝ) : Prop :=
  0 < (p 0).r ∧ ∀ k < n, ∃ (xiEnd : ℝ) (f1 f0 : Fields) (s : ℝ), pushTurn c xiEnd f1 f0 dt (p k) = .inr (p (k + 1), false) ∧ 0 < (p (k + 1)).r ∧ (halfPosition dt (p k)).z ≤ xiEnd + c.xiStep ∧
    Sampled c.rStep nodes c.magneticField (xiEnd + c.xiStep) (E s) (B s) f0 ∧ Sampled c.rStep nodes c.magneticField xiEnd (E s) (B s) f1 ∧
    (∀ t, k * dt ≤ t → t ≤ (k + 1) * dt → |t - s| ≤ lag) ∧
    (c.magneticField = 0 → ∀ j, f0.Ef j = 0 ∧ f1.Ef j = 0 ∧ f0.Bz j = 0 ∧ f1.Bz j = 0)

/-! ### Interpolation -/

/-- The interpolated value is within `e` of `v` when the four nodes are. -/
theorem interpolate_near (r xi xiEnd rStep xiStep : ℝ) (hr : 0 ≤ r) (hh : 0 < rStep) (hd : 0 < xiStep) (h1 : xiEnd ≤ xi) (h2 : xi ≤ xiEnd + xiStep) (v0 v1 : ℤ → ℝ) (v e : ℝ)
    (hF : ∀ j : ℤ, 0 ≤ j → j ≤ r / rStep + 1 → |j * rStep - r| ≤ rStep → |v0 j - v| ≤ e ∧ |v1 j - v| ≤ e) :
    |interpolateParticle v0 v1 (beamParticleWeights r xi xiEnd rStep xiStep) - v| ≤ e := by
  have f1 := Int.floor_le (r / rStep)
  have f2 := Int.lt_floor_add_one (r / rStep)
  have f0 : 0 ≤ ⌊r / rStep⌋ := Int.floor_nonneg.mpr (by positivity)
  have er : r = r / rStep * rStep := by field_simp
  have e1 : |((⌊r / rStep⌋ : ℤ) : ℝ) * rStep - r| ≤ rStep := by
    rw [abs_le]; constructor <;> nlinarith
  have e2 : |((⌊r / rStep⌋ + 1 : ℤ) : ℝ) * rStep - r| ≤ rStep := by
    push_cast; rw [abs_le]; constructor <;> nlinarith
  obtain ⟨a1, a2⟩ := hF ⌊r / rStep⌋ f0 (by linarith) e1
  obtain ⟨a3, a4⟩ := hF (⌊r / rStep⌋ + 1) (by omega) (by push_cast; linarith) e2
  unfold interpolateParticle beamParticleWeights
  simp only [add_zero]
  have s0 : 0 ≤ -(xiEnd - xi) / xiStep := div_nonneg (by linarith) hd.le
  have s1 : -(xiEnd - xi) / xiStep ≤ 1 := by rw [div_le_one hd]; linarith
  have t0 : 0 ≤ r / rStep - ⌊r / rStep⌋ := by linarith
  have t1 : r / rStep - ⌊r / rStep⌋ ≤ 1 := by linarith
  generalize -(xiEnd - xi) / xiStep = s at *
  generalize r / rStep - ⌊r / rStep⌋ = t at *
  generalize v0 ⌊r / rStep⌋ = x1 at *
  generalize v1 ⌊r / rStep⌋ = x2 at *
  generalize v0 (⌊r / rStep⌋ + 1) = x3 at *
  generalize v1 (⌊r / rStep⌋ + 1) = x4 at *
  have key : s * (1 - t) * x1 + s * t * x3 + (1 - s) * (1 - t) * x2 + (1 - s) * t * x4 - v = s * (1 - t) * (x1 - v) + s * t * (x3 - v) + (1 - s) * (1 - t) * (x2 - v) + (1 - s) * t * (x4 - v) := by ring
  rw [key]
  have w : ∀ k x : ℝ, 0 ≤ k → |x - v| ≤ e → |k * (x - v)| ≤ k * e := by
    intro k x hk hx
    rw [abs_mul, abs_of_nonneg hk]
    exact mul_le_mul_of_nonneg_left hx hk
  have b1 := w (s * (1 - t)) x1 (mul_nonneg s0 (by linarith)) a1
  have b2 := w (s * t) x3 (mul_nonneg s0 t0) a3
  have b3 := w ((1 - s) * (1 - t)) x2 (mul_nonneg (by linarith) (by linarith)) a2
  have b4 := w ((1 - s) * t) x4 (mul_nonneg (by linarith) t0) a4
  have q1 := abs_add_le (s * (1 - t) * (x1 - v) + s * t * (x3 - v) + (1 - s) * (1 - t) * (x2 - v)) ((1 - s) * t * (x4 - v))
  have q2 := abs_add_le (s * (1 - t) * (x1 - v) + s * t * (x3 - v)) ((1 - s) * (1 - t) * (x2 - v))
  have q3 := abs_add_le (s * (1 - t) * (x1 - v)) (s * t * (x3 - v))
  have total : s * (1 - t) * e + s * t * e + (1 - s) * (1 - t) * e + (1 - s) * t * e = e := by ring
  linarith

/-- C69: the fields a particle of the 2D code feels differ by at most `L (h + dxi)` from the true ones at its radius and xi. -/
theorem felt_error (c : PushCfg) (hh : 0 < c.rStep) (hd : 0 < c.xiStep) (nodes : ℕ) (hn : c.lostBoundary ≤ (nodes - 1) * c.rStep) (hb : 0 ≤ c.lostBoundary) {M L : ℝ} {E B : ℝ → Vec3 → Vec3} (hE : Tame M L E) (hB : Tame M L B)
    (s xiEnd dt : ℝ) (p p' : Particle ℝ) (lost : Bool) (f1 f0 : Fields) (h0 : Sampled c.rStep nodes c.magneticField (xiEnd + c.xiStep) (E s) (B s) f0) (h1 : Sampled c.rStep nodes c.magneticField xiEnd (E s) (B s) f1)
    (ht : pushTurn c xiEnd f1 f0 dt p = .inr (p', lost)) (hz : (halfPosition dt p).z ≤ xiEnd + c.xiStep) :
    Within (feltE c xiEnd f1 f0 dt p) (E s (halfRadius dt p)) (L * (c.rStep + c.xiStep)) ∧ Within (feltB c xiEnd f1 f0 dt p) (B s (halfRadius dt p)) (L * (c.rStep + c.xiStep)) := by
  have hin : xiEnd ≤ (halfPosition dt p).z ∧ (halfPosition dt p).x ^ 2 + (halfPosition dt p).y ^ 2 < c.lostBoundary ^ 2 := by
    rcases pushTurn_cases c xiEnd f1 f0 dt p with ⟨_, h'⟩ | ⟨_, _, q, h', _⟩ | ⟨g1, g2, _⟩
    · rw [h'] at ht; simp at ht
    · rw [h'] at ht; simp at ht
    · exact ⟨g1, g2⟩
  obtain ⟨hz', hlt⟩ := hin
  have r0 : 0 ≤ Real.sqrt ((halfPosition dt p).x ^ 2 + (halfPosition dt p).y ^ 2) := Real.sqrt_nonneg _
  have r1 : Real.sqrt ((halfPosition dt p).x ^ 2 + (halfPosition dt p).y ^ 2) ≤ (nodes - 1) * c.rStep := (Real.sqrt_le_left hb).mpr hlt.le |>.trans hn
  have near : ∀ (j : ℤ) (xi : ℝ), |j * c.rStep - Real.sqrt ((halfPosition dt p).x ^ 2 + (halfPosition dt p).y ^ 2)| ≤ c.rStep → |xi - (halfPosition dt p).z| ≤ c.xiStep →
      Within ⟨j * c.rStep, 0, xi⟩ (halfRadius dt p) (c.rStep + c.xiStep) := by
    intro j xi k1 k2
    refine ⟨?_, ?_, ?_⟩
    · show |j * c.rStep - Real.sqrt ((halfPosition dt p).x ^ 2 + (halfPosition dt p).y ^ 2)| ≤ _; linarith
    · show |(0 : ℝ) - 0| ≤ _; simp; linarith
    · show |xi - (halfPosition dt p).z| ≤ _; linarith
  have z0 : |xiEnd + c.xiStep - (halfPosition dt p).z| ≤ c.xiStep := by rw [abs_le]; constructor <;> linarith
  have z1 : |xiEnd - (halfPosition dt p).z| ≤ c.xiStep := by rw [abs_le]; constructor <;> linarith
  have node : ∀ j : ℤ, 0 ≤ j → (j : ℝ) ≤ Real.sqrt ((halfPosition dt p).x ^ 2 + (halfPosition dt p).y ^ 2) / c.rStep + 1 →
      |j * c.rStep - Real.sqrt ((halfPosition dt p).x ^ 2 + (halfPosition dt p).y ^ 2)| ≤ c.rStep →
      (Within ⟨f0.Er j, f0.Ef j, f0.Ez j⟩ (E s (halfRadius dt p)) (L * (c.rStep + c.xiStep)) ∧ Within ⟨f1.Er j, f1.Ef j, f1.Ez j⟩ (E s (halfRadius dt p)) (L * (c.rStep + c.xiStep))) ∧
      (Within ⟨-f0.Ef j, f0.Bf j, f0.Bz j + c.magneticField⟩ (B s (halfRadius dt p)) (L * (c.rStep + c.xiStep)) ∧ Within ⟨-f1.Ef j, f1.Bf j, f1.Bz j + c.magneticField⟩ (B s (halfRadius dt p)) (L * (c.rStep + c.xiStep))) := by
    intro j j0 j1 j2
    have j3 : j ≤ nodes := by
      have : Real.sqrt ((halfPosition dt p).x ^ 2 + (halfPosition dt p).y ^ 2) / c.rStep ≤ nodes - 1 := by rw [div_le_iff₀ hh]; exact r1
      have : (j : ℝ) ≤ (nodes : ℝ) := by linarith
      exact_mod_cast this
    rw [← (h0 j j0 j3).1, ← (h0 j j0 j3).2, ← (h1 j j0 j3).1, ← (h1 j j0 j3).2]
    exact ⟨⟨hE.lipschitz _ _ _ _ (near j _ j2 z0), hE.lipschitz _ _ _ _ (near j _ j2 z1)⟩, ⟨hB.lipschitz _ _ _ _ (near j _ j2 z0), hB.lipschitz _ _ _ _ (near j _ j2 z1)⟩⟩
  have itp := interpolate_near (Real.sqrt ((halfPosition dt p).x ^ 2 + (halfPosition dt p).y ^ 2)) (halfPosition dt p).z xiEnd c.rStep c.xiStep r0 hh hd hz' hz
  refine ⟨⟨?_, ?_, ?_⟩, ⟨?_, ?_, ?_⟩⟩
  · exact itp f0.Er f1.Er _ _ (fun j a1 a2 a3 => ⟨(node j a1 a2 a3).1.1.1, (node j a1 a2 a3).1.2.1⟩)
  · exact itp f0.Ef f1.Ef _ _ (fun j a1 a2 a3 => ⟨(node j a1 a2 a3).1.1.2.1, (node j a1 a2 a3).1.2.2.1⟩)
  · exact itp f0.Ez f1.Ez _ _ (fun j a1 a2 a3 => ⟨(node j a1 a2 a3).1.1.2.2, (node j a1 a2 a3).1.2.2.2⟩)
  · have flip : ∀ a b : ℝ, |-a - b| = |a - -b| := by intro a b; rw [← abs_neg]; congr 1; ring
    have := itp f0.Ef f1.Ef (-(B s (halfRadius dt p)).x) _ (fun j a1 a2 a3 => ⟨by rw [← flip]; exact (node j a1 a2 a3).2.1.1, by rw [← flip]; exact (node j a1 a2 a3).2.2.1⟩)
    rw [← flip] at this
    exact this
  · exact itp f0.Bf f1.Bf _ _ (fun j a1 a2 a3 => ⟨(node j a1 a2 a3).2.1.2.1, (node j a1 a2 a3).2.2.2.1⟩)
  · have shift : ∀ a b : ℝ, |a + c.magneticField - b| = |a - (b - c.magneticField)| := by intro a b; congr 1; ring
    have := itp f0.Bz f1.Bz ((B s (halfRadius dt p)).z - c.magneticField) _ (fun j a1 a2 a3 => ⟨by rw [← shift]; exact (node j a1 a2 a3).2.1.2.2, by rw [← shift]; exact (node j a1 a2 a3).2.2.2.2⟩)
    rw [← shift] at this
    exact this

theorem PushedS.pushed {c : PushCfg} (hh : 0 < c.rStep) (hd : 0 < c.xiStep) {nodes : ℕ} (hn : c.lostBoundary ≤ (nodes - 1) * c.rStep) (hb : 0 ≤ c.lostBoundary)
    {M L D lag dt : ℝ} (hD : 0 ≤ D) {E B : ℝ → Vec3 → Vec3} (hE : Tame M L E) (hB : Tame M L B) (hsE : Slow D E) (hsB : Slow D B) {n : ℕ} {p : ℕ → Particle ℝ} (h : PushedS c nodes E B lag dt n p) :
    Pushed c E B (L * (c.rStep + c.xiStep) + D * lag) dt n p := by
  refine ⟨h.1, fun k hk => ?_⟩
  obtain ⟨xiEnd, f1, f0, s, ht, hr, hz, s0, s1, hlag, h0⟩ := h.2 k hk
  obtain ⟨q1, q2⟩ := felt_error c hh hd nodes hn hb hE hB s xiEnd dt _ _ _ f1 f0 s0 s1 ht hz
  refine ⟨xiEnd, f1, f0, ht, hr, fun t t1 t2 => ?_, fun hB0 => ?_⟩
  · have hl := hlag t t1 t2
    rw [abs_sub_comm] at hl
    have hl' := mul_le_mul_of_nonneg_left hl hD
    exact ⟨(q1.trans (hsE s t _)).mono (by linarith), (q2.trans (hsB s t _)).mono (by linarith)⟩
  · have hz := h0 hB0
    constructor
    · simp only [feltE, particleFields, interpolateParticle, (hz _).1, (hz _).2.1]; ring
    · simp only [feltB, particleFields, interpolateParticle, (hz _).2.2.1, (hz _).2.2.2, hB0]; ring

/-- C69, in one line: for given axisymmetric fields, particle and time interval there is a constant `C` such that on EVERY grid (steps not above 1) and for every substep (not above 1) the state computed by the 2D pusher is,
up to a rotation around the axis, within `C (e0 + dt + h + dxi + lag)` of the true one at all times. -/
theorem first_order_2d {M L D T qm : ℝ} (hq : qm ≠ 0) (hM : 0 ≤ M) (hL : 0 ≤ L) (hD : 0 ≤ D) (hT : 0 ≤ T) {E B : ℝ → Vec3 → Vec3} (hE : Tame M L E) (hB : Tame M L B) (aE : Axisymmetric E) (aB : Axisymmetric B)
    (hsE : Slow D E) (hsB : Slow D B) {X P : ℝ → Vec3} (hm : Motion qm E B T X P) :
    ∃ C, 0 < C ∧ ∀ (c : PushCfg) (nodes : ℕ) (lag dt e0 : ℝ) (n : ℕ) (p : ℕ → Particle ℝ), 0 < c.rStep → c.rStep ≤ 1 → 0 < c.xiStep → c.xiStep ≤ 1 → c.lostBoundary ≤ (nodes - 1) * c.rStep → 0 ≤ c.lostBoundary →
      0 ≤ lag → lag ≤ 1 → (p 0).qm = qm → 0 ≤ dt → dt ≤ 1 → n * dt ≤ T → PushedS c nodes E B lag dt n p → Within (localPos (p 0)) (X 0) e0 → Within (localMom (p 0)) (P 0) e0 →
      ∀ k ≤ n, ∃ u v, u ^ 2 + v ^ 2 = 1 ∧ Within (rot u v (localPos (p k))) (X (k * dt)) (C * (e0 + dt + c.rStep + c.xiStep + lag)) ∧
        Within (rot u v (localMom (p k))) (P (k * dt)) (C * (e0 + dt + c.rStep + c.xiStep + lag)) := by
  have hqa : 0 < |qm| := abs_pos.mpr hq
  obtain ⟨A, hA⟩ : ∃ A, A = 3 * L + 6 * |qm| * M + 3 * |qm| := ⟨_, rfl⟩
  obtain ⟨K, hK⟩ : ∃ K, K = 22 * L + 18 * |qm| * M ^ 2 + 27 / 2 * |qm| * M + 9 / 2 * |qm| * (2 * (2 * L + D) + 3 * L) := ⟨_, rfl⟩
  have hApos : 0 < A := by rw [hA]; positivity
  have hKpos : 0 ≤ K := by rw [hK]; positivity
  have hx : 0 < Real.exp (A * T) := Real.exp_pos _
  refine ⟨Real.exp (A * T) + Real.exp (A * T) / A * (7 * (L + D) + K), by positivity, ?_⟩
  intro c nodes lag dt e0 n p hh hh1 hd hd1 hR hpos hlag hlag1 hqm hdt hdt1 hnT hr hx0 hp0 k hk
  subst hqm
  obtain ⟨del, hdel⟩ : ∃ del, del = L * (c.rStep + c.xiStep) + D * lag := ⟨_, rfl⟩
  have del0 : 0 ≤ del := by rw [hdel]; positivity
  have hpu := hr.pushed hh hd hR hpos hD hE hB hsE hsB
  rw [← hdel] at hpu
  obtain ⟨A', K', err, u, v, e1, e3, e4, huv, r1, r2⟩ := converges_2d c n p hq hm hE hB aE aB hL del0 hdt hnT hpu hx0 hp0 k hk
  rw [← hA] at e1
  subst e1
  have he0 := hx0.nonneg
  have del1 : del ≤ (L + D) * (c.rStep + c.xiStep + lag) := by
    rw [hdel]
    have m2 : 0 ≤ L * lag := by positivity
    have m3 : 0 ≤ D * c.rStep := by positivity
    have m4 : 0 ≤ D * c.xiStep := by positivity
    nlinarith
  have del2 : del ≤ 2 * L + D := by
    rw [hdel]
    have m1 : L * c.rStep ≤ L * 1 := mul_le_mul_of_nonneg_left hh1 hL
    have m2 : L * c.xiStep ≤ L * 1 := mul_le_mul_of_nonneg_left hd1 hL
    have m3 : D * lag ≤ D * 1 := mul_le_mul_of_nonneg_left hlag1 hD
    linarith
  have K1 : K' ≤ K := by
    rw [e3, hK]
    have m1 : L * dt ≤ L * 1 := mul_le_mul_of_nonneg_left hdt1 hL
    have := mul_le_mul_of_nonneg_left (by linarith : 2 * del + 3 * L * dt ≤ 2 * (2 * L + D) + 3 * L) (by positivity : 0 ≤ 9 / 2 * |(p 0).qm|)
    linarith
  have ht : (k : ℝ) * dt ≤ T := by
    have : (k : ℝ) ≤ n := by exact_mod_cast hk
    exact (mul_le_mul_of_nonneg_right this hdt).trans hnT
  have hexp : Real.exp (A' * (k * dt)) ≤ Real.exp (A' * T) := Real.exp_le_exp.mpr (mul_le_mul_of_nonneg_left ht hApos.le)
  have hS : 7 * del + dt * K' ≤ (7 * (L + D) + K) * (e0 + dt + c.rStep + c.xiStep + lag) := by
    have m1 := mul_le_mul_of_nonneg_left K1 hdt
    have m2 : 0 ≤ (L + D) * (e0 + dt) := by positivity
    have m3 : 0 ≤ K * (e0 + c.rStep + c.xiStep + lag) := by positivity
    nlinarith
  have hS0 : 0 ≤ 7 * del + dt * K' := by
    have : 0 ≤ K' := by rw [e3]; positivity
    positivity
  have herr : err ≤ (Real.exp (A' * T) + Real.exp (A' * T) / A' * (7 * (L + D) + K)) * (e0 + dt + c.rStep + c.xiStep + lag) := by
    rw [e4, add_mul]
    have m1 : Real.exp (A' * (k * dt)) * e0 ≤ Real.exp (A' * T) * (e0 + dt + c.rStep + c.xiStep + lag) := mul_le_mul hexp (by linarith) he0 hx.le
    have m2 : (Real.exp (A' * (k * dt)) - 1) / A' ≤ Real.exp (A' * T) / A' := div_le_div_of_nonneg_right (by linarith) hApos.le
    have m3 := mul_le_mul m2 hS hS0 (by positivity)
    rw [mul_assoc]
    linarith
  exact ⟨u, v, huv, r1.mono herr, r2.mono herr⟩

/-! ### A uniform magnetic field, and no field at all -/

/-- Arrays without fields. -/
def zeroF : Fields := ⟨fun _ => 0, fun _ => 0, fun _ => 0, fun _ => 0, fun _ => 0⟩

/-- Radial step 1/2, xi step 1, window width 10, external magnetic field `b`. -/
noncomputable def cfgC (b : ℝ) : PushCfg := ⟨1 / 2, 1, 10, b⟩

theorem cfgC_boundary (b : ℝ) : (cfgC b).lostBoundary = 9 := by unfold PushCfg.lostBoundary cfgC; norm_num

/-- The particle at the start: radius 3, momentum `pr`, angular momentum `M`. -/
def startC (pr M : ℝ) : Particle ℝ := ⟨0, 3, 0, pr, M, 1, 1, 1⟩

/-- The particle inside the outcome of a turn. -/
def afterTurn : (Particle ℝ × Bool) ⊕ (Particle ℝ × Bool) → Particle ℝ
  | .inl a => a.1
  | .inr a => a.1

/-- The states after 0, 1, 2, ... turns. -/
noncomputable def runC (b d pr M : ℝ) : ℕ → Particle ℝ
  | 0 => startC pr M
  | k + 1 => afterTurn (pushTurn (cfgC b) (-(⌊k * d + d / 2⌋ + 1 : ℤ)) zeroF zeroF d (runC b d pr M k))

theorem felt_zero (b xiEnd d : ℝ) (p : Particle ℝ) : feltE (cfgC b) xiEnd zeroF zeroF d p = ⟨0, 0, 0⟩ ∧ feltB (cfgC b) xiEnd zeroF zeroF d p = ⟨0, 0, b⟩ := by
  simp [feltE, feltB, particleFields, interpolateParticle, zeroF, cfgC]

/-- Where the particle can be after `k` turns. -/
structure NearC (d : ℝ) (k : ℕ) (p : Particle ℝ) : Prop where
  qm : p.qm = 1
  pz : p.pz = 0
  xi : p.xi = -(k * d)
  low : 3 - 2 * (k * d) ≤ p.r
  high : p.r ≤ 3 + 2 * (k * d)

theorem half_rate {d v : ℝ} (hd : 0 ≤ d) (hv : |v| ≤ 1) : |d * v| ≤ d := by
  rw [abs_mul, abs_of_nonneg hd]; nlinarith

theorem below_nine {x : ℝ} (h0 : 0 ≤ x) (h : x < 9) : ¬ (9 : ℝ) ^ 2 ≤ x ^ 2 := by nlinarith

theorem below_nine_half {r a b : ℝ} (h0 : 0 < r) (h : r ≤ 5) (ha : |a| ≤ 1 / 2) (hb : |b| ≤ 1 / 2) : ¬ ((r + a) ^ 2 + (0 + b) ^ 2 ≥ (9 : ℝ) ^ 2) := by
  rw [abs_le] at ha hb
  nlinarith

/-- One turn. -/
theorem turn_case (b : ℝ) {d : ℝ} {k : ℕ} {p : Particle ℝ} (hp : NearC d k p) (hd : 0 ≤ d) (hk : (k + 1 : ℕ) * d ≤ 1) :
    ∃ p', pushTurn (cfgC b) (-(⌊k * d + d / 2⌋ + 1 : ℤ)) zeroF zeroF d p = .inr (p', false) ∧ NearC d (k + 1) p' ∧ (halfPosition d p).z ≤ -(⌊k * d + d / 2⌋ + 1 : ℤ) + (cfgC b).xiStep := by
  have hkd : (k : ℝ) * d + d ≤ 1 := by push_cast at hk; linarith
  have hk0 : 0 ≤ (k : ℝ) * d := by positivity
  have hr : 0 < p.r := by have := hp.low; linarith
  obtain ⟨hx, hy, hz⟩ := half_shift d p
  have vz : (vel p.qm (localMom p)).z = 0 := by unfold vel localMom; simp [hp.pz]
  have ez : (halfPosition d p).z = -(k * d + d / 2) := by
    rw [hz]; show p.xi + d / 2 * ((vel p.qm (localMom p)).z - 1) = _
    rw [vz, hp.xi]; ring
  have f1 := Int.floor_le ((k : ℝ) * d + d / 2)
  have f2 := Int.lt_floor_add_one ((k : ℝ) * d + d / 2)
  have hin : (-(⌊k * d + d / 2⌋ + 1 : ℤ) : ℝ) ≤ (halfPosition d p).z := by rw [ez]; push_cast; linarith
  have hin' : (halfPosition d p).z ≤ -(⌊k * d + d / 2⌋ + 1 : ℤ) + (cfgC b).xiStep := by rw [ez]; show _ ≤ _ + (1 : ℝ); push_cast; linarith
  obtain ⟨v1, v2, -⟩ := vel_le_one p.qm (localMom p)
  have ex : (halfPosition d p).x = p.r + d / 2 * (vel p.qm (localMom p)).x := by rw [hx]; rfl
  have ey : (halfPosition d p).y = 0 + d / 2 * (vel p.qm (localMom p)).y := by rw [hy]; rfl
  have hsm : ¬ ((halfPosition d p).x ^ 2 + (halfPosition d p).y ^ 2 ≥ (cfgC b).lostBoundary ^ 2) := by
    rw [ex, ey, cfgC_boundary]
    have m1 := half_rate (by linarith : 0 ≤ d / 2) v1
    have m2 := half_rate (by linarith : 0 ≤ d / 2) v2
    generalize d / 2 * (vel p.qm (localMom p)).x = a at *
    generalize d / 2 * (vel p.qm (localMom p)).y = a' at *
    exact below_nine_half hr (by linarith only [hp.high, hkd, hk0, hd]) (m1.trans (by linarith only [hkd, hk0])) (m2.trans (by linarith only [hkd, hk0]))
  rcases pushTurn_cases (cfgC b) (-(⌊k * d + d / 2⌋ + 1 : ℤ)) zeroF zeroF d p with ⟨h', _⟩ | ⟨_, h', _⟩ | ⟨_, _, p', lost, ht, _, _, _, hl, _⟩
  · exact absurd hin h'
  · exact absurd h' hsm
  obtain ⟨f, X, P, ef, eP, eX, er, exi, epr, epz, eqm, -, -⟩ := turn_local _ _ _ _ _ _ _ _ ht
  obtain ⟨z1, z2⟩ := felt_zero b (-(⌊k * d + d / 2⌋ + 1 : ℤ)) d p
  rw [z1, z2] at ef
  have fz : f.z = 0 := by rw [ef]; simp [lorentz]
  have Pz : P.z = 0 := by rw [eP]; show p.pz + d * f.z = 0; rw [fz, hp.pz]; ring
  have wz : (vel p.qm (shift3 (localMom p) (d / 2) f)).z = 0 := by
    have : (shift3 (localMom p) (d / 2) f).z = 0 := by show p.pz + d / 2 * f.z = 0; rw [fz, hp.pz]; ring
    unfold vel; rw [this]; simp
  obtain ⟨w1, w2, -⟩ := vel_le_one p.qm (shift3 (localMom p) (d / 2) f)
  have Xx : X.x = p.r + d * (vel p.qm (shift3 (localMom p) (d / 2) f)).x := by rw [eX]; rfl
  have Xy : X.y = 0 + d * (vel p.qm (shift3 (localMom p) (d / 2) f)).y := by rw [eX]; rfl
  have Xz : X.z = p.xi + d * ((vel p.qm (shift3 (localMom p) (d / 2) f)).z - 1) := by rw [eX]; rfl
  have m1 := half_rate hd w1
  have m2 := half_rate hd w2
  have up : p'.r ≤ p.r + 2 * d := by
    have := sqrt_near (x := X.x) (y := X.y) (X := p.r) (Y := 0) (e := d) (by rw [Xx, add_sub_cancel_left]; exact m1) (by rw [Xy]; simpa using m2)
    rwa [← er, zero_pow (by norm_num), add_zero, Real.sqrt_sq hr.le] at this
  have dn : p.r - d ≤ p'.r := by
    have : X.x ≤ p'.r := by rw [er]; exact le_trans (le_abs_self _) (Real.abs_le_sqrt (by nlinarith [sq_nonneg X.y]))
    rw [Xx] at this
    rw [abs_le] at m1
    linarith
  have hlost : lost = false := by
    rcases Bool.eq_false_or_eq_true lost with h | h
    · have := hl.mp h
      rw [cfgC_boundary] at this
      exact absurd this (below_nine (by linarith only [hp.low, dn, hkd, hk0, hd]) (by linarith only [hp.high, up, hkd, hk0, hd]))
    · exact h
  subst hlost
  refine ⟨p', ht, ⟨eqm.trans hp.qm, by rw [epz, Pz], ?_, ?_, ?_⟩, hin'⟩
  · rw [exi, Xz, wz, hp.xi]; push_cast; ring
  · have := hp.low; push_cast; linarith
  · have := hp.high; push_cast; linarith

theorem run_near (b pr M : ℝ) {d : ℝ} (hd : 0 ≤ d) : ∀ k : ℕ, (k : ℝ) * d ≤ 1 → NearC d k (runC b d pr M k) := by
  intro k
  induction k with
  | zero => intro _; exact ⟨rfl, rfl, by simp [runC, startC], by simp [runC, startC], by simp [runC, startC]⟩
  | succ k ih =>
    intro hk
    obtain ⟨p', ht, hn, -⟩ := turn_case b (ih (by push_cast at hk; linarith)) hd hk
    show NearC d (k + 1) (afterTurn (pushTurn (cfgC b) (-(⌊k * d + d / 2⌋ + 1 : ℤ)) zeroF zeroF d (runC b d pr M k)))
    rw [ht]; exact hn

theorem run_next (b pr M : ℝ) {d : ℝ} (hd : 0 ≤ d) (k : ℕ) (hk : (k + 1 : ℕ) * d ≤ 1) :
    pushTurn (cfgC b) (-(⌊k * d + d / 2⌋ + 1 : ℤ)) zeroF zeroF d (runC b d pr M k) = .inr (runC b d pr M (k + 1), false) ∧
    (halfPosition d (runC b d pr M k)).z ≤ -(⌊k * d + d / 2⌋ + 1 : ℤ) + (cfgC b).xiStep := by
  obtain ⟨p', ht, -, hz⟩ := turn_case b (run_near b pr M hd k (by push_cast at hk; linarith)) hd hk
  refine ⟨?_, hz⟩
  have : runC b d pr M (k + 1) = p' := by
    show afterTurn (pushTurn (cfgC b) (-(⌊k * d + d / 2⌋ + 1 : ℤ)) zeroF zeroF d (runC b d pr M k)) = p'
    rw [ht]; rfl
  rw [this]; exact ht

/-- A uniform magnetic field of strength `b`. -/
def unifB (b : ℝ) : ℝ → Vec3 → Vec3 := fun _ _ => ⟨0, 0, b⟩

/-- The runs meet the hypotheses of the convergence theorems. -/
theorem run_pushed (b pr M : ℝ) {d : ℝ} (hd : 0 ≤ d) (n : ℕ) (hn : (n : ℝ) * d ≤ 1) : PushedS (cfgC b) 19 noE (unifB b) 1 d n (runC b d pr M) := by
  have hr : ∀ k : ℕ, (k : ℝ) * d ≤ 1 → 0 < (runC b d pr M k).r := fun k hk => by have := (run_near b pr M hd k hk).low; linarith
  refine ⟨hr 0 (by simp), fun k hk => ?_⟩
  have hk1 : ((k + 1 : ℕ) : ℝ) * d ≤ 1 := by
    have : ((k + 1 : ℕ) : ℝ) ≤ n := by exact_mod_cast hk
    exact (mul_le_mul_of_nonneg_right this hd).trans hn
  obtain ⟨ht, hz⟩ := run_next b pr M hd k hk1
  have hs : ∀ xi, Sampled (cfgC b).rStep 19 (cfgC b).magneticField xi (noE (k * d)) (unifB b (k * d)) zeroF := by
    intro xi j _ _
    simp [noE, unifB, zeroF, cfgC]
  refine ⟨_, zeroF, zeroF, k * d, ht, hr _ hk1, hz, hs _, hs _, fun t t1 t2 => ?_, fun _ j => ⟨rfl, rfl, rfl, rfl⟩⟩
  have hk0 : 0 ≤ (k : ℝ) * d := by positivity
  push_cast at hk1
  rw [abs_le]; constructor <;> linarith

theorem cfgC_fits (b : ℝ) : 0 < (cfgC b).rStep ∧ (cfgC b).rStep ≤ 1 ∧ 0 < (cfgC b).xiStep ∧ (cfgC b).xiStep ≤ 1 ∧ (cfgC b).lostBoundary ≤ ((19 : ℕ) - 1) * (cfgC b).rStep ∧ 0 ≤ (cfgC b).lostBoundary := by
  rw [cfgC_boundary]; unfold cfgC; norm_num

theorem unif_axisymmetric (b : ℝ) : Axisymmetric noE ∧ Axisymmetric (unifB b) := by
  constructor <;> intro t c s w _ <;> simp [noE, unifB, rot]

theorem unifB_one : unifB 1 = oneB := rfl

/-- A circle that starts at radius 3. -/
noncomputable def circX3 (t : ℝ) : Vec3 := ⟨3 + (circX t).x, (circX t).y, (circX t).z⟩

theorem circ3_motion : Motion 1 noE (unifB 1) 1 circX3 circP := by
  have h := (circ_smooth 1).motion
  exact ⟨fun t ht => (h.dx t ht).const_add 3, h.dy, h.dz, h.dpx, h.dpy, h.dpz⟩

/-- C69: a particle in a uniform magnetic field meets the hypotheses, with an error that vanishes with `dt`. -/
theorem circle_case : ∃ C, 0 < C ∧ ∀ d : ℝ, 0 ≤ d → ∀ n : ℕ, n * d ≤ 1 → ∃ u v, u ^ 2 + v ^ 2 = 1 ∧
    Within (rot u v (localPos (runC 1 d 1 0 n))) (circX3 (n * d)) (C * d) ∧ Within (rot u v (localMom (runC 1 d 1 0 n))) (circP (n * d)) (C * d) := by
  obtain ⟨hE, hB⟩ := noE_tame
  obtain ⟨aE, aB⟩ := unif_axisymmetric 1
  obtain ⟨g1, g2, g3, g4, g5, g6⟩ := cfgC_fits 1
  have hs : Slow 0 noE ∧ Slow 0 (unifB 1) := ⟨fun t t' w => by rw [zero_mul]; exact Within.rfl' _, fun t t' w => by rw [zero_mul]; exact Within.rfl' _⟩
  obtain ⟨K, hK⟩ : ∃ K : ℝ, K = 18 + 27 / 2 := ⟨_, rfl⟩
  refine ⟨(Real.exp 9 - 1) / 9 * K + 1, by
    have : 0 < Real.exp 9 - 1 := by have := Real.add_one_lt_exp (by norm_num : (9 : ℝ) ≠ 0); linarith
    rw [hK]; positivity, ?_⟩
  intro d hd n hn
  have hpu := (run_pushed 1 1 0 hd n hn).pushed g1 g3 g5 g6 le_rfl hE hB hs.1 hs.2
  obtain ⟨A, K', err, u, v, e1, e2, e3, huv, r1, r2⟩ := converges_2d (cfgC 1) (e0 := 0) n (runC 1 d 1 0) one_ne_zero circ3_motion hE hB aE aB le_rfl (by norm_num) hd hn hpu
    (by simp [Within, localPos, runC, startC, circX3, circX]) (by simp [Within, localMom, runC, startC, circP]) n le_rfl
  have q1 : (runC 1 d 1 0 0).qm = 1 := rfl
  rw [q1] at e1 e2
  have hA : A = 9 := by rw [e1]; norm_num
  have hK' : K' = K := by rw [e2, hK]; norm_num
  have herr : err ≤ ((Real.exp 9 - 1) / 9 * K + 1) * d := by
    rw [e3, hA, hK']
    have : Real.exp (9 * (n * d)) ≤ Real.exp 9 := Real.exp_le_exp.mpr (by linarith)
    have h2 : (Real.exp (9 * (n * d)) - 1) / 9 ≤ (Real.exp 9 - 1) / 9 := by linarith
    have h3 := mul_le_mul_of_nonneg_right h2 (by rw [hK]; positivity : 0 ≤ d * K)
    nlinarith
  exact ⟨u, v, huv, r1.mono herr, r2.mono herr⟩

/-- C69, what limits the order: in a uniform magnetic field (no plasma fields) every completed substep multiplies the square of the transverse momentum by `1 + (dt B / gamma m)^2`: the particle gains energy although the field does no work. -/
theorem magnetic_heating (c : PushCfg) (hb : c.magneticField ≠ 0) (xiEnd dt : ℝ) (p p' : Particle ℝ) (lost : Bool) (hr' : 0 < p'.r) (hq : p.qm ≠ 0) (h : pushTurn c xiEnd zeroF zeroF dt p = .inr (p', lost)) :
    p'.pz = p.pz ∧ p'.pr ^ 2 + (p'.M / p'.r) ^ 2 = (p.pr ^ 2 + (p.M / p.r) ^ 2) * (1 + (dt * c.magneticField / Real.sqrt (1 / p.qm ^ 2 + p.pr ^ 2 + (p.M / p.r) ^ 2 + p.pz ^ 2)) ^ 2) := by
  obtain ⟨f, X, P, ef, eP, eX, er, exi, epr, epz, eqm, eM, -⟩ := turn_local _ _ _ _ _ _ _ _ h
  have z1 : feltE c xiEnd zeroF zeroF dt p = ⟨0, 0, 0⟩ := by simp [feltE, particleFields, interpolateParticle, zeroF]
  have z2 : feltB c xiEnd zeroF zeroF dt p = ⟨0, 0, c.magneticField⟩ := by simp [feltB, particleFields, interpolateParticle, zeroF]
  rw [z1, z2] at ef
  have hsq : p'.r ^ 2 = X.x ^ 2 + X.y ^ 2 := by rw [er, Real.sq_sqrt (by positivity)]
  have hne := hr'.ne'
  have e1 : p'.pr ^ 2 + (p'.M / p'.r) ^ 2 = P.x ^ 2 + P.y ^ 2 := by
    rw [epr, eM hb]
    field_simp
    rw [hsq]
    ring
  have hs : ((SignType.sign p.qm : SignType) : ℝ) ^ 2 = 1 := by
    rcases lt_or_gt_of_ne hq with h | h <;> simp [h]
  have hg : Real.sqrt ((1 / p.qm) ^ 2 + p.pr ^ 2 + (p.M / p.r) ^ 2 + p.pz ^ 2) = Real.sqrt (1 / p.qm ^ 2 + p.pr ^ 2 + (p.M / p.r) ^ 2 + p.pz ^ 2) := by rw [div_pow, one_pow]
  have fx : f.x = SignType.sign p.qm * ((p.M / p.r) / Real.sqrt (1 / p.qm ^ 2 + p.pr ^ 2 + (p.M / p.r) ^ 2 + p.pz ^ 2) * c.magneticField) := by
    rw [ef, ← hg]; simp [lorentz, vel, localMom]
  have fy : f.y = -(SignType.sign p.qm * (p.pr / Real.sqrt (1 / p.qm ^ 2 + p.pr ^ 2 + (p.M / p.r) ^ 2 + p.pz ^ 2) * c.magneticField)) := by
    rw [ef, ← hg]; simp [lorentz, vel, localMom]
  have fz : f.z = 0 := by rw [ef]; simp [lorentz]
  constructor
  · rw [epz, eP]; show p.pz + dt * f.z = p.pz; rw [fz]; ring
  rw [e1, eP]
  show (p.pr + dt * f.x) ^ 2 + (p.M / p.r + dt * f.y) ^ 2 = _
  rw [fx, fy]
  generalize Real.sqrt (1 / p.qm ^ 2 + p.pr ^ 2 + (p.M / p.r) ^ 2 + p.pz ^ 2) = g
  generalize p.M / p.r = w
  generalize ((SignType.sign p.qm : SignType) : ℝ) = s at hs
  linear_combination (p.pr ^ 2 + w ^ 2) * (dt * c.magneticField / g) ^ 2 * hs

theorem run_grows {d : ℝ} (hd : 0 ≤ d) : ∀ k : ℕ, (k : ℝ) * d ≤ 1 → 1 + k * (d ^ 2 / 2) ≤ (runC 1 d 1 0 k).pr ^ 2 + ((runC 1 d 1 0 k).M / (runC 1 d 1 0 k).r) ^ 2 := by
  intro k
  induction k with
  | zero => intro _; simp [runC, startC]
  | succ k ih =>
    intro hk
    have hk' : (k : ℝ) * d ≤ 1 := by push_cast at hk; linarith
    have i := ih hk'
    have hnr := run_near 1 1 0 hd k hk'
    have hr' : 0 < (runC 1 d 1 0 (k + 1)).r := by have := (run_near 1 1 0 hd (k + 1) hk).low; linarith
    obtain ⟨-, h1⟩ := magnetic_heating (cfgC 1) one_ne_zero _ d _ _ _ hr' (by rw [hnr.qm]; exact one_ne_zero) (run_next 1 1 0 hd k hk).1
    rw [h1, hnr.qm, hnr.pz]
    have e : (cfgC 1).magneticField = 1 := rfl
    rw [e]
    have q : (1 : ℝ) / 1 ^ 2 + (runC 1 d 1 0 k).pr ^ 2 + ((runC 1 d 1 0 k).M / (runC 1 d 1 0 k).r) ^ 2 + 0 ^ 2 = 1 + ((runC 1 d 1 0 k).pr ^ 2 + ((runC 1 d 1 0 k).M / (runC 1 d 1 0 k).r) ^ 2) := by ring
    rw [q]
    generalize (runC 1 d 1 0 k).pr ^ 2 + ((runC 1 d 1 0 k).M / (runC 1 d 1 0 k).r) ^ 2 = w at *
    have hw : 1 ≤ w := by have : 0 ≤ (k : ℝ) * (d ^ 2 / 2) := by positivity
                          linarith
    rw [div_pow, Real.sq_sqrt (by linarith)]
    have : d ^ 2 / 2 ≤ w * ((d * 1) ^ 2 / (1 + w)) := by
      rw [mul_one, mul_div_assoc', le_div_iff₀ (by linarith)]
      nlinarith [sq_nonneg d]
    push_cast
    linarith

/-- C69, the order of the 2D pusher is one and not more: in the uniform magnetic field, with exact fields and initial state, the momentum after the time `t = n d` is wrong by at least `t d / 14`, whatever the azimuth. -/
theorem only_first_order_2d (d : ℝ) (hd : 0 ≤ d) (n : ℕ) (hn : n * d ≤ 1) (u v e : ℝ) (huv : u ^ 2 + v ^ 2 = 1) (he : Within (rot u v (localMom (runC 1 d 1 0 n))) (circP (n * d)) e) : n * d * d / 14 ≤ e := by
  have hgrow := run_grows hd n hn
  have e0 := he.nonneg
  rcases le_or_gt 1 e with h1 | h1
  · have hd2 : (n : ℝ) * d * d ≤ 14 := by
      rcases n.eq_zero_or_pos with h0 | h0
      · simp [h0]
      · have : (1 : ℝ) ≤ n := by exact_mod_cast h0
        have hd1 : d ≤ 1 := by nlinarith
        have : (n : ℝ) * d * d ≤ 1 * 1 := mul_le_mul hn hd1 hd (by norm_num)
        linarith
    linarith
  · obtain ⟨k1, k2, -⟩ := he
    have q3 : (circP (n * d)).x = Real.cos (om * (n * d)) := rfl
    have q4 : (circP (n * d)).y = -Real.sin (om * (n * d)) := rfl
    have hrot : (rot u v (localMom (runC 1 d 1 0 n))).x ^ 2 + (rot u v (localMom (runC 1 d 1 0 n))).y ^ 2 = (runC 1 d 1 0 n).pr ^ 2 + ((runC 1 d 1 0 n).M / (runC 1 d 1 0 n).r) ^ 2 := by
      simp only [rot, localMom]
      linear_combination ((runC 1 d 1 0 n).pr ^ 2 + ((runC 1 d 1 0 n).M / (runC 1 d 1 0 n).r) ^ 2) * huv
    rw [← hrot] at hgrow
    rw [q3] at k1
    rw [q4] at k2
    generalize (rot u v (localMom (runC 1 d 1 0 n))).x = a at *
    generalize (rot u v (localMom (runC 1 d 1 0 n))).y = b at *
    have hcs := Real.sin_sq_add_cos_sq (om * (n * d))
    have c1 := Real.abs_cos_le_one (om * (n * d))
    have s1 := Real.abs_sin_le_one (om * (n * d))
    generalize Real.cos (om * (n * d)) = co at *
    generalize Real.sin (om * (n * d)) = si at *
    rw [abs_le] at k1 k2 c1 s1
    have m1 : a ^ 2 ≤ co ^ 2 + 2 * e + e ^ 2 := by nlinarith
    have m2 : b ^ 2 ≤ si ^ 2 + 2 * e + e ^ 2 := by nlinarith
    nlinarith

/-- A straight line that passes the axis at a distance. -/
noncomputable def lineX (t : ℝ) : Vec3 := ⟨3 - t / Real.sqrt 3, t / Real.sqrt 3, -t⟩
def lineP (_ : ℝ) : Vec3 := ⟨-1, 1, 0⟩

theorem line_motion : Motion 1 noE (unifB 0) 1 lineX lineP := by
  have hv : ∀ t, vel 1 (lineP t) = ⟨-1 / Real.sqrt 3, 1 / Real.sqrt 3, 0⟩ := by
    intro t
    have : (1 / 1 : ℝ) ^ 2 + (-1) ^ 2 + 1 ^ 2 + 0 ^ 2 = 3 := by norm_num
    simp only [vel, lineP, this, zero_div]
  have hf : ∀ t, lorentz 1 (noE t (lineX t)) (unifB 0 t (lineX t)) (lineP t) = ⟨0, 0, 0⟩ := by intro t; simp [lorentz, noE, unifB]
  refine ⟨?_, ?_, ?_, ?_, ?_, ?_⟩ <;> intro t _ <;> simp only [hv, hf]
  · exact ((((hasDerivAt_id t).div_const (Real.sqrt 3)).const_sub 3).hasDerivWithinAt).congr_deriv (by ring)
  · exact (((hasDerivAt_id t).div_const (Real.sqrt 3)).hasDerivWithinAt)
  · exact (((hasDerivAt_id t).neg).hasDerivWithinAt).congr_deriv (by ring)
  · exact hasDerivWithinAt_const _ _ _
  · exact hasDerivWithinAt_const _ _ _
  · exact hasDerivWithinAt_const _ _ _

/-- C69, without an external field: a free particle with angular momentum 3 meets the hypotheses of `converges_2d` with `M = L = 0` and no field error, so it moves along the straight line exactly. -/
theorem line_case (d : ℝ) (hd : 0 ≤ d) (n : ℕ) (hn : n * d ≤ 1) : ∃ u v, u ^ 2 + v ^ 2 = 1 ∧
    Within (rot u v (localPos (runC 0 d (-1) 3 n))) (lineX (n * d)) 0 ∧ Within (rot u v (localMom (runC 0 d (-1) 3 n))) (lineP (n * d)) 0 := by
  have hT : ∀ F : ℝ → Vec3 → Vec3, (∀ t w, F t w = ⟨0, 0, 0⟩) → Tame 0 0 F := by
    intro F hF
    refine ⟨fun t w => by simp [hF], fun t a b e h => ?_⟩
    rw [zero_mul, hF, hF]; exact Within.rfl' _
  have hE := hT noE (fun _ _ => rfl)
  have hB := hT (unifB 0) (fun _ _ => rfl)
  obtain ⟨aE, aB⟩ := unif_axisymmetric 0
  obtain ⟨g1, g2, g3, g4, g5, g6⟩ := cfgC_fits 0
  have hs : Slow 0 noE ∧ Slow 0 (unifB 0) := ⟨fun t t' w => by rw [zero_mul]; exact Within.rfl' _, fun t t' w => by rw [zero_mul]; exact Within.rfl' _⟩
  have hpu := (run_pushed 0 (-1) 3 hd n hn).pushed g1 g3 g5 g6 le_rfl hE hB hs.1 hs.2
  obtain ⟨A, K', err, u, v, e1, e2, e3, huv, r1, r2⟩ := converges_2d (cfgC 0) (e0 := 0) n (runC 0 d (-1) 3) one_ne_zero line_motion hE hB aE aB le_rfl (by norm_num) hd hn hpu
    (by simp [Within, localPos, runC, startC, lineX]) (by simp [Within, localMom, runC, startC, lineP]) n le_rfl
  have hK : K' = 0 := by rw [e2]; norm_num
  have herr : err = 0 := by rw [e3, hK]; norm_num
  rw [herr] at r1 r2
  exact ⟨u, v, huv, r1, r2⟩

end Lcode.Beam2D
