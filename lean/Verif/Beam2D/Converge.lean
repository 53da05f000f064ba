import Verif.Beam2D.Strong
import Verif.Beam3D.Converge

/-!
Property C69: the trajectories of the 2D beam pusher (lcode/beam/beam_calculate.py) converge to the solution of the equations of motion, down to the axis.
The model of the pusher is Verif/Beam2D/Pusher.lean; this file only adds the specification (the equations of motion are those of Verif/Beam3D/Converge.lean) and proofs.
-/

namespace Lcode.Beam2D

open Lcode.Plasma3D (Vec3)
open Lcode.Beam3D (Within Motion Tame vel vel1 lorentz shift3 cpu_step_error gronwall_step vel_le_one vel1_le abs_sign_le)

/-! ### Specification -/

/-- A vector turned around the axis by the angle with cosine `c` and sine `s`. -/
def rot (c s : ℝ) (v : Vec3) : Vec3 := ⟨c * v.x - s * v.y, s * v.x + c * v.y, v.z⟩

/-- A vector field that looks the same after every rotation around the axis. -/
def Axisymmetric (E : ℝ → Vec3 → Vec3) : Prop := ∀ (t c s : ℝ) (w : Vec3), c ^ 2 + s ^ 2 = 1 → E t (rot c s w) = rot c s (E t w)

/-- Position and momentum of a particle of the 2D code, in the frame whose x axis goes through the particle: radius, 0, xi and p_r, p_phi = M / r, p_z. -/
def localPos (p : Particle ℝ) : Vec3 := ⟨p.r, 0, p.xi⟩
noncomputable def localMom (p : Particle ℝ) : Vec3 := ⟨p.pr, p.M / p.r, p.pz⟩

/-- The fields the pusher computes for a substep: E_r, E_phi, E_z and B_r, B_phi, B_z with the external magnetic field. -/
noncomputable def feltE (c : PushCfg) (xiEnd : ℝ) (f1 f0 : Fields) (dt : ℝ) (p : Particle ℝ) : Vec3 :=
  ⟨(particleFields (halfPosition dt p) f1 f0 xiEnd c.rStep c.xiStep).1.x, (particleFields (halfPosition dt p) f1 f0 xiEnd c.rStep c.xiStep).1.y,
   (particleFields (halfPosition dt p) f1 f0 xiEnd c.rStep c.xiStep).1.z⟩
noncomputable def feltB (c : PushCfg) (xiEnd : ℝ) (f1 f0 : Fields) (dt : ℝ) (p : Particle ℝ) : Vec3 :=
  ⟨(particleFields (halfPosition dt p) f1 f0 xiEnd c.rStep c.xiStep).2.x, (particleFields (halfPosition dt p) f1 f0 xiEnd c.rStep c.xiStep).2.y,
   (particleFields (halfPosition dt p) f1 f0 xiEnd c.rStep c.xiStep).2.z + c.magneticField⟩

/-- Radius and xi of the half-step position, as a point of the x axis. -/
noncomputable def halfRadius (dt : ℝ) (p : Particle ℝ) : Vec3 := ⟨Real.sqrt ((halfPosition dt p).x ^ 2 + (halfPosition dt p).y ^ 2), 0, (halfPosition dt p).z⟩

/-- `p 0, ..., p n` are the states of one particle after 0, ..., n completed substeps `dt`, in whatever layers these take place. The particle does not hit the axis exactly. At every substep the fields the pusher computes
differ by at most `del` from the true radial, azimuthal and longitudinal components at the radius and xi of the half-step position. Without an external magnetic field nothing rotates: E_phi and B_z are zero. -/
def Pushed (c : PushCfg) (E B : ℝ → Vec3 → Vec3) (del dt : ℝ) (n : ℕ) (p : ℕ → Particle ℝ) : Prop :=
  0 < (p 0).r ∧ ∀ k < n, ∃ (xiEnd : ℝ) (f1 f0 : Fields), pushTurn c xiEnd f1 f0 dt (p k) = .inr (p (k + 1), false) ∧ 0 < (p (k + 1)).r ∧
    (∀ t, k * dt ≤ t → t ≤ (k + 1) * dt → Within (feltE c xiEnd f1 f0 dt (p k)) (E t (halfRadius dt (p k))) del ∧ Within (feltB c xiEnd f1 f0 dt (p k)) (B t (halfRadius dt (p k))) del) ∧
    (c.magneticField = 0 → (feltE c xiEnd f1 f0 dt (p k)).y = 0 ∧ (feltB c xiEnd f1 f0 dt (p k)).z = 0)

/-! ### Rotations -/

theorem gammaM_rot (qm c s : ℝ) (h : c ^ 2 + s ^ 2 = 1) (p : Vec3) : (1 / qm) ^ 2 + (rot c s p).x ^ 2 + (rot c s p).y ^ 2 + (rot c s p).z ^ 2 = (1 / qm) ^ 2 + p.x ^ 2 + p.y ^ 2 + p.z ^ 2 := by
  simp only [rot]
  linear_combination (p.x ^ 2 + p.y ^ 2) * h

theorem vel_rot (qm c s : ℝ) (h : c ^ 2 + s ^ 2 = 1) (p : Vec3) : vel qm (rot c s p) = rot c s (vel qm p) := by
  unfold vel
  rw [gammaM_rot qm c s h p]
  generalize Real.sqrt _ = g
  simp only [rot, Vec3.mk.injEq]
  refine ⟨by ring, by ring, trivial⟩

theorem vel1_rot (qm c s : ℝ) (h : c ^ 2 + s ^ 2 = 1) (p : Vec3) : vel1 qm (rot c s p) = rot c s (vel1 qm p) := by
  unfold vel1
  rw [vel_rot qm c s h p]
  simp only [rot]

theorem lorentz_rot (qm c s : ℝ) (h : c ^ 2 + s ^ 2 = 1) (E B p : Vec3) : lorentz qm (rot c s E) (rot c s B) (rot c s p) = rot c s (lorentz qm E B p) := by
  unfold lorentz
  rw [vel_rot qm c s h p]
  generalize vel qm p = v
  simp only [rot, Vec3.mk.injEq]
  refine ⟨by ring, by ring, ?_⟩
  linear_combination SignType.sign qm * (v.x * B.y - v.y * B.x) * h

theorem shift_rot (c s d : ℝ) (x v : Vec3) : shift3 (rot c s x) d (rot c s v) = rot c s (shift3 x d v) := by
  simp only [shift3, rot, Vec3.mk.injEq]
  refine ⟨by ring, by ring, trivial⟩

theorem unit_le {c s : ℝ} (h : c ^ 2 + s ^ 2 = 1) : |c| ≤ 1 ∧ |s| ≤ 1 := by
  constructor <;> rw [← sq_le_one_iff_abs_le_one] <;> nlinarith [sq_nonneg c, sq_nonneg s]

theorem within_rot {c s : ℝ} (h : c ^ 2 + s ^ 2 = 1) {a b : Vec3} {e : ℝ} (hab : Within a b e) : Within (rot c s a) (rot c s b) (2 * e) := by
  obtain ⟨hc, hs⟩ := unit_le h
  obtain ⟨h1, h2, h3⟩ := hab
  have he : 0 ≤ e := le_trans (abs_nonneg _) h1
  have mul : ∀ u v : ℝ, |u| ≤ 1 → |v| ≤ e → |u * v| ≤ e := by
    intro u v hu hv
    rw [abs_mul]
    have := mul_le_mul hu hv (abs_nonneg _) (by norm_num : (0 : ℝ) ≤ 1)
    linarith
  refine ⟨?_, ?_, ?_⟩
  · have e1 : (rot c s a).x - (rot c s b).x = c * (a.x - b.x) - s * (a.y - b.y) := by simp only [rot]; ring
    rw [e1]
    refine (abs_sub _ _).trans ?_
    linarith [mul _ _ hc h1, mul _ _ hs h2]
  · have e1 : (rot c s a).y - (rot c s b).y = s * (a.x - b.x) + c * (a.y - b.y) := by simp only [rot]; ring
    rw [e1]
    refine (abs_add_le _ _).trans ?_
    linarith [mul _ _ hs h1, mul _ _ hc h2]
  · show |a.z - b.z| ≤ _
    linarith

/-- On the axis an axisymmetric field has no transverse component. -/
theorem axis_zero {E : ℝ → Vec3 → Vec3} (h : Axisymmetric E) (t z : ℝ) : (E t ⟨0, 0, z⟩).x = 0 ∧ (E t ⟨0, 0, z⟩).y = 0 := by
  have h1 := h t (-1) 0 ⟨0, 0, z⟩ (by norm_num)
  have e : rot (-1) 0 ⟨0, 0, z⟩ = ⟨0, 0, z⟩ := by simp [rot]
  rw [e] at h1
  have hx := congrArg Vec3.x h1
  have hy := congrArg Vec3.y h1
  simp only [rot] at hx hy
  constructor <;> linarith

/-! ### One substep -/

/-- A completed substep in the terms of this file, in the frame of the particle at its start. -/
theorem turn_local (c : PushCfg) (xiEnd : ℝ) (f1 f0 : Fields) (dt : ℝ) (p p' : Particle ℝ) (lost : Bool) (h : pushTurn c xiEnd f1 f0 dt p = .inr (p', lost)) :
    ∃ f X P, f = lorentz p.qm (feltE c xiEnd f1 f0 dt p) (feltB c xiEnd f1 f0 dt p) (localMom p) ∧
      P = shift3 (localMom p) dt f ∧ X = shift3 (localPos p) dt (vel1 p.qm (shift3 (localMom p) (dt / 2) f)) ∧
      p'.r = Real.sqrt (X.x ^ 2 + X.y ^ 2) ∧ p'.xi = X.z ∧ p'.pr = (X.x * P.x + X.y * P.y) / p'.r ∧ p'.pz = P.z ∧ p'.qm = p.qm ∧
      (c.magneticField ≠ 0 → p'.M = X.x * P.y - X.y * P.x) ∧ (c.magneticField = 0 → p'.M = p.M) := by
  have hM : p'.qm = p.qm ∧ (c.magneticField = 0 → p'.M = p.M) := by
    rcases pushTurn_cases c xiEnd f1 f0 dt p with ⟨_, h'⟩ | ⟨_, _, q, h', _⟩ | ⟨_, _, q, l, h', _, _, _, _, _, a4, _, a6⟩
    · rw [h'] at h; simp at h
    · rw [h'] at h; simp at h
    · rw [h'] at h
      simp only [Sum.inr.injEq, Prod.mk.injEq] at h
      rw [← h.1]; exact ⟨a4, a6⟩
  obtain ⟨E, B, b, hf, hb, px, py, pz, x, y, e1, e2, e3, ⟨g, e4, e5, e6, e7⟩, e8, e9, e10, e11⟩ := push_leapfrog _ _ _ _ _ _ _ _ h
  have hE : feltE c xiEnd f1 f0 dt p = ⟨E.x, E.y, E.z⟩ := by unfold feltE; rw [hf]
  have hB : feltB c xiEnd f1 f0 dt p = ⟨B.x, B.y, B.z⟩ := by unfold feltB; rw [hf, hb]
  have hv : vel p.qm (localMom p) = ⟨p.pr / gammaM p, pPhi p / gammaM p, p.pz / gammaM p⟩ := by
    have hg : Real.sqrt ((1 / p.qm) ^ 2 + p.pr ^ 2 + (p.M / p.r) ^ 2 + p.pz ^ 2) = gammaM p := by
      unfold gammaM pPhi; congr 1; ring
    unfold vel localMom
    simp only [hg]
    rfl
  have hP : shift3 (localMom p) dt (lorentz p.qm (feltE c xiEnd f1 f0 dt p) (feltB c xiEnd f1 f0 dt p) (localMom p)) = ⟨px, py, pz⟩ := by
    unfold lorentz
    rw [hv, hE, hB]
    simp only [shift3, localMom, Vec3.mk.injEq]
    refine ⟨?_, ?_, ?_⟩
    · rw [e1]; ring
    · rw [e2]; unfold pPhi; ring
    · rw [e3]; ring
  have hmid : shift3 (localMom p) (dt / 2) (lorentz p.qm (feltE c xiEnd f1 f0 dt p) (feltB c xiEnd f1 f0 dt p) (localMom p)) = ⟨(p.pr + px) / 2, (pPhi p + py) / 2, (p.pz + pz) / 2⟩ := by
    have hx := congrArg Vec3.x hP
    have hy := congrArg Vec3.y hP
    have hz := congrArg Vec3.z hP
    simp only [shift3, localMom] at hx hy hz ⊢
    simp only [Vec3.mk.injEq]
    refine ⟨by linarith, ?_, by linarith⟩
    unfold pPhi; linarith
  have hX : shift3 (localPos p) dt (vel1 p.qm (shift3 (localMom p) (dt / 2) (lorentz p.qm (feltE c xiEnd f1 f0 dt p) (feltB c xiEnd f1 f0 dt p) (localMom p)))) = ⟨x, y, p'.xi⟩ := by
    rw [hmid]
    have hg : Real.sqrt ((1 / p.qm) ^ 2 + ((p.pr + px) / 2) ^ 2 + ((pPhi p + py) / 2) ^ 2 + ((p.pz + pz) / 2) ^ 2) = g := by
      rw [e4]; congr 1; ring
    simp only [shift3, localPos, vel1, vel, hg, Vec3.mk.injEq]
    refine ⟨?_, ?_, ?_⟩
    · rw [e5]; ring
    · rw [e6]; ring
    · rw [e7]
  exact ⟨_, _, _, rfl, rfl, rfl, by rw [hX, e9], by rw [hX], by rw [hX, hP, e10], by rw [hP, e8], hM.1, by rw [hX, hP]; exact e11, hM.2⟩

theorem half_shift (dt : ℝ) (p : Particle ℝ) : (halfPosition dt p).x = (shift3 (localPos p) (dt / 2) (vel1 p.qm (localMom p))).x ∧
    (halfPosition dt p).y = (shift3 (localPos p) (dt / 2) (vel1 p.qm (localMom p))).y ∧ (halfPosition dt p).z = (shift3 (localPos p) (dt / 2) (vel1 p.qm (localMom p))).z := by
  have hg : Real.sqrt ((1 / p.qm) ^ 2 + p.pr ^ 2 + (p.M / p.r) ^ 2 + p.pz ^ 2) = Real.sqrt ((1 / p.qm) ^ 2 + (p.pr ^ 2 + (p.M / p.r) ^ 2 + p.pz ^ 2)) := by congr 1; ring
  simp only [halfPosition, shift3, localPos, localMom, vel1, vel, hg]
  refine ⟨by ring, by ring, by ring⟩

theorem sqrt_near {x y X Y e : ℝ} (hx : |x - X| ≤ e) (hy : |y - Y| ≤ e) : Real.sqrt (x ^ 2 + y ^ 2) ≤ Real.sqrt (X ^ 2 + Y ^ 2) + 2 * e := by
  have he : 0 ≤ e := le_trans (abs_nonneg _) hx
  have hR := Real.sqrt_nonneg (X ^ 2 + Y ^ 2)
  have hsq : Real.sqrt (X ^ 2 + Y ^ 2) ^ 2 = X ^ 2 + Y ^ 2 := Real.sq_sqrt (by positivity)
  rw [Real.sqrt_le_left (by linarith)]
  have hX : |X| ≤ Real.sqrt (X ^ 2 + Y ^ 2) := Real.abs_le_sqrt (by nlinarith)
  have hY : |Y| ≤ Real.sqrt (X ^ 2 + Y ^ 2) := Real.abs_le_sqrt (by nlinarith)
  generalize Real.sqrt (X ^ 2 + Y ^ 2) = R at *
  have one : ∀ u v : ℝ, |u - v| ≤ e → |v| ≤ R → u ^ 2 ≤ v ^ 2 + 2 * e * R + e ^ 2 := by
    intro u v huv hv
    have : |u| ≤ |v| + e := by
      have := abs_sub_abs_le_abs_sub u v
      linarith
    have h2 : |u| ^ 2 ≤ (|v| + e) ^ 2 := pow_le_pow_left₀ (abs_nonneg u) this 2
    rw [sq_abs] at h2
    have h3 : |v| ^ 2 = v ^ 2 := sq_abs v
    nlinarith
  have h1 := one _ _ hx hX
  have h2 := one _ _ hy hY
  nlinarith [sq_nonneg e]

/-- The point where the pusher reads the fields is at most 3/2 dt away from the half-step position. -/
theorem half_near (dt : ℝ) (hd : 0 ≤ dt) (p : Particle ℝ) (hr : 0 < p.r) : Within (halfRadius dt p) (shift3 (localPos p) (dt / 2) (vel1 p.qm (localMom p))) (3 / 2 * dt) := by
  obtain ⟨hx, hy, hz⟩ := half_shift dt p
  unfold halfRadius
  rw [hx, hy, hz]
  obtain ⟨v1, v2, -⟩ := vel_le_one p.qm (localMom p)
  have ex : (shift3 (localPos p) (dt / 2) (vel1 p.qm (localMom p))).x = p.r + dt / 2 * (vel p.qm (localMom p)).x := rfl
  have ey : (shift3 (localPos p) (dt / 2) (vel1 p.qm (localMom p))).y = 0 + dt / 2 * (vel p.qm (localMom p)).y := rfl
  rw [Within, ex, ey]
  have m : ∀ v : ℝ, |v| ≤ 1 → |dt / 2 * v| ≤ dt / 2 := by
    intro v hv
    rw [abs_mul, abs_of_nonneg (by linarith : 0 ≤ dt / 2)]
    nlinarith
  have m1 := m _ v1
  have m2 := m _ v2
  generalize dt / 2 * (vel p.qm (localMom p)).x = a at *
  generalize dt / 2 * (vel p.qm (localMom p)).y = b at *
  refine ⟨?_, ?_, by simp; linarith⟩
  · have u := sqrt_near (x := p.r + a) (y := 0 + b) (X := p.r) (Y := 0) (e := dt / 2) (by simpa using m1) (by simpa using m2)
    have e0 : Real.sqrt (p.r ^ 2 + 0 ^ 2) = p.r := by
      rw [zero_pow (by norm_num), add_zero, Real.sqrt_sq hr.le]
    rw [e0] at u
    have l : p.r + a ≤ Real.sqrt ((p.r + a) ^ 2 + (0 + b) ^ 2) := le_trans (le_abs_self _) (Real.abs_le_sqrt (by nlinarith))
    show |Real.sqrt ((p.r + a) ^ 2 + (0 + b) ^ 2) - (p.r + a)| ≤ _
    rw [abs_le] at m1 ⊢
    constructor <;> linarith [m1.1, m1.2]
  · show |0 - (0 + b)| ≤ _
    rw [zero_add, zero_sub, abs_neg]
    linarith

/-- The change of the angular momentum in a substep made in the plane: torque at the mean of the old and new position. -/
theorem torque_identity (r pr pphi d fx fy g : ℝ) : 
    (r + d * ((pr + d / 2 * fx) / g)) * (pphi + d * fy) - (0 + d * ((pphi + d / 2 * fy) / g)) * (pr + d * fx) - r * pphi =
      d / 2 * (((r + d * ((pr + d / 2 * fx) / g)) + r) * fy - (0 + d * ((pphi + d / 2 * fy) / g)) * fx) := by ring

/-- The rotation from the frame of the particle at the start of a substep to that at its end. -/
theorem frame_change {c s x y r : ℝ} (h : c ^ 2 + s ^ 2 = 1) (hr : 0 < r) (hr' : r = Real.sqrt (x ^ 2 + y ^ 2)) (z px py pz : ℝ) :
    ∃ c' s', c' ^ 2 + s' ^ 2 = 1 ∧ rot c' s' ⟨r, 0, z⟩ = rot c s ⟨x, y, z⟩ ∧ rot c' s' ⟨(x * px + y * py) / r, (x * py - y * px) / r, pz⟩ = rot c s ⟨px, py, pz⟩ := by
  have hsq : r ^ 2 = x ^ 2 + y ^ 2 := by rw [hr', Real.sq_sqrt (by positivity)]
  have hne := hr.ne'
  refine ⟨(c * x - s * y) / r, (s * x + c * y) / r, ?_, ?_, ?_⟩
  · field_simp
    rw [hsq]
    linear_combination (x ^ 2 + y ^ 2) * h
  · simp only [rot, Vec3.mk.injEq]
    refine ⟨by field_simp; ring, by field_simp; ring, trivial⟩
  · simp only [rot, Vec3.mk.injEq]
    refine ⟨?_, ?_, trivial⟩
    · field_simp
      rw [hsq]
      ring
    · field_simp
      rw [hsq]
      ring

/-- How far the angular momentum the code keeps (without an external magnetic field) is from that of the substep made in the plane. -/
theorem kept_momentum {c : PushCfg} {xiEnd : ℝ} {f1 f0 : Fields} {d del M L t : ℝ} {E B : ℝ → Vec3 → Vec3} {p : Particle ℝ} (hE : Tame M L E) (hB : Tame M L B) (aE : Axisymmetric E) (aB : Axisymmetric B) (hL : 0 ≤ L)
    (hd : 0 ≤ d) (hr : 0 < p.r) (fe : Within (feltE c xiEnd f1 f0 d p) (E t (halfRadius d p)) del) (fb : Within (feltB c xiEnd f1 f0 d p) (B t (halfRadius d p)) del)
    (z1 : (feltE c xiEnd f1 f0 d p).y = 0) (z2 : (feltB c xiEnd f1 f0 d p).z = 0) {f X P : Vec3} (hf : f = lorentz p.qm (feltE c xiEnd f1 f0 d p) (feltB c xiEnd f1 f0 d p) (localMom p))
    (hP : P = shift3 (localMom p) d f) (hX : X = shift3 (localPos p) d (vel1 p.qm (shift3 (localMom p) (d / 2) f))) {r : ℝ} (hr0 : 0 < r) (hr' : r = Real.sqrt (X.x ^ 2 + X.y ^ 2)) :
    |(X.x * P.y - X.y * P.x) / r - p.M / r| ≤ d * (4 * L * d + del) := by
  have zb : (feltB c xiEnd f1 f0 d p).x = 0 := by
    have : (feltB c xiEnd f1 f0 d p).x = -(feltE c xiEnd f1 f0 d p).y := rfl
    rw [this, z1, neg_zero]
  have fy : f.y = 0 := by
    rw [hf]; unfold lorentz; simp only; rw [z1, z2, zb]; ring
  have hM : 0 ≤ M := le_trans (abs_nonneg _) (hE.bounded 0 X).1
  have rad : (halfRadius d p).x = Real.sqrt ((halfPosition d p).x ^ 2 + (halfPosition d p).y ^ 2) := rfl
  have rh0 : 0 ≤ (halfRadius d p).x := by rw [rad]; exact Real.sqrt_nonneg _
  have small : ∀ (F : ℝ → Vec3 → Vec3), Tame M L F → Axisymmetric F → |(F t (halfRadius d p)).x| ≤ L * (halfRadius d p).x ∧ |(F t (halfRadius d p)).y| ≤ L * (halfRadius d p).x := by
    intro F hF aF
    have hw : Within (halfRadius d p) ⟨0, 0, (halfRadius d p).z⟩ (halfRadius d p).x := by
      refine ⟨by simp [abs_of_nonneg rh0], ?_, by simpa using rh0⟩
      show |0 - 0| ≤ _
      simpa using rh0
    obtain ⟨l1, l2, -⟩ := hF.lipschitz t _ _ _ hw
    obtain ⟨a1, a2⟩ := axis_zero aF t (halfRadius d p).z
    rw [a1, sub_zero] at l1
    rw [a2, sub_zero] at l2
    exact ⟨l1, l2⟩
  have sE := (small E hE aE).1
  have sB := (small B hB aB).2
  obtain ⟨vx, vy, vz⟩ := vel_le_one p.qm (localMom p)
  have near : ∀ u v k : ℝ, |u - v| ≤ del → |v| ≤ k → |u| ≤ k + del := by
    intro u v k h1 h2
    have := abs_sub_abs_le_abs_sub u v
    linarith
  have hdel : 0 ≤ del := fe.nonneg
  have ee := near _ _ _ fe.1 sE
  have bb := near _ _ _ fb.2.1 sB
  have fx : |f.x| ≤ 2 * (L * (halfRadius d p).x + del) := by
    rw [hf]; unfold lorentz; simp only; rw [z2, mul_zero, zero_sub]
    rw [abs_mul]
    have h1 : |(feltE c xiEnd f1 f0 d p).x + -((vel p.qm (localMom p)).z * (feltB c xiEnd f1 f0 d p).y)| ≤ 2 * (L * (halfRadius d p).x + del) := by
      refine (abs_add_le _ _).trans ?_
      rw [abs_neg, abs_mul]
      have := mul_le_mul vz bb (abs_nonneg _) (by norm_num : (0 : ℝ) ≤ 1)
      linarith
    calc _ ≤ 1 * _ := mul_le_mul_of_nonneg_right (abs_sign_le _) (abs_nonneg _)
      _ ≤ _ := by linarith
  -- geometry
  obtain ⟨hx, hy, -⟩ := half_shift d p
  obtain ⟨wx, wy, -⟩ := vel_le_one p.qm (shift3 (localMom p) (d / 2) f)
  have Xx : X.x = p.r + d * (vel p.qm (shift3 (localMom p) (d / 2) f)).x := by rw [hX]; rfl
  have Xy : X.y = 0 + d * (vel p.qm (shift3 (localMom p) (d / 2) f)).y := by rw [hX]; rfl
  have xx : (halfPosition d p).x = p.r + d / 2 * (vel p.qm (localMom p)).x := by rw [hx]; rfl
  have yy : (halfPosition d p).y = 0 + d / 2 * (vel p.qm (localMom p)).y := by rw [hy]; rfl
  have m : ∀ u v : ℝ, |u| ≤ 1 → |v| ≤ 1 → ∀ q : ℝ, |q + d / 2 * u - (q + d * v)| ≤ 3 / 2 * d := by
    intro u v hu hv q
    have : q + d / 2 * u - (q + d * v) = d / 2 * u - d * v := by ring
    rw [this]
    refine (abs_sub _ _).trans ?_
    rw [abs_mul, abs_mul, abs_of_nonneg hd, abs_of_nonneg (by linarith : 0 ≤ d / 2)]
    nlinarith
  have hrh : (halfRadius d p).x ≤ r + 3 * d := by
    have := sqrt_near (x := (halfPosition d p).x) (y := (halfPosition d p).y) (X := X.x) (Y := X.y) (e := 3 / 2 * d) (by rw [xx, Xx]; exact m _ _ vx wx _) (by rw [yy, Xy]; exact m _ _ vy wy _)
    rw [rad, hr']
    linarith
  have hyd : |X.y| ≤ d := by
    rw [Xy, zero_add, abs_mul, abs_of_nonneg hd]
    nlinarith [abs_nonneg (vel p.qm (shift3 (localMom p) (d / 2) f)).y]
  have hyr : |X.y| ≤ r := by
    rw [hr']; exact Real.abs_le_sqrt (by nlinarith [sq_nonneg X.x])
  have key : X.x * P.y - X.y * P.x - p.M = -(d / 2 * (X.y * f.x)) := by
    have hMr : p.M = p.r * (p.M / p.r) := by field_simp
    have ti := torque_identity p.r p.pr (p.M / p.r) d f.x f.y (Real.sqrt ((1 / p.qm) ^ 2 + (p.pr + d / 2 * f.x) ^ 2 + (p.M / p.r + d / 2 * f.y) ^ 2 + (p.pz + d / 2 * f.z) ^ 2))
    have e1 : X.x = p.r + d * ((p.pr + d / 2 * f.x) / Real.sqrt ((1 / p.qm) ^ 2 + (p.pr + d / 2 * f.x) ^ 2 + (p.M / p.r + d / 2 * f.y) ^ 2 + (p.pz + d / 2 * f.z) ^ 2)) := by rw [hX]; rfl
    have e2 : X.y = 0 + d * ((p.M / p.r + d / 2 * f.y) / Real.sqrt ((1 / p.qm) ^ 2 + (p.pr + d / 2 * f.x) ^ 2 + (p.M / p.r + d / 2 * f.y) ^ 2 + (p.pz + d / 2 * f.z) ^ 2)) := by rw [hX]; rfl
    have e3 : P.x = p.pr + d * f.x := by rw [hP]; rfl
    have e4 : P.y = p.M / p.r + d * f.y := by rw [hP]; rfl
    rw [← e1, ← e2, ← e3, ← e4, ← hMr, fy] at ti
    rw [ti]; ring
  rw [← sub_div, key, abs_div, abs_of_pos hr0, abs_neg, abs_mul, abs_mul, abs_of_nonneg (by linarith : 0 ≤ d / 2), div_le_iff₀ hr0]
  have h1 : |f.x| ≤ 2 * (L * (r + 3 * d) + del) := by
    have := mul_le_mul_of_nonneg_left hrh hL
    linarith
  have h2 : |X.y| * |f.x| ≤ |X.y| * (2 * (L * (r + 3 * d) + del)) := mul_le_mul_of_nonneg_left h1 (abs_nonneg _)
  have h3 : |X.y| * (L * r) ≤ d * (L * r) := mul_le_mul_of_nonneg_right hyd (by positivity)
  have h4 : |X.y| * (3 * L * d + del) ≤ r * (3 * L * d + del) := mul_le_mul_of_nonneg_right hyr (by positivity)
  have h5 : |X.y| * |f.x| ≤ 2 * (r * (4 * L * d + del)) := by linarith
  have := mul_le_mul_of_nonneg_left h5 (by linarith : 0 ≤ d / 2)
  linarith

/-- One substep of the 2D pusher: `a` and `b` are the errors of the position and the momentum before it. -/
theorem step_error_2d {c : PushCfg} {xiEnd : ℝ} {f1 f0 : Fields} {d del M L T t a b : ℝ} {E B : ℝ → Vec3 → Vec3} {X P : ℝ → Vec3} {p p' : Particle ℝ} (hq : p.qm ≠ 0) (hm : Motion p.qm E B T X P)
    (hE : Tame M L E) (hB : Tame M L B) (aE : Axisymmetric E) (aB : Axisymmetric B) (hL : 0 ≤ L) (h0 : 0 ≤ t) (hd : 0 ≤ d) (hT : t + d ≤ T) (hr : 0 < p.r) (hr' : 0 < p'.r)
    (ht : pushTurn c xiEnd f1 f0 d p = .inr (p', false))
    (hf : ∀ s, t ≤ s → s ≤ t + d → Within (feltE c xiEnd f1 f0 d p) (E s (halfRadius d p)) del ∧ Within (feltB c xiEnd f1 f0 d p) (B s (halfRadius d p)) del)
    (hz : c.magneticField = 0 → (feltE c xiEnd f1 f0 d p).y = 0 ∧ (feltB c xiEnd f1 f0 d p).z = 0)
    {u v : ℝ} (huv : u ^ 2 + v ^ 2 = 1) (hx : Within (rot u v (localPos p)) (X t) a) (hp : Within (rot u v (localMom p)) (P t) b) :
    ∃ u' v', u' ^ 2 + v' ^ 2 = 1 ∧ Within (rot u' v' (localPos p')) (X (t + d)) (a + d * (3 * |p.qm| * (b + 9 / 2 * M * d + 3 / 2 * (2 * del + 3 * L * d) * d))) ∧
      Within (rot u' v' (localMom p')) (P (t + d)) (b + d * (3 * (2 * del + 3 * L * d) + 3 * L * (a + 3 * d) + 6 * |p.qm| * M * (b + 3 * M * d)) + d * (4 * L * d + del)) := by
  obtain ⟨f, X', P', ef, eP, eX, er, exi, epr, epz, eqm, eM1, eM0⟩ := turn_local c xiEnd f1 f0 d p p' false ht
  have hpt : ∀ F : ℝ → Vec3 → Vec3, Tame M L F → Axisymmetric F → ∀ g, (∀ s, t ≤ s → s ≤ t + d → Within g (F s (halfRadius d p)) del) →
      ∀ s ∈ Set.Icc t (t + d), Within (rot u v g) (F s (shift3 (rot u v (localPos p)) (d / 2) (vel1 p.qm (rot u v (localMom p))))) (2 * del + 3 * L * d) := by
    intro F hF aF g hg s hs
    rw [vel1_rot _ _ _ huv, shift_rot]
    have h1 := within_rot huv (hg s hs.1 hs.2)
    rw [← aF s u v _ huv] at h1
    have h2 := hF.lipschitz s _ _ _ (within_rot huv (half_near d hd p hr))
    exact (h1.trans h2).mono (by linarith)
  have hs := cpu_step_error hq hm hE hB hL h0 hd hT _ _ (rot u v (feltE c xiEnd f1 f0 d p)) (rot u v (feltB c xiEnd f1 f0 d p)) hx hp
    (hpt E hE aE _ (fun s h1 h2 => (hf s h1 h2).1)) (hpt B hB aB _ (fun s h1 h2 => (hf s h1 h2).2))
  rw [lorentz_rot _ _ _ huv, ← ef, shift_rot, shift_rot, ← eP, vel1_rot _ _ _ huv, shift_rot, ← eX] at hs
  obtain ⟨s1, s2⟩ := hs
  obtain ⟨u', v', huv', k1, k2⟩ := frame_change huv hr' er X'.z P'.x P'.y P'.z
  refine ⟨u', v', huv', ?_, ?_⟩
  · have : localPos p' = ⟨p'.r, 0, X'.z⟩ := by unfold localPos; rw [exi]
    rw [this, k1]
    exact s2
  · have hdel : 0 ≤ del := (hf t le_rfl (by linarith)).1.nonneg
    have k2' : rot u' v' ⟨(X'.x * P'.x + X'.y * P'.y) / p'.r, (X'.x * P'.y - X'.y * P'.x) / p'.r, P'.z⟩ = rot u v P' := k2
    have kept : |(X'.x * P'.y - X'.y * P'.x) / p'.r - p'.M / p'.r| ≤ d * (4 * L * d + del) := by
      by_cases hB0 : c.magneticField = 0
      · rw [eM0 hB0]
        obtain ⟨g1, g2⟩ := hf t le_rfl (by linarith)
        obtain ⟨z1, z2⟩ := hz hB0
        exact kept_momentum hE hB aE aB hL hd hr g1 g2 z1 z2 ef eP eX hr' er
      · rw [eM1 hB0, sub_self, abs_zero]
        positivity
    have hl : localMom p' = ⟨(X'.x * P'.x + X'.y * P'.y) / p'.r, p'.M / p'.r, P'.z⟩ := by unfold localMom; rw [epr, epz]
    rw [abs_sub_comm] at kept
    obtain ⟨bu, bv⟩ := unit_le huv'
    have e0 : 0 ≤ d * (4 * L * d + del) := le_trans (abs_nonneg _) kept
    have close : Within (rot u' v' (localMom p')) (rot u v P') (d * (4 * L * d + del)) := by
      rw [← k2', hl]
      have mul : ∀ w : ℝ, |w| ≤ 1 → |w * (p'.M / p'.r - (X'.x * P'.y - X'.y * P'.x) / p'.r)| ≤ d * (4 * L * d + del) := by
        intro w hw
        rw [abs_mul]
        have := mul_le_mul hw kept (abs_nonneg _) (by norm_num : (0 : ℝ) ≤ 1)
        linarith
      refine ⟨?_, ?_, ?_⟩
      · have := mul v' bv
        rw [← abs_neg] at this
        refine le_trans (le_of_eq ?_) this
        congr 1; simp only [rot]; ring
      · have := mul u' bu
        refine le_trans (le_of_eq ?_) this
        congr 1; simp only [rot]; ring
      · simp only [rot, sub_self, abs_zero]; exact e0
    exact (close.trans s1).mono (by linarith)

/-! ### Many substeps -/

theorem Pushed.keeps {c : PushCfg} {E B : ℝ → Vec3 → Vec3} {del dt : ℝ} {n : ℕ} {p : ℕ → Particle ℝ} (h : Pushed c E B del dt n p) : ∀ k ≤ n, (p k).qm = (p 0).qm ∧ 0 < (p k).r := by
  intro k
  induction k with
  | zero => intro _; exact ⟨rfl, h.1⟩
  | succ k ih =>
    intro hk
    obtain ⟨xiEnd, f1, f0, ht, hr, -⟩ := h.2 k hk
    obtain ⟨f, X', P', -, -, -, -, -, -, -, eqm, -⟩ := turn_local c xiEnd f1 f0 dt _ _ false ht
    exact ⟨eqm.trans (ih (Nat.le_of_succ_le hk)).1, hr⟩

/-- C69: for every particle, every number of substeps and whatever layers they are made in, the state the 2D pusher computes is, turned by a suitable angle around the axis (the code does not keep the azimuth), within
`e^(A t) e0 + (e^(A t) - 1)/A (7 del + dt K)` of the solution of the three-dimensional equations of motion, at every substep `t = k dt`. `A` and `K` depend on the fields and the charge-to-mass ratio only: not on the distance from the axis, not on the external magnetic field being zero or not. -/
theorem converges_2d (c : PushCfg) {M L T del dt e0 : ℝ} {E B : ℝ → Vec3 → Vec3} {X P : ℝ → Vec3} (n : ℕ) (p : ℕ → Particle ℝ) (hq : (p 0).qm ≠ 0)
    (hm : Motion (p 0).qm E B T X P) (hE : Tame M L E) (hB : Tame M L B) (aE : Axisymmetric E) (aB : Axisymmetric B) (hL : 0 ≤ L) (hdel : 0 ≤ del) (hdt : 0 ≤ dt) (hT : n * dt ≤ T)
    (hr : Pushed c E B del dt n p) (hx : Within (localPos (p 0)) (X 0) e0) (hp : Within (localMom (p 0)) (P 0) e0) (k : ℕ) (hk : k ≤ n) :
    ∃ A K err u v, A = 3 * L + 6 * |(p 0).qm| * M + 3 * |(p 0).qm| ∧ K = 22 * L + 18 * |(p 0).qm| * M ^ 2 + 27 / 2 * |(p 0).qm| * M + 9 / 2 * |(p 0).qm| * (2 * del + 3 * L * dt) ∧
      err = Real.exp (A * (k * dt)) * e0 + (Real.exp (A * (k * dt)) - 1) / A * (7 * del + dt * K) ∧ u ^ 2 + v ^ 2 = 1 ∧
      Within (rot u v (localPos (p k))) (X (k * dt)) err ∧ Within (rot u v (localMom (p k))) (P (k * dt)) err := by
  have hqa : 0 < |(p 0).qm| := abs_pos.mpr hq
  have hM : 0 ≤ M := le_trans (abs_nonneg _) (hE.bounded 0 (X 0)).1
  have he0 := hx.nonneg
  obtain ⟨A, hA⟩ : ∃ A, A = 3 * L + 6 * |(p 0).qm| * M + 3 * |(p 0).qm| := ⟨_, rfl⟩
  obtain ⟨K, hK⟩ : ∃ K, K = 22 * L + 18 * |(p 0).qm| * M ^ 2 + 27 / 2 * |(p 0).qm| * M + 9 / 2 * |(p 0).qm| * (2 * del + 3 * L * dt) := ⟨_, rfl⟩
  have hApos : 0 < A := by rw [hA]; positivity
  have hKpos : 0 ≤ K := by rw [hK]; positivity
  suffices h : ∃ u v : ℝ, u ^ 2 + v ^ 2 = 1 ∧ Within (rot u v (localPos (p k))) (X (k * dt)) (Real.exp (A * (k * dt)) * e0 + (Real.exp (A * (k * dt)) - 1) / A * (7 * del + dt * K)) ∧
      Within (rot u v (localMom (p k))) (P (k * dt)) (Real.exp (A * (k * dt)) * e0 + (Real.exp (A * (k * dt)) - 1) / A * (7 * del + dt * K)) by
    obtain ⟨u, v, h1, h2, h3⟩ := h
    exact ⟨A, K, _, u, v, hA, hK, rfl, h1, h2, h3⟩
  have hkeep := hr.keeps
  induction k with
  | zero =>
    refine ⟨1, 0, by norm_num, ?_⟩
    have e1 : ∀ w : Vec3, rot 1 0 w = w := by intro w; simp [rot]
    rw [e1, e1]
    simpa using ⟨hx, hp⟩
  | succ k ih =>
    obtain ⟨u, v, huv, ix, ip⟩ := ih (Nat.le_of_succ_le hk)
    obtain ⟨kq, kr⟩ := hkeep k (Nat.le_of_succ_le hk)
    obtain ⟨xiEnd, f1, f0, ht, hr1, hf, hz⟩ := hr.2 k hk
    have hk1 : ((k + 1 : ℕ) : ℝ) ≤ n := by exact_mod_cast hk
    have htT : (k : ℝ) * dt + dt ≤ T := by
      have := mul_le_mul_of_nonneg_right hk1 hdt
      push_cast at this
      linarith
    obtain ⟨u', v', huv', s2, s1⟩ := step_error_2d (t := k * dt) (by rw [kq]; exact hq) (by rw [kq]; exact hm) hE hB aE aB hL (by positivity) hdt htT kr hr1 ht
      (fun s h1 h2 => hf s h1 (by linarith)) hz huv ix ip
    have et : ((k + 1 : ℕ) : ℝ) * dt = k * dt + dt := by push_cast; ring
    have hg := gronwall_step A (7 * del + dt * K) dt e0 hApos (by positivity) hdt he0 k
    have hmono := ix.nonneg
    rw [kq] at s1 s2
    refine ⟨u', v', huv', ?_⟩
    generalize Real.exp (A * ((k + 1 : ℕ) * dt)) * e0 + (Real.exp (A * ((k + 1 : ℕ) * dt)) - 1) / A * (7 * del + dt * K) = err' at hg ⊢
    generalize Real.exp (A * (k * dt)) * e0 + (Real.exp (A * (k * dt)) - 1) / A * (7 * del + dt * K) = err at hg s1 s2 hmono
    rw [et]
    generalize |(p 0).qm| = q at *
    refine ⟨s2.mono (le_trans ?_ hg), s1.mono (le_trans ?_ hg)⟩
    · have e1 : err * (1 + A * dt) + dt * (7 * del + dt * K) - (err + dt * (3 * q * (err + 9 / 2 * M * dt + 3 / 2 * (2 * del + 3 * L * dt) * dt))) =
          dt * ((3 * L + 6 * q * M) * err + 7 * del + dt * (22 * L + 18 * q * M ^ 2)) := by
        rw [hA, hK]; ring
      have : 0 ≤ dt * ((3 * L + 6 * q * M) * err + 7 * del + dt * (22 * L + 18 * q * M ^ 2)) := by positivity
      linarith only [e1, this]
    · have e1 : err * (1 + A * dt) + dt * (7 * del + dt * K) - (err + dt * (3 * (2 * del + 3 * L * dt) + 3 * L * (err + 3 * dt) + 6 * q * M * (err + 3 * M * dt)) + dt * (4 * L * dt + del)) =
          dt * (3 * q * err + dt * (27 / 2 * q * M + 9 / 2 * q * (2 * del + 3 * L * dt))) := by
        rw [hA, hK]; ring
      have : 0 ≤ dt * (3 * q * err + dt * (27 / 2 * q * M + 9 / 2 * q * (2 * del + 3 * L * dt))) := by positivity
      linarith only [e1, this]

/-- C69, what this says about the variables of the code: radius, xi, longitudinal momentum, radial momentum times radius and angular momentum against those of the true trajectory. -/
theorem cylinder_error {p : Particle ℝ} (hr : 0 < p.r) {X P : Vec3} {u v err : ℝ} (huv : u ^ 2 + v ^ 2 = 1) (hx : Within (rot u v (localPos p)) X err) (hp : Within (rot u v (localMom p)) P err) :
    |p.r - Real.sqrt (X.x ^ 2 + X.y ^ 2)| ≤ 2 * err ∧ |p.xi - X.z| ≤ err ∧ |p.pz - P.z| ≤ err ∧
    |p.r * p.pr - (X.x * P.x + X.y * P.y)| ≤ err * (2 * p.r + |P.x| + |P.y|) ∧ |p.M - (X.x * P.y - X.y * P.x)| ≤ err * (2 * p.r + |P.x| + |P.y|) := by
  obtain ⟨bu, bv⟩ := unit_le huv
  obtain ⟨x1, x2, x3⟩ := hx
  obtain ⟨p1, p2, p3⟩ := hp
  simp only [rot, localPos, localMom, mul_zero, sub_zero, add_zero] at x1 x2 x3 p1 p2 p3
  have he : 0 ≤ err := le_trans (abs_nonneg _) x1
  have er : Real.sqrt ((u * p.r) ^ 2 + (v * p.r) ^ 2) = p.r := by
    rw [show (u * p.r) ^ 2 + (v * p.r) ^ 2 = p.r ^ 2 by linear_combination p.r ^ 2 * huv, Real.sqrt_sq hr.le]
  have hM : p.M = p.r * (p.M / p.r) := by field_simp
  generalize p.M / p.r = w at *
  have ma : ∀ k : ℝ, |k| ≤ 1 → |k * p.r| ≤ p.r := by
    intro k hk
    rw [abs_mul, abs_of_pos hr]
    nlinarith
  have bil : ∀ a b a' b' : ℝ, |a| ≤ p.r → |a - a'| ≤ err → |b - b'| ≤ err → |a * b - a' * b'| ≤ err * (p.r + |b'|) := by
    intro a b a' b' h1 h2 h3
    have e : a * b - a' * b' = a * (b - b') + (a - a') * b' := by ring
    rw [e]
    refine (abs_add_le _ _).trans ?_
    rw [abs_mul, abs_mul]
    have := mul_le_mul h1 h3 (abs_nonneg _) hr.le
    have := mul_le_mul_of_nonneg_right h2 (abs_nonneg b')
    linarith
  refine ⟨?_, x3, p3, ?_, ?_⟩
  · have a1 := sqrt_near x1 x2
    have a2 := sqrt_near ((abs_sub_comm _ _).trans_le x1) ((abs_sub_comm _ _).trans_le x2)
    rw [er] at a1 a2
    rw [abs_le]
    constructor <;> linarith
  · have b1 := bil _ _ _ _ (ma u bu) x1 p1
    have b2 := bil _ _ _ _ (ma v bv) x2 p2
    have e : p.r * p.pr = u * p.r * (u * p.pr - v * w) + v * p.r * (v * p.pr + u * w) := by linear_combination -(p.r * p.pr) * huv
    rw [e]
    have : u * p.r * (u * p.pr - v * w) + v * p.r * (v * p.pr + u * w) - (X.x * P.x + X.y * P.y) = (u * p.r * (u * p.pr - v * w) - X.x * P.x) + (v * p.r * (v * p.pr + u * w) - X.y * P.y) := by ring
    rw [this]
    refine (abs_add_le _ _).trans ?_
    linarith
  · have b1 := bil _ _ _ _ (ma u bu) x1 p2
    have b2 := bil _ _ _ _ (ma v bv) x2 p1
    have e : p.M = u * p.r * (v * p.pr + u * w) - v * p.r * (u * p.pr - v * w) := by rw [hM]; linear_combination -(p.r * w) * huv
    rw [e]
    have : u * p.r * (v * p.pr + u * w) - v * p.r * (u * p.pr - v * w) - (X.x * P.y - X.y * P.x) = (u * p.r * (v * p.pr + u * w) - X.x * P.y) - (v * p.r * (u * p.pr - v * w) - X.y * P.x) := by ring
    rw [this]
    refine (abs_sub _ _).trans ?_
    linarith

end Lcode.Beam2D
