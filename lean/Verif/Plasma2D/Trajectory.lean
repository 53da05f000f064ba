import Verif.Plasma2D.Substep
import Verif.Plasma3D.TrajectoryStep
import Verif.Beam2D.Converge

/-!
Property C79: the trajectories of plasma particles in the 2D code (lcode/plasma/move.py) converge to the solution of the three-dimensional equations of motion, through and around the axis, for any subdivision of the layers into substeps.
The model of the pusher is Verif/Plasma2D/Move.lean; the equations of motion (`PlasmaMotion`, lorentz3) are those of Verif/Plasma3D/Trajectory.lean. This file adds proofs and the specification of closeness up to a rotation.
-/

namespace Lcode.Plasma2D

open Lcode.Plasma3D (Vec3 lorentz3 PlasmaMotion Tame2 Upto kap kapMax kapMax_pos kap_bound velLip slope_lip slope_kap forceLip fieldLip forceMax force_lip3 force_upto halfway halfway_near upto_near full_step)
open Lcode.Beam3D (Within near_linear vel vel_le_one)
open Lcode.Beam2D (rot within_rot unit_le frame_change sqrt_near)
open Lcode.Num (DerivOn)

/-! ### Specification -/

/-- A vector field that looks the same after every rotation around the axis. -/
def AxiSym (E : ℝ → ℝ → ℝ → Vec3) : Prop := ∀ s x y u v, u ^ 2 + v ^ 2 = 1 → E s (u * x - v * y) (v * x + u * y) = rot u v (E s x y)

/-- Position and momentum in the frame whose x axis goes through the particle. -/
def PState.pos (s : PState) : Vec3 := ⟨s.r, 0, 0⟩
def PState.mom (s : PState) : Vec3 := ⟨s.pr, s.pf, s.pz⟩

/-- Turned around the axis by a suitable angle (the code does not keep the azimuth) the computed particle is within `e` of position `(x, y)` and momentum `p`. -/
def NearTurned (s : PState) (x y : ℝ) (p : Vec3) (e : ℝ) : Prop := ∃ u v : ℝ, u ^ 2 + v ^ 2 = 1 ∧ Within (rot u v s.pos) ⟨x, y, 0⟩ e ∧ Within (rot u v s.mom) p e

/-- The two vector types of the 2D and 3D models. -/
def Vec.v3 (a : Vec) : Vec3 := ⟨a.x, a.y, a.z⟩

/-- The fields a push computes at any radius of the window are within `del` of the true radial, azimuthal and longitudinal components. -/
def FieldsNear (e : Env) (M : ℕ) (E B : ℝ → ℝ → Vec3) (del : ℝ) : Prop :=
  ∀ ρ, 0 ≤ ρ → ρ ≤ e.R → Within (fieldE e M (ρ / e.h)).v3 (E ρ 0) del ∧ Within (fieldB e M (ρ / e.h)).v3 (B ρ 0) del

/-- The true trajectory stays within the radius `W`, its momentum below `R`. -/
def Stays (T W R : ℝ) (X Y : ℝ → ℝ) (P : ℝ → Vec3) : Prop := ∀ s, 0 ≤ s → s ≤ T → Real.sqrt (X s ^ 2 + Y s ^ 2) ≤ W ∧ Upto (P s) R

/-- `s 0, ..., s n` are the states of one particle after 0, ..., n pushes, `t 0 = 0 ≤ t 1 ≤ ...` the paths covered; no push is longer than `δ`. In each push the fields are within `del` of the true ones at all times of the push.
A push does not land exactly on the axis, unless the particle does not rotate at all (no azimuthal momentum, no E_phi, no B_z); where the true particle `(X, Y)` is farther than `2 μ` from the axis nothing has to be assumed. -/
def Pushes (m : ℝ) (E B : ℝ → ℝ → ℝ → Vec3) (X Y : ℝ → ℝ) (μ Rw del δ : ℝ) (n : ℕ) (t : ℕ → ℝ) (s : ℕ → PState) : Prop :=
  0 ≤ (s 0).r ∧ t 0 = 0 ∧ ∀ k < n, t k ≤ t (k + 1) ∧ t (k + 1) - t k ≤ δ ∧ ∃ (e : Env) (M : ℕ), 1 ≤ M ∧ e.n = M + 1 ∧ 0 < e.h ∧ e.R < (M + 1 / 2) * e.h ∧ Rw ≤ e.R ∧
    s (k + 1) = (moveOne e m (s k) (t (k + 1) - t k)).s ∧ (∀ τ, t k ≤ τ → τ ≤ t (k + 1) → FieldsNear e M (E τ) (B τ) del) ∧
    (0 < (s (k + 1)).r ∨ ((s k).pf = 0 ∧ ∀ i, e.F.Ef i = 0 ∧ e.F.Bz i = 0) ∨ 2 * μ < Real.sqrt (X (t (k + 1)) ^ 2 + Y (t (k + 1)) ^ 2))

/-! ### Rotations and conversions -/

theorem energy_rot (m u v : ℝ) (h : u ^ 2 + v ^ 2 = 1) (p : Vec3) : (rot u v p).energy m = p.energy m := by
  unfold Vec3.energy
  congr 1
  simp only [rot]
  linear_combination (p.x ^ 2 + p.y ^ 2) * h

theorem lorentz3_rot (q m u v : ℝ) (h : u ^ 2 + v ^ 2 = 1) (E B p : Vec3) : lorentz3 q m 1 (rot u v E) (rot u v B) (rot u v p) = rot u v (lorentz3 q m 1 E B p) := by
  unfold lorentz3
  rw [energy_rot m u v h p]
  generalize p.energy m = g
  simp only [rot, Vec3.mk.injEq]
  refine ⟨by ring, by ring, ?_⟩
  linear_combination 1 / (1 - p.z / g) * q * (p.x / g * B.y - p.y / g * B.x) * h

theorem halfway_rot (u v d : ℝ) (p f : Vec3) : halfway (rot u v p) d (rot u v f) = rot u v (halfway p d f) := by
  unfold halfway
  simp only [rot, Vec3.mk.injEq]
  refine ⟨by ring, by ring, trivial⟩

/-- `p + d f` -/
noncomputable def along (p : Vec3) (d : ℝ) (f : Vec3) : Vec3 := ⟨p.x + d * f.x, p.y + d * f.y, p.z + d * f.z⟩

theorem along_rot (u v d : ℝ) (p f : Vec3) : along (rot u v p) d (rot u v f) = rot u v (along p d f) := by
  unfold along
  simp only [rot, Vec3.mk.injEq]
  refine ⟨by ring, by ring, trivial⟩

theorem step_force (m q d : ℝ) (hm : 0 < m) (E B p : Vec) :
    timeStep m d p * (lorentz m q E B p).x = d * (lorentz3 q m 1 E.v3 B.v3 p.v3).x ∧ timeStep m d p * (lorentz m q E B p).y = d * (lorentz3 q m 1 E.v3 B.v3 p.v3).y ∧
    timeStep m d p * (lorentz m q E B p).z = d * (lorentz3 q m 1 E.v3 B.v3 p.v3).z := by
  have hg : (⟨p.x, p.y, p.z⟩ : Vec3).energy m = p.energy m := rfl
  have h1 := energy_gt m hm p
  have h2 : 0 < p.energy m := Real.sqrt_pos.mpr (by positivity)
  unfold timeStep lorentz lorentz3
  simp only [Vec.axpy, Vec.cross, Vec.v3, hg]
  generalize p.energy m = g at *
  have h3 : g - p.z ≠ 0 := by linarith [sub_pos.mpr h1]
  have h4 : 1 - p.z / g = (g - p.z) / g := by field_simp
  rw [h4]
  refine ⟨?_, ?_, ?_⟩ <;> field_simp <;> ring

/-- A push in the terms of this file: `mid` is the half-step momentum, `φ` the force there. -/
theorem push_local (m q d r : ℝ) (hm : 0 < m) (E B p : Vec) {mid φ : Vec3} (hmid : mid = halfway p.v3 d (lorentz3 q m 1 E.v3 B.v3 p.v3)) (hφ : φ = lorentz3 q m 1 E.v3 B.v3 mid) :
    (newMomentum m q d E B p).v3 = along p.v3 d φ ∧
    (newPosition m q d E B p r).x = r + d * ((halfway p.v3 d φ).x / (mid.energy m - mid.z)) ∧ (newPosition m q d E B p r).y = 0 + d * ((halfway p.v3 d φ).y / (mid.energy m - mid.z)) := by
  have e1 : (midMomentum m q d E B p).v3 = mid := by
    obtain ⟨a, b, c⟩ := step_force m q d hm E B p
    rw [hmid]
    unfold midMomentum halfway
    simp only [Vec.axpy, Vec.v3, Vec3.mk.injEq] at a b c ⊢
    refine ⟨by linear_combination a / 2, by linear_combination b / 2, by linear_combination c / 2⟩
  obtain ⟨a, b, c⟩ := step_force m q d hm E B (midMomentum m q d E B p)
  rw [e1, ← hφ] at a b c
  have e2 : (newMomentum m q d E B p).v3 = along p.v3 d φ := by
    unfold newMomentum along
    simp only [Vec.axpy, Vec.v3, Vec3.mk.injEq] at a b c ⊢
    refine ⟨by linear_combination a, by linear_combination b, by linear_combination c⟩
  have e3 : timeStep m d (midMomentum m q d E B p) = d / (mid.energy m - mid.z) := by rw [← e1]; rfl
  refine ⟨e2, ?_, ?_⟩
  · have hx := congrArg Vec3.x e2
    unfold newPosition halfway
    simp only [Vec.axpy, Vec.v3, along] at hx ⊢
    rw [hx, e3]; ring
  · have hy := congrArg Vec3.y e2
    unfold newPosition halfway
    simp only [Vec.axpy, Vec.v3, along] at hy ⊢
    rw [hy, e3]; ring

/-- The slope of a trajectory is bounded. -/
theorem slope_le {m R : ℝ} (hm : 0 < m) (p : Vec3) (hp : Upto p R) : |p.x / (p.energy m - p.z)| ≤ kapMax m R ∧ |p.y / (p.energy m - p.z)| ≤ kapMax m R := by
  obtain ⟨k1, k2⟩ := kap_bound hm p hp
  obtain ⟨v1, v2, -⟩ := vel_le_one (1 / m) p
  rw [Plasma3D.vel_energy] at v1 v2
  have one : ∀ a : ℝ, |a| ≤ 1 → |kap m p * a| ≤ kapMax m R := by
    intro a ha
    rw [abs_mul]
    have := mul_le_mul k1 ha (abs_nonneg _) (kapMax_pos hm).le
    linarith
  rw [slope_kap hm p hp, slope_kap hm p hp]
  exact ⟨one _ v1, one _ v2⟩

/-- Dividing by `gamma m - p_z`. -/
theorem denom_le {m R : ℝ} (hm : 0 < m) (p : Vec3) (hp : Upto p R) (a b e : ℝ) (h : |a - b| ≤ e) : |a / (p.energy m - p.z) - b / (p.energy m - p.z)| ≤ kapMax m R / m * e := by
  obtain ⟨k1, k2⟩ := kap_bound hm p hp
  have hg := Plasma3D.energy_pos hm p
  have hgm : m ≤ p.energy m := by
    unfold Vec3.energy
    exact Real.le_sqrt_of_sq_le (by nlinarith [sq_nonneg p.x, sq_nonneg p.y, sq_nonneg p.z])
  rw [← sub_div, slope_kap hm p hp, abs_mul, abs_div, abs_of_pos hg]
  have h1 : |a - b| / p.energy m ≤ e / m := div_le_div₀ (le_trans (abs_nonneg _) h) h hm hgm
  have := mul_le_mul k1 h1 (by positivity) (kapMax_pos hm).le
  refine this.trans (le_of_eq ?_)
  ring

theorem rot_pos (u v r : ℝ) : rot u v ⟨r, 0, 0⟩ = ⟨u * r, v * r, 0⟩ := by simp [rot]

/-! ### One push -/

theorem deriv_within {f g : ℝ → ℝ} {T : ℝ} (h : DerivOn f g 0 T) : ∀ s ∈ Set.Icc 0 T, HasDerivWithinAt f (g s) (Set.Icc 0 T) s := fun s hs => (h s hs.1 hs.2).hasDerivWithinAt

/-- The true particle does not go far during a push. -/
theorem true_drift {q m M L T W R : ℝ} (hm : 0 < m) {E B : ℝ → ℝ → ℝ → Vec3} {X Y : ℝ → ℝ} {P : ℝ → Vec3} (hmo : PlasmaMotion q m E B T X Y P) (hE : Tame2 M L E) (hB : Tame2 M L B) (hst : Stays T W R X Y P)
    {t τ : ℝ} (h0 : 0 ≤ t) (h1 : t ≤ τ) (h2 : τ ≤ T) :
    |X τ - X t| ≤ kapMax m R * (τ - t) ∧ |Y τ - Y t| ≤ kapMax m R * (τ - t) ∧ Within (P τ) (P t) (forceMax q m R M * (τ - t)) := by
  have hP : ∀ s ∈ Set.Icc t τ, Upto (P s) R := fun s hs => (hst s (h0.trans hs.1) (hs.2.trans h2)).2
  have hF : ∀ s ∈ Set.Icc t τ, _ := fun s hs => force_upto (q := q) hm _ _ _ (hP s hs) (hE.bounded s (X s) (Y s)) (hB.bounded s (X s) (Y s))
  refine ⟨?_, ?_, ?_, ?_, ?_⟩
  · exact Beam3D.drift h0 h1 h2 (deriv_within hmo.dx) (fun s hs => (slope_le hm _ (hP s hs)).1)
  · exact Beam3D.drift h0 h1 h2 (deriv_within hmo.dy) (fun s hs => (slope_le hm _ (hP s hs)).2)
  · exact Beam3D.drift h0 h1 h2 (deriv_within hmo.dpx) (fun s hs => (hF s hs).1)
  · exact Beam3D.drift h0 h1 h2 (deriv_within hmo.dpy) (fun s hs => (hF s hs).2.1)
  · exact Beam3D.drift h0 h1 h2 (deriv_within hmo.dpz) (fun s hs => (hF s hs).2.2)

/-- Errors of the force and of the slope within a push. -/
noncomputable def errForce (q m M L R del d e : ℝ) : ℝ :=
  fieldLip q m (R + 1) * (2 * del + L * (e + 3 / 2 * kapMax m (R + 1) * d)) + forceLip q m (R + 1) M * (e + 3 / 2 * forceMax q m (R + 1) (M + 1) * d)
noncomputable def errSlope (q m M R d e : ℝ) : ℝ :=
  kapMax m (R + 1) / m * (forceMax q m (R + 1) (M + 1) * d) + velLip m (R + 1) * (e + 3 / 2 * forceMax q m (R + 1) (M + 1) * d)

theorem step_component' {f g : ℝ → ℝ} {T t d k R a e : ℝ} (h0 : 0 ≤ t) (hd : 0 ≤ d) (hT : t + d ≤ T) (hf : DerivOn f g 0 T) (hR : ∀ s ∈ Set.Icc t (t + d), |g s - k| ≤ R) (ha : |a - f t| ≤ e) :
    |a + d * k - f (t + d)| ≤ e + d * R := by
  have := near_linear h0 (by linarith : t ≤ t + d) hT (deriv_within hf) hR
  have e1 : f (t + d) - f t - k * (t + d - t) = f (t + d) - f t - d * k := by ring
  rw [e1] at this
  have := full_step (a := a) (k := k) (g := k) (η := 0) hd ha (by simp) this
  linarith [(by ring : R * (t + d - t) = d * R)]

theorem kapMax_mono {m R R' : ℝ} (hm : 0 < m) (h0 : 0 ≤ R) (h : R ≤ R') : kapMax m R ≤ kapMax m R' := by
  unfold kapMax
  have : R ^ 2 ≤ R' ^ 2 := pow_le_pow_left₀ h0 h 2
  exact div_le_div_of_nonneg_right (by linarith) (by positivity)

theorem forceMax_mono {q m R R' M M' : ℝ} (hm : 0 < m) (h0 : 0 ≤ R) (h : R ≤ R') (hM0 : 0 ≤ M) (hM : M ≤ M') : forceMax q m R M ≤ forceMax q m R' M' := by
  unfold forceMax
  have := kapMax_mono hm h0 h
  have k0 := kapMax_pos (R := R') hm
  exact mul_le_mul (mul_le_mul_of_nonneg_left this (by positivity)) hM hM0 (by positivity)

/-- The push made in the fixed frame: errors of position and momentum. `ρ` is the radius where the fields are taken. -/
theorem frame_step {q m M L T W R : ℝ} (hm : 0 < m) (hM : 0 ≤ M) {E B : ℝ → ℝ → ℝ → Vec3} {X Y : ℝ → ℝ} {P : ℝ → Vec3} (hmo : PlasmaMotion q m E B T X Y P) (hE : Tame2 M L E) (hB : Tame2 M L B)
    (hst : Stays T W R X Y P) {t d e del x y x1 y1 : ℝ} {p eR bR mid φ : Vec3} (h0 : 0 ≤ t) (hd : 0 ≤ d) (hT : t + d ≤ T) (he : e ≤ 1 / 2) (hdel : del ≤ 1 / 2) (hsm : d * forceMax q m (R + 1) (M + 1) ≤ 1)
    (cx : |x - X t| ≤ e) (cy : |y - Y t| ≤ e) (cp : Within p (P t) e) (fx : |x1 - x| ≤ kapMax m (R + 1) * d / 2) (fy : |y1 - y| ≤ kapMax m (R + 1) * d / 2)
    (fE : ∀ τ ∈ Set.Icc t (t + d), Within eR (E τ x1 y1) (2 * del)) (fB : ∀ τ ∈ Set.Icc t (t + d), Within bR (B τ x1 y1) (2 * del))
    (hmid : mid = halfway p d (lorentz3 q m 1 eR bR p)) (hφ : φ = lorentz3 q m 1 eR bR mid) :
    |x + d * ((halfway p d φ).x / (mid.energy m - mid.z)) - X (t + d)| ≤ e + d * errSlope q m M R d e ∧ |y + d * ((halfway p d φ).y / (mid.energy m - mid.z)) - Y (t + d)| ≤ e + d * errSlope q m M R d e ∧
    Within (along p d φ) (P (t + d)) (e + d * errForce q m M L R del d e) := by
  have he0 : 0 ≤ e := le_trans (abs_nonneg _) cx
  have mem : t ∈ Set.Icc t (t + d) := ⟨le_rfl, by linarith⟩
  obtain ⟨F, hF⟩ : ∃ F, F = forceMax q m (R + 1) (M + 1) := ⟨_, rfl⟩
  obtain ⟨K, hK⟩ : ∃ K, K = kapMax m (R + 1) := ⟨_, rfl⟩
  have hP := fun τ (hτ : τ ∈ Set.Icc t (t + d)) => (hst τ (h0.trans hτ.1) (hτ.2.trans hT)).2
  have hR : 0 ≤ R := le_trans (abs_nonneg _) (hP t mem).1
  have k0 := kapMax_pos (R := R + 1) hm
  have F0 : 0 ≤ forceMax q m (R + 1) (M + 1) := by unfold forceMax; positivity
  have uE : Upto eR (M + 1) := (upto_near (hE.bounded _ _ _) (fE t mem)).mono (by linarith)
  have uB : Upto bR (M + 1) := (upto_near (hB.bounded _ _ _) (fB t mem)).mono (by linarith)
  have up2 : Upto p (R + 1 / 2) := (upto_near (hP t mem) cp).mono (by linarith)
  have up : Upto p (R + 1) := up2.mono (by linarith)
  have n1 := halfway_near p _ hd (force_upto (q := q) hm eR bR p up uE uB)
  rw [← hmid] at n1
  have um : Upto mid (R + 1) := (upto_near up2 n1).mono (by linarith)
  have n2 := halfway_near p _ hd (force_upto (q := q) hm eR bR mid um uE uB)
  rw [← hφ] at n2
  have n3 : Within (halfway p d φ) mid (F * d) := (n2.trans n1.symm).mono (by rw [hF]; linarith)
  -- the true particle during the push
  have dr : ∀ τ ∈ Set.Icc t (t + d), |X τ - X t| ≤ K * d ∧ |Y τ - Y t| ≤ K * d ∧ Within (P τ) (P t) (F * d) := by
    intro τ hτ
    obtain ⟨a, b, c⟩ := true_drift hm hmo hE hB hst h0 hτ.1 (hτ.2.trans hT)
    have hk := kapMax_mono hm hR (by linarith : R ≤ R + 1)
    have hf := forceMax_mono (q := q) hm hR (by linarith : R ≤ R + 1) hM (by linarith : M ≤ M + 1)
    have hτd : τ - t ≤ d := by linarith [hτ.2]
    have hτ0 : 0 ≤ τ - t := by linarith [hτ.1]
    have m1 : kapMax m R * (τ - t) ≤ K * d := by rw [hK]; exact mul_le_mul hk hτd hτ0 k0.le
    have m2 : forceMax q m R M * (τ - t) ≤ F * d := by rw [hF]; exact mul_le_mul hf hτd hτ0 F0
    exact ⟨a.trans m1, b.trans m1, c.mono m2⟩
  have near : ∀ τ ∈ Set.Icc t (t + d), Within mid (P τ) (e + 3 / 2 * F * d) := by
    intro τ hτ
    refine ((n1.trans cp).trans (dr τ hτ).2.2.symm).mono ?_
    rw [hF]; linarith
  have frc : ∀ τ ∈ Set.Icc t (t + d), Within (lorentz3 q m 1 (E τ (X τ) (Y τ)) (B τ (X τ) (Y τ)) (P τ)) φ (errForce q m M L R del d e) := by
    intro τ hτ
    obtain ⟨a, b, -⟩ := dr τ hτ
    have px : |x1 - X τ| ≤ e + 3 / 2 * K * d := by
      rw [hK] at *; rw [abs_le] at *; constructor <;> linarith [fx.1, fx.2, cx.1, cx.2, a.1, a.2]
    have py : |y1 - Y τ| ≤ e + 3 / 2 * K * d := by
      rw [hK] at *; rw [abs_le] at *; constructor <;> linarith [fy.1, fy.2, cy.1, cy.2, b.1, b.2]
    have w1 := (fE τ hτ).trans (hE.lipschitz τ _ _ _ _ _ px py)
    have w2 := (fB τ hτ).trans (hB.lipschitz τ _ _ _ _ _ px py)
    have := force_lip3 (q := q) hm _ _ _ _ _ _ _ _ w1 w2 (near τ hτ) um ((hP τ hτ).mono (by linarith)) (hE.bounded _ _ _) (hB.bounded _ _ _)
    rw [← hφ, hK, hF] at this
    exact this.symm
  have slo : ∀ τ ∈ Set.Icc t (t + d), |(P τ).x / ((P τ).energy m - (P τ).z) - (halfway p d φ).x / (mid.energy m - mid.z)| ≤ errSlope q m M R d e ∧
      |(P τ).y / ((P τ).energy m - (P τ).z) - (halfway p d φ).y / (mid.energy m - mid.z)| ≤ errSlope q m M R d e := by
    intro τ hτ
    obtain ⟨a, b⟩ := slope_lip hm mid (P τ) um ((hP τ hτ).mono (by linarith)) _ (near τ hτ)
    have c1 := denom_le hm mid um _ _ _ n3.1
    have c2 := denom_le hm mid um _ _ _ n3.2.1
    unfold errSlope
    rw [← hF]
    constructor
    · rw [abs_sub_comm]
      exact (abs_sub_le _ _ _).trans (add_le_add c1 a)
    · rw [abs_sub_comm]
      exact (abs_sub_le _ _ _).trans (add_le_add c2 b)
  refine ⟨?_, ?_, ?_, ?_, ?_⟩
  · exact step_component' h0 hd hT hmo.dx (fun s hs => (slo s hs).1) cx
  · exact step_component' h0 hd hT hmo.dy (fun s hs => (slo s hs).2) cy
  · exact step_component' h0 hd hT hmo.dpx (fun s hs => (frc s hs).1) cp.1
  · exact step_component' h0 hd hT hmo.dpy (fun s hs => (frc s hs).2.1) cp.2.1
  · exact step_component' h0 hd hT hmo.dpz (fun s hs => (frc s hs).2.2) cp.2.2

/-- One push of the code, for a particle whose error before it is `e`. -/
theorem push_step {q m M L T W R : ℝ} (hm : 0 < m) (hM : 0 ≤ M) (hL : 0 ≤ L) {E B : ℝ → ℝ → ℝ → Vec3} {X Y : ℝ → ℝ} {P : ℝ → Vec3} (hmo : PlasmaMotion q m E B T X Y P) (hE : Tame2 M L E) (hB : Tame2 M L B)
    (aE : AxiSym E) (aB : AxiSym B) (hst : Stays T W R X Y P) {t d e del : ℝ} {s : PState} (env : Env) (N : ℕ) (hN : 1 ≤ N) (hn : env.n = N + 1) (hh : 0 < env.h) (hRw : env.R < (N + 1 / 2) * env.h)
    (h0 : 0 ≤ t) (hd : 0 ≤ d) (hT : t + d ≤ T) (he : e ≤ 1 / 2) (hdel : del ≤ 1 / 2) (hsm : d * forceMax q m (R + 1) (M + 1) ≤ 1) (hr : 0 ≤ s.r) (hq : s.q = q)
    (hc : NearTurned s (X t) (Y t) (P t) e) (hF : ∀ τ ∈ Set.Icc t (t + d), FieldsNear env N (E τ) (B τ) del) (hw1 : W + 2 * e + kapMax m (R + 1) * d / 2 ≤ env.R)
    (hw2 : W + 2 * (e + d * errSlope q m M R d e) ≤ env.R) (hax : 0 < (moveOne env m s d).s.r ∨ (s.pf = 0 ∧ ∀ i, env.F.Ef i = 0 ∧ env.F.Bz i = 0) ∨ 2 * (e + d * errSlope q m M R d e) < Real.sqrt (X (t + d) ^ 2 + Y (t + d) ^ 2)) :
    0 ≤ (moveOne env m s d).s.r ∧ (moveOne env m s d).s.q = q ∧
    NearTurned (moveOne env m s d).s (X (t + d)) (Y (t + d)) (P (t + d)) (e + d * (errSlope q m M R d e + errForce q m M L R del d e)) := by
  obtain ⟨u, v, huv, cx, cp⟩ := hc
  obtain ⟨bu, bv⟩ := unit_le huv
  have mem : t ∈ Set.Icc t (t + d) := ⟨le_rfl, by linarith⟩
  have he0 : 0 ≤ e := cx.nonneg
  have hP := fun τ (hτ : τ ∈ Set.Icc t (t + d)) => (hst τ (h0.trans hτ.1) (hτ.2.trans hT)).2
  have hR : 0 ≤ R := le_trans (abs_nonneg _) (hP t mem).1
  have k0 := kapMax_pos (R := R + 1) hm
  have hW : Real.sqrt (X t ^ 2 + Y t ^ 2) ≤ W := (hst t h0 (by linarith)).1
  have rp : rot u v s.pos = ⟨u * s.r, v * s.r, 0⟩ := rot_pos u v s.r
  rw [rp] at cx
  obtain ⟨cx1, cx2, -⟩ := cx
  have er : ∀ a : ℝ, Real.sqrt ((u * a) ^ 2 + (v * a) ^ 2) = |a| := by
    intro a
    rw [show (u * a) ^ 2 + (v * a) ^ 2 = a ^ 2 by linear_combination a ^ 2 * huv, Real.sqrt_sq_eq_abs]
  have hrW : s.r ≤ W + 2 * e := by
    have := sqrt_near cx1 cx2
    rw [er, abs_of_nonneg hr] at this
    linarith
  -- where the fields are taken
  obtain ⟨p, hp⟩ : ∃ p : Vec, p = ⟨s.pr, s.pf, s.pz⟩ := ⟨_, rfl⟩
  have hp3 : p.v3 = s.mom := by rw [hp]; rfl
  obtain ⟨rP, hrP⟩ : ∃ rP, rP = predicted m d s.r p := ⟨_, rfl⟩
  have up : Upto (rot u v s.mom) (R + 1) := (upto_near (hP t mem) cp).mono (by linarith)
  have hsl : |rP - s.r| ≤ kapMax m (R + 1) * d / 2 := by
    have e1 : rP - s.r = d / 2 * (s.pr / (s.mom.energy m - s.mom.z)) := by
      rw [hrP, hp]
      show s.r + d / (s.mom.energy m - s.pz) / 2 * s.pr - s.r = d / 2 * (s.pr / (s.mom.energy m - s.pz))
      ring
    have e2 : |s.pr / (s.mom.energy m - s.mom.z)| ≤ kapMax m (R + 1) := by
      have hk := kap_bound hm _ up
      have hz : kap m (rot u v s.mom) = kap m s.mom := by
        unfold kap
        rw [Plasma3D.vel_energy, Plasma3D.vel_energy, energy_rot m u v huv]
        rfl
      have hgt : 0 < s.mom.energy m - s.mom.z := by
        have := energy_gt m hm p
        rw [hp] at this
        exact sub_pos.mpr this
      have hg := Plasma3D.energy_pos hm s.mom
      have e3 : s.pr / (s.mom.energy m - s.mom.z) = kap m s.mom * (s.pr / s.mom.energy m) := by
        unfold kap
        rw [Plasma3D.vel_energy]
        simp only
        have : 1 - s.mom.z / s.mom.energy m = (s.mom.energy m - s.mom.z) / s.mom.energy m := by field_simp
        rw [this]
        field_simp
      rw [hz] at hk
      have hv := (vel_le_one (1 / m) s.mom).1
      rw [Plasma3D.vel_energy] at hv
      rw [e3, abs_mul]
      have := mul_le_mul hk.1 hv (abs_nonneg _) k0.le
      rw [mul_one] at this
      exact this
    rw [e1, abs_mul, abs_of_nonneg (by linarith : 0 ≤ d / 2)]
    have := mul_le_mul_of_nonneg_left e2 (by linarith : 0 ≤ d / 2)
    linarith
  have hρ : |(|rP| - s.r)| ≤ kapMax m (R + 1) * d / 2 := by
    have := abs_abs_sub_abs_le rP s.r
    rw [abs_of_nonneg hr] at this
    exact this.trans hsl
  have hρR : |rP| ≤ env.R := by
    have := (abs_le.mp hρ).2
    linarith
  obtain ⟨hrl, hrh⟩ := abs_le.mp hρR
  have out := (push_spec env N hN hn hh hRw m hm s d).1
  simp only [← hp, ← hrP, hq] at out
  have out := out hrl hrh
  unfold PushOutcome at out
  simp only at out
  obtain ⟨out1, -⟩ := out
  obtain ⟨fe, hfe⟩ : ∃ fe, fe = fieldE env N (|rP| / env.h) := ⟨_, rfl⟩
  obtain ⟨fb, hfb⟩ : ∃ fb, fb = fieldB env N (|rP| / env.h) := ⟨_, rfl⟩
  rw [← hfe, ← hfb] at out1
  obtain ⟨mid, hmid⟩ : ∃ mid, mid = halfway p.v3 d (lorentz3 q m 1 fe.v3 fb.v3 p.v3) := ⟨_, rfl⟩
  obtain ⟨φ, hφ⟩ : ∃ φ, φ = lorentz3 q m 1 fe.v3 fb.v3 mid := ⟨_, rfl⟩
  obtain ⟨n1, n2, n3⟩ := push_local m q d s.r hm fe fb p hmid hφ
  have fields : ∀ F : ℝ → ℝ → ℝ → Vec3, AxiSym F → ∀ g : Vec3, (∀ τ ∈ Set.Icc t (t + d), Within g (F τ |rP| 0) del) → ∀ τ ∈ Set.Icc t (t + d), Within (rot u v g) (F τ (u * |rP|) (v * |rP|)) (2 * del) := by
    intro F hFs g hg τ hτ
    have h1 := within_rot huv (hg τ hτ)
    rw [← hFs τ _ _ u v huv, mul_zero, mul_zero, sub_zero, add_zero] at h1
    exact h1
  have shift : ∀ w : ℝ, |w| ≤ 1 → |w * |rP| - w * s.r| ≤ kapMax m (R + 1) * d / 2 := by
    intro w hw
    rw [← mul_sub, abs_mul]
    have := mul_le_mul hw hρ (abs_nonneg _) (by norm_num : (0 : ℝ) ≤ 1)
    linarith
  have st := frame_step (x := u * s.r) (y := v * s.r) (x1 := u * |rP|) (y1 := v * |rP|) (p := rot u v s.mom) (eR := rot u v fe.v3) (bR := rot u v fb.v3) (mid := rot u v mid) (φ := rot u v φ) hm hM hmo hE hB hst h0 hd hT he hdel hsm
    cx1 cx2 cp (shift u bu) (shift v bv) (fields E aE _ (fun τ hτ => by rw [hfe]; exact (hF τ hτ _ (abs_nonneg _) hρR).1)) (fields B aB _ (fun τ hτ => by rw [hfb]; exact (hF τ hτ _ (abs_nonneg _) hρR).2))
    (by rw [lorentz3_rot _ _ _ _ huv, halfway_rot, hmid, hp3]) (by rw [lorentz3_rot _ _ _ _ huv, hφ])
  rw [halfway_rot, along_rot, energy_rot m u v huv, ← hp3, ← n1] at st
  obtain ⟨s1, s2, s3⟩ := st
  obtain ⟨xl, hxl⟩ : ∃ xl, xl = (newPosition m q d fe fb p s.r).x := ⟨_, rfl⟩
  obtain ⟨yl, hyl⟩ : ∃ yl, yl = (newPosition m q d fe fb p s.r).y := ⟨_, rfl⟩
  obtain ⟨pN, hpN⟩ : ∃ pN, pN = newMomentum m q d fe fb p := ⟨_, rfl⟩
  rw [← hxl] at n2 out1
  rw [← hyl] at n3 out1
  rw [← hpN] at s3 out1
  have s1' : |u * xl - v * yl - X (t + d)| ≤ e + d * errSlope q m M R d e := by
    refine le_trans (le_of_eq ?_) s1
    rw [n2, n3]; congr 1; simp only [rot]; ring
  have s2' : |v * xl + u * yl - Y (t + d)| ≤ e + d * errSlope q m M R d e := by
    refine le_trans (le_of_eq ?_) s2
    rw [n2, n3]; congr 1; simp only [rot]; ring
  obtain ⟨rN, hrN⟩ : ∃ rN, rN = Real.sqrt (xl ^ 2 + yl ^ 2) := ⟨_, rfl⟩
  rw [← hrN] at out1
  have hrNR : rN ≤ env.R := by
    have h1 := sqrt_near s1' s2'
    rw [show (u * xl - v * yl) ^ 2 + (v * xl + u * yl) ^ 2 = xl ^ 2 + yl ^ 2 by linear_combination (xl ^ 2 + yl ^ 2) * huv, ← hrN] at h1
    linarith [(hst (t + d) (by linarith) hT).1]
  have hrNfar : Real.sqrt (X (t + d) ^ 2 + Y (t + d) ^ 2) ≤ rN + 2 * (e + d * errSlope q m M R d e) := by
    have h1 := sqrt_near ((abs_sub_comm _ _).trans_le s1') ((abs_sub_comm _ _).trans_le s2')
    rw [show (u * xl - v * yl) ^ 2 + (v * xl + u * yl) ^ 2 = xl ^ 2 + yl ^ 2 by linear_combination (xl ^ 2 + yl ^ 2) * huv, ← hrN] at h1
    exact h1
  obtain ⟨o1, o2, o3, o4, o5, o6⟩ := out1 hrNR
  have hrN0 : 0 ≤ rN := by rw [hrN]; exact Real.sqrt_nonneg _
  refine ⟨by rw [o1]; exact hrN0, o2, ?_⟩
  have hs0 : 0 ≤ d * errSlope q m M R d e := by
    have : 0 ≤ forceMax q m (R + 1) (M + 1) := by unfold forceMax; positivity
    unfold errSlope velLip; positivity
  have hf0 : 0 ≤ d * errForce q m M L R del d e := by
    have h1 : 0 ≤ forceMax q m (R + 1) (M + 1) := by unfold forceMax; positivity
    have h2 : 0 ≤ del := (hF t mem _ (abs_nonneg rP) hρR).1.nonneg
    unfold errForce fieldLip forceLip; positivity
  have fin : ∀ u' v' : ℝ, u' ^ 2 + v' ^ 2 = 1 → rot u' v' (moveOne env m s d).s.pos = ⟨u * xl - v * yl, v * xl + u * yl, 0⟩ → rot u' v' (moveOne env m s d).s.mom = rot u v pN.v3 →
      NearTurned (moveOne env m s d).s (X (t + d)) (Y (t + d)) (P (t + d)) (e + d * (errSlope q m M R d e + errForce q m M L R del d e)) := by
    intro u' v' h1 h2 h3
    refine ⟨u', v', h1, ?_, ?_⟩
    · rw [h2]
      exact ⟨s1'.trans (by linarith), s2'.trans (by linarith), by simp; linarith⟩
    · rw [h3]
      exact s3.mono (by linarith)
  generalize hs' : (moveOne env m s d).s = s' at *
  rcases hrN0.lt_or_eq with hpos | hzero
  · obtain ⟨u', v', h1, h2, h3⟩ := frame_change huv hpos hrN 0 pN.x pN.y pN.z
    refine fin u' v' h1 ?_ ?_
    · have : s'.pos = ⟨rN, 0, 0⟩ := by unfold PState.pos; rw [o1]
      rw [this, h2]
      rfl
    · have : s'.mom = ⟨(xl * pN.x + yl * pN.y) / rN, (xl * pN.y - yl * pN.x) / rN, pN.z⟩ := by
        unfold PState.mom
        rw [← o4, ← o5, o3, mul_div_cancel_left₀ _ hpos.ne', mul_div_cancel_left₀ _ hpos.ne']
      rw [this, h3]
      rfl
  · obtain ⟨z1, z2⟩ := o6 hzero.symm
    have hsq : xl ^ 2 + yl ^ 2 = 0 := by
      have := Real.sq_sqrt (by positivity : 0 ≤ xl ^ 2 + yl ^ 2)
      rw [← hrN, ← hzero] at this
      linarith
    have x0 : xl = 0 := (pow_eq_zero_iff two_ne_zero).mp (by linarith only [hsq, sq_nonneg xl, sq_nonneg yl])
    have y0 : yl = 0 := (pow_eq_zero_iff two_ne_zero).mp (by linarith only [hsq, sq_nonneg xl, sq_nonneg yl])
    have hpy : pN.y = 0 := by
      rcases hax with h1 | ⟨h1, h2⟩ | h1
      · rw [o1, ← hzero] at h1; exact absurd h1 (lt_irrefl _)
      · have fe0 : fe.y = 0 := by
          rw [hfe]; unfold fieldE; simp [h2]
        have fb0 : fb.x = 0 ∧ fb.z = 0 := by
          rw [hfb]; unfold fieldB; simp [h2]
        have frc : ∀ p' : Vec3, (lorentz3 q m 1 fe.v3 fb.v3 p').y = 0 := by
          intro p'; unfold lorentz3 Vec.v3; simp [fe0, fb0.1, fb0.2]
        have hpy0 : p.v3.y = 0 := by rw [hp]; exact h1
        have := congrArg Vec3.y n1
        rw [← hpN] at this
        unfold along at this
        simp only [hφ, frc, hpy0, mul_zero, add_zero] at this
        exact this
      · rw [← hzero] at hrNfar; linarith
    refine fin u v huv ?_ ?_
    · have : s'.pos = ⟨0, 0, 0⟩ := by unfold PState.pos; rw [o1, ← hzero]
      rw [this, x0, y0]
      simp [rot]
    · have : s'.mom = pN.v3 := by unfold PState.mom Vec.v3; rw [z1, z2, o3, hpy]
      rw [this]

/-! ### Many pushes -/

/-- Gronwall for steps of different length. -/
theorem gronwall_var {A R d e t : ℝ} (hA : 0 < A) (hR : 0 ≤ R) (he : 0 ≤ e) :
    (Real.exp (A * t) * e + (Real.exp (A * t) - 1) / A * R) * (1 + A * d) + d * R ≤ Real.exp (A * (t + d)) * e + (Real.exp (A * (t + d)) - 1) / A * R := by
  have h1 : Real.exp (A * (t + d)) = Real.exp (A * t) * Real.exp (A * d) := by rw [← Real.exp_add]; congr 1; ring
  have h2 : 1 + A * d ≤ Real.exp (A * d) := by linarith [Real.add_one_le_exp (A * d)]
  rw [h1]
  generalize Real.exp (A * t) = x at *
  have e1 : (x * e + (x - 1) / A * R) * (1 + A * d) + d * R = x * (1 + A * d) * (e + R / A) - R / A := by field_simp; ring
  have e2 : x * Real.exp (A * d) * e + (x * Real.exp (A * d) - 1) / A * R = x * Real.exp (A * d) * (e + R / A) - R / A := by field_simp; ring
  rw [e1, e2]
  have hx : 0 ≤ x := by
    have : x = x := rfl
    rcases lt_or_ge x 0 with hlt | hge
    · exfalso
      have p1 := Real.exp_pos (A * (t + d))
      have p2 := Real.exp_pos (A * d)
      rw [h1] at p1
      nlinarith
    · exact hge
  have := mul_le_mul_of_nonneg_right (mul_le_mul_of_nonneg_left h2 hx) (by positivity : 0 ≤ e + R / A)
  linarith

/-- The error after a push is at most `(1 + A d) e + d K (del + δ)`. -/
theorem push_growth (q m M L R : ℝ) (hm : 0 < m) (hM : 0 ≤ M) (hL : 0 ≤ L) : ∃ A K : ℝ, 0 < A ∧ 0 < K ∧ ∀ d δ e del : ℝ, 0 ≤ d → d ≤ δ → δ ≤ 1 → 0 ≤ e → 0 ≤ del →
    e + d * (errSlope q m M R d e + errForce q m M L R del d e) ≤ e * (1 + A * d) + d * (K * (del + δ)) ∧ e + d * errSlope q m M R d e ≤ (1 + A) * e + K * (del + δ) := by
  have k0 := kapMax_pos (R := R + 1) hm
  obtain ⟨k, hk⟩ : ∃ k, k = kapMax m (R + 1) := ⟨_, rfl⟩
  obtain ⟨F, hF⟩ : ∃ F, F = forceMax q m (R + 1) (M + 1) := ⟨_, rfl⟩
  obtain ⟨g, hg⟩ : ∃ g, g = velLip m (R + 1) := ⟨_, rfl⟩
  obtain ⟨a, ha⟩ : ∃ a, a = fieldLip q m (R + 1) := ⟨_, rfl⟩
  obtain ⟨f, hf⟩ : ∃ f, f = forceLip q m (R + 1) M := ⟨_, rfl⟩
  have hk0 : 0 < k := by rw [hk]; exact k0
  have hF0 : 0 ≤ F := by rw [hF]; unfold forceMax; positivity
  have hg0 : 0 ≤ g := by rw [hg]; unfold velLip; positivity
  have ha0 : 0 ≤ a := by rw [ha]; unfold fieldLip; positivity
  have hf0 : 0 ≤ f := by rw [hf]; unfold forceLip; positivity
  refine ⟨1 + a * L + f + g, 1 + 2 * a + a * L * (3 / 2) * k + f * (3 / 2) * F + k / m * F + g * (3 / 2) * F, by positivity, by positivity, ?_⟩
  intro d δ e del hd hdδ hδ he hdel
  unfold errSlope errForce
  rw [← hk, ← hF, ← hg, ← ha, ← hf]
  have hδ0 : 0 ≤ δ := hd.trans hdδ
  have s1 : k / m * (F * d) + g * (e + 3 / 2 * F * d) ≤ g * e + (k / m * F + g * (3 / 2) * F) * δ := by
    have := mul_le_mul_of_nonneg_left hdδ (by positivity : 0 ≤ k / m * F + g * (3 / 2) * F)
    linarith
  have s2 : a * (2 * del + L * (e + 3 / 2 * k * d)) + f * (e + 3 / 2 * F * d) ≤ (a * L + f) * e + 2 * a * del + (a * L * (3 / 2) * k + f * (3 / 2) * F) * δ := by
    have := mul_le_mul_of_nonneg_left hdδ (by positivity : 0 ≤ a * L * (3 / 2) * k + f * (3 / 2) * F)
    linarith
  constructor
  · have m1 := mul_le_mul_of_nonneg_left (add_le_add s1 s2) hd
    have m2 : 0 ≤ d * (e + (1 + 2 * a) * δ + (1 + a * L * (3 / 2) * k + f * (3 / 2) * F + k / m * F + g * (3 / 2) * F) * del) := by positivity
    linarith
  · have s0 : 0 ≤ g * e + (k / m * F + g * (3 / 2) * F) * δ := by positivity
    have m1 := mul_le_mul_of_nonneg_left s1 hd
    have m2 : d * (g * e + (k / m * F + g * (3 / 2) * F) * δ) ≤ g * e + (k / m * F + g * (3 / 2) * F) * δ := mul_le_of_le_one_left s0 (hdδ.trans hδ)
    have m3 : 0 ≤ (1 + a * L + f) * e + (1 + 2 * a + a * L * (3 / 2) * k + f * (3 / 2) * F) * δ + (1 + 2 * a + a * L * (3 / 2) * k + f * (3 / 2) * F + k / m * F + g * (3 / 2) * F) * del := by positivity
    linarith

/-- C79: trajectories of plasma particles in the 2D code converge. For given axisymmetric fields, particle and exact trajectory there are constants `C`, `h0` such that on EVERY grid, for every number of pushes and every division of the path into
pushes no longer than `δ ≤ h0`: when `e0 + del + δ` is small the computed particle is never reflected by the wall nor thrown away, keeps its charge, and is - turned around the axis by a suitable angle - within `C (e0 + del + δ)` of the true position and
momentum after every push. `e0` is the error of its initial state, `del` that of the interpolated fields. The constants do not depend on the distance from the axis: the particle may pass through it. -/
theorem plasma2d_converges {q m M L T W R μ : ℝ} (hm : 0 < m) (hM : 0 ≤ M) (hL : 0 ≤ L) (hT : 0 ≤ T) (hμ : μ ≤ 1 / 2) {E B : ℝ → ℝ → ℝ → Vec3} (hE : Tame2 M L E) (hB : Tame2 M L B) (aE : AxiSym E) (aB : AxiSym B)
    {X Y : ℝ → ℝ} {P : ℝ → Vec3} (hmo : PlasmaMotion q m E B T X Y P) (hst : Stays T W R X Y P) :
    ∃ C h0 : ℝ, 0 < C ∧ 0 < h0 ∧ ∀ (Rw del δ e0 : ℝ) (n : ℕ) (t : ℕ → ℝ) (s : ℕ → PState), W + 3 * μ ≤ Rw → 0 ≤ del → del ≤ 1 / 2 → 0 ≤ δ → δ ≤ h0 → t n ≤ T → (s 0).q = q →
      NearTurned (s 0) (X 0) (Y 0) (P 0) e0 → C * (e0 + del + δ) ≤ μ → Pushes m E B X Y μ Rw del δ n t s →
      ∀ k ≤ n, (s k).q = q ∧ 0 ≤ (s k).r ∧ (s k).r ≤ Rw ∧ NearTurned (s k) (X (t k)) (Y (t k)) (P (t k)) (C * (e0 + del + δ)) := by
  have k0 := kapMax_pos (R := R + 1) hm
  have hF : 0 ≤ forceMax q m (R + 1) (M + 1) := by unfold forceMax; positivity
  obtain ⟨A, K, hA, hK, grow⟩ := push_growth q m M L R hm hM hL
  obtain ⟨x, hx⟩ : ∃ x, x = Real.exp (A * T) := ⟨_, rfl⟩
  have hx1 : 1 ≤ x := by rw [hx]; exact Real.one_le_exp (by positivity)
  obtain ⟨G, hG⟩ : ∃ G, G = x + (x - 1) / A * K := ⟨_, rfl⟩
  have hG1 : 1 ≤ G := by
    have : 0 ≤ (x - 1) / A * K := mul_nonneg (div_nonneg (by linarith) hA.le) hK.le
    rw [hG]; linarith
  refine ⟨(1 + A) * G + K + kapMax m (R + 1), 1 / (1 + forceMax q m (R + 1) (M + 1)), by positivity, by positivity, ?_⟩
  intro Rw del δ e0 n t s hRw hdel hdel1 hδ hδ0 hnT hq0 hc0 hsmall hrun
  obtain ⟨hr0, ht0, hsteps⟩ := hrun
  have he0 : 0 ≤ e0 := by obtain ⟨u, v, -, h, -⟩ := hc0; exact h.nonneg
  have hdF : δ * (1 + forceMax q m (R + 1) (M + 1)) ≤ 1 := by
    have := mul_le_mul_of_nonneg_right hδ0 (by positivity : 0 ≤ 1 + forceMax q m (R + 1) (M + 1))
    rwa [one_div, inv_mul_cancel₀ (by positivity)] at this
  have hδ1 : δ ≤ 1 := by nlinarith [mul_nonneg hδ hF]
  obtain ⟨S, hS⟩ : ∃ S, S = e0 + del + δ := ⟨_, rfl⟩
  have hS0 : 0 ≤ S := by rw [hS]; positivity
  rw [← hS] at hsmall ⊢
  have tmono : ∀ k ≤ n, ∀ j, j ≤ k → t j ≤ t k := by
    intro k hk j hj
    induction k with
    | zero => rw [Nat.le_zero.mp hj]
    | succ k ih =>
      rcases Nat.lt_or_ge j (k + 1) with h | h
      · exact (ih (by omega) (by omega)).trans (hsteps k (by omega)).1
      · rw [show j = k + 1 by omega]
  have tpos : ∀ k ≤ n, 0 ≤ t k := fun k hk => by rw [← ht0]; exact tmono k hk 0 (by omega)
  have tT : ∀ k ≤ n, t k ≤ T := fun k hk => (tmono n le_rfl k hk).trans hnT
  have bound : ∀ k ≤ n, Real.exp (A * t k) * e0 + (Real.exp (A * t k) - 1) / A * (K * (del + δ)) ≤ G * S := by
    intro k hk
    have h1 : Real.exp (A * t k) ≤ x := by rw [hx]; exact Real.exp_le_exp.mpr (mul_le_mul_of_nonneg_left (tT k hk) hA.le)
    have h2 : (Real.exp (A * t k) - 1) / A ≤ (x - 1) / A := div_le_div_of_nonneg_right (by linarith) hA.le
    have e1 : e0 ≤ S := by rw [hS]; linarith
    have e2 : del + δ ≤ S := by rw [hS]; linarith
    have m1 := mul_le_mul h1 e1 he0 (by linarith)
    have m2 := mul_le_mul h2 (mul_le_mul_of_nonneg_left e2 hK.le) (by positivity) (div_nonneg (by linarith) hA.le)
    rw [hG, add_mul, mul_assoc]
    linarith
  have main : ∀ k ≤ n, (s k).q = q ∧ 0 ≤ (s k).r ∧ NearTurned (s k) (X (t k)) (Y (t k)) (P (t k)) (Real.exp (A * t k) * e0 + (Real.exp (A * t k) - 1) / A * (K * (del + δ))) := by
    intro k
    induction k with
    | zero => intro _; refine ⟨hq0, hr0, ?_⟩; rw [ht0]; simpa using hc0
    | succ k ih =>
      intro hkn
      obtain ⟨iq, ir, ic⟩ := ih (Nat.le_of_succ_le hkn)
      obtain ⟨hle, hdδ, env, N, hN, hn, hh, hRN, hRwe, hs, near, hax⟩ := hsteps k hkn
      have hb := bound k (by omega)
      have hgr := gronwall_var (A := A) (R := K * (del + δ)) (d := t (k + 1) - t k) (e := e0) (t := t k) hA (by positivity) he0
      have et : t k + (t (k + 1) - t k) = t (k + 1) := by ring
      rw [et] at hgr
      generalize Real.exp (A * t (k + 1)) * e0 + (Real.exp (A * t (k + 1)) - 1) / A * (K * (del + δ)) = err' at hgr ⊢
      generalize Real.exp (A * t k) * e0 + (Real.exp (A * t k) - 1) / A * (K * (del + δ)) = e at *
      have hepos : 0 ≤ e := by obtain ⟨u, v, -, h, -⟩ := ic; exact h.nonneg
      obtain ⟨d, hd⟩ : ∃ d, d = t (k + 1) - t k := ⟨_, rfl⟩
      rw [← hd] at hdδ hgr hs et
      have hd0 : 0 ≤ d := by rw [hd]; linarith
      obtain ⟨g1, g2⟩ := grow d δ e del hd0 hdδ hδ1 hepos hdel
      have hδS : δ ≤ S := by rw [hS]; linarith
      have hsS : del + δ ≤ S := by rw [hS]; linarith
      have a1 := mul_le_mul_of_nonneg_left hb (by positivity : 0 ≤ 1 + A)
      have a2 := mul_le_mul_of_nonneg_left hsS hK.le
      have a3 := mul_le_mul_of_nonneg_left (hdδ.trans hδS) k0.le
      have p1 : 0 ≤ A * e := by positivity
      have p2 : 0 ≤ K * S := by positivity
      have p3 : 0 ≤ kapMax m (R + 1) * d := by positivity
      have p4 : 0 ≤ kapMax m (R + 1) * S := by positivity
      have heμ : e ≤ μ := by linarith
      have hsl : e + d * errSlope q m M R d e ≤ μ := by linarith
      have hkd : kapMax m (R + 1) * d ≤ μ := by linarith
      have hμ0 : 0 ≤ μ := hepos.trans heμ
      have hstep := push_step hm hM hL hmo hE hB aE aB hst env N hN hn hh hRN (tpos k (by omega)) hd0 (by rw [et]; exact tT _ hkn) (heμ.trans hμ) hdel1
        (le_trans (mul_le_mul_of_nonneg_right hdδ hF) (by linarith)) ir iq ic (fun τ hτ => near τ hτ.1 (by rw [← et]; exact hτ.2)) (by linarith) (by linarith) (by rw [← hs, et]; exact hax.imp_right (Or.imp_right fun hfar => by linarith))
      rw [← hs, et] at hstep
      obtain ⟨b1, b2, u, v, b3, b4, b5⟩ := hstep
      exact ⟨b2, b1, u, v, b3, b4.mono (g1.trans hgr), b5.mono (g1.trans hgr)⟩
  intro k hkn
  obtain ⟨a1, a2, u, v, a3, a4, a5⟩ := main k hkn
  have hC : Real.exp (A * t k) * e0 + (Real.exp (A * t k) - 1) / A * (K * (del + δ)) ≤ ((1 + A) * G + K + kapMax m (R + 1)) * S := by
    have : 0 ≤ A * G * S + K * S + kapMax m (R + 1) * S := by positivity
    linarith [bound k hkn]
  have a4' := a4.mono hC
  refine ⟨a1, a2, ?_, u, v, a3, a4', a5.mono hC⟩
  have rp : rot u v (s k).pos = ⟨u * (s k).r, v * (s k).r, 0⟩ := rot_pos u v (s k).r
  rw [rp] at a4'
  have h1 := sqrt_near a4'.1 a4'.2.1
  have e1 : Real.sqrt ((u * (s k).r) ^ 2 + (v * (s k).r) ^ 2) = (s k).r := by
    rw [show (u * (s k).r) ^ 2 + (v * (s k).r) ^ 2 = (s k).r ^ 2 by linear_combination (s k).r ^ 2 * a3, Real.sqrt_sq a2]
  simp only at h1
  rw [e1] at h1
  have hW := (hst (t k) (tpos k hkn) (tT k hkn)).1
  have : 0 ≤ ((1 + A) * G + K + kapMax m (R + 1)) * S := by positivity
  linarith

end Lcode.Plasma2D
