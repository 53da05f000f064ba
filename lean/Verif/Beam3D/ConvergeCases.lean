import Verif.Beam3D.ConvergeGpu
import Mathlib.Analysis.SpecialFunctions.Trigonometric.Deriv

/-!
Property C68, fourth part: one constant for all grids, and a particle in a uniform magnetic field, which meets the hypotheses of the convergence theorems and shows that the CPU kernel is of first order only.
-/

namespace Lcode.Beam3D

open Lcode.Plasma3D (Fields3 Vec3 nodeOf)
open Lcode.Num (DerivOn BoundedOn)

/-- C68, in one line: for given fields, particle and time interval there is a constant `C` such that on EVERY grid (not coarser than 1) and for every substep the trajectory computed by the CPU kernel is within
`C (e0 + dt + h + dxi + lag)` of the true one at all times. -/
theorem cpu_first_order {M L D T qm : ℝ} (hq : qm ≠ 0) (hM : 0 ≤ M) (hL : 0 ≤ L) (hD : 0 ≤ D) (hT : 0 ≤ T) {E B : ℝ → Vec3 → Vec3} (hE : Tame M L E) (hB : Tame M L B) (hsE : Slow D E) (hsB : Slow D B)
    {X P : ℝ → Vec3} (hm : Motion qm E B T X P) :
    ∃ C, 0 < C ∧ ∀ (c : BCfg) (lag e0 : ℝ) (n : ℕ) (r : ℕ → Row ℝ), c.N % 2 = 1 → 0 < c.h → c.h ≤ 1 → 0 < c.dxi → c.dxi ≤ 1 → lostRadius c ≤ c.h * (c.N / 2 - 2) → 0 ≤ lostRadius c →
      0 ≤ lag → lag ≤ 1 → (r 0).qm = qm → 0 ≤ (r 0).dt → n * (r 0).dt ≤ T → PushedS c E B lag n r → Within (posOf (r 0)) (X 0) e0 → Within (momOf (r 0)) (P 0) e0 →
      ∀ k ≤ n, Within (posOf (r k)) (X (k * (r 0).dt)) (C * (e0 + (r 0).dt + c.h + c.dxi + lag)) ∧ Within (momOf (r k)) (P (k * (r 0).dt)) (C * (e0 + (r 0).dt + c.h + c.dxi + lag)) := by
  have hqa : 0 < |qm| := abs_pos.mpr hq
  obtain ⟨A, hA⟩ : ∃ A, A = 3 * L + 6 * |qm| * M + 3 * |qm| := ⟨_, rfl⟩
  obtain ⟨K, hK⟩ : ∃ K, K = 9 * L + 18 * |qm| * M ^ 2 + 27 / 2 * |qm| * M + 9 / 2 * |qm| * (21 / 2 * L + D) := ⟨_, rfl⟩
  have hApos : 0 < A := by rw [hA]; positivity
  have hKpos : 0 ≤ K := by rw [hK]; positivity
  have hx : 0 < Real.exp (A * T) := Real.exp_pos _
  refine ⟨Real.exp (A * T) + Real.exp (A * T) / A * (3 * (15 / 2 * L + D) + K), by positivity, ?_⟩
  intro c lag e0 n r hN hh hh1 hd hd1 hR hpos hlag hlag1 hqm hdt hnT hr hx0 hp0 k hk
  subst hqm
  obtain ⟨A', del, K', err, e1, e2, e3, e4, r1, r2⟩ := cpu_converges_sampled c hN hh hd hR hpos hL hD hlag hE hB hsE hsB n r hq hm hdt hnT hr hx0 hp0 k hk
  rw [← hA] at e1
  subst e1
  have he0 := hx0.nonneg
  have del0 : 0 ≤ del := by rw [e2]; positivity
  have del1 : del ≤ (15 / 2 * L + D) * (c.h + c.dxi + lag) := by
    rw [e2]
    have m1 : 0 ≤ L * c.dxi := by positivity
    have m2 : 0 ≤ L * lag := by positivity
    have m3 : 0 ≤ D * c.h := by positivity
    have m4 : 0 ≤ D * c.dxi := by positivity
    nlinarith
  have del2 : del ≤ 21 / 2 * L + D := by
    rw [e2]
    have m1 : L * c.h ≤ L * 1 := mul_le_mul_of_nonneg_left hh1 hL
    have m2 : L * c.dxi ≤ L * 1 := mul_le_mul_of_nonneg_left hd1 hL
    have m3 : D * lag ≤ D * 1 := mul_le_mul_of_nonneg_left hlag1 hD
    linarith
  have K1 : K' ≤ K := by
    rw [e3, hK]
    have := mul_le_mul_of_nonneg_left del2 (by positivity : 0 ≤ 9 / 2 * |(r 0).qm|)
    linarith
  have ht : (k : ℝ) * (r 0).dt ≤ T := by
    have : (k : ℝ) ≤ n := by exact_mod_cast hk
    exact (mul_le_mul_of_nonneg_right this hdt).trans hnT
  have hexp : Real.exp (A' * (k * (r 0).dt)) ≤ Real.exp (A' * T) := Real.exp_le_exp.mpr (mul_le_mul_of_nonneg_left ht hApos.le)
  have hS : 3 * del + (r 0).dt * K' ≤ (3 * (15 / 2 * L + D) + K) * (e0 + (r 0).dt + c.h + c.dxi + lag) := by
    have m1 := mul_le_mul_of_nonneg_left K1 hdt
    have m2 : 0 ≤ (15 / 2 * L + D) * (e0 + (r 0).dt) := by positivity
    have m3 : 0 ≤ K * (e0 + c.h + c.dxi + lag) := by positivity
    nlinarith
  have hS0 : 0 ≤ 3 * del + (r 0).dt * K' := by
    have : 0 ≤ K' := by rw [e3]; positivity
    positivity
  have herr : err ≤ (Real.exp (A' * T) + Real.exp (A' * T) / A' * (3 * (15 / 2 * L + D) + K)) * (e0 + (r 0).dt + c.h + c.dxi + lag) := by
    rw [e4, add_mul]
    have m1 : Real.exp (A' * (k * (r 0).dt)) * e0 ≤ Real.exp (A' * T) * (e0 + (r 0).dt + c.h + c.dxi + lag) := mul_le_mul hexp (by linarith) he0 hx.le
    have m2 : (Real.exp (A' * (k * (r 0).dt)) - 1) / A' ≤ Real.exp (A' * T) / A' := div_le_div_of_nonneg_right (by linarith) hApos.le
    have m3 := mul_le_mul m2 hS hS0 (by positivity)
    rw [mul_assoc]
    linarith
  exact ⟨r1.mono herr, r2.mono herr⟩

/-! ### A uniform magnetic field -/

/-- Arrays of a uniform magnetic field of strength 1 along z. -/
def unitB : Fields3 := ⟨fun _ _ => 0, fun _ _ => 0, fun _ _ => 0, fun _ _ => 0, fun _ _ => 0, fun _ _ => 1, fun _ _ => 0⟩

def noE : ℝ → Vec3 → Vec3 := fun _ _ => ⟨0, 0, 0⟩
def oneB : ℝ → Vec3 → Vec3 := fun _ _ => ⟨0, 0, 1⟩

theorem noE_tame : Tame 1 0 noE ∧ Tame 1 0 oneB := by
  refine ⟨⟨fun t w => by simp [noE], fun t a b e h => ?_⟩, ⟨fun t w => by simp [oneB], fun t a b e h => ?_⟩⟩ <;> rw [zero_mul] <;> exact Within.rfl' _

theorem unitB_sampled (c : BCfg) (xi s : ℝ) : Sampled c xi (noE s) (oneB s) unitB := fun i j _ _ _ _ => ⟨rfl, rfl⟩

/-- The angular velocity of a particle of unit mass and momentum 1. -/
noncomputable def om : ℝ := 1 / Real.sqrt 2

theorem om_sq : om ^ 2 = 1 / 2 := by
  unfold om; rw [div_pow, Real.sq_sqrt (by norm_num)]; norm_num

theorem om_pos : 0 < om := by unfold om; positivity

/-- A circle: position and momentum. -/
noncomputable def circX (t : ℝ) : Vec3 := ⟨Real.sin (om * t), Real.cos (om * t) - 1, -t⟩
noncomputable def circP (t : ℝ) : Vec3 := ⟨Real.cos (om * t), -Real.sin (om * t), 0⟩

theorem circ_vel (t : ℝ) : vel 1 (circP t) = ⟨om * Real.cos (om * t), -(om * Real.sin (om * t)), 0⟩ := by
  have h : (1 / 1 : ℝ) ^ 2 + Real.cos (om * t) ^ 2 + (-Real.sin (om * t)) ^ 2 + 0 ^ 2 = 2 := by
    have := Real.sin_sq_add_cos_sq (om * t)
    nlinarith
  unfold vel circP
  simp only
  rw [h]
  have hs : 1 / Real.sqrt 2 = om := rfl
  simp only [Vec3.mk.injEq]
  refine ⟨?_, ?_, by simp⟩
  · rw [← hs]; ring
  · rw [← hs]; ring

theorem circ_force (t : ℝ) : lorentz 1 (noE t (circX t)) (oneB t (circX t)) (circP t) = ⟨-(om * Real.sin (om * t)), -(om * Real.cos (om * t)), 0⟩ := by
  unfold lorentz
  rw [circ_vel]
  simp [noE, oneB]

theorem sin_deriv (t : ℝ) : HasDerivAt (fun t => Real.sin (om * t)) (om * Real.cos (om * t)) t := by
  have := (((hasDerivAt_id t).const_mul om)).sin
  exact this.congr_deriv (by simp; ring)

theorem cos_deriv (t : ℝ) : HasDerivAt (fun t => Real.cos (om * t)) (-(om * Real.sin (om * t))) t := by
  have := (((hasDerivAt_id t).const_mul om)).cos
  exact this.congr_deriv (by simp; ring)

/-- The circle is smooth, with derivatives bounded by 1. -/
theorem circ_smooth (T : ℝ) : SmoothMotion 1 noE oneB T 1 circX circP := by
  have o1 : om ≤ 1 := by nlinarith [om_sq, om_pos]
  have o0 := om_pos
  have sb : ∀ t, |Real.sin (om * t)| ≤ 1 := fun t => Real.abs_sin_le_one _
  have cb : ∀ t, |Real.cos (om * t)| ≤ 1 := fun t => Real.abs_cos_le_one _
  have bnd : ∀ (k u : ℝ), |k| ≤ 1 → |u| ≤ 1 → |k * u| ≤ 1 := by
    intro k u h1 h2; rw [abs_mul]; exact mul_le_one₀ h1 (abs_nonneg _) h2
  have k1 : |om| ≤ 1 := by rw [abs_of_pos o0]; exact o1
  have k2 : |om * om| ≤ 1 := bnd _ _ k1 k1
  have k3 : |om * (om * om)| ≤ 1 := bnd _ _ k1 k2
  have neg : ∀ u : ℝ, |u| ≤ 1 → |-u| ≤ 1 := fun u h => by rwa [abs_neg]
  refine ⟨?_, ?_, ?_, ?_, ?_, ?_⟩
  · refine ⟨fun t => -(om * om * Real.sin (om * t)), fun t => -(om * (om * om) * Real.cos (om * t)), fun t _ _ => ?_, fun t _ _ => ?_, fun t _ _ => ?_, fun t _ _ => ?_, fun t _ _ => ?_⟩
    · beta_reduce; rw [circ_vel]; exact sin_deriv t
    · simp only [circ_vel]
      exact ((cos_deriv t).const_mul om).congr_deriv (by ring)
    · exact (((sin_deriv t).const_mul (om * om)).neg).congr_deriv (by ring)
    · exact neg _ (bnd _ _ k2 (sb t))
    · exact neg _ (bnd _ _ k3 (cb t))
  · refine ⟨fun t => -(om * om * Real.cos (om * t)), fun t => om * (om * om) * Real.sin (om * t), fun t _ _ => ?_, fun t _ _ => ?_, fun t _ _ => ?_, fun t _ _ => ?_, fun t _ _ => ?_⟩
    · beta_reduce; rw [circ_vel]; exact (cos_deriv t).sub_const 1
    · simp only [circ_vel]
      exact (((sin_deriv t).const_mul om).neg).congr_deriv (by ring)
    · exact (((cos_deriv t).const_mul (om * om)).neg).congr_deriv (by ring)
    · exact neg _ (bnd _ _ k2 (cb t))
    · exact bnd _ _ k3 (sb t)
  · refine ⟨fun _ => 0, fun _ => 0, fun t _ _ => ?_, fun t _ _ => ?_, fun t _ _ => ?_, fun t _ _ => by simp, fun t _ _ => by simp⟩
    · beta_reduce; rw [circ_vel]; exact ((hasDerivAt_id t).neg).congr_deriv (by simp)
    · simp only [circ_vel]; exact hasDerivAt_const _ _
    · exact hasDerivAt_const _ _
  · refine ⟨fun t => -(om * om * Real.cos (om * t)), fun t => om * (om * om) * Real.sin (om * t), fun t _ _ => ?_, fun t _ _ => ?_, fun t _ _ => ?_, fun t _ _ => ?_, fun t _ _ => ?_⟩
    · beta_reduce; rw [circ_force]; exact cos_deriv t
    · simp only [circ_force]
      exact (((sin_deriv t).const_mul om).neg).congr_deriv (by ring)
    · exact (((cos_deriv t).const_mul (om * om)).neg).congr_deriv (by ring)
    · exact neg _ (bnd _ _ k2 (cb t))
    · exact bnd _ _ k3 (sb t)
  · refine ⟨fun t => om * om * Real.sin (om * t), fun t => om * (om * om) * Real.cos (om * t), fun t _ _ => ?_, fun t _ _ => ?_, fun t _ _ => ?_, fun t _ _ => ?_, fun t _ _ => ?_⟩
    · beta_reduce; rw [circ_force]; exact (sin_deriv t).neg
    · simp only [circ_force]
      exact (((cos_deriv t).const_mul om).neg).congr_deriv (by ring)
    · exact ((sin_deriv t).const_mul (om * om)).congr_deriv (by ring)
    · exact bnd _ _ k2 (sb t)
    · exact bnd _ _ k3 (cb t)
  · refine ⟨fun _ => 0, fun _ => 0, fun t _ _ => ?_, fun t _ _ => ?_, fun t _ _ => ?_, fun t _ _ => by simp, fun t _ _ => by simp⟩
    · beta_reduce; rw [circ_force]; exact hasDerivAt_const _ _
    · simp only [circ_force]; exact hasDerivAt_const _ _
    · exact hasDerivAt_const _ _

theorem SmoothMotion.motion {qm T D : ℝ} {E B : ℝ → Vec3 → Vec3} {X P : ℝ → Vec3} (h : SmoothMotion qm E B T D X P) : Motion qm E B T X P where
  dx := fun t ht => by obtain ⟨_, _, d, _⟩ := h.dx; exact (d t ht.1 ht.2).hasDerivWithinAt
  dy := fun t ht => by obtain ⟨_, _, d, _⟩ := h.dy; exact (d t ht.1 ht.2).hasDerivWithinAt
  dz := fun t ht => by obtain ⟨_, _, d, _⟩ := h.dz; exact (d t ht.1 ht.2).hasDerivWithinAt
  dpx := fun t ht => by obtain ⟨_, _, d, _⟩ := h.dpx; exact (d t ht.1 ht.2).hasDerivWithinAt
  dpy := fun t ht => by obtain ⟨_, _, d, _⟩ := h.dpy; exact (d t ht.1 ht.2).hasDerivWithinAt
  dpz := fun t ht => by obtain ⟨_, _, d, _⟩ := h.dpz; exact (d t ht.1 ht.2).hasDerivWithinAt

/-! ### The kernels in that field -/

/-- 41 x 41 nodes, transverse step 1/2, xi step 1. -/
noncomputable def gridC : BCfg := ⟨41, 1 / 2, 1⟩

theorem gridC_radius : lostRadius gridC = 9.25 := by unfold lostRadius gridC; norm_num

theorem gridC_fits : gridC.N % 2 = 1 ∧ 0 < gridC.h ∧ 0 < gridC.dxi ∧ lostRadius gridC ≤ gridC.h * (gridC.N / 2 - 2) ∧ 0 ≤ lostRadius gridC := by
  rw [gridC_radius]; unfold gridC; norm_num

/-- The particle at the start: in the origin, momentum 1 along x. -/
def startC (d : ℝ) : Row ℝ := ⟨0, 0, 0, 1, 0, 0, 1, 1, 1, d, 1000000⟩

/-- The row inside a finished turn. -/
def Turn.row (r : Row ℝ) : Turn → Row ℝ
  | .next r' => r'
  | _ => r

/-- The rows after 0, 1, 2, ... turns of the CPU kernel (`cpu = true`) or the GPU kernel. -/
noncomputable def runC (cpu : Bool) (d : ℝ) : ℕ → Row ℝ
  | 0 => startC d
  | k + 1 => ((if cpu then turn else turnG) gridC ⌊k * d + d / 2⌋ unitB unitB (runC cpu d k)).row (runC cpu d k)

theorem within_zero {a b : Vec3} (h : Within a b 0) : a = b := by
  obtain ⟨h1, h2, h3⟩ := h
  apply ext3
  · exact sub_eq_zero.mp (abs_nonpos_iff.mp h1)
  · exact sub_eq_zero.mp (abs_nonpos_iff.mp h2)
  · exact sub_eq_zero.mp (abs_nonpos_iff.mp h3)

/-- The kernel computes the uniform field exactly. -/
theorem unitB_field (idx : ℤ) (w : Vec3) (hx : |w.x| ≤ 2) (hy : |w.y| ≤ 2) (hz : -((idx + 1) * gridC.dxi) ≤ w.z) (hz' : w.z ≤ -(idx * gridC.dxi)) :
    fieldE3 gridC (idx * -gridC.dxi) unitB unitB w = ⟨0, 0, 0⟩ ∧ fieldB3 gridC (idx * -gridC.dxi) unitB unitB w = ⟨0, 0, 1⟩ := by
  obtain ⟨g1, g2, g3, g4, g5⟩ := gridC_fits
  have := sampled_error gridC g1 g2 g3 noE_tame.1 noE_tame.2 0 idx unitB unitB (unitB_sampled _ _ _) (unitB_sampled _ _ _) w
    (lt_of_le_of_lt hx (by unfold gridC; norm_num)) (lt_of_le_of_lt hy (by unfold gridC; norm_num)) hz hz'
  simp only [zero_mul, mul_zero] at this
  exact ⟨within_zero this.1, within_zero this.2⟩

/-- What is known of the rows: they stay near the origin. -/
structure NearRow (d : ℝ) (k : ℕ) (r : Row ℝ) : Prop where
  dt : r.dt = d
  qm : r.qm = 1
  pz : r.pz = 0
  xi : r.xi = -(k * d)
  x : |r.x| ≤ k * d
  y : |r.y| ≤ k * d

theorem vel_pz_zero (qm : ℝ) (p : Vec3) (h : p.z = 0) : (vel qm p).z = 0 := by unfold vel; simp [h]

theorem near_half {d : ℝ} {k : ℕ} {r : Row ℝ} (hr : NearRow d k r) (hd : 0 ≤ d) (hk : (k + 1 : ℕ) * d ≤ 1) :
    |(halfPos r).x| ≤ 1 ∧ |(halfPos r).y| ≤ 1 ∧ (halfPos r).z = -(k * d + d / 2) := by
  obtain ⟨v1, v2, -⟩ := vel_le_one r.qm ⟨r.px, r.py, r.pz⟩
  have vz := vel_pz_zero r.qm ⟨r.px, r.py, r.pz⟩ hr.pz
  have e : halfPos r = ⟨r.x + r.dt / 2 * (vel r.qm ⟨r.px, r.py, r.pz⟩).x, r.y + r.dt / 2 * (vel r.qm ⟨r.px, r.py, r.pz⟩).y, r.xi + r.dt / 2 * ((vel r.qm ⟨r.px, r.py, r.pz⟩).z - 1)⟩ := rfl
  rw [e, vz, hr.dt, hr.xi]
  push_cast at hk
  have one : ∀ a v : ℝ, |a| ≤ k * d → |v| ≤ 1 → |a + d / 2 * v| ≤ 1 := by
    intro a v h1 h2
    refine (abs_add_le _ _).trans ?_
    rw [abs_mul, abs_of_nonneg (by linarith : 0 ≤ d / 2)]
    have := mul_le_mul_of_nonneg_left h2 (by linarith : 0 ≤ d / 2)
    linarith
  exact ⟨one _ _ hr.x v1, one _ _ hr.y v2, by simp only; ring⟩

theorem floor_layer (s : ℝ) : -(((⌊s⌋ : ℤ) + 1) * gridC.dxi) ≤ -s ∧ -s ≤ -((⌊s⌋ : ℤ) * gridC.dxi) := by
  have e : gridC.dxi = 1 := rfl
  rw [e, mul_one, mul_one]
  have h1 := Int.floor_le s
  have h2 := Int.lt_floor_add_one s
  constructor <;> linarith

theorem not_lost_of {x y : ℝ} (hx : |x| ≤ 1) (hy : |y| ≤ 1) : ¬ isLost x y (lostRadius gridC) := by
  rw [gridC_radius]
  unfold isLost
  have h1 : x ^ 2 ≤ 1 := by rw [← sq_abs]; nlinarith [abs_nonneg x]
  have h2 : y ^ 2 ≤ 1 := by rw [← sq_abs]; nlinarith [abs_nonneg y]
  push Not
  norm_num
  linarith

theorem coord_step {a v d K : ℝ} (hd : 0 ≤ d) (ha : |a| ≤ K) (hv : |v| ≤ 1) : |a + d * v| ≤ K + d := by
  refine (abs_add_le _ _).trans ?_
  rw [abs_mul, abs_of_nonneg hd]
  have := mul_le_mul_of_nonneg_left hv hd
  linarith

/-- One turn of the CPU kernel in the uniform field. -/
theorem cpu_turn_case {d : ℝ} {k : ℕ} {r : Row ℝ} (hr : NearRow d k r) (hd : 0 ≤ d) (hk : (k + 1 : ℕ) * d ≤ 1) :
    ∃ r', turn gridC ⌊k * d + d / 2⌋ unitB unitB r = .next r' ∧ NearRow d (k + 1) r' ∧
      r'.px = r.px + d * (vel 1 (momOf r)).y ∧ r'.py = r.py - d * (vel 1 (momOf r)).x := by
  obtain ⟨w1, w2, w3⟩ := near_half hr hd hk
  obtain ⟨l1, l2⟩ := floor_layer (k * d + d / 2)
  rw [← w3] at l1 l2
  obtain ⟨fe, fb⟩ := unitB_field _ _ (w1.trans (by norm_num)) (w2.trans (by norm_num)) l1 l2
  have hn1 : ¬ notInLayer (halfPos r).z (((⌊k * d + d / 2⌋ : ℤ) + 1) * -gridC.dxi) := by unfold notInLayer; push Not; linarith
  have hn2 := not_lost_of w1 w2
  set m := halfMomentum r ⟨0, 0, 0⟩ ⟨0, 0, 1⟩ with hm
  have hmz : m.z = 0 := by rw [hm]; simp [halfMomentum, hr.pz]
  have hs : sign 1 = 1 := by unfold sign; norm_num
  obtain ⟨v1, v2, -⟩ := vel_le_one r.qm m
  have vz := vel_pz_zero r.qm m hmz
  have fx : (fullStep r m).x = r.x + d * (vel r.qm m).x := by unfold fullStep; rw [hr.dt]; rfl
  have fy : (fullStep r m).y = r.y + d * (vel r.qm m).y := by unfold fullStep; rw [hr.dt]; rfl
  have fz : (fullStep r m).xi = r.xi + d * ((vel r.qm m).z - 1) := by unfold fullStep; rw [hr.dt]; rfl
  have near : NearRow d (k + 1) { fullStep r m with remaining := (fullStep r m).remaining - 1 } := by
    refine ⟨hr.dt, hr.qm, ?_, ?_, ?_, ?_⟩
    · show 2 * m.z - r.pz = 0
      rw [hmz, hr.pz]; norm_num
    · show (fullStep r m).xi = _
      rw [fz, vz, hr.xi]; push_cast; ring
    · show |(fullStep r m).x| ≤ _
      rw [fx]
      have := coord_step hd hr.x v1
      push_cast; linarith
    · show |(fullStep r m).y| ≤ _
      rw [fy]
      have := coord_step hd hr.y v2
      push_cast; linarith
  have hn3 : ¬ isLost (fullStep r m).x (fullStep r m).y (lostRadius gridC) := not_lost_of (near.x.trans hk) (near.y.trans hk)
  refine ⟨_, ?_, near, ?_, ?_⟩
  · unfold turn
    simp only
    rw [if_neg hn1, if_neg hn2, fe, fb, ← hm, if_neg hn3]
  · show 2 * m.x - r.px = _
    rw [hm]
    simp only [halfMomentum, hr.dt, hr.qm, hs, vel, momOf, gammaM]
    ring
  · show 2 * m.y - r.py = _
    rw [hm]
    simp only [halfMomentum, hr.dt, hr.qm, hs, vel, momOf, gammaM]
    ring

theorem startC_near (d : ℝ) : NearRow d 0 (startC d) := ⟨rfl, rfl, rfl, by simp [startC], by simp [startC], by simp [startC]⟩

theorem cpu_run_near {d : ℝ} (hd : 0 ≤ d) : ∀ k : ℕ, (k : ℝ) * d ≤ 1 → NearRow d k (runC true d k) := by
  intro k
  induction k with
  | zero => intro _; exact startC_near d
  | succ k ih =>
    intro hk
    have hk' : (k : ℝ) * d ≤ 1 := by push_cast at hk; linarith
    obtain ⟨r', ht, hn, -⟩ := cpu_turn_case (ih hk') hd hk
    have e : runC true d (k + 1) = r' := by
      show (turn gridC ⌊k * d + d / 2⌋ unitB unitB (runC true d k)).row (runC true d k) = r'
      rw [ht]; rfl
    rw [e]; exact hn

theorem cpu_run_next {d : ℝ} (hd : 0 ≤ d) (k : ℕ) (hk : (k + 1 : ℕ) * d ≤ 1) : turn gridC ⌊k * d + d / 2⌋ unitB unitB (runC true d k) = .next (runC true d (k + 1)) ∧
    (runC true d (k + 1)).px = (runC true d k).px + d * (vel 1 (momOf (runC true d k))).y ∧ (runC true d (k + 1)).py = (runC true d k).py - d * (vel 1 (momOf (runC true d k))).x := by
  have hk' : (k : ℝ) * d ≤ 1 := by push_cast at hk; linarith
  obtain ⟨r', ht, -, h1, h2⟩ := cpu_turn_case (cpu_run_near hd k hk') hd hk
  have e : runC true d (k + 1) = r' := by
    show (turn gridC ⌊k * d + d / 2⌋ unitB unitB (runC true d k)).row (runC true d k) = r'
    rw [ht]; rfl
  rw [e]; exact ⟨ht, h1, h2⟩

/-- The rows meet the hypotheses of `cpu_first_order` (with lag 0), for any substep and as many substeps as fit into a time of 1. -/
theorem cpu_run_pushed {d : ℝ} (hd : 0 ≤ d) (n : ℕ) (hn : (n : ℝ) * d ≤ 1) : PushedS gridC noE oneB 1 n (runC true d) := by
  intro k hk
  have hk1 : (k + 1 : ℕ) * d ≤ 1 := by
    have : ((k + 1 : ℕ) : ℝ) ≤ n := by exact_mod_cast hk
    exact (mul_le_mul_of_nonneg_right this hd).trans hn
  have hk' : (k : ℝ) * d ≤ 1 := by push_cast at hk1; linarith
  obtain ⟨w1, w2, w3⟩ := near_half (cpu_run_near hd k hk') hd hk1
  refine ⟨⌊k * d + d / 2⌋, unitB, unitB, 0, (cpu_run_next hd k hk1).1, ?_, unitB_sampled _ _ _, unitB_sampled _ _ _, ?_⟩
  · rw [w3]; exact (floor_layer _).2
  · intro t h1 h2
    have e : (runC true d 0).dt = d := rfl
    rw [e] at h1 h2
    push_cast at hk1
    have : 0 ≤ (k : ℝ) * d := by positivity
    rw [sub_zero, abs_of_nonneg (by linarith)]
    linarith

/-- In the uniform field the CPU kernel adds at least `d^2/2` to the square of the momentum at every substep. -/
theorem cpu_run_grows {d : ℝ} (hd : 0 ≤ d) : ∀ k : ℕ, (k : ℝ) * d ≤ 1 → 1 + k * (d ^ 2 / 2) ≤ (runC true d k).px ^ 2 + (runC true d k).py ^ 2 := by
  intro k
  induction k with
  | zero => intro _; simp [runC, startC]
  | succ k ih =>
    intro hk
    have hk' : (k : ℝ) * d ≤ 1 := by push_cast at hk; linarith
    have i := ih hk'
    have hnr := cpu_run_near hd k hk'
    obtain ⟨-, h1, h2⟩ := cpu_run_next hd k hk
    generalize runC true d k = r at *
    generalize runC true d (k + 1) = r' at *
    rw [h1, h2]
    have hg := gammaM_sq 1 (momOf r)
    have hgp := (gammaM_pos 1 one_ne_zero (momOf r)).2
    have ex : (vel 1 (momOf r)).x = r.px / gammaM 1 (momOf r) := rfl
    have ey : (vel 1 (momOf r)).y = r.py / gammaM 1 (momOf r) := rfl
    have ez : (momOf r).z = 0 := hnr.pz
    rw [ez] at hg
    have ep : (momOf r).x = r.px ∧ (momOf r).y = r.py := ⟨rfl, rfl⟩
    rw [ep.1, ep.2] at hg
    rw [ex, ey]
    generalize gammaM 1 (momOf r) = g at *
    have hv : (r.px / g) ^ 2 + (r.py / g) ^ 2 = (r.px ^ 2 + r.py ^ 2) / g ^ 2 := by field_simp
    have hlow : 1 / 2 ≤ (r.px ^ 2 + r.py ^ 2) / g ^ 2 := by
      rw [le_div_iff₀ (by positivity), hg]
      have : 0 ≤ (k : ℝ) * (d ^ 2 / 2) := by positivity
      linarith
    have e : (r.px + d * (r.py / g)) ^ 2 + (r.py - d * (r.px / g)) ^ 2 = r.px ^ 2 + r.py ^ 2 + d ^ 2 * ((r.px / g) ^ 2 + (r.py / g) ^ 2) := by
      field_simp
      ring
    rw [e, hv]
    have := mul_le_mul_of_nonneg_left hlow (sq_nonneg d)
    push_cast
    linarith

/-- C68, the order of the CPU kernel is one and not more: in a uniform magnetic field, with the exact field at every place and the exact initial state, the momentum after the time `t = n d` is wrong by at least `t d / 14`. -/
theorem cpu_only_first_order : ∃ (c : BCfg) (E B : ℝ → Vec3 → Vec3) (X P : ℝ → Vec3) (r : ℝ → ℕ → Row ℝ), Motion 1 E B 1 X P ∧ (∀ d, (r d 0).qm = 1 ∧ (r d 0).dt = d ∧ posOf (r d 0) = X 0 ∧ momOf (r d 0) = P 0) ∧
    ∀ d : ℝ, 0 ≤ d → ∀ n : ℕ, n * d ≤ 1 → Pushed c E B 0 n (r d) ∧ ∀ e, Within (momOf (r d n)) (P (n * d)) e → n * d * d / 14 ≤ e := by
  refine ⟨gridC, noE, oneB, circX, circP, runC true, (circ_smooth 1).motion, ?_, ?_⟩
  · intro d
    refine ⟨rfl, rfl, ?_, ?_⟩
    · simp [posOf, circX, runC, startC]
    · simp [momOf, circP, runC, startC]
  intro d hd n hn
  constructor
  · obtain ⟨g1, g2, g3, g4, g5⟩ := gridC_fits
    have hs : Slow 0 noE ∧ Slow 0 oneB := ⟨fun t t' w => by rw [zero_mul]; exact Within.rfl' _, fun t t' w => by rw [zero_mul]; exact Within.rfl' _⟩
    have := (cpu_run_pushed hd n hn).pushed g1 g2 g3 g4 g5 le_rfl noE_tame.1 noE_tame.2 hs.1 hs.2
    simpa using this
  · intro e he
    have hgrow := cpu_run_grows hd n hn
    have e0 := he.nonneg
    rcases le_or_gt 1 e with h1 | h1
    · have hd2 : (n : ℝ) * d * d ≤ 14 := by
        rcases n.eq_zero_or_pos with h0 | h0
        · simp [h0]
        · have : (1 : ℝ) ≤ n := by exact_mod_cast h0
          have hd1 : d ≤ 1 := by nlinarith
          have : (n : ℝ) * d * d ≤ 1 * 1 := mul_le_mul hn hd1 hd (by norm_num)
          linarith
      linarith
    · obtain ⟨k1, k2, -⟩ := he
      have q1 : (momOf (runC true d n)).x = (runC true d n).px := rfl
      have q2 : (momOf (runC true d n)).y = (runC true d n).py := rfl
      have q3 : (circP (n * d)).x = Real.cos (om * (n * d)) := rfl
      have q4 : (circP (n * d)).y = -Real.sin (om * (n * d)) := rfl
      rw [q1, q3] at k1
      rw [q2, q4] at k2
      generalize (runC true d n).px = a at *
      generalize (runC true d n).py = b at *
      have hcs := Real.sin_sq_add_cos_sq (om * (n * d))
      have c1 := Real.abs_cos_le_one (om * (n * d))
      have s1 := Real.abs_sin_le_one (om * (n * d))
      generalize Real.cos (om * (n * d)) = co at *
      generalize Real.sin (om * (n * d)) = si at *
      rw [abs_le] at k1 k2 c1 s1
      have m1 : a ^ 2 ≤ co ^ 2 + 2 * e + e ^ 2 := by nlinarith
      have m2 : b ^ 2 ≤ si ^ 2 + 2 * e + e ^ 2 := by nlinarith
      nlinarith

/-- One turn of the GPU kernel in the uniform field. -/
theorem gpu_turn_case {d : ℝ} {k : ℕ} {r : Row ℝ} (hr : NearRow d k r) (hd : 0 ≤ d) (hk : (k + 1 : ℕ) * d ≤ 1) :
    ∃ r', turnG gridC ⌊k * d + d / 2⌋ unitB unitB r = .next r' ∧ NearRow d (k + 1) r' := by
  obtain ⟨g1, g2, g3, g4, g5⟩ := gridC_fits
  obtain ⟨w1, w2, w3⟩ := near_half hr hd hk
  obtain ⟨l1, l2⟩ := floor_layer (k * d + d / 2)
  rw [← w3] at l1 l2
  obtain ⟨fe, fb⟩ := unitB_field _ _ (w1.trans (by norm_num)) (w2.trans (by norm_num)) l1 l2
  have hhalf : halfG r = halfPos r := halfG_eq r
  have hin : (halfPos r).x ^ 2 + (halfPos r).y ^ 2 < lostRadius gridC ^ 2 := by
    have := not_lost_of w1 w2
    unfold isLost at this
    push Not at this
    exact this
  obtain ⟨ge, gb⟩ := fieldG_same gridC g1 g2 g4 g5 ((⌊k * d + d / 2⌋ : ℤ) * -gridC.dxi) unitB unitB (halfPos r) hin
  rw [fe] at ge
  rw [fb] at gb
  set r1 := substepG (fieldEG gridC ((⌊k * d + d / 2⌋ : ℤ) * -gridC.dxi) unitB unitB) (fieldBG gridC ((⌊k * d + d / 2⌋ : ℤ) * -gridC.dxi) unitB unitB) r with hr1
  set p := kickG r.qm r.dt ⟨0, 0, 0⟩ ⟨0, 0, 1⟩ ⟨r.px, r.py, r.pz⟩ with hp
  have hpz : p.z = 0 := by
    obtain ⟨g, -, hL, -⟩ := kickG_spec r.qm r.dt (by rw [hr.qm]; exact one_ne_zero) ⟨0, 0, 0⟩ ⟨0, 0, 1⟩ ⟨r.px, r.py, r.pz⟩
    rw [← hp] at hL
    have := congrArg Vec3.z hL
    simp only [add3, scale3, cross3, mul_zero, sub_self, add_zero, hr.pz] at this
    exact this
  have ev : ∀ q : Vec3, (⟨q.x / gammaB r.qm q, q.y / gammaB r.qm q, q.z / gammaB r.qm q⟩ : Vec3) = vel r.qm q := by
    intro q; rw [gammaB_eq]; rfl
  have e1 : r1.x = (halfPos r).x + r.dt / 2 * (vel r.qm p).x ∧ r1.y = (halfPos r).y + r.dt / 2 * (vel r.qm p).y ∧ r1.xi = (halfPos r).z + r.dt / 2 * ((vel r.qm p).z - 1) ∧
      r1.pz = p.z ∧ r1.dt = r.dt ∧ r1.qm = r.qm := by
    rw [hr1]
    unfold substepG
    simp only [hhalf, ge, gb, ← hp]
    rw [← ev p]
    refine ⟨?_, ?_, ?_, ?_, ?_, ?_⟩ <;> first | rfl | trivial
  obtain ⟨x1, x2, x3, x4, x5, x6⟩ := e1
  obtain ⟨v1, v2, -⟩ := vel_le_one r.qm p
  obtain ⟨u1, u2, -⟩ := vel_le_one r.qm ⟨r.px, r.py, r.pz⟩
  have vz := vel_pz_zero r.qm p hpz
  have hd2 : 0 ≤ d / 2 := by linarith
  have near : NearRow d (k + 1) { r1 with remaining := r1.remaining - 1 } := by
    refine ⟨x5.trans hr.dt, x6.trans hr.qm, x4.trans hpz, ?_, ?_, ?_⟩
    · show r1.xi = _
      rw [x3, vz, w3, hr.dt]; push_cast; ring
    · show |r1.x| ≤ _
      have eh : (halfPos r).x = r.x + d / 2 * (vel r.qm ⟨r.px, r.py, r.pz⟩).x := by rw [← hr.dt]; rfl
      rw [x1, hr.dt, eh]
      have := coord_step hd2 (coord_step hd2 hr.x u1) v1
      push_cast; linarith
    · show |r1.y| ≤ _
      have eh : (halfPos r).y = r.y + d / 2 * (vel r.qm ⟨r.px, r.py, r.pz⟩).y := by rw [← hr.dt]; rfl
      rw [x2, hr.dt, eh]
      have := coord_step hd2 (coord_step hd2 hr.y u2) v2
      push_cast; linarith
  have hin' : r1.x ^ 2 + r1.y ^ 2 < lostRadius gridC ^ 2 := by
    have := not_lost_of (near.x.trans hk) (near.y.trans hk)
    unfold isLost at this
    push Not at this
    exact this
  refine ⟨_, ?_, near⟩
  unfold turnG
  simp only [hhalf, ← hr1]
  rw [if_neg (by push Not; linarith), if_neg (by push Not; nlinarith), if_neg (by push Not; nlinarith)]

theorem gpu_run_near {d : ℝ} (hd : 0 ≤ d) : ∀ k : ℕ, (k : ℝ) * d ≤ 1 → NearRow d k (runC false d k) := by
  intro k
  induction k with
  | zero => intro _; exact startC_near d
  | succ k ih =>
    intro hk
    have hk' : (k : ℝ) * d ≤ 1 := by push_cast at hk; linarith
    obtain ⟨r', ht, hn⟩ := gpu_turn_case (ih hk') hd hk
    have e : runC false d (k + 1) = r' := by
      show (turnG gridC ⌊k * d + d / 2⌋ unitB unitB (runC false d k)).row (runC false d k) = r'
      rw [ht]; rfl
    rw [e]; exact hn

/-- C68, the same particle in the same field with the GPU kernel: the hypotheses of `gpu_converges` are met, and the error after any time up to 1 is at most a constant times the SQUARE of the substep. -/
theorem gpu_second_order_case (d : ℝ) (hd : 0 ≤ d) (hd6 : d ≤ 1 / 6) (n : ℕ) (hn : n * d ≤ 1) : PushedG gridC noE oneB 0 n (runC false d) ∧
    ∀ k ≤ n, Within (posOf (runC false d k)) (circX (k * d)) (Real.exp 21 * d ^ 2) ∧ Within (momOf (runC false d k)) (circP (k * d)) (Real.exp 21 * d ^ 2) := by
  obtain ⟨g1, g2, g3, g4, g5⟩ := gridC_fits
  have hp : PushedG gridC noE oneB 0 n (runC false d) := by
    intro k hk
    have hk1 : (k + 1 : ℕ) * d ≤ 1 := by
      have : ((k + 1 : ℕ) : ℝ) ≤ n := by exact_mod_cast hk
      exact (mul_le_mul_of_nonneg_right this hd).trans hn
    have hk' : (k : ℝ) * d ≤ 1 := by push_cast at hk1; linarith
    have hnr := gpu_run_near hd k hk'
    obtain ⟨r', ht, -⟩ := gpu_turn_case hnr hd hk1
    obtain ⟨w1, w2, w3⟩ := near_half hnr hd hk1
    obtain ⟨l1, l2⟩ := floor_layer (k * d + d / 2)
    rw [← w3] at l1 l2
    obtain ⟨fe, fb⟩ := unitB_field _ _ (w1.trans (by norm_num)) (w2.trans (by norm_num)) l1 l2
    refine ⟨⌊k * d + d / 2⌋, unitB, unitB, ?_, ?_, ?_⟩
    · have e : runC false d (k + 1) = r' := by
        show (turnG gridC ⌊k * d + d / 2⌋ unitB unitB (runC false d k)).row (runC false d k) = r'
        rw [ht]; rfl
      rw [e]; exact ht
    · rw [fe]; exact Within.rfl' _
    · rw [fb]; exact Within.rfl' _
  refine ⟨hp, fun k hk => ?_⟩
  have q1 : (runC false d 0).qm = 1 := rfl
  have q2 : (runC false d 0).dt = d := rfl
  obtain ⟨A, K, err, hA, hK, he, r1, r2⟩ := gpu_converges gridC g1 g2 g4 g5 (M := 1) (L := 0) (T := 1) (D := 1) (del := 0) (e0 := 0) (X := circX) (P := circP) n (runC false d) (by rw [q1]; exact one_ne_zero)
    (by rw [q1]; exact circ_smooth 1) noE_tame.1 noE_tame.2 le_rfl zero_le_one le_rfl (by rw [q2]; exact hd) (by rw [q2]; exact hn) (by rw [q1, q2, abs_one]; linarith) (by rw [q1, q2, abs_one]; linarith)
    hp (by have : posOf (runC false d 0) = circX 0 := by simp [posOf, circX, runC, startC]
           rw [this]; exact Within.rfl' _) (by have : momOf (runC false d 0) = circP 0 := by simp [momOf, circP, runC, startC]
                                               rw [this]; exact Within.rfl' _) k hk
  rw [q1, abs_one] at hA hK
  have hme : massErr 1 (1 + 0) = 0 := by unfold massErr; norm_num
  rw [hme] at hK
  rw [q2] at he r1 r2
  have hA' : A = 21 := by rw [hA]; norm_num
  have hK' : K = 59 / 24 := by rw [hK]; norm_num
  have ht : (k : ℝ) * d ≤ 1 := by
    have : (k : ℝ) ≤ n := by exact_mod_cast hk
    exact (mul_le_mul_of_nonneg_right this hd).trans hn
  have hle : err ≤ Real.exp 21 * d ^ 2 := by
    rw [he, hA', hK']
    have h1 : Real.exp (21 * (k * d)) ≤ Real.exp 21 := Real.exp_le_exp.mpr (by linarith)
    have h2 : 0 < Real.exp 21 := Real.exp_pos _
    have h3 := mul_le_mul_of_nonneg_right h1 (sq_nonneg d)
    have h4 : 0 ≤ Real.exp 21 * d ^ 2 := by positivity
    nlinarith [sq_nonneg d]
  exact ⟨r1.mono hle, r2.mono hle⟩

end Lcode.Beam3D
