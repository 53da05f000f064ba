import Verif.Plasma2D.SecondOrder
import Verif.Plasma3D.Invariant

/-!
Property C82, second part: particles that stay away from the axis, and cases that meet all hypotheses.
-/

namespace Lcode.Plasma2D

open Lcode.Plasma3D (Vec3 lorentz3 PlasmaMotion Tame2 Upto Thrice kapMax kapMax_pos upto_near noE2 hel_tame halfE half_tame acc_inv)
open Lcode.Beam3D (Within)
open Lcode.Beam2D (rot unit_le sqrt_near)
open Lcode.Num (DerivOn)

/-- A particle that is far from the axis does not cross it within half a push. -/
theorem not_crosses {m R W : ℝ} (hm : 0 < m) {s : PState} {x y e d : ℝ} {p : Vec3} (hn : NearTurned s x y p e) (he : e ≤ 1) (hp : Upto p R) (hd : 0 ≤ d) (hr : 0 ≤ s.r) (hW : W ≤ Real.sqrt (x ^ 2 + y ^ 2)) (h : 2 * e + kapMax m (R + 1) * d ≤ W) : ¬ Crosses m d s := by
  obtain ⟨u, v, huv, cx, cp⟩ := hn
  obtain ⟨bu, bv⟩ := unit_le huv
  have up : Upto (rot u v s.mom) (R + 1) := (upto_near hp cp).mono (by linarith)
  obtain ⟨s1, s2⟩ := slope_le hm _ up
  rw [energy_rot m u v huv] at s1 s2
  have rp : rot u v s.pos = ⟨u * s.r, v * s.r, 0⟩ := rot_pos u v s.r
  rw [rp] at cx
  have h1 := sqrt_near ((abs_sub_comm _ _).trans_le cx.1) ((abs_sub_comm _ _).trans_le cx.2.1)
  have e1 : Real.sqrt ((u * s.r) ^ 2 + (v * s.r) ^ 2) = s.r := by
    rw [show (u * s.r) ^ 2 + (v * s.r) ^ 2 = s.r ^ 2 by linear_combination s.r ^ 2 * huv, Real.sqrt_sq hr]
  simp only at h1
  rw [e1] at h1
  unfold Crosses
  rw [not_lt]
  change 0 ≤ s.r + d / 2 * (s.pr / (s.mom.energy m - s.mom.z))
  have e2 : s.pr / (s.mom.energy m - s.mom.z) = u * ((rot u v s.mom).x / (s.mom.energy m - (rot u v s.mom).z)) + v * ((rot u v s.mom).y / (s.mom.energy m - (rot u v s.mom).z)) := by
    have z : (rot u v s.mom).z = s.mom.z := rfl
    rw [z, mul_div_assoc', mul_div_assoc', ← add_div]
    congr 1
    simp only [rot, PState.mom]
    linear_combination -s.pr * huv
  generalize s.pr / (s.mom.energy m - s.mom.z) = a at *
  have hk := (abs_nonneg _).trans s1
  have b1 : |a| ≤ 2 * kapMax m (R + 1) := by
    rw [e2]
    refine (abs_add_le _ _).trans ?_
    rw [abs_mul, abs_mul]
    have z1 := mul_le_mul bu s1 (abs_nonneg _) (by norm_num : (0 : ℝ) ≤ 1)
    have z2 := mul_le_mul bv s2 (abs_nonneg _) (by norm_num : (0 : ℝ) ≤ 1)
    linarith
  have b2 := mul_le_mul_of_nonneg_left (abs_le.mp b1).1 (by linarith : 0 ≤ d / 2)
  linarith

/-- C82, particles that stay away from the axis: the error is of the second order in the thickness of the layers. -/
theorem second_order_away {q m M L T W R S μ : ℝ} (hm : 0 < m) (hM : 0 ≤ M) (hL : 0 ≤ L) (hT : 0 ≤ T) (hS : 0 ≤ S) (hμ : μ ≤ 1 / 2) (hq : q ≠ 0) {E B : ℝ → ℝ → ℝ → Vec3} (hE : Tame2 M L E) (hB : Tame2 M L B) (aE : AxiSym E) (aB : AxiSym B)
    {X Y : ℝ → ℝ} {P : ℝ → Vec3} (hmo : PlasmaMotion q m E B T X Y P) (hst : Stays T W R X Y P) (hsp : SmoothPath S T X Y P) (hfar : ∀ s, 0 ≤ s → s ≤ T → 3 * μ ≤ Real.sqrt (X s ^ 2 + Y s ^ 2)) :
    ∃ C κ h0 : ℝ, 0 < C ∧ 0 < κ ∧ 0 < h0 ∧ ∀ (Rw del step e0 : ℝ) (n : ℕ) (s : ℕ → PState), W + 3 * μ ≤ Rw → 0 ≤ del → del ≤ 1 / 2 → 0 < step → step ≤ h0 → n * step ≤ T → (s 0).q = q →
      NearTurned (s 0) (X 0) (Y 0) (P 0) e0 → C * (e0 + del + step ^ 2) ≤ μ → κ * step ≤ μ → PlainLayers m κ E B Rw del step n s →
      ∀ k ≤ n, (s k).q = q ∧ 0 ≤ (s k).r ∧ (s k).r ≤ Rw ∧ NearTurned (s k) (X (k * step)) (Y (k * step)) (P (k * step)) (C * (e0 + del + step ^ 2)) := by
  obtain ⟨C, κ, h0, hC, hκ, hh0, main⟩ := plasma2d_second_order hm hM hL hT hS hμ hq hE hB aE aB hmo hst hsp
  have k0 := kapMax_pos (R := R + 1) hm
  refine ⟨C, κ + kapMax m (R + 1), h0, hC, by positivity, hh0, ?_⟩
  intro Rw del step e0 n s hRw hdel hdel1 hs0 hsh hnT hq0 hcl hsmall hκs hrun
  have kp1 : 0 < κ * step := by positivity
  have kp2 : 0 < kapMax m (R + 1) * step := by positivity
  have hrun' : ∀ k ≤ n, PlainLayers m κ E B Rw del step k s := by
    intro k hk
    obtain ⟨r1, r2, r3⟩ := hrun
    refine ⟨r1, r2, fun j hj => ?_⟩
    obtain ⟨e, N, age, c1, c2, c3, c4⟩ := r3 j (by omega)
    exact ⟨e, N, age, c1, c2, by linarith, c4⟩
  have tT : ∀ k ≤ n, (k : ℝ) * step ≤ T := by
    intro k hk
    refine le_trans ?_ hnT
    have : (k : ℝ) ≤ n := by exact_mod_cast hk
    exact mul_le_mul_of_nonneg_right this hs0.le
  have none : ∀ k ≤ n, (crossings m step s k : ℝ) = 0 := by
    intro k
    induction k with
    | zero => intro _; unfold crossings; simp
    | succ k ih =>
      intro hk
      have c0 := ih (by omega)
      rw [(crossings_succ m step s k).2, c0]
      have := main Rw del step e0 k s hRw hdel hdel1 hs0 hsh (tT k (by omega)) hq0 hcl (by rw [c0, add_zero, one_mul]; exact hsmall) (by linarith) (hrun' k (by omega)) k le_rfl
      rw [c0, add_zero, one_mul] at this
      obtain ⟨-, f2, -, f4⟩ := this
      refine not_crosses hm f4 (by linarith) (hst _ (by positivity) (tT k (by omega))).2 hs0.le f2 (hfar _ (by positivity) (tT k (by omega))) (by linarith)
  intro k hk
  have := main Rw del step e0 n s hRw hdel hdel1 hs0 hsh hnT hq0 hcl (by rw [none n le_rfl, add_zero, one_mul]; exact hsmall) (by linarith) (hrun' n le_rfl) k hk
  rwa [none k hk, add_zero, one_mul] at this

/-! ### A particle that is accelerated while it flies away from the axis -/

/-- Arrays of a uniform accelerating field. -/
noncomputable def halfEz : Flds := ⟨fun _ => 0, fun _ => 0, fun _ => 1 / 2, fun _ => 0, fun _ => 0⟩

/-- With `u = 1 - s / 2` the momentum is `(1, 0, (2 / u - u) / 2)`, the energy `(2 / u + u) / 2`, the radius `2 - 2 ln u`. -/
noncomputable def slantP (s : ℝ) : Vec3 := ⟨1, 0, (2 * (1 - s / 2)⁻¹ - (1 - s / 2)) / 2⟩
noncomputable def slantX (s : ℝ) : ℝ := 2 - 2 * Real.log (1 - s / 2)

theorem slant_energy {s : ℝ} (hs : s ≤ 1) : (slantP s).energy 1 = (2 * (1 - s / 2)⁻¹ + (1 - s / 2)) / 2 := by
  unfold Vec3.energy slantP
  simp only
  have hu : 0 < 1 - s / 2 := by linarith
  rw [Real.sqrt_eq_iff_mul_self_eq (by positivity) (by positivity)]
  generalize 1 - s / 2 = u at *
  field_simp
  ring

theorem slant_denom {s : ℝ} (hs : s ≤ 1) : (slantP s).energy 1 - (slantP s).z = 1 - s / 2 := by
  rw [slant_energy hs]; simp only [slantP]; ring

theorem slant_x {s : ℝ} (hs : s ≤ 1) : HasDerivAt slantX (1 - s / 2)⁻¹ s := by
  have h1 : HasDerivAt (fun s : ℝ => 1 - s / 2) (-(1 / 2)) s := ((hasDerivAt_id s).div_const 2).const_sub 1
  have hu : 1 - s / 2 ≠ 0 := by linarith
  refine (((h1.log hu).const_mul 2).const_sub 2).congr_deriv ?_
  field_simp

theorem slant_pz {s : ℝ} (hs : s ≤ 1) : HasDerivAt (fun s => (slantP s).z) (1 / 4 + 1 / 2 * (1 - s / 2)⁻¹ ^ 2) s := by
  have h1 : HasDerivAt (fun s : ℝ => 1 - s / 2) (-(1 / 2)) s := ((hasDerivAt_id s).div_const 2).const_sub 1
  exact ((((acc_inv hs).const_mul 2).sub h1).div_const 2).congr_deriv (by ring)

theorem slant_motion : PlasmaMotion 1 1 halfE noE2 1 slantX (fun _ => 0) slantP where
  dx := fun s _ hs => by
    beta_reduce
    rw [slant_denom hs]
    refine (slant_x hs).congr_deriv ?_
    simp [slantP]
  dy := fun s _ _ => by
    beta_reduce
    have : (slantP s).y = 0 := rfl
    rw [this, zero_div]; exact hasDerivAt_const _ _
  dpx := fun s _ _ => by
    beta_reduce
    refine (hasDerivAt_const s (1 : ℝ)).congr_deriv ?_
    simp [lorentz3, halfE, noE2]
  dpy := fun s _ _ => by
    beta_reduce
    refine (hasDerivAt_const s (0 : ℝ)).congr_deriv ?_
    simp [lorentz3, halfE, noE2]
  dpz := fun s _ hs => by
    beta_reduce
    refine (slant_pz hs).congr_deriv ?_
    have hu : 0 < 1 - s / 2 := by linarith
    have hz : (slantP s).z = (2 * (1 - s / 2)⁻¹ - (1 - s / 2)) / 2 := rfl
    unfold lorentz3
    simp only [halfE, noE2, slant_energy hs, hz]
    generalize 1 - s / 2 = u at *
    have h3 : 2 * u⁻¹ + u ≠ 0 := by positivity
    have h4 : 1 - (2 * u⁻¹ - u) / 2 / ((2 * u⁻¹ + u) / 2) = 2 * u / (2 * u⁻¹ + u) := by field_simp; ring
    rw [h4]
    field_simp
    ring

theorem slant_inv {s : ℝ} (h0 : 0 ≤ s) (hs : s ≤ 1) : 1 ≤ (1 - s / 2)⁻¹ ∧ (1 - s / 2)⁻¹ ≤ 2 := by
  have hu : 0 < 1 - s / 2 := by linarith
  exact ⟨by rw [one_le_inv₀ hu]; linarith, by rw [inv_le_comm₀ hu (by norm_num)]; linarith⟩

theorem slant_range {s : ℝ} (h0 : 0 ≤ s) (hs : s ≤ 1) : 2 ≤ slantX s ∧ slantX s ≤ 4 := by
  obtain ⟨i1, i2⟩ := slant_inv h0 hs
  have hu : 0 < 1 - s / 2 := by linarith
  have l1 := Real.log_nonpos hu.le (by linarith)
  have l2 := Real.log_le_sub_one_of_pos (inv_pos.mpr hu)
  rw [Real.log_inv] at l2
  unfold slantX
  constructor <;> linarith

theorem slant_stays : Stays 1 4 2 slantX (fun _ => 0) slantP := by
  intro s h0 hs
  obtain ⟨i1, i2⟩ := slant_inv h0 hs
  obtain ⟨r1, r2⟩ := slant_range h0 hs
  refine ⟨?_, by simp [slantP], by simp [slantP], ?_⟩
  · rw [zero_pow two_ne_zero, add_zero, Real.sqrt_sq (by linarith)]; exact r2
  · show |(2 * (1 - s / 2)⁻¹ - (1 - s / 2)) / 2| ≤ 2
    rw [abs_le]; constructor <;> linarith

theorem slant_smooth : SmoothPath 24 1 slantX (fun _ => 0) slantP := by
  have const : ∀ c : ℝ, Thrice 24 1 (fun _ => c) := fun c => ⟨fun _ => 0, fun _ => 0, fun _ => 0, fun s _ _ => hasDerivAt_const _ _, fun s _ _ => hasDerivAt_const _ _, fun s _ _ => hasDerivAt_const _ _, fun s _ _ => by simp, fun s _ _ => by simp, fun s _ _ => by simp⟩
  have pw : ∀ (n : ℕ) {s : ℝ}, 0 ≤ s → s ≤ 1 → (0 : ℝ) < (1 - s / 2)⁻¹ ^ n ∧ (1 - s / 2)⁻¹ ^ n ≤ 2 ^ n := by
    intro n s h0 hs
    obtain ⟨i1, i2⟩ := slant_inv h0 hs
    exact ⟨by positivity, pow_le_pow_left₀ (by linarith) i2 n⟩
  refine ⟨?_, const 0, const 1, const 0, ?_⟩
  · refine ⟨fun s => (1 - s / 2)⁻¹, fun s => 1 / 2 * (1 - s / 2)⁻¹ ^ 2, fun s => 1 / 2 * (1 - s / 2)⁻¹ ^ 3, fun s _ hs => slant_x hs, fun s _ hs => acc_inv hs, fun s _ hs => ?_, fun s h0 hs => ?_, fun s h0 hs => ?_, fun s h0 hs => ?_⟩
    · exact ((acc_inv hs).pow 2).const_mul (1 / 2) |>.congr_deriv (by push_cast; ring)
    · obtain ⟨i1, i2⟩ := pw 1 h0 hs
      rw [pow_one] at i1 i2
      rw [abs_of_pos (by linarith)]; linarith
    · obtain ⟨i1, i2⟩ := pw 2 h0 hs
      rw [abs_of_pos (by linarith)]; linarith
    · obtain ⟨i1, i2⟩ := pw 3 h0 hs
      rw [abs_of_pos (by linarith)]; linarith
  · refine ⟨fun s => 1 / 4 + 1 / 2 * (1 - s / 2)⁻¹ ^ 2, fun s => 1 / 2 * (1 - s / 2)⁻¹ ^ 3, fun s => 3 / 4 * (1 - s / 2)⁻¹ ^ 4, fun s _ hs => slant_pz hs, fun s _ hs => ?_, fun s _ hs => ?_, fun s h0 hs => ?_, fun s h0 hs => ?_, fun s h0 hs => ?_⟩
    · exact (((acc_inv hs).pow 2).const_mul (1 / 2)).const_add (1 / 4) |>.congr_deriv (by push_cast; ring)
    · exact ((acc_inv hs).pow 3).const_mul (1 / 2) |>.congr_deriv (by push_cast; ring)
    · obtain ⟨i1, i2⟩ := pw 2 h0 hs
      rw [abs_of_pos (by linarith)]; linarith
    · obtain ⟨i1, i2⟩ := pw 3 h0 hs
      rw [abs_of_pos (by linarith)]; linarith
    · obtain ⟨i1, i2⟩ := pw 4 h0 hs
      rw [abs_of_pos (by linarith)]; linarith

theorem half_axi : AxiSym halfE := by
  intro s x y u v _; simp [halfE, rot]

/-- C82, a concrete case: in a uniform accelerating field, on every grid at least 6 wide whose cells are not much smaller than the layers, a particle that starts at radius 2 with momentum (1, 0, 1/2) has at every layer the radius `2 - 2 ln(1 - s/2)`
and the longitudinal momentum `(1/(1 - s/2) - (1 - s/2)/2)` up to the SECOND order of the thickness of the layers. -/
theorem slant_second_order : ∃ C κ h0 : ℝ, 0 < C ∧ 0 < κ ∧ 0 < h0 ∧ ∀ (N n : ℕ) (e : Env) (age : ℕ → ℝ) (step : ℝ) (S : ℕ → PState), 1 ≤ N → e.n = N + 1 → 6 ≤ e.R → e.R < (N + 1 / 2) * e.h → e.F = halfEz → (∀ i, e.noise i = 0) →
    0 < step → step ≤ h0 → κ * step < e.h → n * step ≤ 1 → S 0 = ⟨2, 1, 0, 1 / 2, 1⟩ → (∀ k < n, S (k + 1) = (moveSubstepped (moveOne e 1) e.h step (S k) (age k)).s) →
    (S n).q = 1 ∧ |(S n).r - (2 - 2 * Real.log (1 - n * step / 2))| ≤ C * step ^ 2 ∧ |(S n).pz - (2 * (1 - n * step / 2)⁻¹ - (1 - n * step / 2)) / 2| ≤ C * step ^ 2 := by
  obtain ⟨C, κ, h0, hC, hκ, hh0, main⟩ := second_order_away (q := 1) (m := 1) (M := 1) (L := 0) (T := 1) (W := 4) (R := 2) (S := 24) (μ := 2 / 5) (by norm_num) (by norm_num) le_rfl (by norm_num) (by norm_num) (by norm_num) (by norm_num)
    half_tame hel_tame.1 half_axi uniform_axi.1 slant_motion slant_stays slant_smooth (fun s a b => by
      have := (slant_range a b).1
      rw [zero_pow two_ne_zero, add_zero, Real.sqrt_sq (by linarith)]; linarith)
  refine ⟨2 * C, κ, min h0 (min 1 (min (2 / 5 / C) (2 / 5 / κ))), by positivity, hκ, by positivity, ?_⟩
  intro N n e age step S hN hn hR6 hRN hF hnz hs hs0 hthin hnT hS0 hrun
  have k1 : step ≤ h0 := hs0.trans (min_le_left _ _)
  have k2 := hs0.trans ((min_le_right _ _).trans (min_le_left _ _))
  have k3 : C * step ≤ 2 / 5 := by
    have := hs0.trans ((min_le_right _ _).trans ((min_le_right _ _).trans (min_le_left _ _)))
    rw [le_div_iff₀ hC] at this; linarith
  have k4 : κ * step ≤ 2 / 5 := by
    have := hs0.trans ((min_le_right _ _).trans ((min_le_right _ _).trans (min_le_right _ _)))
    rw [le_div_iff₀ hκ] at this; linarith
  have k5 : C * step ^ 2 ≤ 2 / 5 := by
    refine le_trans ?_ k3
    rw [pow_two]; exact mul_le_mul_of_nonneg_left (mul_le_of_le_one_left hs.le k2) hC.le
  have hh : 0 < e.h := lt_trans (by positivity) hthin
  have e0 : C * (0 + 0 + step ^ 2) = C * step ^ 2 := by ring
  have lay : PlainLayers 1 κ halfE noE2 e.R 0 step n S := by
    refine ⟨by rw [hS0]; norm_num, by rw [hS0], fun k hk => ⟨e, N, age k, hN, hn, hthin, hRN, le_rfl, fun i => by rw [hF]; exact ⟨rfl, rfl⟩, hrun k hk, ?_⟩⟩
    have := sampled_axis_near (d := 0) (a := 0) le_rfl le_rfl half_tame hel_tame.1 half_axi uniform_axi.1 e N hN hn hh hRN (k * step + step / 2) (fun i _ => by
      rw [hF, hnz]
      simp [halfEz, Within, noE2, halfE])
    have z : (0 : ℝ) + (3 / 2 * 0 + 0) * e.h = 0 := by ring
    rwa [z] at this
  have fin := main e.R 0 step 0 n S (by linarith) le_rfl (by norm_num) hs k1 hnT (by rw [hS0]) ⟨1, 0, by norm_num, by rw [hS0]; simp [rot, PState.pos, Within, slantX], by rw [hS0]; norm_num [rot, PState.mom, Within, slantP]⟩ (by rw [e0]; exact k5) k4 lay n le_rfl
  obtain ⟨f1, f2, -, f4⟩ := fin
  rw [e0] at f4
  obtain ⟨v1, v2, -⟩ := turned_error f2 f4
  have p0 : 0 ≤ C * step ^ 2 := by positivity
  have r0 := (slant_range (by positivity : 0 ≤ n * step) hnT).1
  rw [zero_pow two_ne_zero, add_zero, Real.sqrt_sq (by linarith)] at v1
  refine ⟨f1, ?_, ?_⟩
  · have : slantX (n * step) = 2 - 2 * Real.log (1 - n * step / 2) := rfl
    rw [this] at v1; linarith
  · have : (slantP (n * step)).z = (2 * (1 - n * step / 2)⁻¹ - (1 - n * step / 2)) / 2 := rfl
    rw [this] at v2; linarith

/-- A push that takes the particle of `through_axis_converges` beyond the axis, and one that does not. -/
theorem crosses_case : Crosses 1 1 ⟨1 / 10, -3 / 4, 0, 0, 1⟩ ∧ ¬ Crosses 1 1 ⟨1, -3 / 4, 0, 0, 1⟩ := by
  have hg : Real.sqrt (1 ^ 2 + (-3 / 4) ^ 2 + 0 ^ 2 + 0 ^ 2) = 5 / 4 := by
    rw [show (1 : ℝ) ^ 2 + (-3 / 4) ^ 2 + 0 ^ 2 + 0 ^ 2 = (5 / 4) ^ 2 by norm_num]
    exact Real.sqrt_sq (by norm_num)
  unfold Crosses
  simp only [hg]
  constructor <;> norm_num

/-! ### The integral of motion (C80) to second order -/

open Lcode.Plasma3D (integral integral_lip integral_const WakePotential) in
/-- C80 for particles of the axisymmetric code that do not rotate: `gamma m - p_z + q Phi` stays within `C (e0 + del + (1 + crossings) step²)` of its initial value, under the conditions of C82. -/
theorem integral_second_order {q m M L T W R S μ : ℝ} (hm : 0 < m) (hM : 0 ≤ M) (hL : 0 ≤ L) (hT : 0 ≤ T) (hS : 0 ≤ S) (hμ : μ ≤ 1 / 2) (hq : q ≠ 0) {E B : ℝ → ℝ → ℝ → Vec3} (hE : Tame2 M L E) (hB : Tame2 M L B) (aE : AxiSym E) (aB : AxiSym B)
    {X Y : ℝ → ℝ} {P : ℝ → Vec3} (hmo : PlasmaMotion q m E B T X Y P) (hst : Stays T W R X Y P) (hsp : SmoothPath S T X Y P) {Φ : ℝ → ℝ → ℝ → ℝ} (hΦ : WakePotential Φ E B) (aΦ : ∀ s x y u v, u ^ 2 + v ^ 2 = 1 → Φ s (u * x - v * y) (v * x + u * y) = Φ s x y) :
    ∃ C κ h0 : ℝ, 0 < C ∧ 0 < κ ∧ 0 < h0 ∧ ∀ (Rw del step e0 : ℝ) (n : ℕ) (s : ℕ → PState), W + 3 * μ ≤ Rw → 0 ≤ del → del ≤ 1 / 2 → 0 < step → step ≤ h0 → n * step ≤ T → (s 0).q = q →
      NearTurned (s 0) (X 0) (Y 0) (P 0) e0 → C * (e0 + del + (1 + crossings m step s n) * step ^ 2) ≤ μ → κ * step ≤ μ → PlainLayers m κ E B Rw del step n s →
      ∀ k ≤ n, (s k).q = q ∧ |integral q m Φ (k * step) (s k).r 0 ⟨(s k).pr, (s k).pf, (s k).pz⟩ - integral q m Φ 0 (s 0).r 0 ⟨(s 0).pr, (s 0).pf, (s 0).pz⟩| ≤ C * (e0 + del + (1 + crossings m step s k) * step ^ 2) := by
  obtain ⟨C, κ, h0, hC, hκ, hh0, main⟩ := plasma2d_second_order hm hM hL hT hS hμ hq hE hB aE aB hmo hst hsp
  have hK : 0 ≤ 4 + 4 * |q| * M := by positivity
  refine ⟨(4 + 4 * |q| * M) * (C + 1) + C, κ, h0, by positivity, hκ, hh0, ?_⟩
  intro Rw del step e0 n s hRw hdel hdel1 hs hs0 hnT hrq hcl hsmall hκs hlay k hk
  have he0 : 0 ≤ e0 := by obtain ⟨u, v, -, h, -⟩ := hcl; exact h.nonneg
  have cp : ∀ j, (0 : ℝ) ≤ (1 + crossings m step s j) * step ^ 2 := fun j => by positivity
  have hGn : 0 ≤ e0 + del + (1 + crossings m step s n) * step ^ 2 := by linarith [cp n]
  have hG : 0 ≤ e0 + del + (1 + crossings m step s k) * step ^ 2 := by linarith [cp k]
  have p1 := mul_nonneg (mul_nonneg hK (by linarith : 0 ≤ C + 1)) hGn
  obtain ⟨f1, -, -, f4⟩ := main Rw del step e0 n s hRw hdel hdel1 hs hs0 hnT hrq hcl (by linarith) hκs hlay k hk
  refine ⟨f1, ?_⟩
  have hkT : k * step ≤ T := (mul_le_mul_of_nonneg_right (Nat.cast_le.mpr hk) hs.le).trans hnT
  have turned : ∀ (t x y : ℝ) (p : Vec3) (st : PState) (e : ℝ), NearTurned st x y p e → |integral q m Φ t st.r 0 ⟨st.pr, st.pf, st.pz⟩ - integral q m Φ t x y p| ≤ (4 + 4 * |q| * M) * e := by
    intro t x y p st e ⟨u, v, huv, hx, hp⟩
    have hi := integral_lip (q := q) (s := t) hm hΦ hE hB hx.1 hx.2.1 hp
    have e1 : integral q m Φ t (rot u v st.pos).x (rot u v st.pos).y (rot u v st.mom) = integral q m Φ t st.r 0 ⟨st.pr, st.pf, st.pz⟩ := by
      unfold integral
      rw [energy_rot m u v huv]
      have := aΦ t st.r 0 u v huv
      simp only [rot, PState.pos, PState.mom]
      rw [this]
    rwa [e1] at hi
  have i0 := integral_const hm hmo hΦ (k * step) (by positivity) hkT
  have i1 := turned (k * step) _ _ _ _ _ f4
  have i2 := turned 0 _ _ _ _ _ hcl
  rw [i0] at i1
  have j1 : (4 + 4 * |q| * M) * e0 ≤ (4 + 4 * |q| * M) * (e0 + del + (1 + crossings m step s k) * step ^ 2) := mul_le_mul_of_nonneg_left (by linarith [cp k]) hK
  have p2 : 0 ≤ C * (e0 + del + (1 + crossings m step s k) * step ^ 2) := mul_nonneg hC.le hG
  generalize e0 + del + (1 + (crossings m step s k : ℝ)) * step ^ 2 = G at *
  rw [abs_le] at *
  constructor <;> linarith [i1.1, i1.2, i2.1, i2.2]

end Lcode.Plasma2D
