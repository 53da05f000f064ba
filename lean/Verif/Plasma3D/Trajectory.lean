import Verif.Plasma3D.Step
import Verif.Beam3D.ConvergeSampled
import Verif.Num.Taylor

/-!
Property C78: the trajectories of plasma particles in the 3D code (lcode/plasma3d/move.py, three passes per layer as in lcode/plasma3d/solver.py:25-78) converge with second order to the solution of the equations of motion
in the co-moving coordinate. The models are Verif/Plasma3D/Move.lean and Verif/Plasma3D/Step.lean; this file adds the equations of motion (specification) and proofs.
-/

namespace Lcode.Plasma3D

open Lcode.Beam3D (Within lorentz vel vel_lip vel_le_one lorentz_lip lorentz_bound gronwall_step interpolate_near)
open Lcode.Num (DerivOn BoundedOn grow central_bound mean_bound)

/-! ### Specification -/

/-- No component exceeds `M`. -/
def Upto (v : Vec3) (M : ℝ) : Prop := |v.x| ≤ M ∧ |v.y| ≤ M ∧ |v.z| ≤ M

/-- `X`, `Y` and `P` are transverse position and momentum of a plasma particle of charge `q` and mass `m` as functions of the path `s = -xi` from the front of the window. In the fields `E`, `B`:
`dx/ds = v_x / (1 - v_z) = p_x / (gamma m - p_z)` and `dp/ds = q (E + v × B) / (1 - v_z)`. -/
structure PlasmaMotion (q m : ℝ) (E B : ℝ → ℝ → ℝ → Vec3) (T : ℝ) (X Y : ℝ → ℝ) (P : ℝ → Vec3) : Prop where
  dx : DerivOn X (fun s => (P s).x / ((P s).energy m - (P s).z)) 0 T
  dy : DerivOn Y (fun s => (P s).y / ((P s).energy m - (P s).z)) 0 T
  dpx : DerivOn (fun s => (P s).x) (fun s => (lorentz3 q m 1 (E s (X s) (Y s)) (B s (X s) (Y s)) (P s)).x) 0 T
  dpy : DerivOn (fun s => (P s).y) (fun s => (lorentz3 q m 1 (E s (X s) (Y s)) (B s (X s) (Y s)) (P s)).y) 0 T
  dpz : DerivOn (fun s => (P s).z) (fun s => (lorentz3 q m 1 (E s (X s) (Y s)) (B s (X s) (Y s)) (P s)).z) 0 T

/-- A function with three derivatives bounded by `S` on [0, T]. -/
def Thrice (S T : ℝ) (f : ℝ → ℝ) : Prop := ∃ f1 f2 f3 : ℝ → ℝ, DerivOn f f1 0 T ∧ DerivOn f1 f2 0 T ∧ DerivOn f2 f3 0 T ∧ BoundedOn f1 S 0 T ∧ BoundedOn f2 S 0 T ∧ BoundedOn f3 S 0 T

/-- Fields bounded by `M` that change by at most `L e` between points whose coordinates differ by at most `e`. -/
structure Tame2 (M L : ℝ) (E : ℝ → ℝ → ℝ → Vec3) : Prop where
  bounded : ∀ s x y, Upto (E s x y) M
  lipschitz : ∀ s x y x' y' e, |x - x'| ≤ e → |y - y'| ≤ e → Within (E s x y) (E s x' y') (L * e)

/-- A trajectory that stays in the square of half-width `W` and whose momentum stays below `R`, smooth with constant `S`. -/
structure Path (T W R S : ℝ) (X Y : ℝ → ℝ) (P : ℝ → Vec3) : Prop where
  inside : ∀ s, 0 ≤ s → s ≤ T → |X s| ≤ W ∧ |Y s| ≤ W ∧ Upto (P s) R
  smooth : Thrice S T X ∧ Thrice S T Y ∧ Thrice S T (fun s => (P s).x) ∧ Thrice S T (fun s => (P s).y) ∧ Thrice S T (fun s => (P s).z)

/-- The interpolated fields of the arrays `F` are bounded by `M` everywhere inside the boundary. -/
def FieldsUpto (c : MCfg) (F : Fields3) (M : ℝ) : Prop := ∀ x y, |x| < c.boundary → |y| < c.boundary → Upto (fieldE c F x y) M ∧ Upto (fieldB c F x y) M

/-- The interpolated fields of the arrays `F` are within `del` of `E`, `B` everywhere inside the boundary. -/
def FieldsNear (c : MCfg) (F : Fields3) (E B : ℝ → ℝ → Vec3) (del : ℝ) : Prop :=
  ∀ x y, |x| < c.boundary → |y| < c.boundary → Within (fieldE c F x y) (E x y) del ∧ Within (fieldB c F x y) (B x y) del

/-- Momentum of a particle. -/
def Ptl.mom (p : Ptl) : Vec3 := ⟨p.px, p.py, p.pz⟩

/-- The computed particle is within `e` of the true position and momentum. -/
def Close (r : Ptl) (x y : ℝ) (p : Vec3) (e : ℝ) : Prop := |r.X - x| ≤ e ∧ |r.Y - y| ≤ e ∧ Within r.mom p e

/-! ### Taylor -/

theorem smooth_taylor {S T : ℝ} {f g : ℝ → ℝ} (hf : Thrice S T f) (hg : DerivOn f g 0 T) {t h : ℝ} (h0 : 0 ≤ t) (hh : 0 ≤ h) (hT : t + h ≤ T) :
    |f (t + h / 2) - f t - h / 2 * g (t + h / 2)| ≤ S * h ^ 2 / 8 ∧ |f (t + h) - f t - h * g (t + h / 2)| ≤ S * h ^ 3 / 24 ∧ |f (t + h) - f t - h * g t| ≤ S * h ^ 2 / 2 ∧
      |(f t + f (t + h)) / 2 - f (t + h / 2)| ≤ S * h ^ 2 / 8 ∧ |f (t + h / 2) - f t| ≤ S * h / 2 := by
  obtain ⟨f1, f2, f3, d0, d1, d2, b1, b2, b3⟩ := hf
  have hgf : ∀ s, 0 ≤ s → s ≤ T → g s = f1 s := fun s h1 h2 => (hg s h1 h2).unique (d0 s h1 h2)
  rw [hgf (t + h / 2) (by linarith) (by linarith), hgf t h0 (by linarith)]
  have lo : 0 ≤ t + h / 2 - h / 2 := by linarith
  have hi : t + h / 2 + h / 2 ≤ T := by linarith
  have c0 := d0.mono lo hi
  have c1 := d1.mono lo hi
  have c2 := d2.mono lo hi
  have e1 : t + h / 2 + h / 2 = t + h := by ring
  have e2 : t + h / 2 - h / 2 = t := by ring
  have sh : ∀ {u u' : ℝ → ℝ}, DerivOn u u' 0 T → ∀ r, 0 ≤ r → r ≤ h → HasDerivAt (fun r => u (t + r)) (u' (t + r)) r := by
    intro u u' hu r hr0 hr1
    have := (hu (t + r) (by linarith) (by linarith)).comp r ((hasDerivAt_id r).const_add t)
    exact this.congr_deriv (by simp)
  have sl : ∀ {u u' : ℝ → ℝ}, DerivOn u u' 0 T → ∀ r, 0 ≤ r → r ≤ h / 2 → HasDerivAt (fun r => u (t + h / 2 - r)) (-u' (t + h / 2 - r)) r := by
    intro u u' hu r hr0 hr1
    have := (hu (t + h / 2 - r) (by linarith) (by linarith)).comp r ((hasDerivAt_id r).const_sub (t + h / 2))
    exact this.congr_deriv (by simp)
  have one : ∀ {u u' : ℝ → ℝ}, DerivOn u u' 0 T → BoundedOn u' S 0 T → ∀ r, 0 ≤ r → r ≤ h → |u (t + r) - u t| ≤ S * r := by
    intro u u' hu hb r hr0 hr1
    have := grow (fun r => u (t + r) - u t) (fun r => u' (t + r)) h S 0 (by simp) (fun r q0 q1 => (sh hu r q0 q1).sub_const _) (fun r q0 q1 => by
      rw [pow_zero, mul_one]; exact hb _ (by linarith) (by linarith)) r hr0 hr1
    simpa using this
  have oneL : ∀ {u u' : ℝ → ℝ}, DerivOn u u' 0 T → BoundedOn u' S 0 T → ∀ r, 0 ≤ r → r ≤ h / 2 → |u (t + h / 2) - u (t + h / 2 - r)| ≤ S * r := by
    intro u u' hu hb r hr0 hr1
    have := grow (fun r => u (t + h / 2) - u (t + h / 2 - r)) (fun r => u' (t + h / 2 - r)) (h / 2) S 0 (by simp) (fun r q0 q1 => by
      have := (sl hu r q0 q1).const_sub (u (t + h / 2))
      exact this.congr_deriv (by simp)) (fun r q0 q1 => by
      rw [pow_zero, mul_one]; exact hb _ (by linarith) (by linarith)) r hr0 hr1
    simpa using this
  refine ⟨?_, ?_, ?_, ?_, ?_⟩
  · have := grow (fun r => f (t + h / 2) - f (t + h / 2 - r) - r * f1 (t + h / 2)) (fun r => f1 (t + h / 2 - r) - f1 (t + h / 2)) (h / 2) S 1 (by simp) (fun r q0 q1 => by
      have := ((sl d0 r q0 q1).const_sub (f (t + h / 2))).sub ((hasDerivAt_id r).mul_const (f1 (t + h / 2)))
      exact this.congr_deriv (by simp)) (fun r q0 q1 => by
      rw [pow_one, abs_sub_comm]; exact oneL d1 b2 r q0 q1) (h / 2) (by linarith) le_rfl
    rw [e2] at this
    refine this.trans (le_of_eq ?_)
    norm_num; ring
  · have := central_bound c0 c1 c2 (b3.mono lo hi) (h / 2) (by linarith) le_rfl
    rw [e1, e2] at this
    have e3 : f (t + h) - f t - 2 * (h / 2) * f1 (t + h / 2) = f (t + h) - f t - h * f1 (t + h / 2) := by ring
    rw [e3] at this
    refine this.trans (le_of_eq ?_)
    ring
  · have := grow (fun r => f (t + r) - f t - r * f1 t) (fun r => f1 (t + r) - f1 t) h S 1 (by simp) (fun r q0 q1 => by
      have := ((sh d0 r q0 q1).sub_const (f t)).sub ((hasDerivAt_id r).mul_const (f1 t))
      exact this.congr_deriv (by simp)) (fun r q0 q1 => by
      rw [pow_one]; exact one d1 b2 r q0 q1) h hh le_rfl
    refine this.trans (le_of_eq ?_)
    norm_num; ring
  · have := mean_bound c0 c1 (b2.mono lo hi) (h / 2) (by linarith) le_rfl
    rw [e1, e2] at this
    have e3 : (f t + f (t + h)) / 2 - f (t + h / 2) = (f (t + h) + f t - 2 * f (t + h / 2)) / 2 := by ring
    rw [e3, abs_div, abs_of_pos (by norm_num : (0 : ℝ) < 2)]
    linarith
  · have := one d0 b1 (h / 2) (by linarith) (by linarith)
    linarith

/-! ### The right-hand sides -/

/-- `1 / (1 - v_z)` -/
noncomputable def kap (m : ℝ) (p : Vec3) : ℝ := 1 / (1 - (vel (1 / m) p).z)

/-- The bound of `1 / (1 - v_z)` for momenta below `R`. -/
noncomputable def kapMax (m R : ℝ) : ℝ := 2 * (m ^ 2 + 3 * R ^ 2) / m ^ 2

theorem vel_energy (m : ℝ) (p : Vec3) : vel (1 / m) p = ⟨p.x / p.energy m, p.y / p.energy m, p.z / p.energy m⟩ := by
  unfold vel Vec3.energy
  simp only [one_div_one_div]

theorem energy_pos {m : ℝ} (hm : 0 < m) (p : Vec3) : 0 < p.energy m := Real.sqrt_pos.mpr (by positivity)

theorem energy_sq (m : ℝ) (p : Vec3) : p.energy m ^ 2 = m ^ 2 + p.x ^ 2 + p.y ^ 2 + p.z ^ 2 := Real.sq_sqrt (by positivity)

theorem sq_upto {a R : ℝ} (h : |a| ≤ R) : a ^ 2 ≤ R ^ 2 := by
  rw [← sq_abs]; exact pow_le_pow_left₀ (abs_nonneg _) h 2

/-- The particle is slower than the light by a margin. -/
theorem slower {m R : ℝ} (hm : 0 < m) (p : Vec3) (hp : Upto p R) : 1 / kapMax m R ≤ 1 - (vel (1 / m) p).z := by
  rw [vel_energy]
  have hg := energy_pos hm p
  have hs := energy_sq m p
  obtain ⟨h1, h2, h3⟩ := hp
  have s1 := sq_upto h1
  have s2 := sq_upto h2
  have s3 := sq_upto h3
  have hz : |p.z| < p.energy m := by
    refine abs_lt_of_sq_lt_sq ?_ hg.le
    rw [hs]; nlinarith [sq_nonneg p.x, sq_nonneg p.y]
  generalize p.energy m = g at *
  rw [abs_lt] at hz
  have e1 : 1 - p.z / g = (g - p.z) / g := by field_simp
  unfold kapMax
  simp only
  rw [e1, one_div_div, div_le_div_iff₀ (by positivity) hg]
  have e2 : g * g = g ^ 2 := by ring
  have k1 : m ^ 2 ≤ (g - p.z) * (2 * g) := by
    have : m ^ 2 ≤ (g - p.z) * (g + p.z) := by nlinarith [sq_nonneg p.x, sq_nonneg p.y]
    have : (g - p.z) * (g + p.z) ≤ (g - p.z) * (2 * g) := mul_le_mul_of_nonneg_left (by linarith) (by linarith)
    linarith
  have k2 : g ^ 2 ≤ m ^ 2 + 3 * R ^ 2 := by linarith
  have k3 : (g - p.z) * (2 * g) * g ≤ (g - p.z) * (2 * (m ^ 2 + 3 * R ^ 2)) := by
    have : (g - p.z) * (2 * g) * g = (g - p.z) * (2 * g ^ 2) := by ring
    rw [this]
    exact mul_le_mul_of_nonneg_left (by linarith) (by linarith)
  have k4 := mul_le_mul_of_nonneg_right k1 hg.le
  linarith

theorem kapMax_pos {m R : ℝ} (hm : 0 < m) : 0 < kapMax m R := by unfold kapMax; positivity

theorem kap_bound {m R : ℝ} (hm : 0 < m) (p : Vec3) (hp : Upto p R) : |kap m p| ≤ kapMax m R ∧ 0 < kap m p := by
  have h := slower hm p hp
  have hk := kapMax_pos (R := R) hm
  have h0 : 0 < 1 - (vel (1 / m) p).z := lt_of_lt_of_le (by positivity) h
  have h1 : 0 < kap m p := by unfold kap; positivity
  refine ⟨?_, h1⟩
  rw [abs_of_pos h1]
  unfold kap
  rw [div_le_iff₀ h0]
  rw [div_le_iff₀ hk] at h
  linarith

theorem kap_lip {m R : ℝ} (hm : 0 < m) (a b : Vec3) (ha : Upto a R) (hb : Upto b R) (e : ℝ) (h : Within a b e) : |kap m a - kap m b| ≤ 3 / m * kapMax m R ^ 2 * e := by
  obtain ⟨ka, pa⟩ := kap_bound hm a ha
  obtain ⟨kb, pb⟩ := kap_bound hm b hb
  have hv := (vel_lip (1 / m) (by positivity) a b e h).2.2
  have sa := slower hm a ha
  have sb := slower hm b hb
  have hk := kapMax_pos (R := R) hm
  have qa : 0 < 1 - (vel (1 / m) a).z := lt_of_lt_of_le (by positivity) sa
  have qb : 0 < 1 - (vel (1 / m) b).z := lt_of_lt_of_le (by positivity) sb
  have e1 : kap m a - kap m b = kap m a * kap m b * ((vel (1 / m) a).z - (vel (1 / m) b).z) := by
    unfold kap
    field_simp
    ring
  rw [e1, abs_mul, abs_mul]
  rw [abs_of_pos (by positivity : (0 : ℝ) < 1 / m)] at hv
  have m1 := mul_le_mul ka kb (abs_nonneg _) hk.le
  have m2 := mul_le_mul m1 hv (abs_nonneg _) (by positivity)
  refine m2.trans (le_of_eq ?_)
  ring

/-- Lipschitz constant of `p ↦ v / (1 - v_z)`. -/
noncomputable def velLip (m R : ℝ) : ℝ := 3 / m * kapMax m R + 3 / m * kapMax m R ^ 2

/-- Difference of two products. -/
theorem prod_lip {k k' u u' K dk du U : ℝ} (hk : |k| ≤ K) (hu' : |u'| ≤ U) (h1 : |k - k'| ≤ dk) (h2 : |u - u'| ≤ du) : |k * u - k' * u'| ≤ K * du + dk * U := by
  have e : k * u - k' * u' = k * (u - u') + (k - k') * u' := by ring
  rw [e]
  refine (abs_add_le _ _).trans ?_
  rw [abs_mul, abs_mul]
  have hK : 0 ≤ K := le_trans (abs_nonneg _) hk
  have hdk : 0 ≤ dk := le_trans (abs_nonneg _) h1
  exact add_le_add (mul_le_mul hk h2 (abs_nonneg _) hK) (mul_le_mul h1 hu' (abs_nonneg _) hdk)

theorem slope_kap {m R : ℝ} (hm : 0 < m) (p : Vec3) (hp : Upto p R) (a : ℝ) : a / (p.energy m - p.z) = kap m p * (a / p.energy m) := by
  have hg := energy_pos hm p
  have h := slower hm p hp
  have hk := kapMax_pos (R := R) hm
  have h0 : 0 < 1 - (vel (1 / m) p).z := lt_of_lt_of_le (by positivity) h
  unfold kap
  rw [vel_energy] at h0 ⊢
  simp only at h0 ⊢
  have e1 : p.energy m - p.z = p.energy m * (1 - p.z / p.energy m) := by field_simp
  rw [e1]
  field_simp

/-- The slope of the trajectory is a Lipschitz function of the momentum. -/
theorem slope_lip {m R : ℝ} (hm : 0 < m) (a b : Vec3) (ha : Upto a R) (hb : Upto b R) (e : ℝ) (h : Within a b e) :
    |a.x / (a.energy m - a.z) - b.x / (b.energy m - b.z)| ≤ velLip m R * e ∧ |a.y / (a.energy m - a.z) - b.y / (b.energy m - b.z)| ≤ velLip m R * e := by
  obtain ⟨ka, -⟩ := kap_bound hm a ha
  have hkl := kap_lip hm a b ha hb e h
  have hv := vel_lip (1 / m) (by positivity) a b e h
  have hb1 := vel_le_one (1 / m) b
  rw [vel_energy, vel_energy, abs_of_pos (by positivity : (0 : ℝ) < 1 / m)] at hv
  rw [vel_energy] at hb1
  obtain ⟨v1, v2, -⟩ := hv
  obtain ⟨w1, w2, -⟩ := hb1
  simp only at v1 v2 w1 w2
  rw [slope_kap hm a ha, slope_kap hm b hb, slope_kap hm a ha, slope_kap hm b hb]
  refine ⟨(prod_lip ka w1 hkl v1).trans (le_of_eq ?_), (prod_lip ka w2 hkl v2).trans (le_of_eq ?_)⟩ <;> unfold velLip <;> ring

theorem force_kap {m : ℝ} (hm : 0 < m) (q : ℝ) (E B p : Vec3) :
    (lorentz3 q m 1 E B p).x = q * (kap m p * (lorentz (1 / m) E B p).x) ∧ (lorentz3 q m 1 E B p).y = q * (kap m p * (lorentz (1 / m) E B p).y) ∧ (lorentz3 q m 1 E B p).z = q * (kap m p * (lorentz (1 / m) E B p).z) := by
  have hs : (SignType.sign (1 / m) : ℝ) = 1 := by rw [sign_pos (by positivity)]; rfl
  unfold lorentz3 lorentz kap
  rw [vel_energy]
  simp only
  rw [hs]
  refine ⟨?_, ?_, ?_⟩ <;> ring

/-- Lipschitz constant of the force in the momentum, and the factor of field errors. -/
noncomputable def forceLip (q m R M : ℝ) : ℝ := |q| * (6 / m * kapMax m R * M + 9 / m * kapMax m R ^ 2 * M)
noncomputable def fieldLip (q m R : ℝ) : ℝ := 3 * |q| * kapMax m R
/-- Bound of the force in fields up to `M`. -/
noncomputable def forceMax (q m R M : ℝ) : ℝ := 3 * |q| * kapMax m R * M

theorem force_lip3 {q m R M : ℝ} (hm : 0 < m) (E B p E' B' p' : Vec3) (d e : ℝ) (hE : Within E E' d) (hB : Within B B' d) (hp : Within p p' e) (up : Upto p R) (up' : Upto p' R) (uE : Upto E' M) (uB : Upto B' M) :
    Within (lorentz3 q m 1 E B p) (lorentz3 q m 1 E' B' p') (fieldLip q m R * d + forceLip q m R M * e) := by
  obtain ⟨ka, -⟩ := kap_bound hm p up
  have hkl := kap_lip hm p p' up up' e hp
  obtain ⟨l1, l2, l3⟩ := lorentz_lip (1 / m) (by positivity) M E B p E' B' p' d e hE hB hp uB
  obtain ⟨b1, b2, b3⟩ := lorentz_bound (1 / m) M E' B' p' uE uB
  obtain ⟨f1, f2, f3⟩ := force_kap hm q E B p
  obtain ⟨g1, g2, g3⟩ := force_kap hm q E' B' p'
  rw [abs_of_pos (by positivity : (0 : ℝ) < 1 / m)] at l1 l2 l3
  have fin : ∀ u u' : ℝ, |u - u'| ≤ 3 * d + 6 * (1 / m) * M * e → |u'| ≤ 3 * M → |q * (kap m p * u) - q * (kap m p' * u')| ≤ fieldLip q m R * d + forceLip q m R M * e := by
    intro u u' h1 h2
    rw [← mul_sub, abs_mul]
    refine (mul_le_mul_of_nonneg_left (prod_lip ka h2 hkl h1) (abs_nonneg q)).trans (le_of_eq ?_)
    unfold fieldLip forceLip
    ring
  unfold Within
  rw [f1, f2, f3, g1, g2, g3]
  exact ⟨fin _ _ l1 b1, fin _ _ l2 b2, fin _ _ l3 b3⟩

theorem force_upto {q m R M : ℝ} (hm : 0 < m) (E B p : Vec3) (up : Upto p R) (uE : Upto E M) (uB : Upto B M) : Upto (lorentz3 q m 1 E B p) (forceMax q m R M) := by
  obtain ⟨ka, -⟩ := kap_bound hm p up
  obtain ⟨b1, b2, b3⟩ := lorentz_bound (1 / m) M E B p uE uB
  obtain ⟨f1, f2, f3⟩ := force_kap hm q E B p
  have hk := kapMax_pos (R := R) hm
  have fin : ∀ u : ℝ, |u| ≤ 3 * M → |q * (kap m p * u)| ≤ forceMax q m R M := by
    intro u h
    rw [abs_mul, abs_mul]
    refine (mul_le_mul_of_nonneg_left (mul_le_mul ka h (abs_nonneg _) hk.le) (abs_nonneg q)).trans (le_of_eq ?_)
    unfold forceMax
    ring
  unfold Upto
  rw [f1, f2, f3]
  exact ⟨fin _ b1, fin _ b2, fin _ b3⟩

theorem lorentz3_scale (q m d : ℝ) (E B p : Vec3) : lorentz3 q m d E B p = ⟨d * (lorentz3 q m 1 E B p).x, d * (lorentz3 q m 1 E B p).y, d * (lorentz3 q m 1 E B p).z⟩ := by
  unfold lorentz3
  simp only [Vec3.mk.injEq]
  refine ⟨?_, ?_, ?_⟩ <;> ring

end Lcode.Plasma3D
