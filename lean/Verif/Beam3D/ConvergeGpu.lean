import Verif.Beam3D.ConvergeSampled
import Verif.Num.Taylor

/-!
Property C68, third part: the GPU kernel (Higuera-Cary scheme, lcode/beam3d/move.py:132-276) converges with second order in the substep.
-/

namespace Lcode.Beam3D

open Lcode.Plasma3D (Fields3 Vec3)
open Lcode.Num (DerivOn BoundedOn)

/-! ### Specification -/

/-- `f` has the derivative `f'` on [0, T] and two more derivatives bounded by `D`. -/
def Smooth (D T : ℝ) (f f' : ℝ → ℝ) : Prop :=
  ∃ f2 f3 : ℝ → ℝ, DerivOn f f' 0 T ∧ DerivOn f' f2 0 T ∧ DerivOn f2 f3 0 T ∧ BoundedOn f2 D 0 T ∧ BoundedOn f3 D 0 T

/-- `X`, `P` solve the equations of motion on [0, T] and have second and third derivatives bounded by `D`. -/
structure SmoothMotion (qm : ℝ) (E B : ℝ → Vec3 → Vec3) (T D : ℝ) (X P : ℝ → Vec3) : Prop where
  dx : Smooth D T (fun t => (X t).x) (fun t => (vel qm (P t)).x)
  dy : Smooth D T (fun t => (X t).y) (fun t => (vel qm (P t)).y)
  dz : Smooth D T (fun t => (X t).z) (fun t => (vel qm (P t)).z - 1)
  dpx : Smooth D T (fun t => (P t).x) (fun t => (lorentz qm (E t (X t)) (B t (X t)) (P t)).x)
  dpy : Smooth D T (fun t => (P t).y) (fun t => (lorentz qm (E t (X t)) (B t (X t)) (P t)).y)
  dpz : Smooth D T (fun t => (P t).z) (fun t => (lorentz qm (E t (X t)) (B t (X t)) (P t)).z)

/-- As `Pushed`, for the GPU kernel; the field error is measured at the middle of the substep. -/
def PushedG (c : BCfg) (E B : ℝ → Vec3 → Vec3) (del : ℝ) (n : ℕ) (r : ℕ → Row ℝ) : Prop :=
  ∀ k < n, ∃ (idx : ℤ) (F0 F1 : Fields3), turnG c idx F0 F1 (r k) = .next (r (k + 1)) ∧
    Within (fieldE3 c (idx * -c.dxi) F0 F1 (halfPos (r k))) (E (k * (r 0).dt + (r 0).dt / 2) (halfPos (r k))) del ∧
    Within (fieldB3 c (idx * -c.dxi) F0 F1 (halfPos (r k))) (B (k * (r 0).dt + (r 0).dt / 2) (halfPos (r k))) del

/-- As `PushedS`, for the GPU kernel; `lag` is the time between the moment of the fields and the middle of the substep. -/
def PushedGS (c : BCfg) (E B : ℝ → Vec3 → Vec3) (lag : ℝ) (n : ℕ) (r : ℕ → Row ℝ) : Prop :=
  ∀ k < n, ∃ (idx : ℤ) (F0 F1 : Fields3) (s : ℝ), turnG c idx F0 F1 (r k) = .next (r (k + 1)) ∧ (halfPos (r k)).z ≤ -(idx * c.dxi) ∧
    Sampled c (-(idx * c.dxi)) (E s) (B s) F0 ∧ Sampled c (-((idx + 1) * c.dxi)) (E s) (B s) F1 ∧ |k * (r 0).dt + (r 0).dt / 2 - s| ≤ lag

/-! ### The factor of the kernel -/

/-- The velocity the kernel uses differs from that of the mean momentum by at most `beta / (2 min(1, 1/|qm|)^4)` times `|1 - 1/qm^2|`. -/
theorem factor_error (qm : ℝ) (hq : qm ≠ 0) (g G be u mu : ℝ) (hg : 0 < g) (hG : 0 < G) (hbe : 0 ≤ be) (hmu : 0 < mu) (h1 : mu ≤ 1) (h2 : mu ≤ 1 / |qm|)
    (hGm : 1 / |qm| ≤ G) (hu : |u| ≤ G) (h : (g ^ 2 - G ^ 2) * (g ^ 2 + be) = (1 - (1 / qm) ^ 2) * be) : |u / g - u / G| ≤ |1 - (1 / qm) ^ 2| * be / (2 * mu ^ 4) := by
  have hm2 : (1 / |qm|) ^ 2 = (1 / qm) ^ 2 := by rw [div_pow, div_pow, sq_abs]
  have hm0 : 0 < 1 / |qm| := by positivity
  obtain ⟨m, hm⟩ : ∃ m, m = 1 / |qm| := ⟨_, rfl⟩
  rw [← hm2] at h ⊢
  rw [← hm] at h h2 hGm hm0 ⊢
  -- the factor is not below mu
  have hgmu : mu ≤ g := by
    by_contra hcon
    push Not at hcon
    rcases le_or_gt m 1 with hm1 | hm1
    · have a1 : g ^ 2 < G ^ 2 := by nlinarith
      have a2 : 0 < g ^ 2 + be := by positivity
      have a3 : (g ^ 2 - G ^ 2) * (g ^ 2 + be) < 0 := mul_neg_of_neg_of_pos (by linarith) a2
      have a4 : 0 ≤ (1 - m ^ 2) * be := mul_nonneg (by nlinarith) hbe
      linarith
    · have a0 : g < 1 := by linarith
      have a1 : m ^ 2 - 1 < G ^ 2 - g ^ 2 := by nlinarith
      have a2 : 0 < g ^ 2 := by positivity
      have a3 : 0 < m ^ 2 - 1 := by nlinarith
      have a4 : (m ^ 2 - 1) * be ≤ (G ^ 2 - g ^ 2) * be := mul_le_mul_of_nonneg_right a1.le hbe
      have a5 : 0 < (G ^ 2 - g ^ 2) * g ^ 2 := mul_pos (by linarith) a2
      nlinarith
  have hGmu : mu ≤ G := h2.trans hGm
  have hne : g ≠ 0 := hg.ne'
  have hGne : G ≠ 0 := hG.ne'
  have e1 : u / g - u / G = u / G * ((G ^ 2 - g ^ 2) / (g * (G + g))) := by
    field_simp
    ring
  have e2 : G ^ 2 - g ^ 2 = -((1 - m ^ 2) * be / (g ^ 2 + be)) := by
    rw [← h]
    have : g ^ 2 + be ≠ 0 := by positivity
    field_simp
    ring
  have f1 : |u / G| ≤ 1 := frac_le_one hu
  rw [e1, e2, abs_mul]
  generalize u / G = U at f1 ⊢
  rw [abs_div, abs_neg, abs_div, abs_mul, abs_of_nonneg hbe]
  have d1 : 0 < g ^ 2 + be := by positivity
  have d2 : 0 < g * (G + g) := by positivity
  rw [abs_of_pos d1, abs_of_pos d2]
  have f2 : |1 - m ^ 2| * be / (g ^ 2 + be) / (g * (G + g)) ≤ |1 - m ^ 2| * be / (2 * mu ^ 4) := by
    rw [div_div]
    refine div_le_div_of_nonneg_left (by positivity) (by positivity) ?_
    have k1 : mu ^ 2 ≤ g ^ 2 + be := by nlinarith
    have k2 : mu * (mu + mu) ≤ g * (G + g) := mul_le_mul hgmu (by linarith) (by linarith) hg.le
    calc 2 * mu ^ 4 = mu ^ 2 * (mu * (mu + mu)) := by ring
      _ ≤ _ := mul_le_mul k1 k2 (by positivity) (by positivity)
  calc _ ≤ 1 * (|1 - m ^ 2| * be / (g ^ 2 + be) / (g * (G + g))) := mul_le_mul_of_nonneg_right f1 (by positivity)
    _ ≤ _ := by rw [one_mul]; exact f2

/-! ### Taylor bounds along the trajectory -/

/-- The four facts about a smooth function used below. -/
theorem smooth_bounds {D T t d : ℝ} {f f' : ℝ → ℝ} (h : Smooth D T f f') (h0 : 0 ≤ t) (hd : 0 ≤ d) (hT : t + d ≤ T) :
    |f (t + d / 2) - f t - f' t * (d / 2)| ≤ D * d ^ 2 / 4 ∧ |(f t + f (t + d)) / 2 - f (t + d / 2)| ≤ D * d ^ 2 / 8 ∧
      |f (t + d) - f t - d * f' (t + d / 2)| ≤ D * d ^ 3 / 24 ∧ |f (t + d) - f t - d * ((f' t + f' (t + d)) / 2)| ≤ D * d ^ 3 / 12 := by
  obtain ⟨f2, f3, d0, d1, d2, b2, b3⟩ := h
  have hD : 0 ≤ D := le_trans (abs_nonneg _) (b2 t h0 (by linarith))
  have lo : (0 : ℝ) ≤ t + d / 2 - d / 2 := by linarith
  have hi : t + d / 2 + d / 2 ≤ T := by linarith
  have m1 := Lcode.Num.mean_bound (d0.mono lo hi) (d1.mono lo hi) (b2.mono lo hi) (d / 2) (by linarith) le_rfl
  have m2 := Lcode.Num.central_bound (d0.mono lo hi) (d1.mono lo hi) (d2.mono lo hi) (b3.mono lo hi) (d / 2) (by linarith) le_rfl
  have m3 := Lcode.Num.trapezoid_cell f f' f2 f3 t d D hd (d0.mono h0 hT) (d1.mono h0 hT) (d2.mono h0 hT) (b3.mono h0 hT)
  have ea : t + d / 2 + d / 2 = t + d := by ring
  have eb : t + d / 2 - d / 2 = t := by ring
  rw [ea, eb] at m1 m2
  refine ⟨?_, ?_, ?_, ?_⟩
  · have hR : ∀ s ∈ Set.Icc t (t + d / 2), |f' s - f' t| ≤ D * (d / 2) := by
      intro s hs
      have := drift (f := f') (f' := f2) (T := T) (R := D) h0 hs.1 (by linarith [hs.2]) (fun s hs => (d1 s hs.1 hs.2).hasDerivWithinAt) (fun s' hs' => b2 s' (by linarith [hs'.1]) (by linarith [hs'.2, hs.2]))
      refine this.trans ?_
      exact mul_le_mul_of_nonneg_left (by linarith [hs.2]) hD
    have := near_linear (f := f) (f' := f') (T := T) (k := f' t) h0 (by linarith : t ≤ t + d / 2) (by linarith) (fun s hs => (d0 s hs.1 hs.2).hasDerivWithinAt) hR
    rw [add_sub_cancel_left] at this
    refine this.trans (le_of_eq (by ring))
  · have e : (f t + f (t + d)) / 2 - f (t + d / 2) = (f (t + d) + f t - 2 * f (t + d / 2)) / 2 := by ring
    rw [e, abs_div, abs_two]
    have : D * (d / 2) ^ 2 / 2 = D * d ^ 2 / 8 := by ring
    linarith
  · have e : f (t + d) - f t - d * f' (t + d / 2) = f (t + d) - f t - 2 * (d / 2) * f' (t + d / 2) := by ring
    rw [e]
    exact m2.trans (le_of_eq (by ring))
  · have e : f (t + d) - f t - d * ((f' t + f' (t + d)) / 2) = f (t + d) - f t - d * (f' t + f' (t + d)) / 2 := by ring
    rw [e]
    exact m3.trans (le_of_eq (by ring))

/-! ### One substep -/

/-- The constant of the factor error per `dt^2`: zero for particles of unit mass. -/
noncomputable def massErr (qm M : ℝ) : ℝ := |1 - (1 / qm) ^ 2| * (3 * M ^ 2 / 4) / (2 * min 1 (1 / |qm|) ^ 4)

theorem massErr_nonneg (qm M : ℝ) : 0 ≤ massErr qm M := by
  unfold massErr
  positivity

/-- One component of the momentum. -/
theorem mom_component {p p' F G f0 f1 fm d e R b : ℝ} (hp' : p' = p + d * F) (hd : 0 ≤ d) (hFG : |G - F| ≤ R) (hb : |p - f0| ≤ b) (hfm : fm = G) (he : |f1 - f0 - d * fm| ≤ e) : |p' - f1| ≤ b + d * R + e := by
  subst hp' hfm
  have e1 : p + d * F - f1 = (p - f0) - d * (fm - F) - (f1 - f0 - d * fm) := by ring
  rw [e1]
  refine (abs_sub _ _).trans ?_
  have h1 := abs_sub (p - f0) (d * (fm - F))
  rw [abs_mul d, abs_of_nonneg hd] at h1
  have h2 := mul_le_mul_of_nonneg_left hFG hd
  linarith

/-- One component of the position. -/
theorem pos_component {x x' v v' f0 f1 u u' d e a k k' : ℝ} (hx' : x' = x + d * ((v + v') / 2)) (hd : 0 ≤ d) (hv : |v - u| ≤ k) (hv' : |v' - u'| ≤ k') (ha : |x - f0| ≤ a)
    (he : |f1 - f0 - d * ((u + u') / 2)| ≤ e) : |x' - f1| ≤ a + d * ((k + k') / 2) + e := by
  subst hx'
  have e1 : x + d * ((v + v') / 2) - f1 = (x - f0) + d * (((v - u) + (v' - u')) / 2) - (f1 - f0 - d * ((u + u') / 2)) := by ring
  rw [e1]
  refine (abs_sub _ _).trans ?_
  have h1 := abs_add_le (x - f0) (d * (((v - u) + (v' - u')) / 2))
  rw [abs_mul d, abs_of_nonneg hd, abs_div, abs_two] at h1
  have h3 := abs_add_le (v - u) (v' - u')
  have h2 : d * (|v - u + (v' - u')| / 2) ≤ d * ((k + k') / 2) := mul_le_mul_of_nonneg_left (by linarith) hd
  linarith

/-- One substep of the GPU scheme: the new errors `a'`, `b'` in terms of the old ones. The error of the momentum appears on both sides, as the scheme is implicit. -/
theorem gpu_step_error {qm M L T D : ℝ} {E B : ℝ → Vec3 → Vec3} {X P : ℝ → Vec3} (hq : qm ≠ 0) (hm : SmoothMotion qm E B T D X P) (hE : Tame M L E) (hB : Tame M L B) {t d del a b b' : ℝ}
    (h0 : 0 ≤ t) (hd : 0 ≤ d) (hT : t + d ≤ T) (x p x' p' w e m mid : Vec3) (g : ℝ) (hg : 0 < g)
    (hx : Within x (X t) a) (hp : Within p (P t) b) (hp' : Within p' (P (t + d)) b')
    (hw : w = shift3 x (d / 2) (vel1 qm p)) (he : Within e (E (t + d / 2) w) del) (hmm : Within m (B (t + d / 2) w) del)
    (hmid : mid = ⟨(p.x + p'.x) / 2, (p.y + p'.y) / 2, (p.z + p'.z) / 2⟩)
    (hfac : (g ^ 2 - ((1 / qm) ^ 2 + mid.x ^ 2 + mid.y ^ 2 + mid.z ^ 2)) * (g ^ 2 + (d / 2) ^ 2 * (m.x ^ 2 + m.y ^ 2 + m.z ^ 2)) = (1 - (1 / qm) ^ 2) * ((d / 2) ^ 2 * (m.x ^ 2 + m.y ^ 2 + m.z ^ 2)))
    (h1 : p'.x = p.x + SignType.sign qm * d * (e.x + (mid.y / g * m.z - mid.z / g * m.y))) (h2 : p'.y = p.y + SignType.sign qm * d * (e.y + (mid.z / g * m.x - mid.x / g * m.z)))
    (h3 : p'.z = p.z + SignType.sign qm * d * (e.z + (mid.x / g * m.y - mid.y / g * m.x)))
    (hx' : x' = ⟨x.x + d * (((vel1 qm p).x + (vel1 qm p').x) / 2), x.y + d * (((vel1 qm p).y + (vel1 qm p').y) / 2), x.z + d * (((vel1 qm p).z + (vel1 qm p').z) / 2)⟩) :
    Within p' (P (t + d)) (b + d * (3 * (del + L * (a + 3 * |qm| * b * (d / 2) + D * d ^ 2 / 4)) + 2 * (M + del) * (3 * |qm| * ((b + b') / 2 + D * d ^ 2 / 8) + massErr qm (M + del) * d ^ 2)) + D * d ^ 3 / 24) ∧
    Within x' (X (t + d)) (a + d * ((3 * |qm| * b + 3 * |qm| * b') / 2) + D * d ^ 3 / 12) := by
  have bx := smooth_bounds hm.dx h0 hd hT
  have by' := smooth_bounds hm.dy h0 hd hT
  have bz := smooth_bounds hm.dz h0 hd hT
  have bpx := smooth_bounds hm.dpx h0 hd hT
  have bpy := smooth_bounds hm.dpy h0 hd hT
  have bpz := smooth_bounds hm.dpz h0 hd hT
  have hdel := he.nonneg
  have hM : 0 ≤ M := le_trans (abs_nonneg _) (hE.bounded 0 x).1
  -- half-step position
  have hv := vel1_lip qm hq _ _ _ hp
  have half : ∀ (x0 v0 X0 V0 X1 : ℝ), |x0 - X0| ≤ a → |v0 - V0| ≤ 3 * |qm| * b → |X1 - X0 - V0 * (d / 2)| ≤ D * d ^ 2 / 4 → |x0 + d / 2 * v0 - X1| ≤ a + 3 * |qm| * b * (d / 2) + D * d ^ 2 / 4 := by
    intro x0 v0 X0 V0 X1 k1 k2 k3
    have e1 : x0 + d / 2 * v0 - X1 = (x0 - X0) + d / 2 * (v0 - V0) - (X1 - X0 - V0 * (d / 2)) := by ring
    rw [e1]
    refine (abs_sub _ _).trans ?_
    have h1 := abs_add_le (x0 - X0) (d / 2 * (v0 - V0))
    rw [abs_mul (d / 2), abs_of_nonneg (by linarith : 0 ≤ d / 2)] at h1
    have h2 := mul_le_mul_of_nonneg_left k2 (by linarith : 0 ≤ d / 2)
    linarith
  have hwX : Within w (X (t + d / 2)) (a + 3 * |qm| * b * (d / 2) + D * d ^ 2 / 4) := by
    rw [hw]
    exact ⟨half _ _ _ _ _ hx.1 hv.1 bx.1, half _ _ _ _ _ hx.2.1 hv.2.1 by'.1, half _ _ _ _ _ hx.2.2 hv.2.2 bz.1⟩
  have hEw := he.trans (hE.lipschitz (t + d / 2) _ _ _ hwX)
  have hBw := hmm.trans (hB.lipschitz (t + d / 2) _ _ _ hwX)
  -- mean momentum
  have meanb : ∀ (q q' Q Q' Qm : ℝ), |q - Q| ≤ b → |q' - Q'| ≤ b' → |(Q + Q') / 2 - Qm| ≤ D * d ^ 2 / 8 → |(q + q') / 2 - Qm| ≤ (b + b') / 2 + D * d ^ 2 / 8 := by
    intro q q' Q Q' Qm k1 k2 k3
    have e1 : (q + q') / 2 - Qm = ((q - Q) + (q' - Q')) / 2 + ((Q + Q') / 2 - Qm) := by ring
    rw [e1]
    refine (abs_add_le _ _).trans ?_
    rw [abs_div, abs_two]
    have := abs_add_le (q - Q) (q' - Q')
    linarith
  have hmean : Within mid (P (t + d / 2)) ((b + b') / 2 + D * d ^ 2 / 8) := by
    rw [hmid]
    exact ⟨meanb _ _ _ _ _ hp.1 hp'.1 bpx.2.1, meanb _ _ _ _ _ hp.2.1 hp'.2.1 bpy.2.1, meanb _ _ _ _ _ hp.2.2 hp'.2.2 bpz.2.1⟩
  have hvm := (vel_lip qm hq _ _ _ hmean).symm
  -- bounds of the numerical magnetic field
  have near : ∀ u v : ℝ, |u - v| ≤ del → |v| ≤ M → |u| ≤ M + del := by
    intro u v k1 k2
    have := abs_sub_abs_le_abs_sub u v
    linarith
  have hBb := hB.bounded (t + d / 2) w
  have c1 := near _ _ hmm.1 hBb.1
  have c2 := near _ _ hmm.2.1 hBb.2.1
  have c3 := near _ _ hmm.2.2 hBb.2.2
  have hbe : (d / 2) ^ 2 * (m.x ^ 2 + m.y ^ 2 + m.z ^ 2) ≤ 3 * (M + del) ^ 2 / 4 * d ^ 2 := by
    have k1 : m.x ^ 2 ≤ (M + del) ^ 2 := by rw [← sq_abs]; exact pow_le_pow_left₀ (abs_nonneg _) c1 2
    have k2 : m.y ^ 2 ≤ (M + del) ^ 2 := by rw [← sq_abs]; exact pow_le_pow_left₀ (abs_nonneg _) c2 2
    have k3 : m.z ^ 2 ≤ (M + del) ^ 2 := by rw [← sq_abs]; exact pow_le_pow_left₀ (abs_nonneg _) c3 2
    have := mul_le_mul_of_nonneg_left (by linarith : m.x ^ 2 + m.y ^ 2 + m.z ^ 2 ≤ 3 * (M + del) ^ 2) (sq_nonneg (d / 2))
    linarith
  rw [← gammaM_sq] at hfac
  have hmu : 0 < min 1 (1 / |qm|) := lt_min one_pos (by positivity)
  have hG := gammaM_pos qm hq mid
  have hc := comp_le_gamma qm mid
  have fac : ∀ u, |u| ≤ gammaM qm mid → |u / g - u / gammaM qm mid| ≤ massErr qm (M + del) * d ^ 2 := by
    intro u hu
    have := factor_error qm hq g (gammaM qm mid) _ u (min 1 (1 / |qm|)) hg hG.2 (by positivity) hmu (min_le_left _ _) (min_le_right _ _) hG.1 hu hfac
    refine this.trans ?_
    unfold massErr
    rw [div_mul_eq_mul_div]
    refine div_le_div_of_nonneg_right ?_ (by positivity)
    rw [mul_assoc]
    exact mul_le_mul_of_nonneg_left hbe (abs_nonneg _)
  have velerr : ∀ u V, |u| ≤ gammaM qm mid → |V - u / gammaM qm mid| ≤ 3 * |qm| * ((b + b') / 2 + D * d ^ 2 / 8) →
      |V - u / g| ≤ 3 * |qm| * ((b + b') / 2 + D * d ^ 2 / 8) + massErr qm (M + del) * d ^ 2 := by
    intro u V k1 k2
    have k3 := fac u k1
    rw [abs_sub_comm] at k3
    have := abs_sub_le V (u / gammaM qm mid) (u / g)
    linarith
  have w1 := velerr mid.x _ hc.1 hvm.1
  have w2 := velerr mid.y _ hc.2.1 hvm.2.1
  have w3 := velerr mid.z _ hc.2.2 hvm.2.2
  obtain ⟨v1, v2, v3⟩ := vel_le_one qm (P (t + d / 2))
  have hs := abs_sign_le qm
  have hEw' := hEw.symm
  have hBw' := hBw.symm
  generalize 3 * |qm| * ((b + b') / 2 + D * d ^ 2 / 8) + massErr qm (M + del) * d ^ 2 = k at *
  generalize del + L * (a + 3 * |qm| * b * (d / 2) + D * d ^ 2 / 4) = ph at *
  have F1 := force_lip hs hEw'.1 v2 v3 w2 w3 hBw'.2.2 hBw'.2.1 c3 c2
  have F2 := force_lip hs hEw'.2.1 v3 v1 w3 w1 hBw'.1 hBw'.2.2 c1 c3
  have F3 := force_lip hs hEw'.2.2 v1 v2 w1 w2 hBw'.2.1 hBw'.1 c2 c1
  have hv' := vel1_lip qm hq _ _ _ hp'
  refine ⟨⟨?_, ?_, ?_⟩, ⟨?_, ?_, ?_⟩⟩
  · exact mom_component (by rw [h1]; ring) hd F1 hp.1 rfl bpx.2.2.1
  · exact mom_component (by rw [h2]; ring) hd F2 hp.2.1 rfl bpy.2.2.1
  · exact mom_component (by rw [h3]; ring) hd F3 hp.2.2 rfl bpz.2.2.1
  · exact pos_component (by rw [hx']) hd hv.1 hv'.1 hx.1 bx.2.2.2
  · exact pos_component (by rw [hx']) hd hv.2.1 hv'.2.1 hx.2.1 by'.2.2.2
  · exact pos_component (by rw [hx']) hd hv.2.2 hv'.2.2 hx.2.2 bz.2.2.2

/-- The largest of the three differences. -/
noncomputable def apart (a b : Vec3) : ℝ := max |a.x - b.x| (max |a.y - b.y| |a.z - b.z|)

theorem within_apart (a b : Vec3) : Within a b (apart a b) :=
  ⟨le_max_left _ _, le_max_of_le_right (le_max_left _ _), le_max_of_le_right (le_max_right _ _)⟩

theorem apart_le {a b : Vec3} {e : ℝ} (h : Within a b e) : apart a b ≤ e := max_le h.1 (max_le h.2.1 h.2.2)

/-- From the implicit inequality of one step to an explicit one. -/
theorem implicit_step {q M L D d del e b' ka ka' : ℝ} (hq : 0 ≤ q) (hM : 0 ≤ M) (hL : 0 ≤ L) (hD : 0 ≤ D) (hd : 0 ≤ d) (hdel : 0 ≤ del) (he : 0 ≤ e) (hka : 0 ≤ ka)
    (s1 : 6 * q * (M + del) * d ≤ 1) (s2 : q * d ≤ 1)
    (hka' : ka' = 3 * (3 * L * D / 4 + 2 * (M + del) * (3 * q * D / 8 + ka) + D / 24) + D / 12)
    (h : b' ≤ e + d * (3 * (del + L * (e + 3 * q * e * (d / 2) + D * d ^ 2 / 4)) + 2 * (M + del) * (3 * q * ((e + b') / 2 + D * d ^ 2 / 8) + ka * d ^ 2)) + D * d ^ 3 / 24) :
    b' ≤ e * (1 + (3 * q + 3 / 2 * (12 * q * (M + del) + 15 * L)) * d) + d * (9 * del + d ^ 2 * ka') ∧
    e + d * ((3 * q * e + 3 * q * b') / 2) + D * d ^ 3 / 12 ≤ e * (1 + (3 * q + 3 / 2 * (12 * q * (M + del) + 15 * L)) * d) + d * (9 * del + d ^ 2 * ka') := by
  obtain ⟨rho, hrho⟩ : ∃ rho, rho = 3 * del + d ^ 2 * (3 * L * D / 4 + 2 * (M + del) * (3 * q * D / 8 + ka) + D / 24) := ⟨_, rfl⟩
  obtain ⟨th, hth⟩ : ∃ th, th = 3 * q * (M + del) * d := ⟨_, rfl⟩
  have hMd : 0 ≤ M + del := by linarith
  have hrho0 : 0 ≤ rho := by rw [hrho]; positivity
  have hth0 : 0 ≤ th := by rw [hth]; positivity
  have hth1 : th ≤ 1 / 2 := by rw [hth]; linarith
  have hA1 : 0 ≤ 12 * q * (M + del) + 15 * L := by positivity
  -- explicit bound for the momentum
  have hqd : 0 ≤ q * d := mul_nonneg hq hd
  have i1 : b' * (1 - th) ≤ e * (1 + th) + d * (15 / 2 * L * e) + d * rho := by
    have k1 : d * (3 * L * (3 * q * e * (d / 2))) ≤ d * (9 / 2 * L * e) := by
      have : 3 * L * (3 * q * e * (d / 2)) = 9 / 2 * L * e * (q * d) := by ring
      rw [this]
      have : 9 / 2 * L * e * (q * d) ≤ 9 / 2 * L * e * 1 := mul_le_mul_of_nonneg_left s2 (by positivity)
      exact mul_le_mul_of_nonneg_left (by linarith) hd
    have k2 : e + d * (3 * (del + L * (e + 3 * q * e * (d / 2) + D * d ^ 2 / 4)) + 2 * (M + del) * (3 * q * ((e + b') / 2 + D * d ^ 2 / 8) + ka * d ^ 2)) + D * d ^ 3 / 24 =
        e + th * e + th * b' + d * (3 * L * e) + d * (3 * L * (3 * q * e * (d / 2))) + d * rho := by
      rw [hrho, hth]; ring
    rw [k2] at h
    linarith
  have i2 : b' ≤ e * (1 + (12 * q * (M + del) + 15 * L) * d) + 2 * (d * rho) := by
    have p1 : 0 < 1 - th := by linarith
    have p2 : e * (1 + th) ≤ e * ((1 + 4 * th) * (1 - th)) := mul_le_mul_of_nonneg_left (by nlinarith) he
    have p3 : d * (15 / 2 * L * e) + d * rho ≤ 2 * (d * (15 / 2 * L * e) + d * rho) * (1 - th) := by
      have : 0 ≤ d * (15 / 2 * L * e) + d * rho := by positivity
      nlinarith
    have p4 : b' * (1 - th) ≤ (e * (1 + 4 * th) + 2 * (d * (15 / 2 * L * e) + d * rho)) * (1 - th) := by nlinarith
    have p5 := le_of_mul_le_mul_right p4 p1
    have p6 : e * (1 + 4 * th) + 2 * (d * (15 / 2 * L * e) + d * rho) = e * (1 + (12 * q * (M + del) + 15 * L) * d) + 2 * (d * rho) := by rw [hth]; ring
    linarith
  generalize 12 * q * (M + del) + 15 * L = A1 at *
  have hfin : 9 * del + d ^ 2 * ka' = 3 * rho + D * d ^ 2 / 12 := by rw [hrho, hka']; ring
  rw [hfin]
  have g1 : 0 ≤ e * (A1 * d) := by positivity
  have g2 : 0 ≤ e * (q * d) := by positivity
  have g3 : 0 ≤ d * rho := by positivity
  have g4 : 0 ≤ d * (D * d ^ 2) := by positivity
  constructor
  · have e1 : e * (1 + (3 * q + 3 / 2 * A1) * d) + d * (3 * rho + D * d ^ 2 / 12) = e * (1 + A1 * d) + 2 * (d * rho) + (3 * (e * (q * d)) + 1 / 2 * (e * (A1 * d)) + d * rho + d * (D * d ^ 2) / 12) := by ring
    linarith
  · have k1 : q * d * b' ≤ q * d * (e * (1 + A1 * d) + 2 * (d * rho)) := mul_le_mul_of_nonneg_left i2 hqd
    have k2 : q * d * (e * (A1 * d) + 2 * (d * rho)) ≤ 1 * (e * (A1 * d) + 2 * (d * rho)) := mul_le_mul_of_nonneg_right s2 (by positivity)
    have e1 : e * (1 + (3 * q + 3 / 2 * A1) * d) + d * (3 * rho + D * d ^ 2 / 12) = e + 3 * (e * (q * d)) + 3 / 2 * (e * (A1 * d)) + 3 * (d * rho) + d * (D * d ^ 2) / 12 := by ring
    have e2 : e + d * ((3 * q * e + 3 * q * b') / 2) + D * d ^ 3 / 12 = e + 3 / 2 * (e * (q * d)) + 3 / 2 * (q * d * b') + d * (D * d ^ 2) / 12 := by ring
    rw [e1, e2]
    have e3 : q * d * (e * (1 + A1 * d) + 2 * (d * rho)) = e * (q * d) + q * d * (e * (A1 * d) + 2 * (d * rho)) := by ring
    linarith

theorem PushedG.keeps {c : BCfg} (hN : c.N % 2 = 1) (hh : 0 < c.h) (hR : lostRadius c ≤ c.h * (c.N / 2 - 2)) (hpos : 0 ≤ lostRadius c) {E B : ℝ → Vec3 → Vec3} {del : ℝ} {n : ℕ} {r : ℕ → Row ℝ}
    (hq : (r 0).qm ≠ 0) (h : PushedG c E B del n r) : ∀ k ≤ n, (r k).dt = (r 0).dt ∧ (r k).qm = (r 0).qm := by
  intro k
  induction k with
  | zero => intro _; exact ⟨rfl, rfl⟩
  | succ k ih =>
    intro hk
    obtain ⟨idx, F0, F1, ht, -⟩ := h k hk
    obtain ⟨i1, i2⟩ := ih (Nat.le_of_succ_le hk)
    obtain ⟨w, e, m, mid, v, v', g, -, -, -, -, -, -, -, -, -, -, -, -, -, -, -, h1, -, h2, -⟩ := gpu_push_step c hN hh hR hpos idx F0 F1 _ _ (by rw [i2]; exact hq) false (Or.inl ⟨rfl, ht⟩)
    exact ⟨h2.trans i1, h1.trans i2⟩

/-- C68: for every particle (of any mass) and any number of substeps the trajectory computed by the GPU kernel stays within
`e^(A t) e0 + (e^(A t) - 1)/A (9 del + dt^2 K)` of the solution of the equations of motion: second order in the substep. Two conditions say that the substep is not
larger than the time in which the particle is turned or accelerated. -/
theorem gpu_converges (c : BCfg) (hN : c.N % 2 = 1) (hh : 0 < c.h) (hR : lostRadius c ≤ c.h * (c.N / 2 - 2)) (hpos : 0 ≤ lostRadius c)
    {M L T D del e0 : ℝ} {E B : ℝ → Vec3 → Vec3} {X P : ℝ → Vec3} (n : ℕ) (r : ℕ → Row ℝ) (hq : (r 0).qm ≠ 0)
    (hm : SmoothMotion (r 0).qm E B T D X P) (hE : Tame M L E) (hB : Tame M L B) (hL : 0 ≤ L) (hD : 0 ≤ D) (hdel : 0 ≤ del) (hdt : 0 ≤ (r 0).dt) (hT : n * (r 0).dt ≤ T)
    (s1 : 6 * |(r 0).qm| * (M + del) * (r 0).dt ≤ 1) (s2 : |(r 0).qm| * (r 0).dt ≤ 1)
    (hr : PushedG c E B del n r) (hx : Within (posOf (r 0)) (X 0) e0) (hp : Within (momOf (r 0)) (P 0) e0) (k : ℕ) (hk : k ≤ n) :
    ∃ A K err, A = 3 * |(r 0).qm| + 3 / 2 * (12 * |(r 0).qm| * (M + del) + 15 * L) ∧
      K = 3 * (3 * L * D / 4 + 2 * (M + del) * (3 * |(r 0).qm| * D / 8 + massErr (r 0).qm (M + del)) + D / 24) + D / 12 ∧
      err = Real.exp (A * (k * (r 0).dt)) * e0 + (Real.exp (A * (k * (r 0).dt)) - 1) / A * (9 * del + (r 0).dt ^ 2 * K) ∧
      Within (posOf (r k)) (X (k * (r 0).dt)) err ∧ Within (momOf (r k)) (P (k * (r 0).dt)) err := by
  refine ⟨_, _, _, rfl, rfl, rfl, ?_⟩
  have hqa : 0 < |(r 0).qm| := abs_pos.mpr hq
  have hM : 0 ≤ M := le_trans (abs_nonneg _) (hE.bounded 0 (X 0)).1
  have he0 := hx.nonneg
  have hme := massErr_nonneg (r 0).qm (M + del)
  obtain ⟨A, hA⟩ : ∃ A, A = 3 * |(r 0).qm| + 3 / 2 * (12 * |(r 0).qm| * (M + del) + 15 * L) := ⟨_, rfl⟩
  obtain ⟨K, hK⟩ : ∃ K, K = 3 * (3 * L * D / 4 + 2 * (M + del) * (3 * |(r 0).qm| * D / 8 + massErr (r 0).qm (M + del)) + D / 24) + D / 12 := ⟨_, rfl⟩
  rw [← hA, ← hK]
  have hApos : 0 < A := by rw [hA]; positivity
  have hKpos : 0 ≤ K := by rw [hK]; positivity
  have hkeep := hr.keeps hN hh hR hpos hq
  induction k with
  | zero => simpa using ⟨hx, hp⟩
  | succ k ih =>
    obtain ⟨ix, ip⟩ := ih (Nat.le_of_succ_le hk)
    obtain ⟨kd, kq⟩ := hkeep k (Nat.le_of_succ_le hk)
    obtain ⟨idx, F0, F1, ht, hfE, hfB⟩ := hr k hk
    obtain ⟨w, e, m, mid, v, v', g, hv, hv', hw, he, hmm, hmid, hg, h1, h2, h3, -, hfac, x1, x2, x3, -⟩ := gpu_push_step c hN hh hR hpos idx F0 F1 _ _ (by rw [kq]; exact hq) false (Or.inl ⟨rfl, ht⟩)
    obtain ⟨-, kq'⟩ := hkeep (k + 1) hk
    subst hv hv'
    have hww : halfPos (r k) = w := by rw [hw]; rfl
    rw [hww, ← he] at hfE
    rw [hww, ← hmm] at hfB
    rw [kd, kq] at hw hfac h1 h2 h3 x1 x2 x3
    have hk1 : ((k + 1 : ℕ) : ℝ) ≤ n := by exact_mod_cast hk
    have htT : (k : ℝ) * (r 0).dt + (r 0).dt ≤ T := by
      have := mul_le_mul_of_nonneg_right hk1 hdt
      push_cast at this
      linarith
    have hstep := gpu_step_error hq hm hE hB (t := k * (r 0).dt) (d := (r 0).dt) (del := del) (by positivity) hdt htT (posOf (r k)) (momOf (r k)) (posOf (r (k + 1))) (momOf (r (k + 1))) w e m mid g hg ix ip
      (within_apart _ _) hw hfE hfB hmid hfac h1 h2 h3
      (by simp only [posOf, vel1, momOf, Vec3.mk.injEq]; exact ⟨x1, x2, by rw [x3]; ring⟩)
    have et : ((k + 1 : ℕ) : ℝ) * (r 0).dt = k * (r 0).dt + (r 0).dt := by push_cast; ring
    have hg' := gronwall_step A (9 * del + (r 0).dt ^ 2 * K) (r 0).dt e0 hApos (by positivity) hdt he0 k
    have hmono := ix.nonneg
    generalize Real.exp (A * ((k + 1 : ℕ) * (r 0).dt)) * e0 + (Real.exp (A * ((k + 1 : ℕ) * (r 0).dt)) - 1) / A * (9 * del + (r 0).dt ^ 2 * K) = err' at hg' ⊢
    generalize Real.exp (A * (k * (r 0).dt)) * e0 + (Real.exp (A * (k * (r 0).dt)) - 1) / A * (9 * del + (r 0).dt ^ 2 * K) = err at hg' hstep hmono
    rw [et]
    obtain ⟨t1, t2⟩ := hstep
    obtain ⟨i1, i2⟩ := implicit_step hqa.le hM hL hD hdt hdel hmono hme s1 s2 hK (apart_le t1)
    rw [← hA] at i1 i2
    have e1 : err * (1 + A * (r 0).dt) + (r 0).dt * (9 * del + (r 0).dt ^ 2 * K) ≤ err' := hg'
    exact ⟨t2.mono (i2.trans e1), (within_apart _ _).mono (i1.trans e1)⟩

/-- Where a completed substep reads the fields: inside the loss radius and not behind the layer. -/
theorem nextG_half (c : BCfg) (idx : ℤ) (F0 F1 : Fields3) (r r' : Row ℝ) (h : turnG c idx F0 F1 r = .next r') :
    (halfPos r).x ^ 2 + (halfPos r).y ^ 2 < lostRadius c ^ 2 ∧ -((idx + 1) * c.dxi) ≤ (halfPos r).z := by
  have e : halfG r = halfPos r := halfG_eq r
  unfold turnG at h
  simp only [e] at h
  split_ifs at h with h1 h2 h3
  push Not at h1 h2
  exact ⟨by nlinarith, by linarith⟩

/-- C68: the GPU kernel with arrays that sample the fields: second order in the substep, first order in the grid steps (and in the time the fields are kept). -/
theorem gpu_converges_sampled (c : BCfg) (hN : c.N % 2 = 1) (hh : 0 < c.h) (hd : 0 < c.dxi) (hR : lostRadius c ≤ c.h * (c.N / 2 - 2)) (hpos : 0 ≤ lostRadius c)
    {M L T D Ds lag e0 : ℝ} {E B : ℝ → Vec3 → Vec3} {X P : ℝ → Vec3} (n : ℕ) (r : ℕ → Row ℝ) (hq : (r 0).qm ≠ 0)
    (hm : SmoothMotion (r 0).qm E B T D X P) (hE : Tame M L E) (hB : Tame M L B) (hsE : Slow Ds E) (hsB : Slow Ds B) (hL : 0 ≤ L) (hD : 0 ≤ D) (hDs : 0 ≤ Ds) (hlag : 0 ≤ lag) (hdt : 0 ≤ (r 0).dt) (hT : n * (r 0).dt ≤ T)
    (s1 : 6 * |(r 0).qm| * (M + (3 * (L * (5 / 2 * c.h + c.dxi)) + Ds * lag)) * (r 0).dt ≤ 1) (s2 : |(r 0).qm| * (r 0).dt ≤ 1)
    (hr : PushedGS c E B lag n r) (hx : Within (posOf (r 0)) (X 0) e0) (hp : Within (momOf (r 0)) (P 0) e0) (k : ℕ) (hk : k ≤ n) :
    ∃ A K del err, del = 3 * (L * (5 / 2 * c.h + c.dxi)) + Ds * lag ∧ A = 3 * |(r 0).qm| + 3 / 2 * (12 * |(r 0).qm| * (M + del) + 15 * L) ∧
      K = 3 * (3 * L * D / 4 + 2 * (M + del) * (3 * |(r 0).qm| * D / 8 + massErr (r 0).qm (M + del)) + D / 24) + D / 12 ∧
      err = Real.exp (A * (k * (r 0).dt)) * e0 + (Real.exp (A * (k * (r 0).dt)) - 1) / A * (9 * del + (r 0).dt ^ 2 * K) ∧
      Within (posOf (r k)) (X (k * (r 0).dt)) err ∧ Within (momOf (r k)) (P (k * (r 0).dt)) err := by
  have hg : PushedG c E B (3 * (L * (5 / 2 * c.h + c.dxi)) + Ds * lag) n r := by
    intro k hk
    obtain ⟨idx, F0, F1, s, ht, hz', f0, f1, hl⟩ := hr k hk
    obtain ⟨hin, hz⟩ := nextG_half c idx F0 F1 _ _ ht
    have hx : |(halfPos (r k)).x| < c.h * (c.N / 2 - 2) := lt_of_lt_of_le (abs_lt_of_sq_lt_sq (by nlinarith [sq_nonneg (halfPos (r k)).y]) hpos) hR
    have hy : |(halfPos (r k)).y| < c.h * (c.N / 2 - 2) := lt_of_lt_of_le (abs_lt_of_sq_lt_sq (by nlinarith [sq_nonneg (halfPos (r k)).x]) hpos) hR
    obtain ⟨q1, q2⟩ := sampled_error c hN hh hd hE hB s idx F0 F1 f0 f1 (halfPos (r k)) hx hy hz hz'
    rw [abs_sub_comm] at hl
    have hl' := mul_le_mul_of_nonneg_left hl hDs
    exact ⟨idx, F0, F1, ht, (q1.trans (hsE s _ _)).mono (by linarith), (q2.trans (hsB s _ _)).mono (by linarith)⟩
  obtain ⟨A, K, err, h1, h2, h3, h4⟩ := gpu_converges c hN hh hR hpos n r hq hm hE hB hL hD (by positivity) hdt hT s1 s2 hg hx hp k hk
  exact ⟨A, K, _, err, rfl, h1, h2, h3, h4⟩

end Lcode.Beam3D
