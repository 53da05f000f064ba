import Verif.Beam3D.Move
import Mathlib.Analysis.Calculus.MeanValue
import Mathlib.Analysis.SpecialFunctions.Exp

/-!
Property C68: the trajectories of the 3D beam pusher (lcode/beam3d/move.py, CPU kernel) converge to the solution of the equations of motion.
The model of the kernel is Verif/Beam3D/Move.lean; this file only adds the equations of motion (specification) and proofs.
-/

namespace Lcode.Beam3D

open Lcode.Plasma3D (stencil interpolate Fields3 nodeOf cell_inside stencil_inside Vec3 places cellOf localOf weight4)

/-! ### Specification -/

/-- Two vectors differ by at most `e` in each component. -/
def Within (a b : Vec3) (e : ℝ) : Prop := |a.x - b.x| ≤ e ∧ |a.y - b.y| ≤ e ∧ |a.z - b.z| ≤ e

/-- The Lorentz force on a particle of charge-to-mass ratio `qm` (charge +1 or -1) with momentum `p` in fields `E`, `B`. -/
noncomputable def lorentz (qm : ℝ) (E B p : Vec3) : Vec3 :=
  ⟨SignType.sign qm * (E.x + ((vel qm p).y * B.z - (vel qm p).z * B.y)),
   SignType.sign qm * (E.y + ((vel qm p).z * B.x - (vel qm p).x * B.z)),
   SignType.sign qm * (E.z + ((vel qm p).x * B.y - (vel qm p).y * B.x))⟩

/-- `X` (x, y, xi) and `P` solve the relativistic equations of motion in the fields `E t w`, `B t w` for times in [0, T]; `xi = z - t`. -/
structure Motion (qm : ℝ) (E B : ℝ → Vec3 → Vec3) (T : ℝ) (X P : ℝ → Vec3) : Prop where
  dx : ∀ t ∈ Set.Icc 0 T, HasDerivWithinAt (fun t => (X t).x) (vel qm (P t)).x (Set.Icc 0 T) t
  dy : ∀ t ∈ Set.Icc 0 T, HasDerivWithinAt (fun t => (X t).y) (vel qm (P t)).y (Set.Icc 0 T) t
  dz : ∀ t ∈ Set.Icc 0 T, HasDerivWithinAt (fun t => (X t).z) ((vel qm (P t)).z - 1) (Set.Icc 0 T) t
  dpx : ∀ t ∈ Set.Icc 0 T, HasDerivWithinAt (fun t => (P t).x) (lorentz qm (E t (X t)) (B t (X t)) (P t)).x (Set.Icc 0 T) t
  dpy : ∀ t ∈ Set.Icc 0 T, HasDerivWithinAt (fun t => (P t).y) (lorentz qm (E t (X t)) (B t (X t)) (P t)).y (Set.Icc 0 T) t
  dpz : ∀ t ∈ Set.Icc 0 T, HasDerivWithinAt (fun t => (P t).z) (lorentz qm (E t (X t)) (B t (X t)) (P t)).z (Set.Icc 0 T) t

/-- A field whose components are bounded by `M` and change by at most `L e` between points whose coordinates differ by at most `e`. -/
structure Tame (M L : ℝ) (E : ℝ → Vec3 → Vec3) : Prop where
  bounded : ∀ t w, |(E t w).x| ≤ M ∧ |(E t w).y| ≤ M ∧ |(E t w).z| ≤ M
  lipschitz : ∀ t a b e, Within a b e → Within (E t a) (E t b) (L * e)

/-- Position and momentum of a row. -/
def posOf (r : Row ℝ) : Vec3 := ⟨r.x, r.y, r.xi⟩
def momOf (r : Row ℝ) : Vec3 := ⟨r.px, r.py, r.pz⟩

/-! ### Elementary bounds -/

theorem Within.nonneg {a b : Vec3} {e : ℝ} (h : Within a b e) : 0 ≤ e := le_trans (abs_nonneg _) h.1

theorem Within.mono {a b : Vec3} {e f : ℝ} (h : Within a b e) (hf : e ≤ f) : Within a b f := ⟨h.1.trans hf, h.2.1.trans hf, h.2.2.trans hf⟩

theorem Within.symm {a b : Vec3} {e : ℝ} (h : Within a b e) : Within b a e := by
  refine ⟨?_, ?_, ?_⟩ <;> rw [abs_sub_comm]
  exacts [h.1, h.2.1, h.2.2]

theorem Within.trans {a b d : Vec3} {e f : ℝ} (h : Within a b e) (h' : Within b d f) : Within a d (e + f) := by
  refine ⟨?_, ?_, ?_⟩
  · exact (abs_sub_le _ b.x _).trans (add_le_add h.1 h'.1)
  · exact (abs_sub_le _ b.y _).trans (add_le_add h.2.1 h'.2.1)
  · exact (abs_sub_le _ b.z _).trans (add_le_add h.2.2 h'.2.2)

theorem Within.rfl' (a : Vec3) : Within a a 0 := by simp [Within]

theorem gammaM_pos (qm : ℝ) (hq : qm ≠ 0) (p : Vec3) : 1 / |qm| ≤ gammaM qm p ∧ 0 < gammaM qm p := by
  have h1 : 1 / |qm| ≤ gammaM qm p := by
    unfold gammaM
    refine Real.le_sqrt_of_sq_le ?_
    rw [div_pow, div_pow, sq_abs]
    nlinarith [sq_nonneg p.x, sq_nonneg p.y, sq_nonneg p.z]
  have h2 : 0 < 1 / |qm| := by positivity
  exact ⟨h1, lt_of_lt_of_le h2 h1⟩

theorem gammaM_sq (qm : ℝ) (p : Vec3) : gammaM qm p ^ 2 = (1 / qm) ^ 2 + p.x ^ 2 + p.y ^ 2 + p.z ^ 2 := Real.sq_sqrt (by positivity)

theorem gammaM_nonneg (qm : ℝ) (p : Vec3) : 0 ≤ gammaM qm p := Real.sqrt_nonneg _

theorem comp_le_gamma (qm : ℝ) (p : Vec3) : |p.x| ≤ gammaM qm p ∧ |p.y| ≤ gammaM qm p ∧ |p.z| ≤ gammaM qm p := by
  refine ⟨?_, ?_, ?_⟩ <;> refine Real.abs_le_sqrt ?_ <;> nlinarith [sq_nonneg p.x, sq_nonneg p.y, sq_nonneg p.z, sq_nonneg (1 / qm)]

theorem vel_eq (qm : ℝ) (p : Vec3) : vel qm p = ⟨p.x / gammaM qm p, p.y / gammaM qm p, p.z / gammaM qm p⟩ := rfl

theorem frac_le_one {a g : ℝ} (h : |a| ≤ g) : |a / g| ≤ 1 := by
  rw [abs_div]
  exact div_le_one_of_le₀ (h.trans (le_abs_self g)) (abs_nonneg g)

/-- No component of the velocity exceeds the velocity of light. -/
theorem vel_le_one (qm : ℝ) (p : Vec3) : |(vel qm p).x| ≤ 1 ∧ |(vel qm p).y| ≤ 1 ∧ |(vel qm p).z| ≤ 1 := by
  obtain ⟨h1, h2, h3⟩ := comp_le_gamma qm p
  exact ⟨frac_le_one h1, frac_le_one h2, frac_le_one h3⟩

theorem gammaM_lip_le (qm : ℝ) (a b : Vec3) (e : ℝ) (h : Within a b e) : gammaM qm a ≤ gammaM qm b + 2 * e := by
  have he := h.nonneg
  have hg := gammaM_nonneg qm b
  have hsq := gammaM_sq qm b
  have hsum : |b.x| + |b.y| + |b.z| ≤ 2 * gammaM qm b := by
    refine le_of_sq_le_sq ?_ (by linarith)
    have e1 : |b.x| ^ 2 = b.x ^ 2 := sq_abs _
    have e2 : |b.y| ^ 2 = b.y ^ 2 := sq_abs _
    have e3 : |b.z| ^ 2 = b.z ^ 2 := sq_abs _
    nlinarith [sq_nonneg (|b.x| - |b.y|), sq_nonneg (|b.x| - |b.z|), sq_nonneg (|b.y| - |b.z|), sq_nonneg (1 / qm), sq_nonneg b.x, sq_nonneg b.y, sq_nonneg b.z]
  show Real.sqrt _ ≤ _
  rw [Real.sqrt_le_left (by linarith)]
  have one : ∀ u v : ℝ, |u - v| ≤ e → u ^ 2 ≤ v ^ 2 + 2 * e * |v| + e ^ 2 := by
    intro u v huv
    have : |u| ≤ |v| + e := by
      have := abs_sub_abs_le_abs_sub u v
      linarith
    have h2 : |u| ^ 2 ≤ (|v| + e) ^ 2 := pow_le_pow_left₀ (abs_nonneg u) this 2
    rw [sq_abs] at h2
    have h3 : |v| ^ 2 = v ^ 2 := sq_abs v
    nlinarith
  have h1 := one _ _ h.1
  have h2 := one _ _ h.2.1
  have h3 := one _ _ h.2.2
  have h4 : 2 * e * (|b.x| + |b.y| + |b.z|) ≤ 2 * e * (2 * gammaM qm b) := mul_le_mul_of_nonneg_left hsum (by linarith)
  nlinarith [sq_nonneg e]

theorem gammaM_lip (qm : ℝ) (a b : Vec3) (e : ℝ) (h : Within a b e) : |gammaM qm a - gammaM qm b| ≤ 2 * e := by
  rw [abs_sub_le_iff]
  have h1 := gammaM_lip_le qm a b e h
  have h2 := gammaM_lip_le qm b a e h.symm
  constructor <;> linarith

theorem quot_lip {a b g g' e m : ℝ} (hm : 0 < m) (hg : m ≤ g) (hg' : 0 < g') (hab : |a - b| ≤ e) (hgg : |g - g'| ≤ 2 * e) (hb : |b| ≤ g') : |a / g - b / g'| ≤ 3 * e / m := by
  have hgp : 0 < g := lt_of_lt_of_le hm hg
  have key : a / g - b / g' = ((a - b) + b / g' * (g' - g)) / g := by
    field_simp
    ring
  rw [key, abs_div, abs_of_pos hgp]
  have h1 : |a - b + b / g' * (g' - g)| ≤ 3 * e := by
    refine (abs_add_le _ _).trans ?_
    rw [abs_mul]
    have h2 : |b / g'| ≤ 1 := frac_le_one hb
    have h3 : |g' - g| ≤ 2 * e := by rw [abs_sub_comm]; exact hgg
    have h4 : |b / g'| * |g' - g| ≤ 1 * (2 * e) := mul_le_mul h2 h3 (abs_nonneg _) (by norm_num)
    linarith
  have he : 0 ≤ e := le_trans (abs_nonneg _) hab
  calc _ ≤ 3 * e / g := div_le_div_of_nonneg_right h1 hgp.le
    _ ≤ 3 * e / m := div_le_div_of_nonneg_left (by linarith) hm hg

/-- The velocity is a Lipschitz function of the momentum. -/
theorem vel_lip (qm : ℝ) (hq : qm ≠ 0) (a b : Vec3) (e : ℝ) (h : Within a b e) : Within (vel qm a) (vel qm b) (3 * |qm| * e) := by
  have hm : 0 < 1 / |qm| := by positivity
  have hga := (gammaM_pos qm hq a).1
  have hgb := (gammaM_pos qm hq b).2
  have hl := gammaM_lip qm a b e h
  obtain ⟨c1, c2, c3⟩ := comp_le_gamma qm b
  have e1 : 3 * |qm| * e = 3 * e / (1 / |qm|) := by
    rw [div_div_eq_mul_div, div_one]; ring
  rw [e1]
  exact ⟨quot_lip hm hga hgb h.1 hl c1, quot_lip hm hga hgb h.2.1 hl c2, quot_lip hm hga hgb h.2.2 hl c3⟩

theorem abs_sign_le (q : ℝ) : |((SignType.sign q : SignType) : ℝ)| ≤ 1 := by
  rcases lt_trichotomy q 0 with h | h | h
  · simp [h]
  · simp [h]
  · simp [h]

/-- One component of the Lorentz force. -/
theorem force_lip {s e e' u u' w w' b b' c c' d k M : ℝ} (hs : |s| ≤ 1) (he : |e - e'| ≤ d) (hu : |u| ≤ 1) (hw : |w| ≤ 1) (huu : |u - u'| ≤ k) (hww : |w - w'| ≤ k)
    (hb : |b - b'| ≤ d) (hc : |c - c'| ≤ d) (hbM : |b'| ≤ M) (hcM : |c'| ≤ M) :
    |s * (e + (u * b - w * c)) - s * (e' + (u' * b' - w' * c'))| ≤ 3 * d + 2 * M * k := by
  have hd : 0 ≤ d := le_trans (abs_nonneg _) he
  have hk : 0 ≤ k := le_trans (abs_nonneg _) huu
  have hM : 0 ≤ M := le_trans (abs_nonneg _) hbM
  rw [← mul_sub, abs_mul]
  have key : e + (u * b - w * c) - (e' + (u' * b' - w' * c')) = (e - e') + (u * (b - b') + (u - u') * b') - (w * (c - c') + (w - w') * c') := by ring
  have p1 : |u * (b - b') + (u - u') * b'| ≤ d + M * k := by
    refine (abs_add_le _ _).trans ?_
    rw [abs_mul, abs_mul]
    have := mul_le_mul hu hb (abs_nonneg _) (by norm_num : (0 : ℝ) ≤ 1)
    have := mul_le_mul huu hbM (abs_nonneg _) hk
    linarith
  have p2 : |w * (c - c') + (w - w') * c'| ≤ d + M * k := by
    refine (abs_add_le _ _).trans ?_
    rw [abs_mul, abs_mul]
    have := mul_le_mul hw hc (abs_nonneg _) (by norm_num : (0 : ℝ) ≤ 1)
    have := mul_le_mul hww hcM (abs_nonneg _) hk
    linarith
  have p3 : |e + (u * b - w * c) - (e' + (u' * b' - w' * c'))| ≤ 3 * d + 2 * M * k := by
    rw [key]
    refine (abs_sub _ _).trans ?_
    have := abs_add_le (e - e') (u * (b - b') + (u - u') * b')
    linarith
  calc _ ≤ 1 * |e + (u * b - w * c) - (e' + (u' * b' - w' * c'))| := mul_le_mul_of_nonneg_right hs (abs_nonneg _)
    _ ≤ _ := by linarith

/-- The force changes by at most `3 d + 6 |qm| M e` when the fields change by `d` and the momentum by `e`. -/
theorem lorentz_lip (qm : ℝ) (hq : qm ≠ 0) (M : ℝ) (E B p E' B' p' : Vec3) (d e : ℝ) (hE : Within E E' d) (hB : Within B B' d) (hp : Within p p' e)
    (hM : |B'.x| ≤ M ∧ |B'.y| ≤ M ∧ |B'.z| ≤ M) : Within (lorentz qm E B p) (lorentz qm E' B' p') (3 * d + 6 * |qm| * M * e) := by
  have hv := vel_lip qm hq p p' e hp
  obtain ⟨v1, v2, v3⟩ := vel_le_one qm p
  have hs := abs_sign_le qm
  have e1 : 3 * d + 6 * |qm| * M * e = 3 * d + 2 * M * (3 * |qm| * e) := by ring
  rw [e1]
  exact ⟨force_lip hs hE.1 v2 v3 hv.2.1 hv.2.2 hB.2.2 hB.2.1 hM.2.2 hM.2.1,
    force_lip hs hE.2.1 v3 v1 hv.2.2 hv.1 hB.1 hB.2.2 hM.1 hM.2.2,
    force_lip hs hE.2.2 v1 v2 hv.1 hv.2.1 hB.2.1 hB.1 hM.2.1 hM.1⟩

theorem force_bound {s e u w b c M : ℝ} (hs : |s| ≤ 1) (he : |e| ≤ M) (hu : |u| ≤ 1) (hw : |w| ≤ 1) (hb : |b| ≤ M) (hc : |c| ≤ M) : |s * (e + (u * b - w * c))| ≤ 3 * M := by
  have hM : 0 ≤ M := le_trans (abs_nonneg _) he
  rw [abs_mul]
  have p1 : |u * b| ≤ M := by
    rw [abs_mul]
    have := mul_le_mul hu hb (abs_nonneg _) (by norm_num : (0 : ℝ) ≤ 1)
    linarith
  have p2 : |w * c| ≤ M := by
    rw [abs_mul]
    have := mul_le_mul hw hc (abs_nonneg _) (by norm_num : (0 : ℝ) ≤ 1)
    linarith
  have p3 : |e + (u * b - w * c)| ≤ 3 * M := by
    refine (abs_add_le _ _).trans ?_
    have := abs_sub (u * b) (w * c)
    linarith
  calc _ ≤ 1 * |e + (u * b - w * c)| := mul_le_mul_of_nonneg_right hs (abs_nonneg _)
    _ ≤ _ := by linarith

/-- The force is bounded by three times the fields. -/
theorem lorentz_bound (qm M : ℝ) (E B p : Vec3) (hE : |E.x| ≤ M ∧ |E.y| ≤ M ∧ |E.z| ≤ M) (hB : |B.x| ≤ M ∧ |B.y| ≤ M ∧ |B.z| ≤ M) :
    |(lorentz qm E B p).x| ≤ 3 * M ∧ |(lorentz qm E B p).y| ≤ 3 * M ∧ |(lorentz qm E B p).z| ≤ 3 * M := by
  obtain ⟨v1, v2, v3⟩ := vel_le_one qm p
  have hs := abs_sign_le qm
  exact ⟨force_bound hs hE.1 v2 v3 hB.2.2 hB.2.1, force_bound hs hE.2.1 v3 v1 hB.1 hB.2.2, force_bound hs hE.2.2 v1 v2 hB.2.1 hB.1⟩

/-! ### One substep -/

/-- If the derivative of `f` stays within `R` of `k` on [t, u] then `f u - f t` stays within `R (u - t)` of `k (u - t)`. -/
theorem near_linear {f f' : ℝ → ℝ} {T t u k R : ℝ} (h0 : 0 ≤ t) (htu : t ≤ u) (hT : u ≤ T)
    (hf : ∀ s ∈ Set.Icc 0 T, HasDerivWithinAt f (f' s) (Set.Icc 0 T) s) (hR : ∀ s ∈ Set.Icc t u, |f' s - k| ≤ R) : |f u - f t - k * (u - t)| ≤ R * (u - t) := by
  have hsub : Set.Icc t u ⊆ Set.Icc 0 T := fun s hs => ⟨h0.trans hs.1, hs.2.trans hT⟩
  have hd : ∀ s ∈ Set.Icc t u, HasDerivWithinAt (fun s => f s - k * (s - t)) (f' s - k) (Set.Icc t u) s := by
    intro s hs
    have h1 := (hf s (hsub hs)).mono hsub
    have h2 : HasDerivWithinAt (fun s => k * (s - t)) k (Set.Icc t u) s := by
      have := (((hasDerivAt_id s).sub_const t).const_mul k).hasDerivWithinAt (s := Set.Icc t u)
      exact this.congr_deriv (by ring)
    exact h1.sub h2
  have := norm_image_sub_le_of_norm_deriv_le_segment' hd (fun s hs => hR s ⟨hs.1, hs.2.le⟩) u (Set.right_mem_Icc.mpr htu)
  rw [Real.norm_eq_abs] at this
  have e : f u - k * (u - t) - (f t - k * (t - t)) = f u - f t - k * (u - t) := by ring
  rw [e] at this
  exact this

theorem drift {f f' : ℝ → ℝ} {T t u R : ℝ} (h0 : 0 ≤ t) (htu : t ≤ u) (hT : u ≤ T)
    (hf : ∀ s ∈ Set.Icc 0 T, HasDerivWithinAt f (f' s) (Set.Icc 0 T) s) (hR : ∀ s ∈ Set.Icc t u, |f' s| ≤ R) : |f u - f t| ≤ R * (u - t) := by
  have := near_linear (k := 0) h0 htu hT hf (fun s hs => by rw [sub_zero]; exact hR s hs)
  rwa [zero_mul, sub_zero] at this

/-- During a time `u - t` the particle moves by at most `2 (u - t)` along each axis and its momentum changes by at most `3 M (u - t)`. -/
theorem Motion.drift {qm M L T : ℝ} {E B : ℝ → Vec3 → Vec3} {X P : ℝ → Vec3} (hm : Motion qm E B T X P) (hE : Tame M L E) (hB : Tame M L B) {t u : ℝ} (h0 : 0 ≤ t) (htu : t ≤ u) (hT : u ≤ T) :
    Within (X u) (X t) (2 * (u - t)) ∧ Within (P u) (P t) (3 * M * (u - t)) := by
  have hF : ∀ s, _ := fun s => lorentz_bound qm M (E s (X s)) (B s (X s)) (P s) (hE.bounded s (X s)) (hB.bounded s (X s))
  have hv : ∀ s, _ := fun s => vel_le_one qm (P s)
  refine ⟨⟨?_, ?_, ?_⟩, ⟨?_, ?_, ?_⟩⟩
  · exact Beam3D.drift h0 htu hT hm.dx (fun s _ => (hv s).1.trans (by norm_num))
  · exact Beam3D.drift h0 htu hT hm.dy (fun s _ => (hv s).2.1.trans (by norm_num))
  · refine Beam3D.drift h0 htu hT hm.dz (fun s _ => ?_)
    have := (hv s).2.2
    rw [abs_le] at this ⊢
    constructor <;> linarith
  · exact Beam3D.drift h0 htu hT hm.dpx (fun s _ => (hF s).1)
  · exact Beam3D.drift h0 htu hT hm.dpy (fun s _ => (hF s).2.1)
  · exact Beam3D.drift h0 htu hT hm.dpz (fun s _ => (hF s).2.2)

/-- `x + d v` -/
def shift3 (x : Vec3) (d : ℝ) (v : Vec3) : Vec3 := ⟨x.x + d * v.x, x.y + d * v.y, x.z + d * v.z⟩

theorem within_shift (x v : Vec3) (d V : ℝ) (hd : 0 ≤ d) (hv : |v.x| ≤ V ∧ |v.y| ≤ V ∧ |v.z| ≤ V) : Within (shift3 x d v) x (V * d) := by
  have one : ∀ a b : ℝ, |b| ≤ V → |a + d * b - a| ≤ V * d := by
    intro a b hb
    rw [add_sub_cancel_left, abs_mul, abs_of_nonneg hd, mul_comm]
    exact mul_le_mul_of_nonneg_right hb hd
  exact ⟨one _ _ hv.1, one _ _ hv.2.1, one _ _ hv.2.2⟩

/-- Velocity in the frame (x, y, xi). -/
noncomputable def vel1 (qm : ℝ) (p : Vec3) : Vec3 := ⟨(vel qm p).x, (vel qm p).y, (vel qm p).z - 1⟩

theorem vel1_le (qm : ℝ) (p : Vec3) : |(vel1 qm p).x| ≤ 2 ∧ |(vel1 qm p).y| ≤ 2 ∧ |(vel1 qm p).z| ≤ 2 := by
  obtain ⟨h1, h2, h3⟩ := vel_le_one qm p
  refine ⟨h1.trans (by norm_num), h2.trans (by norm_num), ?_⟩
  show |(vel qm p).z - 1| ≤ 2
  rw [abs_le] at h3 ⊢
  constructor <;> linarith

theorem vel1_lip (qm : ℝ) (hq : qm ≠ 0) (a b : Vec3) (e : ℝ) (h : Within a b e) : Within (vel1 qm a) (vel1 qm b) (3 * |qm| * e) := by
  obtain ⟨h1, h2, h3⟩ := vel_lip qm hq a b e h
  refine ⟨h1, h2, ?_⟩
  show |(vel qm a).z - 1 - ((vel qm b).z - 1)| ≤ _
  rwa [sub_sub_sub_cancel_right]

/-- One component of a step: the numerical value moves by `k dt`, the exact one with a derivative within `R` of `k`. -/
theorem step_component {f f' : ℝ → ℝ} {T t d k R a e : ℝ} (h0 : 0 ≤ t) (hd : 0 ≤ d) (hT : t + d ≤ T)
    (hf : ∀ s ∈ Set.Icc 0 T, HasDerivWithinAt f (f' s) (Set.Icc 0 T) s) (hR : ∀ s ∈ Set.Icc t (t + d), |f' s - k| ≤ R) (ha : |a - f t| ≤ e) :
    |a + d * k - f (t + d)| ≤ e + d * R := by
  have h := near_linear (k := k) (R := R) h0 (by linarith) hT hf hR
  rw [add_sub_cancel_left] at h
  have e1 : a + d * k - f (t + d) = (a - f t) - (f (t + d) - f t - k * d) := by ring
  rw [e1]
  refine (abs_sub _ _).trans ?_
  linarith

/-- One substep: the errors `a` of the position and `b` of the momentum after a step of size `d` with field error `del`. -/
theorem cpu_step_error {qm M L T : ℝ} {E B : ℝ → Vec3 → Vec3} {X P : ℝ → Vec3} (hq : qm ≠ 0) (hm : Motion qm E B T X P) (hE : Tame M L E) (hB : Tame M L B) (hL : 0 ≤ L) {t d del a b : ℝ}
    (h0 : 0 ≤ t) (hd : 0 ≤ d) (hT : t + d ≤ T) (x p e m : Vec3)
    (hx : Within x (X t) a) (hp : Within p (P t) b)
    (he : ∀ s ∈ Set.Icc t (t + d), Within e (E s (shift3 x (d / 2) (vel1 qm p))) del) (hmm : ∀ s ∈ Set.Icc t (t + d), Within m (B s (shift3 x (d / 2) (vel1 qm p))) del) :
    Within (shift3 p d (lorentz qm e m p)) (P (t + d)) (b + d * (3 * del + 3 * L * (a + 3 * d) + 6 * |qm| * M * (b + 3 * M * d))) ∧
    Within (shift3 x d (vel1 qm (shift3 p (d / 2) (lorentz qm e m p)))) (X (t + d)) (a + d * (3 * |qm| * (b + 9 / 2 * M * d + 3 / 2 * del * d))) := by
  have hdr : ∀ s ∈ Set.Icc t (t + d), Within (X s) (X t) (2 * d) ∧ Within (P s) (P t) (3 * M * d) := by
    intro s hs
    obtain ⟨h1, h2⟩ := hm.drift hE hB h0 hs.1 (hs.2.trans hT)
    have hM : 0 ≤ M := le_trans (abs_nonneg _) (hE.bounded 0 x).1
    have : s - t ≤ d := by linarith [hs.2]
    exact ⟨h1.mono (by linarith), h2.mono (by nlinarith)⟩
  have hM : 0 ≤ M := le_trans (abs_nonneg _) (hE.bounded 0 x).1
  have ht : t ∈ Set.Icc t (t + d) := ⟨le_refl _, by linarith⟩
  have hdel : 0 ≤ del := (he t ht).nonneg
  have hq0 : 0 ≤ |qm| := abs_nonneg _
  -- the half-step position
  have hw : ∀ s ∈ Set.Icc t (t + d), Within (shift3 x (d / 2) (vel1 qm p)) (X s) (a + 3 * d) := by
    intro s hs
    have h1 := within_shift x (vel1 qm p) (d / 2) 2 (by linarith) (vel1_le qm p)
    exact ((h1.trans hx).trans (hdr s hs).1.symm).mono (by linarith)
  have hpp : ∀ s ∈ Set.Icc t (t + d), Within p (P s) (b + 3 * M * d) := fun s hs => hp.trans (hdr s hs).2.symm
  have hF : ∀ s ∈ Set.Icc t (t + d), Within (lorentz qm (E s (X s)) (B s (X s)) (P s)) (lorentz qm e m p) (3 * del + 3 * L * (a + 3 * d) + 6 * |qm| * M * (b + 3 * M * d)) := by
    intro s hs
    have hEs := (he s hs).trans (hE.lipschitz s _ _ _ (hw s hs))
    have hBs := (hmm s hs).trans (hB.lipschitz s _ _ _ (hw s hs))
    exact ((lorentz_lip qm hq M e m p _ _ _ _ _ hEs hBs (hpp s hs) (hB.bounded s (X s))).symm).mono (by linarith)
  have hpm : ∀ s ∈ Set.Icc t (t + d), Within (vel1 qm (P s)) (vel1 qm (shift3 p (d / 2) (lorentz qm e m p))) (3 * |qm| * (b + 9 / 2 * M * d + 3 / 2 * del * d)) := by
    intro s hs
    have near : ∀ u v : ℝ, |u - v| ≤ del → |v| ≤ M → |u| ≤ M + del := by
      intro u v h1 h2
      have := abs_sub_abs_le_abs_sub u v
      linarith
    have hEb := hE.bounded t (shift3 x (d / 2) (vel1 qm p))
    have hBb := hB.bounded t (shift3 x (d / 2) (vel1 qm p))
    have het := he t ht
    have hmt := hmm t ht
    have hb := lorentz_bound qm (M + del) e m p ⟨near _ _ het.1 hEb.1, near _ _ het.2.1 hEb.2.1, near _ _ het.2.2 hEb.2.2⟩ ⟨near _ _ hmt.1 hBb.1, near _ _ hmt.2.1 hBb.2.1, near _ _ hmt.2.2 hBb.2.2⟩
    have h1 := within_shift p (lorentz qm e m p) (d / 2) _ (by linarith) hb
    exact vel1_lip qm hq _ _ _ (((h1.trans (hpp s hs)).symm).mono (by linarith))
  refine ⟨⟨?_, ?_, ?_⟩, ⟨?_, ?_, ?_⟩⟩
  · exact step_component h0 hd hT hm.dpx (fun s hs => (hF s hs).1) hp.1
  · exact step_component h0 hd hT hm.dpy (fun s hs => (hF s hs).2.1) hp.2.1
  · exact step_component h0 hd hT hm.dpz (fun s hs => (hF s hs).2.2) hp.2.2
  · exact step_component h0 hd hT hm.dx (fun s hs => (hpm s hs).1) hx.1
  · exact step_component h0 hd hT hm.dy (fun s hs => (hpm s hs).2.1) hx.2.1
  · exact step_component h0 hd hT hm.dz (fun s hs => (hpm s hs).2.2) hx.2.2

/-- A completed substep of the kernel in the terms of this file. -/
theorem next_shift (c : BCfg) (idx : ℤ) (F0 F1 : Fields3) (r r' : Row ℝ) (h : turn c idx F0 F1 r = .next r') :
    ∃ w e m, w = shift3 (posOf r) (r.dt / 2) (vel1 r.qm (momOf r)) ∧ e = fieldE3 c (idx * -c.dxi) F0 F1 w ∧ m = fieldB3 c (idx * -c.dxi) F0 F1 w ∧
      momOf r' = shift3 (momOf r) r.dt (lorentz r.qm e m (momOf r)) ∧
      posOf r' = shift3 (posOf r) r.dt (vel1 r.qm (shift3 (momOf r) (r.dt / 2) (lorentz r.qm e m (momOf r)))) ∧ r'.dt = r.dt ∧ r'.qm = r.qm := by
  obtain ⟨w, e, m, mid, v, hv, hw, he, hm, h1, h2, h3, h4, h5, h6, h7, h8, -, h9, -⟩ := push_leapfrog c idx F0 F1 r r' false (Or.inl ⟨rfl, h⟩)
  subst hv
  have hw' : w = shift3 (posOf r) (r.dt / 2) (vel1 r.qm (momOf r)) := hw
  have hmom : momOf r' = shift3 (momOf r) r.dt (lorentz r.qm e m (momOf r)) := by
    simp only [momOf, shift3, lorentz, Vec3.mk.injEq]
    exact ⟨by rw [h1]; ring, by rw [h2]; ring, by rw [h3]; ring⟩
  have hmid : mid = shift3 (momOf r) (r.dt / 2) (lorentz r.qm e m (momOf r)) := by
    rw [h4]
    simp only [momOf, shift3, lorentz, Vec3.mk.injEq]
    exact ⟨by rw [h1]; ring, by rw [h2]; ring, by rw [h3]; ring⟩
  refine ⟨w, e, m, hw', he, hm, hmom, ?_, h9, h8⟩
  rw [← hmid]
  simp only [posOf, shift3, vel1, Vec3.mk.injEq]
  exact ⟨h5, h6, h7⟩

/-! ### Many substeps -/

/-- The rows `r 0, r 1, ..., r n` are those of one particle after 0, 1, ..., n completed substeps, in whatever layers these take place; at every substep the field
the kernel computes at the half-step position differs by at most `del` from the true fields at that point. -/
def Pushed (c : BCfg) (E B : ℝ → Vec3 → Vec3) (del : ℝ) (n : ℕ) (r : ℕ → Row ℝ) : Prop :=
  ∀ k < n, ∃ (idx : ℤ) (F0 F1 : Fields3), turn c idx F0 F1 (r k) = .next (r (k + 1)) ∧
    ∀ t, k * (r 0).dt ≤ t → t ≤ (k + 1) * (r 0).dt →
      Within (fieldE3 c (idx * -c.dxi) F0 F1 (halfPos (r k))) (E t (halfPos (r k))) del ∧ Within (fieldB3 c (idx * -c.dxi) F0 F1 (halfPos (r k))) (B t (halfPos (r k))) del

theorem Pushed.keeps {c : BCfg} {E B : ℝ → Vec3 → Vec3} {del : ℝ} {n : ℕ} {r : ℕ → Row ℝ} (h : Pushed c E B del n r) : ∀ k ≤ n, (r k).dt = (r 0).dt ∧ (r k).qm = (r 0).qm := by
  intro k
  induction k with
  | zero => intro _; exact ⟨rfl, rfl⟩
  | succ k ih =>
    intro hk
    obtain ⟨idx, F0, F1, ht, -⟩ := h k hk
    obtain ⟨w, e, m, -, -, -, -, -, h1, h2⟩ := next_shift c idx F0 F1 _ _ ht
    obtain ⟨i1, i2⟩ := ih (Nat.le_of_succ_le hk)
    exact ⟨h1.trans i1, h2.trans i2⟩

/-- Discrete Gronwall: an error that grows by the factor `1 + A d` plus `R d` per step. -/
theorem gronwall_step (A R d e : ℝ) (hA : 0 < A) (hR : 0 ≤ R) (hd : 0 ≤ d) (he : 0 ≤ e) (k : ℕ) :
    (Real.exp (A * (k * d)) * e + (Real.exp (A * (k * d)) - 1) / A * R) * (1 + A * d) + d * R ≤ Real.exp (A * ((k + 1 : ℕ) * d)) * e + (Real.exp (A * ((k + 1 : ℕ) * d)) - 1) / A * R := by
  have h1 : Real.exp (A * ((k + 1 : ℕ) * d)) = Real.exp (A * (k * d)) * Real.exp (A * d) := by
    rw [← Real.exp_add]; congr 1; push_cast; ring
  have h2 : 1 + A * d ≤ Real.exp (A * d) := by linarith [Real.add_one_le_exp (A * d)]
  have h3 : 0 < Real.exp (A * (k * d)) := Real.exp_pos _
  rw [h1]
  generalize Real.exp (A * (k * d)) = x at *
  generalize Real.exp (A * d) = y at *
  have e1 : (x * e + (x - 1) / A * R) * (1 + A * d) + d * R = x * (1 + A * d) * e + (x * (1 + A * d) - 1) / A * R := by
    field_simp; ring
  rw [e1]
  have h4 : x * (1 + A * d) ≤ x * y := mul_le_mul_of_nonneg_left h2 h3.le
  have h5 : (x * (1 + A * d) - 1) / A ≤ (x * y - 1) / A := div_le_div_of_nonneg_right (by linarith) hA.le
  have := mul_le_mul_of_nonneg_right h4 he
  have := mul_le_mul_of_nonneg_right h5 hR
  linarith

/-- C68: for every particle, every number of substeps and whatever layers they are made in, the trajectory computed by the CPU kernel stays within
`e^(A t) e0 + (e^(A t) - 1)/A (3 del + dt K)` of the solution of the equations of motion, at every substep `t = k dt`: `e0` is the error of the initial state and `del` the error of the fields.
`A` and `K` depend on the fields and the charge-to-mass ratio only. The scheme converges with first order in the substep. -/
theorem cpu_converges (c : BCfg) {M L T del e0 : ℝ} {E B : ℝ → Vec3 → Vec3} {X P : ℝ → Vec3} (n : ℕ) (r : ℕ → Row ℝ) (hq : (r 0).qm ≠ 0)
    (hm : Motion (r 0).qm E B T X P) (hE : Tame M L E) (hB : Tame M L B) (hL : 0 ≤ L) (hdel : 0 ≤ del) (hdt : 0 ≤ (r 0).dt) (hT : n * (r 0).dt ≤ T)
    (hr : Pushed c E B del n r) (hx : Within (posOf (r 0)) (X 0) e0) (hp : Within (momOf (r 0)) (P 0) e0) (k : ℕ) (hk : k ≤ n) :
    ∃ A K err, A = 3 * L + 6 * |(r 0).qm| * M + 3 * |(r 0).qm| ∧ K = 9 * L + 18 * |(r 0).qm| * M ^ 2 + 27 / 2 * |(r 0).qm| * M + 9 / 2 * |(r 0).qm| * del ∧
      err = Real.exp (A * (k * (r 0).dt)) * e0 + (Real.exp (A * (k * (r 0).dt)) - 1) / A * (3 * del + (r 0).dt * K) ∧
      Within (posOf (r k)) (X (k * (r 0).dt)) err ∧ Within (momOf (r k)) (P (k * (r 0).dt)) err := by
  refine ⟨_, _, _, rfl, rfl, rfl, ?_⟩
  have hqa : 0 < |(r 0).qm| := abs_pos.mpr hq
  have hM : 0 ≤ M := le_trans (abs_nonneg _) (hE.bounded 0 (X 0)).1
  have he0 := hx.nonneg
  obtain ⟨A, hA⟩ : ∃ A, A = 3 * L + 6 * |(r 0).qm| * M + 3 * |(r 0).qm| := ⟨_, rfl⟩
  obtain ⟨K, hK⟩ : ∃ K, K = 9 * L + 18 * |(r 0).qm| * M ^ 2 + 27 / 2 * |(r 0).qm| * M + 9 / 2 * |(r 0).qm| * del := ⟨_, rfl⟩
  rw [← hA, ← hK]
  have hApos : 0 < A := by rw [hA]; positivity
  have hKpos : 0 ≤ K := by rw [hK]; positivity
  have hkeep := hr.keeps
  induction k with
  | zero => simpa using ⟨hx, hp⟩
  | succ k ih =>
    obtain ⟨ix, ip⟩ := ih (Nat.le_of_succ_le hk)
    obtain ⟨kd, kq⟩ := hkeep k (Nat.le_of_succ_le hk)
    obtain ⟨idx, F0, F1, ht, hf⟩ := hr k hk
    obtain ⟨w, e, m, hw, he, hmm, h1, h2, -, -⟩ := next_shift c idx F0 F1 _ _ ht
    have hww : halfPos (r k) = w := by rw [hw]; rfl
    rw [hww] at hf
    rw [← he, ← hmm] at hf
    rw [kd, kq] at hw h1 h2
    have hk1 : ((k + 1 : ℕ) : ℝ) ≤ n := by exact_mod_cast hk
    have htT : (k : ℝ) * (r 0).dt + (r 0).dt ≤ T := by
      have := mul_le_mul_of_nonneg_right hk1 hdt
      push_cast at this
      linarith
    have hstep := cpu_step_error hq hm hE hB hL (t := k * (r 0).dt) (d := (r 0).dt) (del := del) (by positivity) hdt htT _ _ e m ix ip
      (fun s hs => by rw [← hw]; exact (hf s hs.1 (by linarith [hs.2])).1) (fun s hs => by rw [← hw]; exact (hf s hs.1 (by linarith [hs.2])).2)
    have et : ((k + 1 : ℕ) : ℝ) * (r 0).dt = k * (r 0).dt + (r 0).dt := by push_cast; ring
    have hg := gronwall_step A (3 * del + (r 0).dt * K) (r 0).dt e0 hApos (by positivity) hdt he0 k
    rw [h1, h2]
    have hmono := ix.nonneg
    generalize Real.exp (A * ((k + 1 : ℕ) * (r 0).dt)) * e0 + (Real.exp (A * ((k + 1 : ℕ) * (r 0).dt)) - 1) / A * (3 * del + (r 0).dt * K) = err' at hg ⊢
    generalize Real.exp (A * (k * (r 0).dt)) * e0 + (Real.exp (A * (k * (r 0).dt)) - 1) / A * (3 * del + (r 0).dt * K) = err at hg hstep hmono
    rw [et]
    obtain ⟨s1, s2⟩ := hstep
    refine ⟨s2.mono (le_trans ?_ hg), s1.mono (le_trans ?_ hg)⟩
    · have e1 : err * (1 + A * (r 0).dt) + (r 0).dt * (3 * del + (r 0).dt * K) - (err + (r 0).dt * (3 * |(r 0).qm| * (err + 9 / 2 * M * (r 0).dt + 3 / 2 * del * (r 0).dt))) =
          (r 0).dt * ((3 * L + 6 * |(r 0).qm| * M) * err + 3 * del + (r 0).dt * (9 * L + 18 * |(r 0).qm| * M ^ 2)) := by
        rw [hA, hK]; ring
      have : 0 ≤ (r 0).dt * ((3 * L + 6 * |(r 0).qm| * M) * err + 3 * del + (r 0).dt * (9 * L + 18 * |(r 0).qm| * M ^ 2)) := by positivity
      linarith
    · have e1 : err * (1 + A * (r 0).dt) + (r 0).dt * (3 * del + (r 0).dt * K) - (err + (r 0).dt * (3 * del + 3 * L * (err + 3 * (r 0).dt) + 6 * |(r 0).qm| * M * (err + 3 * M * (r 0).dt))) =
          (r 0).dt * (3 * |(r 0).qm| * err + (r 0).dt * (27 / 2 * |(r 0).qm| * M + 9 / 2 * |(r 0).qm| * del)) := by
        rw [hA, hK]; ring
      have : 0 ≤ (r 0).dt * (3 * |(r 0).qm| * err + (r 0).dt * (27 / 2 * |(r 0).qm| * M + 9 / 2 * |(r 0).qm| * del)) := by positivity
      linarith

end Lcode.Beam3D
