import Verif.Num.Taylor
import Mathlib.Analysis.Calculus.ContDiff.Basic
import Mathlib.Analysis.Calculus.ContDiff.Operations
import Mathlib.Analysis.Calculus.ContDiff.Deriv
import Mathlib.Analysis.Calculus.FDeriv.Symmetric

/-!
Smooth functions of two variables and their partial derivatives, for the convergence of the 3D field solver.
-/

namespace Lcode.Num

open scoped ContDiff

/-- A smooth function of two variables. -/
def Smooth2 (u : ℝ → ℝ → ℝ) : Prop := ContDiff ℝ ∞ (fun p : ℝ × ℝ => u p.1 p.2)

/-- The partial derivatives. -/
noncomputable def Dx (u : ℝ → ℝ → ℝ) : ℝ → ℝ → ℝ := fun x y => deriv (fun s => u s y) x
noncomputable def Dy (u : ℝ → ℝ → ℝ) : ℝ → ℝ → ℝ := fun x y => deriv (fun s => u x s) y

/-- The Laplacian. -/
noncomputable def Lap (u : ℝ → ℝ → ℝ) : ℝ → ℝ → ℝ := fun x y => Dx (Dx u) x y + Dy (Dy u) x y

variable {u v : ℝ → ℝ → ℝ}

theorem Smooth2.lineX (hu : Smooth2 u) (y : ℝ) : ContDiff ℝ ∞ (fun s => u s y) := ContDiff.comp (g := fun p : ℝ × ℝ => u p.1 p.2) hu (contDiff_id.prodMk contDiff_const)
theorem Smooth2.lineY (hu : Smooth2 u) (x : ℝ) : ContDiff ℝ ∞ (fun s => u x s) := ContDiff.comp (g := fun p : ℝ × ℝ => u p.1 p.2) hu (contDiff_const.prodMk contDiff_id)

theorem Smooth2.hasX (hu : Smooth2 u) (x y : ℝ) : HasDerivAt (fun s => u s y) (Dx u x y) x := (((contDiff_infty_iff_deriv.mp (hu.lineX y)).1) x).hasDerivAt
theorem Smooth2.hasY (hu : Smooth2 u) (x y : ℝ) : HasDerivAt (fun s => u x s) (Dy u x y) y := (((contDiff_infty_iff_deriv.mp (hu.lineY x)).1) y).hasDerivAt

theorem Smooth2.diff (hu : Smooth2 u) : Differentiable ℝ (fun p : ℝ × ℝ => u p.1 p.2) := ContDiff.differentiable hu (by simp)

theorem Smooth2.Dx_eq (hu : Smooth2 u) (x y : ℝ) : Dx u x y = fderiv ℝ (fun p : ℝ × ℝ => u p.1 p.2) (x, y) (1, 0) := by
  have h1 : HasDerivAt (fun s : ℝ => (s, y)) (1, 0) x := (hasDerivAt_id x).prodMk (hasDerivAt_const x y)
  exact ((hu.diff (x, y)).hasFDerivAt.comp_hasDerivAt x h1).deriv

theorem Smooth2.Dy_eq (hu : Smooth2 u) (x y : ℝ) : Dy u x y = fderiv ℝ (fun p : ℝ × ℝ => u p.1 p.2) (x, y) (0, 1) := by
  have h1 : HasDerivAt (fun s : ℝ => (x, s)) (0, 1) y := (hasDerivAt_const y x).prodMk (hasDerivAt_id y)
  exact ((hu.diff (x, y)).hasFDerivAt.comp_hasDerivAt y h1).deriv

theorem Smooth2.fd (hu : Smooth2 u) (w : ℝ × ℝ) : ContDiff ℝ ∞ (fun p : ℝ × ℝ => fderiv ℝ (fun p : ℝ × ℝ => u p.1 p.2) p w) :=
  (ContDiff.fderiv_right (m := ∞) hu (by simp)).clm_apply contDiff_const

theorem Smooth2.Dx (hu : Smooth2 u) : Smooth2 (Num.Dx u) := by
  have : (fun p : ℝ × ℝ => Num.Dx u p.1 p.2) = fun p : ℝ × ℝ => fderiv ℝ (fun p : ℝ × ℝ => u p.1 p.2) p (1, 0) := by
    funext p; exact hu.Dx_eq p.1 p.2
  unfold Smooth2; rw [this]; exact hu.fd _

theorem Smooth2.Dy (hu : Smooth2 u) : Smooth2 (Num.Dy u) := by
  have : (fun p : ℝ × ℝ => Num.Dy u p.1 p.2) = fun p : ℝ × ℝ => fderiv ℝ (fun p : ℝ × ℝ => u p.1 p.2) p (0, 1) := by
    funext p; exact hu.Dy_eq p.1 p.2
  unfold Smooth2; rw [this]; exact hu.fd _

theorem Smooth2.add (hu : Smooth2 u) (hv : Smooth2 v) : Smooth2 (fun x y => u x y + v x y) := ContDiff.add hu hv
theorem Smooth2.sub (hu : Smooth2 u) (hv : Smooth2 v) : Smooth2 (fun x y => u x y - v x y) := ContDiff.sub hu hv
theorem Smooth2.neg (hu : Smooth2 u) : Smooth2 (fun x y => -u x y) := ContDiff.neg hu
theorem Smooth2.div (hu : Smooth2 u) (c : ℝ) : Smooth2 (fun x y => u x y / c) := ContDiff.div_const hu c
theorem Smooth2.Lap (hu : Smooth2 u) : Smooth2 (Num.Lap u) := hu.Dx.Dx.add hu.Dy.Dy
theorem Smooth2.swap (hu : Smooth2 u) : Smooth2 (fun x y => u y x) := ContDiff.comp (g := fun p : ℝ × ℝ => u p.1 p.2) hu (contDiff_snd.prodMk contDiff_fst)

/-- The order of the derivatives does not matter. -/
theorem Smooth2.comm (hu : Smooth2 u) (x y : ℝ) : Num.Dx (Num.Dy u) x y = Num.Dy (Num.Dx u) x y := by
  rw [hu.Dy.Dx_eq, hu.Dx.Dy_eq]
  have e1 : (fun p : ℝ × ℝ => Num.Dy u p.1 p.2) = fun p : ℝ × ℝ => fderiv ℝ (fun p : ℝ × ℝ => u p.1 p.2) p (0, 1) := by
    funext p; exact hu.Dy_eq p.1 p.2
  have e2 : (fun p : ℝ × ℝ => Num.Dx u p.1 p.2) = fun p : ℝ × ℝ => fderiv ℝ (fun p : ℝ × ℝ => u p.1 p.2) p (1, 0) := by
    funext p; exact hu.Dx_eq p.1 p.2
  rw [e1, e2]
  have hd : DifferentiableAt ℝ (fderiv ℝ (fun p : ℝ × ℝ => u p.1 p.2)) (x, y) := (ContDiff.fderiv_right (m := ∞) hu (by simp)).differentiable (by simp) (x, y)
  rw [fderiv_clm_apply hd (differentiableAt_const _), fderiv_clm_apply hd (differentiableAt_const _)]
  simp only [fderiv_const, fderiv_fun_const, Pi.zero_apply, ContinuousLinearMap.comp_zero, zero_add, ContinuousLinearMap.flip_apply]
  have hs : IsSymmSndFDerivAt ℝ (fun p : ℝ × ℝ => u p.1 p.2) (x, y) := (ContDiff.contDiffAt hu).isSymmSndFDerivAt (by simp only [minSmoothness_of_isRCLikeNormedField]; exact WithTop.coe_le_coe.mpr le_top)
  exact hs.eq _ _

/-- A smooth function is bounded on a square. -/
theorem Smooth2.bounded (hu : Smooth2 u) (W : ℝ) : ∃ M, 0 ≤ M ∧ ∀ x y, 0 ≤ x → x ≤ W → 0 ≤ y → y ≤ W → |u x y| ≤ M := by
  obtain ⟨M, hM⟩ := ((isCompact_Icc (a := (0 : ℝ)) (b := W)).prod (isCompact_Icc (a := (0 : ℝ)) (b := W))).exists_bound_of_continuousOn (ContDiff.continuous hu).continuousOn
  refine ⟨max M 0, le_max_right _ _, fun x y h1 h2 h3 h4 => ?_⟩
  have := hM (x, y) ⟨⟨h1, h2⟩, ⟨h3, h4⟩⟩
  rw [Real.norm_eq_abs] at this
  exact this.trans (le_max_left _ _)

/-- One-sided Taylor bounds of the second and of the third order. -/
theorem taylor3 (f f1 f2 f3 : ℝ → ℝ) (a h M : ℝ) (hh : 0 ≤ h) (d0 : DerivOn f f1 a (a + h)) (d1 : DerivOn f1 f2 a (a + h)) (d2 : DerivOn f2 f3 a (a + h)) (hM : BoundedOn f3 M a (a + h)) :
    |f (a + h) - f a - h * f1 a - h ^ 2 / 2 * f2 a| ≤ M / 6 * h ^ 3 := by
  have sh : ∀ {g g' : ℝ → ℝ}, DerivOn g g' a (a + h) → ∀ t, 0 ≤ t → t ≤ h → HasDerivAt (fun t => g (a + t)) (g' (a + t)) t := by
    intro g g' hg t h0 ht
    have := (hg (a + t) (by linarith) (by linarith)).comp t ((hasDerivAt_id t).const_add a)
    exact this.congr_deriv (by simp)
  have k1 := grow (fun t => f2 (a + t) - f2 a) (fun t => f3 (a + t)) h M 0 (by simp) (fun t h0 ht => (sh d2 t h0 ht).sub_const _) (fun t h0 ht => by
    rw [pow_zero, mul_one]; exact hM _ (by linarith) (by linarith))
  have k2 := grow (fun t => f1 (a + t) - f1 a - t * f2 a) (fun t => f2 (a + t) - f2 a) h M 1 (by simp) (fun t h0 ht => by
    exact (((sh d1 t h0 ht).sub_const (f1 a)).sub ((hasDerivAt_id t).mul_const (f2 a))).congr_deriv (by ring)) (fun t h0 ht => by
    refine (k1 t h0 ht).trans (le_of_eq ?_); push_cast; ring)
  have k3 := grow (fun t => f (a + t) - f a - t * f1 a - t ^ 2 / 2 * f2 a) (fun t => f1 (a + t) - f1 a - t * f2 a) h (M / 2) 2 (by simp) (fun t h0 ht => by
    exact ((((sh d0 t h0 ht).sub_const (f a)).sub ((hasDerivAt_id t).mul_const (f1 a))).sub (((hasDerivAt_pow 2 t).div_const 2).mul_const (f2 a))).congr_deriv (by push_cast; ring)) (fun t h0 ht => by
    refine (k2 t h0 ht).trans (le_of_eq ?_); push_cast; ring) h hh le_rfl
  refine k3.trans (le_of_eq ?_)
  push_cast; ring

theorem taylor4 (f f1 f2 f3 f4 : ℝ → ℝ) (a h M : ℝ) (hh : 0 ≤ h) (d0 : DerivOn f f1 a (a + h)) (d1 : DerivOn f1 f2 a (a + h)) (d2 : DerivOn f2 f3 a (a + h)) (d3 : DerivOn f3 f4 a (a + h)) (hM : BoundedOn f4 M a (a + h)) (h3 : f3 a = 0) :
    |f (a + h) - f a - h * f1 a - h ^ 2 / 2 * f2 a| ≤ M / 24 * h ^ 4 := by
  have sh : ∀ {g g' : ℝ → ℝ}, DerivOn g g' a (a + h) → ∀ t, 0 ≤ t → t ≤ h → HasDerivAt (fun t => g (a + t)) (g' (a + t)) t := by
    intro g g' hg t h0 ht
    have := (hg (a + t) (by linarith) (by linarith)).comp t ((hasDerivAt_id t).const_add a)
    exact this.congr_deriv (by simp)
  have k0 := grow (fun t => f3 (a + t)) (fun t => f4 (a + t)) h M 0 (by simp [h3]) (fun t h0 ht => sh d3 t h0 ht) (fun t h0 ht => by
    rw [pow_zero, mul_one]; exact hM _ (by linarith) (by linarith))
  have k1 := grow (fun t => f2 (a + t) - f2 a) (fun t => f3 (a + t)) h M 1 (by simp) (fun t h0 ht => (sh d2 t h0 ht).sub_const _) (fun t h0 ht => by
    refine (k0 t h0 ht).trans (le_of_eq ?_); push_cast; ring)
  have k2 := grow (fun t => f1 (a + t) - f1 a - t * f2 a) (fun t => f2 (a + t) - f2 a) h (M / 2) 2 (by simp) (fun t h0 ht => by
    exact (((sh d1 t h0 ht).sub_const (f1 a)).sub ((hasDerivAt_id t).mul_const (f2 a))).congr_deriv (by ring)) (fun t h0 ht => by
    refine (k1 t h0 ht).trans (le_of_eq ?_); push_cast; ring)
  have k3 := grow (fun t => f (a + t) - f a - t * f1 a - t ^ 2 / 2 * f2 a) (fun t => f1 (a + t) - f1 a - t * f2 a) h (M / 6) 3 (by simp) (fun t h0 ht => by
    exact ((((sh d0 t h0 ht).sub_const (f a)).sub ((hasDerivAt_id t).mul_const (f1 a))).sub (((hasDerivAt_pow 2 t).div_const 2).mul_const (f2 a))).congr_deriv (by push_cast; ring)) (fun t h0 ht => by
    refine (k2 t h0 ht).trans (le_of_eq ?_); push_cast; ring) h hh le_rfl
  refine k3.trans (le_of_eq ?_)
  push_cast; ring

/-- Reflection: derivatives of `f (c - x)`. -/
theorem DerivOn.reflect {f f' : ℝ → ℝ} {a b : ℝ} (c : ℝ) (hd : DerivOn f f' a b) : DerivOn (fun x => f (c - x)) (fun x => -f' (c - x)) (c - b) (c - a) := by
  intro x h1 h2
  have := (hd (c - x) (by linarith) (by linarith)).comp x ((hasDerivAt_id x).const_sub c)
  exact this.congr_deriv (by simp)

end Lcode.Num
