import Mathlib.Analysis.Calculus.MeanValue
import Mathlib.Analysis.Calculus.Deriv.Pow
import Mathlib.Analysis.Calculus.Deriv.Add
import Mathlib.Analysis.Calculus.Deriv.Mul
import Mathlib.Tactic.Linarith
import Mathlib.Tactic.FieldSimp
import Mathlib.Tactic.Ring
import Mathlib.Tactic.Positivity

/-!
Bounds of difference quotients and of the trapezoidal rule, used by C65. No model of the program here.
-/

namespace Lcode.Num

/-- If the derivative is bounded by `c t^n` and the value at 0 is 0, the value is bounded by `c t^(n+1) / (n+1)`. -/
theorem grow (f f' : ℝ → ℝ) (T c : ℝ) (n : ℕ) (h0 : f 0 = 0) (hd : ∀ t, 0 ≤ t → t ≤ T → HasDerivAt f (f' t) t) (hb : ∀ t, 0 ≤ t → t ≤ T → |f' t| ≤ c * t ^ n) :
    ∀ t, 0 ≤ t → t ≤ T → |f t| ≤ c / (n + 1) * t ^ (n + 1) := by
  intro t ht0 htT
  have hB : ∀ x, HasDerivAt (fun y : ℝ => c / (n + 1) * y ^ (n + 1)) (c * x ^ n) x := by
    intro x
    have := (hasDerivAt_pow (n + 1) x).const_mul (c / (n + 1))
    refine this.congr_deriv ?_
    have : (n : ℝ) + 1 ≠ 0 := by positivity
    push_cast
    field_simp
  have := image_norm_le_of_norm_deriv_right_le_deriv_boundary (f := f) (f' := f') (a := 0) (b := T) (B := fun y => c / (n + 1) * y ^ (n + 1)) (B' := fun x => c * x ^ n)
    (fun x hx => (hd x hx.1 hx.2).continuousAt.continuousWithinAt) (fun x hx => (hd x hx.1 hx.2.le).hasDerivWithinAt)
    (by rw [h0]; simp) hB (fun x hx => hb x hx.1 hx.2.le) ⟨ht0, htT⟩
  exact this

/-- `f' ` is the derivative of `f` at every point of the segment. -/
def DerivOn (f f' : ℝ → ℝ) (a b : ℝ) : Prop := ∀ x, a ≤ x → x ≤ b → HasDerivAt f (f' x) x

/-- `f` is bounded by `M` on the segment. -/
def BoundedOn (f : ℝ → ℝ) (M a b : ℝ) : Prop := ∀ x, a ≤ x → x ≤ b → |f x| ≤ M

theorem DerivOn.mono {f f' : ℝ → ℝ} {a b a' b' : ℝ} (h : DerivOn f f' a b) (ha : a ≤ a') (hb : b' ≤ b) : DerivOn f f' a' b' := fun x h1 h2 => h x (ha.trans h1) (h2.trans hb)
theorem BoundedOn.mono {f : ℝ → ℝ} {M a b a' b' : ℝ} (h : BoundedOn f M a b) (ha : a ≤ a') (hb : b' ≤ b) : BoundedOn f M a' b' := fun x h1 h2 => h x (ha.trans h1) (h2.trans hb)

section Sym
variable {f f1 f2 f3 f4 : ℝ → ℝ} {x h : ℝ}

theorem shiftR {f f' : ℝ → ℝ} (hf : DerivOn f f' (x - h) (x + h)) (t : ℝ) (h0 : 0 ≤ t) (ht : t ≤ h) : HasDerivAt (fun t => f (x + t)) (f' (x + t)) t := by
  have := (hf (x + t) (by linarith) (by linarith)).comp t ((hasDerivAt_id t).const_add x)
  exact this.congr_deriv (by simp)

theorem shiftL {f f' : ℝ → ℝ} (hf : DerivOn f f' (x - h) (x + h)) (t : ℝ) (h0 : 0 ≤ t) (ht : t ≤ h) : HasDerivAt (fun t => f (x - t)) (-f' (x - t)) t := by
  have := (hf (x - t) (by linarith) (by linarith)).comp t ((hasDerivAt_id t).const_sub x)
  exact this.congr_deriv (by simp)

/-- The difference of two values. -/
theorem diff_bound (d0 : DerivOn f f1 (x - h) (x + h)) {M : ℝ} (hM : BoundedOn f1 M (x - h) (x + h)) : ∀ t, 0 ≤ t → t ≤ h → |f (x + t) - f (x - t)| ≤ 2 * M * t := by
  intro t h0 ht
  have := grow (fun t => f (x + t) - f (x - t)) (fun t => f1 (x + t) + f1 (x - t)) h (2 * M) 0 (by simp) (fun t h0 ht => by
    have := (shiftR d0 t h0 ht).sub (shiftL d0 t h0 ht)
    exact this.congr_deriv (by ring)) (fun t h0 ht => by
    have a := hM (x + t) (by linarith) (by linarith)
    have b := hM (x - t) (by linarith) (by linarith)
    have := abs_add_le (f1 (x + t)) (f1 (x - t))
    rw [pow_zero]; linarith) t h0 ht
  simpa using this

/-- The mean of two values against the middle value. -/
theorem mean_bound (d0 : DerivOn f f1 (x - h) (x + h)) (d1 : DerivOn f1 f2 (x - h) (x + h)) {M : ℝ} (hM : BoundedOn f2 M (x - h) (x + h)) :
    ∀ t, 0 ≤ t → t ≤ h → |f (x + t) + f (x - t) - 2 * f x| ≤ M * t ^ 2 := by
  intro t h0 ht
  have := grow (fun t => f (x + t) + f (x - t) - 2 * f x) (fun t => f1 (x + t) - f1 (x - t)) h (2 * M) 1 (by simp; ring) (fun t h0 ht => by
    have := ((shiftR d0 t h0 ht).add (shiftL d0 t h0 ht)).sub_const (2 * f x)
    exact this.congr_deriv (by ring)) (fun t h0 ht => by
    rw [pow_one]; exact diff_bound d1 hM t h0 ht) t h0 ht
  refine this.trans (le_of_eq ?_)
  push_cast; ring

/-- The central difference quotient. -/
theorem central_bound (d0 : DerivOn f f1 (x - h) (x + h)) (d1 : DerivOn f1 f2 (x - h) (x + h)) (d2 : DerivOn f2 f3 (x - h) (x + h)) {M : ℝ} (hM : BoundedOn f3 M (x - h) (x + h)) :
    ∀ t, 0 ≤ t → t ≤ h → |f (x + t) - f (x - t) - 2 * t * f1 x| ≤ M / 3 * t ^ 3 := by
  intro t h0 ht
  have := grow (fun t => f (x + t) - f (x - t) - 2 * t * f1 x) (fun t => f1 (x + t) + f1 (x - t) - 2 * f1 x) h M 2 (by simp) (fun t h0 ht => by
    have := ((shiftR d0 t h0 ht).sub (shiftL d0 t h0 ht)).sub (((hasDerivAt_id t).const_mul 2).mul_const (f1 x))
    exact this.congr_deriv (by ring)) (fun t h0 ht => mean_bound d1 d2 hM t h0 ht) t h0 ht
  refine this.trans (le_of_eq ?_)
  push_cast; ring

/-- The second difference quotient. -/
theorem second_bound (d0 : DerivOn f f1 (x - h) (x + h)) (d1 : DerivOn f1 f2 (x - h) (x + h)) (d2 : DerivOn f2 f3 (x - h) (x + h)) (d3 : DerivOn f3 f4 (x - h) (x + h)) {M : ℝ} (hM : BoundedOn f4 M (x - h) (x + h)) :
    ∀ t, 0 ≤ t → t ≤ h → |f (x + t) + f (x - t) - 2 * f x - t ^ 2 * f2 x| ≤ M / 12 * t ^ 4 := by
  intro t h0 ht
  have := grow (fun t => f (x + t) + f (x - t) - 2 * f x - t ^ 2 * f2 x) (fun t => f1 (x + t) - f1 (x - t) - 2 * t * f2 x) h (M / 3) 3 (by simp; ring) (fun t h0 ht => by
    have := (((shiftR d0 t h0 ht).add (shiftL d0 t h0 ht)).sub_const (2 * f x)).sub ((hasDerivAt_pow 2 t).mul_const (f2 x))
    exact this.congr_deriv (by push_cast; ring)) (fun t h0 ht => central_bound d1 d2 d3 hM t h0 ht) t h0 ht
  refine this.trans (le_of_eq ?_)
  push_cast; ring

end Sym

/-- One cell of the trapezoidal rule. -/
theorem trapezoid_cell (F f f1 f2 : ℝ → ℝ) (a h M : ℝ) (hh : 0 ≤ h) (d : DerivOn F f a (a + h)) (d0 : DerivOn f f1 a (a + h)) (d1 : DerivOn f1 f2 a (a + h)) (hM : BoundedOn f2 M a (a + h)) :
    |F (a + h) - F a - h * (f a + f (a + h)) / 2| ≤ M / 12 * h ^ 3 := by
  have sh : ∀ {g g' : ℝ → ℝ}, DerivOn g g' a (a + h) → ∀ t, 0 ≤ t → t ≤ h → HasDerivAt (fun t => g (a + t)) (g' (a + t)) t := by
    intro g g' hg t h0 ht
    have := (hg (a + t) (by linarith) (by linarith)).comp t ((hasDerivAt_id t).const_add a)
    exact this.congr_deriv (by simp)
  have k1 := grow (fun t => (f (a + t) - f a - t * f1 (a + t)) / 2) (fun t => -(t * f2 (a + t)) / 2) h (M / 2) 1 (by simp) (fun t h0 ht => by
    have := (((sh d0 t h0 ht).sub_const (f a)).sub ((hasDerivAt_id t).mul (sh d1 t h0 ht))).div_const 2
    exact this.congr_deriv (by simp only [id_eq]; ring)) (fun t h0 ht => by
    rw [abs_div, abs_neg, abs_mul, abs_of_nonneg h0, abs_two, pow_one]
    have := hM (a + t) (by linarith) (by linarith)
    nlinarith)
  have k2 := grow (fun t => F (a + t) - F a - t * (f a + f (a + t)) / 2) (fun t => (f (a + t) - f a - t * f1 (a + t)) / 2) h (M / 4) 2 (by simp) (fun t h0 ht => by
    have := ((sh d t h0 ht).sub_const (F a)).sub (((hasDerivAt_id t).mul ((sh d0 t h0 ht).const_add (f a))).div_const 2)
    exact this.congr_deriv (by simp only [id_eq]; ring)) (fun t h0 ht => by
    refine (k1 t h0 ht).trans (le_of_eq ?_)
    push_cast; ring) h hh le_rfl
  refine k2.trans (le_of_eq ?_)
  push_cast; ring

end Lcode.Num
