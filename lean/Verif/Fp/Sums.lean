import Verif.Fp.Round
import Mathlib.Algebra.Order.Ring.Pow
import Mathlib.Algebra.BigOperators.Group.List.Basic
import Mathlib.Algebra.Order.BigOperators.Group.List

/-!
C70: sums of floats. All deposits of lcode are sums `out[idx] += value` in doubles; the result depends on the order of the additions.
-/

namespace Lcode.Fp

/-- The unit roundoff of doubles. -/
def u : ℚ := 1 / 2 ^ 53

/-- Growth of a relative error over `n` roundings. -/
def gam (n : ℕ) : ℚ := (1 + u) ^ n - 1

theorem u_pos : 0 < u := by unfold u; norm_num

theorem gam_nonneg (n : ℕ) : 0 ≤ gam n := by
  unfold gam
  have := one_le_pow₀ (n := n) (show (1 : ℚ) ≤ 1 + u by linarith [u_pos])
  linarith

theorem gam_mono {m n : ℕ} (h : m ≤ n) : gam m ≤ gam n := by
  unfold gam
  have := pow_le_pow_right₀ (show (1 : ℚ) ≤ 1 + u by linarith [u_pos]) h
  linarith

theorem gam_succ (n : ℕ) : gam (n + 1) = gam n + u * (1 + gam n) := by
  unfold gam; rw [pow_succ]; ring

theorem gam_add (m n : ℕ) : 1 + gam (m + n) = (1 + gam m) * (1 + gam n) := by
  unfold gam; rw [pow_add]; ring

/-- In plain numbers: `n` roundings make a relative error of at most `n / 2^52`. -/
theorem gam_le {n : ℕ} (hn : n ≤ 2 ^ 52) : gam n ≤ n / 2 ^ 52 := by
  have hu := u_pos
  have h1 : 1 + (n : ℚ) * (-u) ≤ (1 + -u) ^ n := one_add_mul_le_pow (by unfold u; norm_num) n
  have h2 : (1 + u) ^ n * (1 + -u) ^ n ≤ 1 := by
    rw [← mul_pow]
    refine pow_le_one₀ ?_ ?_
    · unfold u; norm_num
    · nlinarith
  have hn' : (n : ℚ) ≤ 2 ^ 52 := by exact_mod_cast hn
  have h3 : (n : ℚ) * u ≤ 1 / 2 := by
    unfold u
    rw [mul_one_div, div_le_iff₀ (by norm_num)]
    linarith
  have h4 : (0 : ℚ) < (1 + u) ^ n := by positivity
  have h5 : (1 + u) ^ n * (1 - n * u) ≤ 1 := by
    refine le_trans (mul_le_mul_of_nonneg_left ?_ h4.le) h2
    linarith
  have e : (n : ℚ) / 2 ^ 52 = 2 * (n * u) := by unfold u; ring
  rw [e]
  unfold gam
  have h6 : (0 : ℚ) ≤ n * u := by positivity
  have h7 : (1 : ℚ) ≤ (1 + 2 * (n * u)) * (1 - n * u) := by nlinarith
  have h8 : (1 + u) ^ n * (1 - n * u) ≤ (1 + 2 * (n * u)) * (1 - n * u) := h5.trans h7
  have h9 := le_of_mul_le_mul_right h8 (by linarith)
  linarith

theorem fl_abs_err (x : ℚ) : |fl x - x| ≤ u * |x| := by
  have := fl_err x
  unfold u
  linarith [this, (by ring : |x| / 2 ^ 53 = 1 / 2 ^ 53 * |x|)]

theorem fl_abs_le (x : ℚ) : |fl x| ≤ (1 + u) * |x| := by
  have h1 := fl_abs_err x
  have h2 : |fl x| ≤ |fl x - x| + |x| := by
    have := abs_add_le (fl x - x) x
    simpa using this
  linarith

/-- Specification: the sum of the absolute values. -/
def absSum (l : List ℚ) : ℚ := (l.map (fun x => |x|)).sum

theorem absSum_nonneg (l : List ℚ) : 0 ≤ absSum l := by
  unfold absSum
  apply List.sum_nonneg
  intro x hx
  obtain ⟨y, -, rfl⟩ := List.mem_map.mp hx
  exact abs_nonneg y

theorem abs_sum_le (l : List ℚ) : |l.sum| ≤ absSum l := by
  unfold absSum
  induction l with
  | nil => simp
  | cons a l ih => simp only [List.sum_cons, List.map_cons]; exact (abs_add_le _ _).trans (by linarith)

/-- `acc += x` for the elements of a list in their order, in doubles (the additions of beam/weights.py:6-8 to one element). -/
def sumF (acc : ℚ) (l : List ℚ) : ℚ := l.foldl (fun a x => fl (a + x)) acc

/-- C70: the error of a sum of `n` terms added one after another. -/
theorem sumF_err (l : List ℚ) (a : ℚ) : |sumF a l - (a + l.sum)| ≤ gam l.length * (|a| + absSum l) := by
  induction l generalizing a with
  | nil => simp [sumF, gam]
  | cons x l ih =>
    have h1 := ih (fl (a + x))
    have h2 := fl_abs_err (a + x)
    have h3 := fl_abs_le (a + x)
    have h4 := abs_add_le a x
    have hg := gam_nonneg l.length
    have hu := u_pos
    have e : sumF a (x :: l) = sumF (fl (a + x)) l := rfl
    have e2 : absSum (x :: l) = |x| + absSum l := by simp [absSum]
    rw [e, e2, List.sum_cons, List.length_cons, gam_succ]
    have e3 : sumF (fl (a + x)) l - (a + (x + l.sum)) = (sumF (fl (a + x)) l - (fl (a + x) + l.sum)) + (fl (a + x) - (a + x)) := by ring
    rw [e3]
    refine (abs_add_le _ _).trans ?_
    have h5 : gam l.length * (|fl (a + x)| + absSum l) ≤ gam l.length * ((1 + u) * (|a| + |x|) + absSum l) := by
      apply mul_le_mul_of_nonneg_left _ hg
      have : (1 + u) * |a + x| ≤ (1 + u) * (|a| + |x|) := mul_le_mul_of_nonneg_left h4 (by linarith)
      linarith
    have h6 : u * |a + x| ≤ u * (|a| + |x|) := mul_le_mul_of_nonneg_left h4 hu.le
    have h7 : 0 ≤ u * (1 + gam l.length) * absSum l := mul_nonneg (mul_nonneg hu.le (by linarith)) (absSum_nonneg l)
    calc _ ≤ gam l.length * ((1 + u) * (|a| + |x|) + absSum l) + u * (|a| + |x|) := by linarith
      _ ≤ _ := by linarith [h7, (by ring : gam l.length * ((1 + u) * (|a| + |x|) + absSum l) + u * (|a| + |x|) + u * (1 + gam l.length) * absSum l = (gam l.length + u * (1 + gam l.length)) * (|a| + (|x| + absSum l)))]

theorem sumF_abs_le (l : List ℚ) (a : ℚ) : |sumF a l| ≤ (1 + gam l.length) * (|a| + absSum l) := by
  have h1 := sumF_err l a
  have h2 : |a + l.sum| ≤ |a| + absSum l := (abs_add_le _ _).trans (by linarith [abs_sum_le l])
  have h3 : |sumF a l| ≤ |sumF a l - (a + l.sum)| + |a + l.sum| := by
    have := abs_add_le (sumF a l - (a + l.sum)) (a + l.sum)
    simpa using this
  linarith

/-- C70: the order of the additions (the order of the particles in memory, or of the atomic additions of a GPU) changes a sum of `n` terms by at most twice that. -/
theorem sumF_perm {l l' : List ℚ} (h : l.Perm l') (a : ℚ) : |sumF a l - sumF a l'| ≤ 2 * gam l.length * (|a| + absSum l) := by
  have h1 := sumF_err l a
  have h2 := sumF_err l' a
  have e1 : l'.sum = l.sum := h.symm.sum_eq
  have e2 : absSum l' = absSum l := (h.map _).symm.sum_eq
  rw [e1, e2, ← h.length_eq] at h2
  have h3 := abs_sub_le (sumF a l) (a + l.sum) (sumF a l')
  rw [abs_sub_comm (a + l.sum)] at h3
  linarith

/-- C70: what is added to has the sign of the terms. -/
theorem sumF_nonneg (l : List ℚ) (a : ℚ) (ha : 0 ≤ a) (hl : ∀ x ∈ l, 0 ≤ x) : 0 ≤ sumF a l := by
  induction l generalizing a with
  | nil => exact ha
  | cons x l ih =>
    refine ih (fl (a + x)) (fl_nonneg ?_) (fun y hy => hl y (List.mem_cons_of_mem _ hy))
    have := hl x List.mem_cons_self
    linarith

/-- The order does matter: three charges. -/
theorem order_matters : sumF 0 [1, 1 / 2 ^ 53, 1 / 2 ^ 53] = 1 ∧ sumF 0 [1 / 2 ^ 53, 1 / 2 ^ 53, 1] = 1 + 1 / 2 ^ 52 := by
  decide +kernel

/-- beam/weights.py:6-8, `out[idx[i]] += value[i]` in doubles. An array is a function on indices (`ι` is the type of indices, pairs for the grids of the 3D code). -/
def addAtF {ι : Type} [DecidableEq ι] (out : ι → ℚ) (l : List (ι × ℚ)) : ι → ℚ :=
  l.foldl (fun o iv => Function.update o iv.1 (fl (o iv.1 + iv.2))) out

/-- Specification: what is added to element `i`, in order. -/
def atNode {ι : Type} [DecidableEq ι] (i : ι) (l : List (ι × ℚ)) : List ℚ := (l.filter (fun iv => iv.1 = i)).map Prod.snd

theorem addAtF_apply {ι : Type} [DecidableEq ι] (out : ι → ℚ) (l : List (ι × ℚ)) (i : ι) : addAtF out l i = sumF (out i) (atNode i l) := by
  unfold addAtF atNode
  induction l generalizing out with
  | nil => rfl
  | cons a l ih =>
    rw [List.foldl_cons, ih, List.filter_cons]
    by_cases h : a.1 = i
    · subst h
      simp only [Function.update_self, decide_true, if_true, List.map_cons]
      rfl
    · rw [Function.update_of_ne (Ne.symm h)]
      simp [h]

/-- C70: the additions of a deposit in another order (atomic additions of a GPU come in any order) change an element by at most twice the rounding of the `m` additions to it. -/
theorem addAtF_perm {ι : Type} [DecidableEq ι] (out : ι → ℚ) {l l' : List (ι × ℚ)} (h : l.Perm l') (i : ι) :
    |addAtF out l i - addAtF out l' i| ≤ 2 * gam (atNode i l).length * (|out i| + absSum (atNode i l)) := by
  rw [addAtF_apply, addAtF_apply]
  exact sumF_perm ((h.filter _).map _) _

end Lcode.Fp
