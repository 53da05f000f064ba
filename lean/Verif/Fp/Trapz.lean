import Verif.Fp.BeamSum
import Verif.Plasma2D.Ode

/-!
C70: the cumulative integrals of the plasma solver in doubles.
-/

namespace Lcode.Fp

open Finset Lcode.Plasma2D

/-- `dx * y_average`, plasma/ode.py:29-30 and :34-35, in doubles. -/
def termF (y : ℕ → ℚ) (dx : ℚ) (k : ℕ) : ℚ := fl (dx * fl (fl (y (k + 1) + y k) / 2))

/-- cumtrapz_numba, plasma/ode.py:26-30 (`forward`), in doubles. -/
def cumForwardF (y : ℕ → ℚ) (dx : ℚ) : ℕ → ℚ
  | 0 => 0
  | i + 1 => fl (cumForwardF y dx i + termF y dx i)

/-- cumtrapz_numba, plasma/ode.py:31-35 (`backward`), in doubles: the value `k` nodes before the last. -/
def cumBackAuxF (y : ℕ → ℚ) (dx : ℚ) (last : ℕ) : ℕ → ℚ
  | 0 => 0
  | k + 1 => fl (cumBackAuxF y dx last k - termF y dx (last - (k + 1)))

/-- The value at node `i`. -/
def cumBackwardF (y : ℕ → ℚ) (dx : ℚ) (last i : ℕ) : ℚ := cumBackAuxF y dx last (last - i)

/-- Specification: the trapezoidal integral of the absolute values over the nodes `a..b`. -/
def absTrapezoid (y : ℕ → ℚ) (dx : ℚ) (a b : ℕ) : ℚ := ∑ k ∈ Ico a b, dx * ((|y (k + 1)| + |y k|) / 2)

theorem termF_err (y : ℕ → ℚ) (dx : ℚ) (k : ℕ) : Rel 3 (termF y dx k) (dx * ((y (k + 1) + y k) / 2)) := by
  unfold termF
  have h1 : Rel 1 (fl (y (k + 1) + y k)) (y (k + 1) + y k) := (Rel.refl _).fl
  have h2 := ((Rel.refl dx).mul ((h1.mul (Rel.refl (1 / 2))).fl)).fl
  refine Rel.mono (by norm_num : 0 + (1 + 0 + 1) + 1 ≤ 3) ?_
  rw [mul_one_div, mul_one_div] at h2
  exact h2

theorem forward_sum (y : ℕ → ℚ) (dx : ℚ) (i : ℕ) : cumForwardF y dx i = sumF 0 ((List.range i).map (termF y dx)) := by
  induction i with
  | zero => rfl
  | succ i ih =>
    rw [List.range_succ (n := i), List.map_append, cumForwardF, ih]
    simp [sumF, List.foldl_append]

theorem back_sum (y : ℕ → ℚ) (dx : ℚ) (last k : ℕ) : cumBackAuxF y dx last k = sumF 0 ((List.range k).map fun m => -termF y dx (last - (m + 1))) := by
  induction k with
  | zero => rfl
  | succ k ih =>
    rw [List.range_succ (n := k), List.map_append, cumBackAuxF, ih]
    simp [sumF, List.foldl_append, sub_eq_add_neg]

/-- A sum of rounded terms against the sum of what they stand for. -/
theorem rel_sum (l : List ℕ) (f g : ℕ → ℚ) (c : ℕ) (h : ∀ k ∈ l, Rel c (f k) (g k)) :
    |sumF 0 (l.map f) - (l.map g).sum| ≤ gam (l.length + c) * absSum (l.map g) := by
  have key : |(l.map f).sum - (l.map g).sum| ≤ gam c * absSum (l.map g) ∧ absSum (l.map f) ≤ (1 + gam c) * absSum (l.map g) := by
    induction l with
    | nil => simp [absSum]
    | cons a l ih =>
      obtain ⟨h1, h2⟩ := ih (fun k hk => h k (List.mem_cons_of_mem _ hk))
      have r := h a List.mem_cons_self
      have ra := r.abs_le
      unfold Rel at r
      simp only [absSum, List.map_cons, List.sum_cons] at h1 h2 ⊢
      refine ⟨?_, by linarith⟩
      generalize (l.map f).sum = F at *
      generalize (l.map g).sum = G at *
      rw [show f a + F - (g a + G) = (f a - g a) + (F - G) by ring]
      refine (abs_add_le _ _).trans ?_
      linarith
  have h1 := sumF_err (l.map f) 0
  rw [List.length_map, abs_zero, zero_add, zero_add] at h1
  have h2 := mul_le_mul_of_nonneg_left key.2 (gam_nonneg l.length)
  have h3 := abs_sub_le (sumF 0 (l.map f)) (l.map f).sum (l.map g).sum
  have h4 : gam (l.length + c) = gam l.length * (1 + gam c) + gam c := by
    linarith [gam_add l.length c, (by ring : (1 + gam l.length) * (1 + gam c) = 1 + (gam l.length * (1 + gam c) + gam c))]
  rw [h4]
  linarith [key.1, (by ring : (gam l.length * (1 + gam c) + gam c) * absSum (l.map g) = gam l.length * ((1 + gam c) * absSum (l.map g)) + gam c * absSum (l.map g))]

theorem abs_term (y : ℕ → ℚ) (dx : ℚ) (hd : 0 ≤ dx) (k : ℕ) : |dx * ((y (k + 1) + y k) / 2)| ≤ dx * ((|y (k + 1)| + |y k|) / 2) := by
  rw [abs_mul, abs_of_nonneg hd, abs_div, abs_of_pos (by norm_num : (0 : ℚ) < 2)]
  exact mul_le_mul_of_nonneg_left (div_le_div_of_nonneg_right (abs_add_le _ _) (by norm_num)) hd

theorem range_sum (f : ℕ → ℚ) (n : ℕ) : ((List.range n).map f).sum = ∑ k ∈ range n, f k := by
  induction n with
  | zero => simp
  | succ n ih => rw [List.range_succ (n := n), List.map_append, List.sum_append, ih, Finset.sum_range_succ]; simp

/-- C70: the forward cumulative integral in doubles is the trapezoidal rule (C15) up to `i + 3` roundings of the integral of the absolute values. -/
theorem cumForward_doubles (y : ℕ → ℚ) (dx : ℚ) (hd : 0 ≤ dx) (i : ℕ) :
    |cumForwardF y dx i - cumtrapzForward y dx i| ≤ gam (i + 3) * absTrapezoid y dx 0 i := by
  rw [forward_sum, cumtrapz_forward]
  have h1 := rel_sum (List.range i) (termF y dx) (fun k => dx * ((y (k + 1) + y k) / 2)) 3 (fun k _ => termF_err y dx k)
  rw [List.length_range] at h1
  have e : ((List.range i).map fun k => dx * ((y (k + 1) + y k) / 2)).sum = trapezoid y dx 0 i := by
    rw [range_sum]
    unfold trapezoid
    rw [← Finset.range_eq_Ico]
    apply Finset.sum_congr rfl
    intro k _; ring
  rw [e] at h1
  refine h1.trans (mul_le_mul_of_nonneg_left ?_ (gam_nonneg _))
  unfold absSum absTrapezoid
  rw [List.map_map, range_sum, ← Finset.range_eq_Ico]
  exact Finset.sum_le_sum fun k _ => abs_term y dx hd k

/-- C70: the backward one (the longitudinal electric field is this of the radial current), `last - i + 3` roundings. -/
theorem cumBackward_doubles (y : ℕ → ℚ) (dx : ℚ) (hd : 0 ≤ dx) (last i : ℕ) (hi : i ≤ last) :
    |cumBackwardF y dx last i - cumtrapzBackward y dx last i| ≤ gam (last - i + 3) * absTrapezoid y dx i last := by
  unfold cumBackwardF
  rw [back_sum, cumtrapz_backward y dx last i hi]
  have h1 := rel_sum (List.range (last - i)) (fun m => -termF y dx (last - (m + 1))) (fun m => -(dx * ((y (last - (m + 1) + 1) + y (last - (m + 1))) / 2))) 3 (fun k _ => by
    have := termF_err y dx (last - (k + 1))
    unfold Rel at this ⊢
    rw [abs_neg, neg_sub_neg, abs_sub_comm]
    exact this)
  rw [List.length_range] at h1
  have flip : ∀ f : ℕ → ℚ, ((List.range (last - i)).map fun m => f (last - (m + 1))).sum = ∑ k ∈ Ico i last, f k := by
    intro f
    rw [range_sum, Finset.sum_Ico_eq_sum_range, ← Finset.sum_range_reflect]
    apply Finset.sum_congr rfl
    intro k hk
    rw [mem_range] at hk
    congr 1
    omega
  have e := flip (fun k => -(dx * ((y (k + 1) + y k) / 2)))
  beta_reduce at e h1
  rw [e] at h1
  have e2 : ∑ k ∈ Ico i last, -(dx * ((y (k + 1) + y k) / 2)) = -trapezoid y dx i last := by
    unfold trapezoid
    rw [← Finset.sum_neg_distrib]
    apply Finset.sum_congr rfl
    intro k _; ring
  rw [e2] at h1
  refine h1.trans (mul_le_mul_of_nonneg_left ?_ (gam_nonneg _))
  unfold absSum absTrapezoid
  rw [List.map_map]
  have e3 := flip (fun k => |-(dx * ((y (k + 1) + y k) / 2))|)
  simp only [Function.comp_def]
  beta_reduce at e3
  rw [e3]
  refine Finset.sum_le_sum fun k _ => ?_
  rw [abs_neg]
  exact abs_term y dx hd k

/-- In plain numbers. -/
theorem cumBackward_plain (y : ℕ → ℚ) (dx : ℚ) (hd : 0 ≤ dx) (last i : ℕ) (hi : i ≤ last) (hl : last ≤ 10 ^ 6) :
    |cumBackwardF y dx last i - cumtrapzBackward y dx last i| ≤ absTrapezoid y dx i last / 10 ^ 9 := by
  have h1 := cumBackward_doubles y dx hd last i hi
  have h2 : gam (last - i + 3) ≤ 1 / 10 ^ 9 := by
    refine (gam_mono (by omega : last - i + 3 ≤ 10 ^ 6 + 3)).trans ((gam_le (by norm_num)).trans ?_)
    push_cast
    norm_num
  have h3 : 0 ≤ absTrapezoid y dx i last := by
    unfold absTrapezoid
    refine Finset.sum_nonneg fun k _ => mul_nonneg hd ?_
    linarith [abs_nonneg (y (k + 1)), abs_nonneg (y k)]
  refine h1.trans ((mul_le_mul_of_nonneg_right h2 h3).trans_eq (by ring))

end Lcode.Fp
