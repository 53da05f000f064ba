import Mathlib.Analysis.SpecialFunctions.Trigonometric.Basic
import Mathlib.Algebra.BigOperators.Intervals
import Mathlib.Tactic.FieldSimp
import Mathlib.Tactic.Ring
import Mathlib.Tactic.Linarith
import Mathlib.Tactic.LinearCombination

/-!
The transforms that lcode/plasma3d/fields.py takes from scipy, and the facts about them that the field solver rests on. Property C28.
`L = N - 1` throughout, N the number of grid nodes along one axis. Arrays are functions of integers; an array `a[1:-1]` of the code keeps the indices of `a` here.
-/

namespace Lcode.Plasma3D

open Finset

/-! ### Model: scipy.fftpack as documented -/

/-- `scipy.fftpack.dst(x, type=1)` without normalization, on an array with `L - 1` elements: y[k] = 2 sum_n x[n] sin(pi (k+1)(n+1) / L). Here both indices start at 1. Used at fields.py:16 and 26. -/
noncomputable def dst1 (L : ℕ) (u : ℤ → ℝ) (k : ℤ) : ℝ := 2 * ∑ n ∈ Finset.Ico 1 (L : ℤ), u n * Real.sin (Real.pi * k * n / L)

/-- `scipy.fftpack.dct(x, type=1)` without normalization, on an array with `L + 1` elements: y[k] = x[0] + (-1)^k x[L] + 2 sum_{n=1}^{L-1} x[n] cos(pi k n / L). Used at fields.py:17 and 27. -/
noncomputable def dct1 (L : ℕ) (u : ℤ → ℝ) (k : ℤ) : ℝ := u 0 + (-1) ^ k * u L + 2 * ∑ n ∈ Finset.Ico 1 (L : ℤ), u n * Real.cos (Real.pi * k * n / L)

/-- `dstn(a, type=1)`, fields.py:16: along both axes. -/
noncomputable def dst2 (L : ℕ) (u : ℤ → ℤ → ℝ) (k l : ℤ) : ℝ := dst1 L (fun n => dst1 L (fun m => u n m) l) k

/-- `dctn(a, type=1)`, fields.py:17. -/
noncomputable def dct2 (L : ℕ) (u : ℤ → ℤ → ℝ) (k l : ℤ) : ℝ := dct1 L (fun n => dct1 L (fun m => u n m) l) k

/-- The two transforms of mix2d, fields.py:26-27: sine along the first axis, then cosine along the second. -/
noncomputable def mixT (L : ℕ) (u : ℤ → ℤ → ℝ) (k l : ℤ) : ℝ := dct1 L (fun m => dst1 L (fun n => u n m) k) l

/-! ### Trapezoid sums -/

/-- `g 0 + 2 g 1 + ... + 2 g (L-1) + g L`. -/
noncomputable def trap (L : ℕ) (g : ℤ → ℝ) : ℝ := ∑ k ∈ range L, (g k + g (k + 1))

theorem trap_eq (L : ℕ) (hL : 1 ≤ L) (g : ℤ → ℝ) : trap L g = g 0 + g L + 2 * ∑ n ∈ Finset.Ico 1 (L : ℤ), g n := by
  unfold trap
  induction L with
  | zero => omega
  | succ L ih =>
    rw [Finset.sum_range_succ]
    rcases Nat.eq_zero_or_pos L with h0 | h0
    · subst h0; simp
    · rw [ih h0]
      have : Finset.Ico (1 : ℤ) ((L + 1 : ℕ) : ℤ) = insert (L : ℤ) (Finset.Ico 1 (L : ℤ)) := by
        ext k; simp only [Finset.mem_Ico, Finset.mem_insert]; omega
      rw [this, Finset.sum_insert (by simp)]
      push_cast
      ring

theorem trap_add (L : ℕ) (f g : ℤ → ℝ) : trap L (fun k => f k + g k) = trap L f + trap L g := by
  unfold trap; rw [← Finset.sum_add_distrib]; exact Finset.sum_congr rfl fun k _ => by ring

theorem trap_mul (L : ℕ) (c : ℝ) (g : ℤ → ℝ) : trap L (fun k => c * g k) = c * trap L g := by
  unfold trap; rw [Finset.mul_sum]; exact Finset.sum_congr rfl fun k _ => by ring

theorem trap_mul_right (L : ℕ) (c : ℝ) (g : ℤ → ℝ) : trap L (fun k => g k * c) = trap L g * c := by
  unfold trap; rw [Finset.sum_mul]; exact Finset.sum_congr rfl fun k _ => by ring

theorem trap_congr (L : ℕ) (f g : ℤ → ℝ) (h : ∀ k : ℤ, 0 ≤ k → k ≤ L → f k = g k) : trap L f = trap L g := by
  unfold trap
  refine Finset.sum_congr rfl fun k hk => ?_
  rw [Finset.mem_range] at hk
  rw [h k (by omega) (by omega), h (k + 1) (by omega) (by omega)]

theorem trap_zero (L : ℕ) (g : ℤ → ℝ) (h : ∀ k : ℤ, 0 ≤ k → k ≤ L → g k = 0) : trap L g = 0 := by
  rw [trap_congr L g (fun _ => 0) h]; simp [trap]

theorem trap_comm (L M : ℕ) (f : ℤ → ℤ → ℝ) : trap L (fun k => trap M (fun n => f k n)) = trap M (fun n => trap L (fun k => f k n)) := by
  unfold trap
  simp only [Finset.sum_add_distrib]
  rw [Finset.sum_comm, Finset.sum_comm (s := range L) (t := range M) (f := fun k n => f (k : ℤ) ((n : ℤ) + 1)),
    Finset.sum_comm (s := range L) (t := range M) (f := fun k n => f ((k : ℤ) + 1) (n : ℤ)),
    Finset.sum_comm (s := range L) (t := range M) (f := fun k n => f ((k : ℤ) + 1) ((n : ℤ) + 1))]
  ring

theorem dst1_trap (L : ℕ) (hL : 1 ≤ L) (u : ℤ → ℝ) (k : ℤ) : dst1 L u k = trap L (fun n => u n * Real.sin (Real.pi * k * n / L)) := by
  have hLr : (L : ℝ) ≠ 0 := by positivity
  rw [trap_eq L hL]
  unfold dst1
  have h1 : Real.sin (Real.pi * k * ((0 : ℤ) : ℝ) / L) = 0 := by simp
  have h2 : Real.sin (Real.pi * k * ((L : ℤ) : ℝ) / L) = 0 := by
    rw [Int.cast_natCast, mul_div_assoc, div_self hLr, mul_one, mul_comm]; exact Real.sin_int_mul_pi k
  rw [h1, h2]; ring

theorem dct1_trap (L : ℕ) (hL : 1 ≤ L) (u : ℤ → ℝ) (k : ℤ) : dct1 L u k = trap L (fun n => u n * Real.cos (Real.pi * k * n / L)) := by
  have hLr : (L : ℝ) ≠ 0 := by positivity
  rw [trap_eq L hL]
  unfold dct1
  have h1 : Real.cos (Real.pi * k * ((0 : ℤ) : ℝ) / L) = 1 := by simp
  have h2 : Real.cos (Real.pi * k * ((L : ℤ) : ℝ) / L) = (-1) ^ k := by
    rw [Int.cast_natCast, mul_div_assoc, div_self hLr, mul_one, mul_comm]; exact Real.cos_int_mul_pi k
  rw [h1, h2]; ring

/-! ### Orthogonality -/

theorem trap_cos_telescope (L : ℕ) (θ : ℝ) : Real.sin (θ / 2) * trap L (fun k => Real.cos (k * θ)) = Real.sin (L * θ) * Real.cos (θ / 2) := by
  unfold trap
  induction L with
  | zero => simp
  | succ L ih =>
    rw [Finset.sum_range_succ, mul_add, ih]
    push_cast
    have e1 : Real.cos ((L + 1) * θ) = Real.cos (L * θ) * Real.cos θ - Real.sin (L * θ) * Real.sin θ := by rw [add_mul, one_mul, Real.cos_add]
    have e2 : Real.sin ((L + 1) * θ) = Real.sin (L * θ) * Real.cos θ + Real.cos (L * θ) * Real.sin θ := by rw [add_mul, one_mul, Real.sin_add]
    rw [e1, e2]
    have c2 : Real.cos θ = 2 * Real.cos (θ / 2) ^ 2 - 1 := by rw [← Real.cos_two_mul]; congr 1; ring
    have s2 : Real.sin θ = 2 * Real.sin (θ / 2) * Real.cos (θ / 2) := by rw [← Real.sin_two_mul]; congr 1; ring
    have one := Real.sin_sq_add_cos_sq (θ / 2)
    rw [c2, s2]
    linear_combination (-2 * Real.sin (L * θ) * Real.cos (θ / 2)) * one

/-- The sum of a cosine over one period of the grid. -/
theorem trap_cos (L : ℕ) (hL : 1 ≤ L) (m : ℤ) : trap L (fun k => Real.cos (Real.pi * k * m / L)) = if (2 * (L : ℤ)) ∣ m then 2 * (L : ℝ) else 0 := by
  have hLr : (L : ℝ) ≠ 0 := by positivity
  have hLp : (0 : ℝ) < L := by exact_mod_cast hL
  split_ifs with hd
  · obtain ⟨c, rfl⟩ := hd
    have : ∀ k : ℤ, Real.cos (Real.pi * k * ((2 * (L : ℤ) * c : ℤ) : ℝ) / L) = 1 := by
      intro k
      rw [show Real.pi * k * ((2 * (L : ℤ) * c : ℤ) : ℝ) / L = ((k * c : ℤ) : ℝ) * (2 * Real.pi) by push_cast; field_simp]
      exact Real.cos_int_mul_two_pi _
    simp only [this, trap]
    simp; ring
  · have e : (fun k : ℤ => Real.cos (Real.pi * k * m / L)) = fun k : ℤ => Real.cos (k * (Real.pi * m / L)) := by funext k; congr 1; ring
    rw [e]
    have t := trap_cos_telescope L (Real.pi * m / L)
    have hs : Real.sin (L * (Real.pi * m / L)) = 0 := by
      rw [show (L : ℝ) * (Real.pi * m / L) = m * Real.pi by field_simp]; exact Real.sin_int_mul_pi m
    rw [hs, zero_mul] at t
    rcases mul_eq_zero.mp t with h | h
    · exfalso
      rw [Real.sin_eq_zero_iff] at h
      obtain ⟨n, hn⟩ := h
      apply hd
      refine ⟨n, ?_⟩
      have : (m : ℝ) = 2 * L * n := by
        have hp := Real.pi_pos.ne'
        field_simp at hn
        linarith
      exact_mod_cast this
    · exact h

theorem trap_sin_sin (L : ℕ) (hL : 1 ≤ L) (n m : ℤ) (hn0 : 0 ≤ n) (hn1 : n ≤ L) (hm0 : 1 ≤ m) (hm1 : m < L) :
    trap L (fun k => Real.sin (Real.pi * k * n / L) * Real.sin (Real.pi * m * k / L)) = if n = m then (L : ℝ) else 0 := by
  have e : (fun k : ℤ => Real.sin (Real.pi * k * n / L) * Real.sin (Real.pi * m * k / L)) =
      fun k : ℤ => 1 / 2 * Real.cos (Real.pi * k * ((n - m : ℤ) : ℝ) / L) + -(1 / 2) * Real.cos (Real.pi * k * ((n + m : ℤ) : ℝ) / L) := by
    funext k
    have h1 : Real.pi * k * ((n - m : ℤ) : ℝ) / L = Real.pi * k * n / L - Real.pi * m * k / L := by push_cast; ring
    have h2 : Real.pi * k * ((n + m : ℤ) : ℝ) / L = Real.pi * k * n / L + Real.pi * m * k / L := by push_cast; ring
    rw [h1, h2, Real.cos_sub, Real.cos_add]; ring
  rw [e, trap_add, trap_mul, trap_mul, trap_cos L hL, trap_cos L hL]
  have hno : ¬ (2 * (L : ℤ)) ∣ n + m := by
    rintro ⟨c, hc⟩
    rcases le_or_gt c 0 with h | h
    · nlinarith
    · nlinarith
  rw [if_neg hno]
  by_cases h : n = m
  · rw [if_pos h, if_pos (by rw [h]; simp)]; ring
  · rw [if_neg h, if_neg]
    · ring
    · rintro ⟨c, hc⟩
      rcases lt_trichotomy c 0 with h' | h' | h'
      · nlinarith
      · rw [h'] at hc; omega
      · nlinarith

theorem trap_cos_cos (L : ℕ) (hL : 1 ≤ L) (n m : ℤ) (hn0 : 0 ≤ n) (hn1 : n ≤ L) (hm0 : 0 ≤ m) (hm1 : m ≤ L) :
    trap L (fun k => Real.cos (Real.pi * k * n / L) * Real.cos (Real.pi * m * k / L)) = if n = m then (if m = 0 ∨ m = L then 2 * (L : ℝ) else L) else 0 := by
  have e : (fun k : ℤ => Real.cos (Real.pi * k * n / L) * Real.cos (Real.pi * m * k / L)) =
      fun k : ℤ => 1 / 2 * Real.cos (Real.pi * k * ((n - m : ℤ) : ℝ) / L) + 1 / 2 * Real.cos (Real.pi * k * ((n + m : ℤ) : ℝ) / L) := by
    funext k
    have h1 : Real.pi * k * ((n - m : ℤ) : ℝ) / L = Real.pi * k * n / L - Real.pi * m * k / L := by push_cast; ring
    have h2 : Real.pi * k * ((n + m : ℤ) : ℝ) / L = Real.pi * k * n / L + Real.pi * m * k / L := by push_cast; ring
    rw [h1, h2, Real.cos_sub, Real.cos_add]; ring
  rw [e, trap_add, trap_mul, trap_mul, trap_cos L hL, trap_cos L hL]
  by_cases h : n = m
  · subst h
    rw [if_pos (by simp), if_pos rfl]
    by_cases hb : n = 0 ∨ n = L
    · rw [if_pos hb, if_pos]
      · ring
      · rcases hb with rfl | rfl
        · simp
        · exact ⟨1, by ring⟩
    · rw [if_neg hb, if_neg]
      · ring
      · push Not at hb
        rintro ⟨c, hc⟩
        have := lt_of_le_of_ne hn0 (Ne.symm hb.1)
        have := lt_of_le_of_ne hn1 hb.2
        rcases le_or_gt c 0 with h' | h'
        · nlinarith
        · nlinarith
  · rw [if_neg h, if_neg, if_neg]
    · ring
    · rintro ⟨c, hc⟩
      rcases le_or_gt c 0 with h' | h'
      · have : n + m ≤ 0 := by nlinarith
        omega
      · have : 2 * (L : ℤ) ≤ n + m := by nlinarith
        omega
    · rintro ⟨c, hc⟩
      rcases lt_trichotomy c 0 with h' | h' | h'
      · nlinarith
      · rw [h'] at hc; omega
      · nlinarith

theorem trap_single (L : ℕ) (hL : 1 ≤ L) (u : ℤ → ℝ) (m : ℤ) (c : ℝ) (hm0 : 0 ≤ m) (hm1 : m ≤ L) :
    trap L (fun n => u n * if n = m then c else 0) = if m = 0 ∨ m = L then u m * c else 2 * (u m * c) := by
  have hL0 : (0 : ℤ) < L := by exact_mod_cast hL
  rw [trap_eq L hL]
  have hs : ∑ n ∈ Finset.Ico 1 (L : ℤ), (u n * if n = m then c else 0) = if 1 ≤ m ∧ m < L then u m * c else 0 := by
    split_ifs with h
    · rw [Finset.sum_eq_single m]
      · simp
      · intro b _ hb; simp [hb]
      · intro hn; exact absurd (Finset.mem_Ico.mpr h) hn
    · apply Finset.sum_eq_zero
      intro b hb
      rw [Finset.mem_Ico] at hb
      rw [if_neg (by rintro rfl; exact h hb), mul_zero]
  rw [hs]
  by_cases h0 : m = 0
  · subst h0
    rw [if_pos rfl, if_neg (by omega), if_neg (by omega), if_pos (Or.inl rfl)]; ring
  · by_cases h1 : m = L
    · subst h1
      rw [if_neg (by omega), if_pos rfl, if_neg (by omega), if_pos (Or.inr rfl)]; ring
    · rw [if_neg (by omega), if_neg (by omega), if_pos (by omega), if_neg (by tauto)]; ring

/-- C28: applying the sine transform twice multiplies by `2 L`. -/
theorem dst1_dst1 (L : ℕ) (hL : 1 ≤ L) (u : ℤ → ℝ) (m : ℤ) (hm0 : 1 ≤ m) (hm1 : m < L) : dst1 L (dst1 L u) m = 2 * L * u m := by
  rw [dst1_trap L hL]
  simp only [dst1_trap L hL u, ← trap_mul_right]
  rw [trap_comm]
  have e : ∀ n : ℤ, 0 ≤ n → n ≤ L → trap L (fun k => u n * Real.sin (Real.pi * k * n / L) * Real.sin (Real.pi * m * k / L)) = u n * if n = m then (L : ℝ) else 0 := by
    intro n h0 h1
    rw [← trap_sin_sin L hL n m h0 h1 hm0 hm1, ← trap_mul]
    exact trap_congr _ _ _ fun k _ _ => by ring
  rw [trap_congr _ _ _ e, trap_single L hL u m L (by omega) hm1.le, if_neg (by omega)]
  ring

/-- C28: applying the cosine transform twice multiplies by `2 L`. -/
theorem dct1_dct1 (L : ℕ) (hL : 1 ≤ L) (u : ℤ → ℝ) (m : ℤ) (hm0 : 0 ≤ m) (hm1 : m ≤ L) : dct1 L (dct1 L u) m = 2 * L * u m := by
  rw [dct1_trap L hL]
  simp only [dct1_trap L hL u, ← trap_mul_right]
  rw [trap_comm]
  have e : ∀ n : ℤ, 0 ≤ n → n ≤ L → trap L (fun k => u n * Real.cos (Real.pi * k * n / L) * Real.cos (Real.pi * m * k / L)) =
      u n * if n = m then (if m = 0 ∨ m = L then 2 * (L : ℝ) else L) else 0 := by
    intro n h0 h1
    rw [← trap_cos_cos L hL n m h0 h1 hm0 hm1, ← trap_mul]
    exact trap_congr _ _ _ fun k _ _ => by ring
  rw [trap_congr _ _ _ e, trap_single L hL u m _ hm0 hm1]
  split_ifs <;> ring

/-! ### The transforms diagonalize the second difference -/

/-- `lam[k] * h**2` of initialization.py:24, 43, 44, 63. -/
noncomputable def lam0 (L : ℕ) (k : ℤ) : ℝ := 4 * Real.sin (k * Real.pi / (2 * L)) ^ 2

theorem lam0_cos (L : ℕ) (k : ℤ) : lam0 L k = 2 - 2 * Real.cos (Real.pi * k / L) := by
  unfold lam0
  have : Real.pi * k / L = 2 * (k * Real.pi / (2 * L)) := by
    by_cases h : (L : ℝ) = 0
    · rw [h]; simp
    · field_simp
  rw [this, Real.cos_two_mul]
  linear_combination (4 : ℝ) * Real.sin_sq_add_cos_sq (k * Real.pi / (2 * L))

theorem lam0_nonneg (L : ℕ) (k : ℤ) : 0 ≤ lam0 L k := by unfold lam0; positivity

theorem lam0_pos (L : ℕ) (k : ℤ) (h1 : 1 ≤ k) (h2 : k ≤ L) : 0 < lam0 L k := by
  have hk : (1 : ℝ) ≤ k := by exact_mod_cast h1
  have hk' : (k : ℝ) ≤ L := by exact_mod_cast h2
  have hL : (0 : ℝ) < L := by linarith
  have hp := Real.pi_pos
  unfold lam0
  have : 0 < Real.sin (k * Real.pi / (2 * L)) := by
    apply Real.sin_pos_of_pos_of_lt_pi
    · positivity
    · rw [div_lt_iff₀ (by positivity)]; nlinarith
  positivity

/-- Sums of sines have no part beyond the first order differences: second difference of the sine transform. -/
theorem dst1_diff (L : ℕ) (g : ℤ → ℝ) (n : ℤ) : -(dst1 L g (n + 1) - 2 * dst1 L g n + dst1 L g (n - 1)) = dst1 L (fun k => lam0 L k * g k) n := by
  unfold dst1
  rw [show -(2 * ∑ k ∈ Finset.Ico 1 (L : ℤ), g k * Real.sin (Real.pi * ((n + 1 : ℤ) : ℝ) * k / L) - 2 * (2 * ∑ k ∈ Finset.Ico 1 (L : ℤ), g k * Real.sin (Real.pi * n * k / L)) +
      2 * ∑ k ∈ Finset.Ico 1 (L : ℤ), g k * Real.sin (Real.pi * ((n - 1 : ℤ) : ℝ) * k / L)) =
      2 * (2 * ∑ k ∈ Finset.Ico 1 (L : ℤ), g k * Real.sin (Real.pi * n * k / L) - ∑ k ∈ Finset.Ico 1 (L : ℤ), g k * Real.sin (Real.pi * ((n + 1 : ℤ) : ℝ) * k / L) -
      ∑ k ∈ Finset.Ico 1 (L : ℤ), g k * Real.sin (Real.pi * ((n - 1 : ℤ) : ℝ) * k / L)) by ring]
  rw [Finset.mul_sum, ← Finset.sum_sub_distrib, ← Finset.sum_sub_distrib]
  congr 1
  refine Finset.sum_congr rfl fun k _ => ?_
  have h1 : Real.pi * ((n + 1 : ℤ) : ℝ) * k / L = Real.pi * n * k / L + Real.pi * k / L := by push_cast; ring
  have h2 : Real.pi * ((n - 1 : ℤ) : ℝ) * k / L = Real.pi * n * k / L - Real.pi * k / L := by push_cast; ring
  simp only
  rw [h1, h2, Real.sin_add, Real.sin_sub, lam0_cos]; ring

theorem dct1_diff (L : ℕ) (hL : 1 ≤ L) (g : ℤ → ℝ) (n : ℤ) : -(dct1 L g (n + 1) - 2 * dct1 L g n + dct1 L g (n - 1)) = dct1 L (fun k => lam0 L k * g k) n := by
  simp only [dct1_trap L hL]
  rw [show -(trap L (fun k => g k * Real.cos (Real.pi * ((n + 1 : ℤ) : ℝ) * k / L)) - 2 * trap L (fun k => g k * Real.cos (Real.pi * n * k / L)) + trap L (fun k => g k * Real.cos (Real.pi * ((n - 1 : ℤ) : ℝ) * k / L))) =
      -1 * trap L (fun k => g k * Real.cos (Real.pi * ((n + 1 : ℤ) : ℝ) * k / L)) + 2 * trap L (fun k => g k * Real.cos (Real.pi * n * k / L)) + -1 * trap L (fun k => g k * Real.cos (Real.pi * ((n - 1 : ℤ) : ℝ) * k / L)) by ring]
  rw [← trap_mul, ← trap_mul, ← trap_mul, ← trap_add, ← trap_add]
  refine trap_congr _ _ _ fun k _ _ => ?_
  have h1 : Real.pi * ((n + 1 : ℤ) : ℝ) * k / L = Real.pi * n * k / L + Real.pi * k / L := by push_cast; ring
  have h2 : Real.pi * ((n - 1 : ℤ) : ℝ) * k / L = Real.pi * n * k / L - Real.pi * k / L := by push_cast; ring
  rw [h1, h2, Real.cos_add, Real.cos_sub, lam0_cos]; ring

/-- C28: the sine transform vanishes at both ends, the cosine transform is mirrored there. -/
theorem dst1_ends (L : ℕ) (hL : 1 ≤ L) (g : ℤ → ℝ) : dst1 L g 0 = 0 ∧ dst1 L g L = 0 := by
  have hLr : (L : ℝ) ≠ 0 := by positivity
  unfold dst1
  constructor
  · simp
  · have : ∀ n : ℤ, Real.sin (Real.pi * ((L : ℤ) : ℝ) * n / L) = 0 := by
      intro n
      rw [Int.cast_natCast, show Real.pi * (L : ℝ) * n / L = n * Real.pi by field_simp]; exact Real.sin_int_mul_pi n
    simp only [this, mul_zero, Finset.sum_const_zero]

theorem dct1_mirror (L : ℕ) (hL : 1 ≤ L) (g : ℤ → ℝ) (d : ℤ) : dct1 L g (-d) = dct1 L g d ∧ dct1 L g (L + d) = dct1 L g (L - d) := by
  have hLr : (L : ℝ) ≠ 0 := by positivity
  simp only [dct1_trap L hL]
  constructor
  · refine trap_congr _ _ _ fun k _ _ => ?_
    rw [show Real.pi * ((-d : ℤ) : ℝ) * k / L = -(Real.pi * d * k / L) by push_cast; ring, Real.cos_neg]
  · refine trap_congr _ _ _ fun k _ _ => ?_
    rw [show Real.pi * (((L : ℤ) + d : ℤ) : ℝ) * k / L = k * Real.pi + Real.pi * d * k / L by push_cast; field_simp,
      show Real.pi * (((L : ℤ) - d : ℤ) : ℝ) * k / L = k * Real.pi - Real.pi * d * k / L by push_cast; field_simp, Real.cos_add, Real.cos_sub, Real.sin_int_mul_pi]
    ring

/-! ### Linearity and independence of values outside the array -/

theorem dst1_congr (L : ℕ) (u v : ℤ → ℝ) (k : ℤ) (h : ∀ n : ℤ, 1 ≤ n → n < L → u n = v n) : dst1 L u k = dst1 L v k := by
  unfold dst1; congr 1
  refine Finset.sum_congr rfl fun n hn => ?_
  rw [Finset.mem_Ico] at hn; rw [h n hn.1 hn.2]

theorem dct1_congr (L : ℕ) (hL : 1 ≤ L) (u v : ℤ → ℝ) (k : ℤ) (h : ∀ n : ℤ, 0 ≤ n → n ≤ L → u n = v n) : dct1 L u k = dct1 L v k := by
  rw [dct1_trap L hL, dct1_trap L hL]
  exact trap_congr _ _ _ fun n h0 h1 => by rw [h n h0 h1]

theorem dst1_mul (L : ℕ) (c : ℝ) (u : ℤ → ℝ) (k : ℤ) : dst1 L (fun n => c * u n) k = c * dst1 L u k := by
  unfold dst1
  rw [mul_left_comm]
  congr 1
  rw [Finset.mul_sum]
  exact Finset.sum_congr rfl fun n _ => by ring

theorem dct1_mul (L : ℕ) (c : ℝ) (u : ℤ → ℝ) (k : ℤ) : dct1 L (fun n => c * u n) k = c * dct1 L u k := by
  unfold dct1
  have : ∑ n ∈ Finset.Ico 1 (L : ℤ), c * u n * Real.cos (Real.pi * k * n / L) = c * ∑ n ∈ Finset.Ico 1 (L : ℤ), u n * Real.cos (Real.pi * k * n / L) := by
    rw [Finset.mul_sum]; exact Finset.sum_congr rfl fun n _ => by ring
  simp only
  rw [this]; ring

theorem dst1_add (L : ℕ) (u v : ℤ → ℝ) (k : ℤ) : dst1 L (fun n => u n + v n) k = dst1 L u k + dst1 L v k := by
  unfold dst1; rw [← mul_add, ← Finset.sum_add_distrib]; congr 1; exact Finset.sum_congr rfl fun n _ => by ring

theorem dct1_add (L : ℕ) (u v : ℤ → ℝ) (k : ℤ) : dct1 L (fun n => u n + v n) k = dct1 L u k + dct1 L v k := by
  unfold dct1
  have : ∑ n ∈ Finset.Ico 1 (L : ℤ), (u n + v n) * Real.cos (Real.pi * k * n / L) =
      ∑ n ∈ Finset.Ico 1 (L : ℤ), u n * Real.cos (Real.pi * k * n / L) + ∑ n ∈ Finset.Ico 1 (L : ℤ), v n * Real.cos (Real.pi * k * n / L) := by
    rw [← Finset.sum_add_distrib]; exact Finset.sum_congr rfl fun n _ => by ring
  rw [this]; ring

theorem dst1_dct1_comm (L : ℕ) (hL : 1 ≤ L) (u : ℤ → ℤ → ℝ) (k l : ℤ) : dst1 L (fun n => dct1 L (fun m => u n m) l) k = dct1 L (fun m => dst1 L (fun n => u n m) k) l := by
  simp only [dst1_trap L hL, dct1_trap L hL]
  simp only [← trap_mul_right]
  rw [trap_comm]
  exact trap_congr _ _ _ fun n _ _ => trap_congr _ _ _ fun k _ _ => by ring

theorem dst1_dst1_comm (L : ℕ) (hL : 1 ≤ L) (u : ℤ → ℤ → ℝ) (k l : ℤ) : dst1 L (fun n => dst1 L (fun m => u n m) l) k = dst1 L (fun m => dst1 L (fun n => u n m) k) l := by
  simp only [dst1_trap L hL]
  simp only [← trap_mul_right]
  rw [trap_comm]
  exact trap_congr _ _ _ fun n _ _ => trap_congr _ _ _ fun k _ _ => by ring

theorem dct1_dct1_comm (L : ℕ) (hL : 1 ≤ L) (u : ℤ → ℤ → ℝ) (k l : ℤ) : dct1 L (fun n => dct1 L (fun m => u n m) l) k = dct1 L (fun m => dct1 L (fun n => u n m) k) l := by
  simp only [dct1_trap L hL]
  simp only [← trap_mul_right]
  rw [trap_comm]
  exact trap_congr _ _ _ fun n _ _ => trap_congr _ _ _ fun k _ _ => by ring

/-! ### The two-dimensional transforms -/

/-- Five-point Laplacian without the factor 1/h². -/
def lap5 (u : ℤ → ℤ → ℝ) (i j : ℤ) : ℝ := u (i + 1) j + u (i - 1) j + u i (j + 1) + u i (j - 1) - 4 * u i j

theorem dst2_dst2 (L : ℕ) (hL : 1 ≤ L) (u : ℤ → ℤ → ℝ) (i j : ℤ) (hi : 1 ≤ i ∧ i < L) (hj : 1 ≤ j ∧ j < L) : dst2 L (dst2 L u) i j = (2 * L) ^ 2 * u i j := by
  unfold dst2
  have e : ∀ n : ℤ, dst1 L (fun m => dst1 L (fun n' => dst1 L (fun m' => u n' m') m) n) j = 2 * L * dst1 L (fun n' => u n' j) n := by
    intro n
    rw [dst1_dst1_comm L hL (fun a b => dst1 L (fun m' => u b m') a) j n]
    rw [← dst1_mul]
    apply dst1_congr
    intro n' _ _
    exact dst1_dst1 L hL (fun m' => u n' m') j hj.1 hj.2
  simp only [e]
  rw [dst1_mul, dst1_dst1 L hL _ i hi.1 hi.2]
  ring

theorem dct2_dct2 (L : ℕ) (hL : 1 ≤ L) (u : ℤ → ℤ → ℝ) (i j : ℤ) (hi : 0 ≤ i ∧ i ≤ L) (hj : 0 ≤ j ∧ j ≤ L) : dct2 L (dct2 L u) i j = (2 * L) ^ 2 * u i j := by
  unfold dct2
  have e : ∀ n : ℤ, dct1 L (fun m => dct1 L (fun n' => dct1 L (fun m' => u n' m') m) n) j = 2 * L * dct1 L (fun n' => u n' j) n := by
    intro n
    rw [dct1_dct1_comm L hL (fun a b => dct1 L (fun m' => u b m') a) j n]
    rw [← dct1_mul]
    apply dct1_congr L hL
    intro n' _ _
    exact dct1_dct1 L hL (fun m' => u n' m') j hj.1 hj.2
  simp only [e]
  rw [dct1_mul, dct1_dct1 L hL _ i hi.1 hi.2]
  ring

theorem mixT_mixT (L : ℕ) (hL : 1 ≤ L) (u : ℤ → ℤ → ℝ) (i j : ℤ) (hi : 1 ≤ i ∧ i < L) (hj : 0 ≤ j ∧ j ≤ L) : mixT L (mixT L u) i j = (2 * L) ^ 2 * u i j := by
  unfold mixT
  have e : ∀ m : ℤ, dst1 L (fun n => dct1 L (fun m' => dst1 L (fun n' => u n' m') n) m) i = 2 * L * dct1 L (fun m' => u i m') m := by
    intro m
    rw [dst1_dct1_comm L hL (fun a b => dst1 L (fun n' => u n' b) a) i m]
    rw [← dct1_mul]
    apply dct1_congr L hL
    intro m' _ _
    exact dst1_dst1 L hL (fun n' => u n' m') i hi.1 hi.2
  simp only [e]
  rw [dct1_mul, dct1_dct1 L hL _ j hj.1 hj.2]
  ring

theorem dst2_lap (L : ℕ) (hL : 1 ≤ L) (g : ℤ → ℤ → ℝ) (i j : ℤ) : -lap5 (dst2 L g) i j = dst2 L (fun k l => (lam0 L k + lam0 L l) * g k l) i j := by
  have h1 : -(dst2 L g (i + 1) j - 2 * dst2 L g i j + dst2 L g (i - 1) j) = dst2 L (fun k l => lam0 L k * g k l) i j := by
    unfold dst2
    rw [dst1_diff]
    simp only [dst1_mul]
  have h2 : -(dst2 L g i (j + 1) - 2 * dst2 L g i j + dst2 L g i (j - 1)) = dst2 L (fun k l => lam0 L l * g k l) i j := by
    unfold dst2
    rw [dst1_dst1_comm L hL g, dst1_dst1_comm L hL g, dst1_dst1_comm L hL g, dst1_diff, dst1_dst1_comm L hL]
    simp only [dst1_mul]
  have h3 : dst2 L (fun k l => (lam0 L k + lam0 L l) * g k l) i j = dst2 L (fun k l => lam0 L k * g k l) i j + dst2 L (fun k l => lam0 L l * g k l) i j := by
    unfold dst2
    simp only [add_mul, dst1_add]
  rw [h3, ← h1, ← h2]; unfold lap5; ring

theorem dct2_lap (L : ℕ) (hL : 1 ≤ L) (g : ℤ → ℤ → ℝ) (i j : ℤ) : -lap5 (dct2 L g) i j = dct2 L (fun k l => (lam0 L k + lam0 L l) * g k l) i j := by
  have h1 : -(dct2 L g (i + 1) j - 2 * dct2 L g i j + dct2 L g (i - 1) j) = dct2 L (fun k l => lam0 L k * g k l) i j := by
    unfold dct2
    rw [dct1_diff L hL]
    simp only [dct1_mul]
  have h2 : -(dct2 L g i (j + 1) - 2 * dct2 L g i j + dct2 L g i (j - 1)) = dct2 L (fun k l => lam0 L l * g k l) i j := by
    unfold dct2
    rw [dct1_dct1_comm L hL g, dct1_dct1_comm L hL g, dct1_dct1_comm L hL g, dct1_diff L hL, dct1_dct1_comm L hL]
    simp only [dct1_mul]
  have h3 : dct2 L (fun k l => (lam0 L k + lam0 L l) * g k l) i j = dct2 L (fun k l => lam0 L k * g k l) i j + dct2 L (fun k l => lam0 L l * g k l) i j := by
    unfold dct2
    simp only [add_mul, dct1_add]
  rw [h3, ← h1, ← h2]; unfold lap5; ring

theorem mixT_lap (L : ℕ) (hL : 1 ≤ L) (g : ℤ → ℤ → ℝ) (i j : ℤ) : -lap5 (mixT L g) i j = mixT L (fun k l => (lam0 L k + lam0 L l) * g k l) i j := by
  have h1 : -(mixT L g (i + 1) j - 2 * mixT L g i j + mixT L g (i - 1) j) = mixT L (fun k l => lam0 L k * g k l) i j := by
    unfold mixT
    rw [← dst1_dct1_comm L hL g, ← dst1_dct1_comm L hL g, ← dst1_dct1_comm L hL g, dst1_diff, ← dst1_dct1_comm L hL]
    simp only [dct1_mul]
  have h2 : -(mixT L g i (j + 1) - 2 * mixT L g i j + mixT L g i (j - 1)) = mixT L (fun k l => lam0 L l * g k l) i j := by
    unfold mixT
    rw [dct1_diff L hL]
    simp only [dst1_mul]
  have h3 : mixT L (fun k l => (lam0 L k + lam0 L l) * g k l) i j = mixT L (fun k l => lam0 L k * g k l) i j + mixT L (fun k l => lam0 L l * g k l) i j := by
    unfold mixT
    simp only [add_mul, dst1_add, dct1_add]
  rw [h3, ← h1, ← h2]; unfold lap5; ring

end Lcode.Plasma3D
