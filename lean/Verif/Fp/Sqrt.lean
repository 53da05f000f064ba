import Verif.Fp.Sums
import Mathlib.Data.Real.Sqrt
import Mathlib.Data.Nat.Sqrt

/-!
The square root of doubles: IEEE 754 requires it to be the double nearest to the exact root. Exponents are unbounded, as in Fp/Round.lean.
-/

namespace Lcode.Fp

/-- Exponent of the last place of the double nearest to the root of `x`. -/
def rootExp (x : ℚ) : ℤ := Int.log 2 x / 2 - 52

/-- `x` in units such that its root has 53 binary digits before the point. -/
def rootArg (x : ℚ) : ℚ := x / 4 ^ rootExp x

/-- The integer part of that root. -/
def rootInt (x : ℚ) : ℕ := Nat.sqrt ⌊rootArg x⌋₊

/-- np.sqrt and math.sqrt of doubles (lcode/plasma/move.py:81, 119, 140, lcode/plasma/rhoj.py:34): the double nearest to the root. (A root of a double is never half-way between two doubles.) -/
def sqrtF (x : ℚ) : ℚ :=
  if x ≤ 0 then 0 else
  (if rootArg x < ((rootInt x : ℚ) + 1 / 2) ^ 2 then (rootInt x : ℚ) else (rootInt x : ℚ) + 1) * 2 ^ rootExp x

theorem four_zpow (e : ℤ) : (4 : ℚ) ^ e = (2 ^ e) * (2 ^ e) := by
  rw [show (4 : ℚ) = 2 * 2 by norm_num, mul_zpow]

theorem four_zpow_pos (e : ℤ) : (0 : ℚ) < 4 ^ e := zpow_pos (by norm_num) e

theorem rootArg_range {x : ℚ} (hx : 0 < x) : (2 : ℚ) ^ 104 ≤ rootArg x ∧ rootArg x < 2 ^ 106 := by
  have h1 := log_le hx.ne'
  have h2 := lt_log x
  rw [abs_of_pos hx] at h1 h2
  unfold rootArg rootExp
  set e := Int.log 2 x
  have h4 := four_zpow_pos (e / 2 - 52)
  have e4 : (4 : ℚ) ^ (e / 2 - 52) = 2 ^ (2 * (e / 2 - 52)) := by
    rw [show (4 : ℚ) = 2 ^ (2 : ℤ) by norm_num, ← zpow_mul]
  have a : 2 * (e / 2) ≤ e := by omega
  have b : e + 1 ≤ 2 * (e / 2) + 2 := by omega
  rw [le_div_iff₀ h4, div_lt_iff₀ h4, e4, ← zpow_natCast (2 : ℚ) 104, ← zpow_natCast (2 : ℚ) 106, ← zpow_add₀ (by norm_num), ← zpow_add₀ (by norm_num)]
  constructor
  · refine (two_zpow_le ?_).trans h1
    push_cast; omega
  · refine h2.trans_le (two_zpow_le ?_)
    push_cast; omega

theorem rootInt_range {x : ℚ} (hx : 0 < x) : 2 ^ 52 ≤ rootInt x ∧ rootInt x < 2 ^ 53 ∧ (rootInt x : ℚ) ^ 2 ≤ rootArg x ∧ rootArg x < ((rootInt x : ℚ) + 1) ^ 2 := by
  obtain ⟨h1, h2⟩ := rootArg_range hx
  unfold rootInt
  set t := rootArg x
  have ht : 0 ≤ t := le_trans (by positivity) h1
  have f1 : (2 ^ 104 : ℕ) ≤ ⌊t⌋₊ := Nat.le_floor (by exact_mod_cast h1)
  have f2 : ⌊t⌋₊ < 2 ^ 106 := (Nat.floor_lt ht).mpr (by exact_mod_cast h2)
  have s1 := Nat.sqrt_le' ⌊t⌋₊
  have s2 := Nat.lt_succ_sqrt' ⌊t⌋₊
  refine ⟨?_, ?_, ?_, ?_⟩
  · rw [Nat.le_sqrt']; exact le_trans (by norm_num) f1
  · rw [Nat.sqrt_lt']; exact f2.trans_le (by norm_num)
  · exact le_trans (by exact_mod_cast s1) (Nat.floor_le ht)
  · have : ⌊t⌋₊ + 1 ≤ (Nat.sqrt ⌊t⌋₊ + 1) ^ 2 := s2
    have h3 := Nat.lt_floor_add_one t
    refine h3.trans_le ?_
    exact_mod_cast this

/-- The root is a double. -/
theorem isFloat_sqrtF (x : ℚ) : IsFloat (sqrtF x) := by
  unfold sqrtF
  split_ifs with h h2
  · exact ⟨0, 0, by norm_num, by simp⟩
  · have := (rootInt_range (not_le.mp h)).2.1
    exact ⟨rootInt x, rootExp x, by rw [abs_of_nonneg (by positivity)]; exact_mod_cast this.le, by push_cast; ring⟩
  · have := (rootInt_range (not_le.mp h)).2.1
    exact ⟨rootInt x + 1, rootExp x, by rw [abs_of_nonneg (by positivity)]; exact_mod_cast this, by push_cast; ring⟩

theorem sqrtF_nonneg (x : ℚ) : 0 ≤ sqrtF x := by
  unfold sqrtF
  split_ifs
  · exact le_rfl
  · have := two_zpow_pos (rootExp x); positivity
  · have := two_zpow_pos (rootExp x); positivity

theorem sqrtF_pos {x : ℚ} (hx : 0 < x) : 0 < sqrtF x := by
  have h := (rootInt_range hx).1
  have h' : (0 : ℚ) < rootInt x := by exact_mod_cast (show 0 < rootInt x from lt_of_lt_of_le (by norm_num) h)
  have := two_zpow_pos (rootExp x)
  unfold sqrtF
  rw [if_neg (not_le.mpr hx)]
  split_ifs <;> positivity

/-- No double between the two candidates. -/
theorem root_gap {y : ℚ} (hy : IsFloat y) (n : ℕ) (hn : 2 ^ 52 ≤ n) (e : ℤ) (h1 : (n : ℚ) * 2 ^ e < y) : ((n : ℚ) + 1) * 2 ^ e ≤ y := by
  have hp := two_zpow_pos e
  have hn' : (2 : ℚ) ^ 52 ≤ n := by exact_mod_cast hn
  obtain ⟨k, rfl⟩ := float_multiple hy e ((mul_le_mul_of_nonneg_right hn' hp.le).trans h1.le)
  have h2 : (n : ℚ) < k := lt_of_mul_lt_mul_right h1 hp.le
  have h3 : (n : ℤ) < k := by exact_mod_cast h2
  have h4 : (n : ℚ) + 1 ≤ k := by exact_mod_cast h3
  exact mul_le_mul_of_nonneg_right h4 hp.le

/-- The specification of the IEEE square root: no double is nearer to the exact root. -/
theorem sqrtF_nearest {x y : ℚ} (hx : 0 ≤ x) (hy : IsFloat y) : |(sqrtF x : ℝ) - Real.sqrt x| ≤ |(y : ℝ) - Real.sqrt x| := by
  rcases hx.eq_or_lt with h0 | hx
  · subst h0; simp [sqrtF]
  obtain ⟨n1, n2, n3, n4⟩ := rootInt_range hx
  unfold sqrtF
  rw [if_neg (not_le.mpr hx)]
  set n := rootInt x
  set e := rootExp x
  have hp := two_zpow_pos e
  have hpR : (0 : ℝ) < 2 ^ e := by positivity
  have hxe : x = rootArg x * (2 ^ e * 2 ^ e) := by
    rw [← four_zpow]; unfold rootArg; have := four_zpow_pos (rootExp x); field_simp; rfl
  set t := rootArg x
  have ht : 0 ≤ t := le_trans (by positivity) n3
  have hroot : Real.sqrt x = Real.sqrt t * 2 ^ e := by
    rw [hxe]; push_cast
    rw [Real.sqrt_mul (by exact_mod_cast ht), Real.sqrt_mul_self hpR.le]
  have r1 : (n : ℝ) ≤ Real.sqrt t := Real.le_sqrt_of_sq_le (by exact_mod_cast n3)
  have r2 : Real.sqrt t < (n : ℝ) + 1 := by
    rw [Real.sqrt_lt' (by positivity)]; exact_mod_cast n4
  have ylo : ((n : ℝ) + 1) * 2 ^ e ≤ y ∨ (y : ℝ) ≤ n * 2 ^ e := by
    rcases lt_or_ge ((n : ℚ) * 2 ^ e) y with h | h
    · left; have := (Rat.cast_le (K := ℝ)).mpr (root_gap hy n n1 e h); push_cast at this; exact this
    · right; have := (Rat.cast_le (K := ℝ)).mpr h; push_cast at this; exact this
  rw [hroot]
  have r1' := mul_le_mul_of_nonneg_right r1 hpR.le
  have r2' := mul_le_mul_of_nonneg_right r2.le hpR.le
  split_ifs with hc
  · have r3 : Real.sqrt t < (n : ℝ) + 1 / 2 := by
      rw [Real.sqrt_lt' (by positivity)]; have := (Rat.cast_lt (K := ℝ)).mpr hc; push_cast at this; exact this
    have r3' := mul_lt_mul_of_pos_right r3 hpR
    push_cast
    rw [abs_of_nonpos (by linarith)]
    rcases ylo with h | h
    · rw [abs_of_nonneg (by linarith)]; linarith
    · rw [abs_of_nonpos (by linarith)]; linarith
  · have r3 : (n : ℝ) + 1 / 2 ≤ Real.sqrt t := Real.le_sqrt_of_sq_le (by have := (Rat.cast_le (K := ℝ)).mpr (not_lt.mp hc); push_cast at this; exact this)
    have r3' := mul_le_mul_of_nonneg_right r3 hpR.le
    push_cast
    rw [abs_of_nonneg (by linarith)]
    rcases ylo with h | h
    · rw [abs_of_nonneg (by linarith)]; linarith
    · rw [abs_of_nonpos (by linarith)]; linarith

/-- The relative error of the root is at most 2^-53. -/
theorem sqrtF_err {x : ℚ} (hx : 0 ≤ x) : |(sqrtF x : ℝ) - Real.sqrt x| ≤ Real.sqrt x / 2 ^ 53 := by
  rcases hx.eq_or_lt with h0 | hx
  · subst h0; simp [sqrtF]
  obtain ⟨n1, n2, n3, n4⟩ := rootInt_range hx
  unfold sqrtF
  rw [if_neg (not_le.mpr hx)]
  set n := rootInt x
  set e := rootExp x
  have hpR : (0 : ℝ) < 2 ^ e := by positivity
  have hxe : x = rootArg x * (2 ^ e * 2 ^ e) := by
    rw [← four_zpow]; unfold rootArg; have := four_zpow_pos (rootExp x); field_simp; rfl
  set t := rootArg x
  have ht : 0 ≤ t := le_trans (by positivity) n3
  have hroot : Real.sqrt x = Real.sqrt t * 2 ^ e := by
    rw [hxe]; push_cast
    rw [Real.sqrt_mul (by exact_mod_cast ht), Real.sqrt_mul_self hpR.le]
  have r1 : (n : ℝ) ≤ Real.sqrt t := Real.le_sqrt_of_sq_le (by exact_mod_cast n3)
  have r2 : Real.sqrt t < (n : ℝ) + 1 := by
    rw [Real.sqrt_lt' (by positivity)]; exact_mod_cast n4
  have n1' : (2 : ℝ) ^ 52 ≤ n := by exact_mod_cast n1
  rw [hroot, mul_div_right_comm]
  have key : ∀ c : ℝ, |c - Real.sqrt t| ≤ 1 / 2 → |c * 2 ^ e - Real.sqrt t * 2 ^ e| ≤ Real.sqrt t / 2 ^ 53 * 2 ^ e := by
    intro c hc
    rw [← sub_mul, abs_mul, abs_of_pos hpR]
    refine mul_le_mul_of_nonneg_right (hc.trans ?_) hpR.le
    rw [le_div_iff₀ (by positivity)]
    linarith
  split_ifs with hc
  · have r3 : Real.sqrt t < (n : ℝ) + 1 / 2 := by
      rw [Real.sqrt_lt' (by positivity)]; have := (Rat.cast_lt (K := ℝ)).mpr hc; push_cast at this; exact this
    push_cast
    apply key
    rw [abs_le]; constructor <;> linarith
  · have r3 : (n : ℝ) + 1 / 2 ≤ Real.sqrt t := Real.le_sqrt_of_sq_le (by have := (Rat.cast_le (K := ℝ)).mpr (not_lt.mp hc); push_cast at this; exact this)
    push_cast
    apply key
    rw [abs_le]; constructor <;> linarith

/-- A positive double has a mantissa of 53 digits. -/
theorem float_normal {m : ℚ} (hm : IsFloat m) (hp : 0 < m) : ∃ (k : ℕ) (j : ℤ), 2 ^ 52 ≤ k ∧ k < 2 ^ 53 ∧ m = k * 2 ^ j := by
  have h1 := log_le hp.ne'
  have h2 := lt_log m
  rw [abs_of_pos hp] at h1 h2
  set e := Int.log 2 m
  have e1 : (2 : ℚ) ^ e = 2 ^ 52 * 2 ^ (e - 52) := by
    rw [← zpow_natCast (2 : ℚ) 52, ← zpow_add₀ (by norm_num)]; congr 1; push_cast; ring
  have e2 : (2 : ℚ) ^ (e + 1) = 2 ^ 53 * 2 ^ (e - 52) := by
    rw [← zpow_natCast (2 : ℚ) 53, ← zpow_add₀ (by norm_num)]; congr 1; push_cast; ring
  rw [e1] at h1
  rw [e2] at h2
  obtain ⟨k, hk⟩ := float_multiple hm (e - 52) h1
  have hj := two_zpow_pos (e - 52)
  rw [hk] at h1 h2
  have a : (2 : ℚ) ^ 52 ≤ k := le_of_mul_le_mul_right h1 hj
  have b : (k : ℚ) < 2 ^ 53 := lt_of_mul_lt_mul_right h2 hj.le
  have a' : (2 : ℤ) ^ 52 ≤ k := by exact_mod_cast a
  have b' : k < (2 : ℤ) ^ 53 := by exact_mod_cast b
  refine ⟨k.toNat, e - 52, by zify; rw [Int.toNat_of_nonneg (by omega)]; exact a', by zify; rw [Int.toNat_of_nonneg (by omega)]; exact b', ?_⟩
  rw [hk]
  congr 1
  rw [← Int.cast_natCast, Int.toNat_of_nonneg (by omega)]

/-- The root of the rounded square of a double is the double itself. -/
theorem sqrtF_square {m : ℚ} (hm : IsFloat m) (hp : 0 ≤ m) : sqrtF (fl (m * m)) = m := by
  rcases hp.eq_or_lt with h0 | hp
  · subst h0; simp [fl_zero, sqrtF]
  obtain ⟨k, j, k1, k2, rfl⟩ := float_normal hm hp
  have hj := two_zpow_pos j
  have k1' : (2 : ℚ) ^ 52 ≤ k := by exact_mod_cast k1
  have k2' : (k : ℚ) ≤ 2 ^ 53 - 1 := by
    have : k ≤ 2 ^ 53 - 1 := by omega
    have h : (k : ℚ) ≤ ((2 ^ 53 - 1 : ℕ) : ℚ) := by exact_mod_cast this
    refine h.trans (le_of_eq ?_)
    norm_num
  have hsq : (k : ℚ) * 2 ^ j * (k * 2 ^ j) = (k : ℚ) ^ 2 * 4 ^ j := by rw [four_zpow]; ring
  have h4 := four_zpow_pos j
  rw [hsq]
  set x := fl ((k : ℚ) ^ 2 * 4 ^ j) with hxdef
  have herr := fl_err ((k : ℚ) ^ 2 * 4 ^ j)
  rw [← hxdef, abs_of_nonneg (by positivity : 0 ≤ (k : ℚ) ^ 2 * 4 ^ j)] at herr
  have hx : 0 < x := fl_pos (by positivity)
  -- the rounded square in units of 4^j
  obtain ⟨t, ht⟩ : ∃ t, x = t * 4 ^ j := ⟨x / 4 ^ j, by field_simp⟩
  have hterr : |t - (k : ℚ) ^ 2| ≤ (k : ℚ) ^ 2 / 2 ^ 53 := by
    rw [ht, ← sub_mul, abs_mul, abs_of_pos h4, mul_div_right_comm] at herr
    exact le_of_mul_le_mul_right herr h4
  have hsmall : (k : ℚ) ^ 2 / 2 ^ 53 ≤ k - 1 / 2 := by
    rw [div_le_iff₀ (by positivity)]
    nlinarith
  rw [abs_le] at hterr
  have t1 : ((k : ℚ) - 1 / 2) ^ 2 < t := by nlinarith [hterr.1]
  have t2 : t < ((k : ℚ) + 1 / 2) ^ 2 := by nlinarith [hterr.2]
  -- lower end of the binade
  have tlo : (2 : ℚ) ^ 104 ≤ t := by
    have hf : IsFloat ((2 : ℚ) ^ 104 * 4 ^ j) := by
      refine ⟨1, 104 + 2 * j, by norm_num, ?_⟩
      rw [show (4 : ℚ) = 2 ^ (2 : ℤ) by norm_num, ← zpow_mul, Int.cast_one, one_mul, zpow_add₀ (by norm_num)]
      norm_cast
    have hle : (2 : ℚ) ^ 104 * 4 ^ j ≤ (k : ℚ) ^ 2 * 4 ^ j := by
      refine mul_le_mul_of_nonneg_right ?_ h4.le
      nlinarith
    have := fl_mono hle
    rw [fl_exact hf, ← hxdef, ht] at this
    exact le_of_mul_le_mul_right this h4
  have thi : t < 2 ^ 106 := by
    refine t2.trans_le ?_
    nlinarith
  have hlog : Int.log 2 x / 2 = j + 52 := by
    have e4 : (4 : ℚ) ^ j = 2 ^ (2 * j) := by rw [show (4 : ℚ) = 2 ^ (2 : ℤ) by norm_num, ← zpow_mul]
    have l1 := log_le hx.ne'
    have l2 := lt_log x
    rw [abs_of_pos hx] at l1 l2
    set g := Int.log 2 x
    have a : (2 : ℚ) ^ (104 + 2 * j) ≤ x := by
      rw [ht, e4, zpow_add₀ (by norm_num)]
      exact mul_le_mul_of_nonneg_right (by exact_mod_cast tlo) (two_zpow_pos _).le
    have b : x < (2 : ℚ) ^ (106 + 2 * j) := by
      rw [ht, e4, zpow_add₀ (by norm_num)]
      exact mul_lt_mul_of_pos_right (by exact_mod_cast thi) (two_zpow_pos _)
    have a' := (zpow_lt_zpow_iff_right₀ (by norm_num : (1 : ℚ) < 2)).mp (a.trans_lt l2)
    have b' := (zpow_lt_zpow_iff_right₀ (by norm_num : (1 : ℚ) < 2)).mp (l1.trans_lt b)
    omega
  have hexp : rootExp x = j := by unfold rootExp; omega
  have harg : rootArg x = t := by unfold rootArg; rw [hexp, ht]; field_simp
  obtain ⟨-, -, n3, n4⟩ := rootInt_range hx
  rw [harg] at n3 n4
  have hn : rootInt x = k ∨ rootInt x + 1 = k := by
    have a : (rootInt x : ℚ) < k + 1 / 2 := lt_of_pow_lt_pow_left₀ 2 (by positivity) (n3.trans_lt t2)
    have b : (k : ℚ) - 1 / 2 < rootInt x + 1 := lt_of_pow_lt_pow_left₀ 2 (by positivity) (t1.trans n4)
    have a' : rootInt x < k + 1 := by
      have : (rootInt x : ℚ) < ((k + 1 : ℕ) : ℚ) := by push_cast; linarith
      exact_mod_cast this
    have b' : k < rootInt x + 2 := by
      have : (k : ℚ) < ((rootInt x + 2 : ℕ) : ℚ) := by push_cast; linarith
      exact_mod_cast this
    omega
  unfold sqrtF
  rw [if_neg (not_le.mpr hx), hexp, harg]
  rcases hn with h | h
  · rw [h, if_pos t2]
  · have hk : (k : ℚ) = (rootInt x : ℚ) + 1 := by rw [← h]; push_cast; ring
    rw [if_neg, hk]
    rw [not_lt]
    rw [hk] at t1
    linarith [show ((rootInt x : ℚ) + 1 - 1 / 2) ^ 2 = ((rootInt x : ℚ) + 1 / 2) ^ 2 by ring]

/-- A literal: the double nearest to the root of 2. -/
example : sqrtF 2 = 6369051672525773 / 2 ^ 52 ∧ sqrtF (fl (fl (1 / 10) * fl (1 / 10))) = fl (1 / 10) := by decide +kernel

end Lcode.Fp
