import Verif.Diag.Time
import Mathlib.Data.Int.Log
import Mathlib.Algebra.Order.Field.Power
import Mathlib.Tactic.Positivity
import Mathlib.Tactic.FieldSimp

/-!
Binary64 rounding.

The other modules model floats by elements of an ordered field. Here the rounding of Python's floats (IEEE 754 binary64, round to nearest, ties to
even) is modelled exactly, on rational numbers, with an unbounded exponent (no overflow, no subnormal numbers). `fl x` is the float nearest to `x`.
Reading a decimal number from the configuration is `fl` of it (lcode/config/config.py:41-52, Python's `float` rounds correctly), and each operation of floats is `fl` of the exact result.
-/

namespace Lcode.Fp

open Lcode.Py

/-- Exponent of the last place of the float nearest to `x`. -/
def ulpExp (x : ℚ) : ℤ := Int.log 2 |x| - 52

/-- The binary64 number nearest to `x`, ties to even. -/
def fl (x : ℚ) : ℚ := if x = 0 then 0 else (pyRound (x / 2 ^ ulpExp x) : ℚ) * 2 ^ ulpExp x

/-- A binary64 number: an integer of at most 53 bits times a power of two. -/
def IsFloat (x : ℚ) : Prop := ∃ m e : ℤ, |m| ≤ 2 ^ 53 ∧ x = m * 2 ^ e

theorem pyRound_mono {x y : ℚ} (h : x ≤ y) : pyRound x ≤ pyRound y := by
  by_contra hc
  push Not at hc
  have h1 := abs_pyRound_sub_le x
  have h2 := abs_pyRound_sub_le y
  rw [abs_le] at h1 h2
  have h3 : (pyRound y : ℚ) + 1 ≤ pyRound x := by exact_mod_cast hc
  have hxy : x = y := by linarith [h1.2, h2.1]
  subst hxy
  exact lt_irrefl _ hc

theorem pyRound_neg (x : ℚ) : pyRound (-x) = -pyRound x := by
  have h1 := Int.floor_le x
  have h2 := Int.lt_floor_add_one x
  by_cases h0 : x = ⌊x⌋
  · rw [h0, ← Int.cast_neg, pyRound_intCast, pyRound_intCast]
  · have h3 : (⌊x⌋ : ℚ) < x := lt_of_le_of_ne h1 (Ne.symm h0)
    have hf : ⌊-x⌋ = -⌊x⌋ - 1 := by
      rw [Int.floor_eq_iff]
      push_cast
      constructor <;> linarith
    unfold pyRound
    simp only [hf]
    push_cast
    by_cases ha : x - ⌊x⌋ < 1 / 2
    · rw [if_pos ha, if_neg (by linarith), if_pos (by linarith)]; ring
    · rw [if_neg ha]
      by_cases hb : 1 / 2 < x - ⌊x⌋
      · rw [if_pos hb, if_pos (by linarith)]; ring
      · rw [if_neg hb, if_neg (by linarith), if_neg (by linarith)]
        by_cases hc : ⌊x⌋ % 2 = 0
        · rw [if_pos hc, if_neg (by omega)]; ring
        · rw [if_neg hc, if_pos (by omega)]; ring

theorem two_zpow_pos (e : ℤ) : (0 : ℚ) < 2 ^ e := zpow_pos (by norm_num) e

theorem two_zpow_le {a b : ℤ} (h : a ≤ b) : (2 : ℚ) ^ a ≤ 2 ^ b := zpow_le_zpow_right₀ (by norm_num) h

theorem log_le {x : ℚ} (hx : x ≠ 0) : (2 : ℚ) ^ Int.log 2 |x| ≤ |x| := by
  have := Int.zpow_log_le_self (R := ℚ) (b := 2) (by norm_num) (abs_pos.mpr hx)
  exact_mod_cast this

theorem lt_log (x : ℚ) : |x| < (2 : ℚ) ^ (Int.log 2 |x| + 1) := by
  have := Int.lt_zpow_succ_log_self (R := ℚ) (b := 2) (by norm_num) |x|
  exact_mod_cast this

theorem log_of {x : ℚ} {e : ℤ} (h1 : (2 : ℚ) ^ e ≤ |x|) (h2 : |x| < (2 : ℚ) ^ (e + 1)) : Int.log 2 |x| = e := by
  have hx : x ≠ 0 := by
    rintro rfl
    rw [abs_zero] at h1
    exact absurd (two_zpow_pos e) (not_lt.mpr h1)
  have h3 := log_le hx
  have h4 := lt_log x
  have a := (zpow_lt_zpow_iff_right₀ (by norm_num : (1 : ℚ) < 2)).mp (h3.trans_lt h2)
  have b := (zpow_lt_zpow_iff_right₀ (by norm_num : (1 : ℚ) < 2)).mp (h1.trans_lt h4)
  omega

theorem fl_zero : fl 0 = 0 := by simp [fl]

theorem fl_neg (x : ℚ) : fl (-x) = -fl x := by
  unfold fl
  by_cases h : x = 0
  · subst h; simp
  · rw [if_neg (by simpa using h), if_neg h]
    have e : ulpExp (-x) = ulpExp x := by unfold ulpExp; rw [abs_neg]
    rw [e, neg_div, pyRound_neg]
    push_cast
    ring

/-- Rounding changes a number by at most one part in 2^53. -/
theorem fl_err (x : ℚ) : |fl x - x| ≤ |x| / 2 ^ 53 := by
  unfold fl
  by_cases h : x = 0
  · subst h; simp
  · rw [if_neg h]
    have hs := two_zpow_pos (ulpExp x)
    have h1 := abs_pyRound_sub_le (x / 2 ^ ulpExp x)
    have e : (pyRound (x / 2 ^ ulpExp x) : ℚ) * 2 ^ ulpExp x - x = ((pyRound (x / 2 ^ ulpExp x) : ℚ) - x / 2 ^ ulpExp x) * 2 ^ ulpExp x := by
      field_simp
    rw [e, abs_mul, abs_of_pos hs]
    have h2 := log_le h
    have e2 : (2 : ℚ) ^ Int.log 2 |x| = 2 ^ ulpExp x * 2 ^ 52 := by
      unfold ulpExp
      rw [← zpow_natCast, ← zpow_add₀ (by norm_num)]
      congr 1; norm_num
    rw [e2] at h2
    rw [le_div_iff₀ (by positivity)]
    nlinarith

/-- Floats are not changed. -/
theorem fl_exact {x : ℚ} (hx : IsFloat x) : fl x = x := by
  obtain ⟨m, j, hm, rfl⟩ := hx
  by_cases h : (m : ℚ) * 2 ^ j = 0
  · rw [h, fl_zero]
  unfold fl
  rw [if_neg h]
  have hlog := log_le h
  have hj := two_zpow_pos j
  have habs : |(m : ℚ) * 2 ^ j| = |(m : ℚ)| * 2 ^ j := by rw [abs_mul, abs_of_pos hj]
  have hm' : |(m : ℚ)| ≤ 2 ^ 53 := by exact_mod_cast hm
  have hs := two_zpow_pos (ulpExp ((m : ℚ) * 2 ^ j))
  suffices hint : ∃ z : ℤ, (m : ℚ) * 2 ^ j / 2 ^ ulpExp ((m : ℚ) * 2 ^ j) = z by
    obtain ⟨z, hz⟩ := hint
    rw [hz, pyRound_intCast, ← hz]
    field_simp
  set e := Int.log 2 |(m : ℚ) * 2 ^ j| with he
  have hu : ulpExp ((m : ℚ) * 2 ^ j) = e - 52 := rfl
  rw [hu]
  have hle : (2 : ℚ) ^ e ≤ 2 ^ (53 + j) := by
    refine hlog.trans ?_
    rw [habs, zpow_add₀ (by norm_num)]
    exact mul_le_mul_of_nonneg_right (by exact_mod_cast hm') hj.le
  have hej : e ≤ 53 + j := (zpow_le_zpow_iff_right₀ (by norm_num : (1 : ℚ) < 2)).mp hle
  by_cases hc : e - 52 ≤ j
  · refine ⟨m * 2 ^ (j - (e - 52)).toNat, ?_⟩
    have e1 : (2 : ℚ) ^ j / 2 ^ (e - 52) = 2 ^ (j - (e - 52)) := by rw [← zpow_sub₀ (by norm_num : (2 : ℚ) ≠ 0)]
    rw [mul_div_assoc, e1]
    push_cast
    congr 1
    rw [← zpow_natCast]
    congr 1
    omega
  · have heq : e = 53 + j := by omega
    have hmm : |(m : ℚ)| = 2 ^ 53 := by
      apply le_antisymm hm'
      rw [heq, habs, zpow_add₀ (by norm_num)] at hlog
      have := le_of_mul_le_mul_right hlog hj
      exact_mod_cast this
    have e1 : (2 : ℚ) ^ j / 2 ^ (e - 52) = 1 / 2 := by
      rw [← zpow_sub₀ (by norm_num : (2 : ℚ) ≠ 0), heq]
      have : j - (53 + j - 52) = -1 := by ring
      rw [this]; norm_num
    rcases abs_eq (by norm_num : (0 : ℚ) ≤ 2 ^ 53) |>.mp hmm with h1 | h1
    · exact ⟨2 ^ 52, by rw [mul_div_assoc, e1, h1]; norm_num⟩
    · exact ⟨-2 ^ 52, by rw [mul_div_assoc, e1, h1]; norm_num⟩

theorem fl_int {n : ℤ} (h : |n| ≤ 2 ^ 53) : fl n = n := fl_exact ⟨n, 0, h, by simp⟩

theorem fl_nat {n : ℕ} (h : n ≤ 2 ^ 53) : fl n = n := by
  have := fl_int (n := n) (by rw [abs_of_nonneg (Int.natCast_nonneg n)]; exact_mod_cast h)
  exact_mod_cast this

/-- The mantissa of a rounded positive number lies between 2^52 and 2^53. -/
theorem mantissa {x : ℚ} (hx : 0 < x) : 2 ^ 52 ≤ pyRound (x / 2 ^ ulpExp x) ∧ pyRound (x / 2 ^ ulpExp x) ≤ 2 ^ 53 := by
  have hs := two_zpow_pos (ulpExp x)
  have h1 := log_le hx.ne'
  have h2 := lt_log x
  rw [abs_of_pos hx] at h1 h2
  have e1 : (2 : ℚ) ^ Int.log 2 x = 2 ^ 52 * 2 ^ ulpExp x := by
    unfold ulpExp
    rw [abs_of_pos hx, ← zpow_natCast, ← zpow_add₀ (by norm_num)]
    congr 1; norm_num
  have e2 : (2 : ℚ) ^ (Int.log 2 x + 1) = 2 ^ 53 * 2 ^ ulpExp x := by
    unfold ulpExp
    rw [abs_of_pos hx, ← zpow_natCast, ← zpow_add₀ (by norm_num)]
    congr 1; push_cast; ring
  rw [e1] at h1
  rw [e2] at h2
  constructor
  · have := pyRound_mono ((le_div_iff₀ hs).mpr h1)
    have h3 : pyRound ((2 : ℚ) ^ 52) = 2 ^ 52 := by have := pyRound_intCast (K := ℚ) (2 ^ 52); exact_mod_cast this
    rwa [h3] at this
  · have := pyRound_mono ((div_le_iff₀ hs).mpr h2.le)
    have h3 : pyRound ((2 : ℚ) ^ 53) = 2 ^ 53 := by have := pyRound_intCast (K := ℚ) (2 ^ 53); exact_mod_cast this
    rwa [h3] at this

theorem fl_pos {x : ℚ} (hx : 0 < x) : 0 < fl x := by
  unfold fl
  rw [if_neg hx.ne']
  have := (mantissa hx).1
  have h2 : (0 : ℚ) < pyRound (x / 2 ^ ulpExp x) := by exact_mod_cast (by omega : 0 < pyRound (x / 2 ^ ulpExp x))
  exact mul_pos h2 (two_zpow_pos _)

theorem isFloat_fl (x : ℚ) : IsFloat (fl x) := by
  rcases lt_trichotomy x 0 with h | h | h
  · have h' : 0 < -x := by linarith
    obtain ⟨h1, h2⟩ := mantissa h'
    refine ⟨-pyRound (-x / 2 ^ ulpExp (-x)), ulpExp (-x), by rw [abs_neg, abs_of_nonneg (by omega)]; exact h2, ?_⟩
    have : fl x = -fl (-x) := by rw [fl_neg, neg_neg]
    rw [this]
    unfold fl
    rw [if_neg h'.ne']
    push_cast
    ring
  · subst h; exact ⟨0, 0, by norm_num, by simp [fl]⟩
  · obtain ⟨h1, h2⟩ := mantissa h
    exact ⟨pyRound (x / 2 ^ ulpExp x), ulpExp x, by rw [abs_of_nonneg (by omega)]; exact h2, by unfold fl; rw [if_neg h.ne']⟩

theorem fl_fl (x : ℚ) : fl (fl x) = fl x := fl_exact (isFloat_fl x)

theorem fl_mono_pos {x y : ℚ} (hx : 0 < x) (h : x ≤ y) : fl x ≤ fl y := by
  have hy : 0 < y := hx.trans_le h
  have hlog : Int.log 2 |x| ≤ Int.log 2 |y| := by
    rw [abs_of_pos hx, abs_of_pos hy]; exact Int.log_mono_right hx h
  unfold fl
  rw [if_neg hx.ne', if_neg hy.ne']
  have hsx := two_zpow_pos (ulpExp x)
  have hsy := two_zpow_pos (ulpExp y)
  rcases hlog.eq_or_lt with he | hlt
  · have e : ulpExp x = ulpExp y := by unfold ulpExp; rw [he]
    rw [e]
    refine mul_le_mul_of_nonneg_right ?_ hsy.le
    exact_mod_cast pyRound_mono (div_le_div_of_nonneg_right h hsy.le)
  · have h1 : (pyRound (x / 2 ^ ulpExp x) : ℚ) ≤ 2 ^ 53 := by exact_mod_cast (mantissa hx).2
    have h2 : (2 : ℚ) ^ 52 ≤ pyRound (y / 2 ^ ulpExp y) := by exact_mod_cast (mantissa hy).1
    have h3 : (2 : ℚ) * 2 ^ ulpExp x ≤ 2 ^ ulpExp y := by
      have : (2 : ℚ) * 2 ^ ulpExp x = 2 ^ (ulpExp x + 1) := by rw [zpow_add₀ (by norm_num)]; ring
      rw [this]
      exact two_zpow_le (by unfold ulpExp; omega)
    nlinarith

/-- Rounding keeps the order. -/
theorem fl_mono {x y : ℚ} (h : x ≤ y) : fl x ≤ fl y := by
  rcases lt_or_ge 0 x with hx | hx
  · exact fl_mono_pos hx h
  · rcases lt_or_ge y 0 with hy | hy
    · have := fl_mono_pos (by linarith : 0 < -y) (by linarith : -y ≤ -x)
      rw [fl_neg, fl_neg] at this
      linarith
    · have h1 : fl x ≤ 0 := by
        rcases hx.eq_or_lt with rfl | hx
        · rw [fl_zero]
        · have := fl_pos (by linarith : 0 < -x)
          rw [fl_neg] at this
          linarith
      have h2 : 0 ≤ fl y := by
        rcases hy.eq_or_lt with rfl | hy
        · rw [fl_zero]
        · exact (fl_pos hy).le
      exact h1.trans h2

theorem fl_nonneg {x : ℚ} (h : 0 ≤ x) : 0 ≤ fl x := by
  have := fl_mono h
  rwa [fl_zero] at this

/-- A float between the ends of a binade is a multiple of its unit. -/
theorem float_multiple {y : ℚ} (hy : IsFloat y) (u : ℤ) (h : (2 : ℚ) ^ 52 * 2 ^ u ≤ y) : ∃ k : ℤ, y = k * 2 ^ u := by
  obtain ⟨m, e, hm, rfl⟩ := hy
  have he := two_zpow_pos e
  have hu := two_zpow_pos u
  by_cases hc : u ≤ e
  · refine ⟨m * 2 ^ (e - u).toNat, ?_⟩
    push_cast
    rw [mul_assoc, ← zpow_natCast, ← zpow_add₀ (by norm_num)]
    congr 2
    omega
  · have h1 : (2 : ℚ) * 2 ^ e ≤ 2 ^ u := by
      have : (2 : ℚ) * 2 ^ e = 2 ^ (e + 1) := by rw [zpow_add₀ (by norm_num)]; ring
      rw [this]; exact two_zpow_le (by omega)
    have hm' : (m : ℚ) ≤ 2 ^ 53 := by exact_mod_cast (abs_le.mp hm).2
    refine ⟨2 ^ 52, ?_⟩
    push_cast
    apply le_antisymm
    · nlinarith
    · exact_mod_cast h

theorem fl_nearest_pos {x y : ℚ} (hx : 0 < x) (hy : IsFloat y) : |fl x - x| ≤ |y - x| := by
  have hs := two_zpow_pos (ulpExp x)
  have hmul : ∀ k : ℤ, |fl x - x| ≤ |(k : ℚ) * 2 ^ ulpExp x - x| := by
    intro k
    have h1 := Lcode.Diag.pyRound_nearest (x / 2 ^ ulpExp x) k
    have e : ∀ z : ℤ, |(z : ℚ) * 2 ^ ulpExp x - x| = |x / 2 ^ ulpExp x - z| * 2 ^ ulpExp x := by
      intro z
      rw [← abs_of_pos hs, ← abs_mul, abs_of_pos hs, abs_sub_comm]
      congr 1; field_simp
    rw [e k]
    unfold fl
    rw [if_neg hx.ne', e]
    exact mul_le_mul_of_nonneg_right h1 hs.le
  have h1 := log_le hx.ne'
  rw [abs_of_pos hx] at h1
  have e1 : (2 : ℚ) ^ Int.log 2 x = 2 ^ 52 * 2 ^ ulpExp x := by
    unfold ulpExp
    rw [abs_of_pos hx, ← zpow_natCast, ← zpow_add₀ (by norm_num)]
    congr 1; norm_num
  rw [e1] at h1
  by_cases hlow : (2 : ℚ) ^ 52 * 2 ^ ulpExp x ≤ y
  · obtain ⟨k, rfl⟩ := float_multiple hy _ hlow
    exact hmul k
  · push Not at hlow
    refine (hmul (2 ^ 52)).trans ?_
    push_cast
    rw [abs_of_nonpos (by linarith), abs_of_nonpos (by linarith)]
    linarith

/-- The rounded value is a nearest float. -/
theorem fl_nearest {x y : ℚ} (hy : IsFloat y) : |fl x - x| ≤ |y - x| := by
  rcases lt_trichotomy x 0 with h | h | h
  · have hy' : IsFloat (-y) := by
      obtain ⟨m, e, hm, rfl⟩ := hy
      exact ⟨-m, e, by rwa [abs_neg], by push_cast; ring⟩
    have := fl_nearest_pos (by linarith : 0 < -x) hy'
    rw [fl_neg] at this
    have e1 : |-fl x - -x| = |fl x - x| := by rw [← abs_neg]; congr 1; ring
    have e2 : |-y - -x| = |y - x| := by rw [← abs_neg]; congr 1; ring
    rwa [e1, e2] at this
  · subst h; rw [fl_zero, sub_zero, abs_zero]; exact abs_nonneg _
  · exact fl_nearest_pos h hy

/-- How a rounded number is found: a mantissa of 53 bits that is nearer than half a unit. -/
theorem fl_of {x : ℚ} (m : ℕ) (e : ℤ) (h1 : 2 ^ 52 ≤ m) (h2 : m < 2 ^ 53) (hlo : (m : ℚ) * 2 ^ e - 2 ^ e / 2 < x) (hhi : x < (m : ℚ) * 2 ^ e + 2 ^ e / 2) (hx : (2 : ℚ) ^ 52 * 2 ^ e ≤ x) (hx2 : x < 2 ^ 53 * 2 ^ e) : fl x = m * 2 ^ e := by
  have he := two_zpow_pos e
  have hx0 : 0 < x := lt_of_lt_of_le (by positivity) hx
  have hlog : Int.log 2 |x| = e + 52 := by
    apply log_of
    · rw [abs_of_pos hx0, zpow_add₀ (by norm_num), mul_comm]; exact_mod_cast hx
    · have : e + 52 + 1 = e + 53 := by ring
      rw [abs_of_pos hx0, this, zpow_add₀ (by norm_num), mul_comm]; exact_mod_cast hx2
  have hu : ulpExp x = e := by unfold ulpExp; rw [hlog]; ring
  unfold fl
  rw [if_neg hx0.ne', hu]
  congr 1
  have h3 := abs_pyRound_sub_le (x / 2 ^ e)
  have h4 : |(m : ℚ) - x / 2 ^ e| < 1 / 2 := by
    have e1 : (m : ℚ) - x / 2 ^ e = ((m : ℚ) * 2 ^ e - x) / 2 ^ e := by field_simp
    rw [e1, abs_div, abs_of_pos he, div_lt_iff₀ he, abs_lt]
    constructor <;> linarith
  have h5 : |(pyRound (x / 2 ^ e) : ℚ) - m| < 1 := by
    have := abs_sub_le (pyRound (x / 2 ^ e) : ℚ) (x / 2 ^ e) m
    rw [abs_sub_comm (x / 2 ^ e) (m : ℚ)] at this
    linarith
  have h6 : |pyRound (x / 2 ^ e) - (m : ℤ)| < 1 := by exact_mod_cast h5
  have h7 : pyRound (x / 2 ^ e) = (m : ℤ) := by
    rw [Int.abs_lt_one_iff] at h6; omega
  rw [h7]; push_cast; rfl

end Lcode.Fp
