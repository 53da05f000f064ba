import Verif.Fp.Round

/-!
C58: how many layers, cells and time steps a run has, with the rounding of floats.

The numbers of the configuration are decimal numbers `w`, `h`; the code reads the floats nearest to them and divides the floats.
-/

namespace Lcode.Fp

open Lcode.Py

/-- `config.getfloat(a) / config.getfloat(b)`: both numbers are rounded when they are read (config.py:41-52), and the quotient is rounded (IEEE 754). -/
def quot (w h : ℚ) : ℚ := fl (fl w / fl h)

/-- Number of layers of a 3D run, push_solver.py:204-206: `round(window-length / xi-step)`. -/
def layers3 (w h : ℚ) : ℤ := pyRound (quot w h)

/-- `int(a / b)` of two values of the configuration: the number of layers of a 2D run (push_solver.py:39-40), the number of time steps of a run without an argument (simulation.py:200), the estimate of the number of cells of a 3D run (config.py:204-205), and one less than the number of nodes of a 2D run (push_solver.py:36-38, plasma/initialization.py:10, :25, plasma/rhoj.py:98, beam/beam_calculate.py:371). -/
def intCount (w h : ℚ) : ℤ := pyInt (quot w h)

/-- `a // b` of two values of the configuration (diagnostics/slice.py:171, :247, :375): floor of the quotient of the floats, not rounded. -/
def floorCount (w h : ℚ) : ℤ := ⌊fl w / fl h⌋

/-! ### Error of the quotient -/

theorem fl_between {x : ℚ} (hx : 0 ≤ x) : x * (1 - 1 / 2 ^ 53) ≤ fl x ∧ fl x ≤ x * (1 + 1 / 2 ^ 53) := by
  have h := fl_err x
  rw [abs_of_nonneg hx, abs_le] at h
  constructor <;> [linarith [h.1]; linarith [h.2]]

theorem ratio_between {w h : ℚ} (hw : 0 ≤ w) (hh : 0 < h) :
    w / h * (1 - 2 / 2 ^ 53) ≤ fl w / fl h ∧ fl w / fl h ≤ w / h * (1 + 5 / 2 ^ 54) := by
  have h1 := fl_between hw
  have h2 := fl_between hh.le
  have h3 := fl_pos hh
  constructor
  · rw [le_div_iff₀ h3]
    have : w / h * (1 - 2 / 2 ^ 53) * fl h ≤ w / h * (1 - 2 / 2 ^ 53) * (h * (1 + 1 / 2 ^ 53)) :=
      mul_le_mul_of_nonneg_left h2.2 (mul_nonneg (div_nonneg hw hh.le) (by norm_num))
    refine this.trans ?_
    have e : w / h * (1 - 2 / 2 ^ 53) * (h * (1 + 1 / 2 ^ 53)) = w * ((1 - 2 / 2 ^ 53) * (1 + 1 / 2 ^ 53)) := by field_simp
    rw [e]
    refine le_trans ?_ h1.1
    exact mul_le_mul_of_nonneg_left (by norm_num) hw
  · rw [div_le_iff₀ h3]
    have : w / h * (1 + 5 / 2 ^ 54) * (h * (1 - 1 / 2 ^ 53)) ≤ w / h * (1 + 5 / 2 ^ 54) * fl h :=
      mul_le_mul_of_nonneg_left h2.1 (mul_nonneg (div_nonneg hw hh.le) (by norm_num))
    refine le_trans ?_ this
    have e : w / h * (1 + 5 / 2 ^ 54) * (h * (1 - 1 / 2 ^ 53)) = w * ((1 + 5 / 2 ^ 54) * (1 - 1 / 2 ^ 53)) := by field_simp
    rw [e]
    refine h1.2.trans ?_
    exact mul_le_mul_of_nonneg_left (by norm_num) hw

/-- The quotient the code computes differs from the quotient of the configuration by at most four roundings. -/
theorem quot_err {w h : ℚ} (hw : 0 ≤ w) (hh : 0 < h) : |quot w h - w / h| ≤ w / h / 2 ^ 51 := by
  obtain ⟨h1, h2⟩ := ratio_between hw hh
  have h0 : 0 ≤ w / h := div_nonneg hw hh.le
  have h3 := fl_between (div_nonneg (fl_nonneg hw) (fl_pos hh).le)
  unfold quot
  rw [abs_le]
  constructor
  · have : w / h * (1 - 2 / 2 ^ 53) * (1 - 1 / 2 ^ 53) ≤ fl w / fl h * (1 - 1 / 2 ^ 53) := mul_le_mul_of_nonneg_right h1 (by norm_num)
    have h4 : w / h * (1 - 1 / 2 ^ 51) ≤ w / h * ((1 - 2 / 2 ^ 53) * (1 - 1 / 2 ^ 53)) := mul_le_mul_of_nonneg_left (by norm_num) h0
    nlinarith [h3.1]
  · have : fl w / fl h * (1 + 1 / 2 ^ 53) ≤ w / h * (1 + 5 / 2 ^ 54) * (1 + 1 / 2 ^ 53) := mul_le_mul_of_nonneg_right h2 (by norm_num)
    have h4 : w / h * ((1 + 5 / 2 ^ 54) * (1 + 1 / 2 ^ 53)) ≤ w / h * (1 + 1 / 2 ^ 51) := mul_le_mul_of_nonneg_left (by norm_num) h0
    nlinarith [h3.2]

theorem quot_nonneg {w h : ℚ} (hw : 0 ≤ w) (hh : 0 < h) : 0 ≤ quot w h := fl_nonneg (div_nonneg (fl_nonneg hw) (fl_pos hh).le)

/-! ### C58: the layers of a 3D run -/

/-- C58: a 3D run whose window is a whole number of steps has exactly that number of layers, whatever the rounding of the two numbers. -/
theorem layers3_exact {w h : ℚ} {n : ℕ} (hh : 0 < h) (hw : w = n * h) (hn : n < 2 ^ 50) : layers3 w h = n := by
  have hw0 : 0 ≤ w := by rw [hw]; positivity
  have e : w / h = n := by rw [hw]; field_simp
  have h1 := quot_err hw0 hh
  rw [e] at h1
  have hn' : (n : ℚ) < 2 ^ 50 := by exact_mod_cast hn
  have h2 : |quot w h - n| < 1 / 2 := by
    refine lt_of_le_of_lt h1 ?_
    rw [div_lt_iff₀ (by norm_num)]; norm_num at hn' ⊢; linarith
  have h3 := abs_pyRound_sub_le (quot w h)
  have h5 : |(pyRound (quot w h) : ℚ) - n| < 1 := by
    have := abs_sub_le (pyRound (quot w h) : ℚ) (quot w h) n
    linarith
  have h6 : |pyRound (quot w h) - (n : ℤ)| < 1 := by exact_mod_cast h5
  rw [Int.abs_lt_one_iff] at h6
  unfold layers3; omega

/-- C58: any window of a 3D run gets a number of layers whose length differs from the window by at most half a step (and a rounding). -/
theorem layers3_near {w h : ℚ} (hw : 0 ≤ w) (hh : 0 < h) : |(layers3 w h : ℚ) - w / h| ≤ 1 / 2 + w / h / 2 ^ 51 := by
  have h1 := quot_err hw hh
  have h3 := abs_pyRound_sub_le (quot w h)
  have := abs_sub_le (pyRound (quot w h) : ℚ) (quot w h) (w / h)
  unfold layers3
  linarith

/-! ### C58: counts made with `int` -/

/-- C58: `int(a / b)` of numbers whose quotient is `n` gives `n` or one less. -/
theorem intCount_or {w h : ℚ} {n : ℕ} (hh : 0 < h) (hw : w = n * h) (hn : n < 2 ^ 50) : intCount w h = n ∨ intCount w h = n - 1 := by
  have hw0 : 0 ≤ w := by rw [hw]; positivity
  have e : w / h = n := by rw [hw]; field_simp
  have h1 := quot_err hw0 hh
  rw [e] at h1
  have hn' : (n : ℚ) < 2 ^ 50 := by exact_mod_cast hn
  have h2 : |quot w h - n| < 1 / 2 := by
    refine lt_of_le_of_lt h1 ?_
    rw [div_lt_iff₀ (by norm_num)]; norm_num at hn' ⊢; linarith
  rw [abs_lt] at h2
  have h3 := pyInt_le (quot_nonneg hw0 hh)
  have h4 := lt_pyInt_add_one (quot_nonneg hw0 hh)
  unfold intCount
  have h5 : (pyInt (quot w h) : ℚ) < (n : ℚ) + 1 := by linarith
  have h6 : (n : ℚ) - 1 < pyInt (quot w h) + 1 := by linarith
  have h7 : pyInt (quot w h) < (n : ℤ) + 1 := by exact_mod_cast h5
  have h8 : (n : ℤ) - 1 < pyInt (quot w h) + 1 := by exact_mod_cast h6
  omega

/-- C58: which of the two: all `n` are kept exactly if the rounded quotient does not fall below `n`. -/
theorem intCount_iff {w h : ℚ} {n : ℕ} (hh : 0 < h) (hw : w = n * h) (hn : n < 2 ^ 50) : intCount w h = n ↔ (n : ℚ) ≤ quot w h := by
  have hw0 : 0 ≤ w := by rw [hw]; positivity
  constructor
  · intro h1
    have := pyInt_le (quot_nonneg hw0 hh)
    unfold intCount at h1
    rw [h1] at this
    exact_mod_cast this
  · intro h1
    rcases intCount_or hh hw hn with h2 | h2
    · exact h2
    · exfalso
      have := lt_pyInt_add_one (quot_nonneg hw0 hh)
      unfold intCount at h2
      rw [h2] at this
      push_cast at this
      linarith

/-- Two different floats differ by at least one part in `2^53` of the larger. -/
theorem float_gap {x y : ℚ} (hx : IsFloat x) (hy : IsFloat y) (hx0 : 0 < x) (h : y < x) : x / 2 ^ 53 ≤ x - y := by
  set k := Int.log 2 |x| with hk
  have hlo := log_le hx0.ne'
  have hhi := lt_log x
  rw [abs_of_pos hx0] at hlo hhi
  rw [← abs_of_pos hx0, ← hk, abs_of_pos hx0] at hlo
  have e1 : (2 : ℚ) ^ (k - 52) * 2 ^ 52 = 2 ^ k := by
    rw [show (2 : ℚ) ^ 52 = 2 ^ (52 : ℤ) by norm_cast, ← zpow_add₀ (by norm_num)]; congr 1; ring
  have e2 : (2 : ℚ) ^ (k - 53) * 2 ^ 53 = 2 ^ k := by
    rw [show (2 : ℚ) ^ 53 = 2 ^ (53 : ℤ) by norm_cast, ← zpow_add₀ (by norm_num)]; congr 1; ring
  have e3 : (2 : ℚ) ^ (k + 1) = 2 ^ k * 2 := by rw [zpow_add₀ (by norm_num)]; norm_num
  have hxk : x < 2 ^ k * 2 := by
    rw [← e3]; have := lt_log x; rwa [abs_of_pos hx0, ← abs_of_pos hx0, ← hk, abs_of_pos hx0] at this
  have p1 := two_zpow_pos (k - 52)
  have p2 := two_zpow_pos (k - 53)
  have hgap : ∀ u : ℤ, (2 : ℚ) ^ 52 * 2 ^ u ≤ y → (2 : ℚ) ^ u ≤ x - y := by
    intro u hu
    obtain ⟨a, ha⟩ := float_multiple hx u (hu.trans h.le)
    obtain ⟨b, hb⟩ := float_multiple hy u hu
    have pu := two_zpow_pos u
    rw [ha, hb] at h
    have hba : (b : ℚ) < a := lt_of_mul_lt_mul_right h pu.le
    have hba' : b + 1 ≤ a := by exact_mod_cast hba
    have hba2 : (b : ℚ) + 1 ≤ a := by exact_mod_cast hba'
    rw [ha, hb, ← sub_mul]
    nlinarith
  rcases le_or_gt (2 ^ k) y with h1 | h1
  · have := hgap (k - 52) (by rw [mul_comm, e1]; exact h1)
    rw [div_le_iff₀ (by norm_num)]
    nlinarith
  · rcases eq_or_lt_of_le hlo with h2 | h2
    · -- x is a power of two
      rcases le_or_gt (2 ^ (k - 1)) y with h3 | h3
      · have e4 : (2 : ℚ) ^ 52 * 2 ^ (k - 53) = 2 ^ (k - 1) := by
          rw [show (2 : ℚ) ^ 52 = 2 ^ (52 : ℤ) by norm_cast, ← zpow_add₀ (by norm_num)]; congr 1; ring
        have := hgap (k - 53) (by rw [e4]; exact h3)
        rw [div_le_iff₀ (by norm_num)]
        nlinarith
      · have e4 : (2 : ℚ) ^ k = 2 ^ (k - 1) * 2 := by
          rw [show (2 : ℚ) ^ (k - 1) * 2 = 2 ^ (k - 1) * 2 ^ (1 : ℤ) by norm_num, ← zpow_add₀ (by norm_num)]; congr 1; ring
        have : x / 2 ≤ x - y := by rw [← h2, e4]; linarith
        refine le_trans ?_ this
        apply div_le_div_of_nonneg_left hx0.le (by norm_num) (by norm_num)
    · obtain ⟨a, ha⟩ := float_multiple hx (k - 52) (by rw [mul_comm, e1]; exact hlo)
      have hlt : (2 : ℚ) ^ 52 < a := by
        rw [ha, ← e1, mul_comm ((2:ℚ) ^ (k - 52))] at h2
        exact lt_of_mul_lt_mul_right h2 p1.le
      have h5 : (2 : ℤ) ^ 52 + 1 ≤ a := by exact_mod_cast hlt
      have h6 : (2 : ℚ) ^ 52 + 1 ≤ a := by exact_mod_cast h5
      have : (2 : ℚ) ^ (k - 52) ≤ x - y := by
        have : (2 : ℚ) ^ (k - 52) * (2 ^ 52 + 1) ≤ x := by rw [ha, mul_comm]; exact mul_le_mul_of_nonneg_right h6 p1.le
        nlinarith
      rw [div_le_iff₀ (by norm_num)]
      nlinarith

/-- A number nearer to a float than a quarter of a unit in its last place is rounded to it. -/
theorem fl_of_close {x y : ℚ} (hy : IsFloat y) (hy0 : 0 < y) (h : |x - y| < y / 2 ^ 54) : fl x = y := by
  have h1 := fl_nearest (x := x) hy
  rw [abs_sub_comm y x] at h1
  have h2 : |fl x - y| < y / 2 ^ 53 := by
    have := abs_sub_le (fl x) x y
    have e : y / 2 ^ 53 = y / 2 ^ 54 + y / 2 ^ 54 := by ring
    linarith
  rcases lt_trichotomy (fl x) y with h3 | h3 | h3
  · have := float_gap hy (isFloat_fl x) hy0 h3
    rw [abs_of_neg (by linarith)] at h2; linarith
  · exact h3
  · have h4 := float_gap (isFloat_fl x) hy (hy0.trans h3) h3
    have : y / 2 ^ 53 ≤ fl x / 2 ^ 53 := by apply div_le_div_of_nonneg_right h3.le (by norm_num)
    rw [abs_of_pos (by linarith)] at h2; linarith

theorem isFloat_nat {n : ℕ} (h : n ≤ 2 ^ 53) : IsFloat n := ⟨n, 0, by rw [abs_of_nonneg (by positivity)]; exact_mod_cast h, by simp⟩

/-- C58: no count is lost if both numbers are floats (e.g. whole numbers, or halves, quarters, ...). -/
theorem intCount_floats {w h : ℚ} {n : ℕ} (hw' : IsFloat w) (hh' : IsFloat h) (hh : 0 < h) (hw : w = n * h) (hn : n ≤ 2 ^ 53) : intCount w h = n := by
  unfold intCount quot
  rw [fl_exact hw', fl_exact hh', hw, mul_div_assoc, div_self hh.ne', mul_one, fl_nat hn]
  exact_mod_cast pyInt_intCast (K := ℚ) (n : ℤ)

/-- C58: no count is lost if the window is a float and the step is a float up to one part in `2^54`. -/
theorem intCount_good_step {w h : ℚ} {n : ℕ} (hw' : IsFloat w) (hh : 0 < h) (hg : h ≤ fl h) (hg2 : fl h ≤ h * (1 + 1 / 2 ^ 54)) (hw : w = n * h) (hn : n ≤ 2 ^ 53) : intCount w h = n := by
  rcases Nat.eq_zero_or_pos n with rfl | hn0
  · unfold intCount quot
    rw [hw]; simp [fl_zero, pyInt]
  have hfh := fl_pos hh
  have hn1 : (0 : ℚ) < n := by exact_mod_cast hn0
  have : quot w h = n := by
    unfold quot
    rw [fl_exact hw']
    apply fl_of_close (isFloat_nat hn) hn1
    have h1 : w / fl h ≤ n := by rw [div_le_iff₀ hfh, hw]; exact mul_le_mul_of_nonneg_left hg hn1.le
    have h2 : (n : ℚ) * (1 - 1 / 2 ^ 54) < w / fl h := by
      rw [lt_div_iff₀ hfh, hw]
      have : (n : ℚ) * (1 - 1 / 2 ^ 54) * fl h ≤ n * (1 - 1 / 2 ^ 54) * (h * (1 + 1 / 2 ^ 54)) := mul_le_mul_of_nonneg_left hg2 (mul_nonneg hn1.le (by norm_num))
      refine lt_of_le_of_lt this ?_
      have e : (n : ℚ) * (1 - 1 / 2 ^ 54) * (h * (1 + 1 / 2 ^ 54)) = n * h * ((1 - 1 / 2 ^ 54) * (1 + 1 / 2 ^ 54)) := by ring
      rw [e]
      have h5 : (0 : ℚ) < n * h := by positivity
      calc (n : ℚ) * h * ((1 - 1 / 2 ^ 54) * (1 + 1 / 2 ^ 54)) < n * h * 1 := mul_lt_mul_of_pos_left (by norm_num) h5
        _ = n * h := mul_one _
    rw [abs_lt]
    constructor
    · have : (n : ℚ) * (1 - 1 / 2 ^ 54) = n - n / 2 ^ 54 := by ring
      linarith
    · have : (0 : ℚ) < n / 2 ^ 54 := by positivity
      linarith
  unfold intCount
  rw [this]
  exact_mod_cast pyInt_intCast (K := ℚ) (n : ℤ)

/-- C58: away from whole numbers the rounding has no effect. -/
theorem intCount_floor {w h : ℚ} (hw : 0 ≤ w) (hh : 0 < h) (h1 : (⌊w / h⌋ : ℚ) ≤ w / h * (1 - 1 / 2 ^ 51)) (h2 : w / h * (1 + 1 / 2 ^ 51) < ⌊w / h⌋ + 1) :
    intCount w h = ⌊w / h⌋ := by
  have h3 := quot_err hw hh
  rw [abs_le] at h3
  unfold intCount
  rw [pyInt_of_nonneg (quot_nonneg hw hh), Int.floor_eq_iff]
  constructor
  · linarith [h3.1]
  · linarith [h3.2]

end Lcode.Fp
