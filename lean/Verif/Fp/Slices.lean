import Verif.Fp.Times
import Verif.Diag.Slice

/-!
C58: what a slice contains, with the rounding of floats; and examples of the counts.
-/

namespace Lcode.Fp

open Lcode.Py Lcode.Diag

/-- `round(limit / step)`, diagnostics/slice.py:166-167, :242-243, :312-316, :379-380: the node of a transverse limit. -/
def nodeF (x h : ℚ) : ℤ := pyRound (quot x h)

theorem quot_neg (w h : ℚ) : quot (-w) h = -quot w h := by
  unfold quot; rw [fl_neg, neg_div, fl_neg]

/-- C58: a transverse limit that is a whole number of steps, of either sign, is found exactly. -/
theorem node_exact {h : ℚ} (hh : 0 < h) (k : ℤ) (hk : |k| < 2 ^ 50) : nodeF (k * h) h = k := by
  unfold nodeF
  rcases le_total 0 k with h0 | h0
  · obtain ⟨n, rfl⟩ := Int.eq_ofNat_of_zero_le h0
    rw [abs_of_nonneg h0] at hk
    exact_mod_cast layers3_exact hh (w := (n : ℚ) * h) (n := n) rfl (by exact_mod_cast hk)
  · obtain ⟨n, hn⟩ := Int.eq_ofNat_of_zero_le (by omega : 0 ≤ -k)
    have e : k = -(n : ℤ) := by omega
    rw [abs_of_nonpos h0, hn] at hk
    have h1 := layers3_exact hh (w := (n : ℚ) * h) (n := n) rfl (by exact_mod_cast hk)
    unfold layers3 at h1
    have e2 : (k : ℚ) * h = -((n : ℚ) * h) := by rw [e]; push_cast; ring
    rw [e2, quot_neg, pyRound_neg, h1, e]

/-- C58: the index of an offset of `k` steps (`//`, slice.py:171, :247) is `k` or one less. -/
theorem floorCount_or {h : ℚ} (hh : 0 < h) (n : ℕ) (hn : n < 2 ^ 50) : floorCount (n * h) h = n ∨ floorCount (n * h) h = n - 1 := by
  have hw : (0 : ℚ) ≤ n * h := by positivity
  obtain ⟨h1, h2⟩ := ratio_between hw hh
  have e : (n : ℚ) * h / h = n := by field_simp
  rw [e] at h1 h2
  have hn' : (n : ℚ) ≤ 1125899906842623 := by exact_mod_cast (by omega : n ≤ 1125899906842623)
  have hn0 : (0 : ℚ) ≤ n := Nat.cast_nonneg n
  have h3 : (n : ℚ) - 1 ≤ fl (n * h) / fl h := by
    refine le_trans ?_ h1
    norm_num; linarith
  have h4 : fl (n * h) / fl h < n + 1 := by
    refine lt_of_le_of_lt h2 ?_
    norm_num; linarith
  unfold floorCount
  have h5 : (n : ℤ) - 1 ≤ ⌊fl (n * h) / fl h⌋ := by rw [Int.le_floor]; push_cast; exact h3
  have h6 : ⌊fl (n * h) / fl h⌋ < (n : ℤ) + 1 := by rw [Int.floor_lt]; push_cast; exact h4
  omega

/-- C58: with an offset and a step that are floats the index is exact. -/
theorem floorCount_floats {h : ℚ} (hh : 0 < h) (k : ℤ) (h1 : IsFloat h) (h2 : IsFloat (k * h)) : floorCount (k * h) h = k := by
  unfold floorCount
  rw [fl_exact h1, fl_exact h2, mul_div_assoc, div_self hh.ne', mul_one, Int.floor_intCast]

/-- slice.py:176-177 (also :251-252, :407-408): a layer behind the limit is skipped; the coordinate of layer `i` is `border3` (push_solver.py:258), the limit a value of the configuration or, by default, minus the window length (slice.py:146). -/
def keptF (L h : ℚ) (i : ℕ) : Bool := inLimits ⟨0, fl (-L), 0, 0⟩ (border3 h i)

/-- C58: with the limit `-n` steps all layers before `n` are kept and none after it; whether layer `n` itself is kept is decided by the rounding. -/
theorem kept_layers {h : ℚ} (hh : 0 < h) (n i : ℕ) (hn : n < 2 ^ 50) : (i < n → keptF (n * h) h i = true) ∧ (n < i → keptF (n * h) h i = false) ∧ (keptF (n * h) h n = true ↔ fl (n * fl h) ≤ fl (n * h)) := by
  have key : ∀ i, keptF (n * h) h i = true ↔ fl ((i : ℚ) * fl h) ≤ fl (n * h) := by
    intro i
    unfold keptF inLimits
    rw [(border_forms h i).1, (border_forms h i).2.2, fl_neg]
    have h0 : 0 ≤ fl ((i : ℚ) * fl h) := fl_nonneg (mul_nonneg (Nat.cast_nonneg i) (fl_nonneg hh.le))
    simp only [not_or, not_lt, decide_eq_true_eq, gt_iff_lt]
    constructor
    · rintro ⟨h1, -⟩; linarith
    · intro h1; constructor <;> linarith
  have hn' : (n : ℚ) ≤ 1125899906842623 := by exact_mod_cast (by omega : n ≤ 1125899906842623)
  have hn0 : (0 : ℚ) ≤ n := Nat.cast_nonneg n
  have hf := fl_between hh.le
  refine ⟨fun hi => ?_, fun hi => ?_, key n⟩
  · rw [key]
    have hi' : (i : ℚ) + 1 ≤ n := by exact_mod_cast hi
    apply fl_mono
    calc (i : ℚ) * fl h ≤ i * (h * (1 + 1 / 2 ^ 53)) := mul_le_mul_of_nonneg_left hf.2 (Nat.cast_nonneg i)
      _ ≤ (n - 1) * (h * (1 + 1 / 2 ^ 53)) := mul_le_mul_of_nonneg_right (by linarith) (mul_nonneg hh.le (by norm_num))
      _ = h * ((n - 1) * (1 + 1 / 2 ^ 53)) := by ring
      _ ≤ h * n := mul_le_mul_of_nonneg_left (by norm_num; linarith) hh.le
      _ = n * h := mul_comm _ _
  · have : ¬ (keptF (n * h) h i = true) := by
      rw [key, not_le]
      have hi' : (n : ℚ) + 1 ≤ i := by exact_mod_cast hi
      have h1 := (fl_between (x := (n : ℚ) * h) (by positivity)).2
      have h2 := fl_between (x := ((n : ℚ) + 1) * fl h) (mul_nonneg (by linarith) (fl_nonneg hh.le))
      have h3 : fl (((n : ℚ) + 1) * fl h) ≤ fl ((i : ℚ) * fl h) := fl_mono (mul_le_mul_of_nonneg_right hi' (fl_nonneg hh.le))
      refine lt_of_lt_of_le ?_ h3
      refine lt_of_lt_of_le ?_ h2.1
      refine lt_of_le_of_lt h1 ?_
      have h4 : ((n : ℚ) + 1) * (h * (1 - 1 / 2 ^ 53)) * (1 - 1 / 2 ^ 53) ≤ ((n : ℚ) + 1) * fl h * (1 - 1 / 2 ^ 53) :=
        mul_le_mul_of_nonneg_right (mul_le_mul_of_nonneg_left hf.1 (by linarith)) (by norm_num)
      refine lt_of_lt_of_le ?_ h4
      have h5 : (n : ℚ) * (1 + 1 / 2 ^ 53) < (n + 1) * ((1 - 1 / 2 ^ 53) * (1 - 1 / 2 ^ 53)) := by norm_num; linarith
      calc (n : ℚ) * h * (1 + 1 / 2 ^ 53) = h * ((n : ℚ) * (1 + 1 / 2 ^ 53)) := by ring
        _ < h * ((n + 1) * ((1 - 1 / 2 ^ 53) * (1 - 1 / 2 ^ 53))) := mul_lt_mul_of_pos_left h5 hh
        _ = _ := by ring
    simpa using this

/-! ### Examples -/

/-- The usual decimal steps are rounded up by at most one part in `2^54`. -/
theorem good_steps : ∀ h ∈ ([1 / 10, 1 / 20, 1 / 40, 1 / 50, 1 / 100, 1 / 2, 1 / 4, 1] : List ℚ), 0 < h ∧ h ≤ fl h ∧ fl h ≤ h * (1 + 1 / 2 ^ 54) := by decide +kernel

/-- C58: with a usual step and a window that is a whole number (or a binary fraction) no layer, cell or step is lost by `int`. -/
theorem whole_window {w h : ℚ} {n : ℕ} (hs : h ∈ ([1 / 10, 1 / 20, 1 / 40, 1 / 50, 1 / 100, 1 / 2, 1 / 4, 1] : List ℚ)) (hw : IsFloat w) (e : w = n * h) (hn : n ≤ 2 ^ 53) : intCount w h = n :=
  let ⟨h1, h2, h3⟩ := good_steps h hs
  intCount_good_step hw h1 h2 h3 e hn

/-- The default configuration and the tests: window-length 15 and xi-step 0.05; window-width 16 and transverse-step 0.01. -/
example : intCount 15 (1 / 20) = 300 ∧ intCount 16 (1 / 100) = 1600 :=
  ⟨by simpa using whole_window (n := 300) (w := 15) (h := 1 / 20) (by simp) ⟨15, 0, by norm_num, by norm_num⟩ (by norm_num) (by norm_num),
   by simpa using whole_window (n := 1600) (w := 16) (h := 1 / 100) (by simp) ⟨16, 0, by norm_num, by norm_num⟩ (by norm_num) (by norm_num)⟩

/-- C58, a window that is a whole number of steps may lose its last layer or cell in a 2D run, and a run its last time step: with step 0.05 the lengths 0.15 and 1.15 have 2 and 22 layers; a run to time 1.4 with step 0.2 makes 6 steps. The 3D code, which rounds, has 3 and 23 layers. -/
theorem lost_layer : intCount (3 / 20) (1 / 20) = 2 ∧ intCount (115 / 100) (1 / 20) = 22 ∧ intCount (14 / 10) (1 / 5) = 6 ∧
    layers3 (3 / 20) (1 / 20) = 3 ∧ layers3 (115 / 100) (1 / 20) = 23 := by decide +kernel

/-- C58, a slice at an offset of three steps shows the plane two steps from the axis; a slice to the limit -0.3 has no layer at -0.3 (nor, by default, the last layer of a window of length 0.3); the transverse limits are found exactly. -/
theorem slice_example : floorCount (3 / 10) (1 / 10) = 2 ∧ keptF (3 / 10) (1 / 10) 3 = false ∧ keptF (4 / 10) (1 / 10) 4 = true ∧ nodeF (-(3 / 10)) (1 / 10) = -3 := by decide +kernel

end Lcode.Fp
