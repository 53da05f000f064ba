import Verif.Fp.Counts
import Verif.Config.Rerun

/-!
C58: the transverse grid of a 3D run, with the rounding of floats.
-/

namespace Lcode.Fp

open Lcode.Py Lcode.Cfg

/-- config.py:191, :204-205: the estimate of the number of cells from the width `w` and the step `h` of the configuration. Doubling a float is exact. -/
def estimF (w h : ℚ) : ℤ := pyInt (fl (2 * fl w / fl h))

/-- config.py:206-216 for an estimate; `none` is the exception. -/
def cellsF (e : ℤ) : Option ℕ := argminDist e (goodNumbers e)

/-- config.py:217-218: the adjusted width. -/
def widthF (n : ℕ) (h : ℚ) : ℚ := fl (n * fl h)

/-- config.py:191, :204-205 for a configuration with the adjusted width (the runas file shows half of it, config.py:138-142, and it is doubled again: both are exact; a float printed and read back is the same float). -/
def estimAgainF (n : ℕ) (h : ℚ) : ℤ := pyInt (fl (widthF n h / fl h))

theorem again_near {h : ℚ} (hh : 0 < h) (n : ℕ) : |fl (widthF n h / fl h) - n| ≤ n * (3 / 2 ^ 53) := by
  have hf := fl_pos hh
  have hn : (0 : ℚ) ≤ n := Nat.cast_nonneg n
  have h1 := fl_between (x := (n : ℚ) * fl h) (mul_nonneg hn hf.le)
  have e1 : (n : ℚ) * (1 - 1 / 2 ^ 53) ≤ widthF n h / fl h := by
    rw [le_div_iff₀ hf]; unfold widthF; linarith [h1.1]
  have e2 : widthF n h / fl h ≤ (n : ℚ) * (1 + 1 / 2 ^ 53) := by
    rw [div_le_iff₀ hf]; unfold widthF; linarith [h1.2]
  have h2 := fl_between (x := widthF n h / fl h) (le_trans (mul_nonneg hn (by norm_num)) e1)
  have e3 : (n : ℚ) * (1 - 1 / 2 ^ 53) * (1 - 1 / 2 ^ 53) ≤ widthF n h / fl h * (1 - 1 / 2 ^ 53) := mul_le_mul_of_nonneg_right e1 (by norm_num)
  have e4 : widthF n h / fl h * (1 + 1 / 2 ^ 53) ≤ (n : ℚ) * (1 + 1 / 2 ^ 53) * (1 + 1 / 2 ^ 53) := mul_le_mul_of_nonneg_right e2 (by norm_num)
  have e5 : (n : ℚ) * (1 - 3 / 2 ^ 53) ≤ n * (1 - 1 / 2 ^ 53) * (1 - 1 / 2 ^ 53) := by
    rw [mul_assoc]; exact mul_le_mul_of_nonneg_left (by norm_num) hn
  have e6 : (n : ℚ) * (1 + 1 / 2 ^ 53) * (1 + 1 / 2 ^ 53) ≤ n * (1 + 3 / 2 ^ 53) := by
    rw [mul_assoc]; exact mul_le_mul_of_nonneg_left (by norm_num) hn
  rw [abs_le]
  constructor <;> linarith [h2.1, h2.2]

/-- C58: the estimate from an adjusted width is the number of cells or one less. -/
theorem again_or {h : ℚ} (hh : 0 < h) {n : ℕ} (hn : n < 2 ^ 50) : estimAgainF n h = n ∨ estimAgainF n h = n - 1 := by
  have h1 := again_near hh n
  have hn' : (n : ℚ) ≤ 1125899906842623 := by exact_mod_cast (by omega : n ≤ 1125899906842623)
  have h2 : |fl (widthF n h / fl h) - n| < 1 := by
    refine lt_of_le_of_lt h1 ?_
    norm_num; linarith
  rw [abs_lt] at h2
  have h0 : 0 ≤ fl (widthF n h / fl h) :=
    fl_nonneg (div_nonneg (fl_nonneg (mul_nonneg (Nat.cast_nonneg n) (fl_pos hh).le)) (fl_pos hh).le)
  have h3 := pyInt_le h0
  have h4 := lt_pyInt_add_one h0
  unfold estimAgainF
  have h5 : (pyInt (fl (widthF n h / fl h)) : ℚ) < (n : ℚ) + 1 := by linarith
  have h6 : (n : ℚ) - 1 < pyInt (fl (widthF n h / fl h)) + 1 := by linarith
  have h7 : pyInt (fl (widthF n h / fl h)) < (n : ℤ) + 1 := by exact_mod_cast h5
  have h8 : (n : ℤ) - 1 < pyInt (fl (widthF n h / fl h)) + 1 := by exact_mod_cast h6
  omega

/-- From an estimate one too small the next smaller good size is taken if there is one two cells below. -/
theorem cells_one_less {n : ℕ} (hn : GoodGrid n) (h3 : 3 ≤ n) : (GoodGrid (n - 2) → cellsF ((n : ℤ) - 1) = some (n - 2)) ∧ (¬ GoodGrid (n - 2) → cellsF ((n : ℤ) - 1) = some n) := by
  unfold cellsF
  have hm : n ∈ goodNumbers ((n : ℤ) - 1) := (mem_goodNumbers _ _).mpr ⟨by omega, by omega, (goodSize_iff n).mpr hn⟩
  obtain ⟨k, hk⟩ := argminDist_isSome ((n : ℤ) - 1) _ (List.ne_nil_of_mem hm)
  obtain ⟨hk1, hk2⟩ := argminDist_spec _ _ _ hk
  have hkg : GoodGrid k := (goodSize_iff k).mp ((mem_goodNumbers _ _).mp hk1).2.2
  have hd := hk2 n hm
  rw [show |(n : ℤ) - (n - 1)| = 1 by rw [show (n : ℤ) - (n - 1) = 1 by ring]; rfl, abs_le] at hd
  have hodd : n % 2 = 1 := by have := hn.1; omega
  have hkodd : k % 2 = 1 := by have := hkg.1; omega
  have hcase : k = n ∨ k = n - 2 := by omega
  constructor
  · intro hg
    have hm2 : n - 2 ∈ goodNumbers ((n : ℤ) - 1) := (mem_goodNumbers _ _).mpr ⟨by omega, by omega, (goodSize_iff _).mpr hg⟩
    rw [hk]
    congr 1
    rcases hcase with rfl | h
    · have := argminDist_ties _ _ (goodNumbers_sorted _) k hk (k - 2) hm2 (by
        rw [show ((k - 2 : ℕ) : ℤ) - (k - 1) = -1 by omega, show (k : ℤ) - (k - 1) = 1 by ring]; rfl)
      omega
    · exact h
  · intro hg
    rw [hk]
    congr 1
    rcases hcase with h | rfl
    · exact h
    · exact absurd hkg hg

/-- C58: a run repeated from the recorded width has the same number of cells, or two less; the latter only if the rounded quotient falls below the number of cells and the smaller number is a good size. -/
theorem rerun_cells {h : ℚ} (hh : 0 < h) {n : ℕ} (hn : n < 2 ^ 50) (h3 : 3 ≤ n) (hg : GoodGrid n) :
    cellsF (estimAgainF n h) = some n ∨ (cellsF (estimAgainF n h) = some (n - 2) ∧ GoodGrid (n - 2) ∧ fl (widthF n h / fl h) < n) := by
  rcases again_or hh hn with h1 | h1
  · left; rw [h1]; exact argmin_self n hg
  · by_cases hg2 : GoodGrid (n - 2)
    · right
      rw [h1]
      refine ⟨(cells_one_less hg h3).1 hg2, hg2, ?_⟩
      have h0 : 0 ≤ fl (widthF n h / fl h) :=
        fl_nonneg (div_nonneg (fl_nonneg (mul_nonneg (Nat.cast_nonneg n) (fl_pos hh).le)) (fl_pos hh).le)
      have := lt_pyInt_add_one h0
      unfold estimAgainF at h1
      rw [h1] at this
      push_cast at this
      linarith
    · left; rw [h1]; exact (cells_one_less hg h3).2 hg2

/-- C58: with a step and a width that are floats (a binary fraction) the repeated run has the same grid. -/
theorem rerun_cells_exact {h : ℚ} (hh : 0 < h) {n : ℕ} (hn : n ≤ 2 ^ 53) (hg : GoodGrid n) (hf : IsFloat h) (hw : IsFloat (n * h)) : cellsF (estimAgainF n h) = some n := by
  have : estimAgainF n h = n := by
    unfold estimAgainF widthF
    rw [fl_exact hf, fl_exact hw, mul_div_assoc, div_self hh.ne', mul_one, fl_nat hn]
    exact_mod_cast pyInt_intCast (K := ℚ) (n : ℤ)
  rw [this]
  exact argmin_self n hg

theorem good_81 : GoodGrid 81 := ⟨by norm_num, Or.inr ⟨4, 0, 1, 0, 0, 0, by norm_num, by norm_num⟩⟩

theorem good_79 : GoodGrid 79 := ⟨by norm_num, Or.inr ⟨1, 1, 0, 0, 0, 1, by norm_num, by norm_num⟩⟩

/-- C58, the statement of C51 that a run repeated from its runas file has the same grid fails with floats: window-width 2.03 and transverse-step 0.05 give 81 cells and the width 4.05; `4.05 / 0.05` is 80.99999999999999 in floats, and the repeated run has 79 cells. -/
theorem rerun_other_grid : cellsF (estimF (203 / 100) (1 / 20)) = some 81 ∧ cellsF (estimAgainF 81 (1 / 20)) = some 79 := by
  have h1 : estimF (203 / 100) (1 / 20) = (81 : ℕ) := by decide +kernel
  have h2 : estimAgainF 81 (1 / 20) = ((81 : ℕ) : ℤ) - 1 := by decide +kernel
  rw [h1, h2]
  exact ⟨argmin_self 81 good_81, (cells_one_less good_81 (by norm_num)).1 good_79⟩

end Lcode.Fp
