import Mathlib.Algebra.Order.Floor.Ring
import Mathlib.Data.Rat.Floor
import Mathlib.Tactic.Ring
import Mathlib.Tactic.Linarith
import Mathlib.Tactic.NormNum

/-!
Python numeric primitives used throughout the model (`int`, `round`).
They are stated over an ordered field with a floor; `ℚ` for concrete cases.
-/

namespace Lcode.Py

variable {K : Type*} [Field K] [LinearOrder K] [IsStrictOrderedRing K] [FloorRing K]

/-- Python `int(x)` on a float: truncation toward zero.
Used at lcode/config/config.py:56, :204, lcode/simulation.py, lcode/push_solvers/push_solver.py. -/
def pyInt (x : K) : ℤ := if 0 ≤ x then ⌊x⌋ else ⌈x⌉

/-- Python `round(x)` on a float: nearest integer, ties to even.
Used at lcode/config/config.py:228, lcode/push_solvers/push_solver.py. -/
def pyRound (x : K) : ℤ :=
  let f := ⌊x⌋
  if x - f < 1 / 2 then f
  else if 1 / 2 < x - f then f + 1
  else if f % 2 = 0 then f else f + 1

theorem pyInt_of_nonneg {x : K} (h : 0 ≤ x) : pyInt x = ⌊x⌋ := by simp [pyInt, h]

theorem pyInt_intCast (n : ℤ) : pyInt (n : K) = n := by
  unfold pyInt; split <;> simp

theorem pyInt_nonneg {x : K} (h : 0 ≤ x) : 0 ≤ pyInt x := by
  rw [pyInt_of_nonneg h]; exact Int.floor_nonneg.mpr h

theorem pyInt_le {x : K} (h : 0 ≤ x) : (pyInt x : K) ≤ x := by
  rw [pyInt_of_nonneg h]; exact Int.floor_le x

theorem lt_pyInt_add_one {x : K} (h : 0 ≤ x) : x < pyInt x + 1 := by
  rw [pyInt_of_nonneg h]; exact Int.lt_floor_add_one x

theorem pyRound_intCast (n : ℤ) : pyRound (n : K) = n := by
  simp [pyRound]

theorem abs_pyRound_sub_le (x : K) : |(pyRound x : K) - x| ≤ 1 / 2 := by
  have h1 := Int.floor_le x
  have h2 := Int.lt_floor_add_one x
  unfold pyRound
  simp only
  split_ifs <;> rw [abs_le] <;> push_cast <;> constructor <;> linarith

theorem pyRound_tie {x : K} (h : x - ⌊x⌋ = 1 / 2) : pyRound x % 2 = 0 := by
  unfold pyRound
  simp only [h, lt_irrefl, if_false]
  split_ifs with h1
  · exact h1
  · omega

theorem pyRound_nonneg {x : K} (h : 0 ≤ x) : 0 ≤ pyRound x := by
  have h1 : 0 ≤ ⌊x⌋ := Int.floor_nonneg.mpr h
  unfold pyRound; simp only
  split_ifs <;> omega

theorem one_le_pyRound {x : K} (h : 1 ≤ x) : 1 ≤ pyRound x := by
  have h1 : 1 ≤ ⌊x⌋ := by
    rw [Int.le_floor]; simpa using h
  unfold pyRound; simp only
  split_ifs <;> omega

end Lcode.Py
