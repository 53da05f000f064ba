import Verif.Fp.FieldSolve
import Verif.Plasma2D.Fields
import Mathlib.Data.Rat.Cast.CharZero

/-!
C71, continued: the exact formulas of Fp/FieldSolve.lean are those of the model of lcode/plasma/fields.py (C16, C65) at rational arguments; the errors of the doubles are therefore distances to the model.
-/

namespace Lcode.Fp

open Lcode.Plasma2D Finset

theorem sweepFwd_cast (rhs pf : ℕ → ℚ) (h : ℚ) (i : ℕ) :
    ((sweepFwd rhs pf h i).1 : ℝ) = (sweepFwd (fun k => (rhs k : ℝ)) (fun k => (pf k : ℝ)) (h : ℝ) i).1 ∧
    ((sweepFwd rhs pf h i).2 : ℝ) = (sweepFwd (fun k => (rhs k : ℝ)) (fun k => (pf k : ℝ)) (h : ℝ) i).2 := by
  induction i with
  | zero => simp [sweepFwd]
  | succ i ih =>
    simp only [sweepFwd, rowA, rowB, rowC]
    rw [← ih.1, ← ih.2]
    push_cast
    exact ⟨rfl, rfl⟩

theorem solve_cast (rhs pf : ℕ → ℚ) (h : ℚ) (bc : ℚ × ℚ) (nr i : ℕ) :
    ((tridiagonalSolve rhs pf h bc nr i : ℚ) : ℝ) = tridiagonalSolve (fun k => (rhs k : ℝ)) (fun k => (pf k : ℝ)) (h : ℝ) ((bc.1 : ℝ), (bc.2 : ℝ)) nr i := by
  unfold tridiagonalSolve
  generalize nr - i = k
  induction k with
  | zero =>
    simp only [sweepBack]
    rw [← (sweepFwd_cast rhs pf h (nr - 1)).1, ← (sweepFwd_cast rhs pf h (nr - 1)).2]
    push_cast
    rfl
  | succ k ih =>
    simp only [sweepBack]
    rw [← ih, ← (sweepFwd_cast rhs pf h (nr - (k + 1))).1, ← (sweepFwd_cast rhs pf h (nr - (k + 1))).2]
    push_cast
    rfl

theorem forward_cast (y : ℕ → ℚ) (dx : ℚ) (i : ℕ) : ((cumtrapzForward y dx i : ℚ) : ℝ) = cumtrapzForward (fun k => (y k : ℝ)) (dx : ℝ) i := by
  induction i with
  | zero => simp [cumtrapzForward]
  | succ i ih => simp only [cumtrapzForward]; rw [← ih]; push_cast; rfl

theorem backward_cast (y : ℕ → ℚ) (dx : ℚ) (nr i : ℕ) : ((cumtrapzBackward y dx nr i : ℚ) : ℝ) = cumtrapzBackward (fun k => (y k : ℝ)) (dx : ℝ) nr i := by
  unfold cumtrapzBackward
  generalize nr - i = k
  induction k with
  | zero => simp [cumtrapzBackAux]
  | succ k ih => simp only [cumtrapzBackAux]; rw [← ih]; push_cast; rfl

/-- The real array with the values of an array of doubles. -/
noncomputable def re (y : ℕ → ℚ) : ℕ → ℝ := fun k => (y k : ℝ)

/-- C71, E_phi against the model of C16. -/
theorem computeEf_doubles (jf jfPrev efPrev pf : ℕ → ℚ) (h dxi : ℚ) (hh : 1 / 2 ^ 22 ≤ h) (hx : 0 < dxi) (nr : ℕ) (hn : 1 ≤ nr) (h24 : nr ≤ 2 ^ 24) (hpf : ∀ j, 1 ≤ j → j < nr → 1 ≤ pf j)
    (S : ℚ) (hS0 : 0 ≤ S) (hS : ∀ i, 1 ≤ i → i < nr → |jf i - jfPrev i| / dxi + |pf i * efPrev i| ≤ S) (i : ℕ) (hi : i ≤ nr) :
    |(computeEfF jf jfPrev efPrev pf h dxi nr i : ℝ) - computeEf (re jf) (re jfPrev) (re efPrev) (re pf) h dxi nr i| ≤ 100 / 2 ^ 53 * (1 / (h : ℝ) ^ 2 + 1) * S := by
  have key := Ef_doubles jf jfPrev efPrev pf h dxi hh hx nr hn h24 hpf S hS0 hS i hi
  have e : computeEf (re jf) (re jfPrev) (re efPrev) (re pf) (h : ℝ) (dxi : ℝ) nr i = ((solveDirichlet (efSource jf jfPrev efPrev pf dxi nr) pf h nr i : ℚ) : ℝ) := by
    unfold computeEf solveDirichlet
    rw [solve_cast]
    push_cast
    congr 1
    funext k
    unfold efRight efSource re
    split_ifs <;> push_cast <;> rfl
  rw [e]
  have key2 := (Rat.cast_le (K := ℝ)).mpr key
  push_cast at key2 ⊢
  exact key2

/-- C71, E_r against the model of C16. -/
theorem computeEr_doubles (rho jr jrPrev erPrev pf : ℕ → ℚ) (h dxi : ℚ) (hh : 1 / 2 ^ 22 ≤ h) (hx : 0 < dxi) (nr : ℕ) (hn : 1 ≤ nr) (h24 : nr ≤ 2 ^ 24) (hpf : ∀ j, 1 ≤ j → j < nr → 1 ≤ pf j)
    (S G : ℚ) (hS0 : 0 ≤ S) (hS : ∀ i, 1 ≤ i → i < nr → |jr i - jrPrev i| / dxi + |pf i * erPrev i| + |rho (i + 1) - rho (i - 1)| / 2 / h ≤ S) (hG : |rho (nr - 1) + rho nr| / 2 ≤ G) (i : ℕ) (hi : i ≤ nr) :
    |(computeErF rho jr jrPrev erPrev pf h dxi nr i : ℝ) - computeEr (re rho) (re jr) (re jrPrev) (re erPrev) (re pf) h dxi nr i| ≤ 101 / 2 ^ 53 * (1 / (h : ℝ) ^ 2 + nr + 1) * (S + nr * h * G) := by
  have key := Er_doubles rho jr jrPrev erPrev pf h dxi hh hx nr hn h24 hpf S G hS0 hS hG i hi
  have e : computeEr (re rho) (re jr) (re jrPrev) (re erPrev) (re pf) (h : ℝ) (dxi : ℝ) nr i = ((solveNeumann (erSource rho jr jrPrev erPrev pf h dxi nr) pf h nr i : ℚ) : ℝ) := by
    have eb : (neumannBc nr : ℝ × ℝ) = (((neumannBc nr : ℚ × ℚ).1 : ℝ), ((neumannBc nr : ℚ × ℚ).2 : ℝ)) := by
      unfold neumannBc; push_cast; rfl
    have sol : ∀ (r r' : ℕ → ℝ), (∀ k, k ≤ nr → r k = r' k) → tridiagonalSolve r (re pf) (h : ℝ) (neumannBc nr) nr i = tridiagonalSolve r' (re pf) (h : ℝ) (neumannBc nr) nr i := by
      intro r r' hr
      have hs : ∀ k, k ≤ nr → sweepFwd r (re pf) (h : ℝ) k = sweepFwd r' (re pf) (h : ℝ) k := by
        intro k hk
        induction k with
        | zero => rfl
        | succ k ih => simp only [sweepFwd]; rw [ih (by omega), hr (k + 1) hk]
      unfold tridiagonalSolve
      generalize nr - i = m
      induction m with
      | zero => simp only [sweepBack]; rw [hs (nr - 1) (by omega), hr nr le_rfl]
      | succ m ih => simp only [sweepBack]; rw [ih, hs (nr - (m + 1)) (by omega)]
    unfold computeEr solveNeumann
    rw [solve_cast, eb, ← eb]
    refine sol _ _ fun k hk => ?_
    unfold erRight erSource re
    by_cases h0 : k = 0
    · simp [h0]
    · by_cases h1 : k = nr
      · have : ¬ nr = 0 := by omega
        simp [h1, this]
      · have : 1 ≤ k ∧ k < nr := by omega
        simp only [h0, h1, if_false, this, and_self, if_true]
        push_cast
        rfl
  rw [e]
  have key2 := (Rat.cast_le (K := ℝ)).mpr key
  push_cast at key2 ⊢
  exact key2

/-- C71, E_z against the model of C16. -/
theorem computeEz_doubles (jr : ℕ → ℚ) (h : ℚ) (hh : 0 ≤ h) (nr i : ℕ) (hi : i ≤ nr) (hl : nr ≤ 10 ^ 6) :
    |(computeEzF jr h nr i : ℝ) - computeEz (re jr) h nr i| ≤ absTrapezoid jr h i nr / 10 ^ 9 := by
  have key := cumBackward_plain jr h hh nr i hi hl
  unfold computeEz re
  rw [← backward_cast]
  have key2 := (Rat.cast_le (K := ℝ)).mpr key
  push_cast at key2 ⊢
  exact key2

/-- C71, B_phi against the model of C16. -/
theorem computeBf_doubles (rho jz er : ℕ → ℚ) (h : ℚ) (hh : 0 ≤ h) (i : ℕ) (h1 : 1 ≤ i) :
    |(computeBfF rho jz er h i : ℝ) - computeBf (re rho) (re jz) (re er) h i| ≤
      u * |computeBf (re rho) (re jz) (re er) h i| + gam (i + 7) * (cumtrapzForward (fun k => (k : ℝ) * |re rho k - re jz k|) (h : ℝ) i / i) := by
  have key := Bf_doubles rho jz er h hh i h1
  have e : computeBf (re rho) (re jz) (re er) (h : ℝ) i = ((er i - cumtrapzForward (fun k => (k : ℚ) * (rho k - jz k)) h i / i : ℚ) : ℝ) := by
    unfold computeBf
    simp only [h1, if_true]
    push_cast
    rw [forward_cast]
    push_cast
    rfl
  have e2 : cumtrapzForward (fun k => (k : ℝ) * |re rho k - re jz k|) (h : ℝ) i = ((cumtrapzForward (fun k => (k : ℚ) * |rho k - jz k|) h i : ℚ) : ℝ) := by
    rw [forward_cast]
    push_cast
    rfl
  rw [e, e2]
  have key2 := (Rat.cast_le (K := ℝ)).mpr key
  push_cast at key2 ⊢
  exact key2

/-- C71, B_z against the model of C16. -/
theorem computeBz_doubles (jf : ℕ → ℚ) (h : ℚ) (hh : 0 ≤ h) (nr : ℕ) (hn : 1 ≤ nr) (i : ℕ) (hi : i ≤ nr) :
    |(computeBzF jf h nr i : ℝ) - computeBz (re jf) h nr i| ≤ gam (2 * nr + 7) * (5 * absTrapezoid jf h 0 nr) := by
  have key := Bz_doubles jf h hh nr hn i hi
  have e : computeBz (re jf) (h : ℝ) nr i = ((cumtrapzBackward (fun k => -jf k) h nr i - (∑ k ∈ range (nr + 1), (2 * (k : ℚ) + 1) * cumtrapzBackward (fun k => -jf k) h nr k) / (nr : ℚ) ^ 2 : ℚ) : ℝ) := by
    unfold computeBz
    push_cast
    simp only [backward_cast]
    push_cast
    rfl
  rw [e]
  have key2 := (Rat.cast_le (K := ℝ)).mpr key
  push_cast at key2 ⊢
  exact key2

/-- A case that meets the hypotheses, with fields that are not zero. -/
example : |(computeEfF (fun k => (k : ℚ)) (fun _ => 0) (fun _ => 1 / 4) (fun _ => 1) (1 / 2) (1 / 3) 3 1 : ℝ) -
    computeEf (re fun k => (k : ℚ)) (re fun _ => 0) (re fun _ => 1 / 4) (re fun _ => 1) ((1 / 2 : ℚ) : ℝ) ((1 / 3 : ℚ) : ℝ) 3 1| ≤ 100 / 2 ^ 53 * (1 / ((1 / 2 : ℚ) : ℝ) ^ 2 + 1) * ((7 : ℚ) : ℝ) := by
  refine computeEf_doubles _ _ _ _ _ _ (by norm_num) (by norm_num) 3 (by norm_num) (by norm_num) (fun _ _ _ => le_rfl) 7 (by norm_num) ?_ 1 (by norm_num)
  intro i h1 h2
  have : i = 1 ∨ i = 2 := by omega
  rcases this with rfl | rfl <;> norm_num

example : computeEfF (fun k => (k : ℚ)) (fun _ => 0) (fun _ => 1 / 4) (fun _ => 1) (1 / 2) (1 / 3) 3 1 < -1 / 5 := by decide +kernel

example : computeErF (fun k => (k : ℚ)) (fun k => (k : ℚ) ^ 2) (fun _ => 0) (fun _ => 1 / 4) (fun _ => 1) (1 / 2) (1 / 3) 3 2 ≠
    solveNeumann (erSource (fun k => (k : ℚ)) (fun k => (k : ℚ) ^ 2) (fun _ => 0) (fun _ => 1 / 4) (fun _ => 1) (1 / 2) (1 / 3) 3) (fun _ => 1) (1 / 2) 3 2 := by decide +kernel

end Lcode.Fp
