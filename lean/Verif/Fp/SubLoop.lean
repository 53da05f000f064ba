import Verif.Fp.Tridiag
import Verif.Plasma2D.Layer
import Mathlib.Tactic.IntervalCases

/-!
C72: the two substepping loops of the 2D plasma solver in doubles: the loop over the substeps of a particle (lcode/plasma/move.py:169-213)
and the loop over the substeps of a layer (lcode/plasma/solver.py:38-98). The push and the step themselves are parameters here.
-/

namespace Lcode.Fp

/-! ### Halving is exact -/

theorem isFloat_half {x : ℚ} (hx : IsFloat x) : IsFloat (x / 2) := by
  obtain ⟨m, e, hm, rfl⟩ := hx
  refine ⟨m, e - 1, hm, ?_⟩
  rw [zpow_sub_one₀ (by norm_num)]; ring

theorem isFloat_two {x : ℚ} (hx : IsFloat x) : IsFloat (2 * x) := by
  obtain ⟨m, e, hm, rfl⟩ := hx
  refine ⟨m, e + 1, hm, ?_⟩
  rw [zpow_add_one₀ (by norm_num)]; ring

theorem fl_half {x : ℚ} (hx : IsFloat x) : fl (x / 2) = x / 2 := fl_exact (isFloat_half hx)

/-! ### The substeps of a particle -/

/-- The result of _move_one_particle: new state, path, age. -/
structure PushF (S : Type) where
  s : S
  path : ℚ
  age : ℚ

/-- Loop state of one particle in doubles, move.py:176-181: last good state, xi_particle, xi_step_cur, age. -/
structure SubStF (S : Type) where
  s : S
  xi : ℚ
  cur : ℚ
  age : ℚ

variable {S : Type}

/-- One turn of the loop in doubles, move.py:183-207. `mv` is _move_one_particle, `gone` says that the particle has no charge (move.py:184). -/
def subIterF (mv : S → ℚ → PushF S) (gone : S → Bool) (h step : ℚ) (st : SubStF S) : Option (SubStF S) :=
  if st.xi ≤ fl (fl (99999 / 100000) * step) then
    if gone st.s then none
    else if (mv st.s st.cur).path ≥ h ∧ fl (st.cur / step) > fl (1 / 10000) then some { st with cur := fl (st.cur / 2) }
    else some ⟨(mv st.s st.cur).s, fl (st.xi + st.cur), st.cur, fl (st.age - (mv st.s st.cur).age)⟩
  else none

/-- At most `n` turns of the loop. -/
def subRunF (mv : S → ℚ → PushF S) (gone : S → Bool) (h step : ℚ) : ℕ → SubStF S → SubStF S
  | 0, st => st
  | n + 1, st => match subIterF mv gone h step st with
    | none => st
    | some st' => subRunF mv gone h step n st'

/-- The whole loop for one particle, move.py:176-213; `loop_ends_doubles` proves that it has ended after so many turns. -/
def moveSubsteppedF (mv : S → ℚ → PushF S) (gone : S → Bool) (h step : ℚ) (s : S) (age : ℚ) : SubStF S :=
  subRunF mv gone h step (2 ^ 14 + 15) ⟨s, 0, step, age⟩

/-- Specification: pushing a particle through a list of substeps one after the other, accumulating its age (in doubles). -/
def throughF (mv : S → ℚ → PushF S) : List ℚ → S → ℚ → S × ℚ
  | [], s, age => (s, age)
  | x :: xs, s, age => throughF mv xs (mv s x).s (fl (age - (mv s x).age))

theorem throughF_append (mv : S → ℚ → PushF S) (xs : List ℚ) (x : ℚ) (s : S) (age : ℚ) :
    throughF mv (xs ++ [x]) s age = ((mv (throughF mv xs s age).1 x).s, fl ((throughF mv xs s age).2 - (mv (throughF mv xs s age).1 x).age)) := by
  induction xs generalizing s age with
  | nil => rfl
  | cons y xs ih => simp only [List.cons_append, throughF]; rw [ih]

/-- What is true of the loop state after the substeps `xs` have been accepted. -/
structure SubInvF (mv : S → ℚ → PushF S) (h step : ℚ) (s0 : S) (age0 : ℚ) (st : SubStF S) (k j : ℕ) (xs : List ℚ) : Prop where
  hk : k ≤ 14
  hj : j ≤ 2 ^ k
  hcur : st.cur = step / 2 ^ k
  hlen : xs.length ≤ j * 2 ^ (14 - k)
  hxi : Rel xs.length st.xi (j * (step / 2 ^ k))
  hsum : xs.sum = j * (step / 2 ^ k)
  hthrough : throughF mv xs s0 age0 = (st.s, st.age)
  hdyadic : ∀ x ∈ xs, ∃ i ≤ k, x = step / 2 ^ i
  hmono : xs.Pairwise (· ≥ ·)
  hgood : ∀ pre x post, xs = pre ++ x :: post → (mv (throughF mv pre s0 age0).1 x).path < h ∨ x / step ≤ 1 / 10000

theorem gam_14 {n : ℕ} (hn : n ≤ 2 ^ 14) : gam n ≤ 1 / 10 ^ 10 := by
  refine (gam_le (hn.trans (by norm_num))).trans ?_
  have : (n : ℚ) ≤ 2 ^ 14 := by exact_mod_cast hn
  rw [div_le_iff₀ (by norm_num)]
  refine this.trans (by norm_num)

theorem limit_range {step : ℚ} (hs : 0 < step) :
    (1 - 1 / 10 ^ 5 - 1 / 10 ^ 10) * step ≤ fl (fl (99999 / 100000) * step) ∧ fl (fl (99999 / 100000) * step) ≤ (1 - 1 / 10 ^ 5 + 1 / 10 ^ 10) * step := by
  have h1 := fl_err (99999 / 100000)
  have h2 := fl_err (fl (99999 / 100000) * step)
  have hp := fl_pos (show (0 : ℚ) < 99999 / 100000 by norm_num)
  rw [abs_of_pos (by norm_num : (0 : ℚ) < 99999 / 100000)] at h1
  rw [abs_of_pos (mul_pos hp hs)] at h2
  rw [abs_le] at h1 h2
  generalize fl (99999 / 100000) = a at *
  have a1 : a ≤ 1 - 1 / 10 ^ 5 + 1 / 10 ^ 12 := by refine le_trans (by linarith [h1.2] : a ≤ 99999 / 100000 + 99999 / 100000 / 2 ^ 53) (by norm_num)
  have a2 : 1 - 1 / 10 ^ 5 - 1 / 10 ^ 12 ≤ a := by refine le_trans (by norm_num) (by linarith [h1.1] : 99999 / 100000 - 99999 / 100000 / 2 ^ 53 ≤ a)
  have m1 := mul_le_mul_of_nonneg_right a1 hs.le
  have m2 := mul_le_mul_of_nonneg_right a2 hs.le
  have m3 : a * step / 2 ^ 53 ≤ 1 / 10 ^ 12 * step := by
    rw [div_le_iff₀ (by positivity)]
    have : a ≤ 1 / 10 ^ 12 * 2 ^ 53 := a1.trans (by norm_num)
    nlinarith
  constructor <;> linarith [h2.1, h2.2]

/-- The loop condition in doubles says exactly that substeps are missing. -/
theorem limit_exact {step xi : ℚ} (hs : 0 < step) {n k j : ℕ} (hk : k ≤ 14) (hj : j ≤ 2 ^ k) (hn : n ≤ 2 ^ 14) (hxi : Rel n xi (j * (step / 2 ^ k))) :
    xi ≤ fl (fl (99999 / 100000) * step) ↔ j < 2 ^ k := by
  obtain ⟨l1, l2⟩ := limit_range hs
  have hg := gam_14 hn
  have h2k : (0 : ℚ) < 2 ^ k := by positivity
  have hX : 0 ≤ (j : ℚ) * (step / 2 ^ k) := by positivity
  unfold Rel at hxi
  rw [abs_of_nonneg hX] at hxi
  have hb := hxi.trans (mul_le_mul_of_nonneg_right hg hX)
  rw [abs_le] at hb
  constructor
  · intro h
    by_contra hc
    have : j = 2 ^ k := by omega
    have e : (j : ℚ) * (step / 2 ^ k) = step := by rw [this]; push_cast; field_simp
    rw [e] at hb
    linarith [hb.1]
  · intro h
    have h1 : (j : ℚ) + 1 ≤ 2 ^ k := by exact_mod_cast h
    have h2 : (2 : ℚ) ^ k ≤ 2 ^ 14 := pow_le_pow_right₀ (by norm_num) hk
    have e : (j : ℚ) * (step / 2 ^ k) ≤ (1 - 1 / 2 ^ 14) * step := by
      rw [mul_div_assoc', div_le_iff₀ h2k]
      have : (1 : ℚ) ≤ 2 ^ 14 / 2 ^ k := by rw [le_div_iff₀ h2k]; linarith
      have h3 : (j : ℚ) ≤ (1 - 1 / 2 ^ 14) * 2 ^ k := by
        have : (2 : ℚ) ^ k / 2 ^ 14 ≤ 1 := by rw [div_le_iff₀ (by positivity)]; linarith
        linarith
      nlinarith
    have h5 : (1 - 1 / 2 ^ 14 : ℚ) * step * (1 + 1 / 10 ^ 10) ≤ (1 - 1 / 10 ^ 5 - 1 / 10 ^ 10) * step := by
      have : (1 - 1 / 2 ^ 14 : ℚ) * (1 + 1 / 10 ^ 10) ≤ 1 - 1 / 10 ^ 5 - 1 / 10 ^ 10 := by norm_num
      nlinarith
    linarith [hb.2]

/-- The test for the smallest substep in doubles. -/
theorem small_exact {step : ℚ} (hs : 0 < step) (k : ℕ) (hk : k ≤ 14) : fl (step / 2 ^ k / step) > fl (1 / 10000) ↔ k < 14 := by
  have e : step / 2 ^ k / step = 1 / 2 ^ k := by field_simp
  rw [e]
  interval_cases k <;> decide +kernel

theorem isFloat_pow_half {step : ℚ} (hf : IsFloat step) (k : ℕ) : IsFloat (step / 2 ^ k) := by
  induction k with
  | zero => simpa using hf
  | succ k ih => rw [pow_succ, ← div_div]; exact isFloat_half ih

theorem sub_stepF (mv : S → ℚ → PushF S) (gone : S → Bool) (h step : ℚ) (hs : 0 < step) (hf : IsFloat step) (s0 : S) (age0 : ℚ) (st : SubStF S) (k j : ℕ) (xs : List ℚ)
    (inv : SubInvF mv h step s0 age0 st k j xs) (st' : SubStF S) (hit : subIterF mv gone h step st = some st') :
    ∃ k' j' xs', SubInvF mv h step s0 age0 st' k' j' xs' ∧
      (14 - k') + (2 ^ 14 - j' * 2 ^ (14 - k')) < (14 - k) + (2 ^ 14 - j * 2 ^ (14 - k)) := by
  obtain ⟨hk, hj, hcur, hlen, hxi, hsum, hth, hdy, hmono, hgood⟩ := inv
  have hpow : 2 ^ k * 2 ^ (14 - k) = 2 ^ 14 := by rw [← pow_add]; congr 1; omega
  have hlen' : xs.length ≤ 2 ^ 14 := hlen.trans (by rw [← hpow]; exact Nat.mul_le_mul_right _ hj)
  have hlim := limit_exact hs hk hj hlen' hxi
  have hsm := small_exact hs k hk
  unfold subIterF at hit
  by_cases hc : st.xi ≤ fl (fl (99999 / 100000) * step)
  swap
  · rw [if_neg hc] at hit; cases hit
  rw [if_pos hc] at hit
  have hjlt := hlim.mp hc
  by_cases hq : gone st.s = true
  · rw [if_pos hq] at hit; cases hit
  rw [if_neg hq] at hit
  have h2k : (0 : ℚ) < 2 ^ k := by positivity
  by_cases hrej : (mv st.s st.cur).path ≥ h ∧ fl (st.cur / step) > fl (1 / 10000)
  · rw [if_pos hrej] at hit
    cases hit
    have hk14 : k < 14 := hsm.mp (by rw [← hcur]; exact hrej.2)
    have e : 2 ^ (14 - k) = 2 * 2 ^ (14 - (k + 1)) := by
      rw [show 14 - k = (14 - (k + 1)) + 1 by omega, pow_succ, mul_comm]
    have e2 : 2 * j * 2 ^ (14 - (k + 1)) = j * 2 ^ (14 - k) := by rw [e]; ring
    have e3 : ((2 * j : ℕ) : ℚ) * (step / 2 ^ (k + 1)) = j * (step / 2 ^ k) := by rw [pow_succ]; push_cast; field_simp
    refine ⟨k + 1, 2 * j, xs, ⟨by omega, by rw [pow_succ]; omega, ?_, by rw [e2]; exact hlen, ?_, ?_, hth, ?_, hmono, hgood⟩, ?_⟩
    · show fl (st.cur / 2) = _
      rw [hcur, fl_half (isFloat_pow_half hf k), pow_succ, div_div]
    · show Rel _ st.xi _
      rw [e3]; exact hxi
    · rw [e3]; exact hsum
    · intro x hx
      obtain ⟨i, hi, e⟩ := hdy x hx
      exact ⟨i, by omega, e⟩
    · rw [e2]; omega
  · rw [if_neg hrej] at hit
    cases hit
    have ej : ((j + 1 : ℕ) : ℚ) * (step / 2 ^ k) = j * (step / 2 ^ k) + step / 2 ^ k := by push_cast; ring
    have h4 : 0 < 2 ^ (14 - k) := by positivity
    have h5 : (j + 1) * 2 ^ (14 - k) = j * 2 ^ (14 - k) + 2 ^ (14 - k) := by ring
    have h3 : (j + 1) * 2 ^ (14 - k) ≤ 2 ^ 14 := by
      calc (j + 1) * 2 ^ (14 - k) ≤ 2 ^ k * 2 ^ (14 - k) := Nat.mul_le_mul_right _ hjlt
        _ = 2 ^ 14 := hpow
    refine ⟨k, j + 1, xs ++ [st.cur], ⟨hk, by omega, hcur, ?_, ?_, ?_, ?_, ?_, ?_, ?_⟩, ?_⟩
    · rw [List.length_append, List.length_singleton]; omega
    · show Rel _ (fl (st.xi + st.cur)) _
      rw [List.length_append, List.length_singleton, ej, hcur]
      have hr0 : Rel xs.length (step / 2 ^ k) (step / 2 ^ k) := (Rel.refl _).mono (Nat.zero_le _)
      exact (hxi.add hr0 (by positivity) (by positivity)).fl
    · rw [List.sum_append, hsum, ej, hcur]; simp
    · rw [throughF_append, hth]
    · intro x hx
      rw [List.mem_append, List.mem_singleton] at hx
      rcases hx with hx | rfl
      · exact hdy x hx
      · exact ⟨k, le_rfl, hcur⟩
    · rw [List.pairwise_append]
      refine ⟨hmono, List.pairwise_singleton _ _, ?_⟩
      intro a ha b hb
      rw [List.mem_singleton] at hb
      obtain ⟨i, hi, e⟩ := hdy a ha
      rw [hb, hcur, e]
      exact div_le_div_of_nonneg_left hs.le (by positivity) (pow_le_pow_right₀ (by norm_num) hi)
    · intro pre x post e
      rcases List.eq_nil_or_concat post with hpost | ⟨post', y, hpost⟩
      · subst hpost
        obtain ⟨e1, e2⟩ := List.append_inj' (s₁ := xs) (t₁ := [st.cur]) (s₂ := pre) (t₂ := [x]) e rfl
        cases e2
        rw [← e1, hth]
        rw [not_and_or, not_le] at hrej
        rcases hrej with h' | h'
        · exact Or.inl h'
        · right
          rw [hcur] at h' ⊢
          rw [hsm] at h'
          have : k = 14 := by omega
          subst this
          rw [div_div, mul_comm, ← div_div, div_self hs.ne']
          norm_num
      · rw [hpost, List.concat_eq_append] at e
        have e' : xs ++ [st.cur] = (pre ++ x :: post') ++ [y] := by rw [e]; simp
        obtain ⟨e1, -⟩ := List.append_inj' e' rfl
        exact hgood pre x post' e1
    · omega

theorem sub_runF (mv : S → ℚ → PushF S) (gone : S → Bool) (h step : ℚ) (hs : 0 < step) (hf : IsFloat step) (s0 : S) (age0 : ℚ) (n : ℕ) (st : SubStF S) (k j : ℕ) (xs : List ℚ)
    (inv : SubInvF mv h step s0 age0 st k j xs) (hn : (14 - k) + (2 ^ 14 - j * 2 ^ (14 - k)) < n) :
    ∃ k' j' xs', SubInvF mv h step s0 age0 (subRunF mv gone h step n st) k' j' xs' ∧ subIterF mv gone h step (subRunF mv gone h step n st) = none := by
  induction n generalizing st k j xs with
  | zero => omega
  | succ n ih =>
    unfold subRunF
    cases hit : subIterF mv gone h step st with
    | none => exact ⟨k, j, xs, inv, hit⟩
    | some st' =>
      obtain ⟨k', j', xs', inv', hlt⟩ := sub_stepF mv gone h step hs hf s0 age0 st k j xs inv st' hit
      exact ih st' k' j' xs' inv' (by omega)

theorem sub_initF (mv : S → ℚ → PushF S) (h step : ℚ) (s0 : S) (age0 : ℚ) : SubInvF mv h step s0 age0 ⟨s0, 0, step, age0⟩ 0 0 [] := by
  refine ⟨by omega, by simp, by simp, by simp, by simp [Rel], by simp, rfl, by simp, List.Pairwise.nil, ?_⟩
  intro pre x post e
  simp at e

/-- C72: with rounding, the loop over the substeps of a particle always ends. -/
theorem loop_ends_doubles (mv : S → ℚ → PushF S) (gone : S → Bool) (h step : ℚ) (hs : 0 < step) (hf : IsFloat step) (s : S) (age : ℚ) :
    subIterF mv gone h step (moveSubsteppedF mv gone h step s age) = none := by
  obtain ⟨-, -, -, -, h⟩ := sub_runF mv gone h step hs hf s age (2 ^ 14 + 15) _ 0 0 [] (sub_initF mv h step s age) (by norm_num)
  exact h

/-- C72. With rounding, for every push, particle and step (a double): the result is what one gets by pushing the particle through a list of substeps; the substeps are
binary fractions of the step, never growing, and each one either moved the particle by less than a radial cell or is of the smallest size; they add up exactly to the step,
unless the particle lost its charge on the way. Although `xi_particle` is a rounded sum, no substep is missing and none is done twice. -/
theorem substeps_cover_doubles (mv : S → ℚ → PushF S) (gone : S → Bool) (h step : ℚ) (hs : 0 < step) (hf : IsFloat step) (s : S) (age : ℚ) :
    ∃ xs : List ℚ,
      throughF mv xs s age = ((moveSubsteppedF mv gone h step s age).s, (moveSubsteppedF mv gone h step s age).age) ∧
      (∀ x ∈ xs, ∃ i ≤ 14, x = step / 2 ^ i) ∧ xs.Pairwise (· ≥ ·) ∧ xs.sum ≤ step ∧
      (gone (moveSubsteppedF mv gone h step s age).s = false → xs.sum = step) ∧
      (∀ pre x post, xs = pre ++ x :: post → (mv (throughF mv pre s age).1 x).path < h ∨ x / step ≤ 1 / 10000) := by
  obtain ⟨k, j, xs, inv, hend⟩ := sub_runF mv gone h step hs hf s age (2 ^ 14 + 15) _ 0 0 [] (sub_initF mv h step s age) (by norm_num)
  change SubInvF mv h step s age (moveSubsteppedF mv gone h step s age) k j xs at inv
  change subIterF mv gone h step (moveSubsteppedF mv gone h step s age) = none at hend
  generalize moveSubsteppedF mv gone h step s age = st at inv hend
  obtain ⟨hk, hj, hcur, hlen, hxi, hsum, hth, hdy, hmono, hgood⟩ := inv
  have hpow : 2 ^ k * 2 ^ (14 - k) = 2 ^ 14 := by rw [← pow_add]; congr 1; omega
  have hlen' : xs.length ≤ 2 ^ 14 := hlen.trans (by rw [← hpow]; exact Nat.mul_le_mul_right _ hj)
  have hlim := limit_exact hs hk hj hlen' hxi
  have h2k : (0 : ℚ) < 2 ^ k := by positivity
  have hj' : (j : ℚ) ≤ 2 ^ k := by exact_mod_cast hj
  refine ⟨xs, hth, fun x hx => ?_, hmono, ?_, ?_, hgood⟩
  · obtain ⟨i, hi, e⟩ := hdy x hx
    exact ⟨i, by omega, e⟩
  · rw [hsum, mul_div_assoc', div_le_iff₀ h2k]
    nlinarith
  · intro hq
    unfold subIterF at hend
    by_cases hc : st.xi ≤ fl (fl (99999 / 100000) * step)
    · rw [if_pos hc, if_neg (by rw [hq]; simp)] at hend
      split_ifs at hend
    · rw [hlim, not_lt] at hc
      have h4 : j = 2 ^ k := by omega
      rw [hsum, h4]; push_cast; field_simp

/-- A particle whose first trial moves less than a radial cell and keeps its charge is pushed exactly once. -/
theorem single_push_doubles (mv : S → ℚ → PushF S) (gone : S → Bool) (h step : ℚ) (hs : 0 < step) (hf : IsFloat step) (s : S) (age : ℚ) (hq : gone s = false)
    (hp : (mv s step).path < h) :
    (moveSubsteppedF mv gone h step s age).s = (mv s step).s ∧ (moveSubsteppedF mv gone h step s age).age = fl (age - (mv s step).age) := by
  obtain ⟨l1, l2⟩ := limit_range hs
  have h1 : subIterF mv gone h step ⟨s, 0, step, age⟩ = some ⟨(mv s step).s, fl (0 + step), step, fl (age - (mv s step).age)⟩ := by
    unfold subIterF
    rw [if_pos (le_trans (by norm_num; exact hs.le) l1), if_neg (by simp [hq])]
    rw [if_neg (by rw [not_and_or, not_le]; exact Or.inl hp)]
  have h2 : subIterF mv gone h step ⟨(mv s step).s, fl (0 + step), step, fl (age - (mv s step).age)⟩ = none := by
    unfold subIterF
    rw [if_neg]
    simp only [zero_add, fl_exact hf, not_le]
    refine lt_of_le_of_lt l2 ?_
    nlinarith
  unfold moveSubsteppedF
  rw [show 2 ^ 14 + 15 = (2 ^ 14 + 13) + 1 + 1 by norm_num, subRunF, h1]
  simp only
  rw [subRunF, h2]
  exact ⟨rfl, rfl⟩

/-- Non-vacuity: a mover that travels 3 per unit of step, cells of size 1 and a step of 1: two halvings, four substeps. -/
example : ∃ xs : List ℚ, xs.sum = 1 ∧ ∀ x ∈ xs, (3 * x < 1 ∨ x / 1 ≤ 1 / 10000) := by
  obtain ⟨xs, h1, h2, h3, h4, h5, h6⟩ := substeps_cover_doubles (S := Unit) (fun s x => ⟨s, 3 * x, x⟩) (fun _ => false) 1 1 one_pos ⟨1, 0, by norm_num, by norm_num⟩ () 0
  exact ⟨xs, h5 rfl, fun x hx => by
    obtain ⟨pre, post, e⟩ := List.append_of_mem hx
    exact h6 pre x post e⟩

/-! ### The substeps of a layer -/

variable {W : Type}

/-- The loop variables in doubles, solver.py:40-45: plasma state, substepping_depth, substepping_state, xi_step_p. -/
structure LoopStF (W : Type) where
  w : W
  depth : ℕ
  state : ℕ → ℤ
  step : ℚ

/-- The loop is over, or goes on. -/
inductive ConfF (W : Type) where
  | done (w : W)
  | go (s : LoopStF W)

/-- The inner while loop in doubles, solver.py:87-90. -/
def popLevelsF : ℕ → (ℕ → ℤ) → ℚ → ℕ × (ℕ → ℤ) × ℚ
  | 0, st, x => (0, st, x)
  | d + 1, st, x => if st (d + 1) = 1 then popLevelsF d (Function.update st (d + 1) 0) (fl (x * 10)) else (d + 1, st, x)

/-- solver.py:86-96 in doubles, after a substep has been accepted. -/
def afterAcceptF (w : W) (d : ℕ) (st : ℕ → ℤ) (x : ℚ) : ConfF W :=
  let p := popLevelsF d st x
  let st' := Function.update p.2.1 p.1 (p.2.1 p.1 - 1)
  if p.1 = 0 then .done w else .go ⟨w, p.1, st', p.2.2⟩

/-- One turn of the loop in doubles, solver.py:47-96 (path_lim = 0). -/
def turnF (need : W → ℚ → Bool) (adv : W → ℚ → W) (maxDepth : ℕ) : ConfF W → ConfF W
  | .done w => .done w
  | .go s =>
    if need s.w s.step && decide (s.depth < maxDepth) then
      .go ⟨s.w, s.depth + 1, Function.update s.state (s.depth + 1) 10, fl (s.step / 10)⟩
    else afterAcceptF (adv s.w s.step) s.depth s.state s.step

/-- The loop variables at the start of a layer, solver.py:40-45. -/
def startLayerF (w : W) (L : ℚ) : ConfF W := .go ⟨w, 0, fun _ => 0, L⟩

/-! #### Specification -/

/-- Do `f` `n` times, collecting its reports. -/
def times {A T : Type} (f : T → List A × T) : ℕ → T → List A × T
  | 0, s => ([], s)
  | n + 1, s => ((f s).1 ++ (times f n (f s).2).1, (times f n (f s).2).2)

/-- Solve a step with at most `k` further refinements: if it is too long, solve ten steps of a tenth of the length, else do it at once. The step length is divided by ten and
multiplied by ten, with rounding. Reported are the substeps done, each with its number of refinements (counted from `d`). -/
def levelF (need : W → ℚ → Bool) (adv : W → ℚ → W) : ℕ → ℕ → W × ℚ → List (ℚ × ℕ) × (W × ℚ)
  | 0, d, s => ([(s.2, d)], (adv s.1 s.2, s.2))
  | k + 1, d, s =>
    if need s.1 s.2 then
      let r := times (levelF need adv k (d + 1)) 10 (s.1, fl (s.2 / 10))
      (r.1, (r.2.1, fl (r.2.2 * 10)))
    else ([(s.2, d)], (adv s.1 s.2, s.2))

theorem turnF_done (need : W → ℚ → Bool) (adv : W → ℚ → W) (m n : ℕ) (w : W) : (turnF need adv m)^[n] (.done w) = .done w := by
  induction n with
  | zero => rfl
  | succ n ih => rw [Function.iterate_succ_apply]; exact ih

/-- One level of the loop does what the recursive solver does. -/
theorem level_refines_doubles (need : W → ℚ → Bool) (adv : W → ℚ → W) (m k : ℕ) :
    ∀ (d : ℕ), d + k = m → ∀ (w : W) (st : ℕ → ℤ) (x : ℚ), (∀ j, d < j → st j = 0) →
    ∃ n, 1 ≤ n ∧ n ≤ Plasma2D.turns k ∧ (turnF need adv m)^[n] (.go ⟨w, d, st, x⟩) =
      afterAcceptF (levelF need adv k d (w, x)).2.1 d st (levelF need adv k d (w, x)).2.2 := by
  induction k with
  | zero =>
    intro d hd w st x _
    refine ⟨1, le_rfl, le_rfl, ?_⟩
    rw [Function.iterate_one]
    unfold turnF
    simp only
    rw [if_neg (by simp; omega)]
    rfl
  | succ k ih =>
    intro d hd w st x hst
    by_cases hneed : need w x = true
    · have inner : ∀ j : ℕ, ∀ (w : W) (y : ℚ), ∃ n, 1 ≤ n ∧ n ≤ (j + 1) * Plasma2D.turns k ∧
          (turnF need adv m)^[n] (.go ⟨w, d + 1, Function.update st (d + 1) ((j + 1 : ℕ) : ℤ), y⟩) =
            afterAcceptF (times (levelF need adv k (d + 1)) (j + 1) (w, y)).2.1 d st (fl ((times (levelF need adv k (d + 1)) (j + 1) (w, y)).2.2 * 10)) := by
        intro j
        induction j with
        | zero =>
          intro w y
          obtain ⟨n, h1, h2, h3⟩ := ih (d + 1) (by omega) w (Function.update st (d + 1) 1) y (by
            intro i hi; rw [Function.update_of_ne (by omega)]; exact hst i (by omega))
          refine ⟨n, h1, by omega, ?_⟩
          simp only [zero_add, Nat.cast_one]
          rw [h3]
          unfold afterAcceptF
          simp only [popLevelsF, Function.update_self, if_true, Function.update_idem, times]
          rw [show Function.update st (d + 1) 0 = st by rw [Function.update_eq_self_iff]; exact (hst _ (by omega)).symm]
          rfl
        | succ j ihj =>
          intro w y
          obtain ⟨n, h1, h2, h3⟩ := ih (d + 1) (by omega) w (Function.update st (d + 1) ((j + 1 + 1 : ℕ) : ℤ)) y (by
            intro i hi; rw [Function.update_of_ne (by omega)]; exact hst i (by omega))
          obtain ⟨n', h1', h2', h3'⟩ := ihj (levelF need adv k (d + 1) (w, y)).2.1 (levelF need adv k (d + 1) (w, y)).2.2
          refine ⟨n' + n, by omega, ?_, ?_⟩
          · have : (j + 1 + 1) * Plasma2D.turns k = (j + 1) * Plasma2D.turns k + Plasma2D.turns k := by ring
            omega
          rw [Function.iterate_add_apply, h3]
          have : afterAcceptF (levelF need adv k (d + 1) (w, y)).2.1 (d + 1) (Function.update st (d + 1) ((j + 1 + 1 : ℕ) : ℤ)) (levelF need adv k (d + 1) (w, y)).2.2 =
              .go ⟨(levelF need adv k (d + 1) (w, y)).2.1, d + 1, Function.update st (d + 1) ((j + 1 : ℕ) : ℤ), (levelF need adv k (d + 1) (w, y)).2.2⟩ := by
            unfold afterAcceptF
            have h1 : ¬ ((j + 1 + 1 : ℕ) : ℤ) = 1 := by push_cast; omega
            simp only [popLevelsF, Function.update_self, if_neg h1, Function.update_idem, Nat.succ_ne_zero, if_false]
            congr 3
            push_cast; ring
          rw [this, h3']
          rfl
      obtain ⟨n, h1, h2, h3⟩ := inner 9 w (fl (x / 10))
      refine ⟨n + 1, by omega, ?_, ?_⟩
      · show n + 1 ≤ 10 * Plasma2D.turns k + 1
        omega
      rw [Function.iterate_add_apply, Function.iterate_one]
      have : turnF need adv m (.go ⟨w, d, st, x⟩) = .go ⟨w, d + 1, Function.update st (d + 1) 10, fl (x / 10)⟩ := by
        unfold turnF
        simp only
        rw [if_pos (by rw [hneed]; simp; omega)]
      rw [this]
      have h3'' : (turnF need adv m)^[n] (.go ⟨w, d + 1, Function.update st (d + 1) 10, fl (x / 10)⟩) = _ := h3
      rw [h3'']
      rw [levelF, if_pos hneed]
    · refine ⟨1, le_rfl, by unfold Plasma2D.turns; omega, ?_⟩
      rw [Function.iterate_one]
      unfold turnF
      simp only
      rw [if_neg (by simp [hneed]), levelF, if_neg hneed]

/-- The number of roundings a step length can have gone through. -/
def roundings : ℕ → ℕ
  | 0 => 0
  | k + 1 => 10 * roundings k + 2

/-- The substeps of one level: lengths, sum, and the work done. -/
theorem level_covered_doubles (need : W → ℚ → Bool) (adv : W → ℚ → W) (L : ℚ) (hL : 0 < L) (k : ℕ) :
    ∀ (d n : ℕ) (w : W) (x : ℚ), Rel n x (L / 10 ^ d) →
      (∀ y ∈ (levelF need adv k d (w, x)).1, d ≤ y.2 ∧ y.2 ≤ d + k ∧ Rel (n + roundings k) y.1 (L / 10 ^ y.2)) ∧
      ((levelF need adv k d (w, x)).1.map fun y : ℚ × ℕ => L / 10 ^ y.2).sum = L / 10 ^ d ∧
      Rel (n + roundings k) (levelF need adv k d (w, x)).2.2 (L / 10 ^ d) ∧
      (levelF need adv k d (w, x)).2.1 = ((levelF need adv k d (w, x)).1.map Prod.fst).foldl adv w := by
  induction k with
  | zero =>
    intro d n w x hx
    refine ⟨?_, by simp [levelF], by simpa [levelF, roundings] using hx, rfl⟩
    intro y hy
    simp only [levelF, List.mem_singleton] at hy
    subst hy
    exact ⟨le_rfl, le_rfl, by simpa [roundings] using hx⟩
  | succ k ih =>
    intro d n w x hx
    by_cases hneed : need w x = true
    · have inner : ∀ j : ℕ, ∀ (n : ℕ) (w : W) (x : ℚ), Rel n x (L / 10 ^ (d + 1)) →
          (∀ y ∈ (times (levelF need adv k (d + 1)) j (w, x)).1, d + 1 ≤ y.2 ∧ y.2 ≤ d + 1 + k ∧ Rel (n + j * roundings k) y.1 (L / 10 ^ y.2)) ∧
          ((times (levelF need adv k (d + 1)) j (w, x)).1.map fun y : ℚ × ℕ => L / 10 ^ y.2).sum = j * (L / 10 ^ (d + 1)) ∧
          Rel (n + j * roundings k) (times (levelF need adv k (d + 1)) j (w, x)).2.2 (L / 10 ^ (d + 1)) ∧
          (times (levelF need adv k (d + 1)) j (w, x)).2.1 = ((times (levelF need adv k (d + 1)) j (w, x)).1.map Prod.fst).foldl adv w := by
        intro j
        induction j with
        | zero => intro n w x hx; exact ⟨by simp [times], by simp [times], by simpa [times] using hx, rfl⟩
        | succ j ihj =>
          intro n w x hx
          obtain ⟨a1, a2, a3, a4⟩ := ih (d + 1) n w x hx
          generalize hs : levelF need adv k (d + 1) (w, x) = r at a1 a2 a3 a4
          obtain ⟨l, w', x'⟩ := r
          obtain ⟨b1, b2, b3, b4⟩ := ihj (n + roundings k) w' x' a3
          have ht : times (levelF need adv k (d + 1)) (j + 1) (w, x) = (l ++ (times (levelF need adv k (d + 1)) j (w', x')).1, (times (levelF need adv k (d + 1)) j (w', x')).2) := by
            simp only [times, hs]
          have hN : n + (j + 1) * roundings k = n + roundings k + j * roundings k := by ring
          rw [ht, hN]
          simp only
          refine ⟨?_, ?_, b3, ?_⟩
          · intro y hy
            rw [List.mem_append] at hy
            rcases hy with hy | hy
            · obtain ⟨c1, c2, c3⟩ := a1 y hy
              exact ⟨c1, c2, c3.mono (Nat.le_add_right _ _)⟩
            · exact b1 y hy
          · rw [List.map_append, List.sum_append, a2, b2]; push_cast; ring
          · rw [List.map_append, List.foldl_append, b4]
            simp only at a4
            rw [a4]
      have e10 : L / 10 ^ (d + 1) = L / 10 ^ d / 10 := by rw [pow_succ, div_div]
      have hx1 : Rel (n + 1) (fl (x / 10)) (L / 10 ^ (d + 1)) := by
        rw [e10]
        refine Rel.fl ?_
        have := hx.mul (Rel.refl (1 / 10))
        rw [add_zero] at this
        rw [div_eq_mul_one_div x, div_eq_mul_one_div (L / 10 ^ d)]
        exact this
      obtain ⟨b1, b2, b3, b4⟩ := inner 10 (n + 1) w (fl (x / 10)) hx1
      rw [levelF, if_pos hneed]
      simp only
      generalize times (levelF need adv k (d + 1)) 10 (w, fl (x / 10)) = r at b1 b2 b3 b4
      refine ⟨?_, ?_, ?_, b4⟩
      · intro y hy
        obtain ⟨c1, c2, c3⟩ := b1 y hy
        exact ⟨by omega, by omega, c3.mono (by rw [show roundings (k + 1) = 10 * roundings k + 2 from rfl]; omega)⟩
      · rw [b2, e10]; push_cast; ring
      · have := (b3.mul (Rel.refl 10)).fl
        rw [e10, div_mul_cancel₀ _ (by norm_num : (10 : ℚ) ≠ 0)] at this
        exact this.mono (by rw [show roundings (k + 1) = 10 * roundings k + 2 from rfl]; omega)
    · rw [levelF, if_neg hneed]
      refine ⟨?_, by simp, hx.mono (Nat.le_add_right _ _), rfl⟩
      intro y hy
      rw [List.mem_singleton] at hy
      subst hy
      exact ⟨le_rfl, by omega, hx.mono (Nat.le_add_right _ _)⟩

/-- Every substep is a double. -/
theorem level_floats (need : W → ℚ → Bool) (adv : W → ℚ → W) (k : ℕ) : ∀ (d : ℕ) (s : W × ℚ), IsFloat s.2 →
    (∀ y ∈ (levelF need adv k d s).1, IsFloat y.1) ∧ IsFloat (levelF need adv k d s).2.2 := by
  induction k with
  | zero => intro d s hs; exact ⟨fun y hy => by simp only [levelF, List.mem_singleton] at hy; rw [hy]; exact hs, hs⟩
  | succ k ih =>
    intro d s hs
    have ht : ∀ (n : ℕ) (t : W × ℚ), IsFloat t.2 → ∀ y ∈ (times (levelF need adv k (d + 1)) n t).1, IsFloat y.1 := by
      intro n
      induction n with
      | zero => intro t _ y hy; simp [times] at hy
      | succ n ihn =>
        intro t h y hy
        rw [times, List.mem_append] at hy
        rcases hy with hy | hy
        · exact (ih (d + 1) t h).1 y hy
        · exact ihn _ (ih (d + 1) t h).2 y hy
    rw [levelF]
    split
    · exact ⟨ht 10 _ (isFloat_fl _), isFloat_fl _⟩
    · exact ⟨fun y hy => by simp only [List.mem_singleton] at hy; rw [hy]; exact hs, hs⟩

theorem roundings_small {m : ℕ} (hm : m ≤ 15) : roundings m ≤ 2 ^ 48 := by
  have mono : ∀ a, roundings a ≤ roundings (a + 1) := fun a => by
    rw [show roundings (a + 1) = 10 * roundings a + 2 from rfl]; omega
  exact (monotone_nat_of_le_succ mono hm).trans (by decide)

/-- C72. With rounding, whatever the refinement test answers: the loop of a layer ends within a number of turns fixed by the maximal depth; the layer is solved by substeps `ys`, each
a rounded decimal fraction of its length, with the same numbers of refinements as without rounding (the exact fractions add up exactly to the layer), and the
substeps taken differ from the exact fractions, and their sum from the length of the layer, by a relative error of less than `gam (roundings m)`: 222 roundings for depth 3.
The depth of any useful configuration is far below 15 (the number of turns grows like 10^depth). -/
theorem layer_covered_doubles (need : W → ℚ → Bool) (adv : W → ℚ → W) (m : ℕ) (hm : m ≤ 15) (w : W) (L : ℚ) (hL : 0 < L) (hf : IsFloat L) :
    ∃ ys : List (ℚ × ℕ), (∀ n, Plasma2D.turns m ≤ n → (turnF need adv m)^[n] (startLayerF w L) = .done ((ys.map Prod.fst).foldl adv w)) ∧
      (ys.map fun y : ℚ × ℕ => L / 10 ^ y.2).sum = L ∧ (∀ y ∈ ys, IsFloat y.1 ∧ y.2 ≤ m ∧ 0 < y.1 ∧ |y.1 - L / 10 ^ y.2| ≤ gam (roundings m) * (L / 10 ^ y.2)) ∧
      |(ys.map Prod.fst).sum - L| ≤ gam (roundings m) * L ∧ (need w L = false → ys = [(L, 0)]) := by
  have hg : gam (roundings m) < 1 := by
    have h := roundings_small hm
    refine (gam_le (h.trans (by norm_num))).trans_lt ?_
    have : (roundings m : ℚ) ≤ 2 ^ 48 := by exact_mod_cast h
    rw [div_lt_one (by norm_num)]
    exact this.trans_lt (by norm_num)
  obtain ⟨a1, a2, a3, a4⟩ := level_covered_doubles need adv L hL m 0 0 w L (by simpa using Rel.refl L)
  rw [pow_zero, div_one] at a2
  have hall : ∀ y ∈ (levelF need adv m 0 (w, L)).1, y.2 ≤ m ∧ 0 < y.1 ∧ |y.1 - L / 10 ^ y.2| ≤ gam (roundings m) * (L / 10 ^ y.2) := by
    intro y hy
    obtain ⟨-, c2, c3⟩ := a1 y hy
    rw [zero_add] at c2 c3
    unfold Rel at c3
    have hp : 0 < L / 10 ^ y.2 := by positivity
    rw [abs_of_pos hp] at c3
    refine ⟨c2, ?_, c3⟩
    rw [abs_le] at c3
    nlinarith [c3.1]
  refine ⟨(levelF need adv m 0 (w, L)).1, ?_, a2, fun y hy => ⟨(level_floats need adv m 0 (w, L) hf).1 y hy, hall y hy⟩, ?_, ?_⟩
  · intro n hn
    obtain ⟨k, h1, h2, h3⟩ := level_refines_doubles need adv m m 0 (by omega) w (fun _ => 0) L (fun _ _ => rfl)
    have : n = (n - k) + k := by omega
    rw [this, Function.iterate_add_apply, startLayerF, h3]
    unfold afterAcceptF
    simp only [popLevelsF, if_true]
    rw [turnF_done, a4]
  · have key : ∀ ys : List (ℚ × ℕ), (∀ y ∈ ys, y.2 ≤ m ∧ 0 < y.1 ∧ |y.1 - L / 10 ^ y.2| ≤ gam (roundings m) * (L / 10 ^ y.2)) →
        |(ys.map Prod.fst).sum - (ys.map fun y : ℚ × ℕ => L / 10 ^ y.2).sum| ≤ gam (roundings m) * (ys.map fun y : ℚ × ℕ => L / 10 ^ y.2).sum := by
      intro ys hall
      induction ys with
      | nil => simp
      | cons y ys ih =>
        have i1 := ih fun z hz => hall z (List.mem_cons_of_mem _ hz)
        have i2 := (hall y List.mem_cons_self).2.2
        simp only [List.map_cons, List.sum_cons]
        rw [abs_le] at i1 i2 ⊢
        constructor <;> linarith [i1.1, i1.2, i2.1, i2.2]
    have := key _ hall
    rw [a2] at this
    exact this
  · intro h
    cases m with
    | zero => rfl
    | succ m => rw [levelF, if_neg (by simp [h])]

/-- Finding: the step length does not come back exactly. With `xi-step` 0.007 divided twice by ten and multiplied by ten, the remaining substeps of the first level are one unit
in the last place shorter than the first ones. -/
theorem step_not_restored : fl (fl (fl (fl (7 / 1000) / 10) / 10) * 10) < fl (fl (7 / 1000) / 10) := by decide +kernel

/-- Non-vacuity: a test that wants steps of at most a twentieth of the layer. -/
example : ∃ ys : List (ℚ × ℕ), (ys.map fun y : ℚ × ℕ => (1 : ℚ) / 10 ^ y.2).sum = 1 ∧ |(ys.map Prod.fst).sum - 1| ≤ gam 22 := by
  obtain ⟨ys, -, h2, -, h4, -⟩ := layer_covered_doubles (W := ℚ) (fun _ x => decide (1 / 20 < x)) (· + ·) 2 (by norm_num) 0 1 one_pos ⟨1, 0, by norm_num, by norm_num⟩
  exact ⟨ys, h2, by simpa [roundings] using h4⟩

end Lcode.Fp
