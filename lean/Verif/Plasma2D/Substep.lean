import Verif.Plasma2D.Move

/-!
Model of _move_particles_with_substepping (lcode/plasma/move.py:169-213) and property C20.
-/

namespace Lcode.Plasma2D

/-! ### Model -/

/-- Loop state of one particle: the last good state (r_array[j], ...), xi_particle, xi_step_cur and age_array[j].
At the loop head the local variables r, p_r, p_f, p_z, q always equal the last good state. -/
structure SubSt where
  s : PState
  xi : ℝ
  cur : ℝ
  age : ℝ

/-- One turn of the loop, move.py:183-207; `none` when the loop ends. `mv` is _move_one_particle for this particle, `h` the radial step, `step` the whole step. -/
noncomputable def subIter (mv : PState → ℝ → MoveResult) (h step : ℝ) (st : SubSt) : Option SubSt :=
  if st.xi ≤ 99999 / 100000 * step then
    if st.s.q = 0 then none
    else
      let res := mv st.s st.cur
      if res.path ≥ h ∧ st.cur / step > 1 / 10000 then some { st with cur := st.cur / 2 }
      else some ⟨res.s, st.xi + st.cur, st.cur, st.age - res.age⟩
  else none

/-- At most `n` turns of the loop. -/
noncomputable def subRun (mv : PState → ℝ → MoveResult) (h step : ℝ) : ℕ → SubSt → SubSt
  | 0, st => st
  | n + 1, st => match subIter mv h step st with
    | none => st
    | some st' => subRun mv h step n st'

/-- The most turns the loop can take; `loop_ends` proves that the loop has ended by then. -/
def maxTurns : ℕ := 2 ^ 14 + 15

/-- The whole loop for one particle, move.py:176-213. -/
noncomputable def moveSubstepped (mv : PState → ℝ → MoveResult) (h step : ℝ) (s : PState) (age : ℝ) : SubSt :=
  subRun mv h step maxTurns ⟨s, 0, step, age⟩

/-! ### C20 -/

/-- Specification: pushing a particle through a list of substeps one after the other, accumulating its age. -/
noncomputable def through (mv : PState → ℝ → MoveResult) : List ℝ → PState → ℝ → PState × ℝ
  | [], s, age => (s, age)
  | x :: xs, s, age => through mv xs (mv s x).s (age - (mv s x).age)

theorem through_append (mv : PState → ℝ → MoveResult) (xs : List ℝ) (x : ℝ) (s : PState) (age : ℝ) :
    through mv (xs ++ [x]) s age =
      ((mv (through mv xs s age).1 x).s, (through mv xs s age).2 - (mv (through mv xs s age).1 x).age) := by
  induction xs generalizing s age with
  | nil => rfl
  | cons y xs ih => simp only [List.cons_append, through]; rw [ih]

/-- What is true of the loop state after the substeps `xs` have been accepted. -/
structure SubInv (mv : PState → ℝ → MoveResult) (h step : ℝ) (s0 : PState) (age0 : ℝ) (st : SubSt) (k j : ℕ) (xs : List ℝ) : Prop where
  hk : k ≤ 14
  hj : j ≤ 2 ^ k
  hcur : st.cur = step / 2 ^ k
  hxi : st.xi = j * (step / 2 ^ k)
  hsum : xs.sum = st.xi
  hthrough : through mv xs s0 age0 = (st.s, st.age)
  hdyadic : ∀ x ∈ xs, ∃ i ≤ k, x = step / 2 ^ i
  hmono : xs.Pairwise (· ≥ ·)
  hgood : ∀ pre x post, xs = pre ++ x :: post →
    (mv (through mv pre s0 age0).1 x).path < h ∨ x / step ≤ 1 / 10000

theorem sub_step (mv : PState → ℝ → MoveResult) (h step : ℝ) (hs : 0 < step) (s0 : PState) (age0 : ℝ) (st : SubSt) (k j : ℕ) (xs : List ℝ)
    (inv : SubInv mv h step s0 age0 st k j xs) (st' : SubSt) (hit : subIter mv h step st = some st') :
    ∃ k' j' xs', SubInv mv h step s0 age0 st' k' j' xs' ∧
      (14 - k') + (2 ^ 14 - j' * 2 ^ (14 - k')) < (14 - k) + (2 ^ 14 - j * 2 ^ (14 - k)) := by
  obtain ⟨hk, hj, hcur, hxi, hsum, hth, hdy, hmono, hgood⟩ := inv
  unfold subIter at hit
  by_cases hc : st.xi ≤ 99999 / 100000 * step
  swap
  · rw [if_neg hc] at hit; cases hit
  rw [if_pos hc] at hit
  by_cases hq : st.s.q = 0
  · rw [if_pos hq] at hit; cases hit
  rw [if_neg hq] at hit
  simp only at hit
  have h2k : (0 : ℝ) < 2 ^ k := by positivity
  have hjlt : j < 2 ^ k := by
    rcases hj.lt_or_eq with h | h
    · exact h
    · exfalso
      have : st.xi = step := by rw [hxi, h]; push_cast; field_simp
      rw [this] at hc; linarith
  have hpow : 2 ^ k * 2 ^ (14 - k) = 2 ^ 14 := by rw [← pow_add]; congr 1; omega
  by_cases hrej : (mv st.s st.cur).path ≥ h ∧ st.cur / step > 1 / 10000
  · rw [if_pos hrej] at hit
    cases hit
    have hk14 : k < 14 := by
      by_contra hge
      have : k = 14 := by omega
      subst this
      have := hrej.2
      rw [hcur, div_div, mul_comm, ← div_div, div_self hs.ne'] at this
      norm_num at this
    refine ⟨k + 1, 2 * j, xs, ⟨by omega, by rw [pow_succ]; omega, ?_, ?_, hsum, hth, ?_, hmono, hgood⟩, ?_⟩
    · show st.cur / 2 = _
      rw [hcur, pow_succ, div_div]
    · show st.xi = _
      rw [hxi, pow_succ]; push_cast; field_simp
    · intro x hx
      obtain ⟨i, hi, e⟩ := hdy x hx
      exact ⟨i, by omega, e⟩
    · have e : 2 ^ (14 - k) = 2 * 2 ^ (14 - (k + 1)) := by
        rw [show 14 - k = (14 - (k + 1)) + 1 by omega, pow_succ, mul_comm]
      have e2 : 2 * j * 2 ^ (14 - (k + 1)) = j * 2 ^ (14 - k) := by rw [e]; ring
      rw [e2]; omega
  · rw [if_neg hrej] at hit
    cases hit
    refine ⟨k, j + 1, xs ++ [st.cur], ⟨hk, by omega, hcur, ?_, ?_, ?_, ?_, ?_, ?_⟩, ?_⟩
    · show st.xi + st.cur = _
      rw [hxi, hcur]; push_cast; ring
    · show _ = st.xi + st.cur
      rw [List.sum_append, hsum]; simp
    · rw [through_append, hth]
    · intro x hx
      rw [List.mem_append, List.mem_singleton] at hx
      rcases hx with hx | rfl
      · exact hdy x hx
      · exact ⟨k, le_rfl, hcur⟩
    · rw [List.pairwise_append]
      refine ⟨hmono, List.pairwise_singleton _ _, ?_⟩
      intro a ha b hb
      rw [List.mem_singleton] at hb
      obtain ⟨i, hi, e⟩ := hdy a ha
      rw [hb, hcur, e]
      exact div_le_div_of_nonneg_left hs.le (by positivity) (pow_le_pow_right₀ (by norm_num) hi)
    · intro pre x post e
      rcases List.eq_nil_or_concat post with hpost | ⟨post', y, hpost⟩
      · subst hpost
        have := List.append_inj' (s₁ := xs) (t₁ := [st.cur]) (s₂ := pre) (t₂ := [x]) e rfl
        obtain ⟨e1, e2⟩ := this
        cases e2
        rw [← e1, hth]
        rw [not_and_or, not_le, not_lt] at hrej
        exact hrej
      · rw [hpost, List.concat_eq_append] at e
        have e' : xs ++ [st.cur] = (pre ++ x :: post') ++ [y] := by rw [e]; simp
        obtain ⟨e1, -⟩ := List.append_inj' e' rfl
        exact hgood pre x post' e1
    · have h3 : (j + 1) * 2 ^ (14 - k) ≤ 2 ^ 14 := by
        calc (j + 1) * 2 ^ (14 - k) ≤ 2 ^ k * 2 ^ (14 - k) := Nat.mul_le_mul_right _ hjlt
          _ = 2 ^ 14 := hpow
      have h4 : 0 < 2 ^ (14 - k) := by positivity
      have h5 : (j + 1) * 2 ^ (14 - k) = j * 2 ^ (14 - k) + 2 ^ (14 - k) := by ring
      omega

theorem sub_run (mv : PState → ℝ → MoveResult) (h step : ℝ) (hs : 0 < step) (s0 : PState) (age0 : ℝ) (n : ℕ) (st : SubSt) (k j : ℕ) (xs : List ℝ)
    (inv : SubInv mv h step s0 age0 st k j xs) (hn : (14 - k) + (2 ^ 14 - j * 2 ^ (14 - k)) < n) :
    ∃ k' j' xs', SubInv mv h step s0 age0 (subRun mv h step n st) k' j' xs' ∧ subIter mv h step (subRun mv h step n st) = none := by
  induction n generalizing st k j xs with
  | zero => omega
  | succ n ih =>
    unfold subRun
    cases hit : subIter mv h step st with
    | none => exact ⟨k, j, xs, inv, hit⟩
    | some st' =>
      obtain ⟨k', j', xs', inv', hlt⟩ := sub_step mv h step hs s0 age0 st k j xs inv st' hit
      exact ih st' k' j' xs' inv' (by omega)

theorem sub_init (mv : PState → ℝ → MoveResult) (h step : ℝ) (s0 : PState) (age0 : ℝ) :
    SubInv mv h step s0 age0 ⟨s0, 0, step, age0⟩ 0 0 [] := by
  refine ⟨by omega, by simp, by simp, by simp, by simp, rfl, by simp, List.Pairwise.nil, ?_⟩
  intro pre x post e
  simp at e

/-- C20: the loop over substeps always ends. -/
theorem loop_ends (mv : PState → ℝ → MoveResult) (h step : ℝ) (hs : 0 < step) (s : PState) (age : ℝ) :
    subIter mv h step (moveSubstepped mv h step s age) = none := by
  obtain ⟨-, -, -, -, h⟩ := sub_run mv h step hs s age maxTurns _ 0 0 [] (sub_init mv h step s age) (by unfold maxTurns; norm_num)
  exact h

/-- C20. For every particle, field and accuracy history: the result is what one gets by pushing the particle through a list of substeps (rejected trials leave no trace in state or age);
the substeps are binary fractions of the step, never growing, each one either moved the particle by less than a radial cell or is at the smallest size;
they never exceed the step, and add up exactly to it unless the particle lost its charge on the way. -/
theorem substeps_cover (mv : PState → ℝ → MoveResult) (h step : ℝ) (hs : 0 < step) (s : PState) (age : ℝ) :
    ∃ xs : List ℝ,
      through mv xs s age = ((moveSubstepped mv h step s age).s, (moveSubstepped mv h step s age).age) ∧
      (∀ x ∈ xs, ∃ i ≤ 14, x = step / 2 ^ i) ∧ xs.Pairwise (· ≥ ·) ∧ xs.sum ≤ step ∧
      ((moveSubstepped mv h step s age).s.q ≠ 0 → xs.sum = step) ∧
      (∀ pre x post, xs = pre ++ x :: post → (mv (through mv pre s age).1 x).path < h ∨ x / step ≤ 1 / 10000) := by
  obtain ⟨k, j, xs, inv, hend⟩ := sub_run mv h step hs s age maxTurns _ 0 0 [] (sub_init mv h step s age) (by unfold maxTurns; norm_num)
  change SubInv mv h step s age (moveSubstepped mv h step s age) k j xs at inv
  change subIter mv h step (moveSubstepped mv h step s age) = none at hend
  generalize moveSubstepped mv h step s age = st at inv hend
  obtain ⟨hk, hj, hcur, hxi, hsum, hth, hdy, hmono, hgood⟩ := inv
  have h2k : (0 : ℝ) < 2 ^ k := by positivity
  have hj' : (j : ℝ) ≤ 2 ^ k := by exact_mod_cast hj
  refine ⟨xs, hth, fun x hx => ?_, hmono, ?_, ?_, hgood⟩
  · obtain ⟨i, hi, e⟩ := hdy x hx
    exact ⟨i, by omega, e⟩
  · rw [hsum, hxi, mul_div_assoc', div_le_iff₀ h2k]
    nlinarith
  · intro hq
    unfold subIter at hend
    by_cases hc : st.xi ≤ 99999 / 100000 * step
    · rw [if_pos hc, if_neg hq] at hend
      simp only at hend
      split_ifs at hend
    · rw [hxi, mul_div_assoc', div_le_iff₀ h2k, not_le] at hc
      have h1 : 99999 / 100000 * 2 ^ k < (j : ℝ) := by
        by_contra hcon
        push Not at hcon
        nlinarith
      have h2 : (2 : ℝ) ^ k ≤ 2 ^ 14 := pow_le_pow_right₀ (by norm_num) hk
      have h3 : (2 : ℝ) ^ k - 1 < j := by
        have : (2 : ℝ) ^ 14 = 16384 := by norm_num
        linarith
      have h4 : j = 2 ^ k := by
        have : ((2 ^ k : ℕ) : ℝ) < ((j + 1 : ℕ) : ℝ) := by push_cast; linarith
        have := Nat.cast_lt.mp this
        omega
      rw [hsum, hxi, h4]; push_cast; field_simp

/-- A particle whose first trial moves less than a radial cell and keeps its charge is pushed exactly once. -/
theorem single_push (mv : PState → ℝ → MoveResult) (h step : ℝ) (hs : 0 < step) (s : PState) (age : ℝ) (hq : s.q ≠ 0)
    (hp : (mv s step).path < h) :
    (moveSubstepped mv h step s age).s = (mv s step).s ∧ (moveSubstepped mv h step s age).age = age - (mv s step).age := by
  have h1 : subIter mv h step ⟨s, 0, step, age⟩ = some ⟨(mv s step).s, 0 + step, step, age - (mv s step).age⟩ := by
    unfold subIter
    rw [if_pos (by simp only; positivity), if_neg hq]
    simp only
    rw [if_neg (by rw [not_and_or, not_le]; exact Or.inl hp)]
  have h2 : subIter mv h step ⟨(mv s step).s, 0 + step, step, age - (mv s step).age⟩ = none := by
    unfold subIter
    rw [if_neg (by simp only; linarith)]
  unfold moveSubstepped maxTurns
  rw [show 2 ^ 14 + 15 = (2 ^ 14 + 13) + 1 + 1 by norm_num, subRun, h1]
  simp only
  rw [subRun, h2]
  exact ⟨rfl, rfl⟩

/-- Non-vacuity: a mover that always travels 1000 times its step is refined ten times (path 1000 x, cell 1) and still covers the step. -/
example : ∃ xs : List ℝ, xs.sum = 1 ∧ ∀ x ∈ xs, (1000 * x < 1 ∨ x / 1 ≤ 1 / 10000) := by
  obtain ⟨xs, h1, h2, h3, h4, h5, h6⟩ := substeps_cover (fun s x => ⟨s, 1000 * x, x⟩) 1 1 one_pos ⟨0, 0, 0, 0, 1⟩ 0
  refine ⟨xs, h5 ?_, ?_⟩
  · have : ∀ (xs : List ℝ) (s : PState) (a : ℝ), (through (fun s x => ⟨s, 1000 * x, x⟩) xs s a).1 = s := by
      intro xs
      induction xs with
      | nil => intros; rfl
      | cons x xs ih => intro s a; simp only [through]; rw [ih]
    have h7 := congrArg Prod.fst h1
    rw [this] at h7
    simp only at h7
    rw [← h7]; norm_num
  · intro x hx
    obtain ⟨pre, post, e⟩ := List.append_of_mem hx
    exact h6 pre x post e

end Lcode.Plasma2D
