import Mathlib.Algebra.Order.Field.Basic
import Mathlib.Data.Real.Basic
import Mathlib.Tactic.Ring
import Mathlib.Tactic.FieldSimp
import Mathlib.Tactic.Linarith
import Mathlib.Logic.Function.Iterate
import Mathlib.Logic.Function.Basic

/-!
Model of the adaptive loop of CylindricalPlasmaSolver.step_dxi (lcode/plasma/solver.py:38-98) and property C21.
The physics of a substep is a parameter: `need w x` is the refinement test of a step of length `x` from the state `w` (solver.py:56-64),
`adv w x` the corrected step (solver.py:73-85). Both are instantiated in World.lean.
-/

namespace Lcode.Plasma2D

variable {W : Type}

/-! ### Model -/

/-- The loop variables: the plasma state (particles, fields, currents), substepping_depth, substepping_state, xi_step_p. -/
structure LoopSt (W : Type) where
  w : W
  depth : ℕ
  state : ℕ → ℤ
  step : ℝ

/-- The loop is over, or goes on. -/
inductive Conf (W : Type) where
  | done (w : W)
  | go (s : LoopSt W)

/-- The inner while loop, solver.py:87-90: leave every level whose last substep is done. -/
noncomputable def popLevels : ℕ → (ℕ → ℤ) → ℝ → ℕ × (ℕ → ℤ) × ℝ
  | 0, st, x => (0, st, x)
  | d + 1, st, x => if st (d + 1) = 1 then popLevels d (Function.update st (d + 1) 0) (x * 10) else (d + 1, st, x)

/-- solver.py:86-96, after a substep has been accepted. -/
noncomputable def afterAccept (w : W) (d : ℕ) (st : ℕ → ℤ) (x : ℝ) : Conf W :=
  let p := popLevels d st x
  let st' := Function.update p.2.1 p.1 (p.2.1 p.1 - 1)
  if p.1 = 0 then .done w else .go ⟨w, p.1, st', p.2.2⟩

/-- One turn of the loop, solver.py:47-96 (path_lim = 0). -/
noncomputable def turn (need : W → ℝ → Bool) (adv : W → ℝ → W) (maxDepth : ℕ) : Conf W → Conf W
  | .done w => .done w
  | .go s =>
    if need s.w s.step && decide (s.depth < maxDepth) then
      .go ⟨s.w, s.depth + 1, Function.update s.state (s.depth + 1) 10, s.step / 10⟩
    else afterAccept (adv s.w s.step) s.depth s.state s.step

/-- The loop variables at the start of a layer, solver.py:40-45. -/
def startLayer (w : W) (L : ℝ) : Conf W := .go ⟨w, 0, fun _ => 0, L⟩

/-! ### Specification -/

/-- Solve a step of length `x` with at most `k` further refinements: if it is too long, solve ten steps of a tenth of the length, else do it at once. -/
noncomputable def decimate (need : W → ℝ → Bool) (adv : W → ℝ → W) : ℕ → W → ℝ → W
  | 0, w, x => adv w x
  | k + 1, w, x => if need w x then (fun w => decimate need adv k w (x / 10))^[10] w else adv w x

/-- The number of turns is at most this. -/
def turns : ℕ → ℕ
  | 0 => 1
  | k + 1 => 10 * turns k + 1

/-- The accepted substeps, in order. -/
noncomputable def substeps (need : W → ℝ → Bool) (adv : W → ℝ → W) : ℕ → W → ℝ → List ℝ
  | 0, _, x => [x]
  | k + 1, w, x =>
    if need w x then
      (List.range 10).flatMap fun i => substeps need adv k ((fun w => decimate need adv k w (x / 10))^[i] w) (x / 10)
    else [x]

/-! ### C21 -/

theorem turn_done (need : W → ℝ → Bool) (adv : W → ℝ → W) (m n : ℕ) (w : W) : (turn need adv m)^[n] (.done w) = .done w := by
  induction n with
  | zero => rfl
  | succ n ih => rw [Function.iterate_succ_apply]; exact ih

/-- One level of the loop does what the recursive solver does. -/
theorem level_refines (need : W → ℝ → Bool) (adv : W → ℝ → W) (m k : ℕ) :
    ∀ (d : ℕ), d + k = m → ∀ (w : W) (st : ℕ → ℤ) (x : ℝ), (∀ j, d < j → st j = 0) →
    ∃ n, 1 ≤ n ∧ n ≤ turns k ∧ (turn need adv m)^[n] (.go ⟨w, d, st, x⟩) = afterAccept (decimate need adv k w x) d st x := by
  induction k with
  | zero =>
    intro d hd w st x _
    refine ⟨1, le_rfl, le_rfl, ?_⟩
    rw [Function.iterate_one]
    unfold turn
    simp only
    rw [if_neg (by simp; omega)]
    rfl
  | succ k ih =>
    intro d hd w st x hst
    by_cases hneed : need w x = true
    · have inner : ∀ j : ℕ, ∀ w : W, ∃ n, 1 ≤ n ∧ n ≤ (j + 1) * turns k ∧
          (turn need adv m)^[n] (.go ⟨w, d + 1, Function.update st (d + 1) ((j + 1 : ℕ) : ℤ), x / 10⟩) =
            afterAccept ((fun w => decimate need adv k w (x / 10))^[j + 1] w) d st x := by
        intro j
        induction j with
        | zero =>
          intro w
          obtain ⟨n, h1, h2, h3⟩ := ih (d + 1) (by omega) w (Function.update st (d + 1) 1) (x / 10) (by
            intro i hi; rw [Function.update_of_ne (by omega)]; exact hst i (by omega))
          refine ⟨n, h1, by omega, ?_⟩
          simp only [zero_add, Nat.cast_one]
          rw [h3]
          unfold afterAccept
          simp only [popLevels, Function.update_self, if_true, Function.update_idem, Function.iterate_one]
          rw [show Function.update st (d + 1) 0 = st by rw [Function.update_eq_self_iff]; exact (hst _ (by omega)).symm]
          rw [show x / 10 * 10 = x by ring]
        | succ j ihj =>
          intro w
          obtain ⟨n, h1, h2, h3⟩ := ih (d + 1) (by omega) w (Function.update st (d + 1) ((j + 1 + 1 : ℕ) : ℤ)) (x / 10) (by
            intro i hi; rw [Function.update_of_ne (by omega)]; exact hst i (by omega))
          obtain ⟨n', h1', h2', h3'⟩ := ihj (decimate need adv k w (x / 10))
          refine ⟨n' + n, by omega, ?_, ?_⟩
          · have : (j + 1 + 1) * turns k = (j + 1) * turns k + turns k := by ring
            omega
          rw [Function.iterate_add_apply, h3]
          have : afterAccept (decimate need adv k w (x / 10)) (d + 1) (Function.update st (d + 1) ((j + 1 + 1 : ℕ) : ℤ)) (x / 10) =
              .go ⟨decimate need adv k w (x / 10), d + 1, Function.update st (d + 1) ((j + 1 : ℕ) : ℤ), x / 10⟩ := by
            unfold afterAccept
            have h1 : ¬ ((j + 1 + 1 : ℕ) : ℤ) = 1 := by push_cast; omega
            simp only [popLevels, Function.update_self, if_neg h1, Function.update_idem, Nat.succ_ne_zero, if_false]
            congr 3
            push_cast; ring
          rw [this, h3']
          rfl
      obtain ⟨n, h1, h2, h3⟩ := inner 9 w
      refine ⟨n + 1, by omega, ?_, ?_⟩
      · show n + 1 ≤ 10 * turns k + 1
        omega
      rw [Function.iterate_add_apply, Function.iterate_one]
      have : turn need adv m (.go ⟨w, d, st, x⟩) = .go ⟨w, d + 1, Function.update st (d + 1) 10, x / 10⟩ := by
        unfold turn
        simp only
        rw [if_pos (by rw [hneed]; simp; omega)]
      rw [this]
      have h3'' : (turn need adv m)^[n] (.go ⟨w, d + 1, Function.update st (d + 1) 10, x / 10⟩) = _ := h3
      rw [h3'']
      rw [decimate, if_pos hneed]
    · refine ⟨1, le_rfl, by unfold turns; omega, ?_⟩
      rw [Function.iterate_one]
      unfold turn
      simp only
      rw [if_neg (by simp [hneed]), decimate, if_neg hneed]

/-- C21. For every outcome of the refinement test the loop ends, within a number of turns fixed by the maximal depth,
and the plasma state it returns is that of the recursive solver. -/
theorem layer_decimates (need : W → ℝ → Bool) (adv : W → ℝ → W) (m : ℕ) (w : W) (L : ℝ) (n : ℕ) (hn : turns m ≤ n) :
    (turn need adv m)^[n] (startLayer w L) = .done (decimate need adv m w L) := by
  obtain ⟨k, h1, h2, h3⟩ := level_refines need adv m m 0 (by omega) w (fun _ => 0) L (fun _ _ => rfl)
  have : n = (n - k) + k := by omega
  rw [this, Function.iterate_add_apply, startLayer, h3]
  unfold afterAccept
  simp only [popLevels, if_true]
  exact turn_done _ _ _ _ _

theorem foldl_flatMap_range (adv : W → ℝ → W) (f : W → W) (S : W → List ℝ) (h : ∀ w, (S w).foldl adv w = f w) (n : ℕ) (w : W) :
    ((List.range n).flatMap fun i => S (f^[i] w)).foldl adv w = f^[n] w := by
  induction n with
  | zero => rfl
  | succ n ih =>
    rw [List.range_succ, List.flatMap_append, List.foldl_append, ih]
    simp only [List.flatMap_cons, List.flatMap_nil, List.append_nil]
    rw [h, ← Function.iterate_succ_apply' f]

/-- Doing the accepted substeps one after the other gives the result. -/
theorem substeps_foldl (need : W → ℝ → Bool) (adv : W → ℝ → W) (k : ℕ) :
    ∀ (w : W) (x : ℝ), (substeps need adv k w x).foldl adv w = decimate need adv k w x := by
  induction k with
  | zero => intro w x; rfl
  | succ k ih =>
    intro w x
    rw [substeps, decimate]
    split_ifs with h
    · exact foldl_flatMap_range adv (fun w => decimate need adv k w (x / 10)) (fun w => substeps need adv k w (x / 10)) (fun w => ih w _) 10 w
    · rfl

theorem sum_flatMap_const (S : ℕ → List ℝ) (c : ℝ) (h : ∀ i, (S i).sum = c) (n : ℕ) : ((List.range n).flatMap S).sum = n * c := by
  induction n with
  | zero => simp
  | succ n ih =>
    rw [List.range_succ, List.flatMap_append, List.sum_append, ih]
    simp only [List.flatMap_cons, List.flatMap_nil, List.append_nil, h]
    push_cast; ring

theorem substeps_sum (need : W → ℝ → Bool) (adv : W → ℝ → W) (k : ℕ) :
    ∀ (w : W) (x : ℝ), (substeps need adv k w x).sum = x := by
  induction k with
  | zero => intro w x; simp [substeps]
  | succ k ih =>
    intro w x
    rw [substeps]
    split_ifs with h
    · rw [sum_flatMap_const _ (x / 10) (fun i => ih _ _)]
      push_cast; ring
    · simp

theorem substeps_size (need : W → ℝ → Bool) (adv : W → ℝ → W) (k : ℕ) :
    ∀ (w : W) (x : ℝ), ∀ y ∈ substeps need adv k w x, ∃ d ≤ k, y = x / 10 ^ d := by
  induction k with
  | zero => intro w x y hy; simp only [substeps, List.mem_singleton] at hy; exact ⟨0, le_rfl, by simp [hy]⟩
  | succ k ih =>
    intro w x y hy
    rw [substeps] at hy
    split_ifs at hy with h
    · rw [List.mem_flatMap] at hy
      obtain ⟨i, -, hy⟩ := hy
      obtain ⟨d, hd, e⟩ := ih _ _ y hy
      exact ⟨d + 1, by omega, by rw [e]; field_simp; ring⟩
    · simp only [List.mem_singleton] at hy
      exact ⟨0, by omega, by simp [hy]⟩

/-- The accepted substeps of one level: either none was too long, or it is of the smallest size. -/
def Accepted (need : W → ℝ → Bool) (adv : W → ℝ → W) (small : ℝ) : W → List ℝ → Prop
  | _, [] => True
  | w, x :: xs => (need w x = false ∨ x = small) ∧ Accepted need adv small (adv w x) xs

theorem accepted_append (need : W → ℝ → Bool) (adv : W → ℝ → W) (small : ℝ) (xs ys : List ℝ) (w : W) :
    Accepted need adv small w (xs ++ ys) ↔ Accepted need adv small w xs ∧ Accepted need adv small (xs.foldl adv w) ys := by
  induction xs generalizing w with
  | nil => simp [Accepted]
  | cons x xs ih =>
    rw [List.cons_append, Accepted, Accepted, ih, List.foldl_cons, and_assoc]

theorem substeps_accepted (need : W → ℝ → Bool) (adv : W → ℝ → W) (k : ℕ) :
    ∀ (w : W) (x : ℝ), Accepted need adv (x / 10 ^ k) w (substeps need adv k w x) := by
  induction k with
  | zero => intro w x; simp [substeps, Accepted]
  | succ k ih =>
    intro w x
    rw [substeps]
    split_ifs with h
    · have e : x / 10 / 10 ^ k = x / 10 ^ (k + 1) := by field_simp; ring
      have : ∀ n, Accepted need adv (x / 10 ^ (k + 1)) w
          ((List.range n).flatMap fun i => substeps need adv k ((fun w => decimate need adv k w (x / 10))^[i] w) (x / 10)) := by
        intro n
        induction n with
        | zero => trivial
        | succ n ihn =>
          rw [List.range_succ, List.flatMap_append, accepted_append]
          refine ⟨ihn, ?_⟩
          simp only [List.flatMap_cons, List.flatMap_nil, List.append_nil]
          rw [foldl_flatMap_range adv (fun w => decimate need adv k w (x / 10)) (fun w => substeps need adv k w (x / 10)) (fun w => substeps_foldl need adv k w _) n w,
            ← e]
          exact ih _ _
      exact this 10
    · refine ⟨Or.inl ?_, trivial⟩
      simpa using h

/-- C21. Whatever the refinement test answers: the layer is solved by a list of substeps that add up exactly to its length `L`,
each of length `L / 10^d` with `d` at most the configured depth, each found short enough by the test (from the state it starts from) unless it is of the smallest length;
rejected trials leave no trace. -/
theorem layer_covered (need : W → ℝ → Bool) (adv : W → ℝ → W) (m : ℕ) (w : W) (L : ℝ) :
    ∃ xs : List ℝ, (∀ n, turns m ≤ n → (turn need adv m)^[n] (startLayer w L) = .done (xs.foldl adv w)) ∧
      xs.sum = L ∧ (∀ x ∈ xs, ∃ d ≤ m, x = L / 10 ^ d) ∧
      (∀ pre x post, xs = pre ++ x :: post → need (pre.foldl adv w) x = false ∨ x = L / 10 ^ m) ∧
      (need w L = false → xs = [L]) := by
  refine ⟨substeps need adv m w L, ?_, substeps_sum _ _ _ _ _, substeps_size _ _ _ _ _, ?_, ?_⟩
  · intro n hn
    rw [layer_decimates need adv m w L n hn, substeps_foldl]
  · intro pre x post e
    have := substeps_accepted need adv m w L
    rw [e, accepted_append] at this
    exact this.2.1
  · intro h
    cases m with
    | zero => rfl
    | succ m => rw [substeps, if_neg (by simp [h])]

/-- Non-vacuity: a test that wants steps of at most a twentieth of the layer is refined twice at most; the first substeps are a hundredth of the layer. -/
example : ∃ xs : List ℝ, xs.sum = 1 ∧ ∀ x ∈ xs, x ≤ 1 / 20 := by
  obtain ⟨xs, -, h2, h3, h4, -⟩ := layer_covered (W := ℝ) (fun _ x => decide (1 / 20 < x)) (· + ·) 2 0 1
  refine ⟨xs, h2, ?_⟩
  intro x hx
  obtain ⟨pre, post, e⟩ := List.append_of_mem hx
  rcases h4 pre x post e with h | h
  · simpa using h
  · rw [h]; norm_num

end Lcode.Plasma2D
