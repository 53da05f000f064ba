import Mathlib.Data.List.Infix
import Mathlib.Tactic.Tauto

/-! C84: the command `lcode get NAME` (`lcode/__main__.py`), which copies an example to `run.py`.

Names are lists of characters. A directory is the list of its entries (name, contents) without repeated names. The parsing of the command line by argparse, the printed texts and the case that the examples lie in the working directory are not modelled. -/

namespace Lcode.Cfg.MainGet

/-- `conf.replace('.py', '')` (`__main__.py:8`): the occurrences of ".py" are removed from left to right. -/
def removePy : List Char → List Char
  | '.' :: 'p' :: 'y' :: r => removePy r
  | c :: r => c :: removePy r
  | [] => []

/-- `get_available_configs` (`__main__.py:6-9`): the entries not beginning with an underscore. An empty name (`conf[0]` would fail) does not occur in a directory. -/
def available (dir : List (List Char × String)) : List (List Char) :=
  ((dir.map Prod.fst).filter (fun conf => decide (conf.head? ≠ some '_'))).map removePy

/-- What the command leaves behind. -/
inductive Outcome where
  /-- The names to choose from are printed (`__main__.py:24-26`). -/
  | choose (names : List (List Char))
  /-- `run.py` has been written with this text (`__main__.py:27-29`). -/
  | wrote (text : String)
  /-- `open` of the example raises FileNotFoundError, before `run.py` is opened (`__main__.py:27`). -/
  | noFile
  /-- No sub-command (`__main__.py:23`). -/
  | nothing
deriving DecidableEq

/-- `main` after the parsing of the arguments (`__main__.py:19-29`); `sub` is `args.subparser_name` with `args.config_name`. -/
def main (dir : List (List Char × String)) (sub : Option (List Char)) : Outcome :=
  match sub with
  | none => .nothing
  | some name =>
    if name ∉ available dir then .choose (available dir)
    else match dir.find? (fun e => decide (e.1 = name ++ ['.', 'p', 'y'])) with
      | some e => .wrote e.2
      | none => .noFile

/-- The text of `run.py` afterwards, from the one before (`open(…, 'w')` replaces it). -/
def runPy (before : Option String) : Outcome → Option String
  | .wrote t => some t
  | _ => before

/-- Specification: the directory holds an example of this name with this text. -/
def IsExample (dir : List (List Char × String)) (name : List Char) (text : String) : Prop :=
  (name ++ ".py".toList, text) ∈ dir ∧ name.head? ≠ some '_'

theorem removePy_clean (s : List Char) (h : ¬ ['.', 'p', 'y'] <:+: s) : removePy s = s := by
  induction s with
  | nil => rfl
  | cons c r ih =>
    rw [removePy.eq_2]
    · rw [ih (fun hr => h (hr.trans (List.suffix_cons c r).isInfix))]
    · rintro r' rfl rfl
      exact h ⟨[], r', rfl⟩

theorem removePy_stem (s : List Char) (h : ¬ ['.', 'p', 'y'] <:+: s) : removePy (s ++ ['.', 'p', 'y']) = s := by
  induction s with
  | nil => rfl
  | cons c r ih =>
    rw [List.cons_append, removePy.eq_2]
    · rw [ih (fun hr => h (hr.trans (List.suffix_cons c r).isInfix))]
    · rintro r' rfl hr
      match r, hr with
      | [], hr => simp at hr
      | [a], hr => simp at hr
      | a :: b :: q, hr =>
        simp at hr
        obtain ⟨rfl, rfl, -⟩ := hr
        exact h ⟨[], q, rfl⟩

theorem removePy_le (s : List Char) : (removePy s).length ≤ s.length := by
  induction s using removePy.induct with
  | case1 r ih => rw [removePy.eq_1]; simp only [List.length_cons]; omega
  | case2 c r h ih => rw [removePy.eq_2 _ _ h]; simp only [List.length_cons]; omega
  | case3 => simp [removePy]

theorem mem_available (dir : List (List Char × String)) (n : List Char) : n ∈ available dir ↔ ∃ e ∈ dir, e.1.head? ≠ some '_' ∧ removePy e.1 = n := by
  unfold available
  simp only [List.mem_map, List.mem_filter, decide_eq_true_eq]
  constructor
  · rintro ⟨a, ⟨⟨e, he, rfl⟩, h1⟩, h2⟩; exact ⟨e, he, h1, h2⟩
  · rintro ⟨e, he, h1, h2⟩; exact ⟨e.1, ⟨⟨e, he, rfl⟩, h1⟩, h2⟩

/-- C84, every directory: `run.py` is either left as it was or is the text of the file `NAME.py` of the examples. -/
theorem get_safe (dir : List (List Char × String)) (sub : Option (List Char)) (before : Option String) :
    runPy before (main dir sub) = before ∨ ∃ name text, sub = some name ∧ (name ++ ".py".toList, text) ∈ dir ∧ runPy before (main dir sub) = some text := by
  cases sub with
  | none => left; rfl
  | some name =>
    unfold main
    simp only
    split
    · left; rfl
    · cases hf : dir.find? (fun e => decide (e.1 = name ++ ['.', 'p', 'y'])) with
      | none => left; rfl
      | some e =>
        right
        have h1 := List.find?_some hf
        have h2 := List.mem_of_find?_eq_some hf
        simp only [decide_eq_true_eq] at h1
        refine ⟨name, e.2, rfl, ?_, rfl⟩
        have : e = (name ++ ".py".toList, e.2) := by rw [show ".py".toList = ['.', 'p', 'y'] from rfl, ← h1]
        rw [← this]; exact h2

theorem nodup_fst (dir : List (List Char × String)) (hn : (dir.map Prod.fst).Nodup) {e f : List Char × String} (he : e ∈ dir) (hf : f ∈ dir) (h : e.1 = f.1) : e = f := by
  induction dir with
  | nil => cases he
  | cons a r ih =>
    rw [List.map_cons, List.nodup_cons] at hn
    rcases List.mem_cons.mp he with rfl | he' <;> rcases List.mem_cons.mp hf with rfl | hf'
    · rfl
    · exact absurd (h ▸ List.mem_map_of_mem hf') hn.1
    · exact absurd (h ▸ List.mem_map_of_mem he') hn.1
    · exact ih hn.2 he' hf'

/-- The directory is as in the repository: all entries not hidden by an underscore are Python files, and ".py" occurs in no stem. -/
def Proper (dir : List (List Char × String)) : Prop :=
  (dir.map Prod.fst).Nodup ∧ ∀ e ∈ dir, e.1.head? ≠ some '_' → ∃ s, e.1 = s ++ ".py".toList ∧ ¬ ".py".toList <:+: s

/-- C84, proper directories: `get NAME` writes the example of this name, and for every other name prints exactly the names of the examples and writes nothing. It never fails. -/
theorem get_proper (dir : List (List Char × String)) (hp : Proper dir) (name : List Char) :
    (∀ text, IsExample dir name text → main dir (some name) = .wrote text) ∧
    ((∀ text, ¬ IsExample dir name text) → ∃ names, main dir (some name) = .choose names ∧ ∀ n, n ∈ names ↔ ∃ text, IsExample dir n text) := by
  obtain ⟨hn, hp⟩ := hp
  have av : ∀ n, n ∈ available dir ↔ ∃ text, IsExample dir n text := by
    intro n
    rw [mem_available]
    constructor
    · rintro ⟨e, he, h1, h2⟩
      obtain ⟨s, hs, hc⟩ := hp e he h1
      have h2' := removePy_stem s hc
      rw [hs] at h2
      have h2 := h2'.symm.trans h2
      subst h2
      refine ⟨e.2, ?_, ?_⟩
      · rw [← hs]; exact he
      · cases s with
        | nil => simp
        | cons a q => rw [hs] at h1; simpa using h1
    · rintro ⟨text, h1, h2⟩
      have h3 : (n ++ ".py".toList).head? ≠ some '_' := by
        cases n with
        | nil => decide
        | cons a q => simpa using h2
      obtain ⟨s, hs, hc⟩ := hp _ h1 h3
      have e := List.append_cancel_right hs
      subst e
      exact ⟨_, h1, h3, removePy_stem _ hc⟩
  constructor
  · intro text h
    have h0 := (av name).mpr ⟨text, h⟩
    unfold main
    simp only [h0, not_true_eq_false, if_false]
    cases hf : dir.find? (fun e => decide (e.1 = name ++ ['.', 'p', 'y'])) with
    | none =>
      rw [List.find?_eq_none] at hf
      exact absurd (decide_eq_true rfl) (hf _ h.1)
    | some e =>
      have h1 := List.find?_some hf
      have h2 := List.mem_of_find?_eq_some hf
      simp only [decide_eq_true_eq] at h1
      rw [nodup_fst dir hn h2 h.1 h1]
  · intro h
    have h0 : name ∉ available dir := fun hc => by
      obtain ⟨t, ht⟩ := (av name).mp hc
      exact h t ht
    exact ⟨available dir, by unfold main; simp only [h0, not_false_eq_true, if_true], av⟩

/-- C84, other directories: a file that is not a Python file, or one with ".py" inside its stem, is offered under a name for which the command raises FileNotFoundError unless another file happens to bear it; `run.py` is not touched. -/
theorem get_improper (dir : List (List Char × String)) (conf : List Char) (text : String) (hm : (conf, text) ∈ dir) (hu : conf.head? ≠ some '_') (ho : ∀ e ∈ dir, e.1 ≠ removePy conf ++ ".py".toList) (before : Option String) :
    main dir (some (removePy conf)) = .noFile ∧ runPy before (main dir (some (removePy conf))) = before := by
  have h0 : removePy conf ∈ available dir := (mem_available _ _).mpr ⟨_, hm, hu, rfl⟩
  have : main dir (some (removePy conf)) = .noFile := by
    unfold main
    simp only [h0, not_true_eq_false, if_false]
    rw [List.find?_eq_none.mpr]
    intro e he
    simpa using ho e he
  exact ⟨this, by rw [this]; rfl⟩

/-- The examples of the repository (`lcode/examples/`), with a cache directory as an unexpected but hidden entry. -/
def repoDir (a b c : String) : List (List Char × String) := [("high-R.py".toList, a), ("__pycache__".toList, c), ("original-ssm.py".toList, b)]

theorem repo_proper (a b c : String) : Proper (repoDir a b c) := by
  constructor
  · show ["high-R.py".toList, "__pycache__".toList, "original-ssm.py".toList].Nodup
    decide +kernel
  · intro e he h
    simp only [repoDir, List.mem_cons, List.not_mem_nil, or_false] at he
    rcases he with rfl | rfl | rfl
    · exact ⟨"high-R".toList, rfl, by decide +kernel⟩
    · exact absurd rfl h
    · exact ⟨"original-ssm".toList, rfl, by decide +kernel⟩

theorem get_cases (a b c : String) : main (repoDir a b c) (some "high-R".toList) = .wrote a ∧ main (repoDir a b c) (some "original-ssm".toList) = .wrote b ∧
    main (repoDir a b c) (some "high-R.py".toList) = .choose ["high-R".toList, "original-ssm".toList] ∧
    main [("my.pyx.py".toList, a)] (some "myx".toList) = .noFile := by
  refine ⟨(get_proper _ (repo_proper a b c) _).1 a ⟨by simp [repoDir], by decide⟩, (get_proper _ (repo_proper a b c) _).1 b ⟨by simp [repoDir], by decide⟩, ?_, ?_⟩
  · rfl
  · rfl

end Lcode.Cfg.MainGet
