import Verif.Diag.Time
import Mathlib.Data.List.Basic
import Mathlib.Data.List.Forall2

/-!
C37: the buffered diagnostics (`FXiDiag`, `SliceDiag`): what the files of a run contain.

Model of the part common to lcode/diagnostics/FXi/FXi.py:89-152 and lcode/diagnostics/slice.py:104-133: a buffer filled layer by layer and
written out at the end of an output time step. What one layer contributes (`proc`) is a parameter here; `Verif.Diag.FXi` and `Verif.Diag.Slice`
give it. Pictures (FXi.py:140-144, matplotlib) are not modelled.
-/

namespace Lcode.Diag

open Lcode.Py

variable {K : Type*} [Field K] [LinearOrder K] [IsStrictOrderedRing K] [FloorRing K] {L V : Type*}

/-- A `defaultdict(list)`, FXi.py:65, slice.py:58: keys in order of insertion. -/
abbrev Data (V : Type*) := List (String × List V)

/-- `data[k].append(v)` on a `defaultdict(list)`. -/
def Data.app (k : String) (v : V) : Data V → Data V
  | [] => [(k, [v])]
  | (k', vs) :: d => if k' = k then (k', vs ++ [v]) :: d else (k', vs) :: Data.app k v d

/-- The appends of one layer, in order. -/
def Data.appAll (d : Data V) (l : List (String × V)) : Data V := l.foldl (fun d kv => d.app kv.1 kv.2) d

/-- A written file: the time in the name is printed with two decimals, `{current_time:08.2f}` (FXi.py:131, slice.py:118), so only the
nearest multiple of 0.01 is kept (correctly rounded, ties to even). -/
structure File (V : Type*) where
  code : ℤ
  data : Data V
  deriving DecidableEq

/-- The settings of a buffered diagnostic after `pull_config`; `numbers` is bit `OutputType.NUMBERS` of the output type; `proc` is what one layer
appends at a given time (`none`: an exception). -/
structure Cfg (K L V : Type*) where
  period : K
  dt : K
  numbers : Bool
  proc : K → L → Option (List (String × V))

/-- The mutable part of the diagnostic: `__is_first_step` (FXi.py:67, slice.py:51) and `_data`. -/
structure Buf (V : Type*) where
  first : Bool
  data : Data V

/-- FXi.py:65-67: at construction the buffer has an empty `xi` list; `first` is "the rank is 0". -/
def fxiInit (rank : ℕ) : Buf V := ⟨rank == 0, [("xi", [])]⟩

/-- slice.py:51, :58. -/
def sliceInit (rank : ℕ) : Buf V := ⟨rank == 0, []⟩

/-- FXi.py:89-127, slice.py:104-109: `after_step_dxi`. -/
def afterStep (c : Cfg K L V) (time : K) (b : Buf V) (l : L) : Option (Buf V) :=
  if b.first = true ∨ cond time c.period c.dt then (c.proc time l).map fun a => { b with data := b.data.appAll a }
  else some b

/-- FXi.py:129-146, slice.py:111-133: `dump`. -/
def dump (c : Cfg K L V) (time : K) (b : Buf V) : List (File V) × Buf V :=
  if ¬ b.first = true ∧ ¬ cond time c.period c.dt then ([], b)
  else (if c.numbers then [⟨pyRound (100 * time), b.data⟩] else [], ⟨false, []⟩)

/-- push_solvers/push_solver.py:92-146 and :236-284, seen from one diagnostic: `after_step_dxi` for each layer of the time step, then `dump`. -/
def stepDiag (c : Cfg K L V) (b : Buf V) (time : K) (layers : List L) : Option (List (File V) × Buf V) :=
  (layers.foldlM (afterStep c time) b).map (dump c time)

/-- simulation.py:246-266: the time steps of one process, seen from one diagnostic. -/
def runDiag (c : Cfg K L V) : Buf V → List (K × List L) → Option (List (File V) × Buf V)
  | b, [] => some ([], b)
  | b, s :: rest =>
    (stepDiag c b s.1 s.2).bind fun r => (runDiag c r.2 rest).map fun q => (r.1 ++ q.1, q.2)

/-! ### Specification -/

/-- The list stored in a file under a key (`[]` if the key is absent). -/
def Data.get (d : Data V) (k : String) : List V := (d.lookup k).getD []

/-- The keys of a file. -/
def Data.keys (d : Data V) : List String := d.map Prod.fst

/-- The values that a layer contributes under key `k`. -/
def contrib (c : Cfg K L V) (time : K) (k : String) (l : L) : List V :=
  ((c.proc time l).getD []).filterMap fun kv => if kv.1 = k then some kv.2 else none

/-- The time steps of a process that have an output: its first one if it is the first step of the run (rank 0), and those within half a time step
of a multiple of the period. -/
def outSteps (c : Cfg K L V) (first : Bool) : List (K × List L) → List (K × List L)
  | [] => []
  | s :: rest => if first = true ∨ cond s.1 c.period c.dt then s :: rest.filter (fun s => decide (cond s.1 c.period c.dt))
    else outSteps c false rest

/-! ### Proofs -/

theorem Data.lookup_app (d : Data V) (k k' : String) (v : V) :
    (d.app k v).lookup k' = if k' = k then some (d.get k ++ [v]) else d.lookup k' := by
  induction d with
  | nil =>
    simp only [Data.app, Data.get, List.lookup]
    split_ifs with h
    · subst h; simp
    · have : (k' == k) = false := by simpa using h
      simp [this]
  | cons a d ih =>
    obtain ⟨k0, vs⟩ := a
    simp only [Data.app]
    by_cases h0 : k0 = k
    · subst h0
      rw [if_pos rfl]
      by_cases h : k' = k0
      · subst h; simp [List.lookup, Data.get]
      · have hb : (k' == k0) = false := by simpa using h
        simp [List.lookup, h, hb]
    · rw [if_neg h0]
      by_cases h : k' = k0
      · subst h
        rw [if_neg h0]; simp [List.lookup]
      · have hb : (k' == k0) = false := by simpa using h
        have hb2 : (k == k0) = false := by simpa using fun e => h0 e.symm
        simp only [List.lookup, hb, ih, Data.get, hb2]

theorem Data.get_app (d : Data V) (k k' : String) (v : V) :
    (d.app k v).get k' = d.get k' ++ (if k = k' then [v] else []) := by
  unfold Data.get
  rw [Data.lookup_app]
  by_cases h : k' = k
  · subst h; simp [Data.get]
  · rw [if_neg h, if_neg (fun e => h e.symm)]; simp

theorem Data.get_appAll (l : List (String × V)) (d : Data V) (k : String) :
    (d.appAll l).get k = d.get k ++ l.filterMap fun kv => if kv.1 = k then some kv.2 else none := by
  induction l generalizing d with
  | nil => simp [Data.appAll]
  | cons a l ih =>
    have : d.appAll (a :: l) = (d.app a.1 a.2).appAll l := rfl
    rw [this, ih, Data.get_app, List.filterMap_cons]
    split_ifs with h <;> simp

theorem Data.mem_keys_app (d : Data V) (k k' : String) (v : V) : k' ∈ (d.app k v).keys ↔ k' ∈ d.keys ∨ k' = k := by
  induction d with
  | nil => simp [Data.app, Data.keys]
  | cons a d ih =>
    simp only [Data.app]
    split_ifs with h
    · subst h; simp only [Data.keys, List.map_cons, List.mem_cons]; tauto
    · simp only [Data.keys, List.map_cons, List.mem_cons] at ih ⊢
      rw [ih]; tauto

theorem Data.mem_keys_appAll (l : List (String × V)) (d : Data V) (k : String) :
    k ∈ (d.appAll l).keys ↔ k ∈ d.keys ∨ k ∈ l.map Prod.fst := by
  induction l generalizing d with
  | nil => simp [Data.appAll]
  | cons a l ih =>
    have : d.appAll (a :: l) = (d.app a.1 a.2).appAll l := rfl
    rw [this, ih, Data.mem_keys_app, List.map_cons, List.mem_cons]; tauto

/-- Every key occurs once, so a key of a file denotes one list. -/
theorem Data.nodup_app (d : Data V) (k : String) (v : V) (h : d.keys.Nodup) : (d.app k v).keys.Nodup := by
  induction d with
  | nil => simp [Data.app, Data.keys]
  | cons a d ih =>
    simp only [Data.app]
    have hk : a.1 ∉ Data.keys d ∧ (Data.keys d).Nodup := by simpa [Data.keys] using h
    split_ifs with h0
    · simpa [Data.keys] using h
    · have := Data.mem_keys_app d k a.1 v
      show (a.1 :: (Data.app k v d).keys).Nodup
      rw [List.nodup_cons]
      exact ⟨fun hm => (this.mp hm).elim hk.1 h0, ih hk.2⟩

/-- The buffer after the layers of an output step. -/
theorem foldlM_afterStep_out (c : Cfg K L V) (time : K) (layers : List L) (b b' : Buf V)
    (hout : b.first = true ∨ cond time c.period c.dt) (h : layers.foldlM (afterStep c time) b = some b') :
    b'.first = b.first ∧ (∀ k, b'.data.get k = b.data.get k ++ layers.flatMap (contrib c time k)) ∧
      (∀ k, k ∈ b'.data.keys ↔ k ∈ b.data.keys ∨ ∃ l ∈ layers, k ∈ ((c.proc time l).getD []).map Prod.fst) ∧
      (∀ l ∈ layers, (c.proc time l).isSome) := by
  induction layers generalizing b with
  | nil => simp only [List.foldlM_nil] at h; cases h; simp
  | cons l layers ih =>
    rw [List.foldlM_cons] at h
    obtain ⟨b1, h1, h2⟩ := Option.bind_eq_some_iff.mp h
    unfold afterStep at h1
    rw [if_pos hout] at h1
    obtain ⟨a, ha, hb1⟩ := Option.map_eq_some_iff.mp h1
    subst hb1
    obtain ⟨i1, i2, i3, i4⟩ := ih { b with data := b.data.appAll a } hout h2
    refine ⟨i1, fun k => ?_, fun k => ?_, ?_⟩
    · rw [i2, Data.get_appAll, List.flatMap_cons, List.append_assoc]
      simp [contrib, ha]
    · rw [i3, Data.mem_keys_appAll]
      simp [ha, or_assoc]
    · intro x hx
      rcases List.mem_cons.mp hx with rfl | hx
      · simp [ha]
      · exact i4 x hx

/-- The buffer after the layers of any other step. -/
theorem foldlM_afterStep_skip (c : Cfg K L V) (time : K) (layers : List L) (b : Buf V)
    (hout : ¬ (b.first = true ∨ cond time c.period c.dt)) : layers.foldlM (afterStep c time) b = some b := by
  induction layers with
  | nil => rfl
  | cons l layers ih =>
    rw [List.foldlM_cons]
    show (afterStep c time b l).bind _ = _
    unfold afterStep
    rw [if_neg hout]
    exact ih

/-- A file of a run records a time step: the name carries its time, and under each key the values of the layers of that step, in order; `d0` is
what the buffer held before. -/
def Records (c : Cfg K L V) (d0 : Data V) (f : File V) (s : K × List L) : Prop :=
  f.code = pyRound (100 * s.1) ∧ (∀ k, f.data.get k = d0.get k ++ s.2.flatMap (contrib c s.1 k)) ∧
    (∀ k, k ∈ f.data.keys ↔ k ∈ d0.keys ∨ ∃ l ∈ s.2, k ∈ ((c.proc s.1 l).getD []).map Prod.fst)

theorem stepDiag_out (c : Cfg K L V) (hn : c.numbers = true) (b b' : Buf V) (time : K) (layers : List L) (files : List (File V))
    (hout : b.first = true ∨ cond time c.period c.dt) (h : stepDiag c b time layers = some (files, b')) :
    ∃ f, files = [f] ∧ b' = ⟨false, []⟩ ∧ Records c b.data f (time, layers) := by
  unfold stepDiag at h
  obtain ⟨b1, h1, h2⟩ := Option.map_eq_some_iff.mp h
  obtain ⟨i1, i2, i3, _⟩ := foldlM_afterStep_out c time layers b b1 hout h1
  unfold dump at h2
  have : ¬ (¬ b1.first = true ∧ ¬ cond time c.period c.dt) := by rw [i1]; tauto
  rw [if_neg this, if_pos hn, Prod.mk.injEq] at h2
  exact ⟨_, h2.1.symm, h2.2.symm, rfl, i2, i3⟩

theorem stepDiag_skip (c : Cfg K L V) (b : Buf V) (time : K) (layers : List L)
    (hout : ¬ (b.first = true ∨ cond time c.period c.dt)) : stepDiag c b time layers = some ([], b) := by
  unfold stepDiag
  rw [foldlM_afterStep_skip c time layers b hout]
  simp only [Option.map_some, dump]
  rw [if_pos (by tauto)]

/-- Once a process is past its first output, its files are those of the output steps, each with that step's own layers. -/
theorem runDiag_later (c : Cfg K L V) (hn : c.numbers = true) (hist : List (K × List L)) (files : List (File V)) (b' : Buf V)
    (h : runDiag c ⟨false, []⟩ hist = some (files, b')) :
    List.Forall₂ (Records c []) files (hist.filter fun s => decide (cond s.1 c.period c.dt)) := by
  induction hist generalizing files with
  | nil => simp only [runDiag] at h; cases h; exact List.Forall₂.nil
  | cons s rest ih =>
    rw [runDiag] at h
    obtain ⟨r, h1, h2⟩ := Option.bind_eq_some_iff.mp h
    obtain ⟨q, h3, h4⟩ := Option.map_eq_some_iff.mp h2
    obtain ⟨h4a, h4b⟩ := Prod.mk.inj h4
    by_cases hc : cond s.1 c.period c.dt
    · obtain ⟨f, e1, e2, e3⟩ := stepDiag_out c hn _ r.2 s.1 s.2 r.1 (Or.inr hc) h1
      rw [e2] at h3
      have := ih q.1 (by rw [h3, ← h4b])
      rw [List.filter_cons_of_pos (by simpa using hc)]
      have e5 : files = f :: q.1 := by rw [← h4a, e1]; rfl
      rw [e5]
      exact List.Forall₂.cons e3 this
    · have hs := stepDiag_skip c ⟨false, []⟩ s.1 s.2 (by simpa using hc)
      rw [hs] at h1
      cases h1
      have := ih q.1 (by rw [h3, ← h4b])
      rw [List.filter_cons_of_neg (by simpa using hc)]
      have e5 : files = q.1 := by rw [← h4a]; rfl
      rw [e5]; exact this

/-- What the files of a run are: one file for each output step; the first carries over what the buffer held at construction
(nothing but an empty `xi` list), the others hold the layers of their own step and nothing else. -/
def RunRecords (c : Cfg K L V) (d0 : Data V) : List (File V) → List (K × List L) → Prop
  | [], [] => True
  | f :: fs, s :: ss => Records c d0 f s ∧ List.Forall₂ (Records c []) fs ss
  | _, _ => False

/-- C37: for every history of time steps and layers of a process (any times, any number of layers, any rank), the files are written at exactly the output
steps, in order, and each contains under each key the values of its own step's layers, in order, and nothing of any other step. -/
theorem files_of_run (c : Cfg K L V) (hn : c.numbers = true) (b b' : Buf V) (hist : List (K × List L)) (files : List (File V))
    (h : runDiag c b hist = some (files, b')) : RunRecords c b.data files (outSteps c b.first hist) := by
  obtain ⟨first, d0⟩ := b
  induction hist generalizing files first with
  | nil => simp only [runDiag] at h; cases h; simp [outSteps, RunRecords]
  | cons s rest ih =>
    rw [runDiag] at h
    obtain ⟨r, h1, h2⟩ := Option.bind_eq_some_iff.mp h
    obtain ⟨q, h3, h4⟩ := Option.map_eq_some_iff.mp h2
    have h4' := Prod.mk.inj h4
    rw [outSteps]
    by_cases hc : first = true ∨ cond s.1 c.period c.dt
    · obtain ⟨f, e1, e2, e3⟩ := stepDiag_out c hn _ r.2 s.1 s.2 r.1 hc h1
      rw [if_pos hc]
      have e5 : files = f :: q.1 := by rw [← h4'.1, e1]; rfl
      rw [e5]
      refine ⟨e3, ?_⟩
      rw [e2] at h3
      exact runDiag_later c hn rest q.1 b' (by rw [h3, ← h4'.2])
    · have hs := stepDiag_skip c ⟨first, d0⟩ s.1 s.2 hc
      rw [hs] at h1
      cases h1
      rw [if_neg hc]
      have hf : first = false := by simpa using fun e => hc (Or.inl e)
      subst hf
      have e5 : files = q.1 := by rw [← h4'.1]; rfl
      rw [e5]
      exact ih q.1 false (by rw [h3, ← h4'.2])

/-- C36: the first step of the run (rank 0) is always an output step, and on any rank the output steps are its first one (rank 0) and those within half a
time step of a multiple of the period. -/
theorem outSteps_rank0 (c : Cfg K L V) (s : K × List L) (rest : List (K × List L)) :
    outSteps c (sliceInit (V := V) 0).first (s :: rest) = s :: rest.filter (fun s => decide (cond s.1 c.period c.dt)) := by
  simp [outSteps, sliceInit]

theorem outSteps_other (c : Cfg K L V) (hist : List (K × List L)) (rank : ℕ) (hr : rank ≠ 0) :
    outSteps c (sliceInit (V := V) rank).first hist = hist.filter (fun s => decide (cond s.1 c.period c.dt)) := by
  have : (sliceInit (V := V) rank).first = false := by simpa [sliceInit] using hr
  rw [this]
  induction hist with
  | nil => rfl
  | cons s rest ih =>
    rw [outSteps]
    by_cases h : cond s.1 c.period c.dt
    · rw [if_pos (Or.inr h), List.filter_cons_of_pos (by simpa using h)]
    · rw [if_neg (by simpa using h), ih, List.filter_cons_of_neg (by simpa using h)]

/-- If no layer raises an exception the run of the diagnostic ends normally. -/
theorem run_total (c : Cfg K L V) (b : Buf V) (hist : List (K × List L)) (h : ∀ s ∈ hist, ∀ l ∈ s.2, (c.proc s.1 l).isSome) :
    (runDiag c b hist).isSome := by
  induction hist generalizing b with
  | nil => rfl
  | cons s rest ih =>
    rw [runDiag]
    have h1 : ∀ (ls : List L) (b : Buf V), (∀ l ∈ ls, (c.proc s.1 l).isSome) → (ls.foldlM (afterStep c s.1) b).isSome := by
      intro ls
      induction ls with
      | nil => intro b _; rfl
      | cons l ls ihl =>
        intro b hl
        rw [List.foldlM_cons]
        have : (afterStep c s.1 b l).isSome := by
          unfold afterStep
          split
          · rw [Option.isSome_map]; exact hl l (by simp)
          · rfl
        obtain ⟨b1, hb1⟩ := Option.isSome_iff_exists.mp this
        show ((afterStep c s.1 b l).bind _).isSome
        rw [hb1]
        exact ihl b1 fun x hx => hl x (by simp [hx])
    have h2 : (stepDiag c b s.1 s.2).isSome := by
      unfold stepDiag; rw [Option.isSome_map]; exact h1 s.2 b (h s (by simp))
    obtain ⟨r, hr⟩ := Option.isSome_iff_exists.mp h2
    rw [hr, Option.bind_some, Option.isSome_map]
    exact ih r.2 fun s hs => h s (by simp [hs])

/-- Two output times more than 0.01 apart have different file names. -/
theorem names_distinct (t t' : K) (h : 1 / 100 < |t - t'|) : pyRound (100 * t) ≠ pyRound (100 * t') := by
  intro e
  have h1 := abs_pyRound_sub_le (100 * t)
  have h2 := abs_pyRound_sub_le (100 * t')
  rw [e] at h1
  have h3 : |(100 * t) - (100 * t')| ≤ 1 := by
    have := abs_sub_le (100 * t) (pyRound (100 * t') : K) (100 * t')
    rw [abs_sub_comm (100 * t) (pyRound (100 * t') : K)] at this
    linarith
  have h4 : |100 * t - 100 * t'| = 100 * |t - t'| := by rw [← mul_sub, abs_mul, abs_of_pos (by norm_num)]
  rw [h4] at h3
  linarith

/-- The files left on disk: a later file of the same name replaces an earlier one (`np.savez` overwrites). -/
def disk (files : List (File V)) (code : ℤ) : Option (Data V) := ((files.filter fun f => f.code = code).getLast?).map File.data

/-- C37, refutation: with time steps of 0.003 and an output at each of them, the outputs of two different time steps have the same name, and the second
one replaces the first: the data of the first are lost. -/
theorem name_collision : ∃ (c : Cfg ℚ ℕ ℕ) (hist : List (ℚ × List ℕ)) (files : List (File ℕ)) (b' : Buf ℕ),
    c.numbers = true ∧ c.period = adjust 0 c.dt ∧ hist.map Prod.fst = [stepTime c.dt 0, stepTime c.dt 1, stepTime c.dt 2] ∧
    runDiag c (sliceInit 0) hist = some (files, b') ∧ files.length = 3 ∧
    disk files 0 = some [("xi", [10])] ∧ disk files 1 = some [("xi", [12])] ∧ ∀ code, disk files code ≠ some [("xi", [11])] := by
  refine ⟨⟨3 / 1000, 3 / 1000, true, fun _ l => some [("xi", l)]⟩, [(3 / 1000, [10]), (6 / 1000, [11]), (9 / 1000, [12])],
    [⟨0, [("xi", [10])]⟩, ⟨1, [("xi", [11])]⟩, ⟨1, [("xi", [12])]⟩], ⟨false, []⟩, rfl, by norm_num [adjust], by norm_num [stepTime], ?_, rfl,
    by decide +kernel, by decide +kernel, ?_⟩
  · have hc : ∀ k : ℕ, k < 3 → cond (stepTime (3 / 1000 : ℚ) k) (3 / 1000) (3 / 1000) := by
      intro k _
      have := short_period_every_step (K := ℚ) (dt := 3 / 1000) (by norm_num) 0 (by norm_num) k
      have e : adjust (0 : ℚ) (3 / 1000) = 3 / 1000 := by norm_num [adjust]
      rwa [e] at this
    have c0 : cond (3 / 1000 : ℚ) (3 / 1000) (3 / 1000) := by decide +kernel
    have c1 : cond (6 / 1000 : ℚ) (3 / 1000) (3 / 1000) := by decide +kernel
    have c2 : cond (9 / 1000 : ℚ) (3 / 1000) (3 / 1000) := by decide +kernel
    have r0 : pyRound (100 * (3 / 1000) : ℚ) = 0 := by decide +kernel
    have r1 : pyRound (100 * (6 / 1000) : ℚ) = 1 := by decide +kernel
    have r2 : pyRound (100 * (9 / 1000) : ℚ) = 1 := by decide +kernel
    simp [runDiag, stepDiag, afterStep, dump, c0, c1, c2, r0, r1, r2, sliceInit, Data.appAll, Data.app]
  · intro code
    unfold disk
    by_cases h0 : code = 0
    · subst h0; simp
    · by_cases h1 : code = 1
      · subst h1; simp
      · have a : ¬ (0 : ℤ) = code := fun e => h0 e.symm
        have b : ¬ (1 : ℤ) = code := fun e => h1 e.symm
        simp [a, b]

/-- The hypotheses of C37 are met: four steps, the second and third without output. -/
example : (runDiag (⟨40, 8, true, fun _ l => some [("Ez", l), ("xi", l + 1)]⟩ : Cfg ℚ ℕ ℕ) (fxiInit 0) [(8, [1, 2]), (16, [3, 4]), (24, [5, 6]), (40, [7])]).map
    Prod.fst = some [⟨800, [("xi", [2, 3]), ("Ez", [1, 2])]⟩, ⟨4000, [("Ez", [7]), ("xi", [8])]⟩] := by
  decide +kernel

end Lcode.Diag
