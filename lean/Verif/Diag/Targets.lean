import Mathlib.Tactic
import Verif.Py

/-!
C81: the older diagnostics of the 2d code, lcode/diagnostics/targets.py and lcode/diagnostics/diagnostics_list.py.

These classes have `process`, called once per layer in the version of `PusherAndSolver.step_dt` that is commented out (push_solvers/push_solver.py:135-137); the present loop calls `after_step_dxi`
(:138-140), which they do not have. The model is of the classes under the calls of `process` for the layers 0, 1, ... of one time step after another.

Simplifications: a dictionary whose keys are times is a function to `Option`; a file written by `np.save` is the dictionary at that moment; an array made by `np.empty` holds `none` where nothing was stored;
pictures are not modelled; numbers are exact.
-/

namespace Lcode.Diag.Targets

open Lcode.Py

variable {K : Type*} [Field K] [LinearOrder K] [IsStrictOrderedRing K] [FloorRing K]

/-- The exceptions that these functions meet. -/
inductive Err where
  | indexError | keyError | valueError | zeroDivision | attributeError
  deriving DecidableEq

/-- Python's `x % p`. -/
def pyMod (x p : K) : K := x - p * ⌊x / p⌋

/-- targets.py:65-67, :156-163, :197-205: is this time inside the limits and a whole number of periods after the start? A period of zero: ZeroDivisionError. -/
def inWindow (ts te t : K) : Bool := !(decide (t < ts) || decide (te < t))

/-- targets.py:67, :163, :205: `(t - t_start) % period == 0`. -/
def onPeriod (ts period t : K) : Except Err Bool := if period = 0 then .error .zeroDivision else .ok (decide (pyMod (t - ts) period = 0))

/-- targets.py:28-59: a field diagnostics after `pull_config`. `line = some r`: the value at the grid node `r`; `none`: the whole column. -/
structure FCfg (K : Type*) where
  line : Option ℕ
  ts : K
  te : K
  period : K
  w : ℕ
  h : ℕ
  toFile : Bool

/-- targets.py:54-57: `self.w`, `self.h`. -/
def sizeOf (length step : K) : ℕ := (pyInt (length / step)).toNat + 1

/-- An array being filled: a row per layer, `none` before it is stored. -/
abbrev Rows (K : Type*) := List (Option (List K))

/-- `self.data` and the files, by the number in the name. -/
structure FState (K : Type*) where
  data : K → Option (Rows K)
  files : ℤ → Option (K → Option (Rows K))

/-- targets.py:73-76: what is stored of the column of a layer. A node outside the column: IndexError; a column of another length than the row: ValueError (a column of length 1, which numpy would repeat, is not modelled). -/
def cell (c : FCfg K) (col : List K) : Except Err (List K) :=
  match c.line with
  | some r => match col[r]? with
    | some v => .ok [v]
    | none => .error .indexError
  | none => if col.length = c.h then .ok col else .error .valueError

/-- targets.py:82-98: `dump`; the name contains `100*t` rounded to an integer. -/
def dumpFile (c : FCfg K) (t : K) (s : FState K) : FState K :=
  if c.toFile then { s with files := Function.update s.files (pyRound (100 * t)) (some s.data) } else s

/-- targets.py:68-72: a fresh array in the first layer. -/
def fresh (c : FCfg K) (t : K) (i : ℕ) (s : FState K) : FState K :=
  if i = 0 then { s with data := Function.update s.data t (some (List.replicate c.w none)) } else s

/-- targets.py:73-79: store the row of this layer; after the last one write the file. -/
def store (c : FCfg K) (t : K) (i : ℕ) (col : List K) (s : FState K) : Except Err (FState K) :=
  match s.data t with
  | none => .error .keyError
  | some rows => (cell c col).bind fun v =>
      if i < rows.length then
        let s' := { s with data := Function.update s.data t (some (rows.set i (some v))) }
        .ok (if i = c.w - 1 then dumpFile c t s' else s')
      else .error .indexError

/-- targets.py:62-79: `FieldDiagnostics.process`. -/
def processField (c : FCfg K) (s : FState K) (t : K) (i : ℕ) (col : List K) : Except Err (FState K) :=
  if inWindow c.ts c.te t = true then
    (onPeriod c.ts c.period t).bind fun b => if b = true then store c t i col (fresh c t i s) else .ok s
  else .ok s

/-- push_solver.py:100, :134-137: the layers of a time step, numbered from `i`. -/
def layersFrom {σ α : Type*} (f : σ → ℕ → α → Except Err σ) : ℕ → σ → List α → Except Err σ
  | _, s, [] => .ok s
  | i, s, a :: as => (f s i a).bind fun s' => layersFrom f (i + 1) s' as

/-- The time steps of a run, each with its time and its layers. -/
def runFrom {σ α : Type*} (f : σ → K → ℕ → α → Except Err σ) : σ → List (K × List α) → Except Err σ
  | s, [] => .ok s
  | s, st :: hist => (layersFrom (fun s i a => f s st.1 i a) 0 s st.2).bind fun s' => runFrom f s' hist

/-- A run with a field diagnostics, from the empty dictionary of targets.py:45. -/
def runField (c : FCfg K) (hist : List (K × List (List K))) : Except Err (FState K) := runFrom (processField c) ⟨fun _ => none, fun _ => none⟩ hist

/-- targets.py:153-167, diagnostics_list.py:43-52: `BeamDiagnostics.process`, where `act` says whether the time is inside the limits. -/
def processBeam {P : Type*} (act : K → Bool) (ts period : K) (d : K → Option (List P)) (t : K) (i : ℕ) (slice : List P) : Except Err (K → Option (List P)) :=
  if act t = true then
    (onPeriod ts period t).bind fun b =>
      if b = true then
        match (if i = 0 then Function.update d t (some []) else d) t with
        | none => .error .keyError
        | some l => .ok (Function.update d t (some (l ++ slice)))
      else .ok d
  else .ok d

/-- targets.py:194-207: `PlasmaDiagnostics.process`: the fresh array is made before the period is looked at. -/
def processPlasma {P : Type*} (ts te period : K) (d : K → Option (List P)) (t : K) (i : ℕ) (parts : List P) : Except Err (K → Option (List P)) :=
  if inWindow ts te t = true then
    let d' := if i = 0 then Function.update d t (some []) else d
    (onPeriod ts period t).bind fun b =>
      if b = true then
        match d' t with
        | none => .error .keyError
        | some l => .ok (Function.update d' t (some (l ++ parts)))
      else .ok d'
  else .ok d

/-- diagnostics_list.py:31-35: `TDiagnostics.process`, the limits: an end of `None` and an end of zero are no end at all. -/
def activeList (ts : K) (te : Option K) (t : K) : Bool :=
  match te with
  | some e => if e = 0 then !decide (t < ts) else inWindow ts e t
  | none => !decide (t < ts)

/-! ### Specification -/

/-- `t` is one of the times `ts`, `ts + period`, `ts + 2 period`, ... -/
def Regular (ts period t : K) : Prop := ∃ k : ℕ, t = ts + k * period

/-- The time step is to be recorded. -/
def Due (ts te period t : K) : Prop := t ≤ te ∧ Regular ts period t

/-- What is to be kept of the column of a layer. -/
def keep (line : Option ℕ) (col : List K) : List K :=
  match line with
  | some r => (col[r]?).toList
  | none => col

/-- A column fits the diagnostics: the node exists, or the column has the length of a row. -/
def Fits (c : FCfg K) (col : List K) : Prop :=
  match c.line with
  | some r => r < col.length
  | none => col.length = c.h

open Classical in
/-- What the dictionary is to hold after the time steps `hist`: the due ones, complete, nothing else. -/
noncomputable def recorded {α β : Type*} (due : K → Prop) (f : List α → β) (hist : List (K × List α)) (t : K) : Option β :=
  (hist.find? fun st => decide (st.1 = t ∧ due st.1)).map fun st => f st.2

/-! ### Proofs -/

theorem pyMod_zero {x p : K} (hp : 0 < p) (hx : 0 ≤ x) : pyMod x p = 0 ↔ ∃ k : ℕ, x = k * p := by
  unfold pyMod
  constructor
  · intro h
    have h0 : 0 ≤ ⌊x / p⌋ := Int.floor_nonneg.2 (div_nonneg hx hp.le)
    refine ⟨⌊x / p⌋.toNat, ?_⟩
    have : ((⌊x / p⌋.toNat : ℕ) : K) = (⌊x / p⌋ : K) := by
      rw [← Int.cast_natCast, Int.toNat_of_nonneg h0]
    rw [this]; linear_combination h
  · rintro ⟨k, rfl⟩
    rw [mul_div_assoc, div_self hp.ne', mul_one, Int.floor_natCast]
    simp [mul_comm]

theorem onPeriod_spec {ts period t : K} (hp : 0 < period) (h : ts ≤ t) : ∃ b, onPeriod ts period t = .ok b ∧ (b = true ↔ Regular ts period t) := by
  refine ⟨_, by unfold onPeriod; rw [if_neg hp.ne'], ?_⟩
  rw [decide_eq_true_iff, pyMod_zero hp (by linarith)]
  exact exists_congr fun k => ⟨fun h => by linear_combination h, fun h => by linear_combination h⟩

theorem inWindow_iff {ts te t : K} : inWindow ts te t = true ↔ ts ≤ t ∧ t ≤ te := by
  simp [inWindow]

theorem regular_le {ts period t : K} (hp : 0 < period) (h : Regular ts period t) : ts ≤ t := by
  obtain ⟨k, rfl⟩ := h
  have : (0 : K) ≤ k * period := by positivity
  linarith

theorem cell_fits {c : FCfg K} {col : List K} (h : Fits c col) : cell c col = .ok (keep c.line col) := by
  unfold cell keep; unfold Fits at h
  cases hl : c.line with
  | some r => rw [hl] at h; simp only at h ⊢; simp [List.getElem?_eq_getElem h]
  | none => rw [hl] at h; simp only at h ⊢; rw [if_pos h]

theorem processField_not {c : FCfg K} (hp : 0 < c.period) {s : FState K} {t : K} {i : ℕ} {col : List K} (h : ¬ Due c.ts c.te c.period t) : processField c s t i col = .ok s := by
  unfold processField
  split_ifs with hw
  · obtain ⟨h1, h2⟩ := inWindow_iff.1 hw
    obtain ⟨b, hb, hb'⟩ := onPeriod_spec hp h1
    have : b = false := by
      cases b
      · rfl
      · exact absurd ⟨h2, hb'.1 rfl⟩ h
    rw [hb, this]; rfl
  · rfl

theorem processField_due {c : FCfg K} (hp : 0 < c.period) {s : FState K} {t : K} {i : ℕ} {col : List K} (h : Due c.ts c.te c.period t) :
    processField c s t i col = store c t i col (fresh c t i s) := by
  unfold processField
  have h1 := regular_le hp h.2
  rw [if_pos (inWindow_iff.2 ⟨h1, h.1⟩)]
  obtain ⟨b, hb, hb'⟩ := onPeriod_spec hp h1
  rw [hb, hb'.2 h.2]; rfl

theorem layersFrom_id {σ α : Type*} (f : σ → ℕ → α → Except Err σ) (s : σ) (hf : ∀ i a, f s i a = .ok s) (l : List α) (i : ℕ) : layersFrom f i s l = .ok s := by
  induction l generalizing i with
  | nil => rfl
  | cons a as ih => simp only [layersFrom, hf]; exact ih _

theorem field_layers {c : FCfg K} (hp : 0 < c.period) {t : K} (h : Due c.ts c.te c.period t) (D : K → Option (Rows K)) (F : ℤ → Option (K → Option (Rows K))) (fs : List (List K)) :
    ∀ (i : ℕ) (done : Rows K), done.length = i → i + fs.length = c.w → fs ≠ [] → (∀ col ∈ fs, Fits c col) →
    layersFrom (fun s i a => processField c s t i a) i ⟨Function.update D t (some (done ++ List.replicate fs.length none)), F⟩ fs =
      .ok (dumpFile c t ⟨Function.update D t (some (done ++ fs.map fun col => some (keep c.line col))), F⟩) := by
  induction fs with
  | nil => intro i done _ _ hne; exact absurd rfl hne
  | cons col rest ih =>
    intro i done hd hw _ hfit
    have hfr : fresh c t i ⟨Function.update D t (some (done ++ List.replicate (col :: rest).length none)), F⟩ = ⟨Function.update D t (some (done ++ List.replicate (col :: rest).length none)), F⟩ := by
      unfold fresh
      split_ifs with hi
      · have : done = [] := List.length_eq_zero_iff.1 (by omega)
        subst this
        simp only [List.nil_append, Function.update_idem]
        rw [show c.w = (col :: rest).length by omega]
      · rfl
    have hset : (done ++ List.replicate (col :: rest).length (none : Option (List K))).set i (some (keep c.line col)) = (done ++ [some (keep c.line col)]) ++ List.replicate rest.length none := by
      rw [List.set_append_right _ _ (by omega), hd, Nat.sub_self, List.length_cons, List.replicate_succ, List.set_cons_zero, List.append_assoc]; rfl
    have hst : store c t i col ⟨Function.update D t (some (done ++ List.replicate (col :: rest).length none)), F⟩ =
        .ok (if i = c.w - 1 then dumpFile c t ⟨Function.update D t (some ((done ++ [some (keep c.line col)]) ++ List.replicate rest.length none)), F⟩
          else ⟨Function.update D t (some ((done ++ [some (keep c.line col)]) ++ List.replicate rest.length none)), F⟩) := by
      unfold store
      simp only [Function.update_self]
      rw [cell_fits (hfit col (by simp))]
      simp only [Except.bind]
      rw [if_pos (by simp [hd]), hset, Function.update_idem]
    simp only [layersFrom]
    rw [processField_due hp h, hfr, hst]
    simp only [Except.bind]
    simp only [List.length_cons] at hw
    cases rest with
    | nil =>
      simp only [List.length_nil] at hw
      rw [if_pos (by omega)]
      simp [layersFrom]
    | cons b bs =>
      simp only [List.length_cons] at hw
      rw [if_neg (by omega), ih (i + 1) (done ++ [some (keep c.line col)]) (by simp [hd]) (by simp only [List.length_cons]; omega) (by simp) (fun x hx => hfit x (by simp [hx]))]
      simp

/-- One time step that is due: its rows are in the dictionary, complete, and the dictionary is in the file of its name. -/
theorem field_step {c : FCfg K} (hp : 0 < c.period) {t : K} (h : Due c.ts c.te c.period t) (s : FState K) (fs : List (List K)) (hw : fs.length = c.w) (hw0 : 0 < c.w) (hfit : ∀ col ∈ fs, Fits c col) :
    layersFrom (fun s i a => processField c s t i a) 0 s fs = .ok (dumpFile c t ⟨Function.update s.data t (some (fs.map fun col => some (keep c.line col))), s.files⟩) := by
  have hne : fs ≠ [] := by rintro rfl; simp at hw; omega
  have := field_layers hp h s.data s.files fs 0 [] rfl (by omega) hne hfit
  rw [← List.nil_append (fs.map _), ← this]
  cases fs with
  | nil => exact absurd rfl hne
  | cons col rest =>
    simp only [layersFrom]
    congr 1
    rw [processField_due hp h, processField_due hp h]
    unfold fresh
    rw [if_pos rfl, if_pos rfl]
    simp [Function.update_idem]

theorem runFrom_append {σ α : Type*} (f : σ → K → ℕ → α → Except Err σ) (s : σ) (A B : List (K × List α)) : runFrom f s (A ++ B) = (runFrom f s A).bind fun s' => runFrom f s' B := by
  induction A generalizing s with
  | nil => rfl
  | cons a as ih =>
    simp only [List.cons_append, runFrom]
    cases layersFrom (fun s i b => f s a.1 i b) 0 s a.2 with
    | error e => rfl
    | ok v => exact ih v

open Classical in
theorem recorded_snoc_same {α β : Type*} (due : K → Prop) (f : List α → β) (hist : List (K × List α)) (st : K × List α) (hnew : ∀ s ∈ hist, s.1 ≠ st.1) (hd : due st.1) :
    recorded due f (hist ++ [st]) = Function.update (recorded due f hist) st.1 (some (f st.2)) := by
  funext t
  unfold recorded
  rw [List.find?_append]
  by_cases ht : t = st.1
  · subst ht
    rw [Function.update_self, List.find?_eq_none.2 (fun x hx => by simp [hnew x hx])]
    simp [hd]
  · rw [Function.update_of_ne ht]
    have : (List.find? (fun s => decide (s.1 = t ∧ due s.1)) [st]) = none := List.find?_eq_none.2 (fun x hx => by
      rw [List.mem_singleton.1 hx]; simp [Ne.symm ht])
    rw [this, Option.or_none]

open Classical in
theorem recorded_snoc_not {α β : Type*} (due : K → Prop) (f : List α → β) (hist : List (K × List α)) (st : K × List α) (hd : ¬ due st.1) : recorded due f (hist ++ [st]) = recorded due f hist := by
  funext t
  unfold recorded
  rw [List.find?_append]
  have : (List.find? (fun s => decide (s.1 = t ∧ due s.1)) [st]) = none := List.find?_eq_none.2 (fun x hx => by
    rw [List.mem_singleton.1 hx]; simp [hd])
  rw [this, Option.or_none]

/-- The complete record of a time step: what is to be kept, layer after layer, no row left empty. -/
def fullRows (line : Option ℕ) (ls : List (List K)) : Rows K := ls.map fun col => some (keep line col)

/-- **C81, fields.** Time steps of as many layers as there are rows: the dictionary holds the steps that are due, row `i` being the value or column of layer `i`, and nothing else. With the output of files on, the file named after
the time of a due step holds all the steps recorded so far, unless a later due step has the same number in its name; no other files are written. -/
theorem field_run (c : FCfg K) (hp : 0 < c.period) (hw0 : 0 < c.w) (hist : List (K × List (List K))) (hn : (hist.map Prod.fst).Nodup) (hw : ∀ st ∈ hist, st.2.length = c.w)
    (hfit : ∀ st ∈ hist, ∀ col ∈ st.2, Fits c col) :
    ∃ s, runField c hist = .ok s ∧ s.data = recorded (Due c.ts c.te c.period) (fullRows c.line) hist ∧
      (c.toFile = true → ∀ A st B, hist = A ++ st :: B → Due c.ts c.te c.period st.1 → (∀ st' ∈ B, Due c.ts c.te c.period st'.1 → pyRound (100 * st'.1) ≠ pyRound (100 * st.1)) →
        s.files (pyRound (100 * st.1)) = some (recorded (Due c.ts c.te c.period) (fullRows c.line) (A ++ [st]))) ∧
      (∀ n, (c.toFile = true → ∀ st ∈ hist, Due c.ts c.te c.period st.1 → pyRound (100 * st.1) ≠ n) → s.files n = none) := by
  induction hist using List.reverseRecOn with
  | nil => exact ⟨_, rfl, by funext t; simp [recorded], fun _ A st B h => by simp at h, fun n _ => rfl⟩
  | append_singleton hist st ih =>
    have hn' : (hist.map Prod.fst).Nodup ∧ ∀ s ∈ hist, s.1 ≠ st.1 := by
      rw [List.map_append, List.nodup_append] at hn
      refine ⟨hn.1, fun s hs h => hn.2.2 s.1 (List.mem_map_of_mem hs) st.1 (by simp) h⟩
    obtain ⟨s, hs, hdata, hfiles, hnone⟩ := ih hn'.1 (fun x hx => hw x (by simp [hx])) (fun x hx => hfit x (by simp [hx]))
    have hrun : runField c (hist ++ [st]) = (layersFrom (fun s i a => processField c s st.1 i a) 0 s st.2) := by
      unfold runField at hs ⊢
      rw [runFrom_append, hs]
      simp only [Except.bind, runFrom]
      cases layersFrom (fun s i a => processField c s st.1 i a) 0 s st.2 <;> rfl
    by_cases hd : Due c.ts c.te c.period st.1
    · rw [hrun, field_step hp hd s st.2 (hw st (by simp)) hw0 (hfit st (by simp))]
      have hrec := recorded_snoc_same (Due c.ts c.te c.period) (fullRows c.line) hist st hn'.2 hd
      refine ⟨_, rfl, ?_, ?_, ?_⟩
      · rw [hrec, ← hdata]
        unfold dumpFile; split_ifs <;> rfl
      · intro htf A st' B hAB hd' hB
        unfold dumpFile
        rw [if_pos htf]
        simp only
        rcases List.eq_nil_or_concat B with rfl | ⟨B', b, rfl⟩
        · obtain ⟨h1, h2⟩ := List.append_inj' hAB (by simp)
          obtain rfl : st = st' := by simpa using h2
          rw [Function.update_self, ← h1, hrec, ← hdata]; rfl
        · have hAB' : hist ++ [st] = (A ++ st' :: B') ++ [b] := by rw [hAB]; simp
          obtain ⟨h1, h2⟩ := List.append_inj' hAB' (by simp)
          obtain rfl : st = b := by simpa using h2
          rw [Function.update_of_ne (fun h => hB st (by simp) hd h.symm)]
          exact hfiles htf A st' B' h1 hd' (fun x hx => hB x (by simp [hx]))
      · intro n hnn
        unfold dumpFile
        split_ifs with htf
        · simp only
          rw [Function.update_of_ne (fun h => hnn htf st (by simp) hd h.symm)]
          exact hnone n (fun ht x hx => hnn ht x (by simp [hx]))
        · exact hnone n (fun ht => absurd ht htf)
    · rw [hrun, layersFrom_id _ s (fun i a => processField_not hp hd)]
      refine ⟨_, rfl, ?_, ?_, ?_⟩
      · rw [recorded_snoc_not _ _ _ _ hd, hdata]
      · intro htf A st' B hAB hd' hB
        rcases List.eq_nil_or_concat B with rfl | ⟨B', b, rfl⟩
        · obtain ⟨_, h2⟩ := List.append_inj' hAB (by simp)
          obtain rfl : st = st' := by simpa using h2
          exact absurd hd' hd
        · have hAB' : hist ++ [st] = (A ++ st' :: B') ++ [b] := by rw [hAB]; simp
          obtain ⟨h1, _⟩ := List.append_inj' hAB' (by simp)
          exact hfiles htf A st' B' h1 hd' (fun x hx => hB x (by simp [hx]))
      · intro n hnn
        exact hnone n (fun ht x hx => hnn ht x (by simp [hx]))

theorem layersFrom_append {σ α : Type*} (f : σ → ℕ → α → Except Err σ) (A B : List α) : ∀ (i : ℕ) (s : σ), layersFrom f i s (A ++ B) = (layersFrom f i s A).bind fun s' => layersFrom f (i + A.length) s' B := by
  induction A with
  | nil => intro i s; rfl
  | cons a as ih =>
    intro i s
    simp only [List.cons_append, layersFrom]
    cases f s i a with
    | error e => rfl
    | ok v =>
      simp only [Except.bind]
      rw [ih (i + 1) v, List.length_cons, show i + 1 + as.length = i + (as.length + 1) by omega]; rfl

/-- **C81, a layer too many.** A due time step with more layers than rows ends with IndexError, in whatever state it starts. -/
theorem field_too_many (c : FCfg K) (hp : 0 < c.period) (hw0 : 0 < c.w) (s : FState K) (t : K) (h : Due c.ts c.te c.period t) (ls : List (List K)) (hl : c.w < ls.length) (hfit : ∀ col ∈ ls, Fits c col) :
    layersFrom (fun s i a => processField c s t i a) 0 s ls = .error .indexError := by
  obtain ⟨A, B, rfl, hA⟩ : ∃ A B, ls = A ++ B ∧ A.length = c.w := ⟨ls.take c.w, ls.drop c.w, (List.take_append_drop _ _).symm, by simp; omega⟩
  rw [layersFrom_append, field_step hp h s A hA hw0 (fun x hx => hfit x (by simp [hx]))]
  cases B with
  | nil => simp at hl; omega
  | cons b bs =>
    simp only [Except.bind, layersFrom]
    rw [processField_due hp h]
    unfold fresh
    rw [if_neg (by omega)]
    unfold store
    have hd : (dumpFile c t ⟨Function.update s.data t (some (A.map fun col => some (keep c.line col))), s.files⟩).data t = some (A.map fun col => some (keep c.line col)) := by
      unfold dumpFile; split_ifs <;> simp
    rw [hd]
    simp only
    rw [cell_fits (hfit b (by simp))]
    simp only [Except.bind]
    rw [if_neg (by simp [hA])]

/-- **C81, continued plasma.** A due time step that does not begin with layer 0 (a run from a stored plasma state, C46) ends with KeyError at its first layer if that time was not recorded before. -/
theorem field_late_start (c : FCfg K) (hp : 0 < c.period) (s : FState K) (t : K) (h : Due c.ts c.te c.period t) (i : ℕ) (hi : 0 < i) (col : List K) (ls : List (List K)) (hs : s.data t = none) :
    layersFrom (fun s i a => processField c s t i a) i s (col :: ls) = .error .keyError := by
  simp only [layersFrom]
  rw [processField_due hp h]
  unfold fresh
  rw [if_neg (by omega)]
  unfold store
  rw [hs]; rfl

/-- push_solver.py:40, :100: the numbers of the layers of a complete time step, `range(0, xi_steps + 1)`. -/
def layerIndices (length step : K) : List ℕ := List.range ((pyInt (length / step)).toNat + 1)

/-- **C81, the number of rows** is that of the layers of a complete time step, whatever the window and the step. -/
theorem rows_eq_layers (L dxi : K) : (layerIndices L dxi).length = sizeOf L dxi := by simp [layerIndices, sizeOf]

/-- **C81, a column that does not fit** (the number of radial nodes may be given independently of the width and the step, push_solver.py:34-38): the first due time step ends with an exception at its first layer,
IndexError for a line, ValueError for the whole column. -/
theorem field_misfit (c : FCfg K) (hp : 0 < c.period) (s : FState K) (t : K) (h : Due c.ts c.te c.period t) (col : List K) (ls : List (List K)) (hc : ¬ Fits c col) :
    layersFrom (fun s i a => processField c s t i a) 0 s (col :: ls) = .error (if c.line = none then .valueError else .indexError) := by
  simp only [layersFrom]
  rw [processField_due hp h]
  unfold fresh
  rw [if_pos rfl]
  unfold store
  simp only [Function.update_self]
  unfold cell
  unfold Fits at hc
  cases hl : c.line with
  | some r =>
    rw [hl] at hc
    simp only at hc ⊢
    rw [List.getElem?_eq_none (by omega)]; rfl
  | none =>
    rw [hl] at hc
    simp only at hc ⊢
    rw [if_neg hc]; rfl

/-! ### Beam and plasma -/

theorem beam_not {P : Type*} {act : K → Bool} {ts period t : K} (hp : 0 < period) (hts : act t = true → ts ≤ t) (h : ¬ (act t = true ∧ Regular ts period t)) (d : K → Option (List P)) (i : ℕ) (sl : List P) :
    processBeam act ts period d t i sl = .ok d := by
  unfold processBeam
  by_cases ha : act t = true
  · rw [if_pos ha]
    obtain ⟨b, hb, hb'⟩ := onPeriod_spec hp (hts ha)
    have : b = false := by
      cases b
      · rfl
      · exact absurd ⟨ha, hb'.1 rfl⟩ h
    rw [hb, this]; rfl
  · rw [if_neg ha]

theorem beam_due {P : Type*} {act : K → Bool} {ts period t : K} (hp : 0 < period) (ha : act t = true) (hr : Regular ts period t) (d : K → Option (List P)) (i : ℕ) (sl l : List P)
    (h : (if i = 0 then Function.update d t (some []) else d) t = some l) : processBeam act ts period d t i sl = .ok (Function.update d t (some (l ++ sl))) := by
  unfold processBeam
  rw [if_pos ha]
  obtain ⟨b, hb, hb'⟩ := onPeriod_spec hp (regular_le hp hr)
  rw [hb, hb'.2 hr]
  simp only [Except.bind, if_true]
  rw [h]

theorem beam_layers {P : Type*} {act : K → Bool} {ts period t : K} (hp : 0 < period) (ha : act t = true) (hr : Regular ts period t) (d : K → Option (List P)) (ls : List (List P)) :
    ∀ (i : ℕ), 0 < i → ∀ done, layersFrom (fun d i a => processBeam act ts period d t i a) i (Function.update d t (some done)) ls = .ok (Function.update d t (some (done ++ ls.flatten))) := by
  induction ls with
  | nil => intro i _ done; simp [layersFrom]
  | cons a as ih =>
    intro i hi done
    simp only [layersFrom]
    rw [beam_due hp ha hr _ i a done (by rw [if_neg (by omega), Function.update_self])]
    simp only [Except.bind, Function.update_idem]
    rw [ih (i + 1) (by omega) (done ++ a)]
    simp

/-- **C81, the beam.** Any history of time steps with different times, each with at least one layer: the dictionary holds, for the steps that are due and for no others, all the particles handed over, layer after layer. -/
theorem beam_run {P : Type*} (act : K → Bool) (ts period : K) (hp : 0 < period) (hts : ∀ t, act t = true → ts ≤ t) (hist : List (K × List (List P))) (hn : (hist.map Prod.fst).Nodup) (hne : ∀ st ∈ hist, st.2 ≠ []) :
    runFrom (processBeam act ts period) (fun _ => none) hist = .ok (recorded (fun t => act t = true ∧ Regular ts period t) List.flatten hist) := by
  induction hist using List.reverseRecOn with
  | nil => simp only [runFrom]; congr 1
  | append_singleton hist st ih =>
    have hn' : (hist.map Prod.fst).Nodup ∧ ∀ s ∈ hist, s.1 ≠ st.1 := by
      rw [List.map_append, List.nodup_append] at hn
      refine ⟨hn.1, fun s hs h => hn.2.2 s.1 (List.mem_map_of_mem hs) st.1 (by simp) h⟩
    rw [runFrom_append, ih hn'.1 (fun x hx => hne x (by simp [hx]))]
    simp only [Except.bind, runFrom]
    by_cases hd : act st.1 = true ∧ Regular ts period st.1
    · have hstep : layersFrom (fun d i a => processBeam act ts period d st.1 i a) 0 (recorded (fun t => act t = true ∧ Regular ts period t) List.flatten hist) st.2 =
          .ok (Function.update (recorded (fun t => act t = true ∧ Regular ts period t) List.flatten hist) st.1 (some st.2.flatten)) := by
        obtain ⟨t, ls⟩ := st
        cases ls with
        | nil => exact absurd rfl (hne (t, []) (by simp))
        | cons a as =>
          simp only [layersFrom]
          rw [beam_due hp hd.1 hd.2 _ 0 a [] (by rw [if_pos rfl, Function.update_self])]
          simp only [Except.bind, List.nil_append]
          rw [beam_layers hp hd.1 hd.2 _ as (0 + 1) (by omega) a]
          simp
      rw [hstep, recorded_snoc_same _ List.flatten hist st hn'.2 hd]
    · rw [layersFrom_id _ _ (fun i a => beam_not hp (hts st.1) hd _ i a), recorded_snoc_not _ _ _ _ hd]

/-- **C81, the limits of the beam and plasma diagnostics of targets.py**: with `act = inWindow ts te` the steps recorded by `beam_run` are the due ones. -/
theorem beam_due_iff (ts te period : K) (hp : 0 < period) (t : K) : (inWindow ts te t = true ∧ Regular ts period t) ↔ Due ts te period t :=
  ⟨fun h => ⟨(inWindow_iff.1 h.1).2, h.2⟩, fun h => ⟨inWindow_iff.2 ⟨regular_le hp h.2, h.1⟩, h.2⟩⟩

/-- **C81, the limits of diagnostics_list.py**: an end that is not zero is kept to; without an end, and with an end of zero, every regular time is recorded. -/
theorem list_due_iff (ts period : K) (hp : 0 < period) (t : K) :
    (∀ te, te ≠ 0 → ((activeList ts (some te) t = true ∧ Regular ts period t) ↔ Due ts te period t)) ∧
    ((activeList ts (some 0) t = true ∧ Regular ts period t) ↔ Regular ts period t) ∧ ((activeList ts none t = true ∧ Regular ts period t) ↔ Regular ts period t) ∧
    (∀ te, activeList ts te t = true → ts ≤ t) := by
  refine ⟨fun te hte => ?_, ?_, ?_, fun te => ?_⟩
  · unfold activeList; simp only [if_neg hte]; exact beam_due_iff ts te period hp t
  · unfold activeList; simpa using regular_le hp
  · unfold activeList; simpa using regular_le hp
  · unfold activeList
    cases te with
    | none => simp
    | some e =>
      simp only
      split_ifs
      · simp
      · exact fun h => (inWindow_iff.1 h).1

open Classical in
/-- What the plasma diagnostics holds of a time step: all particles of all its layers if it is due, an empty array if it is only inside the limits. -/
noncomputable def plasmaRecord {P : Type*} (ts te period : K) (hist : List (K × List (List P))) (t : K) : Option (List P) :=
  (hist.find? fun st => decide (st.1 = t ∧ ts ≤ st.1 ∧ st.1 ≤ te)).map fun st => if Regular ts period st.1 then st.2.flatten else []

theorem plasma_out {P : Type*} {ts te period t : K} (h : ¬ (ts ≤ t ∧ t ≤ te)) (d : K → Option (List P)) (i : ℕ) (sl : List P) : processPlasma ts te period d t i sl = .ok d := by
  unfold processPlasma
  rw [if_neg (fun hw => h (inWindow_iff.1 hw))]

theorem plasma_in {P : Type*} {ts te period t : K} (hp : 0 < period) (h : ts ≤ t ∧ t ≤ te) (d : K → Option (List P)) (i : ℕ) (sl l : List P)
    (hl : (if i = 0 then Function.update d t (some []) else d) t = some l) :
    (Regular ts period t → processPlasma ts te period d t i sl = .ok (Function.update d t (some (l ++ sl)))) ∧ (¬ Regular ts period t → processPlasma ts te period d t i sl = .ok (Function.update d t (some l))) := by
  have hd' : (if i = 0 then Function.update d t (some []) else d) = Function.update d t (some l) := by
    split_ifs at hl ⊢ with hi
    · rw [Function.update_self] at hl; rw [← hl]
    · rw [← hl, Function.update_eq_self]
  obtain ⟨b, hb, hb'⟩ := onPeriod_spec hp h.1
  unfold processPlasma
  simp only [if_pos (inWindow_iff.2 h), hd', hb, Except.bind, Function.update_self, Function.update_idem]
  refine ⟨fun hr => by rw [hb'.2 hr]; rfl, fun hr => ?_⟩
  rw [if_neg (fun hb1 => hr (hb'.1 hb1))]

open Classical in
theorem plasma_layers {P : Type*} {ts te period t : K} (hp : 0 < period) (h : ts ≤ t ∧ t ≤ te) (d : K → Option (List P)) (ls : List (List P)) :
    ∀ (i : ℕ), 0 < i → ∀ done, layersFrom (fun d i a => processPlasma ts te period d t i a) i (Function.update d t (some done)) ls =
      .ok (Function.update d t (some (done ++ if Regular ts period t then ls.flatten else []))) := by
  induction ls with
  | nil => intro i _ done; simp [layersFrom]
  | cons a as ih =>
    intro i hi done
    simp only [layersFrom]
    have hin := plasma_in hp h (Function.update d t (some done)) i a done (by rw [if_neg (by omega), Function.update_self])
    by_cases hr : Regular ts period t
    · rw [hin.1 hr]
      simp only [Except.bind, Function.update_idem]
      rw [ih (i + 1) (by omega) (done ++ a)]
      simp [hr]
    · rw [hin.2 hr]
      simp only [Except.bind, Function.update_idem]
      rw [ih (i + 1) (by omega) done]
      simp [hr]

open Classical in
/-- **C81, the plasma.** The dictionary has an entry for every time step inside the limits; it holds all the particles handed over if the step is due, and is empty if it is not. -/
theorem plasma_run {P : Type*} (ts te period : K) (hp : 0 < period) (hist : List (K × List (List P))) (hn : (hist.map Prod.fst).Nodup) (hne : ∀ st ∈ hist, st.2 ≠ []) :
    runFrom (processPlasma ts te period) (fun _ => none) hist = .ok (plasmaRecord ts te period hist) := by
  induction hist using List.reverseRecOn with
  | nil => simp only [runFrom]; congr 1
  | append_singleton hist st ih =>
    have hn' : (hist.map Prod.fst).Nodup ∧ ∀ s ∈ hist, s.1 ≠ st.1 := by
      rw [List.map_append, List.nodup_append] at hn
      refine ⟨hn.1, fun s hs h => hn.2.2 s.1 (List.mem_map_of_mem hs) st.1 (by simp) h⟩
    rw [runFrom_append, ih hn'.1 (fun x hx => hne x (by simp [hx]))]
    simp only [Except.bind, runFrom]
    by_cases hd : ts ≤ st.1 ∧ st.1 ≤ te
    · have hstep : layersFrom (fun d i a => processPlasma ts te period d st.1 i a) 0 (plasmaRecord ts te period hist) st.2 =
          .ok (Function.update (plasmaRecord ts te period hist) st.1 (some (if Regular ts period st.1 then st.2.flatten else []))) := by
        obtain ⟨t, ls⟩ := st
        cases ls with
        | nil => exact absurd rfl (hne (t, []) (by simp))
        | cons a as =>
          simp only [layersFrom]
          have hin := plasma_in hp hd (plasmaRecord ts te period hist) 0 a [] (by rw [if_pos rfl, Function.update_self])
          by_cases hr : Regular ts period t
          · rw [hin.1 hr]
            simp only [Except.bind, List.nil_append]
            rw [plasma_layers hp hd _ as (0 + 1) (by omega) a]
            simp [hr]
          · rw [hin.2 hr]
            simp only [Except.bind]
            rw [plasma_layers hp hd _ as (0 + 1) (by omega) []]
            simp [hr]
      rw [hstep]
      simp only
      congr 1
      funext t
      unfold plasmaRecord
      rw [List.find?_append]
      by_cases ht : t = st.1
      · subst ht
        rw [Function.update_self, List.find?_eq_none.2 (fun x hx => by simp [hn'.2 x hx])]
        simp [hd]
      · rw [Function.update_of_ne ht]
        have : (List.find? (fun s => decide (s.1 = t ∧ ts ≤ s.1 ∧ s.1 ≤ te)) [st]) = none := List.find?_eq_none.2 (fun x hx => by
          rw [List.mem_singleton.1 hx]; simp [Ne.symm ht])
        rw [this, Option.or_none]
    · rw [layersFrom_id _ _ (fun i a => plasma_out hd _ i a)]
      simp only
      congr 1
      funext t
      unfold plasmaRecord
      rw [List.find?_append]
      have : (List.find? (fun s => decide (s.1 = t ∧ ts ≤ s.1 ∧ s.1 ≤ te)) [st]) = none := List.find?_eq_none.2 (fun x hx => by
        rw [List.mem_singleton.1 hx]; simp [hd])
      rw [this, Option.or_none]

/-- **C81, a period of zero** raises ZeroDivisionError at the first layer of the first time step inside the limits. -/
theorem zero_period (c : FCfg K) (hp : c.period = 0) (s : FState K) (t : K) (h : c.ts ≤ t ∧ t ≤ c.te) (i : ℕ) (col : List K) : processField c s t i col = .error .zeroDivision := by
  unfold processField onPeriod
  rw [if_pos (inWindow_iff.2 h), if_pos hp]; rfl

/-! ### A concrete case -/

/-- Line output at the axis, times 0 to 2 with period 2, two rows. -/
def exCfg : FCfg ℚ := ⟨some 0, 0, 2, 2, 2, 3, true⟩

/-- Three time steps of two layers. -/
def exHist : List (ℚ × List (List ℚ)) := [(0, [[1, 2, 3], [4, 5, 6]]), (1, [[7, 8, 9], [7, 8, 9]]), (2, [[10, 11, 12], [13, 14, 15]])]

theorem exHist_meets : 0 < exCfg.period ∧ 0 < exCfg.w ∧ (exHist.map Prod.fst).Nodup ∧ (∀ st ∈ exHist, st.2.length = exCfg.w) ∧ (∀ st ∈ exHist, ∀ col ∈ st.2, Fits exCfg col) := by
  refine ⟨by decide +kernel, by decide +kernel, by decide +kernel, by decide +kernel, ?_⟩
  intro st hst col hcol
  fin_cases hst <;> fin_cases hcol <;> simp [Fits, exCfg]

/-- The file of time 2 holds the steps of times 0 and 2, not that of time 1. -/
example : ((runField exCfg exHist).toOption.bind fun s => s.files 200).map (fun f => [f 0, f 1, f 2]) = some [some [some [1], some [4]], none, some [some [10], some [13]]] := by decide +kernel

/-- The plasma diagnostics has an empty array for time 1. -/
example : ((runFrom (processPlasma (0 : ℚ) 2 2) (fun _ => none) exHist).toOption).map (fun d => [d 0, d 1, d 2, d 3]) = some [some [1, 2, 3, 4, 5, 6], some [], some [10, 11, 12, 13, 14, 15], none] := by decide +kernel

/-- The beam diagnostics has nothing for time 1. -/
example : ((runFrom (processBeam (inWindow (0 : ℚ) 2) 0 2) (fun _ => none) exHist).toOption).map (fun d => [d 0, d 1, d 2, d 3]) = some [some [1, 2, 3, 4, 5, 6], none, some [10, 11, 12, 13, 14, 15], none] := by decide +kernel

/-- A window of 3.7 layers: four rows, four layers. -/
example : sizeOf (37 / 10 : ℚ) 1 = 4 ∧ layerIndices (37 / 10 : ℚ) 1 = [0, 1, 2, 3] := by decide +kernel

end Lcode.Diag.Targets
