import Verif.Diag.FXi

/-!
C67: the diagnostics of lcode/diagnostics/diagnostics_3d.py (`DiagnosticsFXi`, `DiagnosticsColormaps`): the part that both share, a buffer
that is filled layer by layer, saved from time to time and at the end of the time step, and then emptied.
What one layer contributes, which layers are kept and how the buffer is packed into a file are parameters here; `Verif.Diag.OldFXi` and
`Verif.Diag.OldMaps` give them.
-/

namespace Lcode.Diag.Old

open Lcode.Py Lcode.Diag

variable {K : Type*} [Field K] [LinearOrder K] [IsStrictOrderedRing K] [FloorRing K] {L V F : Type*}

/-- The settings after `pull_config`, diagnostics_3d.py:157-179, :323-357. -/
structure OCfg (K L V F : Type*) where
  period : K
  dt : K
  savePeriod : K
  dxi : K
  /-- the coordinate of a layer -/
  xi : L → K
  /-- the layer lies in the sub-window, :419-424 (always, for `DiagnosticsFXi`, :232-234) -/
  keep : L → Bool
  /-- the layer ends the sub-window, :413-415 (never, for `DiagnosticsFXi`) -/
  last : L → Bool
  /-- what a layer appends; `none`: an exception -/
  proc : L → Option (List (String × V))
  /-- what is written of the buffer; `none`: an exception -/
  pack : Data V → Option F

/-- The buffer and the files written so far, in order: the name of a file carries the time with two decimals, and a later file of the same name
replaces the earlier one. -/
structure OBuf (V F : Type*) where
  data : Data V
  files : List (ℤ × F)

/-- :227-228, :407-408: a layer within half a step of a multiple of the saving period. -/
def saves (c : OCfg K L V F) (l : L) : Bool := decide (cond (c.xi l) c.savePeriod c.dxi)

/-- :236-255, :426-459: `dump` without the cleaning. -/
def write (c : OCfg K L V F) (time : K) (b : OBuf V F) : Option (OBuf V F) :=
  if cond time c.period c.dt then (c.pack b.data).map fun f => { b with files := b.files ++ [(pyRound (100 * time), f)] } else some b

/-- :257-260, :461-464: every list is emptied, the keys stay. -/
def clean (d : Data V) : Data V := d.map fun kv => (kv.1, [])

/-- :184-222, :363-400: the layer is recorded if the time and the layer are due. -/
def record (c : OCfg K L V F) (time : K) (b : OBuf V F) (l : L) : Option (OBuf V F) :=
  if cond time c.period c.dt ∧ c.keep l = true then (c.proc l).map fun a => { b with data := b.data.appAll a } else some b

/-- :181-230, :359-417: `after_step_dxi`. -/
def afterStep (c : OCfg K L V F) (time : K) (b : OBuf V F) (l : L) : Option (OBuf V F) :=
  (record c time b l).bind fun b => (if saves c l = true then write c time b else some b).bind fun b => if c.last l = true then write c time b else some b

/-- `dump` at the end of the time step. -/
def dump (c : OCfg K L V F) (time : K) (b : OBuf V F) : Option (OBuf V F) := (write c time b).map fun b => { b with data := clean b.data }

/-- push_solvers/push_solver.py:236-284, seen from one diagnostic. -/
def stepDiag (c : OCfg K L V F) (b : OBuf V F) (s : K × List L) : Option (OBuf V F) := (s.2.foldlM (afterStep c s.1) b).bind (dump c s.1)

/-- simulation.py:246-266: the time steps of one process. -/
def runDiag (c : OCfg K L V F) (b : OBuf V F) (hist : List (K × List L)) : Option (OBuf V F) := hist.foldlM (stepDiag c) b

/-! ### Specification -/

/-- The content of the file of a given name: that of the last write. -/
def content (files : List (ℤ × F)) (code : ℤ) : Option F := (files.reverse.find? fun p => p.1 == code).map Prod.snd

/-- The values that a layer contributes under a key. -/
def contrib (c : OCfg K L V F) (k : String) (l : L) : List V := ((c.proc l).getD []).filterMap fun kv => if kv.1 = k then some kv.2 else none

/-- A packed buffer that holds exactly what the kept layers of `layers` contribute, in order, under the keys of `keys` and those that occur. -/
def HoldsLayers (c : OCfg K L V F) (layers : List L) (f : F) : Prop :=
  ∃ d, c.pack d = some f ∧ ∀ k, d.get k = (layers.filter c.keep).flatMap (contrib c k)

/-- A buffer with nothing in it. -/
def Empty (d : Data V) : Prop := ∀ k, d.get k = []

/-! ### Proofs -/

theorem content_append_ne (files : List (ℤ × F)) (code : ℤ) (more : List (ℤ × F)) (h : ∀ p ∈ more, p.1 ≠ code) : content (files ++ more) code = content files code := by
  unfold content
  rw [List.reverse_append, List.find?_append]
  have : more.reverse.find? (fun p => p.1 == code) = none := by
    rw [List.find?_eq_none]
    intro p hp
    simpa using h p (List.mem_reverse.mp hp)
  rw [this, Option.none_or]

theorem content_append_last (files : List (ℤ × F)) (code : ℤ) (f : F) : content (files ++ [(code, f)]) code = some f := by
  unfold content
  simp

theorem clean_empty (d : Data V) : Empty (clean d) := by
  intro k
  unfold clean Data.get
  induction d with
  | nil => rfl
  | cons a d ih =>
    simp only [List.map_cons, List.lookup]
    split
    · rfl
    · exact ih

/-- What a write changes. -/
theorem write_spec (c : OCfg K L V F) (time : K) (b b' : OBuf V F) (h : write c time b = some b') :
    b'.data = b.data ∧ (¬ cond time c.period c.dt → b' = b) ∧ (cond time c.period c.dt → ∃ f, c.pack b.data = some f ∧ b'.files = b.files ++ [(pyRound (100 * time), f)]) := by
  unfold write at h
  split_ifs at h with hc
  · obtain ⟨f, hf, rfl⟩ := Option.map_eq_some_iff.mp h
    exact ⟨rfl, fun hn => absurd hc hn, fun _ => ⟨f, hf, rfl⟩⟩
  · cases h
    exact ⟨rfl, fun _ => rfl, fun hn => absurd hn hc⟩

/-- What one layer changes. -/
theorem afterStep_spec (c : OCfg K L V F) (time : K) (b b' : OBuf V F) (l : L) (h : afterStep c time b l = some b') :
    (¬ cond time c.period c.dt → b' = b) ∧
    (cond time c.period c.dt → (∀ k, b'.data.get k = b.data.get k ++ (if c.keep l = true then contrib c k l else [])) ∧
      (∃ more, b'.files = b.files ++ more ∧ ∀ p ∈ more, p.1 = pyRound (100 * time)) ∧
      (saves c l = true ∨ c.last l = true → ∃ f more, c.pack b'.data = some f ∧ b'.files = b.files ++ more ++ [(pyRound (100 * time), f)]) ∧
      (saves c l = false → c.last l = false → b'.files = b.files)) := by
  unfold afterStep record at h
  obtain ⟨b1, h1, h⟩ := Option.bind_eq_some_iff.mp h
  obtain ⟨b2, h2, h3⟩ := Option.bind_eq_some_iff.mp h
  constructor
  · intro hn
    rw [if_neg (fun hx => hn hx.1)] at h1
    cases h1
    have e2 : b2 = b := by
      split_ifs at h2
      · exact (write_spec c time _ _ h2).2.1 hn
      · cases h2; rfl
    subst e2
    split_ifs at h3
    · exact (write_spec c time _ _ h3).2.1 hn
    · cases h3; rfl
  · intro hc
    have f1 : b1.files = b.files ∧ ∀ k, b1.data.get k = b.data.get k ++ (if c.keep l = true then contrib c k l else []) := by
      by_cases hk : c.keep l = true
      · rw [if_pos ⟨hc, hk⟩] at h1
        obtain ⟨a, ha, rfl⟩ := Option.map_eq_some_iff.mp h1
        refine ⟨rfl, fun k => ?_⟩
        rw [if_pos hk]
        simp only [Data.get_appAll, contrib, ha, Option.getD_some]
      · rw [if_neg (fun hx => hk hx.2)] at h1
        cases h1
        refine ⟨rfl, fun k => ?_⟩
        rw [if_neg hk, List.append_nil]
    have f2 : b2.data = b1.data ∧ (saves c l = true → ∃ f, c.pack b1.data = some f ∧ b2.files = b1.files ++ [(pyRound (100 * time), f)]) ∧ (saves c l = false → b2.files = b1.files) := by
      by_cases hs : saves c l = true
      · rw [if_pos hs] at h2
        have := write_spec c time _ _ h2
        exact ⟨this.1, fun _ => this.2.2 hc, fun hf => by rw [hs] at hf; exact absurd hf (by decide)⟩
      · rw [if_neg hs] at h2
        cases h2
        exact ⟨rfl, fun hf => absurd hf hs, fun _ => rfl⟩
    have f3 : b'.data = b2.data ∧ (c.last l = true → ∃ f, c.pack b2.data = some f ∧ b'.files = b2.files ++ [(pyRound (100 * time), f)]) ∧ (c.last l = false → b'.files = b2.files) := by
      by_cases hs : c.last l = true
      · rw [if_pos hs] at h3
        have := write_spec c time _ _ h3
        exact ⟨this.1, fun _ => this.2.2 hc, fun hf => by rw [hs] at hf; exact absurd hf (by decide)⟩
      · rw [if_neg hs] at h3
        cases h3
        exact ⟨rfl, fun hf => absurd hf hs, fun _ => rfl⟩
    refine ⟨fun k => by rw [f3.1, f2.1, f1.2], ?_, ?_, ?_⟩
    · have g2 : ∃ m, b2.files = b.files ++ m ∧ ∀ p ∈ m, p.1 = pyRound (100 * time) := by
        rcases hs : saves c l with _ | _
        · exact ⟨[], by rw [f2.2.2 hs, f1.1, List.append_nil], by simp⟩
        · obtain ⟨f, _, e⟩ := f2.2.1 hs
          exact ⟨[(pyRound (100 * time), f)], by rw [e, f1.1], by simp⟩
      obtain ⟨m, e, hm⟩ := g2
      rcases hl : c.last l with _ | _
      · exact ⟨m, by rw [f3.2.2 hl, e], hm⟩
      · obtain ⟨f, _, e'⟩ := f3.2.1 hl
        refine ⟨m ++ [(pyRound (100 * time), f)], by rw [e', e, List.append_assoc], ?_⟩
        intro p hp
        rcases List.mem_append.mp hp with hp | hp
        · exact hm p hp
        · simp at hp; rw [hp]
    · intro hor
      rcases hl : c.last l with _ | _
      · have hs : saves c l = true := by rcases hor with h | h; exacts [h, by rw [hl] at h; exact absurd h (by decide)]
        obtain ⟨f, hf, e⟩ := f2.2.1 hs
        exact ⟨f, [], by rw [f3.1, f2.1, hf], by rw [f3.2.2 hl, e, f1.1, List.append_nil]⟩
      · obtain ⟨f, hf, e⟩ := f3.2.1 hl
        rcases hs : saves c l with _ | _
        · exact ⟨f, [], by rw [f3.1, hf], by rw [e, f2.2.2 hs, f1.1, List.append_nil]⟩
        · obtain ⟨g, _, e'⟩ := f2.2.1 hs
          exact ⟨f, [(pyRound (100 * time), g)], by rw [f3.1, hf], by rw [e, e', f1.1]⟩
    · intro hs hl
      rw [f3.2.2 hl, f2.2.2 hs, f1.1]

/-- The buffer and the files after some layers of a time step. -/
theorem layers_spec (c : OCfg K L V F) (time : K) (layers : List L) (b b' : OBuf V F) (h : layers.foldlM (afterStep c time) b = some b') :
    (¬ cond time c.period c.dt → b' = b) ∧
    (cond time c.period c.dt → (∀ k, b'.data.get k = b.data.get k ++ (layers.filter c.keep).flatMap (contrib c k)) ∧ ∃ more, b'.files = b.files ++ more ∧ ∀ p ∈ more, p.1 = pyRound (100 * time)) := by
  induction layers generalizing b with
  | nil => simp only [List.foldlM_nil] at h; cases h; exact ⟨fun _ => rfl, fun _ => ⟨fun k => by simp, [], by simp, by simp⟩⟩
  | cons l layers ih =>
    rw [List.foldlM_cons] at h
    obtain ⟨b1, h1, h2⟩ := Option.bind_eq_some_iff.mp h
    obtain ⟨a1, a2⟩ := afterStep_spec c time b b1 l h1
    obtain ⟨i1, i2⟩ := ih b1 h2
    refine ⟨fun hn => by rw [i1 hn, a1 hn], fun hc => ?_⟩
    obtain ⟨j1, m2, e2, hm2⟩ := i2 hc
    obtain ⟨k1, ⟨m1, e1, hm1⟩, _, _⟩ := a2 hc
    refine ⟨fun k => ?_, m1 ++ m2, by rw [e2, e1, List.append_assoc], fun p hp => ?_⟩
    · rw [j1, k1, List.append_assoc]
      congr 1
      by_cases hk : c.keep l = true
      · rw [if_pos hk, List.filter_cons_of_pos hk, List.flatMap_cons]
      · rw [if_neg hk, List.filter_cons_of_neg hk, List.nil_append]
    · rcases List.mem_append.mp hp with hp | hp
      · exact hm1 p hp
      · exact hm2 p hp

/-- One time step. -/
theorem step_spec (c : OCfg K L V F) (b b' : OBuf V F) (s : K × List L) (hb : Empty b.data) (h : stepDiag c b s = some b') :
    Empty b'.data ∧ (¬ cond s.1 c.period c.dt → b'.files = b.files) ∧
    (cond s.1 c.period c.dt → (∃ more, b'.files = b.files ++ more ∧ ∀ p ∈ more, p.1 = pyRound (100 * s.1)) ∧ ∃ f, content b'.files (pyRound (100 * s.1)) = some f ∧ HoldsLayers c s.2 f) := by
  unfold stepDiag at h
  obtain ⟨b1, h1, h2⟩ := Option.bind_eq_some_iff.mp h
  unfold dump at h2
  obtain ⟨b2, h3, rfl⟩ := Option.map_eq_some_iff.mp h2
  obtain ⟨w1, w2, w3⟩ := write_spec c s.1 b1 b2 h3
  obtain ⟨l1, l2⟩ := layers_spec c s.1 s.2 b b1 h1
  refine ⟨clean_empty _, fun hn => by simp only; rw [w2 hn, l1 hn], fun hc => ?_⟩
  obtain ⟨f, hf, e⟩ := w3 hc
  obtain ⟨d, more, em, hm⟩ := l2 hc
  refine ⟨⟨more ++ [(pyRound (100 * s.1), f)], by simp only; rw [e, em, List.append_assoc], fun p hp => ?_⟩, f, ?_, b1.data, hf, fun k => ?_⟩
  · rcases List.mem_append.mp hp with hp | hp
    · exact hm p hp
    · simp at hp; rw [hp]
  · simp only; rw [e, content_append_last]
  · rw [d, hb k, List.nil_append]

/-- The later steps of a run leave a file alone unless one of them has the same name. -/
theorem run_keeps (c : OCfg K L V F) (hist : List (K × List L)) (b b' : OBuf V F) (hb : Empty b.data) (h : runDiag c b hist = some b') (code : ℤ)
    (hn : ∀ s ∈ hist, cond s.1 c.period c.dt → pyRound (100 * s.1) ≠ code) : Empty b'.data ∧ content b'.files code = content b.files code := by
  induction hist generalizing b with
  | nil => simp only [runDiag, List.foldlM_nil] at h; cases h; exact ⟨hb, rfl⟩
  | cons s rest ih =>
    unfold runDiag at h
    rw [List.foldlM_cons] at h
    obtain ⟨b1, h1, h2⟩ := Option.bind_eq_some_iff.mp h
    obtain ⟨e1, e2, e3⟩ := step_spec c b b1 s hb h1
    obtain ⟨i1, i2⟩ := ih b1 e1 h2 (fun s' hs' => hn s' (List.mem_cons_of_mem _ hs'))
    refine ⟨i1, i2.trans ?_⟩
    by_cases hc : cond s.1 c.period c.dt
    · obtain ⟨⟨more, em, hm⟩, _⟩ := e3 hc
      rw [em]
      exact content_append_ne _ _ _ (fun p hp => by rw [hm p hp]; exact hn s List.mem_cons_self hc)
    · rw [e2 hc]

/-- C67: after a run, the file of an output step holds exactly the kept layers of that step, in order, however often it was saved in between, provided no later
output step has the same two-decimal time in its name. -/
theorem file_of_step (c : OCfg K L V F) (pre post : List (K × List L)) (s : K × List L) (b b' : OBuf V F) (hb : Empty b.data) (h : runDiag c b (pre ++ s :: post) = some b') (hc : cond s.1 c.period c.dt)
    (hn : ∀ s' ∈ post, cond s'.1 c.period c.dt → pyRound (100 * s'.1) ≠ pyRound (100 * s.1)) : ∃ f, content b'.files (pyRound (100 * s.1)) = some f ∧ HoldsLayers c s.2 f := by
  have split : ∃ b1 b2, runDiag c b pre = some b1 ∧ stepDiag c b1 s = some b2 ∧ runDiag c b2 post = some b' := by
    unfold runDiag at h ⊢
    rw [List.foldlM_append] at h
    obtain ⟨b1, h1, h2⟩ := Option.bind_eq_some_iff.mp h
    rw [List.foldlM_cons] at h2
    obtain ⟨b2, h3, h4⟩ := Option.bind_eq_some_iff.mp h2
    exact ⟨b1, b2, h1, h3, h4⟩
  obtain ⟨b1, b2, h1, h2, h3⟩ := split
  have hb1 : Empty b1.data := by
    clear h2 h3 h hn hc
    induction pre generalizing b with
    | nil => simp only [runDiag, List.foldlM_nil] at h1; cases h1; exact hb
    | cons s' rest ih =>
      unfold runDiag at h1
      rw [List.foldlM_cons] at h1
      obtain ⟨b0, h1a, h1b⟩ := Option.bind_eq_some_iff.mp h1
      exact ih b0 (step_spec c b b0 s' hb h1a).1 h1b
  obtain ⟨e1, _, e3⟩ := step_spec c b1 b2 s hb1 h2
  obtain ⟨_, f, hf, hh⟩ := e3 hc
  exact ⟨f, by rw [(run_keeps c post b2 b' e1 h3 _ hn).2, hf], hh⟩

/-- C67: a file exists only for the time of an output step. -/
theorem file_names (c : OCfg K L V F) (hist : List (K × List L)) (b b' : OBuf V F) (hb : Empty b.data) (h0 : b.files = []) (h : runDiag c b hist = some b') (code : ℤ) (f : F) (hf : content b'.files code = some f) :
    ∃ s ∈ hist, cond s.1 c.period c.dt ∧ pyRound (100 * s.1) = code := by
  by_contra hno
  push Not at hno
  have := (run_keeps c hist b b' hb h code (fun s hs hc => hno s hs hc)).2
  rw [hf, h0] at this
  exact absurd this (by simp [content])

/-- Layers at which nothing is saved leave the files alone. -/
theorem quiet (c : OCfg K L V F) (time : K) (hc : cond time c.period c.dt) (post : List L) (hp : ∀ l' ∈ post, saves c l' = false ∧ c.last l' = false) (b b' : OBuf V F)
    (h : post.foldlM (afterStep c time) b = some b') : b'.files = b.files := by
  induction post generalizing b with
  | nil => simp only [List.foldlM_nil] at h; cases h; rfl
  | cons l' post ih =>
    rw [List.foldlM_cons] at h
    obtain ⟨b3, h4, h5⟩ := Option.bind_eq_some_iff.mp h
    have hp' := hp l' List.mem_cons_self
    rw [ih (fun x hx => hp x (List.mem_cons_of_mem _ hx)) b3 h5, ((afterStep_spec c time b b3 l' h4).2 hc).2.2.2 hp'.1 hp'.2]

/-- C67: if the run stops in the middle of an output step, the file of that step holds the kept layers up to the last saved one. -/
theorem interrupted (c : OCfg K L V F) (time : K) (b b' : OBuf V F) (hb : Empty b.data) (hc : cond time c.period c.dt) (pre post : List L) (l : L)
    (h : (pre ++ l :: post).foldlM (afterStep c time) b = some b') (hs : saves c l = true ∨ c.last l = true) (hp : ∀ l' ∈ post, saves c l' = false ∧ c.last l' = false) :
    ∃ f, content b'.files (pyRound (100 * time)) = some f ∧ HoldsLayers c (pre ++ [l]) f := by
  have split : ∃ b1 b2, pre.foldlM (afterStep c time) b = some b1 ∧ afterStep c time b1 l = some b2 ∧ post.foldlM (afterStep c time) b2 = some b' := by
    rw [List.foldlM_append] at h
    obtain ⟨b1, h1, h2⟩ := Option.bind_eq_some_iff.mp h
    rw [List.foldlM_cons] at h2
    obtain ⟨b2, h3, h4⟩ := Option.bind_eq_some_iff.mp h2
    exact ⟨b1, b2, h1, h3, h4⟩
  obtain ⟨b1, b2, h1, h2, h3⟩ := split
  obtain ⟨d1, _⟩ := (layers_spec c time pre b b1 h1).2 hc
  obtain ⟨d2, _, w2, _⟩ := (afterStep_spec c time b1 b2 l h2).2 hc
  obtain ⟨f, more, hf, e⟩ := w2 hs
  have keep : b'.files = b2.files := quiet c time hc post hp b2 b' h3
  refine ⟨f, by rw [keep, e, content_append_last], b2.data, hf, fun k => ?_⟩
  rw [d2, d1, hb k, List.nil_append, List.filter_append, List.flatMap_append]
  congr 1
  by_cases hk : c.keep l = true
  · rw [if_pos hk, List.filter_cons_of_pos hk]; simp
  · rw [if_neg hk, List.filter_cons_of_neg hk]; simp

/-- The run raises nothing if recording a due layer and packing raise nothing. -/
theorem run_ok (c : OCfg K L V F) (hpack : ∀ d, (c.pack d).isSome) (hist : List (K × List L)) (hproc : ∀ s ∈ hist, cond s.1 c.period c.dt → ∀ l ∈ s.2, c.keep l = true → (c.proc l).isSome)
    (b : OBuf V F) : (runDiag c b hist).isSome := by
  have hw : ∀ (time : K) (b : OBuf V F), ∃ b', write c time b = some b' := by
    intro time b
    unfold write
    split_ifs
    · obtain ⟨f, hf⟩ := Option.isSome_iff_exists.mp (hpack b.data)
      exact ⟨_, by rw [hf]; rfl⟩
    · exact ⟨b, rfl⟩
  have hl : ∀ (s : K × List L) (b : OBuf V F), (cond s.1 c.period c.dt → ∀ l ∈ s.2, c.keep l = true → (c.proc l).isSome) → ∃ b', stepDiag c b s = some b' := by
    rintro ⟨time, layers⟩ b hs
    have : ∃ b', layers.foldlM (afterStep c time) b = some b' := by
      induction layers generalizing b with
      | nil => exact ⟨b, rfl⟩
      | cons l layers ih =>
        rw [List.foldlM_cons]
        have h1 : ∃ b1, record c time b l = some b1 := by
          unfold record
          by_cases hx : cond time c.period c.dt ∧ c.keep l = true
          · rw [if_pos hx]
            obtain ⟨a, ha⟩ := Option.isSome_iff_exists.mp (hs hx.1 l List.mem_cons_self hx.2)
            exact ⟨_, by rw [ha]; rfl⟩
          · rw [if_neg hx]; exact ⟨b, rfl⟩
        obtain ⟨b1, h1⟩ := h1
        have h2 : ∃ b2, (if saves c l = true then write c time b1 else some b1) = some b2 := by
          split_ifs; exacts [hw time b1, ⟨b1, rfl⟩]
        obtain ⟨b2, h2⟩ := h2
        have h3 : ∃ b3, (if c.last l = true then write c time b2 else some b2) = some b3 := by
          split_ifs; exacts [hw time b2, ⟨b2, rfl⟩]
        obtain ⟨b3, h3⟩ := h3
        have ha : afterStep c time b l = some b3 := by
          unfold afterStep
          rw [h1, Option.bind_some, h2, Option.bind_some, h3]
        rw [ha]
        exact ih b3 (fun hc l' hl' => hs hc l' (List.mem_cons_of_mem _ hl'))
    obtain ⟨b1, h1⟩ := this
    obtain ⟨b2, h2⟩ := hw time b1
    refine ⟨{ b2 with data := clean b2.data }, ?_⟩
    unfold stepDiag
    simp only
    rw [h1, Option.bind_some]
    unfold dump
    rw [h2]; rfl
  induction hist generalizing b with
  | nil => rfl
  | cons s rest ih =>
    unfold runDiag
    rw [List.foldlM_cons]
    obtain ⟨b1, h1⟩ := hl s b (hproc s List.mem_cons_self)
    rw [h1]
    exact ih (fun s' hs' => hproc s' (List.mem_cons_of_mem _ hs')) b1

/-- When packing raises exactly on a buffer with no kept layer, the layers of an output step raise nothing exactly if no save comes before the first kept layer. -/
theorem layers_isSome (c : OCfg K L V F) (P : L → Prop) (hproc : ∀ l, P l → (c.proc l).isSome)
    (hpack : ∀ (d : Data V) (ks : List L), (∀ l ∈ ks, P l) → (∀ k, d.get k = ks.flatMap (contrib c k)) → ((c.pack d).isSome ↔ ks ≠ []))
    (time : K) (hc : cond time c.period c.dt) (layers done : List L) (hl : ∀ l ∈ layers, P l) (hd : ∀ l ∈ done, P l) (b : OBuf V F) (hb : ∀ k, b.data.get k = (done.filter c.keep).flatMap (contrib c k)) :
    (layers.foldlM (afterStep c time) b).isSome ↔ ∀ pre l post, layers = pre ++ l :: post → saves c l = true ∨ c.last l = true → ∃ l' ∈ done ++ pre ++ [l], c.keep l' = true := by
  induction layers generalizing done b with
  | nil => exact ⟨fun _ pre l post e => by simp at e, fun _ => rfl⟩
  | cons a layers ih =>
    rw [List.foldlM_cons]
    obtain ⟨v, hv⟩ := Option.isSome_iff_exists.mp (hproc a (hl a List.mem_cons_self))
    have hd' : ∀ l ∈ done ++ [a], P l := by
      intro l hm
      rcases List.mem_append.mp hm with hm | hm
      · exact hd l hm
      · rw [List.mem_singleton.mp hm]; exact hl a List.mem_cons_self
    have h1 : ∃ b1, record c time b a = some b1 ∧ ∀ k, b1.data.get k = ((done ++ [a]).filter c.keep).flatMap (contrib c k) := by
      unfold record
      by_cases hk : c.keep a = true
      · rw [if_pos ⟨hc, hk⟩, hv]
        refine ⟨_, rfl, fun k => ?_⟩
        simp only [Data.get_appAll]
        rw [hb, List.filter_append, List.flatMap_append, List.filter_cons_of_pos hk, List.filter_nil, List.flatMap_cons, List.flatMap_nil, List.append_nil]
        simp only [contrib, hv, Option.getD_some]
      · rw [if_neg (fun hx => hk hx.2)]
        refine ⟨b, rfl, fun k => ?_⟩
        rw [hb, List.filter_append, List.filter_cons_of_neg hk, List.filter_nil, List.append_nil]
    obtain ⟨b1, e1, g1⟩ := h1
    have hw : ∀ b2 : OBuf V F, b2.data = b1.data → ((∃ l' ∈ done ++ [a], c.keep l' = true) → ∃ b3, write c time b2 = some b3 ∧ b3.data = b1.data) ∧ ((¬ ∃ l' ∈ done ++ [a], c.keep l' = true) → write c time b2 = none) := by
      intro b2 e2
      have hp := hpack b2.data ((done ++ [a]).filter c.keep) (fun l hm => hd' l (List.mem_of_mem_filter hm)) (fun k => by rw [e2, g1])
      have hne : (done ++ [a]).filter c.keep ≠ [] ↔ ∃ l' ∈ done ++ [a], c.keep l' = true := by
        rw [ne_eq, List.filter_eq_nil_iff]; push Not; rfl
      rw [hne] at hp
      unfold write
      rw [if_pos hc]
      constructor
      · intro hx
        obtain ⟨f, hf⟩ := Option.isSome_iff_exists.mp (hp.mpr hx)
        rw [hf]; exact ⟨_, rfl, e2⟩
      · intro hx
        have : (c.pack b2.data).isSome = false := by
          rcases hq : (c.pack b2.data).isSome with _ | _
          · rfl
          · exact absurd (hp.mp hq) hx
        rw [Option.isSome_eq_false_iff, Option.isNone_iff_eq_none] at this
        rw [this]; rfl
    by_cases hsv : saves c a = true ∨ c.last a = true
    · by_cases hx : ∃ l' ∈ done ++ [a], c.keep l' = true
      · have ha : ∃ b3, afterStep c time b a = some b3 ∧ b3.data = b1.data := by
          unfold afterStep
          rw [e1, Option.bind_some]
          have h2 : ∃ b2, (if saves c a = true then write c time b1 else some b1) = some b2 ∧ b2.data = b1.data := by
            split_ifs; exacts [(hw b1 rfl).1 hx, ⟨b1, rfl, rfl⟩]
          obtain ⟨b2, e2, g2⟩ := h2
          rw [e2, Option.bind_some]
          split_ifs; exacts [(hw b2 g2).1 hx, ⟨b2, rfl, g2⟩]
        obtain ⟨b3, e3, g3⟩ := ha
        rw [e3]
        show (layers.foldlM (afterStep c time) b3).isSome ↔ _
        rw [ih (done ++ [a]) (fun l hm => hl l (List.mem_cons_of_mem _ hm)) hd' b3 (fun k => by rw [g3, g1])]
        constructor
        · intro hall pre l post e hs
          cases pre with
          | nil => simp only [List.nil_append, List.cons.injEq] at e; rw [List.append_nil, ← e.1]; exact hx
          | cons x pre =>
            simp only [List.cons_append, List.cons.injEq] at e
            have := hall pre l post e.2 hs
            rw [← e.1]
            simpa [List.append_assoc] using this
        · intro hall pre l post e hs
          have := hall (a :: pre) l post (by rw [e]; rfl) hs
          simpa [List.append_assoc] using this
      · have ha : afterStep c time b a = none := by
          unfold afterStep
          rw [e1, Option.bind_some]
          by_cases h2 : saves c a = true
          · rw [if_pos h2, (hw b1 rfl).2 hx]; rfl
          · have h3 : c.last a = true := by rcases hsv with h | h; exacts [absurd h h2, h]
            rw [if_neg h2, Option.bind_some, if_pos h3, (hw b1 rfl).2 hx]
        rw [ha]
        refine ⟨fun hf => ?_, fun hall => absurd (by simpa using hall [] a layers rfl hsv) hx⟩
        exact absurd hf (by simp)
    · have ha : afterStep c time b a = some b1 := by
        unfold afterStep
        rw [e1, Option.bind_some, if_neg (fun h => hsv (Or.inl h)), Option.bind_some, if_neg (fun h => hsv (Or.inr h))]
      rw [ha]
      show (layers.foldlM (afterStep c time) b1).isSome ↔ _
      rw [ih (done ++ [a]) (fun l hm => hl l (List.mem_cons_of_mem _ hm)) hd' b1 g1]
      constructor
      · intro hall pre l post e hs
        cases pre with
        | nil => simp only [List.nil_append, List.cons.injEq] at e; rw [← e.1] at hs; exact absurd hs hsv
        | cons x pre =>
          simp only [List.cons_append, List.cons.injEq] at e
          have := hall pre l post e.2 hs
          rw [← e.1]
          simpa [List.append_assoc] using this
      · intro hall pre l post e hs
        have := hall (a :: pre) l post (by rw [e]; rfl) hs
        simpa [List.append_assoc] using this

/-- ... and the whole step, with the save at its end. -/
theorem step_isSome (c : OCfg K L V F) (P : L → Prop) (hproc : ∀ l, P l → (c.proc l).isSome)
    (hpack : ∀ (d : Data V) (ks : List L), (∀ l ∈ ks, P l) → (∀ k, d.get k = ks.flatMap (contrib c k)) → ((c.pack d).isSome ↔ ks ≠ []))
    (s : K × List L) (hc : cond s.1 c.period c.dt) (hl : ∀ l ∈ s.2, P l) (b : OBuf V F) (hb : Empty b.data) :
    (stepDiag c b s).isSome ↔ (∃ l ∈ s.2, c.keep l = true) ∧ ∀ pre l post, s.2 = pre ++ l :: post → saves c l = true ∨ c.last l = true → ∃ l' ∈ pre ++ [l], c.keep l' = true := by
  have h1 := layers_isSome c P hproc hpack s.1 hc s.2 [] hl (by simp) b (fun k => by rw [hb k]; rfl)
  simp only [List.nil_append] at h1
  rw [← h1]
  unfold stepDiag
  cases hf : s.2.foldlM (afterStep c s.1) b with
  | none => simp
  | some b1 =>
    rw [Option.bind_some]
    have hd := ((layers_spec c s.1 s.2 b b1 hf).2 hc).1
    have hp := hpack b1.data (s.2.filter c.keep) (fun l hm => hl l (List.mem_of_mem_filter hm)) (fun k => by rw [hd, hb k, List.nil_append])
    have hne : s.2.filter c.keep ≠ [] ↔ ∃ l ∈ s.2, c.keep l = true := by
      rw [ne_eq, List.filter_eq_nil_iff]; push Not; rfl
    rw [hne] at hp
    unfold dump write
    rw [if_pos hc]
    simp only [Option.isSome_map, Option.isSome_some, and_true]
    exact hp

end Lcode.Diag.Old
