import Verif.Diag.Buffer
import Verif.Beam2D.Data
import Verif.Beam3D.Data

/-!
`ParticlesDiag` (C36, C37) and saved beams and plasmas (C39).

Model of lcode/diagnostics/particles.py, lcode/beam/beam_io.py:131-133 (`MemoryBeamDrain.save`), lcode/beam/data.py:109-134 (`BeamParticles.load`),
lcode/plasma/data.py:34-37 (`Arrays.save`), lcode/plasma/initialization.py:93-123 and lcode/plasma3d/initialization.py:417-460 (`load_plasma`). A `.npz` file is a
list of named arrays; reading a missing key raises (`none`).
-/

namespace Lcode.Diag

open Lcode.Py

variable {K : Type*} [Field K] [LinearOrder K] [IsStrictOrderedRing K] [FloorRing K] {B P : Type*}

/-- One file written by `ParticlesDiag`: the name carries the time (and for snapshots the layer) with two decimals. -/
inductive Saved (B P : Type*) where
  | beam (code : ℤ) (b : B)
  | electrons (code : ℤ) (p : P)
  | ions (code : ℤ) (p : P)
  | electronsAt (code xiCode : ℤ) (p : P)
  | ionsAt (code xiCode : ℤ) (p : P)
  deriving DecidableEq

/-- particles.py:13-18 after `pull_config` (:32-39); `xiPeriod = none` is `inf`. -/
structure PCfg (K : Type*) where
  saveBeam : Bool
  savePlasma : Bool
  period : K
  xiPeriod : Option K
  dt : K
  dxi : K

/-- particles.py:32-47: `pull_config`; with a rigid beam and `save_beam` it raises. -/
def pullP (saveBeam savePlasma rigid : Bool) (outputPeriod : K) (xiPeriod : Option K) (dt dxi : K) : Option (PCfg K) :=
  if rigid ∧ saveBeam then none
  else some ⟨saveBeam, savePlasma, adjust outputPeriod dt, xiPeriod.map fun p => adjust p dxi, dt, dxi⟩

/-- The plasma dictionary: the two sorts that the diagnostic asks for; a missing sort (KeyError) is skipped (particles.py:73-81, :99-107). -/
structure Plasma (P : Type*) where
  electrons : Option P
  ions : Option P

/-- particles.py:49-54. -/
def condP (c : PCfg K) (time xi : K) : Prop :=
  cond time c.period c.dt ∧ match c.xiPeriod with
    | some p => cond xi p c.dxi
    | none => False

instance (c : PCfg K) (time xi : K) : Decidable (condP c time xi) := by
  unfold condP
  cases c.xiPeriod <;> infer_instance

/-- particles.py:56-83: `after_step_dxi`. -/
def afterP (c : PCfg K) (time : K) (l : K × Plasma P) : List (Saved B P) :=
  if condP c time l.1 ∧ c.savePlasma then
    (l.2.electrons.map (Saved.electronsAt (pyRound (100 * time)) (pyRound (100 * l.1)))).toList ++
      (l.2.ions.map (Saved.ionsAt (pyRound (100 * time)) (pyRound (100 * l.1)))).toList
  else []

/-- particles.py:85-110: `dump`. -/
def dumpP (c : PCfg K) (first : Bool) (time : K) (beam : B) (p : Plasma P) : List (Saved B P) × Bool :=
  if ¬ first = true ∧ absRemainder time c.period > c.dt / 2 then ([], first)
  else
    ((if c.saveBeam then [Saved.beam (pyRound (100 * time)) beam] else []) ++
      (if c.savePlasma then (p.electrons.map (Saved.electrons (pyRound (100 * time)))).toList ++
        (p.ions.map (Saved.ions (pyRound (100 * time)))).toList else []), false)

/-- What the diagnostic sees of a time step: the time, the layers, and at the end the beam drain and the last plasma layer. -/
structure PStep (K B P : Type*) where
  time : K
  layers : List (K × Plasma P)
  beam : B
  last : Plasma P

def runP (c : PCfg K) : Bool → List (PStep K B P) → List (Saved B P)
  | _, [] => []
  | first, s :: rest =>
    s.layers.flatMap (afterP c s.time) ++ (dumpP c first s.time s.beam s.last).1 ++ runP c (dumpP c first s.time s.beam s.last).2 rest

/-- The beam files of a run, in order. -/
def beamFiles (l : List (Saved B P)) : List (ℤ × B) :=
  l.filterMap fun | .beam c b => some (c, b) | _ => none

/-- The plasma snapshots of a run, in order. -/
def snapshots (l : List (Saved B P)) : List (ℤ × ℤ × P) :=
  l.filterMap fun | .electronsAt c x p => some (c, x, p) | _ => none

theorem beamFiles_append (a b : List (Saved B P)) : beamFiles (a ++ b) = beamFiles a ++ beamFiles b := by
  unfold beamFiles; rw [List.filterMap_append]

theorem beamFiles_afterP (c : PCfg K) (time : K) (ls : List (K × Plasma P)) :
    beamFiles (ls.flatMap (afterP c time) : List (Saved B P)) = [] := by
  unfold beamFiles
  rw [List.filterMap_eq_nil_iff]
  intro a ha
  obtain ⟨l, _, hl⟩ := List.mem_flatMap.mp ha
  unfold afterP at hl
  split_ifs at hl with h
  · rcases List.mem_append.mp hl with hl | hl
    · rw [Option.mem_toList] at hl
      obtain ⟨p, _, rfl⟩ := Option.map_eq_some_iff.mp hl
      rfl
    · rw [Option.mem_toList] at hl
      obtain ⟨p, _, rfl⟩ := Option.map_eq_some_iff.mp hl
      rfl
  · cases hl

theorem beamFiles_dumpP (c : PCfg K) (first : Bool) (time : K) (beam : B) (p : Plasma P) (hs : c.saveBeam = true) :
    beamFiles (dumpP c first time beam p).1 = (if first = true ∨ cond time c.period c.dt then [(pyRound (100 * time), beam)] else []) ∧
      (dumpP c first time beam p).2 = (if first = true ∨ cond time c.period c.dt then false else first) := by
  have hx : ∀ (cond' : Bool) (a b : Option P), beamFiles ((if cond' then (a.map (Saved.electrons (B := B) (pyRound (100 * time)))).toList ++
        (b.map (Saved.ions (pyRound (100 * time)))).toList else []) : List (Saved B P)) = [] := by
    intro cond' a b
    cases cond' <;> cases a <;> cases b <;> rfl
  unfold dumpP
  by_cases h : first = true ∨ cond time c.period c.dt
  · have hn : ¬ (¬ first = true ∧ absRemainder time c.period > c.dt / 2) := by
      rintro ⟨h1, h2⟩
      rcases h with h | h
      · exact h1 h
      · exact absurd h (not_le.mpr h2)
    rw [if_neg hn, if_pos h, if_pos h, if_pos hs]
    refine ⟨?_, rfl⟩
    show beamFiles ([Saved.beam (pyRound (100 * time)) beam] ++ _) = _
    rw [beamFiles_append, hx]; rfl
  · have hn : ¬ first = true ∧ absRemainder time c.period > c.dt / 2 := by
      rw [not_or] at h
      exact ⟨h.1, not_le.mp h.2⟩
    rw [if_pos hn, if_neg h, if_neg h]
    exact ⟨rfl, rfl⟩

/-- C36, C37: for every run, with `save_beam`, the beam files are those of the first step (rank 0) and of the steps within half a time step of a multiple of the period, in order, each with
the whole beam at the end of its own step. -/
theorem beam_files_of_run (c : PCfg K) (hs : c.saveBeam = true) (first : Bool) (hist : List (PStep K B P)) :
    beamFiles (runP c first hist) =
      match first, hist with
      | true, s :: rest => (pyRound (100 * s.time), s.beam) ::
          (rest.filter fun s => decide (cond s.time c.period c.dt)).map fun s => (pyRound (100 * s.time), s.beam)
      | _, hist => (hist.filter fun s => decide (cond s.time c.period c.dt)).map fun s => (pyRound (100 * s.time), s.beam) := by
  have later : ∀ hist : List (PStep K B P), beamFiles (runP c false hist) =
      (hist.filter fun s => decide (cond s.time c.period c.dt)).map fun s => (pyRound (100 * s.time), s.beam) := by
    intro hist
    induction hist with
    | nil => rfl
    | cons s rest ih =>
      rw [runP, beamFiles_append, beamFiles_append, beamFiles_afterP, (beamFiles_dumpP c false s.time s.beam s.last hs).1,
        (beamFiles_dumpP c false s.time s.beam s.last hs).2]
      by_cases h : cond s.time c.period c.dt
      · rw [if_pos (Or.inr h), if_pos (Or.inr h), ih, List.filter_cons_of_pos (by simpa using h)]; rfl
      · rw [if_neg (by simpa using h), if_neg (by simpa using h), ih, List.filter_cons_of_neg (by simpa using h)]; rfl
  cases first with
  | false => exact later hist
  | true =>
    cases hist with
    | nil => rfl
    | cons s rest =>
      rw [runP, beamFiles_append, beamFiles_append, beamFiles_afterP, (beamFiles_dumpP c true s.time s.beam s.last hs).1,
        (beamFiles_dumpP c true s.time s.beam s.last hs).2, if_pos (Or.inl rfl), if_pos (Or.inl rfl), later]
      rfl

theorem snapshots_append (a b : List (Saved B P)) : snapshots (a ++ b) = snapshots a ++ snapshots b := by
  unfold snapshots; rw [List.filterMap_append]

theorem snapshots_dumpP (c : PCfg K) (first : Bool) (time : K) (beam : B) (p : Plasma P) : snapshots (dumpP c first time beam p).1 = [] := by
  unfold dumpP
  split_ifs <;> obtain ⟨a, b⟩ := p <;> cases a <;> cases b <;> rfl

/-- Plasma snapshots are written only when a finite `saving_xi_period` was given, and then for exactly the layers near its multiples, at the output times of the period. -/
theorem snapshots_of_run (c : PCfg K) (first : Bool) (hist : List (PStep K B P)) :
    snapshots (runP c first hist) = hist.flatMap fun s => s.layers.flatMap fun l =>
      if c.savePlasma = true ∧ condP c s.time l.1 then (l.2.electrons.map fun p => (pyRound (100 * s.time), pyRound (100 * l.1), p)).toList else [] := by
  induction hist generalizing first with
  | nil => rfl
  | cons s rest ih =>
    rw [runP, snapshots_append, snapshots_append, snapshots_dumpP, ih, List.append_nil, List.flatMap_cons]
    congr 1
    induction s.layers with
    | nil => rfl
    | cons l ls ihl =>
      rw [List.flatMap_cons, snapshots_append, ihl, List.flatMap_cons]
      congr 1
      unfold afterP
      by_cases h : condP c s.time l.1 ∧ c.savePlasma = true
      · rw [if_pos h, if_pos ⟨h.2, h.1⟩]
        obtain ⟨xi, e, i⟩ := l
        cases e <;> cases i <;> rfl
      · rw [if_neg h, if_neg (fun h' => h ⟨h'.2, h'.1⟩)]; rfl

theorem no_snapshots (c : PCfg K) (hc : c.xiPeriod = none) (first : Bool) (hist : List (PStep K B P)) : snapshots (runP c first hist) = [] := by
  rw [snapshots_of_run]
  rw [List.flatMap_eq_nil_iff]
  intro s _
  rw [List.flatMap_eq_nil_iff]
  intro l _
  rw [if_neg]
  rintro ⟨_, _, h⟩
  rw [hc] at h
  exact h

/-- The files of the last plasma layer of a run (electrons, or ions if `ions`), in order. -/
def lastFiles (ions : Bool) (l : List (Saved B P)) : List (ℤ × P) :=
  l.filterMap fun
    | .electrons c p => if ions then none else some (c, p)
    | .ions c p => if ions then some (c, p) else none
    | _ => none

/-- The ion snapshots of a run, in order. -/
def ionSnapshots (l : List (Saved B P)) : List (ℤ × ℤ × P) :=
  l.filterMap fun | .ionsAt c x p => some (c, x, p) | _ => none

/-- The plasma of the chosen sort. -/
def Plasma.sort (p : Plasma P) (ions : Bool) : Option P := if ions then p.ions else p.electrons

theorem lastFiles_append (ions : Bool) (a b : List (Saved B P)) : lastFiles ions (a ++ b) = lastFiles ions a ++ lastFiles ions b := by
  unfold lastFiles; rw [List.filterMap_append]

theorem lastFiles_afterP (ions : Bool) (c : PCfg K) (time : K) (ls : List (K × Plasma P)) :
    lastFiles ions (ls.flatMap (afterP c time) : List (Saved B P)) = [] := by
  unfold lastFiles
  rw [List.filterMap_eq_nil_iff]
  intro a ha
  obtain ⟨l, _, hl⟩ := List.mem_flatMap.mp ha
  unfold afterP at hl
  split_ifs at hl with h
  · rcases List.mem_append.mp hl with hl | hl
    · rw [Option.mem_toList] at hl
      obtain ⟨p, _, rfl⟩ := Option.map_eq_some_iff.mp hl
      rfl
    · rw [Option.mem_toList] at hl
      obtain ⟨p, _, rfl⟩ := Option.map_eq_some_iff.mp hl
      rfl
  · cases hl

theorem lastFiles_dumpP (ions : Bool) (c : PCfg K) (first : Bool) (time : K) (beam : B) (p : Plasma P) (hs : c.savePlasma = true) :
    lastFiles ions (dumpP c first time beam p).1 = (if first = true ∨ cond time c.period c.dt then ((p.sort ions).map fun x => (pyRound (100 * time), x)).toList else []) ∧
      (dumpP c first time beam p).2 = (if first = true ∨ cond time c.period c.dt then false else first) := by
  unfold dumpP
  by_cases h : first = true ∨ cond time c.period c.dt
  · have hn : ¬ (¬ first = true ∧ absRemainder time c.period > c.dt / 2) := by
      rintro ⟨h1, h2⟩
      rcases h with h | h
      · exact h1 h
      · exact absurd h (not_le.mpr h2)
    rw [if_neg hn, if_pos h, if_pos h, if_pos hs]
    refine ⟨?_, rfl⟩
    obtain ⟨e, i⟩ := p
    cases c.saveBeam <;> cases e <;> cases i <;> cases ions <;> rfl
  · have hn : ¬ first = true ∧ absRemainder time c.period > c.dt / 2 := by
      rw [not_or] at h
      exact ⟨h.1, not_le.mp h.2⟩
    rw [if_pos hn, if_neg h, if_neg h]
    exact ⟨rfl, rfl⟩

/-- C36, C37: with `save_plasma`, the files of the last plasma layer (of each of the two sorts) are those of the first step (rank 0) and of the steps within half a time step of a multiple of
the period, in order, each with the plasma at the end of its own step; a sort that the plasma does not have is skipped. -/
theorem plasma_files_of_run (ions : Bool) (c : PCfg K) (hs : c.savePlasma = true) (first : Bool) (hist : List (PStep K B P)) :
    lastFiles ions (runP c first hist) =
      match first, hist with
      | true, s :: rest => (s :: rest.filter fun s => decide (cond s.time c.period c.dt)).flatMap fun s => ((s.last.sort ions).map fun x => (pyRound (100 * s.time), x)).toList
      | _, hist => (hist.filter fun s => decide (cond s.time c.period c.dt)).flatMap fun s => ((s.last.sort ions).map fun x => (pyRound (100 * s.time), x)).toList := by
  have later : ∀ hist : List (PStep K B P), lastFiles ions (runP c false hist) =
      (hist.filter fun s => decide (cond s.time c.period c.dt)).flatMap fun s => ((s.last.sort ions).map fun x => (pyRound (100 * s.time), x)).toList := by
    intro hist
    induction hist with
    | nil => rfl
    | cons s rest ih =>
      rw [runP, lastFiles_append, lastFiles_append, lastFiles_afterP, (lastFiles_dumpP ions c false s.time s.beam s.last hs).1,
        (lastFiles_dumpP ions c false s.time s.beam s.last hs).2]
      by_cases h : cond s.time c.period c.dt
      · rw [if_pos (Or.inr h), if_pos (Or.inr h), ih, List.filter_cons_of_pos (by simpa using h), List.flatMap_cons, List.nil_append]
      · rw [if_neg (by simpa using h), if_neg (by simpa using h), ih, List.filter_cons_of_neg (by simpa using h)]; rfl
  cases first with
  | false => exact later hist
  | true =>
    cases hist with
    | nil => rfl
    | cons s rest =>
      rw [runP, lastFiles_append, lastFiles_append, lastFiles_afterP, (lastFiles_dumpP ions c true s.time s.beam s.last hs).1,
        (lastFiles_dumpP ions c true s.time s.beam s.last hs).2, if_pos (Or.inl rfl), if_pos (Or.inl rfl), later]
      rfl

/-- The ion snapshots: the same layers and times as the electron snapshots. -/
theorem ion_snapshots_of_run (c : PCfg K) (first : Bool) (hist : List (PStep K B P)) :
    ionSnapshots (runP c first hist) = hist.flatMap fun s => s.layers.flatMap fun l =>
      if c.savePlasma = true ∧ condP c s.time l.1 then (l.2.ions.map fun p => (pyRound (100 * s.time), pyRound (100 * l.1), p)).toList else [] := by
  have happ : ∀ a b : List (Saved B P), ionSnapshots (a ++ b) = ionSnapshots a ++ ionSnapshots b := by
    intro a b; unfold ionSnapshots; rw [List.filterMap_append]
  have hd : ∀ (first : Bool) (time : K) (beam : B) (p : Plasma P), ionSnapshots (dumpP c first time beam p).1 = [] := by
    intro first time beam p
    unfold dumpP
    split_ifs <;> obtain ⟨a, b⟩ := p <;> cases a <;> cases b <;> rfl
  induction hist generalizing first with
  | nil => rfl
  | cons s rest ih =>
    rw [runP, happ, happ, hd, ih, List.append_nil, List.flatMap_cons]
    congr 1
    induction s.layers with
    | nil => rfl
    | cons l ls ihl =>
      rw [List.flatMap_cons, happ, ihl, List.flatMap_cons]
      congr 1
      unfold afterP
      by_cases h : condP c s.time l.1 ∧ c.savePlasma = true
      · rw [if_pos h, if_pos ⟨h.2, h.1⟩]
        obtain ⟨xi, e, i⟩ := l
        cases e <;> cases i <;> rfl
      · rw [if_neg h, if_neg (fun h' => h ⟨h'.2, h'.1⟩)]; rfl

/-- The xi condition of a snapshot, unfolded: the time is near a multiple of the saving period and the layer near a multiple of the (adjusted) xi period. -/
theorem snapshot_layers {P dt dxi xp : K} (hP : 0 < adjust P dt) (hX : 0 < adjust xp dxi) (sb sp rigid : Bool) (c : PCfg K)
    (hc : pullP sb sp rigid P (some xp) dt dxi = some c) (time xi : K) :
    condP c time xi ↔ (∃ m : ℤ, |time - m * adjust P dt| ≤ dt / 2) ∧ ∃ m : ℤ, |xi - m * adjust xp dxi| ≤ dxi / 2 := by
  unfold pullP at hc
  split_ifs at hc
  have := Option.some.inj hc
  subst this
  unfold condP
  rw [cond_iff hP]
  simp only [Option.map_some]
  rw [cond_iff hX]

/-- C37: asking to save a rigid beam is rejected when the diagnostic is configured. -/
theorem rigid_rejected (savePlasma : Bool) (P : K) (xp : Option K) (dt dxi : K) : pullP true savePlasma true P xp dt dxi = none := by
  simp [pullP]

/-- The hypotheses are met: two output steps of three. -/
example : beamFiles (runP (⟨true, true, 30, none, 10, 1⟩ : PCfg ℚ) true
    [⟨10, [(0, ⟨some 1, none⟩)], [7], ⟨some 1, none⟩⟩, ⟨20, [], [8], ⟨some 1, none⟩⟩, ⟨30, [], [9], ⟨some 1, none⟩⟩] : List (Saved (List ℕ) ℕ)) = [(1000, [7]), (3000, [9])] := by
  decide +kernel

/-! ### C39: saved beams -/

section io

variable {F : Type*}

/-- An array in a `.npz` file: floats or integers. -/
inductive Arr (F : Type*) where
  | f (l : List F)
  | i (l : List ℤ)

abbrev Npz (F : Type*) := List (String × Arr F)

/-- `loaded[key]` of a float array. -/
def Npz.floats (a : Npz F) (k : String) : Option (List F) :=
  match a.lookup k with
  | some (.f l) => some l
  | _ => none

def Npz.ints (a : Npz F) (k : String) : Option (List ℤ) :=
  match a.lookup k with
  | some (.i l) => some l
  | _ => none

/-- beam/beam_io.py:131-133: the file written by the 2D beam drain (used by `ParticlesDiag`). -/
def saveDrain2 (d : Beam2D.Drain F) : Npz F :=
  let s := d.beamSlice
  [("xi", .f (s.map (·.xi))), ("r", .f (s.map (·.r))), ("pz", .f (s.map (·.pz))), ("pr", .f (s.map (·.pr))), ("M", .f (s.map (·.M))),
   ("q_m", .f (s.map (·.qm))), ("q_norm", .f (s.map (·.qnorm))), ("id", .i (s.map (·.id)))]

/-- `np.zeros(size, dtype)` filled column by column, beam/data.py:111-120: assigning a column of another length raises. -/
def particlesOf (xi r pr pz M qm qnorm : List F) (id : List ℤ) : Option (List (Beam2D.Particle F)) :=
  if r.length = xi.length ∧ pr.length = xi.length ∧ pz.length = xi.length ∧ M.length = xi.length ∧ qm.length = xi.length ∧ qnorm.length = xi.length ∧ id.length = xi.length then
    some ((xi.zip (r.zip (pr.zip (pz.zip (M.zip (qm.zip (qnorm.zip id))))))).map fun t =>
      ⟨t.1, t.2.1, t.2.2.2.1, t.2.2.1, t.2.2.2.2.1, t.2.2.2.2.2.1, t.2.2.2.2.2.2.1, t.2.2.2.2.2.2.2⟩)
  else none

/-- beam/data.py:109-134: `BeamParticles.load`. -/
def load2 [Zero F] (a : Npz F) : Option (Beam2D.Beam F) :=
  (a.floats "xi").bind fun xi => (a.floats "r").bind fun r => (a.floats "p_r").bind fun pr => (a.floats "p_z").bind fun pz => (a.floats "M").bind fun M =>
  (a.floats "q_m").bind fun qm => (a.floats "q_norm").bind fun qnorm => (a.ints "id").bind fun id => (particlesOf xi r pr pz M qm qnorm id).map fun ps =>
    ⟨ps, List.replicate ps.length 0, List.replicate ps.length 1, List.replicate ps.length false⟩

/-- C39, refutation: no beam file written by the 2D program can be loaded by `load_beamfile`: for every beam the loader raises a KeyError (it looks for `p_r` and `p_z`, the file has `pr` and `pz`). -/
theorem load2_of_saved_raises [Zero F] (d : Beam2D.Drain F) : load2 (saveDrain2 d) = none := by
  simp [load2, saveDrain2, Npz.floats, List.lookup]

/-- A file with the same columns under the names of the particle table. -/
def saveTable2 (s : List (Beam2D.Particle F)) : Npz F :=
  [("xi", .f (s.map (·.xi))), ("r", .f (s.map (·.r))), ("p_z", .f (s.map (·.pz))), ("p_r", .f (s.map (·.pr))), ("M", .f (s.map (·.M))),
   ("q_m", .f (s.map (·.qm))), ("q_norm", .f (s.map (·.qnorm))), ("id", .i (s.map (·.id)))]

theorem particlesOf_columns (s : List (Beam2D.Particle F)) :
    particlesOf (s.map (·.xi)) (s.map (·.r)) (s.map (·.pr)) (s.map (·.pz)) (s.map (·.M)) (s.map (·.qm)) (s.map (·.qnorm)) (s.map (·.id)) = some s := by
  unfold particlesOf
  rw [if_pos (by simp)]
  congr 1
  induction s with
  | nil => rfl
  | cons p s ih => simp only [List.map_cons, List.zip_cons_cons, ih]

/-- C39: a file with the columns under the names of the particle table (for instance written by the user) is loaded exactly: the same particles, in the same order, ready for a time step. -/
theorem load2_table [Zero F] (s : List (Beam2D.Particle F)) :
    load2 (saveTable2 s) = some ⟨s, List.replicate s.length 0, List.replicate s.length 1, List.replicate s.length false⟩ := by
  have h := particlesOf_columns s
  simp [load2, saveTable2, Npz.floats, Npz.ints, List.lookup, h]

/-- The mismatch of the two names is the only obstacle: with `pr`, `pz` renamed the saved file loads to the drained particles. -/
theorem load2_renamed [Zero F] (d : Beam2D.Drain F) :
    load2 ((saveDrain2 d).map fun e => (if e.1 = "pz" then "p_z" else if e.1 = "pr" then "p_r" else e.1, e.2)) =
      some ⟨d.beamSlice, List.replicate d.beamSlice.length 0, List.replicate d.beamSlice.length 1, List.replicate d.beamSlice.length false⟩ := by
  rw [← load2_table]; rfl

/-- C39, 3D: the file written by the 3D drain (beam3d/beam_io.py:78-79, beam3d/data.py:80-84) loads to the same particles: every column, in the same order, ready for a time step. -/
theorem load3_of_saved {F : Type} [Zero F] (b : Beam3D.Beam F) :
    Beam3D.Beam.load b.save = some { b with dt := List.replicate b.id.length 0, remaining := List.replicate b.id.length 0 } :=
  Beam3D.load_save b

/-! ### Saved plasma -/

/-- plasma/data.py:34-37, plasma3d/data.py:31-34 with the attributes given in plasma/initialization.py:58-64: the keys of a saved 2D plasma sort. -/
def plasmaKeys2 : List String := ["r", "p_r", "p_f", "p_z", "q", "m", "age"]

/-- plasma3d/initialization.py:341-350. -/
def plasmaKeys3 : List String := ["x_init", "y_init", "x_offt", "y_offt", "px", "py", "pz", "q", "m", "dx_chaotic", "dy_chaotic", "dx_chaotic_perp", "dy_chaotic_perp"]

/-- The first keys that `load_plasma` reads: plasma/initialization.py:98-100, plasma3d/initialization.py:424-429. -/
def neededFields2 : List String := ["E_r", "E_f", "E_z", "B_f", "B_z"]
def neededFields3 : List String := ["Ex", "Ey", "Ez", "Bx", "By", "Bz", "Phi"]

/-- `state[k]` for each needed key: raises unless all are there. -/
def loadFields (a : Npz F) (ks : List String) : Option (List (Arr F)) := ks.mapM fun k => a.lookup k

/-- C39, refutation for plasma states: no plasma file written by `ParticlesDiag` (in either geometry, whatever the arrays) can be loaded as an external plasma state: the loader needs the fields, which are
not in the file, and raises a KeyError. -/
theorem plasma_file_not_loadable (a : Npz F) (h : (∀ k ∈ a.map Prod.fst, k ∈ plasmaKeys2) ∨ ∀ k ∈ a.map Prod.fst, k ∈ plasmaKeys3) :
    loadFields a neededFields2 = none ∧ loadFields a neededFields3 = none := by
  have hl : ∀ k, k ∉ a.map Prod.fst → a.lookup k = none := by
    intro k hk
    rw [List.lookup_eq_none_iff]
    intro p hp
    simp only [bne_iff_ne, ne_eq, beq_eq_false_iff_ne]
    rintro rfl
    exact hk (List.mem_map_of_mem hp)
  have h1 : a.lookup "E_r" = none := hl _ (by rcases h with h | h <;> exact fun hm => absurd (h _ hm) (by decide))
  have h2 : a.lookup "Ex" = none := hl _ (by rcases h with h | h <;> exact fun hm => absurd (h _ hm) (by decide))
  constructor
  · simp [loadFields, neededFields2, List.mapM_cons, h1]
  · simp [loadFields, neededFields3, List.mapM_cons, h2]

/-- The hypotheses are met: a saved 2D sort with one particle. -/
example : (∀ k ∈ ([("r", .f [1]), ("p_r", .f [0]), ("p_f", .f [0]), ("p_z", .f [0]), ("q", .f [-1]), ("m", .f [1]), ("age", .f [0])] : Npz ℚ).map Prod.fst, k ∈ plasmaKeys2) := by
  decide

end io

end Lcode.Diag
