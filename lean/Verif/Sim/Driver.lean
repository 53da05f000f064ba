import Verif.Config.Props

/-!
Model of lcode/simulation.py: the life of a Simulation object. Property C50.

Simplifications (all of this file):
* the configuration dictionary handed to the constructor and edited by the user afterwards (`sim.config[...] = ...`) is a `Table`;
  the Config object built from it, its adjustments and its reader methods are those of Verif/Config/Model.lean (exact rationals for floats);
* what a time step computes is the subject of C04-C49; here a time step is only recorded, with the time and the configurations its parts were built from;
* `print` and the file written by `dump` are not modelled (the file is the subject of C51), nor is the import of cupy.
-/

namespace Lcode.Sim

open Lcode.Py Lcode.Cfg

/-! ### Model -/

/-- Exceptions: another geometry than the first one (simulation.py:97), an unknown geometry (:120-121), no fast grid size (config.py:216), ZeroDivisionError (:200), a beam file for a rigid beam (:137-138). -/
inductive Err where
  | geometryChanged
  | wrongGeometry
  | noGrid
  | zeroTimeStep
  | rigidBeamFile
  deriving DecidableEq

/-- Where the beam of a transport comes from: generate_beam with a configuration (simulation.py:229-231), a file (:233), the charge distribution of a rigid beam (:214). -/
inductive Origin where
  | generated (cfg : Config)
  | file (path : String)
  | rigid

/-- MPIBeamTransport as far as simulation.py sees it: the number of steps and the configuration it was created with (mpi/transport.py:16, mpi/beam_io.py:13), and its beam. -/
structure Transport where
  steps : ℤ
  cfg : Config
  origin : Origin

/-- The attributes of a Simulation object, simulation.py:55-76 and :82-88. `diags` holds the output periods of its diagnostics objects. -/
structure Obj where
  user : Table
  geometry : Option String
  cfg : Config
  timeLimit : ℚ
  dt : ℚ
  rigid : Bool
  loaded : Option String
  transport : Option Transport
  time : ℚ
  external : Bool
  diags : List ℚ

/-- One time step that was started: the physical time, the configuration the plasma solver, the beam pusher and init_plasma were built from, the one the beam source and the beam drain were built from,
the beam they started with, and whether the plasma state is the stored one. -/
structure TimeStep where
  time : ℚ
  solver : Config
  source : Config
  origin : Origin
  stored : Bool

variable (env : Env) (defaults : List (String × PyVal))

/-- `if self.__output_period < self.__time_step_size: ...`, FXi.py:83-84 and the same lines of the other diagnostics. -/
def pullDiag (dt period : ℚ) : ℚ := if period < dt then dt else period

/-- The attributes read from the new Config, simulation.py:82-91. -/
def Obj.read (o : Obj) : Obj :=
  let c := Config.init env defaults true (some o.user)
  { o with cfg := c, timeLimit := c.getfloat env "time-limit", dt := c.getfloat env "time-step", rigid := c.getbool env "rigid-beam" }

/-- The choice of the geometry and the configuration of the diagnostics, simulation.py:99-125. -/
def Obj.build (o : Obj) : Obj × Option Err :=
  if o.geometry = some "3d" then
    match o.cfg.adjust3d env with
    | none => (o, some .noGrid)
    | some c => ({ o with cfg := c, diags := o.diags.map (pullDiag o.dt) }, none)
  else if o.geometry = some "2d" then ({ o with diags := o.diags.map (pullDiag o.dt) }, none)
  else (o, some .wrongGeometry)

/-- __pull_config, simulation.py:80-125. On an exception the attributes assigned before it keep their new values. -/
def Obj.pull (o : Obj) : Obj × Option Err :=
  let o := o.read env defaults
  let g := (o.cfg.get env "geometry").toLower
  match o.geometry with
  | none => Obj.build env { o with geometry := some g }
  | some g0 => if g0 = g then Obj.build env o else (o, some .geometryChanged)

/-- The object before the first __pull_config, simulation.py:55-74. -/
def blank (user : Table) (diags : List ℚ) : Obj := ⟨user, none, ⟨[], .numpy⟩, 0, 0, false, none, none, 0, false, diags⟩

/-- `Simulation(config, diagnostics=...)`, simulation.py:33-78: an exception leaves no object behind. -/
def create (user : Table) (diags : List ℚ) : Except Err Obj :=
  match (blank user diags).pull env defaults with
  | (o, none) => .ok o
  | (_, some e) => .error e

/-- steps_per_node, mpi/transport.py:50-51. -/
def stepsPerNode (steps size rank : ℤ) : ℤ := steps / size + (if steps % size > rank then 1 else 0)

/-- The number of steps a call of `step` asks for, simulation.py:195-207 (`none`: ZeroDivisionError). -/
def Obj.wanted (o : Obj) (nSteps : Option ℤ) : Option ℤ :=
  if o.rigid then some 1
  else match nSteps with
    | none => if o.dt = 0 then none else some (pyInt (o.timeLimit / o.dt))
    | some n => some n

/-- The transport used by a call of `step`, simulation.py:210-242. -/
def Obj.useTransport (o : Obj) (n : ℤ) : Transport :=
  if o.rigid then ⟨n, o.cfg, .rigid⟩
  else match o.transport with
    | some t => t
    | none => ⟨n, o.cfg, match o.loaded with | some p => .file p | none => .generated o.cfg⟩

/-- The loop over the time steps of one process, simulation.py:243-266. -/
def loopTimes (dt : ℚ) (size : ℤ) : ℕ → ℚ → List ℚ
  | 0, _ => []
  | n + 1, t => t :: loopTimes dt size n (t + dt * size)

/-- `step(N_steps)` on rank `rank` of `size` processes, simulation.py:170-271. -/
def Obj.step (size rank : ℤ) (o : Obj) (nSteps : Option ℤ) : Obj × List TimeStep × Option Err :=
  match o.pull env defaults with
  | (o, some e) => (o, [], some e)
  | (o, none) =>
    match o.wanted nSteps with
    | none => (o, [], some .zeroTimeStep)
    | some n =>
      let t := o.useTransport n
      let count := (stepsPerNode t.steps size rank).toNat
      let ts := loopTimes o.dt size count (o.dt * (rank + 1))
      ({ o with transport := some t, timeLimit := if o.rigid ∨ nSteps = none then o.timeLimit else n * o.dt + o.time, time := o.dt * (rank + 1) + o.dt * size * count },
        ts.map fun x => ⟨x, o.cfg, t.cfg, t.origin, o.external⟩, none)

/-- What a user does with a Simulation object: `sim.config[k] = v`, `sim.step(n)`, `sim.load_beamfile(path)` (simulation.py:136-144), `sim.external_plasmastate = b`. -/
inductive Act where
  | set (k : String) (v : PyVal)
  | step (n : Option ℤ)
  | load (path : String)
  | external (b : Bool)

/-- One user action. -/
def Obj.act (size rank : ℤ) (o : Obj) : Act → Obj × List TimeStep × Option Err
  | .set k v => ({ o with user := o.user.assign k v }, [], none)
  | .step n => o.step env defaults size rank n
  | .load p => if o.rigid then (o, [], some .rigidBeamFile) else ({ o with loaded := some p }, [], none)
  | .external b => ({ o with external := b }, [], none)

/-- A history of user actions; exceptions are caught and the object is used further. Returns the object and, for every action, the time steps it made and the exception it raised. -/
def Obj.run (size rank : ℤ) (o : Obj) : List Act → Obj × List (List TimeStep × Option Err)
  | [] => (o, [])
  | a :: as =>
    let r := o.act env defaults size rank a
    let s := Obj.run size rank r.1 as
    (s.1, r.2 :: s.2)

/-- xi_steps of the 2D and the 3D loop (push_solver.py:39-40 and :203-205) and the number of radial nodes in 2D (:34-38). -/
def layers2D (length dxi : ℚ) : ℤ := pyInt (length / dxi)
def layers3D (length dxi : ℚ) : ℤ := pyRound (length / dxi)
def nodes2D (c : Config) : ℤ :=
  if c.getint env "window-width-steps" ≠ 0 then c.getint env "window-width-steps" else pyInt (c.getfloat env "window-width" / c.getfloat env "transverse-step") + 1

/-! ### Specification -/

/-- The configuration that a dictionary stands for: the defaults overwritten by it, and in 3d adjusted once. -/
def effective (user : Table) : Option Config :=
  if (Config.get env (Config.init env defaults true (some user)) "geometry").toLower = "3d" then (Config.init env defaults true (some user)).adjust3d env
  else some (Config.init env defaults true (some user))

/-- The geometry a dictionary asks for, in lower case. -/
def asked (user : Table) : String := (Config.get env (Config.init env defaults true (some user)) "geometry").toLower

/-- The dictionary after the actions so far. -/
def edited (user : Table) : List Act → Table
  | [] => user
  | .set k v :: as => edited (user.assign k v) as
  | _ :: as => edited user as

/-! ### C50 -/

theorem build_ok (o o' : Obj) (g : String) (hg : o.geometry = some g) (h : o.build env = (o', none)) :
    (g = "3d" ∨ g = "2d") ∧ (if g = "3d" then o.cfg.adjust3d env else some o.cfg) = some o'.cfg ∧ o' = { o with cfg := o'.cfg, diags := o.diags.map (pullDiag o.dt) } := by
  unfold Obj.build at h
  rw [hg] at h
  simp only [Option.some.injEq] at h
  by_cases h3 : g = "3d"
  · rw [if_pos h3] at h
    cases ha : o.cfg.adjust3d env with
    | none => rw [ha] at h; simp at h
    | some c =>
      rw [ha] at h
      simp only [Prod.mk.injEq, and_true] at h
      subst h
      rw [if_pos h3]
      refine ⟨Or.inl h3, rfl, ?_⟩
      simp only [Obj.mk.injEq, true_and, and_true]
      exact hg.symm
  · rw [if_neg h3] at h
    by_cases h4 : g = "2d"
    · rw [if_pos h4] at h
      simp only [Prod.mk.injEq, and_true] at h
      subst h
      rw [if_neg h3]
      refine ⟨Or.inr h4, rfl, ?_⟩
      simp only [Obj.mk.injEq, true_and, and_true]
      exact hg.symm
    · rw [if_neg h4] at h; simp at h

theorem pull_ok (o o' : Obj) (h : o.pull env defaults = (o', none)) :
    effective env defaults o.user = some o'.cfg ∧ o'.geometry = some (asked env defaults o.user) ∧ (o.geometry = none ∨ o.geometry = some (asked env defaults o.user)) ∧
    (asked env defaults o.user = "3d" ∨ asked env defaults o.user = "2d") ∧
    o' = { o.read env defaults with cfg := o'.cfg, geometry := o'.geometry, diags := o.diags.map (pullDiag (o.read env defaults).dt) } := by
  unfold Obj.pull at h
  simp only at h
  have hu : ((o.read env defaults).cfg.get env "geometry").toLower = asked env defaults o.user := rfl
  have he : effective env defaults o.user = if asked env defaults o.user = "3d" then (o.read env defaults).cfg.adjust3d env else some (o.read env defaults).cfg := rfl
  have hg : (o.read env defaults).geometry = o.geometry := rfl
  rw [hu] at h
  cases hgo : o.geometry with
  | none =>
    rw [hg, hgo] at h
    obtain ⟨a, b, d⟩ := build_ok env _ o' (asked env defaults o.user) rfl h
    refine ⟨by rw [he]; exact b, by rw [d], Or.inl rfl, a, ?_⟩
    rw [d]
    rfl
  | some g0 =>
    rw [hg, hgo] at h
    simp only at h
    by_cases hgg : g0 = asked env defaults o.user
    · rw [if_pos hgg] at h
      have hr : (o.read env defaults).geometry = some (asked env defaults o.user) := by rw [hg, hgo, hgg]
      obtain ⟨a, b, d⟩ := build_ok env _ o' (asked env defaults o.user) hr h
      refine ⟨by rw [he]; exact b, by rw [d]; exact hr, Or.inr (by rw [hgg]), a, ?_⟩
      rw [d]
      rfl
    · rw [if_neg hgg] at h; simp at h

theorem build_frame (o : Obj) : (o.build env).1.user = o.user ∧ (o.build env).1.geometry = o.geometry ∧ (o.build env).1.transport = o.transport ∧ (o.build env).1.loaded = o.loaded ∧ (o.build env).1.time = o.time ∧
    (o.build env).1.external = o.external ∧ (o.build env).1.dt = o.dt ∧ (o.build env).1.rigid = o.rigid ∧ ((o.build env).1.diags = o.diags ∨ (o.build env).1.diags = o.diags.map (pullDiag o.dt)) := by
  unfold Obj.build
  split_ifs
  · cases o.cfg.adjust3d env with
    | none => exact ⟨rfl, rfl, rfl, rfl, rfl, rfl, rfl, rfl, Or.inl rfl⟩
    | some c => exact ⟨rfl, rfl, rfl, rfl, rfl, rfl, rfl, rfl, Or.inr rfl⟩
  · exact ⟨rfl, rfl, rfl, rfl, rfl, rfl, rfl, rfl, Or.inr rfl⟩
  · exact ⟨rfl, rfl, rfl, rfl, rfl, rfl, rfl, rfl, Or.inl rfl⟩

/-- What __pull_config never changes, and what it does to the diagnostics, whether it raises or not. -/
theorem pull_frame (o : Obj) : (o.pull env defaults).1.user = o.user ∧ (o.pull env defaults).1.transport = o.transport ∧ (o.pull env defaults).1.loaded = o.loaded ∧ (o.pull env defaults).1.time = o.time ∧
    (o.pull env defaults).1.external = o.external ∧ (∀ g, o.geometry = some g → (o.pull env defaults).1.geometry = some g) ∧
    ((o.pull env defaults).1.diags = o.diags ∨ (o.pull env defaults).1.diags = o.diags.map (pullDiag ((Config.init env defaults true (some o.user)).getfloat env "time-step"))) := by
  unfold Obj.pull
  simp only
  have hg : (o.read env defaults).geometry = o.geometry := rfl
  cases hgo : o.geometry with
  | none =>
    rw [hg, hgo]
    obtain ⟨b1, b2, b3, b4, b5, b6, b7, b8, b9⟩ := build_frame env { o.read env defaults with geometry := some ((o.read env defaults).cfg.get env "geometry").toLower }
    exact ⟨b1, b3, b4, b5, b6, fun g h => by simp at h, b9⟩
  | some g0 =>
    rw [hg, hgo]
    simp only
    split_ifs with h
    · obtain ⟨b1, b2, b3, b4, b5, b6, b7, b8, b9⟩ := build_frame env (o.read env defaults)
      exact ⟨b1, b3, b4, b5, b6, fun g h => by rw [b2, hg, hgo, ← h], b9⟩
    · exact ⟨rfl, rfl, rfl, rfl, rfl, fun g h => by rw [← h]; exact hgo, Or.inl rfl⟩

/-- The two outcomes of a call of `step`: an exception, which leaves the transport alone and makes no time step, or a run. -/
theorem step_cases (size rank : ℤ) (o : Obj) (n : Option ℤ) :
    (∃ e, (o.step env defaults size rank n).2 = ([], some e) ∧ (o.step env defaults size rank n).1.transport = o.transport) ∨
    ∃ o' k, o.pull env defaults = (o', none) ∧ o'.wanted n = some k ∧
      (o.step env defaults size rank n).2 = ((loopTimes o'.dt size (stepsPerNode (o'.useTransport k).steps size rank).toNat (o'.dt * (rank + 1))).map fun x => ⟨x, o'.cfg, (o'.useTransport k).cfg, (o'.useTransport k).origin, o'.external⟩, none) ∧
      (o.step env defaults size rank n).1.transport = some (o'.useTransport k) := by
  unfold Obj.step
  have pf := (pull_frame env defaults o).2.1
  generalize o.pull env defaults = r at pf ⊢
  obtain ⟨o', r⟩ := r
  cases r with
  | some e => exact Or.inl ⟨e, rfl, pf⟩
  | none =>
    simp only
    cases hw : o'.wanted n with
    | none => exact Or.inl ⟨_, rfl, pf⟩
    | some k => exact Or.inr ⟨o', k, rfl, hw, rfl, rfl⟩

/-- Apart from transport, time and time limit a call of `step` leaves the object as __pull_config left it. -/
theorem step_frame (size rank : ℤ) (o : Obj) (n : Option ℤ) :
    (o.step env defaults size rank n).1.user = (o.pull env defaults).1.user ∧ (o.step env defaults size rank n).1.geometry = (o.pull env defaults).1.geometry ∧
    (o.step env defaults size rank n).1.loaded = (o.pull env defaults).1.loaded ∧ (o.step env defaults size rank n).1.external = (o.pull env defaults).1.external ∧
    (o.step env defaults size rank n).1.diags = (o.pull env defaults).1.diags := by
  unfold Obj.step
  generalize o.pull env defaults = r
  obtain ⟨o', r⟩ := r
  cases r with
  | some e => exact ⟨rfl, rfl, rfl, rfl, rfl⟩
  | none =>
    simp only
    cases o'.wanted n with
    | none => exact ⟨rfl, rfl, rfl, rfl, rfl⟩
    | some k => exact ⟨rfl, rfl, rfl, rfl, rfl⟩

/-- The dictionary is changed by the user only. -/
theorem act_user (size rank : ℤ) (o : Obj) (a : Act) : (o.act env defaults size rank a).1.user = edited o.user [a] := by
  cases a with
  | set k v => rfl
  | step n =>
    exact (step_frame env defaults size rank o n).1.trans (pull_frame env defaults o).1
  | load p => unfold Obj.act; simp only; split_ifs <;> rfl
  | external b => rfl

theorem run_user (size rank : ℤ) (o : Obj) (as : List Act) : (o.run env defaults size rank as).1.user = edited o.user as := by
  induction as generalizing o with
  | nil => rfl
  | cons a as ih =>
    rw [Obj.run, ih, act_user]
    cases a <;> rfl

/-- C50: whatever happened before (edits, earlier calls of `step`, exceptions), every time step of a call of `step` is computed by solvers built from the configuration that the dictionary stands for at that moment:
the defaults overwritten by the dictionary and, in 3d, adjusted exactly once. In particular the doubling of the window width in 3d does not accumulate over the calls. -/
theorem solver_configuration (size rank : ℤ) (o : Obj) (as : List Act) (n : Option ℤ) (s : TimeStep) (hs : s ∈ ((o.run env defaults size rank as).1.step env defaults size rank n).2.1) :
    effective env defaults (edited o.user as) = some s.solver := by
  rcases step_cases env defaults size rank (o.run env defaults size rank as).1 n with ⟨e, h, _⟩ | ⟨o', k, hp, _, h, _⟩
  · rw [h] at hs; simp at hs
  · rw [h] at hs
    obtain ⟨x, _, rfl⟩ := List.mem_map.mp hs
    simp only
    rw [← run_user env defaults size rank o as]
    exact (pull_ok env defaults _ _ hp).1

/-- C50: two calls of `step` with the same dictionary use the same configuration, whatever the calls and edits in between. -/
theorem same_dictionary_same_configuration (size rank : ℤ) (o : Obj) (as bs : List Act) (n m : Option ℤ) (s t : TimeStep) (hd : edited o.user (as ++ bs) = edited o.user as)
    (hs : s ∈ ((o.run env defaults size rank as).1.step env defaults size rank n).2.1) (ht : t ∈ ((o.run env defaults size rank (as ++ bs)).1.step env defaults size rank m).2.1) : s.solver = t.solver := by
  have h1 := solver_configuration env defaults size rank o as n s hs
  have h2 := solver_configuration env defaults size rank o (as ++ bs) m t ht
  rw [hd, h1] at h2
  exact Option.some.inj h2

/-- C50 (why it must be built anew): adjusting one and the same configuration twice would ask for twice as many cells as the first adjustment chose. -/
theorem adjust_twice (c c' : Config) (hg : c.get env "geometry" = "3d") (h : c.adjust3d env = some c') (hstep : c.getfloat env "transverse-step" ≠ 0) :
    ∃ k : ℕ, c'.getraw "window-width-steps" = .int k ∧ requestedCells env c' = 2 * k := by
  obtain ⟨k, _, h1, h2, h3⟩ := adjust3d_cases env c c' hg h
  refine ⟨k, ?_, ?_⟩
  · unfold Config.getraw; rw [h2]; rfl
  · have e1 : c'.getfloat env "window-width" = k * c.getfloat env "transverse-step" := by unfold Config.getfloat; rw [h1]; rfl
    have e2 : c'.getfloat env "transverse-step" = c.getfloat env "transverse-step" := by
      unfold Config.getfloat; rw [h3 "transverse-step" (by decide)]
    unfold requestedCells
    rw [e1, e2, show 2 * ((k : ℚ) * c.getfloat env "transverse-step") / c.getfloat env "transverse-step" = ((2 * k : ℤ) : ℚ) by push_cast; field_simp, pyInt_intCast]

/-! #### Geometry -/

/-- C50: when a Simulation object is created: the geometry, in any capitalisation, must be 2d or 3d (or exactly `circ`, which the configuration replaces), and in 3d a grid size must be found. -/
theorem create_iff (user : Table) (diags : List ℚ) :
    (∃ o, create env defaults user diags = .ok o) ↔ (asked env defaults user = "2d" ∨ (asked env defaults user = "3d" ∧ effective env defaults user ≠ none)) := by
  have hc : create env defaults user diags = match (blank user diags).pull env defaults with | (o, none) => .ok o | (_, some e) => .error e := rfl
  have hp : (blank user diags).pull env defaults = Obj.build env { (blank user diags).read env defaults with geometry := some (asked env defaults user) } := rfl
  have he : effective env defaults user = if asked env defaults user = "3d" then ((blank user diags).read env defaults).cfg.adjust3d env else some ((blank user diags).read env defaults).cfg := rfl
  rw [hc, hp, he]
  unfold Obj.build
  simp only [Option.some.injEq]
  by_cases h3 : asked env defaults user = "3d"
  · simp only [h3, if_true]
    cases ((blank user diags).read env defaults).cfg.adjust3d env with
    | none => simp
    | some c => simp
  · by_cases h2 : asked env defaults user = "2d"
    · simp [h2]
    · simp [h2, h3]

/-- C50: every object that exists has a geometry, 2d or 3d, and keeps it. -/
theorem act_geometry (size rank : ℤ) (o : Obj) (a : Act) (g : String) (hg : o.geometry = some g) : (o.act env defaults size rank a).1.geometry = some g := by
  cases a with
  | set k v => exact hg
  | step n =>
    exact (step_frame env defaults size rank o n).2.1.trans ((pull_frame env defaults o).2.2.2.2.2.1 g hg)
  | load p => unfold Obj.act; simp only; split_ifs <;> exact hg
  | external b => exact hg

theorem run_geometry (size rank : ℤ) (o : Obj) (as : List Act) (g : String) (hg : o.geometry = some g) : (o.run env defaults size rank as).1.geometry = some g := by
  induction as generalizing o with
  | nil => exact hg
  | cons a as ih => rw [Obj.run]; exact ih _ (act_geometry env defaults size rank o a g hg)

/-- C50: a Simulation object never changes its geometry: in every history every call of `step` that finds another geometry in the dictionary raises, computes nothing and leaves beam and transport as they are;
once the dictionary is set back the object works again. -/
theorem geometry_locked (size rank : ℤ) (user : Table) (diags : List ℚ) (o : Obj) (hc : create env defaults user diags = .ok o) (as : List Act) (n : Option ℤ) :
    (asked env defaults (edited user as) ≠ asked env defaults user →
      ((o.run env defaults size rank as).1.step env defaults size rank n).2 = ([], some .geometryChanged) ∧
      ((o.run env defaults size rank as).1.step env defaults size rank n).1.transport = (o.run env defaults size rank as).1.transport) ∧
    (asked env defaults (edited user as) = asked env defaults user → ((o.run env defaults size rank as).1.step env defaults size rank n).2.2 ≠ some .geometryChanged) := by
  have hp : (blank user diags).pull env defaults = (o, none) := by
    unfold create at hc
    generalize (blank user diags).pull env defaults = r at hc ⊢
    obtain ⟨o1, e⟩ := r
    cases e with
    | none => simp only [Except.ok.injEq] at hc; rw [hc]
    | some e => simp at hc
  have ho : o.geometry = some (asked env defaults user) := (pull_ok env defaults _ _ hp).2.1
  have hou : o.user = user := by have := (pull_frame env defaults (blank user diags)).1; rw [hp] at this; exact this
  have hg := run_geometry env defaults size rank o as _ ho
  have hu := run_user env defaults size rank o as
  rw [hou] at hu
  generalize (o.run env defaults size rank as).1 = q at hg hu ⊢
  have hr : ((q.read env defaults).cfg.get env "geometry").toLower = asked env defaults (edited user as) := by rw [← hu]; rfl
  have hrg : (q.read env defaults).geometry = some (asked env defaults user) := hg
  constructor
  · intro hne
    have : q.pull env defaults = (q.read env defaults, some .geometryChanged) := by
      unfold Obj.pull
      simp only [hrg, hr]
      rw [if_neg (fun h => hne h.symm)]
    unfold Obj.step
    rw [this]
    exact ⟨rfl, rfl⟩
  · intro heq
    have : q.pull env defaults = Obj.build env (q.read env defaults) := by
      unfold Obj.pull
      simp only [hrg, hr]
      rw [if_pos heq.symm]
    unfold Obj.step
    rw [this]
    unfold Obj.build
    rw [hrg]
    simp only
    split_ifs
    · cases (q.read env defaults).cfg.adjust3d env with
      | none => simp
      | some c =>
        simp only
        cases Obj.wanted _ n <;> simp
    · simp only
      cases Obj.wanted _ n <;> simp
    · simp

/-! #### Number of time steps and their times -/

theorem loopTimes_eq (dt : ℚ) (size : ℤ) (n : ℕ) (t : ℚ) : loopTimes dt size n t = (List.range n).map fun i : ℕ => t + dt * size * i := by
  induction n generalizing t with
  | zero => rfl
  | succ n ih =>
    rw [loopTimes, ih, List.range_succ_eq_map, List.map_cons, List.map_map]
    simp only [Nat.cast_zero, mul_zero, add_zero, List.cons.injEq, true_and]
    apply List.map_congr_left
    intro i _
    simp only [Function.comp]
    push_cast
    ring

theorem stepsPerNode_single (n : ℤ) : stepsPerNode n 1 0 = n := by
  unfold stepsPerNode
  rw [Int.ediv_one, Int.emod_one]
  simp

/-- C50: a first call of `step` on one process that asks for `k` steps makes exactly the time steps at dt, 2 dt, ..., k dt. -/
theorem first_call_times (o o' : Obj) (n : Option ℤ) (k : ℤ) (hp : o.pull env defaults = (o', none)) (hw : o'.wanted n = some k) (ht : o.transport = none ∨ o'.rigid = true) :
    ((o.step env defaults 1 0 n).2.1).map TimeStep.time = (List.range k.toNat).map fun i : ℕ => o'.dt * (i + 1) := by
  have hsteps : (o'.useTransport k).steps = k := by
    unfold Obj.useTransport
    split_ifs with hr
    · rfl
    · rcases ht with ht | ht
      · have : o'.transport = none := by have := (pull_frame env defaults o).2.1; rw [hp] at this; rw [← ht]; exact this
        rw [this]
      · exact absurd ht hr
  unfold Obj.step
  rw [hp]
  simp only [hw, List.map_map, hsteps, stepsPerNode_single, loopTimes_eq]
  apply List.map_congr_left
  intro i _
  simp only [Function.comp]
  push_cast
  ring

/-- C50: without an explicit number the steps fill the time limit: the last of them is at or before it, and one more would be beyond it. -/
theorem default_number (o : Obj) (hr : o.rigid = false) (hdt : 0 < o.dt) (hl : 0 ≤ o.timeLimit) : ∃ k : ℕ, o.wanted none = some (k : ℤ) ∧ k * o.dt ≤ o.timeLimit ∧ o.timeLimit < (k + 1) * o.dt := by
  have h0 : 0 ≤ o.timeLimit / o.dt := div_nonneg hl hdt.le
  refine ⟨(pyInt (o.timeLimit / o.dt)).toNat, ?_, ?_, ?_⟩
  · unfold Obj.wanted
    rw [hr, if_neg (by simp)]
    simp only
    rw [if_neg hdt.ne', Int.toNat_of_nonneg (pyInt_nonneg h0)]
  · have h1 := pyInt_le h0
    have : (((pyInt (o.timeLimit / o.dt)).toNat : ℤ) : ℚ) = (pyInt (o.timeLimit / o.dt) : ℚ) := by rw [Int.toNat_of_nonneg (pyInt_nonneg h0)]
    rw [show (((pyInt (o.timeLimit / o.dt)).toNat : ℕ) : ℚ) = (((pyInt (o.timeLimit / o.dt)).toNat : ℤ) : ℚ) by push_cast; rfl, this]
    rwa [le_div_iff₀ hdt] at h1
  · have h1 := lt_pyInt_add_one h0
    have : (((pyInt (o.timeLimit / o.dt)).toNat : ℤ) : ℚ) = (pyInt (o.timeLimit / o.dt) : ℚ) := by rw [Int.toNat_of_nonneg (pyInt_nonneg h0)]
    rw [show (((pyInt (o.timeLimit / o.dt)).toNat : ℕ) : ℚ) = (((pyInt (o.timeLimit / o.dt)).toNat : ℤ) : ℚ) by push_cast; rfl, this]
    rwa [div_lt_iff₀ hdt] at h1

/-- C50: an explicit number is used as it is, whatever the time limit; a rigid beam gets one time step whatever was asked for; and a time step of zero without an explicit number raises. -/
theorem explicit_number (o : Obj) (n : Option ℤ) : (o.rigid = true → o.wanted n = some 1) ∧ (o.rigid = false → ∀ k, n = some k → o.wanted n = some k) ∧ (o.rigid = false → n = none → o.dt = 0 → o.wanted n = none) := by
  unfold Obj.wanted
  refine ⟨fun h => by rw [h]; rfl, fun h k hk => by rw [h, hk]; rfl, fun h hn hd => by rw [h, hn]; simp [hd]⟩

/-! #### What later calls keep from the first one -/

/-- The transport made by a first call for a beam that is not rigid. -/
theorem act_transport (size rank : ℤ) (o : Obj) (a : Act) (t : Transport) (h : o.transport = some t) :
    (o.act env defaults size rank a).1.transport = some t ∨ (∃ n o' k, a = .step n ∧ o.pull env defaults = (o', none) ∧ o'.rigid = true ∧ (o.act env defaults size rank a).1.transport = some ⟨k, o'.cfg, .rigid⟩) := by
  cases a with
  | set k v => exact Or.inl h
  | load p => left; unfold Obj.act; simp only; split_ifs <;> exact h
  | external b => exact Or.inl h
  | step n =>
    rcases step_cases env defaults size rank o n with ⟨e, _, hs⟩ | ⟨o', k, hp, hw, _, hs⟩
    · left; exact hs.trans h
    · have ht : o'.transport = some t := by have := (pull_frame env defaults o).2.1; rw [hp] at this; exact this.trans h
      by_cases hr : o'.rigid = true
      · right
        refine ⟨n, o', k, rfl, hp, hr, ?_⟩
        have : (o.act env defaults size rank (.step n)).1.transport = some (o'.useTransport k) := hs
        rw [this]; unfold Obj.useTransport; rw [if_pos hr]
      · left
        have : (o.act env defaults size rank (.step n)).1.transport = some (o'.useTransport k) := hs
        rw [this]; unfold Obj.useTransport; rw [if_neg hr, ht]

/-- No dictionary of the history asks for a rigid beam. -/
def NeverRigid (user : Table) (as : List Act) : Prop := ∀ pre post, as = pre ++ post → (Config.init env defaults true (some (edited user pre))).getbool env "rigid-beam" = false

theorem run_transport (size rank : ℤ) (o : Obj) (as : List Act) (t : Transport) (h : o.transport = some t) (hn : NeverRigid env defaults o.user as) : (o.run env defaults size rank as).1.transport = some t := by
  induction as generalizing o with
  | nil => exact h
  | cons a as ih =>
    rw [Obj.run]
    apply ih
    · rcases act_transport env defaults size rank o a t h with h1 | ⟨n, o', k, ha, hp, hr, _⟩
      · exact h1
      · exfalso
        have h0 := hn [] (a :: as) rfl
        have e := (pull_ok env defaults _ _ hp).2.2.2.2
        have : o'.rigid = (Config.init env defaults true (some o.user)).getbool env "rigid-beam" := by rw [e]; rfl
        rw [hr] at this
        simp only [edited] at h0
        rw [h0] at this
        simp at this
    · intro pre post hpp
      rw [act_user]
      have := hn (a :: pre) post (by rw [hpp]; rfl)
      cases a <;> exact this

theorem edited_append (u : Table) (as bs : List Act) : edited u (as ++ bs) = edited (edited u as) bs := by
  induction as generalizing u with
  | nil => rfl
  | cons a as ih => cases a <;> exact ih _

/-- C50: after a first successful call of `step` (with a beam that is not rigid), every later call, after whatever edits of the dictionary, beam files loaded and exceptions, works with the beam source and drain of the first call:
they still carry the configuration and the number of steps of the first call and the beam it started with. So a changed time-limit or N_steps is ignored, and so is a beam file loaded after the first call,
while the plasma solver and the beam pusher follow the new dictionary (`solver_configuration`). -/
theorem later_calls (size rank : ℤ) (o : Obj) (n0 : Option ℤ) (t : Transport) (as : List Act) (n : Option ℤ)
    (h : (o.step env defaults size rank n0).1.transport = some t) (hn : NeverRigid env defaults o.user as)
    (he : (((o.step env defaults size rank n0).1.run env defaults size rank as).1.step env defaults size rank n).2.2 = none) :
    (∀ s ∈ (((o.step env defaults size rank n0).1.run env defaults size rank as).1.step env defaults size rank n).2.1, s.source = t.cfg ∧ s.origin = t.origin) ∧
    (((o.step env defaults size rank n0).1.run env defaults size rank as).1.step env defaults size rank n).2.1.length = (stepsPerNode t.steps size rank).toNat := by
  have hu : (o.step env defaults size rank n0).1.user = o.user := (step_frame env defaults size rank o n0).1.trans (pull_frame env defaults o).1
  have ht := run_transport env defaults size rank (o.step env defaults size rank n0).1 as t h (by rw [hu]; exact hn)
  have hru := run_user env defaults size rank (o.step env defaults size rank n0).1 as
  rw [hu] at hru
  generalize ((o.step env defaults size rank n0).1.run env defaults size rank as).1 = q at ht hru he ⊢
  rcases step_cases env defaults size rank q n with ⟨e, h1, _⟩ | ⟨o', k, hp, hw, h1, _⟩
  · rw [h1] at he; simp at he
  · have hr : o'.rigid = false := by
      have e := (pull_ok env defaults _ _ hp).2.2.2.2
      have : o'.rigid = (Config.init env defaults true (some q.user)).getbool env "rigid-beam" := by rw [e]; rfl
      rw [this, hru]
      exact hn as [] (by simp)
    have ht' : o'.transport = some t := by have := (pull_frame env defaults q).2.1; rw [hp] at this; exact this.trans ht
    have hus : o'.useTransport k = t := by unfold Obj.useTransport; rw [hr, if_neg (by simp), ht']
    rw [h1, hus]
    constructor
    · intro s hs
      obtain ⟨x, _, rfl⟩ := List.mem_map.mp hs
      exact ⟨rfl, rfl⟩
    · simp [loopTimes_eq]

/-- C50: a beam file loaded before the first call is the beam of that call (the last one, if several were loaded); without one the beam is generated from the configuration of that call. -/
theorem first_beam (size rank : ℤ) (o o' : Obj) (n : Option ℤ) (k : ℤ) (hp : o.pull env defaults = (o', none)) (hw : o'.wanted n = some k) (ht : o.transport = none) (hr : o'.rigid = false) :
    ∀ s ∈ (o.step env defaults size rank n).2.1, s.source = o'.cfg ∧ s.solver = o'.cfg ∧ (∀ p, o.loaded = some p → s.origin = .file p) ∧ (o.loaded = none → s.origin = .generated o'.cfg) := by
  intro s hs
  have h1 : o'.transport = none := by have := (pull_frame env defaults o).2.1; rw [hp] at this; exact this.trans ht
  have h2 : o'.loaded = o.loaded := by have := (pull_frame env defaults o).2.2.1; rw [hp] at this; exact this
  unfold Obj.step at hs
  rw [hp] at hs
  simp only [hw, Obj.useTransport, hr, h1] at hs
  obtain ⟨x, _, rfl⟩ := List.mem_map.mp hs
  refine ⟨rfl, rfl, fun p hl => ?_, fun hl => ?_⟩ <;> simp [h2, hl]

/-- C50 (finding): after a call with a rigid beam, a call with `rigid-beam` switched off still uses the rigid beam, for one time step, whatever number of steps was asked for. -/
theorem rigid_sticks (size rank : ℤ) (o o' : Obj) (t : Transport) (n : Option ℤ) (h : o.transport = some t) (ht : t.origin = .rigid) (hs : t.steps = 1) (hp : o.pull env defaults = (o', none)) (hr : o'.rigid = false) :
    ∀ s ∈ (o.step env defaults size rank n).2.1, s.origin = .rigid ∧ (o.step env defaults size rank n).2.1.length = (stepsPerNode 1 size rank).toNat := by
  intro s hm
  have ht' : o'.transport = some t := by have := (pull_frame env defaults o).2.1; rw [hp] at this; exact this.trans h
  have hus : ∀ k, o'.useTransport k = t := by intro k; unfold Obj.useTransport; rw [hr, if_neg (by simp), ht']
  unfold Obj.step at hm ⊢
  rw [hp] at hm ⊢
  simp only at hm ⊢
  cases hw : o'.wanted n with
  | none => rw [hw] at hm; simp at hm
  | some k =>
    rw [hw] at hm
    simp only [hus] at hm ⊢
    obtain ⟨x, _, rfl⟩ := List.mem_map.mp hm
    refine ⟨ht, ?_⟩
    simp [loopTimes_eq, hs]

/-! #### Output periods of diagnostics -/

theorem pullDiag_max (dt p : ℚ) : pullDiag dt p = max p dt := by
  unfold pullDiag
  split_ifs with h
  · rw [max_eq_right h.le]
  · rw [max_eq_left (not_lt.mp h)]

/-- C50: the output period of a diagnostics object is raised to the time step by every successful reading of the configuration and never lowered again: after every history it is the largest of its initial value and time steps of dictionaries of the history. -/
theorem period_ratchet (size rank : ℤ) (o : Obj) (as : List Act) :
    ∃ dts : List ℚ, (o.run env defaults size rank as).1.diags = o.diags.map (fun p => dts.foldl max p) ∧
      ∀ d ∈ dts, ∃ pre post, as = pre ++ post ∧ d = (Config.init env defaults true (some (edited o.user pre))).getfloat env "time-step" := by
  induction as generalizing o with
  | nil => exact ⟨[], by simp [Obj.run], by simp⟩
  | cons a as ih =>
    obtain ⟨dts, h1, h2⟩ := ih (o.act env defaults size rank a).1
    have hd : (o.act env defaults size rank a).1.diags = o.diags ∨ (o.act env defaults size rank a).1.diags = o.diags.map (pullDiag ((Config.init env defaults true (some o.user)).getfloat env "time-step")) := by
      cases a with
      | set k v => exact Or.inl rfl
      | load p => left; unfold Obj.act; simp only; split_ifs <;> rfl
      | external b => exact Or.inl rfl
      | step n =>
        have h3 := (step_frame env defaults size rank o n).2.2.2.2
        rcases (pull_frame env defaults o).2.2.2.2.2.2 with h4 | h4
        · left; exact h3.trans h4
        · right; exact h3.trans h4
    have tail : ∀ d ∈ dts, ∃ pre post, a :: as = pre ++ post ∧ d = (Config.init env defaults true (some (edited o.user pre))).getfloat env "time-step" := by
      intro d hdd
      obtain ⟨pre, post, e1, e2⟩ := h2 d hdd
      refine ⟨a :: pre, post, by rw [e1]; rfl, ?_⟩
      rw [act_user] at e2
      rw [e2]
      cases a <;> rfl
    rcases hd with hd | hd
    · refine ⟨dts, ?_, tail⟩
      rw [Obj.run, h1, hd]
    · refine ⟨(Config.init env defaults true (some o.user)).getfloat env "time-step" :: dts, ?_, ?_⟩
      · rw [Obj.run, h1, hd, List.map_map]
        apply List.map_congr_left
        intro p _
        simp only [Function.comp, List.foldl_cons, pullDiag_max]
      · intro d hdd
        rcases List.mem_cons.mp hdd with rfl | hdd
        · exact ⟨[], a :: as, rfl, rfl⟩
        · exact tail d hdd

/-- C50: after a successful call the period is at least that call's time step; no history lowers it. -/
theorem period_never_lowered (size rank : ℤ) (o : Obj) (as : List Act) : List.Forall₂ (fun p p' : ℚ => p ≤ p') o.diags (o.run env defaults size rank as).1.diags := by
  obtain ⟨dts, h, _⟩ := period_ratchet env defaults size rank o as
  rw [h]
  have le : ∀ (l : List ℚ) (p : ℚ), p ≤ l.foldl max p := by
    intro l
    induction l with
    | nil => intro p; exact le_refl p
    | cons d l ih => intro p; exact le_trans (le_max_left p d) (ih _)
  generalize o.diags = l
  induction l with
  | nil => exact List.Forall₂.nil
  | cons p l ih => exact List.Forall₂.cons (le dts p) ih

/-! #### The window -/

/-- C50: in 2d the layers computed lie inside the window length asked for and the next one would not; in 3d they end within half a layer of it, possibly beyond it. -/
theorem layers_cover (length dxi : ℚ) (hd : 0 < dxi) (hl : 0 ≤ length) :
    layers2D length dxi * dxi ≤ length ∧ length < (layers2D length dxi + 1) * dxi ∧ |layers3D length dxi * dxi - length| ≤ dxi / 2 := by
  have h0 : 0 ≤ length / dxi := div_nonneg hl hd.le
  refine ⟨?_, ?_, ?_⟩
  · have := pyInt_le h0
    rwa [le_div_iff₀ hd] at this
  · have := lt_pyInt_add_one h0
    rwa [div_lt_iff₀ hd] at this
  · have := abs_pyRound_sub_le (length / dxi)
    unfold layers3D
    rw [show (pyRound (length / dxi) : ℚ) * dxi - length = (pyRound (length / dxi) - length / dxi) * dxi by field_simp, abs_mul, abs_of_pos hd]
    nlinarith

/-- C50: the radial grid of the 2d solver reaches from the axis to at most the window width, and one more node would reach beyond it. -/
theorem nodes_cover (c : Config) (h0 : c.getint env "window-width-steps" = 0) (hs : 0 < c.getfloat env "transverse-step") (hw : 0 ≤ c.getfloat env "window-width") :
    (nodes2D env c - 1) * c.getfloat env "transverse-step" ≤ c.getfloat env "window-width" ∧ c.getfloat env "window-width" < nodes2D env c * c.getfloat env "transverse-step" := by
  have hq : 0 ≤ c.getfloat env "window-width" / c.getfloat env "transverse-step" := div_nonneg hw hs.le
  unfold nodes2D
  rw [if_neg (by simp [h0])]
  push_cast
  constructor
  · have := pyInt_le hq
    rw [le_div_iff₀ hs] at this
    linarith
  · have := lt_pyInt_add_one hq
    rwa [div_lt_iff₀ hs] at this

end Lcode.Sim
