import Verif.Mpi.Proc
import Mathlib.Algebra.Field.Basic

/-!
Model of lcode/mpi/transport.py, lcode/mpi/beam_io.py, the time loop of lcode/simulation.py and the layer loop of
lcode/push_solvers/push_solver.py.

The beam source, the plasma and the beam pusher are arbitrary (`World`): a source is built from an array of particles
and asked for one layer after the other; a time step starts from a state depending on the physical time and turns, layer by
layer, the layer received into the particles that finished moving.  Particles that fell to the next layer, plasma, fields
and charge densities live in `St`.  Messages are arrays of particles.
-/

namespace Lcode.Mpi

/-- What a run is parametrised by. -/
structure World (K P : Type) where
  /-- BeamSource objects -/
  Src : Type
  /-- variables of step_dt across the layer loop -/
  St : Type
  /-- `BeamSource(cfg, particles)`, beam/beam_io.py:83-96 or beam3d/beam_io.py -/
  mkSrc : List P → Src
  /-- `get_beam_slice` / `get_beam_layer_to_layout` for layer number `j` -/
  pullSrc : Src → ℕ → List P × Src
  /-- `__init_plasmastate(current_time)`, simulation.py:251, and the initialisation in step_dt, push_solver.py:87-97 -/
  init : K → St
  /-- one iteration of the layer loop, push_solver.py:98-129: the layer received gives the slice `moved` -/
  layer : St → ℕ → List P → St × List P

/-- transport.py:15-23: constants of a process. -/
structure Ctx where
  size : ℕ
  rank : ℕ
  steps : ℕ

/-- Mutable state of MPIBeamTransport, beam_io.py:7-17. The drain is modelled by the particles in it
(`beam_slice()`, the concatenation of the slices pushed). -/
structure Trans {K P : Type} (W : World K P) where
  processed : ℕ
  skipFirst : Bool
  source : W.Src
  drain : List P

namespace Ctx

/-- transport.py:33-35 -/
def single (c : Ctx) : Bool := c.size == 1

/-- transport.py:41-43 (integers: `steps - 1` may be `-1`) -/
def finalStep (c : Ctx) (processed : ℕ) : Bool :=
  ((processed : ℤ) * c.size + c.rank == (c.steps : ℤ) - 1)

/-- transport.py:49-51 -/
def stepsPerNode (c : Ctx) : ℕ :=
  c.steps / c.size + (if c.steps % c.size > c.rank then 1 else 0)

/-- transport.py:45-47 -/
def lastStep (c : Ctx) (processed : ℕ) : Bool :=
  ((processed : ℤ) == (c.stepsPerNode : ℤ) - 1)

/-- transport.py:37-39 -/
def firstStep (c : Ctx) (processed : ℕ) : Bool := c.rank == 0 && processed == 0

end Ctx

section
variable {K P : Type} (W : World K P) (c : Ctx)

/-- `final_drain.push_beam_slice`. -/
def Trans.drainPush {W : World K P} (t : Trans W) (s : List P) : Trans W := { t with drain := t.drain ++ s }

/-- `push`, mpi/beam_io.py:19-27 (push3d, :29-38, is the same), through get_transports (:81-84): a single process pushes into the
drain directly. -/
def push (t : Trans W) (s : List P) : Proc (List P) (Trans W) :=
  if c.single then .done (t.drainPush s)
  else if c.finalStep t.processed || c.rank == c.size - 1 then .done (t.drainPush s)
  else if t.skipFirst then .done { t with skipFirst := false }
  else .send s (.done (t.drainPush s))

/-- `pull`, mpi/beam_io.py:40-45 (pull3d, :47-54), through get_transports. -/
def pull (t : Trans W) (j : ℕ) : Proc (List P) (List P × Trans W) :=
  if c.single || (c.firstStep t.processed || c.rank == 0) then
    .done ((W.pullSrc t.source j).1, { t with source := (W.pullSrc t.source j).2 })
  else .recv fun m => .done (m, t)

/-- The layer loop of step_dt (push_solver.py:98-129): `n` layers from layer `j` on; `seen` is a ghost log of the layers received. -/
def layersLoop : ℕ → ℕ → Trans W → W.St → List (List P) → Proc (List P) (Trans W × List (List P))
  | 0, _, t, _, seen => .done (t, seen)
  | n + 1, j, t, st, seen =>
    (pull W c t j).bind fun r =>
      let o := W.layer st j r.1
      (push W c r.2 o.2).bind fun t' => layersLoop n (j + 1) t' o.1 (seen ++ [r.1])

/-- `next_step`, mpi/beam_io.py:86-118. -/
def nextStep (t : Trans W) : Proc (List P) (Trans W) :=
  let isFinal := c.finalStep t.processed
  let isLast := c.lastStep t.processed
  let t := { t with processed := t.processed + 1, skipFirst := true }
  if isFinal then .done t
  else if c.single then .done { t with source := W.mkSrc t.drain, drain := [] }
  else if c.rank == c.size - 1 then .send t.drain (.done { t with drain := [] })
  else .send [] <|
    if c.rank == 0 && !isLast then
      .recv fun m => .done { t with source := W.mkSrc m, drain := [] }
    else .done { t with drain := [] }

/-- What a time step shows to the user: its physical time, the beam layers its plasma reacted to, and the beam in the drain when
diagnostics are dumped (push_solver.py:144-146). -/
structure Entry (K P : Type) where
  time : K
  layers : List (List P)
  drained : List P

variable [Field K]

/-- The time loop, simulation.py:247-264, with `n` steps left. `N` is xi_steps. -/
def timeLoop (N : ℕ) (dt : K) : ℕ → K → Trans W → List (Entry K P) →
    Proc (List P) (Trans W × List (Entry K P))
  | 0, _, t, log => .done (t, log)
  | n + 1, time, t, log =>
    (layersLoop W c (N + 1) 0 t (W.init time) []).bind fun r =>
      (nextStep W c r.1).bind fun t' =>
        timeLoop N dt n (time + dt * c.size) t' (log ++ [⟨time, r.2, r.1.drain⟩])

/-- `step`, simulation.py:244-264, on an existing transport. -/
def runTransport (N : ℕ) (dt : K) (t : Trans W) : Proc (List P) (Trans W × List (Entry K P)) :=
  timeLoop W c N dt c.stepsPerNode (dt * (c.rank + 1)) t []

/-- MPIBeamTransport.__init__, mpi/beam_io.py:7-17. -/
def newTransport (b0 : List P) : Trans W := ⟨0, true, W.mkSrc b0, []⟩

/-- First call of `step` on one process: simulation.py:227-264. -/
def firstCall (N : ℕ) (dt : K) (b0 : List P) : Proc (List P) (Trans W × List (Entry K P)) :=
  runTransport W c N dt (newTransport W b0)

/-- The program of one rank in a run: `Simulation.step(steps)` on a fresh simulation. Its result is what it showed. -/
def program (N : ℕ) (dt : K) (b0 : List P) : Proc (List P) (List (Entry K P)) :=
  (firstCall W c N dt b0).bind fun r => .done r.2

end
end Lcode.Mpi
