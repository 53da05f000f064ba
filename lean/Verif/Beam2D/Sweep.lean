import Verif.Beam2D.DataProps
import Verif.Beam2D.MoveProps

/-!
Model of the 2D time step: lcode/push_solvers/push_solver.py `PusherAndSolver.step_dt` with
`BeamCalculator2D.move_beam_layer`. The plasma solver is an arbitrary function (`Plasma`), so every
statement about the beam holds whatever the plasma does.
-/

namespace Lcode.Beam2D

open Classical in
/-- beam_substepping_step as a function (beam_calculate.py:14-37): the value the loop ends
with. (`substeps_exact` shows it always ends for positive energies; 0 stands for divergence.) -/
noncomputable def substepFraction (qm pz energy : ℝ) : ℝ :=
  if h : ∃ f, ∃ fuel, beamSubsteppingStep fuel qm pz energy = some f then h.choose else 0

open Classical in
/-- Initialisation of new rows in move_beam_slice, beam_calculate.py:330-337 and :282-287: rows with `dt ≠ 0`
came from the previous layer and are left alone. -/
noncomputable def initRow (timeStep energy : ℝ) (t : Row ℝ) : Row ℝ :=
  if t.2.1 = 0 then
    if energy = 0 then (t.1, timeStep, t.2.2.1, t.2.2.2)
    else
      let s := substepsOf (substepFraction t.1.qm t.1.pz energy) timeStep
      (t.1, s.1, s.2, t.2.2.2)
  else t

/-- Apply a per-particle update to all parallel arrays. -/
def Beam.mapRows {K : Type*} (f : Row K → Row K) (b : Beam K) : Beam K :=
  let rs := b.rows.map f
  { particles := rs.map (fun t => t.1)
    dt := rs.map (fun t => t.2.1)
    remaining := rs.map (fun t => t.2.2.1)
    lost := rs.map (fun t => t.2.2.2) }

/-- Everything step_dt gets from outside: numerical parameters, `np.argsort` on booleans and floats, and the plasma
solver with its state type `σ`. -/
structure Env2D (σ : Type) where
  cfg : PushCfg
  timeStep : ℝ
  energy : ℝ
  argsortB : List Bool → List ℕ
  argsortF : List ℝ → List ℕ
  /-- `solver.step_dxi` (push_solver.py:110-113): new plasma state from rho_beam and rho_beam_prev. -/
  plasma : σ → (ℤ → ℝ) → (ℤ → ℝ) → σ
  /-- `pl_fields` of a plasma state -/
  fields : σ → Fields

variable {σ : Type}

/-- BeamCalculator2D.move_beam_layer, beam_calculate.py:415-447 (with move_beam_slice, :310-352; an empty slice is
returned unchanged). -/
noncomputable def moveBeamLayer (env : Env2D σ) (b : Beam ℝ) (xiI : ℕ) (prev cur : Fields) :
    Beam ℝ × Beam ℝ × Beam ℝ :=
  let b := if b.particles.length = 0 then b
    else b.mapRows (fun t => pushRow env.cfg xiI cur prev (initRow env.timeStep env.energy t))
  splitBeamSlice env.argsortB b (xiI * -env.cfg.xiStep)

/-- Variables of step_dt across the loop (push_solver.py:89-130). `lostLog` is a ghost: the code
discards `lost`; `sourced` is a ghost log of the layers taken. -/
structure SweepState (σ : Type) where
  plasma : σ
  rhoLayout : ℤ → ℝ
  rhoPrev : ℤ → ℝ
  toMove : Beam ℝ
  source : Source ℝ
  drain : Drain ℝ
  lostLog : List (Row ℝ)
  sourced : List (Beam ℝ)

/-- One iteration of the xi loop, push_solver.py:98-129. -/
noncomputable def sweepStep (env : Env2D σ) (s : SweepState σ) (xiI : ℕ) : SweepState σ :=
  let (layer, source) := s.source.getBeamLayer env.cfg.xiStep xiI
  let rho := layoutBeamLayer env.cfg.rStep env.cfg.xiStep s.rhoLayout layer.particles xiI
  let plasma := env.plasma s.plasma rho.1 s.rhoPrev
  let (lost, moved, fell) := moveBeamLayer env s.toMove xiI (env.fields s.plasma) (env.fields plasma)
  { plasma := plasma
    rhoLayout := rho.2
    rhoPrev := rho.1
    toMove := layer.append fell
    source := source
    drain := s.drain.push moved
    lostLog := s.lostLog ++ lost.rows
    sourced := s.sourced ++ [layer] }

/-- State before the loop, push_solver.py:89-96. -/
def sweepInit (plasma : σ) (source : Source ℝ) (drain : Drain ℝ) : SweepState σ :=
  { plasma := plasma, rhoLayout := fun _ => 0, rhoPrev := fun _ => 0, toMove := ⟨[], [], [], []⟩,
    source := source, drain := drain, lostLog := [], sourced := [] }

/-- step_dt, push_solver.py:98: the loop over `range(0, xi_steps + 1)` (the start index is
`round(-xi_start/dxi) + 1 = 0` because the plasma starts at `xi = dxi`). -/
noncomputable def stepDt (env : Env2D σ) (plasma : σ) (source : Source ℝ) (drain : Drain ℝ)
    (xiSteps : ℕ) : SweepState σ :=
  (List.range (xiSteps + 1)).foldl (sweepStep env) (sweepInit plasma source drain)

end Lcode.Beam2D
