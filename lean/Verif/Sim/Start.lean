import Verif.Sim.Driver

/-!
Which configurations run, and how the others fail. Property C63.

The model follows the calls from `Simulation(config)` and `step(n)` down to the xi layers and keeps only the operations that can raise an exception because of the configuration: divisions, list indices, array sizes,
assertions, attributes, names and local variables that do not exist. What the layers compute is the subject of C14-C49.

Simplifications (all of this file):
* one process, no diagnostics, no plasma state from a file, runas_filename empty (the file is the subject of C51); floats are exact rationals (no infinities), as in Verif/Config/Model.lean;
* what does not follow from the configuration is collected in `Machine` and arbitrary;
* numba functions do not check indices and raise nothing (the indices are the subject of C61); the index of the array `substepping_state` inside a layer with substepping is the subject of C21.
-/

namespace Lcode.Start

open Lcode.Py Lcode.Cfg

/-! ### Model -/

/-- Exception classes of Python. -/
inductive PyErr where
  | exception
  | assertion
  | attribute
  | import
  | index
  | name
  | type
  | unboundLocal
  | value
  | zeroDivision
  deriving DecidableEq

/-- Where an exception appears: in the constructor, in a call of `step` before the first time step, in the creation of the plasma of time step `t`, in xi layer `i` of time step `t`. -/
inductive Stage where
  | constructor
  | call
  | plasma (t : ℕ)
  | layer (t i : ℕ)
  deriving DecidableEq

/-- What is not part of the configuration: whether `import cupy` succeeds; whether SciPy (or cupy) transforms a grid of that size; the outcome of the two density profiles at time step `t` (plasma3d/profile.py:48-103, subject of C30);
the outcome of creating the beam (simulation.py:229-238, subject of C35) and of the charge distribution of a rigid beam at layer `i` (beam3d/beam_calculator.py:166-170). -/
structure Machine where
  cupy : Bool
  fft : ℤ → Except PyErr Unit
  zshape : ℕ → Except PyErr Unit
  rshape : ℕ → Except PyErr Unit
  beam : Except PyErr Unit
  density : ℕ → Except PyErr Unit

/-- `a / b` of Python floats. -/
def pyDiv (a b : ℚ) : Except PyErr ℚ := if b = 0 then .error .zeroDivision else .ok (a / b)

/-- `a[i]` of an array of `n` elements (none if `n` is negative, as for np.arange). -/
def pyIndex (n i : ℤ) : Except PyErr Unit := if (0 ≤ i ∧ i < n) ∨ (i < 0 ∧ -n ≤ i) then .ok () else .error .index

/-- `np.zeros(n)` -/
def npZeros (n : ℤ) : Except PyErr Unit := if n < 0 then .error .value else .ok ()

/-- `assert b` -/
def pyAssert (b : Prop) [Decidable b] : Except PyErr Unit := if b then .ok () else .error .assertion

/-- `for i in range(i0, i0 + n)` -/
def forFrom {E : Type} (body : ℕ → Except E Unit) : ℕ → ℕ → Except E Unit
  | _, 0 => .ok ()
  | i, n + 1 => match body i with
    | .error e => .error e
    | .ok _ => forFrom body (i + 1) n

/-- Marks where an exception appears. -/
def tag {α : Type} (s : Stage) : Except PyErr α → Except (Stage × PyErr) α
  | .error e => .error (s, e)
  | .ok a => .ok a

variable (env : Env)

/-- `float(config.get(k))`: a missing key or a text that is no number is a ValueError (beam_calculate.py:112-114, :305). -/
def floatOf (c : Config) (k : String) : Except PyErr ℚ :=
  match c.values.lookup k with
  | some v => match toFloat? env v with
    | some q => .ok q
    | none => .error .value
  | none => .error .value

/-- `config.get('processing-unit-type').lower()` -/
def puType (c : Config) : String := (c.get env "processing-unit-type").toLower

/-- `Config(self.config)`, simulation.py:82, config.py:170-178: the import of cupy when the processing unit is set. -/
def readConfig (m : Machine) (defaults : List (String × PyVal)) (user : Table) : Except PyErr Config :=
  if puType env (Config.init env defaults true (some user)) = "gpu" ∧ m.cupy = false then .error .import
  else .ok (Config.init env defaults true (some user))

/-- _cell_volume, plasma/rhoj.py:84-93: `1 / particles_per_cell` and the elements 0, 1 and -1 of an array of n_cells. -/
def cellVolume (ppc nCells : ℤ) : Except PyErr Unit := do
  let _ ← pyDiv 1 ppc
  pyIndex nCells 0
  pyIndex nCells 1
  pyIndex nCells (-1)

/-- get_rhoj_computer, plasma/rhoj.py:95-101. -/
def rhojComputer2 (c : Config) : Except PyErr Unit := do
  let q ← pyDiv (c.getfloat env "window-width") (c.getfloat env "transverse-step")
  cellVolume (c.getint env "plasma-particles-per-cell") (pyInt q + 1)

/-- configure_beam_pusher, beam/beam_calculate.py:112-114. -/
def beamPusher2 (c : Config) : Except PyErr Unit := do
  let _ ← floatOf env c "transverse-step"
  let _ ← floatOf env c "xi-step"
  let _ ← floatOf env c "window-width"

/-- BeamCalculator2D.__init__ and get_beam_slice_mover, beam/beam_calculate.py:369-373, :305-307. -/
def beamCalculator2 (c : Config) : Except PyErr Unit := do
  let _ ← pyDiv (c.getfloat env "window-width") (c.getfloat env "transverse-step")
  let _ ← floatOf env c "time-step"
  beamPusher2 env c

/-- PusherAndSolver2D.__init__, push_solver.py:33-40, :154-166, plasma/solver.py:25-37 (the field computer and the mover only read options): the number of the last layer. -/
def construct2 (c : Config) : Except PyErr ℤ := do
  if c.getint env "window-width-steps" = 0 then
    let _ ← pyDiv (c.getfloat env "window-width") (c.getfloat env "transverse-step")
  let q ← pyDiv (c.getfloat env "window-length") (c.getfloat env "xi-step")
  rhojComputer2 env c
  beamCalculator2 env c
  return pyInt q

/-- _adjust_config_values_3d, config.py:185-234, with its exceptions: the division by the transverse step, the minimum of an empty list, `round` of the square root of a negative number. -/
def adjust3 (c : Config) : Except PyErr Config :=
  if c.get env "geometry" = "3d" then do
    let _ ← pyDiv (2 * c.getfloat env "window-width") (c.getfloat env "transverse-step")
    match c.adjust3d env with
    | none => .error .value
    | some c' => if c.getfloat env "plasma-particles-per-cell" < 0 then .error .value else .ok c'
  else .ok c

/-- PusherAndSolver3D.__init__, push_solver.py:190-206: get_functions returns three local variables that are assigned for cpu and gpu only (plasma3d/fields.py:12-33, :108); the number of the last layer. -/
def construct3 (c : Config) : Except PyErr ℤ := do
  if ¬ (puType env c = "cpu" ∨ puType env c = "gpu") then .error .unboundLocal
  let q ← pyDiv (c.getfloat env "window-length") (c.getfloat env "xi-step")
  return pyRound q

/-- The solver built by __pull_config: its configuration, whether it is 3d, and the number of the last layer. -/
structure Built where
  cfg : Config
  is3d : Bool
  last : ℤ

/-- __pull_config, simulation.py:80-125. -/
def pull (m : Machine) (defaults : List (String × PyVal)) (user : Table) : Except PyErr Built := do
  let c ← readConfig env m defaults user
  if (c.get env "geometry").toLower = "3d" then
    let c' ← adjust3 env c
    let k ← construct3 env c'
    return ⟨c', true, k⟩
  else if (c.get env "geometry").toLower = "2d" then
    let k ← construct2 env c
    return ⟨c, false, k⟩
  else .error .exception

/-- The kinds of plasma particles of an ion model; another model leaves the attribute `sorts` (3d) or the local variable `const_arrays` (2d) without a value (plasma/initialization.py:73-98, plasma3d/initialization.py:392-408). -/
def sortsOf (ionModel : String) : Option (List String) :=
  if ionModel = "background" then some ["electrons"] else if ionModel = "mobile" then some ["electrons", "ions"] else none

/-- init_plasma in 2d, plasma/initialization.py:9-101. The profile calls cupy functions on NumPy arrays if the processing unit is gpu (plasma3d/profile.py:54-56). -/
def initPlasma2 (m : Machine) (t : ℕ) (c : Config) : Except PyErr (List String) := do
  let q ← pyDiv (c.getfloat env "window-width") (c.getfloat env "transverse-step")
  let n := pyInt q * c.getint env "plasma-particles-per-cell"
  let _ ← pyDiv (c.getfloat env "window-width") n
  pyIndex n 1
  pyIndex n 0
  m.zshape t
  if puType env c = "gpu" then .error .type
  m.rshape t
  npZeros (pyInt q + 1)
  if c.get env "ion-model" = "background" then rhojComputer2 env c
  match sortsOf (c.get env "ion-model") with
  | none => .error .unboundLocal
  | some l => return l

/-- One xi layer in 2d: get_beam_slice (beam/beam_io.py:98-99), then step_dxi (plasma/solver.py:40-103): `particles` is a dict of kinds of particles and has no attribute `q`. -/
def layer2 (c : Config) (i : ℕ) : Except PyErr Unit := do
  pyAssert (((i : ℚ) + 1) * -(c.getfloat env "xi-step") < (i : ℚ) * -(c.getfloat env "xi-step"))
  npZeros (c.getint env "substepping-depth" + 1)
  if c.getfloat env "trapped-path-limit" ≠ 0 then .error .attribute
  pyIndex (c.getint env "substepping-depth" + 1) 0

/-- `plasma_fineness`, plasma3d/initialization.py:289, :295-296. -/
def fineness (c : Config) : ℚ :=
  if 1 < c.getfloat env "plasma-fineness" then (pyInt (c.getfloat env "plasma-fineness") : ℚ) else c.getfloat env "plasma-fineness"

/-- init_plasma in 3d, plasma3d/initialization.py:279-413: the assertion, the test of the padding, the name `pu_type` that does not exist in this function, the step of the plasma grid (:87), the profile, the deposition (weights.py:255). -/
def initPlasma3 (m : Machine) (t : ℕ) (c : Config) : Except PyErr (Option (List String)) := do
  pyAssert (c.getint env "window-width-steps" % 2 = 1)
  if c.getint env "bound-padding-steps" ≤ 2 then .error .exception
  if c.getbool env "dual-plasma-approach" = true then .error .name
  let _ ← pyDiv (c.getfloat env "transverse-step") (fineness env c)
  m.zshape t
  m.rshape t
  npZeros (c.getint env "window-width-steps")
  return sortsOf (c.get env "ion-model")

/-- One xi layer in 3d, push_solver.py:238-275: the charge distribution of a rigid beam, `const_arrays.sorts` (plasma3d/move.py:337), the transforms of the field solver. -/
def layer3 (m : Machine) (c : Config) (sorts : Option (List String)) (i : ℕ) : Except PyErr Unit := do
  if c.getbool env "rigid-beam" = true then m.density i
  match sorts with
  | none => .error .attribute
  | some _ => m.fft (c.getint env "window-width-steps")

/-- One time step, simulation.py:247-256, push_solver.py:96-105, :229-237: layers 0, 1, ..., the last one. -/
def timeStep (m : Machine) (b : Built) (t : ℕ) : Except (Stage × PyErr) Unit :=
  if b.is3d then
    match initPlasma3 env m t b.cfg with
    | .error e => .error (.plasma t, e)
    | .ok sorts => forFrom (fun i => tag (.layer t i) (layer3 env m b.cfg sorts i)) 0 (b.last + 1).toNat
  else
    match initPlasma2 env m t b.cfg with
    | .error e => .error (.plasma t, e)
    | .ok _ => forFrom (fun i => tag (.layer t i) (layer2 env b.cfg i)) 0 (b.last + 1).toNat

/-- The number of time steps, simulation.py:195-207. -/
def wanted (c : Config) (nSteps : Option ℤ) : Except PyErr ℤ :=
  if c.getbool env "rigid-beam" = true then .ok 1
  else match nSteps with
    | some n => .ok n
    | none => do
      let q ← pyDiv (c.getfloat env "time-limit") (c.getfloat env "time-step")
      return pyInt q

/-- Beam source and transport, simulation.py:210-241: in 2d a rigid beam is handed to MemoryBeamSource, which reads its attribute `particles` (beam/beam_io.py:88); the beam parameters are a dict or a function. -/
def makeBeam (m : Machine) (b : Built) : Except PyErr Unit :=
  if b.cfg.getbool env "rigid-beam" = true then (if b.is3d then .ok () else .error .attribute) else m.beam

/-- `Simulation(config).step(nSteps)`, simulation.py:33-78, :170-271: the configuration is read by both calls. -/
def run (m : Machine) (defaults : List (String × PyVal)) (user : Table) (nSteps : Option ℤ) : Except (Stage × PyErr) Unit := do
  let _ ← tag .constructor (pull env m defaults user)
  let b ← tag .call (pull env m defaults user)
  let n ← tag .call (wanted env b.cfg nSteps)
  tag .call (makeBeam env m b)
  forFrom (timeStep env m b) 0 n.toNat

/-! ### Specification -/

/-- A window in the plain sense: positive width, steps and layer thickness, and a length that is not negative. -/
structure Window (c : Config) : Prop where
  width : 0 < c.getfloat env "window-width"
  step : 0 < c.getfloat env "transverse-step"
  dxi : 0 < c.getfloat env "xi-step"
  length : 0 ≤ c.getfloat env "window-length"

/-- Whole radial cells in the window. -/
def cells (c : Config) : ℤ := ⌊c.getfloat env "window-width" / c.getfloat env "transverse-step"⌋

/-- What a 2d configuration must satisfy to be accepted by the constructor. -/
structure Built2 (m : Machine) (c : Config) : Prop where
  gpu : puType env c = "gpu" → m.cupy = true
  ppc : c.getint env "plasma-particles-per-cell" ≠ 0
  oneCell : 1 ≤ cells env c
  timeStep : ∃ v q, c.values.lookup "time-step" = some v ∧ toFloat? env v = some q

/-- What a 2d configuration must satisfy so that time steps are computed. -/
structure Runs2 (c : Config) : Prop where
  ppc : 1 ≤ c.getint env "plasma-particles-per-cell"
  twoParticles : 2 ≤ cells env c * c.getint env "plasma-particles-per-cell"
  cpu : puType env c ≠ "gpu"
  ion : c.get env "ion-model" = "background" ∨ c.get env "ion-model" = "mobile"
  noLimit : c.getfloat env "trapped-path-limit" = 0
  depth : 0 ≤ c.getint env "substepping-depth"

/-- What a 3d configuration (after its adjustment) must satisfy so that time steps are computed. -/
structure Runs3 (c : Config) : Prop where
  odd : c.getint env "window-width-steps" % 2 = 1
  positive : 0 ≤ c.getint env "window-width-steps"
  padding : 3 ≤ c.getint env "bound-padding-steps"
  single : c.getbool env "dual-plasma-approach" = false
  fine : fineness env c ≠ 0
  ion : c.get env "ion-model" = "background" ∨ c.get env "ion-model" = "mobile"

end Lcode.Start
