# Formal model of lcodePy in Lean 4

## Approach

The model lives in `lean/Verif/`, one directory per area of the code
(`Config`, `Beam2D`, `Mpi`, `Plasma2D`, `Plasma3D`, `Beam3D`, `Gen`, `Diag`).
Each file contains definitions that follow the Python functions line by line (each one cites the
file and lines it models), a small independent specification, the property theorems, and beside
them concrete cases that meet their hypotheses.

* **Numbers.** Python/numpy floating-point numbers are modelled by exact arithmetic: an arbitrary
  linear ordered field `K`, or `ℝ` where square roots, trigonometry or exponentials occur; concrete
  cases are at `ℚ` or `ℝ`. Rounding, overflow, `nan` and `inf` are *not* modelled (division by zero is
  excluded by a hypothesis or proved impossible where it matters). Python `int` is `Int`/`Nat`,
  `int(x)` truncates toward zero, `round` rounds half to even (`Py.lean`).
* **Arrays.** numpy arrays are `List`, or functions on indices together with a length; an
  index outside the array is made visible (`Option`, or an explicit list of nodes touched) where a
  property is about bounds.
* **Loops.** `for` loops are folds or structural recursion. A `while` loop whose termination is part of
  the claim is modelled with fuel and the theorem says which fuel suffices (or that no fuel does).
* **Exceptions.** A Python exception is `none` (or a constructor of an error type).
* **External behaviour** (user functions, random numbers, the other kernels, the order in which MPI
  delivers messages, a sort that is not stable) enters as universally quantified functions, relations
  or schedules, so a theorem holds for every behaviour.
* **Transforms.** scipy's DST-I/DCT-I/FFT and `fourier_gaussian` are modelled by their defining sums.
* A property the code violates is not weakened silently: the violation is proved as a theorem with a
  concrete witness (or, better, as an exact characterisation of when it occurs), the property is
  restated in `properties.jsonl` with the words "Refuted", and the part that holds is proved.

## Per-property plan

| id | modelled (module) | how proved |
|----|----------|-------|
| C01 | `Config` as an association list; set/get/update/typed getters (Config/Model, Props) | induction on the write history |
| C02 | `_adjust_config_values_3d`, `good_size`, `argmin` (Config/Props) | characterisation of argmin over the filtered range; kernel-checked bound for the failure point |
| C03 | `factorize` (Config/Lemmas, Props) | strong induction |
| C04 | `MemoryBeamSource` over a list, no hypotheses (Beam2D/Data, Source) | induction over layers; dichotomy |
| C05 | `BeamSlice` as parallel columns vs list of rows (Beam2D/Data, DataProps) | permutation lemmas |
| C06 | `beam_substepping_step` halving loop with fuel (Beam2D/Pusher) | invariant, largest-power argument |
| C07 | `step_dt` with plasma as oracle (Beam2D/Sweep, SweepProps, Strong) | loop invariant on multisets |
| C08 | 2D beam deposit (Beam2D/DepositProps) | field algebra, sweep induction |
| C09, C41 | `beam_slice_mover`, `particle_fields` over ℝ (Beam2D/Pusher, PusherProps, MoveProps) | induction on substeps, algebra |
| C10 | `steps_per_node`, `current_time`, `final_step` (Mpi/Spec, Model) | arithmetic |
| C11 | processes as message programs; a transition system where each send may be synchronous or buffered (Mpi/Proc, Props) | potential/ordering argument over all interleavings |
| C12 | the trace of layers of a process vs the sequential run (Mpi/Trace, Overtake, World2D, World3D, Run3D) | induction on time step and layer; instances for the modelled 2D and 3D beams |
| C13 | `Simulation.step` state machine (Mpi/Props, World2D) | theorem for every second call |
| C14 | tridiagonal sweeps (Plasma2D/Ode) | invariant 0≤α<1, back substitution, uniqueness |
| C15 | `cumtrapz_numba` (Plasma2D/Ode) | induction |
| C16 | field kernels (Plasma2D/Fields) | algebra over sums |
| C17 | `deposit_plasma` (Plasma2D/Deposit) | sum exchange, weights |
| C18, C22 | initial plasma and its deposition (Plasma2D/Init, Uniform) | exact summation over particles per cell |
| C19, C20 | `_move_one_particle`, its substepping (Plasma2D/Move, Substep) | case analysis; measure + invariant |
| C21, C42 | `step_dxi`, adaptive layers (Plasma2D/Layer, World) | measure + invariant; fixed point |
| C23, C24 | stencil weights, deposition (Plasma3D/Weights) | algebra, comparison with B-splines |
| C25 | move kernels (Plasma3D/Move) | case analysis |
| C26, C27 | `make_plasma_grid`, electrons, ions, dual-plasma helper (Plasma3D/Init) | lists, sums, partition of unity |
| C28 | DST/mixed/DCT solvers and sources (Plasma3D/Spectral, Fields) | trigonometric orthogonality, discrete equations, uniqueness |
| C29 | noise filter (Plasma3D/NoiseFilter) | sums over the grid |
| C30 | profile table and transverse profiles (Plasma3D/Profile) | induction over the table; case analysis |
| C31, C32, C33 | 3D beam deposition, push, time step (Beam3D/Deposit, Move, Sweep) | algebra; multiset invariant; refutations |
| C34 | 3D beam data and source (Beam3D/Data) | lists; counts |
| C35 | beam generator with a random generator as arbitrary state machine (Gen/*) | list invariants; charge sums |
| C36 | output condition of diagnostics (Diag/Time) | arithmetic of remainders |
| C37, C38 | f(xi), slice and particle diagnostics with buffers and files (Diag/FXi, Slice, Buffer, Particles, Coords) | history induction; index arithmetic |
| C39 | save/load as named arrays (Diag/Particles) | key lookup |
| C40 | rigid beam (Beam3D/Rigid) | unfolding with a user function as oracle |
| C43 | 3D plasma step and run (Plasma3D/Step) | invariant; fixed point |
| C44 | exchange of x and y (Plasma3D/Swap) | equivariance, induction over the run |
| C45 | runs of two beams over the world of C12 (Mpi/Causality*) | induction over time steps and layers on the faithful-source interface; refutation by a concrete run |
| C46 | time steps that start in a later layer from a given plasma, over the world of C12 (Mpi/Continue) | simulation between the two runs; refutations by the behaviour of the beam sources |
| C47 | the cupy kernels of the 3D plasma and of the beam deposition as relations (any order of the atomic additions), the padded real FFTs (Plasma3D/Gpu, GpuFields, GpuStep, Beam3D/GpuDeposit) | sums are invariant under permutation; folding of the padded transform; simulation between a GPU run and the CPU run of C43 |
| C48 | the cupy beam pusher and the time step that uses it (Beam3D/GpuPusher, GpuSweep) | algebra of the Boris rotation (implicit equation and its uniqueness), positive root of the quadratic for the mean factor; the sweep by an invariant over the layers, as for C33 |
| C49 | reflection of the whole 3d plasma step (Plasma3D/Mirror, Symmetric, Stream) | each function is shown to commute with the reflection (transforms: change of variable in the sums; splines: even; walls: two reflections commute unless both act), then induction over the layers; order by permutations of zipped lists |
| C50 | simulation.py as a state machine driven by user actions (Sim/Driver), on top of the model of Config | frame lemmas for reading the configuration and for a step, then induction over the history |
| C51 | Config.dump as a chain of leftmost substitutions on the literal text of the template (Config/Dump) | a text made of entries stays one under every substitution (Config/DumpText), then induction over the dictionary |
| C52 | IsSplit (Split), both plasma solvers and beam pushers, and the complete simulations sim2, sim3 with the plasma solver plugged into the layer loop (Mpi/Whole) | every per-particle update commutes with taking a part, every deposit is additive; induction over substeps, layers and time steps |
| C53 | the same complete simulations, with the specification of a straight line in cylindrical and Cartesian coordinates (Mpi/TestBeam, FreeBeam2D, FreeBeam3D) | related runs (run_rel) for test particles; quiet plasma by induction over layers, rows kept by the pusher by induction over substeps |
| C54 | reflection of beam particles, densities, fields and plasma states; the complete 3D simulation (Mpi/Mirror3D, MirrorSim3D) | a symmetry of the beam pusher and of the plasma step is carried over a run by induction over layers and time steps (run_sym); symmetric runs by combining it with independence of order and names (split_run_3D) |
| C55 | charge conjugation of particles, currents, fields and plasma states; complete 3D simulation (Plasma3D/Conj, Mpi/Conj3D); refutation for the 2D fields (Plasma2D/Conj) | every part of the step commutes with the sign change; run_sym carries it over the run |
| C56 | reversal of the azimuthal components of particles, currents, fields (Plasma2D/Chiral, Mpi/Chiral2D) | every part of the 2D step commutes with the reversal; relation carried over the run by run_rel; a state equal to its own reversal does not rotate |
| C57 | regular expression scanner, split_into_segments, stepwise longitudinal distribution, make_beam and make_beam_from_c_beam_profile of the legacy generator (Legacy/*) | independent grammar of written profiles and list-of-blocks specification; induction over the text, the assignments, the layers and the segments |
| C58 | binary64 rounding on rational numbers (Fp/Round), counts, borders, sources, window adjustment, times, slices in floats (Fp/*) | rounding error bounds, monotonicity and gaps between floats; induction over the steps of a process; concrete values by kernel evaluation of the rounding function |
| C59 | mpi_type_from_dtype as a recursive function on dtypes, Send/Recv/Get_count on bytes by MPI's type map rules (Mpi/Datatype) | induction over nested records; writing the sent bytes back to their places; kernel evaluation of the two beam dtypes |
| C60 | the complete 2D and 3D simulations (Mpi/Whole), no new code modelled; specification Particle.shift / Row.shift, heldBack (Mpi/Shift2D, Shift3D, Held3D, Plasma2D/Alike) | relation between layer j of one run and layer j+k of the other kept by every layer and time step; slower-than-light bound on x for the 3D condition; kernel evaluation of the 3D counterexample |
| C61 | index computations of the 2D and 3D depositions and interpolations, wall checks and reflections, in binary64 (Fp/Index, Fp/Index3D); specification AllIn | monotonicity and error bounds of rounding; a half-integer argument for the sharp 2D condition; kernel evaluation of concrete windows |
| C62 | store of arrays, objects and views with in-place writes (Mem/Heap), 2D and 3D solver, xi loop with density buffer and diagnostics, beam rows as views, on that store; specification: the value models of the other properties | simulation relation between the program on the store and the value model: everything made before is kept, the working arrays are new and distinct; induction over turns, layers and time steps |
| C63 | the calls from Simulation(config) to the xi layers as programs in Except with the raising operations (division, index, size, assertion, missing attribute, name, local); specification: the list of requirements Built2, Runs2, Runs3 on the option values | the first failing operation decides; lemmas for each operation, induction over layers and time steps |
| C64 | two runs of the world of C45 with different last layers; the generator of C35 with further segments; specification: equality up to permutation of the layers j + g ≤ N | induction over time steps; in 3D nothing of earlier layers is finished after nothing is held back; the generator loop of the longer beam begins with the loop of the shorter |
| C65 | the field solver of C16, given samples of smooth functions; specification: the differential equations with `deriv`, nothing of the model but the screening factor | Taylor estimates by iterated mean value inequality; discrete maximum principle from the diagonal dominance of the rows; the trapezoidal rule cell by cell |
| C66 | the field solver of C28, given samples of smooth functions of two variables; specification: the partial differential equations with `deriv` along the axes, boundary conditions, nothing of the model | Taylor estimates along the axes; discrete maximum principle with quadratic comparison functions for the Dirichlet and the mixed problem; Parseval's identity of the cosine transform and the smallest eigenvalue for the Neumann problem |
| C67 | the buffer of layers, saved and cleaned as in diagnostics_3d.py, with what a layer contributes as a parameter; the two diagnostics as instances; name parsing on lists of characters; numpy slices and reshape; pictures as the arrays drawn, keyed by their file name | induction over layers and steps; last write wins; rounding estimates for the sub-window |
| C68 | the kernels of Beam3D/Move.lean and GpuPusher.lean; the equations of motion by HasDerivWithinAt; fields by bounds and Lipschitz constants; arrays that sample them | Lipschitz constant of the velocity, mean value inequality, Taylor bounds, discrete Gronwall; a circle for the lower bound |
| C69 | pushTurn of Beam2D/Pusher.lean; rotations around the axis; axisymmetric fields; the equations of motion of C68 | the substep is the Cartesian one up to a rotation and a field read 3/2 dt away; torque identity for the kept angular momentum; the step estimate of C68 |
| C70 | the 2D beam deposit and density, the 3D beam deposit (CPU and GPU weights), cumtrapz_numba, every operation rounded (Fp/Round.lean) | induction over the additions, relative errors multiply; weights sum to one exactly as polynomials; comparison with the exact model of C08 and C15 |
| C71 | tridiagonal_solve with both boundary conditions and the five field formulas, every operation rounded | each rounding is a factor 1 + d; the computed numbers solve a nearby row exactly (backward error); a maximum principle for the rows turns this into a distance to the exact solution; the diagonal dominance 1/i^2 exceeds the rounding errors up to 2^24 cells |
| C72 | the whole 2D plasma solver (push, both substepping loops, deposition, fields, predictor and corrector, initialization) with every operation rounded, and a correctly rounded square root by integer square roots | the loops: invariants relating the rounded counters to exact binary and decimal fractions; the square root of the rounded square of a double is that double, so a particle at rest comes back the same; zero sources give zero fields through the whole chain |
| C73 | deposit_plasma and get_rhoj_computer with every operation rounded, on top of the run of C72 | the exact quadratic weights sum to one for every offset; relative errors of the weights; the sum over the nodes of sequential additions (deposit_total of C70); C61 and the window invariant of C72 keep all indices inside |
| C74 | the CPU branch of lcode/plasma3d with every operation rounded: pushes, deposition, fields around the transforms (which are arguments), noise filter, step_dxi, the xi-loop, init_plasma | fl of zero and of opposite numbers is exact, so the quiet state is a fixed point; the last test of the push is made on the rounded position that the deposition uses again; shares measured after multiplication by the cell area (Near), deposit_total of C70; gamma_doubles of C72 for what a particle carries |
| C75 | lcode/plasma/profiles.py: radii, place_particles, weigh_particles of the five profiles, get_plasma_profile | the step between the first two positions is the width of a ring, 2 pi r dr is exactly the area of a ring around its middle, and areas telescope |
| C76 | make_coarse_plasma_grid, make_fine_plasma_grid, make_plasma_dual, coarse_to_fine | searchsorted characterised on an increasing list; the influences of C26; a bilinear mix with weights that add up to one is a mean and is exact on bilinear fields; the farthest virtual particle is at most 2c cells from the last coarse one; a concrete plasma for the finding |
| C77 | lcode/beam_generator/beam_generator2.py: make_beam, Gauss, rGauss, with the shuffles as an argument | case analysis over the options; permutations column by column; quantiles counted with floors |
| C78 | the 3D plasma pusher and its three passes (Plasma3D/Move, Step); the equations of motion in xi as specification | Lipschitz bounds of slope and force for bounded momenta; Taylor at the middle of a layer; discrete Gronwall; second-order interpolation from exactness on affine fields |
| C79 | the 2D plasma pusher and its substepping loop (Plasma2D/Move, Substep); the three-dimensional equations of motion in xi as specification | a push in a frame turned with the particle is a leapfrog step of the 3D equations; Lipschitz bounds; Gronwall for steps of different length; substeps of the loop as a chain of pushes |
| C80 | both plasma pushers as in C78, C79; a potential of the fields as specification | chain rule along the exact trajectory; Lipschitz bounds of energy and potential; C78 and C79 |
| C81 | `process` and `dump` of the classes of targets.py and diagnostics_list.py, dictionaries as partial functions | induction over layers and time steps; a separate specification of the due times and of the record |
| C82 | moveSubstepped and moveOne of Plasma2D/Move.lean, exact trajectory as in C79 with three derivatives | Taylor expansion around the middle of the push in a fixed frame, prediction of the radius, single push per thin layer, Gronwall with a counter of axis crossings |
| C83 | str.format on the template, Config.c_config with its file effects (Config/CConfig.lean) | the template text is cut once, by kernel evaluation, into literal pieces and named fields; induction over the pieces for all value texts |
| C84 | get_available_configs and main of __main__.py (Config/MainGet.lean) | induction over the characters of a name for str.replace, case analysis |
| C85 | pull_config of the three diagnostics classes, choice of strategy and slicer, loop of the simulation (Sim/DiagStart.lean) | case analysis, induction over the list of diagnostics and over the history of readings |

## Trusted base

* The Lean 4 kernel.
* Axioms: every theorem named in `MANIFEST.json` depends on a subset of `propext`,
  `Classical.choice` and `Quot.sound` (`#print axioms`). No axiom is added; no proof is left open;
  `native_decide`/`bv_decide` are not used. Concrete cases use `decide +kernel`, `norm_num`, `simp`.
* Mathlib at the installed version, as checked by the kernel.
* The hand translation from Python to Lean, documented definition by definition, and the numpy/scipy/numba
  semantics stated in those comments (slices, negative indices, `concatenate`, `argsort`, `meshgrid`,
  structured arrays, DST/DCT/FFT by their sums, numba kernels as the Python they are written in).
* Exact arithmetic in place of IEEE-754.

### Modelled

| file (under `lcode/`) | what |
|---|---|
| `config/config.py` | storage, getters, copy, adjustment of the 3D grid |
| `simulation.py` | `step`: number of steps, time, sources and drains, repeated calls; geometry choice |
| `push_solvers/push_solver.py` | `step_dt` for 2D and 3D (the class `PusherAndSolver` and its two subclasses) |
| `mpi/transport.py`, `mpi/beam_io.py` | step distribution, push/pull/next_step, messages and their order |
| `beam/data.py`, `beam/beam_io.py`, `beam/weights.py`, `beam/beam_calculate.py` | all of the used code |
| `beam3d/data.py`, `beam3d/beam_io.py`, `beam3d/weights.py`, `beam3d/beam_calculator.py`, `beam3d/move.py` | all of the CPU code |
| `plasma/initialization.py`, `ode.py`, `fields.py`, `rhoj.py`, `move.py`, `solver.py`, `data.py` | all, with trapped-path-limit = 0 (any other value raises an AttributeError) |
| `plasma3d/initialization.py`, `profile.py`, `weights.py`, `rhoj.py`, `fields.py`, `move.py`, `noise_filter.py`, `solver.py`, `data.py` | all of the CPU code |
| `alt_beam_generator/*` | all: segments, shapes, layer by layer generation |
| `diagnostics/utils.py`, `FXi/*`, `slice.py`, `particles.py` | output condition, buffers, quantities, probes, limits, files (as named arrays) |

### Not modelled

* GPU paths: the kernels of the 3D code are modelled (C47, C48) with `raw` arguments indexed in row-major order and `rfft2` by its definition; memory traffic is not.
* Floating-point rounding is treated for counts, layer borders, beam sources, times and output conditions (C58, C61) and in the
  theorems C70-C74; the remaining statements about fields and particle motion are over exact reals. Performance; memory; thread
  scheduling inside numba's `prange` (the loop bodies touch disjoint data or add to arrays, so the model sums in loop order).
* The MPI library itself: a channel between two neighbours is first-in first-out, each single message may
  be synchronous or buffered; message sizes and datatypes (`mpi/util.py`) are treated separately (C59).
* Drawing of pictures by the diagnostics, printing, the file system and the npz container (a file is a name
  and a list of named arrays; a later write replaces an earlier one).
* Parsing of text: the density table is modelled as parsed numbers; the command line of `__main__.py`. What the C program does with its configuration
  (the text written for it is C83).
* Code never reached from `Simulation`: of it `beam_generator/*`, `diagnostics/targets.py`, `diagnostics_list.py`,
  `diagnostics_3d.py`, `plasma/profiles.py` and the dual plasma approach are modelled (C57, C67, C75, C76, C77, C81; the last one raises
  a NameError at start), and `diagnostics_class.py` (C81); `process.py` (two empty functions) and the commented-out second half of `push_solver.py` are not.

## Testing the theorems

`seeded/LOG.jsonl` records each deliberately wrong edit of the model, the claim it breaks, the theorems that
then failed and those that were tightened because they did not.
