#!/usr/bin/env python3
"""Generates /verif/properties.jsonl. Kept so the list stays editable."""
import json, os
P = []
def p(id, title, statement, quantifier, why, anchors):
    P.append(dict(id=id, title=title, statement=statement, quantifier=quantifier,
                  why_tests_cant=why, anchors=anchors))

p("C01","Configuration is last-write-wins with frame",
  "After any sequence of option assignments and bulk updates, reading a key gives the value of the most recent write to that key (or the fallback / default if it was never written) and no write changes the value of any other key; the geometry value 'circ' is stored as '2d'.",
  "every starting table, every finite sequence of set/update calls, every key",
  "tests try a few keys; the claim is about every history of writes",
  ["lcode/config/config.py: Config.get, Config.set, Config.update, Config.getbool"])
p("C02","3D transverse grid chosen by the program is odd, FFT-friendly and nearest to the request",
  "When a 3D configuration is adjusted, the number of transverse grid steps that results is odd, one less than it factors into 2,3,5,7,11,13 only with at most one factor 11 or 13, it lies within 100 of the requested number of cells, no other such number in that range is closer, and the window width is exactly steps times step size.",
  "every requested window width and step size for which the search range contains a good number",
  "the set of grid sizes is unbounded; the later code asserts oddness for all of them",
  ["lcode/config/config.py: adjust_window_width_and_steps_3d, good_size, factorize"])
p("C03","Factorisation helper is correct",
  "The list of factors returned for a positive number multiplies to the number and consists of primes in ascending order.",
  "every positive integer", "infinitely many integers",
  ["lcode/config/config.py: factorize"])
p("C04","2D beam source hands out each particle exactly once, in its own layer, if no particle is ahead of the window",
  "Reading the beam layer by layer from the head of the window to the tail yields, concatenated, exactly the particles of the window, each once and in order, and every particle delivered for a layer lies within that layer (a stub particle below xi = -99999 is removed). Refuted otherwise: if any particle is ahead of the window head, every layer comes out empty.",
  "every beam array, every step size and number of layers",
  "tests use one beam; the partition must hold for every coordinate set including ties on layer edges",
  ["lcode/beam/beam_io.py: MemoryBeamSource.get_beam_slice, find_sub_slice", "lcode/beam/data.py: BeamParticles"])
p("C05","Beam slice operations keep each particle's attributes together",
  "Concatenating, sub-slicing, sorting by longitudinal position and splitting into lost / finished / still-moving parts never mix attributes of different particles: as a multiset of particle records the parts add up to the input, and each part contains only particles satisfying its criterion.",
  "every beam slice and every status assignment",
  "the attribute arrays are parallel; a wrong permutation of one of them is only visible on specific inputs",
  ["lcode/beam/data.py: BeamSlice, BeamParticles", "lcode/beam/beam_calculate.py: split_beam_slice"])
p("C06","Energy-dependent beam substeps add up exactly to one time step",
  "For every beam particle the individual substep chosen is a power-of-two fraction of the time step, is the largest such fraction allowed by the particle's energy criterion, and number-of-substeps times substep equals the time step; the search ends for every positive criterion.",
  "every particle momentum and charge-to-mass ratio, every time step and substepping energy",
  "exactness of the sum and termination range over all real inputs",
  ["lcode/beam/beam_calculate.py: beam_substepping_step, init_substepping"])
p("C07","No beam particle appears or disappears inside a time step except in the documented ways",
  "Over one time step of the longitudinal sweep, the particles taken from the beam source are, as a multiset of identities, exactly those written to the beam drain plus those reported lost plus those still in flight in the last layer.",
  "every beam, every number of layers, every outcome of the pusher for each particle",
  "quantifies over every behaviour of the pusher and every history of fall-behind events",
  ["lcode/push_solvers/push_solver.py: step_dt", "lcode/beam/beam_calculate.py: BeamCalculator"])
p("C08","2D beam charge deposition conserves charge and dipole moment",
  "The charge a beam particle adds to the surrounding grid nodes (two longitudinal layers, two radial nodes) sums to the particle's charge, every share is non-negative, and the charge-weighted mean node position equals the particle's position.",
  "every particle position inside its layer and every charge", "infinitely many positions",
  ["lcode/beam/weights.py: add_at_numba, single_particle_weights", "lcode/beam/beam_calculate.py: layout_beam_layer"])
p("C09","2D beam pusher respects causality, the lost boundary and the axis",
  "Moving a beam particle never increases its longitudinal co-moving coordinate, a particle that is kept has radius below the loss boundary and non-negative radius, and charge, mass ratio and identity are unchanged; without external magnetic field the angular momentum is unchanged.",
  "every particle state, every field, every substep count", "real-valued state space",
  ["lcode/beam/beam_calculate.py: beam_slice_mover, push_particles"])
p("C10","Time steps are distributed over the processes without gap or overlap",
  "For every number of processes and requested time steps, each global time step is executed by exactly one process, at physical time (index+1)*time_step, and exactly one executed step is marked final.",
  "every number of processes and time steps", "both numbers are unbounded",
  ["lcode/mpi/transport.py", "lcode/mpi/beam_io.py", "lcode/simulation.py"])
p("C11","The pipelined parallel run never deadlocks and ends with every message consumed",
  "Under blocking point-to-point communication, from every reachable state of the pipelined run some process can act until all are finished, and at the end no message remains.",
  "every number of processes, time steps, layers and every interleaving", "schedules are unbounded",
  ["lcode/mpi/transport.py: MPITransport", "lcode/mpi/beam_io.py: MPIBeamSource, MPIBeamDrain", "lcode/simulation.py: step"])
p("C12","The parallel run computes the same beam as the single-process run",
  "For every beam, every plasma solver, every number of processes and every interleaving, when the parallel run ends each time step has received layer by layer the same beam slices (up to the order of particles inside a slice), reports the same physical time and drains the same beam as in the single-process run, provided every particle finishes its time step in the layer that drains it. In 2D that holds in particular whenever no sub-step moves a particle farther than its half-step prediction. Refuted in 3D in general: the 3D pusher does not test whether a finished particle is still in the layer, so a resting particle near the end of a layer is seen by the next time step in another layer when two processes are used than when one is.",
  "all beams, all plasma solvers, all process counts, all interleavings", "schedules, histories and beams are unbounded",
  ["lcode/mpi/beam_io.py", "lcode/push_solvers/push_solver.py", "lcode/beam/beam_io.py", "lcode/beam3d/beam_io.py", "lcode/beam3d/move.py"])
p("C13","A second call of step does not continue the run",
  "Users split runs into step(a); step(b). For every a, b, beam, plasma, rank and message history the second call ignores b: it executes the number of steps of the first call again, reports the physical times of the first call again, and in a single-process run (2D: any beam; 3D: any beam that started behind the window head) its first time step sees an empty beam in every layer. So step(a); step(b) is never step(a+b).",
  "every a, b, beam, layer solver, rank and number of processes", "every split point and every history of the first call",
  ["lcode/simulation.py: Simulation.step", "lcode/mpi/beam_io.py: MPIBeamTransport"])
p("C14","The radial field solver solves its linear system exactly",
  "For every right-hand side and every non-negative screening coefficient the tridiagonal solver divides only by non-zero numbers and the returned vector satisfies every equation of the discretised system, including the boundary rows.",
  "every grid size, right-hand side, non-negative factor and boundary type", "real vectors of every length",
  ["lcode/plasma/ode.py: Solver/tridiagonal_solve"])
p("C15","Cumulative radial integration is the trapezoidal rule",
  "The forward (backward) cumulative integral is zero at the axis (wall), equals the composite trapezoidal rule, satisfies the trapezoid recurrence at each node, is linear in the integrand and monotone for non-negative integrands.",
  "every grid size and integrand", "real vectors of every length",
  ["lcode/plasma/ode.py: cumtrapz_numba"])
p("C16","2D fields obey the boundary conditions",
  "After each layer the radial electric field and azimuthal magnetic field vanish on the axis, the longitudinal electric field vanishes at the wall, and the corrected longitudinal magnetic field carries zero total flux through the window.",
  "every current and charge distribution, grid size", "real vectors of every length",
  ["lcode/plasma/fields.py"])
p("C17","2D plasma deposition conserves charge",
  "Summing the deposited charge over all cells (times their volume) gives the total charge of the particles, including particles next to the axis and next to the wall, and no cell outside the grid is written.",
  "every set of particle positions inside the window", "infinitely many positions",
  ["lcode/plasma/rhoj.py: deposit_plasma"])
p("C18","An undisturbed 2D plasma has zero net charge in every cell and a uniform plasma has unit density",
  "Depositing the initial electron distribution and adding the ion background (fixed or mobile ions) gives zero charge density and zero currents at every radial node, for every non-negative density profile. For the uniform plasma the electron density is exactly -1 at every node except the axis pair when the number of particles per cell is odd and the nodes next to the wall; the odd case is refuted.",
  "every number of cells, particles per cell, radial profile and ion model", "two unbounded integers and a function",
  ["lcode/plasma/initialization.py", "lcode/plasma/rhoj.py"])
p("C19","2D plasma particles stay inside the window and are pushed by the leapfrog scheme",
  "After every push the radius of each plasma particle lies in [0,R] and the particle either keeps its charge or is discarded as a whole (no charge, no momentum, placed at R/2). A push inside the window is the relativistic leapfrog step in the fields interpolated at the half point with the same shape functions as the charge deposition; a particle that crosses the wall is mirrored and stopped; without fields it moves on a straight line.",
  "every particle state, field and step", "real state space",
  ["lcode/plasma/move.py: _move_one_particle, _interpolate_fields"])
p("C20","Adaptive longitudinal substepping of a plasma particle covers the step exactly",
  "The loop ends after a bounded number of turns; the accepted substeps of one particle add up exactly to the layer thickness unless the particle loses its charge on the way, each accepted substep moved it less than the cell limit or is of the smallest size, and a rejected trial leaves no trace.",
  "every particle, field and accuracy outcome", "every accept/reject history",
  ["lcode/plasma/move.py: _move_particles_with_substepping"])
p("C21","Adaptive plasma substepping of a layer covers the layer exactly and ends",
  "For every sequence of needs-refinement decisions, the sub-layers solved add up exactly to one layer, the refinement depth never exceeds the configured maximum and the loop ends.",
  "every outcome of the refinement test at every point", "every decision history",
  ["lcode/plasma/solver.py: step_dxi"])
p("C22","Initial 2D plasma has the right charge and lies in the window",
  "Initial particle radii are strictly inside (0,R), strictly increasing, and the total particle charge equals minus the charge of a uniform column of radius R; mobile ions neutralise the electrons.",
  "every window and particles per cell", "unbounded sizes",
  ["lcode/plasma/initialization.py"])
p("C23","3D interpolation weights form a partition of unity",
  "The five-point stencil weights used to move quantities between particles and the 3D grid are the values of the quartic B-spline at the distances to the five nearest nodes: they sum to one, reproduce linear functions, have the right second moment and are non-negative; interpolation of a field is exact for fields affine in x and y.",
  "every offset in the cell and every position in the window", "continuum of positions",
  ["lcode/plasma3d/weights.py", "lcode/beam3d/weights.py"])
p("C24","3D plasma deposition conserves charge and current and stays inside the grid",
  "The sum over the grid of the deposited charge (each current) equals the sum over the particles, whatever their order; each node receives the sum over particles of charge times two B-spline factors, so its sign is the sign of the charges; every node touched exists; deposition and interpolation are adjoint.",
  "all particle lists whose particles lie inside the reflection boundary", "continuum of positions",
  ["lcode/plasma3d/weights.py", "lcode/plasma3d/rhoj.py"])
p("C25","3D plasma particles never cross the reflection boundary",
  "After a plasma push every particle is strictly inside the reflection boundary or has been switched off (zero charge, zero momentum, zero offset), whatever the fields; a switched-off particle stays off. A push is the drift-kick of the Lorentz equation at the mid point; a particle past the boundary is mirrored back once and stopped; a resting particle without fields stays and a free particle moves uniformly. The field nodes read by a push exist while the estimated position is within five half-widths of the axis; a particle flung further makes the code read outside the field arrays (refuted part).",
  "every particle state, field and configuration", "real state space",
  ["lcode/plasma3d/move.py"])
p("C26","The initial 3D plasma grid is symmetric and evenly spread",
  "The initial coordinates are antisymmetric about the axis, equidistant with spacing step/fineness, strictly inside the window, never on the boundary between cells, and each cell whose full width is inside the covered range holds exactly fineness coordinates per axis. A fineness between 0 and 1, documented by a branch of the code, never reaches that branch (finding).",
  "every grid size and positive integer fineness; every real fineness for antisymmetry and the dead branch", "two unbounded integers",
  ["lcode/plasma3d/initialization.py: make_plasma_grid"])
p("C27","3D initial charge is neutral",
  "The electrons of the initial plasma deposit exactly the charge density -1 at every node more than three cells inside the edge of the plasma; adding the ion background computed at start (or the mobile ions) to the first electron deposition gives exactly zero at every node; resting particles carry no current; the initial particles are inside the boundary; dual-plasma fine particles get their displacement from coarse particles with influences that sum to one.",
  "every grid size, fineness and transverse profile", "unbounded sizes",
  ["lcode/plasma3d/initialization.py"])
p("C28","3D fields obey the wall conditions and the spectral solvers solve the discrete equations",
  "The longitudinal electric field and the potential are zero at every perimeter node and solve the five-point Poisson equations with the divergence of the current and with j_z - rho; the transverse fields vanish tangentially/normally on the proper walls and solve the screened five-point equations with the documented sources; the longitudinal magnetic field has zero mean, zero normal derivative and solves its Poisson equation, whose source has zero mean when no current touches the outermost two layers of nodes; the solutions of these discrete problems are unique; without sources all fields are zero.",
  "every grid size, step, subtraction coefficient and source array", "real matrices of every size",
  ["lcode/plasma3d/fields.py"])
p("C29","The declustering filter conserves momentum and bounds its kick",
  "Applying the declustering filter to the plasma particles conserves the total momentum and the total of the momentum weighted by any affine function of the initial position up to the damping, leaves a displacement that is affine in the initial position untouched, kicks no particle by more than the step times the force bound for the configured limit, and does not kick particles displaced beyond the limit. The chaotic part of the displacement has zero mean. The documented damping option is never read (finding).",
  "every displacement field, grid size and configuration", "real arrays of every size",
  ["lcode/plasma3d/noise_filter.py"])
p("C30","Plasma density profiles evaluate to the written description",
  "The longitudinal density multiplier of a time step is the straight line through the user's table within its segment at the middle of the step, one past the table, continuous where neighbouring segments agree, and stays in the range of the tabulated densities; each transverse profile gives the documented value and depends on the radius only; no density is ever negative (a negative one makes the plasma uniform), and charge and mass get the same factor. Refuted: the ramp of the channel profile has a wrong offset (it can even be negative, which makes the whole plasma uniform), and a particle exactly at the outer end of a stepwise ramp keeps the full density; a ramp without any particle in it is an error.",
  "every table, profile, set of particles and time step", "real arguments, tables of every length",
  ["lcode/plasma3d/profile.py"])
p("C31","3D beam deposition conserves charge and spreads it over two layers, with the shares exchanged",
  "The charge deposited by a beam particle on the two adjacent layers sums to its charge, over a layer and over a whole time step; the transverse shape has unit sum and is centred at the particle; deposition of a particle away from the edge only touches grid nodes. The density of a layer is the linear spreading of all particles of the window between their neighbouring layers, with every particle mirrored about the middle of its own layer: the layer a particle is closer to gets the smaller share (a refutation of the share one expects).",
  "every position, charge, list of layers, grid and step size", "continuum of positions and lists of every length",
  ["lcode/beam3d/weights.py: deposit_beam, deposit_beam_numba, weight1", "lcode/beam3d/beam_calculator.py: BeamCalculator.layout_beam_layer"])
p("C32","3D beam particles are moved by a leapfrog step in fields taken one layer behind them",
  "Every completed substep changes the momentum by charge sign times dt times the Lorentz force of the fields at the half-step position and the position by the velocity of the mean momentum. The field used is affine-exact in the transverse plane and for fields that do not change between the two layers, but for a field that is linear in the longitudinal coordinate it is the value exactly one xi step behind the particle: the weights of the two layers are exchanged, so the combination is an extrapolation (weights in [-1,0] and [1,2]), which refutes the expected convex interpolation.",
  "every particle, field arrays, layer and step size", "real-valued phase space",
  ["lcode/beam3d/move.py: move_beam_particles_numba", "lcode/beam3d/weights.py: weight1"])
p("C33","3D beam: the books of a time step",
  "Whatever the plasma does, every particle handed out in a time step is, with its identifier up to sign, its charge and charge-to-mass ratio, exactly once in the new beam, in the layer left over at the end of the sweep, or among those that hit the wall and were not taken back; every particle of the new beam did all its substeps (which make up the time step exactly) or hit the wall; over any number of time steps no particle is created or duplicated. The kernel reports every particle in at least one of lost, finished and fell. Refuted: that the three sets are disjoint (a particle that hits the wall at x below the xi of the next layer is lost and fell, and stays in the beam with its identifier negated) and that a finished particle stays in the beam (the final test compares x instead of xi, so a particle with x below the tail of the window vanishes).",
  "every beam, fields, plasma response, number of layers and number of time steps", "unbounded histories over a real state space",
  ["lcode/beam3d/move.py: move_beam_particles_numba", "lcode/beam3d/beam_calculator.py: BeamCalculator", "lcode/push_solvers/push_solver.py: PusherAndSolver3D.step_dt"])
p("C34","3D beam source hands out each particle exactly once, in its own layer, if no particle is ahead of the window",
  "All beam operations keep the eleven attributes of a particle together; the source sorts the beam from head to tail; when all particles are behind the window head, layer i gets exactly the particles whose coordinate lies in layer i and each particle of the window is handed out exactly once. In general layer i gets as many particles as lie in it, taken from the head of the rest, so every particle at or ahead of the head displaces one (refutation of the unconditional claim).",
  "every beam array and number of layers", "every coordinate set",
  ["lcode/beam3d/beam_io.py: BeamSource", "lcode/beam3d/data.py: BeamParticles"])
p("C35","Generated beams are well-formed and carry the prescribed current",
  "A generated beam has identifiers 1..N, once each, is sorted from head to tail and lies entirely in the layers whose middles the segments cover. The number of macroparticles of a layer is the integer part of the number per layer times the local current relative to the beam current; their charges add up to twice the current of the layer, up to less than one macroparticle; energies, charge-to-mass ratio and the transverse distribution (a Gaussian cut at the wall, no particle born beyond it) are those of the segment; the solver's beam source hands out exactly these layers. Segment parameters are the segment's own, else those of a default dictionary given before it, else the built-in ones. Refuted: a segment of opposite sign gets charge of the beam's sign with a charge-to-mass ratio of its own sign; the generator raises exactly when the middle of a layer falls on the joint of two segments. If all segments are whole numbers of layers long it never raises, and flat segments give exactly (layers) x (integer part of the number per layer times |amplitude|) macroparticles each; the beams of both shipped examples are of this kind (537500 particles for original-ssm).",
  "every list of segments, random generator, step, and parameter dictionary", "tables of every length, every random stream",
  ["lcode/alt_beam_generator/beam_generator.py: generate_beam, generate_beam_array, rigid_beam_current", "lcode/alt_beam_generator/beam_shape.py: BeamShape", "lcode/alt_beam_generator/beam_segment_shape.py: BeamSegmentShape", "lcode/alt_beam_generator/rshape.py: gauss2d, gauss3d", "lcode/alt_beam_generator/eshape.py", "lcode/alt_beam_generator/xishape.py"])
p("C36","Diagnostics are written at the first step and at every output period, and at no other time",
  "A period shorter than the time step counts as the time step. For every time step and output period, each multiple of the period that the run reaches gets an output from a time step within half a step of it; conversely every output except that of the first step of the run (always written, by rank 0) lies within half a step of a multiple; a multiple is written once, or by two consecutive steps if it falls exactly midway between them.",
  "every positive time step, every period, every run length, every rank", "unbounded histories of real times",
  ["lcode/diagnostics/utils.py: absremainder, Diagnostic.condition_check", "lcode/diagnostics/FXi/FXi.py: FXiDiag", "lcode/diagnostics/slice.py: SliceDiag", "lcode/diagnostics/particles.py: ParticlesDiag"])
p("C37","Each diagnostics file contains exactly its own time step, and the quantities asked for",
  "For every history of time steps, the files of an f(xi) or slice diagnostic are those of the output steps, in order; each holds, under the name of each selected quantity and of no other, one entry per layer of that step within the limits, in order: the array of that quantity at the probes (nearest grid node, first coordinate x, second y), on the line of the offset or in the transverse block; and the xi of these layers. Particle files hold the beam and the plasma of the end of their own step, snapshots the layers near multiples of the xi period. The recorded energy flux is zero exactly when the electrons rest and the fields move with the window. Refuted: file names keep the time to 0.01, so for shorter steps later outputs replace earlier ones; a probe up to a window beyond the negative edge is silently read at the opposite side; the first file of a transverse slice may be empty.",
  "every history of steps and layers, every selection of quantities, probes, limits, grid size and rank", "unbounded histories and arrays of every size",
  ["lcode/diagnostics/FXi/FXi.py: FXiDiag, FXiType", "lcode/diagnostics/FXi/Strategy3D.py", "lcode/diagnostics/FXi/StrategyCircular.py", "lcode/diagnostics/slice.py: SliceDiag and slicers", "lcode/diagnostics/particles.py: ParticlesDiag"])
p("C38","Slice limits, offsets and stored coordinates",
  "The coordinates stored with a slice are, value by value, those of the grid nodes the values come from. With user limits every node further than half a cell inside the limits is present and every node present is within half a cell of them; the line of an offset is the grid line at or just below it; layers are kept exactly for to <= xi <= from. Refuted: with default limits a longitudinal slice lacks the last column for every grid of 1, 5, 9, ... columns (and is complete for 3, 7, 11, ...), a transverse slice always lacks the last row and column, a 2D slice lacks the wall node; an XI_X offset beyond the positive edge raises while XI_Y is clamped; transverse limits selecting different numbers of rows and columns raise.",
  "every grid size, step, limits and offset", "unbounded sizes, real coordinates",
  ["lcode/diagnostics/slice.py: _3D_XI_X_Slicer, _3D_XI_Y_Slicer, _3D_X_Y_Slicer, _2D_XI_R_Slicer"])
p("C39","Saved beams can be loaded again",
  "In 3D, loading a beam file written by the program restores the same particles, in order, ready for a time step; in 2D this holds for files with the names of the particle table. Refuted: no beam file written by the 2D program can be loaded (it has pr and pz, the loader needs p_r and p_z; with these two renamed it loads exactly), and no plasma file written by the particle diagnostic can be loaded as an external plasma state (it lacks the fields).",
  "every beam and every saved plasma", "beams of every size and content",
  ["lcode/beam/beam_io.py: MemoryBeamDrain.save", "lcode/beam/data.py: BeamParticles.load", "lcode/beam3d/data.py: BeamParticles.save, load", "lcode/plasma/initialization.py: load_plasma", "lcode/plasma3d/initialization.py: load_plasma"])
p("C40","A rigid beam deposits its profile and is not moved",
  "With a rigid beam the charge density given to the plasma at each layer is the user's function of that layer's xi, together with that of the layer before (zero for the first), and the beam does not change. For a density computed point by point the value in a cell is the user's density with x and y exchanged, so the deposited density is the user's density exactly when that is symmetric in x and y (refutation for every other profile).",
  "every user function, plasma response, grid and number of layers", "every function",
  ["lcode/beam3d/beam_calculator.py: RigidBeamCalculator", "lcode/beam3d/beam_io.py: RigidBeamSource, RigidBeamDrain"])
p("C41","The 2D beam pusher integrates the Lorentz equation of motion",
  "Every completed substep advances the momentum of a beam particle by charge sign times dt times the Lorentz force of the fields at its half-step position, advances its position by the velocity of the mean momentum minus the light speed, reproduces fields that are affine in radius and xi exactly, and without fields conserves longitudinal and transverse momentum, angular momentum and energy.",
  "every particle, field arrays, external magnetic field, layer and substep", "real-valued phase space",
  ["lcode/beam/beam_calculate.py: configure_beam_pusher", "lcode/beam/weights.py: particle_fields"])
p("C42","A neutral 2D plasma without a beam stays exactly at rest",
  "The plasma created by the initialization, when no beam charge is present and declustering is off, is left unchanged by any number of layers: no particle moves or gains momentum or loses charge, and all fields and currents stay exactly zero. With declustering on this fails: the noise amplitude of an exactly neutral plasma is minus half the second difference of its density.",
  "every density profile, ion model, external magnetic field, grid, sensitivity, substepping depth, number of corrector steps and number of layers", "unbounded number of layers and continuum of parameters",
  ["lcode/plasma/solver.py: step_dxi, noise_amplitude", "lcode/plasma/initialization.py", "lcode/plasma/move.py", "lcode/plasma/fields.py"])
p("C43","The 3D plasma step is the centred scheme, preserves a neutral plasma and keeps every particle on the grid",
  "The plasma created by the 3D initialization without a beam is left exactly at rest with zero fields and currents by any number of steps; and for every sequence of beam layers every particle stays inside the reflection boundary or is switched off, so deposition touches only existing nodes. Each step moves the particles from the previous layer by the mean of the old and new fields, whose sources are the previous currents, the estimated currents and both beam layers; declustering only adds the noise filter at the end.",
  "every initial plasma, configuration and sequence of beam layers, unbounded number of layers", "unbounded histories over a continuum of states",
  ["lcode/plasma3d/solver.py", "lcode/push_solvers/push_solver.py: PusherAndSolver3D.step_dt", "lcode/plasma3d/initialization.py: init_plasma"])
p("C44","The 3D plasma solver treats x and y alike",
  "Exchanging the two transverse axes of the plasma state and of every beam layer exchanges them in the result, for the deposition, the fields, the particle push, a whole step and a whole run.",
  "every plasma state and beam sequence, declustering off", "unbounded histories over a continuum of states",
  ["lcode/plasma3d/solver.py", "lcode/plasma3d/fields.py", "lcode/plasma3d/move.py", "lcode/plasma3d/weights.py"])
p("C45","Beam influence travels backwards, at most one layer forwards per time step",
  "In a single-process run, everything that happens in layer j of time step g (the beam slice received, the plasma and beam density after the layer, the particles that finish there) depends only on those initial beam particles that lie in layers 0..j+g of the window: two beams behind the window head that agree there cannot be told apart, whatever else they contain and in whatever order. This holds in 2D whenever no particle overtakes its layer and in 3D whenever no substep carries a particle ahead of its half-step point; in the first time step it holds without any condition, as plain causality (layers 0..j decide layer j). The order in which particles are given, and the particles behind the window, never matter (2D: any beam; 3D: any beam behind the window head), with no condition on the motion. Strict causality is refuted: a charge in layer 1 changes what is in layer 0 after one time step, because a particle is pushed by the fields of the two layers around it.",
  "all pairs of beams, all plasma solvers, all layers, all time steps", "pairs of runs over all beams, solvers and numbers of steps",
  ["lcode/push_solvers/push_solver.py: step_dt", "lcode/beam/data.py", "lcode/beam3d/move.py", "lcode/beam/beam_io.py", "lcode/beam3d/beam_io.py"])
p("C46","Continuing from a stored plasma state",
  "When a run is given an external plasma state that was stored in layer k-1 of any time step of an uninterrupted single-process run with the same beam, and the whole beam lies behind that layer, then the continued run is exact in every time step: the same beam at its start and, in every layer from k on, the same beam slice received, the same plasma, beam density and particles still to move, the same particles finished (2D and 3D; the initial plasma must not depend on the time). The layer where the continuation starts is the one after the stored layer whenever the stored coordinate is within half a longitudinal step of it; a file without a coordinate is read as layer 0 stored (start in layer 1) in 2D and as a fresh plasma (start in layer 0) in 3D. The unrestricted claim is refuted: in 2D a single beam particle ahead of layer k makes the continuation see no beam at all, in any layer and time step, and compute the plasma of an empty window; in 3D the continuation hands out, as layer k, particles from the head of the beam which are not in layer k, as soon as at least as many particles are ahead of layer k as are in it, and on two particles at rest the second one is never handed out.",
  "all beams, all plasma solvers, all stored layers and time steps, all time steps and layers of the continuation", "two whole runs are compared for every beam, solver and stored layer",
  ["lcode/simulation.py: external_plasmastate, step", "lcode/push_solvers/push_solver.py: step_dt", "lcode/plasma/initialization.py: load_plasma", "lcode/plasma3d/initialization.py: load_plasma", "lcode/beam/beam_io.py", "lcode/beam3d/beam_io.py"])
p("C47","The GPU version computes what the CPU version computes (3D plasma, beam density, substeps)",
  "With processing-unit-type gpu the 3D code adds to the density arrays with atomic operations in an order that nothing fixes, names grid nodes by one number, and finds the fields with real FFTs of padded arrays instead of sine and cosine transforms. In exact arithmetic none of this changes a result: whatever the order of the additions in each of the three depositions of every step, every run of the GPU over any number of layers ends with exactly the particles of the CPU run and with the same fields, charge density and currents at every node of the grid, with or without mobile ions and declustering, from the same initial plasma and beam density, as long as in the CPU run no free motion over one layer leads further than five boundary distances from the axis (needed for the nodes to exist; grid width odd, reflection padding > 2 steps, at least three particles in a row for declustering). The same holds for the beam density of every layer (particles two steps away from the edge) and for the substeps given to beam particles. Findings: the DCT of the GPU version has the opposite sign of scipy's (harmless, since it is used in pairs), with two particles in a row the declustering takes values from the next row, and a beam particle near the edge adds charge at the opposite side of the grid.",
  "all plasma states, beam densities, numbers of layers and all orders of the atomic additions", "the order of the atomic additions changes from run to run and cannot be enumerated",
  ["lcode/plasma3d/weights.py: get_deposit_plasma_cupy, weight4_cupy", "lcode/plasma3d/move.py: get_move_smart_kernel_cupy, get_move_wo_fields_kernel_cupy", "lcode/plasma3d/fields.py: get_dct2d, get_dst2d, mix2d", "lcode/plasma3d/noise_filter.py: get_inhomogeneity_calculator_cupy", "lcode/plasma3d/solver.py: step_dxi", "lcode/beam3d/weights.py: get_deposit_beam_cupy", "lcode/beam3d/beam_calculator.py: get_beam_substepping_step_cupy"])
p("C48","The GPU beam pusher: Higuera-Cary scheme, its conservation laws and the books of a GPU time step",
  "With processing-unit-type gpu beam particles are pushed by another scheme than on the CPU. For every particle, every pair of field layers and every step size a completed substep changes the momentum by the charge sign times dt times E + (mean momentum / g) x B with the fields at the half-step position, and the position by half a step with the old velocity and half with the new one. For particles of unit mass g is exactly the relativistic factor of the mean momentum. The square of the energy changes by exactly twice the work of E on the mean momentum, so a magnetic field never changes the energy; a substep run with the opposite dt through the same fields brings the particle exactly back; without a force (E + v x B = 0) a unit-mass particle keeps its momentum. The CPU scheme violates the first two (in a magnetic field every substep adds energy) and has the third for any mass. In a time step on the GPU, whatever the plasma does, no particle of the window is dropped or duplicated: the new beam comes in blocks, block i holding exactly particles whose xi lies in layer i, each having done all its substeps; everything else hit the wall or left the window (or was in the layer behind the last one moved). Refuted: for any other mass (protons) the factor g is wrong whenever the magnetic field bends the path (4*b_sq should carry the square of the mass); a particle that leaves the grid and its layer in the same substep is both lost and handed on, and stays in the beam with a negative identifier.",
  "all particles, masses, fields, step sizes, numbers of layers and time steps", "statements about real-valued inputs (square roots of field values), all step sizes and unbounded histories; tests sample them and cannot separate an exact conservation law from a small error",
  ["lcode/beam3d/move.py: get_move_beam_particles_kernel_cupy", "lcode/beam3d/beam_calculator.py: move_beam_layer", "lcode/push_solvers/push_solver.py: step_dt"])
p("C49","Left and right are alike in 3d: a mirrored plasma and beam give the mirrored solution",
  "Without declustering, let plasma, ion background, fields, currents and the beam charge density of every layer be reflected at x = 0 (or at y = 0). Then the layers computed from them are the reflected layers: positions and transverse momenta of the particles change sign along that axis, charge and current densities and the fields Ey, Ez, Bx and the potential are those at the mirror node, Ex, By, Bz those with the opposite sign (with the roles of x and y exchanged for the other axis). The order in which particles are stored has no influence on densities, fields or trajectories. So a plasma symmetric in x, such as the one the program creates for every density profile symmetric in x, driven by a symmetric beam, remains symmetric in every layer, and Ex, By and Bz are exactly zero on the axis. A stream of particles in which every charge flies together with its opposite makes no fields and flies straight on up to the walls. All this holds as long as no particle flies past a wall by more than the width of the plasma within one push. Refuted without that: the right wall is looked at before the left one, so a particle flying far to the right is reflected twice and kept, while its mirror image flying to the left is reflected once and switched off.",
  "all plasmas, ion backgrounds, profiles, beams, odd grid sizes and numbers of layers", "a statement about pairs of runs over all states and layers and about exact zeros; a test compares a few runs within a tolerance",
  ["lcode/plasma3d/solver.py: Plane2d3vPlasmaSolver.step_dxi", "lcode/plasma3d/move.py: _correct_boundary_particles, move_smart_kernel_numba", "lcode/plasma3d/fields.py: get_field_computer", "lcode/plasma3d/weights.py: deposit_plasma, interp", "lcode/plasma3d/initialization.py: make_plasma_grid"])
p("C50","The life of a Simulation object: which configuration, geometry, number of steps and beam each call uses",
  "Over every history of edits of sim.config, calls of step, load_beamfile and switching to a stored plasma state, with exceptions caught: every time step is computed by solvers built from what the dictionary stands for at the moment of the call, namely the defaults overwritten by it and, in 3d, adjusted exactly once (the doubling of the window does not accumulate; adjusting one configuration twice would). An object is created exactly if its geometry is 2d or 3d in some capitalisation (or circ) and, in 3d, a grid size exists; it keeps its geometry for ever: a call that finds another one raises, computes nothing and spoils nothing. The first call on one process makes the steps dt, 2dt, ..., N dt, with N the number asked for, or 1 for a rigid beam, or without a number the largest N with N dt within the time limit. The beam of the first call is the last file loaded before it, or else generated. The layers cover the window length (2d: never beyond it; 3d: to the nearest layer), the radial nodes the window width. Refuted expectations: all later calls keep the beam source, its configuration and the number of steps of the first call, so a changed xi-step reaches the solver but not the beam source, and a changed number of steps, time limit or a beam file loaded later is ignored; a rigid beam stays after it is switched off; the output period of a diagnostics object is raised to every time step it meets and never lowered again; Circ and 3D in capitals are not treated like circ and 3d.",
  "all dictionaries, default tables, histories of user actions, numbers of processes", "the claims are about unbounded histories of calls on one object; tests check one call on a fresh object",
  ["lcode/simulation.py: Simulation.__init__, __pull_config, step, load_beamfile", "lcode/config/config.py: Config", "lcode/mpi/transport.py: steps_per_node", "lcode/diagnostics/FXi/FXi.py: pull_config", "lcode/push_solvers/push_solver.py: PusherAndSolver.__init__"])
p("C51","What the runas file of a run says, and what a run repeated from it does",
  "For every dictionary of options (keys without quotes, texts without colons) the file written at the beginning of a run is the template default_config_values.py, header and comments untouched, in which the value of every option it contains is replaced by the value in force: numbers and switches as printed, names in quotes and small letters, longitudinal and multi-word transverse profiles between triple quotes, a plasma-shape function by its name, the window width in 3d by half of the adjusted width; options not in the dictionary keep their defaults. These rules determine the file, and the call raises exactly if one of the six text options is not a text (numbers allowed for the transverse shape, functions for the plasma shape), the geometry is missing, or the width is not a number in 3d. A 3d run repeated from the file has the same window width, number of cells, plasma fineness and particles per cell, and the same subtraction coefficient unless it was set. Refuted expectations: a transverse plasma shape given by one word or by a number is not recorded, the file says uniform; options that are not in the first 94 lines of the template, in particular field-solver-subtraction-coefficient, are not recorded unless the file name contains extra; with the geometry written 3D the width is not doubled but still halved in the file.",
  "all dictionaries of options, file names, versions, and ways of printing numbers", "the file is made by a chain of regular-expression substitutions whose results could disturb each other; tests switch the file off",
  ["lcode/config/config.py: Config.dump", "lcode/config/default_config_values.py", "lcode/simulation.py: step"])
p("C52","Replacing macroparticles by parts changes nothing",
  "Take two simulations that differ only in this: every macroparticle of the plasma (electrons and mobile ions) and of the beam of the first is replaced in the second by any number of parts at the same place with the same velocity, whose charges, masses and momenta are positive fractions adding up to one (each macroparticle has its own fractions), and the particles are stored in any other order and, in the beam, called by other names. Then in every layer of every time step the beam density, all fields and all plasma currents are equal, and the plasma and the beam of the second simulation are those of the first, split in the same way, after every layer and after every time step. In 2d this holds with any substepping and with or without declustering and for any beam, in 3d without declustering and for beams behind the window head. So macroparticle weights enter only through sums, and no result depends on how charge is distributed among equal particles, on the order of storage or on ids.",
  "all plasma states, beams, splits, configurations of the solvers, numbers of layers and time steps", "tests compare stored results of a few runs; none changes the number of macroparticles", 
  ["lcode/plasma/move.py", "lcode/plasma/rhoj.py", "lcode/plasma/solver.py", "lcode/plasma3d/move.py", "lcode/plasma3d/solver.py", "lcode/beam/beam_calculate.py: push_particles", "lcode/beam3d/move.py", "lcode/push_solvers/push_solver.py: step_dt"])
p("C53","Test particles and beams without charge",
  "(a) Adding any number of particles without charge, anywhere behind the window head, to a beam changes neither the plasma, the fields, the beam density nor the other beam particles in any layer of any time step: after each time step the beam is the beam of the run without them, plus particles without charge. In 2d a single such particle ahead of the window (xi > 0) nevertheless stops the whole beam in every layer of every time step. (b) If the whole beam is without charge and the plasma is the undisturbed initial plasma, the plasma is at rest with zero fields in every layer of every time step, and every beam particle left after a time step is a received particle moved along a straight line with constant velocity during exactly that time step, with its momentum, angular momentum, mass and charge; in 3d it may also have met the wall (opposite id) and then stopped somewhere on that line. In 2d this needs no external magnetic field, a window of whole cells and particles that do not meet the axis; particles with angular momentum never do.",
  "all beams, numbers of test particles, plasma profiles and ion models, solver parameters, numbers of layers and time steps", "tests never run with uncharged particles; the claim compares pairs of runs and all of their layers",
  ["lcode/beam/beam_calculate.py: push_particles", "lcode/beam3d/move.py", "lcode/beam3d/weights.py", "lcode/push_solvers/push_solver.py: step_dt", "lcode/plasma/solver.py", "lcode/plasma3d/solver.py"])
p("C54","A complete 3d simulation treats up and down alike, but not left and right",
  "On a grid with an odd number of nodes and without declustering: if initial plasma, ion background and beam are reflected at y = 0, then the reflected simulation computes, in every layer of every time step, exactly the reflected plasma, fields, beam density and beam layers, and after every time step the reflected beam, as long as no plasma particle flies across the plasma in y within one push. Hence with a plasma as initialized (symmetric profile) and a beam that is symmetric in y (in any order, under any names) Ey, Bx and Bz are odd in y and vanish on the axis, and Ex, Ez, By, the potential and the beam density are even, in every layer of every time step. The same is false of the reflection at x = 0: a particle at rest at x = 4 stays in the beam and its mirror image at x = -4 vanishes in the first time step.",
  "all plasmas, beams, grid sizes, steps, numbers of layers and time steps for which no plasma particle leaps across the plasma", "compares pairs of complete runs layer by layer; tests run single fixed configurations and compare no mirrored pair",
  ["lcode/push_solvers/push_solver.py: step_dt", "lcode/beam3d/move.py", "lcode/beam3d/beam_calculator.py", "lcode/beam3d/weights.py", "lcode/plasma3d/solver.py", "lcode/plasma3d/move.py", "lcode/plasma3d/fields.py", "lcode/plasma3d/initialization.py"])
p("C55","A complete 3d simulation treats positive and negative charges alike, the 2d field solver does not",
  "Reverse the sign of every charge: that of all plasma particles, of the ion background, and of the beam (q_m and q_norm). Then the 3d simulation computes, in every layer of every time step, opposite fields, currents, charge and beam densities, the same plasma positions and momenta, and the same beam coordinates and momenta, ids and order of storage; with declustering as well. The radial field of the 2d code is different: for a fast electron ring, compensated by ions, reversed charges in reversed previous fields do not give the reversed radial field, because the weight of the previous field is computed from the sign of the first row of densities.",
  "all plasmas, beams, grids, steps, numbers of layers and time steps; the refutation is an explicit case", "compares pairs of complete runs; tests run single configurations",
  ["lcode/push_solvers/push_solver.py: step_dt", "lcode/beam3d/move.py", "lcode/beam3d/weights.py", "lcode/plasma3d/solver.py", "lcode/plasma3d/move.py", "lcode/plasma3d/fields.py", "lcode/plasma3d/rhoj.py", "lcode/plasma/fields.py: _compute_e_r_previous_factor"])
p("C56","In the axisymmetric code the sense of rotation does not matter, and what does not rotate never starts to",
  "Reverse the angular momentum of every beam particle, the azimuthal momentum of every plasma particle, E_f, B_z and the azimuthal currents of the initial plasma, and the external magnetic field. Then the 2d simulation computes in every layer of every time step the same beam density, and plasma, fields, currents and beam with just these quantities reversed. Hence, without an external magnetic field, a plasma as initialized and a beam without angular momentum never rotate: azimuthal momenta and currents, E_f, B_z and the angular momenta of the beam are exactly zero in every layer of every time step, for all step sizes, substepping depths, corrector steps, ion models and with declustering.",
  "all plasmas, beams, configurations, numbers of layers and time steps", "an invariant over all layers and time steps for all beams; tests look at a few runs and compare no reversed pair",
  ["lcode/push_solvers/push_solver.py: step_dt", "lcode/beam/beam_calculate.py", "lcode/plasma/solver.py", "lcode/plasma/move.py", "lcode/plasma/fields.py", "lcode/plasma/rhoj.py", "lcode/plasma/initialization.py"])
p("C57","A beam made from a textual profile contains what the profile says, segment by segment",
  "Every assignment name=value of a profile text is found, in order, with exactly the name and the value that are written, whatever stands between the assignments; the assignments from one xishape to the next are one segment, which says for each name what was written last in it, else the default, and begins exactly where the segment before ends. The beam that is made is sorted by xi, lies in the window, has exactly one stub, its last line; its particles are segment by segment those the segment prescribes: in each grid layer of the segment int(p * profile in the middle of the layer) particles inside the layer, with q_m = 1/(m/q) and charge 2*ampl*current/p, with radii at the quantiles of a Gaussian; no layer is left out or filled by two segments. Profiles that begin with another name, or with text in place of a number, are refused. Findings: an assignment with two spaces before '=' is ignored without a message, capitals and digits cut names, amplitude zero becomes one, a segment shorter than a layer raises, geometry 2d raises, and ids of different segments coincide.",
  "all profile texts of the grammar, all lists of segments, all window sizes, steps, particle numbers, all random generators", "the reader, the chaining of segments and the layer counts are claims about every profile; there is no test of this generator in the repository",
  ["lcode/beam_generator/beam_profiles.py", "lcode/beam_generator/beam_generator.py"])
p("C58","The rounding of floats never makes a particle, a layer or an output appear or vanish, except where stated",
  "With binary64 arithmetic (each configuration value and each result rounded to the nearest float, ties to even): a 3D run whose window is n steps has exactly n layers; int(a/b) (2D layers and cells, number of time steps) gives n or n-1, and n whenever both values are floats or the window is a float and the step is one of the usual decimal steps; every place that computes a layer border gets the same float, borders are strictly ordered and accurate, and both beam sources hand out each particle behind the head and before the last border in exactly one layer, the one between the two computed borders; transverse slice limits that are whole steps are found exactly; the time of a step is its number times dt up to 2k+3 roundings, and in runs of up to 2^23 steps on any number of processes with an output period of m steps exactly the steps with a number divisible by m write, and exactly every m-th layer of a transverse slice. Findings (each proved on concrete values): window-length 1.15 with xi-step 0.05 loses a layer in 2D, a run to time 1.4 with step 0.2 makes 6 steps, a slice with offset 0.3 and step 0.1 shows the plane at 0.2, a slice to the limit -0.3 (or the default limit of a window of length 0.3) has no layer at -0.3, and a 3D run repeated from its runas file may have two cells less (81 cells with step 0.05 become 79), which makes C51 a claim about exact arithmetic.",
  "all rational configuration values, all numbers of layers below 2^50, all beams, all times of all processes", "which inputs are rounded down is an accident of the binary expansion; the tests use whole-number windows, for which nothing is lost",
  ["lcode/push_solvers/push_solver.py", "lcode/config/config.py", "lcode/simulation.py", "lcode/diagnostics/slice.py", "lcode/diagnostics/utils.py", "lcode/beam/beam_io.py", "lcode/beam3d/beam_io.py"])
p("C59","A message between processes carries the particles byte for byte",
  "The MPI datatype made from a numpy record type describes exactly the numbers of the record: each with its type, at its offset, nested records included, with the size of the record as extent; types it cannot describe raise an error before any message is sent (accepted are exactly the records of the ten integer and floating types). Whatever the number of particles and whatever was in the receiver's memory, the array that arrives is equal byte for byte to the array that was sent, the receiver allocates the same number of particles, no byte outside is touched, gaps of aligned records are not sent, and the empty array that ends a time step arrives as zero particles. Finding: a 3D beam passes through an array of floats on its way into the message, so ids up to 2^53 are kept and larger ones can coincide; a 2D beam keeps all ids.",
  "all record types (any nesting), all numbers of particles, all contents of the arrays", "a test transfers one array of one type; the claim is about every layout, length and content",
  ["lcode/mpi/util.py", "lcode/mpi/transport.py", "lcode/mpi/beam_io.py", "lcode/beam3d/data.py"])
p("C60","Moving the whole beam back by whole layers moves the whole simulation back",
  "There is no preferred position along xi: if every particle of the beam is moved back by k layers and the window is made k layers longer, then in every time step the first k layers contain no beam, no charge and no fields, layer j+k of the second run receives the particles of layer j of the first run moved back, with the same beam density, the same plasma particles and the same fields, and the beam after the time step is the beam of the first run moved back. In 2D this holds for every beam behind the head of the window, for initially undisturbed plasma with or without mobile ions. In 3D it holds as long as no finished particle is still held back when a time step ends (and none that hit the wall is held back), in particular if every particle has x above xi by the length of the run. Finding: in 3D it fails otherwise, because the pusher compares x with the border of a layer: a particle at rest at x = -4 in the first layer of three vanishes, and moved back by two layers in a window of five it stays.",
  "all beams, all numbers of layers, of time steps and of layers moved, all plasmas at rest at first", "a test compares two runs; the claim is about all beams and all histories",
  ["lcode/push_solvers/push_solver.py", "lcode/beam/beam_calculate.py", "lcode/beam3d/beam_calculator.py", "lcode/beam3d/move.py", "lcode/beam/beam_io.py", "lcode/plasma/solver.py", "lcode/plasma3d/solver.py"])
p("C61","With rounding, which array elements a particle touches: inside the arrays except where stated",
  "Indices are not checked at run time, so a particle whose cell lies outside the grid silently reads or overwrites foreign memory. With binary64 arithmetic: in 2D every plasma particle of the window is deposited inside the arrays exactly if the computed quotient window-width / transverse-step exceeds the integer it is cut to by less than one half; for a window of whole steps that means that the division did not round below the whole number. Fields are never read outside. A beam particle that passed the wall check has a computed radius of at most the lost boundary in spite of the roundings, and touches only existing nodes if there are at least eleven cells and the step is at most 0.999. In 3D every plasma particle inside the reflecting boundary touches existing nodes only, for every bound-padding-steps the program accepts (on the CPU and on the GPU, where two more roundings occur), also where it is reflected on the way, unless it strays by more than a window; a beam particle that passed the wall check does so with at least 51 cells and a step of at most 0.39. Findings: with window-width 5.1 and the default transverse-step 0.05 (as with every whole number of steps that rounds down) already the outermost particle of the initial plasma writes two elements beyond the end of the density array, and so with 5.03; bound-padding-steps = 2 would be enough in exact arithmetic but not with floats; in 3D windows of 33 cells, or with a step of 0.6, beam particles that are not lost touch nodes that do not exist.",
  "all float positions, all window widths and steps, all numbers of cells", "the tests run a handful of windows, and an index outside an array raises no error in compiled code",
  ["lcode/plasma/rhoj.py: deposit_plasma", "lcode/plasma/initialization.py: _place_particles", "lcode/plasma/move.py", "lcode/beam/weights.py", "lcode/beam/beam_calculate.py: is_lost", "lcode/plasma3d/weights.py: deposit_plasma_numba", "lcode/plasma3d/move.py", "lcode/beam3d/move.py", "lcode/beam3d/weights.py"])
p("C62","Arrays and objects shared between parts of the program are never overwritten while somebody still uses them",
  "Python names refer to objects, attributes refer to arrays, slices are views of other arrays, and much of the code writes in place: the particle pushers, the density buffer of the beam, the averaging of fields that rebinds the attributes of an object it was given, the noise filter. Nevertheless every part of a simulation sees what it would see if everything were copied. In 2D (with any number of rejected substeps and any number of correction passes) and in 3D (with and without the noise filter), for any number of layers and time steps: a plasma layer gives the values of the model without sharing and leaves every array and object that existed before as it was, so that the fields of the layer before are still there for the beam; what a diagnostic keeps of a layer by reference (fields, currents, beam density) still shows that layer when it is written at the end of the time step; a plasma state that was loaded once and is handed to every time step is unchanged after each of them, so every time step starts from the same state; layers of the beam are views of the source, are moved in an array of their own, and neither the source nor what has been put into the drain is changed. Finding: a 2D beam loaded from a file is handed to two sources, and if it contains a stub row (xi below -99999) the first removes the row but not its coordinate, so the second fails with an IndexError.",
  "all configurations, plasma states, beams, numbers of layers, substeps and time steps", "overwriting shows only for particular sequences of layers, substeps and outputs, and then as slightly wrong numbers",
  ["lcode/plasma/solver.py", "lcode/plasma/fields.py: compute_fields", "lcode/plasma/move.py", "lcode/plasma3d/solver.py", "lcode/plasma3d/noise_filter.py", "lcode/push_solvers/push_solver.py: step_dt", "lcode/beam/beam_calculate.py: layout_beam_layer", "lcode/beam/data.py", "lcode/beam/beam_io.py", "lcode/beam3d/data.py", "lcode/beam3d/beam_io.py", "lcode/diagnostics/slice.py", "lcode/simulation.py"])
p("C63","Which configurations run, and how the others fail",
  "Simulation(config).step(n) with an ordinary window (positive width, steps and layer thickness, length not negative) ends without an exception exactly if the configuration meets a short list of requirements. In 2D: cupy can be imported if gpu is asked for, at least one cell in the window, a time step that is a number and a non-zero number of particles per cell (constructor); a beam that is not rigid and could be created (call); and, if a step is computed at all, at least one particle per cell and two in the window, the processing unit not gpu, an ion model that is literally background or mobile, no limit of trapped paths, a substepping depth that is not negative, and density profiles that can be evaluated. In 3D (written 3d): cupy as before, cpu or gpu, at most 18301 cells asked for (sufficient for a fast grid to exist), more than zero particles per cell, a padding of at least 3, no dual plasma, a known ion model. A configuration that does not meet them fails with one definite exception at one definite place, and always before the first layer is finished: a run cannot break down after hours because of such an option; only a density profile that cannot be evaluated at a later time can stop it later. Findings: ion model 'fixed', trapped-path-limit, gpu and a rigid beam in 2D, dual plasma and '3D' in capitals in 3D pass the constructor and fail with UnboundLocalError, AttributeError, TypeError, NameError or an assertion that does not name the option. step() without a number is step(int(time-limit / time-step)); a time step of zero passes the constructor and makes step() a ZeroDivisionError. The configurations of both shipped examples run (1500 and 180 steps) on every machine where the beam and the profiles can be made.",
  "all user tables and defaults, numbers of steps, outcomes of the external parts (cupy, FFT, profile, beam creation)", "the options combine to unboundedly many configurations, and a test of one of them says nothing about the others",
  ["lcode/simulation.py: step", "lcode/push_solvers/push_solver.py", "lcode/plasma/initialization.py: init_plasma", "lcode/plasma/rhoj.py: _cell_volume", "lcode/plasma/solver.py", "lcode/plasma3d/initialization.py: init_plasma", "lcode/plasma3d/fields.py: get_functions", "lcode/config/config.py", "lcode/beam/beam_io.py", "lcode/examples/original-ssm.py", "lcode/examples/high-R.py"])
p("C64","A longer window or a longer beam tail changes nothing in the layers it cannot reach",
  "Two runs that differ only in window-length (last layers N and N', N at most N') and in beam particles behind some layer compute, in layer j of time step g, the same beam, plasma, fields, beam density and finished particles, whenever layer j + g lies in the shorter window and in the part where the beams agree. In 2D no particle may overtake (it is enough that no turn of the pusher carries a particle ahead of its half-step point); in 3D, in addition, no finished particle may still be held back when an earlier step of the short run ends, which holds if x exceeds xi by the length of the run. In the first time step nothing is assumed about the motion. Segments added behind a generated beam (the same seed) add particles with later identifiers in later layers and change none of the particles in front, not even their random numbers; so a run with a longer driver is the same in the layers that the tail cannot have reached. Findings: in 3D a particle at rest at x = -4 in the first layer vanishes in a window of 4 layers and survives in one of 5; the bound j + g is sharp: the last layer of the window loses what falls out of it.",
  "all beams, segment lists, extra segments, window lengths, numbers of steps, solvers, random generators", "the claim compares whole runs for all lengths of the window and all histories of the beam",
  ["lcode/simulation.py: step", "lcode/push_solvers/push_solver.py", "lcode/alt_beam_generator/beam_generator.py: generate_beam_array", "lcode/beam3d/beam_calculator.py", "lcode/beam/beam_calculate.py"])
p("C65","The fields of the 2D solver converge as the grid is refined",
  "If the plasma currents and the beam density are smooth functions of the radius and the code receives their values at the nodes, and if exact fields solve the quasistatic differential equations in the window of radius R with their boundary conditions (E_r, E_phi vanish on the axis, Gauss' law for E_r at the wall, E_phi and E_z vanish at the wall, dE_z/dr = j_r, (r (E_r - B_phi))' = r (rho - j_z), dB_z/dr = -j_phi with no flux through the window), then there is one constant C such that on every grid of nr cells and at every node the computed E_phi and E_z differ from the exact ones by at most C (R/nr)^2, B_z by at most C (R/nr), and E_r and B_phi by at most C (R/nr)^2 if the part of the E_r source besides the density gradient vanishes at the wall, and by at most C (R/nr) if it is only bounded. Findings: both first orders are real. For a uniform azimuthal current the computed B_z is below the exact one by exactly h/2 + h^2/(6R) at every node of every grid (the flux is summed with the value at the inner edge of each cell); and Gauss' law is imposed half a cell inside the wall without the other source terms, so that for E_r = r^3 with j_r of order r at the wall the computed value at the wall is too large by at least h R^2 on every grid.",
  "all smooth currents, beam densities and field estimates, all window radii, all numbers of cells, all nodes", "the claim compares the output with an exact solution in the limit of infinitely many grids; a test sees finitely many grids and one solution",
  ["lcode/plasma/fields.py: compute_e_r", "lcode/plasma/fields.py: compute_e_phi", "lcode/plasma/fields.py: compute_e_z", "lcode/plasma/fields.py: compute_b_phi", "lcode/plasma/fields.py: compute_b_z", "lcode/plasma/ode.py"])
p("C66","The fields of the 3D solver converge as the grid is refined",
  "If density and currents of the plasma sorts and of the beam are smooth functions in the square window of size W that vanish near its walls, and the code receives their values at the nodes, and if exact fields solve the quasistatic equations (Laplacian of E_x = d rho/dx - d j_x/d xi, of E_y = d rho/dy - d j_y/d xi, of B_x = d j_y/d xi - d j_z/dy, of B_y = d j_z/dx - d j_x/d xi, each up to the subtraction coefficient times the change against the given estimate, with rho and j_z the means of the two layers; of E_z = d j_x/dx + d j_y/dy, of Phi = j_z - rho, of B_z = d j_x/dy - d j_y/dx) with the conditions of ideally conducting walls (tangential E, normal B, E_z and Phi vanish; normal derivatives of normal E, tangential B and B_z vanish) and B_z without mean value, then there is one constant C such that on every grid with step h = W/L no larger than the empty margin and at every node the computed transverse fields halfway between the layers differ from the exact ones by at most C (h^2 + eps), where eps is the error of the given estimates, the new E_z and Phi by at most C h^2, the new B_z by at most C h, and the new transverse fields from twice the exact half-step fields minus the old ones by at most C (h^2 + eps).",
  "all smooth sources of two plasma sorts and a beam, all window sizes, xi steps and subtraction coefficients, all grids, all given estimates, all nodes", "the claim compares the output with an exact solution in the limit of infinitely many grids; a test sees finitely many grids and one solution",
  ["lcode/plasma3d/fields.py: calculate_Ex_Ey_Bx_By", "lcode/plasma3d/fields.py: calculate_Ez", "lcode/plasma3d/fields.py: calculate_Bz", "lcode/plasma3d/fields.py: calculate_Phi", "lcode/plasma3d/fields.py: get_field_computer"])
p("C67","The older 3D diagnostics: what their files hold, and what cannot be used",
  "DiagnosticsFXi and DiagnosticsColormaps accept a text exactly when every piece between its commas, without blanks and if not empty, is on their list. After a run, the file of an output step holds exactly the layers of that step (for a map: those of the xi sub-window), in order, with the named quantities at the probes, or on the central row at consecutive nodes that lie in the requested interval up to half a cell; this holds however often the file was saved in between, and a run that stops earlier leaves the layers up to the last save. Files exist only for output steps. DiagnosticsFXi raises nothing if its probes lie in the window. An output step of DiagnosticsColormaps raises exactly if no layer lies in the sub-window or something is to be saved before its first layer. DiagnosticsTransverse in the mode 'pictures' leaves for every quantity and layer coordinate the array of the last due layer. Refuted: DiagnosticsFXi rejects 'ni' and 'rho_beam', because a comma is missing, and accepts 'nirho_beam', whose column stays empty; a name listed twice is recorded twice per layer; merging always raises; 'y_offt' and 'y_plasma_particles' always raise; the stored transverse grid is the whole grid even if the rows are a part of it; an interval below the window is counted from its other edge; DiagnosticsTransverse with 'numbers' or 'both' and SaveRunState with anything to save raise as soon as output is due; pictures do not carry the time, so that later time steps overwrite earlier ones.",
  "every history of steps and layers, every text, probes, periods, sub-window and grid", "unbounded histories, arrays and texts of every size, and interruption at every layer",
  ["lcode/diagnostics/diagnostics_3d.py: from_str_into_list", "lcode/diagnostics/diagnostics_3d.py: DiagnosticsFXi", "lcode/diagnostics/diagnostics_3d.py: DiagnosticsColormaps", "lcode/diagnostics/diagnostics_3d.py: DiagnosticsTransverse", "lcode/diagnostics/diagnostics_3d.py: SaveRunState", "lcode/push_solvers/push_solver.py: step_dt"])
p("C68","3D beam trajectories converge to the relativistic equations of motion; order of the two kernels",
  "Let E, B be bounded Lipschitz fields and (X, P) a solution of dx/dt = v(p), dxi/dt = v_z - 1, dp/dt = s (E + v x B). For every particle, whatever layers its substeps are made in and however many there are, the positions and momenta the CPU kernel computes stay within C (e0 + dt + h + dxi + lag) of the solution at every substep, with one constant for all grids (explicit bounds are given): e0 is the initial error, h and dxi the grid steps of the arrays that sample the fields, lag the time the fields are kept. The exchanged weights of the two layers (C32) make the field error first order in dxi but not worse. The GPU kernel is of second order: the error is at most C (e0 + del + dt^2) for particles of every mass, del being the field error, if the solution has bounded third derivatives. The CPU kernel is not: in a uniform magnetic field, with exact fields and initial state, its momentum is wrong by at least t dt / 14.",
  "every particle, mass, charge sign, fields with the named bounds, grid, substep and number of substeps", "real-valued, limits of step sizes",
  ["lcode/beam3d/move.py: move_beam_particles_kernel_numba", "lcode/beam3d/move.py: get_move_beam_particles_kernel_cupy", "lcode/beam3d/weights.py: weight4"])
p("C69","2D beam trajectories converge to the relativistic equations of motion, down to the axis",
  "Let E, B be bounded Lipschitz axisymmetric fields and (X, P) a solution of the three-dimensional equations of motion. For every particle of the axisymmetric code that never hits the axis exactly, whatever layers its substeps are made in and however many there are, there is at every substep an azimuth (the code does not keep it) such that position and momentum the code holds (r, xi, p_r, M, p_z) are within C (e0 + dt + h + dxi + lag) of the solution, with one constant for all grids; radius, xi, p_z, r p_r and the angular momentum are accordingly close. The constant does not depend on the distance from the axis, although the code divides by r at every substep, nor on whether the code recomputes the angular momentum (external magnetic field) or keeps it (no external field, no azimuthal forces). The order is exactly one: in a uniform magnetic field each substep multiplies the transverse momentum squared by 1 + (dt B / gamma m)^2, so the momentum is wrong by at least t dt / 14.",
  "every particle, mass, charge sign, axisymmetric fields with the named bounds, grid, substep and number of substeps", "real-valued, limits of step sizes",
  ["lcode/beam/beam_calculate.py: push_particles", "lcode/beam/beam_calculate.py: vec_to_beam", "lcode/beam/weights.py: particle_fields"])
p("C70","Deposits and cumulative integrals in doubles: charge, density and order of additions",
  "With every operation of the code rounded to doubles: on every node of the axisymmetric grid the beam density of a layer stands for the charge of exact arithmetic, up to (n + 8) roundings of twice the charge of its n particles plus (2M + i + 6) units of roundoff for layer i and particles within M cells of the axis; the total charge laid out over a time step is the charge of the beam up to 7 (m + 8) / 2^52 of its absolute charge, m being the largest number of particles of a layer (eight digits for a million particles per layer); the order of the particles matters at most by twice the rounding. Charges of one sign give densities of that sign if the computed depths lie in [0, 1] - but with xi-step = 0.01 a particle assigned to layer 6 can have a computed depth above 1 and hands on a density of the wrong sign (2e-16 of its charge). The 3D deposit keeps the charge of a layer likewise, for every order of the atomic additions of a GPU and with either weight formula. The cumulative trapezoidal integrals (the longitudinal field) are right up to (nodes + 3) roundings of the integral of the absolute values.",
  "every list of particles, charges of any sign, grid, step, layer, order of additions, array", "rounding errors of sums of any length; unit tests see a few sums",
  ["lcode/beam/weights.py: deposit_particles", "lcode/beam/beam_calculate.py: BeamCalculator2D.layout_beam_layer", "lcode/beam3d/weights.py: deposit_beam_numba, get_deposit_beam_cupy", "lcode/plasma/ode.py: cumtrapz_numba"])
p("C71","The radial field solver in doubles: backward and forward rounding errors",
  "With every operation of the tridiagonal solver rounded to doubles, on every grid of at most 2^24 cells, for every right-hand side and every non-negative screening factor: no divisor vanishes and the sweep factors stay between 0 and 1; the computed array satisfies the discretised equation at every inner node up to eleven roundings of its own terms and the wall condition up to ten (the Dirichlet value is exactly the rounded prescribed value); it differs from the exact solution by at most about 100 nr^2 roundings of the size of the solution, and, for the factors of at least one that the code uses, by at most 96 (1/h^2 + nr + 1) / 2^53 times the size of the sources. With the rounding of the right-hand sides included, the computed E_r and E_phi differ from the model of the field solver by at most 101 (1/h^2 + nr + 1) / 2^53 of the sources; E_z, B_phi and B_z differ from it by at most (nodes + 3), (node + 7) and 5 (2 nr + 7) roundings of the integrals of the absolute values of the currents.",
  "every array of sources, factor, step, grid of up to 2^24 cells, node", "accumulated rounding errors of recurrences of any length; unit tests compare a few solutions with tolerances",
  ["lcode/plasma/ode.py: tridiagonal_solve, tridiagonal_solve_neumann_like, tridiagonal_solve_dirichlet, cumtrapz_numba", "lcode/plasma/fields.py: compute_e_r, compute_e_phi, compute_e_z, compute_b_phi, compute_b_z"])
p("C72","The 2D plasma solver in doubles: substeps cover every step, particles stay in the window, a quiet plasma stays quiet bit by bit",
  "With every operation rounded to doubles, the square root correctly rounded. (1) For every push, particle and step the loop over the substeps of a particle ends; the substeps done are binary fractions of the step, never growing, each moving the particle by less than a cell or of the smallest size, and they add up exactly to the step unless the particle is lost, although the loop counts them with a rounded sum. (2) For every refinement test with at most 15 levels the loop over the substeps of a layer ends; each substep is a decimal fraction of the layer up to a bounded number of roundings, and those fractions add up exactly to the layer. (3) For every field, noise, particle and step a push leaves the particle in the window, with its charge or with none, and so do any number of layers with any beam. (4) Without a beam and without declustering, with background ions, any non-negative profile, external field, sensitivity and number of corrector steps, any number of layers leaves positions, momenta, charges, masses and densities of the initial plasma unchanged bit by bit and the fields exactly zero. With mobile ions the initial plasma is not exactly neutral in doubles.",
  "every double input, field, beam, profile, number of layers, refinement depth up to 15", "rounded comparisons and sums decide how many substeps are done; a test sees a few steps and a tolerance hides a lost substep or a drift of one unit in the last place per layer",
  ["lcode/plasma/move.py: _move_one_particle, _move_particles_with_substepping", "lcode/plasma/solver.py: CylindricalPlasmaSolver.step_dxi, noise_amplitude", "lcode/plasma/rhoj.py: deposit_plasma, get_rhoj_computer", "lcode/plasma/fields.py: get_field_computer", "lcode/plasma/initialization.py: init_plasma"])
p("C73","The deposition of the 2D plasma in doubles keeps the charge, in every layer of every run",
  "With every operation rounded to doubles, on every grid of at most 2^39 cells and for every list of N particles inside it: the quadratic weights are exact up to four roundings, and the sum over the nodes of an accumulated even quantity (charge, longitudinal current) is the sum of the amounts carried by the particles up to 3 N + 5 roundings of their sizes. The charge on the grid (density times cell volume) is the deposited charge up to 3 N + 6 roundings, and for particles at rest, of any masses, the sum of their charges up to 3 N + 8. The three shares of a particle go to the nearest node and its neighbours, mirrored at the axis and at the wall, and the cell volumes are those of the formulas up to 12 roundings. In a whole run with rounding, with any beam, any number of layers and all options, if the window exceeds a whole number of cells by less than half a cell, then in every layer every particle deposits inside the arrays and the charge on the grid is that of the particles with this accuracy, for electrons and mobile ions alike.",
  "every list of particles, grid, beam, number of layers", "the error accumulates over all particles and layers; the bound must hold for every distribution of particles over the cells, including the axis and the wall",
  ["lcode/plasma/rhoj.py: deposit_plasma, weight_quadratic, _cell_volume, get_rhoj_computer", "lcode/plasma/solver.py: CylindricalPlasmaSolver.step_dxi", "lcode/plasma/move.py: _move_one_particle"])
p("C74","The 3D plasma solver in doubles: a plasma at rest stays exactly at rest, no particle leaves the boundary, the charge on the grid is that of the particles",
  "With every operation of the CPU branch rounded to doubles. (1) The plasma put in place by init_plasma, with any fineness and any density profile, with immobile or mobile ions and with or without declustering, without beam never changes in any number of layers: the particles stay exactly where they are and all fields are exactly zero. (2) Whatever the beam is and whatever numbers the fast transforms return, after every layer every charged plasma particle is strictly inside the boundary as the computer sees it, in its place of the list, with its initial place, mass and charge or switched off; so everything is deposited inside the arrays; the reflection at the boundary is exact: no rounding occurs in the mirror image. (3) After every layer of every such run the integral over the grid of the density of the electrons, and of mobile ions, is the sum of q / (1 - v_z) over the charged particles up to n + 425 roundings for n particles and 14 / (1 - v_z) roundings for each.",
  "every beam, number of layers, grid, density profile, fineness, option", "rounding errors of positions, weights and sums depend on every bit of the state and accumulate over layers; a particle one ulp beyond the boundary would be deposited outside the arrays",
  ["lcode/plasma3d/move.py: move_smart_kernel_numba, _correct_boundary_particles, move_estimate_wo_fields_numba", "lcode/plasma3d/weights.py: deposit_plasma_numba", "lcode/plasma3d/rhoj.py: get_rhoj_computer", "lcode/plasma3d/fields.py: get_field_computer", "lcode/plasma3d/noise_filter.py: get_noise_filter", "lcode/plasma3d/solver.py: Plane2d3vPlasmaSolver", "lcode/plasma3d/initialization.py: init_plasma, make_plasma_single, make_plasma_grid"])
p("C75","Radial plasma profiles: the weights are the density times the areas of rings that tile the plasma",
  "Each named profile of lcode/plasma/profiles.py (uniform, stepwise, gaussian, channel, sub-channel), for every window, step, widths, second density and number of particles per cell that leave at least one cell and two particles, places its particles in the middle of equal rings that tile the interval between its two radii, and gives each the density it stands for, taken at the particle, times the area of its ring. So the flat profiles weigh exactly the area they occupy, no weight is negative and none exceeds that of the uniform plasma; what is left outside the radii has zero density or, for the gaussian, at most exp(-25/2). A plasma narrower than one cell raises ZeroDivisionError, a channel wider than the window and a single particle raise IndexError. A numeral in the profile's place is truncated to a whole number: 1, 1.0 and 1.9 are uniform, 4 is KeyError.",
  "every profile, window, step, width, density, number of particles per cell, profile name", "the total is a sum over all particles and holds for every ratio of window to step, including those that are not whole",
  ["lcode/plasma/profiles.py: UniformPlacedCylindricalProfile, UniformCylindricalProfile, StepwiseCylindricalProfile, GaussianCylindricalProfile, ChannelCylindricalProfile, SubChannelCylindricalProfile, get_plasma_profile"])
p("C76","The dual plasma: virtual particles are those of the ordinary plasma, moved by a mean of their coarse neighbours",
  "With dual-plasma-approach the fine particles are interpolated between coarse ones. For every grid, whole coarseness and fineness: the virtual particles of the undisturbed plasma are, one by one, the particles of the ordinary plasma of that fineness; every quantity of a virtual particle is a weighted mean, with weights from 0 to 1, of those of at most four coarse particles around it, exact for bilinear displacement fields inside the coarse grid and constant outside of it; if all coarse particles have one momentum and charge to mass ratio the virtual ones have it too. If the coarse particles are inside their boundary, the virtual ones are within it plus twice the coarseness in cells, so bound-padding-steps of at least twice the coarseness plus three keeps the deposition inside the arrays; the assertion of init_plasma, bound-padding-steps > coarseness + 1, does not: there is a plasma that satisfies it with a virtual particle that is deposited outside.",
  "every grid, coarseness, fineness, displacement of the coarse particles", "the interpolation is between whichever coarse nodes surround a fine one, for every ratio of the two grids, and the reach is over all displacements",
  ["lcode/plasma3d/initialization.py: make_coarse_plasma_grid, make_fine_plasma_grid, make_plasma_dual, init_plasma", "lcode/plasma3d/weights.py: get_coarse_to_fine_cupy, coarse_to_fine"])
p("C77","Beams from user-defined distributions (make_beam of beam_generator2): what is made, what is refused, and how many particles a layer gets",
  "A call of make_beam that returns a beam has made it as ordered, for all distributions and all random shuffles: longitudinal coordinates are those of the distribution inside the window, head first; all particles have the same charge 2 I / 17.03 kA / particles-in-layer and the given q_m, numbers 0, 1, ..., and every momentum and radius (or x and y) of the distributions is used exactly once; a stub particle is behind. A cylindrical beam is made exactly if radii come from a radial or a plane distribution and momenta from angles or, for a plane distribution, from transverse momenta. Findings: from plane distributions every particle gets the angular momentum |x p_y - y p_x|, never a negative one, so a beam without rotation starts to rotate; with saveto or savehead every call raises; with the geometry that a Config stores for circ (2d) every call raises; rGauss does not use its sigma; Gauss counts its limits from the centre in units of sigma and squeezes the particles that are cut off into the rest, so a layer gets particles-in-layer / (probability inside the limits) times the relative density, to within one particle and rounding of the number.",
  "every distribution, option, random shuffle, number of particles, interval of xi", "the count in a layer is over all quantiles, and the shuffles over all permutations",
  ["lcode/beam_generator/beam_generator2.py: Gauss, rGauss, make_beam"])
p("C78","3D plasma trajectories converge with second order to the equations of motion",
  "For any particle, any smooth fields and any true trajectory that stays inside the reflection boundary with bounded momentum: there are constants C and h0 such that on every grid, for every layer thickness dxi below h0 and any number of layers, the particle computed by the three passes of a layer (free estimate, pass in the old fields, two passes in estimated half-step fields) is never reflected or switched off, keeps charge and mass, and at the border of every layer is within C (e0 + del + dxi^2) of the solution of dx/dxi = v/(1 - v_z), dp/dxi = q (E + v x B)/(1 - v_z); e0 is the error of its initial state, del the error of the interpolated half-step fields of the last pass. The fields of the two trial passes may be wrong by any bounded amount without loss of order. Interpolation from the grid adds an error of second order in the transverse step; so in every run of the whole solver without declustering each electron stays within C (e0 + d + dxi^2 + h^2) when the half-step arrays are samples of the true fields up to d, and each particle of either sort makes exactly such a step in every layer.",
  "every particle, field, trajectory, grid, layer thickness, number of layers and error of the trial fields", "convergence is a statement about all step sizes and all trajectories at once; tests see a few of them",
  ["lcode/plasma3d/move.py: move_smart_kernel_numba, move_estimate_wo_fields_numba", "lcode/plasma3d/solver.py: Plane2d3vPlasmaSolver.step_dxi", "lcode/plasma3d/weights.py: weight4"])
p("C79","2D plasma trajectories converge to the equations of motion, through and around the axis",
  "For any particle, any Lipschitz axisymmetric fields and any true three-dimensional trajectory that stays inside the window with bounded momentum: there are constants C and h0 such that on every grid, for every number of pushes and every division of the path into pushes no longer than delta <= h0, the particle of the 2D code is never reflected by the wall nor thrown away, keeps its charge, and after every push is - turned around the axis by a suitable angle, since the code does not keep the azimuth - within C (e0 + del + delta) of the solution of dx/dxi = v/(1 - v_z), dp/dxi = q (E + v x B)/(1 - v_z); e0 is the error of the initial state, del that of the interpolated fields. The same holds at the borders of the layers for whatever substeps the adaptive loop chooses. The constants do not depend on the distance from the axis, the particle may pass through it; the only exception is a push that lands exactly on the axis, where the code drops the azimuthal momentum, and it is allowed too for particles that do not rotate. Arrays that sample the true fields give fields with an error of first order in the radial step, next to the axis and the wall as well.",
  "every particle, field, trajectory, grid, division into pushes, choice of substeps and number of layers", "convergence is a statement about all step sizes and all trajectories at once, including those that cross the axis in the middle of a step; tests see a few of them",
  ["lcode/plasma/move.py: _move_one_particle, _interpolate_fields, _interpolate_noisereductor, _move_particles_with_substepping"])
p("C80","The integral of motion of plasma particles in a wakefield is kept",
  "Along every solution of the equations of motion of a plasma particle in fields with a wakefield potential Phi (dPhi/ds = E_z for s = -xi, dPhi/dx = -(E_x - B_y), dPhi/dy = -(E_y + B_x)) the quantity gamma m - p_z + q Phi is constant. The computed particles keep it: for given fields and true trajectory there are constants C and h0 such that on every grid, for every layer thickness below h0 and any number of layers, gamma m - p_z + q Phi of the particle of the 3D code stays within C (e0 + del + dxi^2) of its initial value, and that of the particle of the axisymmetric code within C (e0 + del + step), for whatever substeps the loop chooses, through and around the axis; e0 is the error of the initial state, del that of the interpolated fields.",
  "every particle, field with a potential, trajectory, grid, layer thickness, choice of substeps and number of layers", "a conservation law up to the order of the scheme is a statement about all step sizes and trajectories at once",
  ["lcode/plasma3d/move.py: move_smart_kernel_numba", "lcode/plasma/move.py: _move_one_particle, _move_particles_with_substepping", "lcode/plasma3d/fields.py: calculate_Phi"])
p("C81","The older 2D diagnostics (targets.py, diagnostics_list.py): what their dictionaries and files hold",
  "Called for the layers 0, 1, ... of one time step after another with different times: FieldDiagnostics keeps, for the time steps t_start, t_start + period, ... up to t_end and for no others, row by row the value at the node r (or the whole column) of every layer, no row missing, the number of rows being that of the layers of a complete time step; the file named after the time of such a step holds all the steps recorded so far, and no other files are written. BeamDiagnostics keeps, for the same steps and no others, all the particles handed over, layer after layer; PlasmaDiagnostics likewise, but also has an empty array for every other time step inside the limits. In the classes of diagnostics_list.py an end of zero means no end. A time step with more layers than rows ends with IndexError, a column that does not fit with IndexError or ValueError, a time step that begins with a later layer with KeyError, a period of zero with ZeroDivisionError. Diagnostics2d.process calls every function of its dictionary exactly once per layer, in order, each with its own parameters, and stops at the first exception.",
  "every history of time steps, number of layers, window, start, end and period", "the content of the dictionaries and files is a statement about all histories of calls",
  ["lcode/diagnostics/diagnostics_class.py: Diagnostics2d.process", "lcode/diagnostics/targets.py: FieldDiagnostics.process, FieldDiagnostics.dump, BeamDiagnostics.process, PlasmaDiagnostics.process", "lcode/diagnostics/diagnostics_list.py: TDiagnostics.process, BeamDiagnostics.process", "lcode/push_solvers/push_solver.py: PusherAndSolver.step_dt"])
p("C82","Plasma particles of the 2D code that do not rotate are moved with second order, crossings of the axis counted",
  "Let axisymmetric, bounded, Lipschitz fields without E_phi and B_z and a particle without azimuthal momentum be given, whose exact trajectory (three-dimensional relativistic equations of motion with the distance behind the driver as independent variable) has three bounded derivatives. There are constants such that on every radial grid, for every number of layers thinner than a fixed fraction of a radial cell: if initial error, error of the fields interpolated in the middle of the layers and (1 + crossings) step^2 are small, the computed particle is neither reflected nor discarded, keeps its charge, each layer is crossed in a single push, and radius and momentum are, up to a rotation about the axis, within a constant times (initial error + field error + (1 + number of layers in which half a push with the old momentum goes beyond the axis) step^2) of the exact ones. A particle that stays away from the axis has no such layers and the error is of second order.",
  "every grid, number of layers, thickness of the layers, initial state and fields of the given class", "the order of a method is a statement about all step sizes and all trajectories; the loss at the axis cannot be seen away from it",
  ["lcode/plasma/move.py: _move_one_particle, _interpolate_fields, _move_particles_with_substepping"])
p("C83","The configuration handed to the C program contains every configured value at its place, and a missing key gives no file",
  "c_config(path) of a configuration that has all keys named by the template returns the template text in which every placeholder is replaced by the value of its key as get() returns it, on the line of the parameter the C program reads it from, everything else (also the braces of the template and any braces, quotes or line breaks inside the values) being unchanged, and writes exactly this text to path if path is not empty and no file otherwise. If keys are missing, KeyError for the first missing one in template order is raised and no file is touched. Values of other keys have no influence. The default configuration lacks r-step, plasma-model, plasma-profile and plasma-temperature: c_config of it fails unless all four have been set, and succeeds for every history of settings and updates that sets them.",
  "every configuration, every history of assignments and updates, every value text, every path", "the values are arbitrary texts, also such with braces and line breaks; an example shows one text",
  ["lcode/config/config.py: Config.c_config", "lcode/config/template.py: lcode_template", "lcode/config/default_config_values.py: default_config_values"])
p("C84","lcode get NAME copies the example of that name and never damages run.py otherwise",
  "Whatever the examples directory contains and whatever the arguments are, run.py is afterwards either what it was before or the text of the file NAME.py of the examples. If all visible entries are Python files with .py only at the end (as in the repository), get NAME writes the example NAME if there is one, and otherwise prints exactly the names of all examples and writes nothing; it never fails. For other entries the command offers a name for which it raises FileNotFoundError, before run.py is touched.",
  "every contents of the examples directory, every name, every earlier run.py", "names are arbitrary texts; removing .py from a name is done at all places",
  ["lcode/__main__.py: main, get_available_configs"])
p("C85","Which diagnostics a simulation accepts, and which of them stop the run later",
  "A list of f(xi), slice and particle diagnostics passes the reading of the configuration exactly if each fits it: f(xi) needs the geometry to be literally 2d or 3d (circ is 2d) and probe lines of one or two dimensions; a slice needs exactly one of the four types (in 2d not the x-y plane) and two-dimensional limits; the particle diagnostics must not save a rigid beam. Otherwise the error is that of the first misfit: ValueError, NotImplementedError or Exception. An accepted slice diagnostics has the slicer of its plane. Findings: with the geometry written 2D or 3D, which the simulation accepts, f(xi) is refused while a slice of any type and limits is accepted and raises AttributeError in the first layer it should write; over a history of configurations the slicer is that of the last one written 2d or 3d. The diagnostics of the shipped examples are accepted.",
  "every configuration, list of diagnostics, history of configurations read by one object", "the combinations of options, types and histories are unbounded, and the late failure shows only in the first written layer",
  ["lcode/simulation.py: Simulation.__pull_config", "lcode/diagnostics/FXi/FXi.py: FXiDiag.pull_config", "lcode/diagnostics/FXi/Strategy.py: Strategy", "lcode/diagnostics/slice.py: SliceDiag.pull_config", "lcode/diagnostics/particles.py: ParticlesDiag.pull_config"])
here = os.path.dirname(os.path.abspath(__file__))
with open(os.path.join(here,"..","properties.jsonl"),"w") as f:
    for r in P: f.write(json.dumps(r)+"\n")
print(len(P))
