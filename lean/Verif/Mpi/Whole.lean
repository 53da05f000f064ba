import Verif.Mpi.Split3D
import Verif.Plasma2D.Split
import Verif.Plasma3D.Split
import Verif.Plasma3D.Step

/-!
The complete simulations: the layer loops with the modelled plasma solvers plugged in (until here the plasma solver of a run was arbitrary). Property C52 for complete simulations.
-/

namespace Lcode.Mpi

/-! ### Model -/

/-- The arrays of the plasma solver as the beam pusher reads them (push_solver.py:104, :116-119): entry `i` of an array. -/
def liftFlds (F : Plasma2D.Flds) : Beam2D.Fields := ⟨fun i => F.Er i.toNat, fun i => F.Ef i.toNat, fun i => F.Ez i.toNat, fun i => F.Bf i.toNat, fun i => F.Bz i.toNat⟩

/-- `self.solver.step_dxi(...)`, push_solver.py:110-113, for the 2D solver, which does not use rho_beam_prev (plasma/solver.py:39-98). The layer always ends (`stepDxi_covered`), so the other case of the match never happens. -/
noncomputable def plasmaStep2 (c : Plasma2D.SolverCfg) (xiStep : ℝ) (w : Plasma2D.World) (rho : ℤ → ℝ) : Plasma2D.World :=
  match Plasma2D.stepDxi c (fun n => rho n) xiStep w with
  | .done w' => w'
  | .go _ => w

/-- A complete 2D simulation, push_solver.py:23-50: beam pusher (beam_calculate.py:112-116) and plasma solver (plasma/move.py:217-219, plasma/rhoj.py:96-97) read the same window-width, transverse-step, xi-step and magnetic-field. -/
noncomputable def sim2 (c : Plasma2D.SolverCfg) (xiStep timeStep energy : ℝ) (argsortB : List Bool → List ℕ) (argsortF : List ℝ → List ℕ) : Beam2D.Env2D Plasma2D.World where
  cfg := ⟨c.h, xiStep, c.R, c.B0⟩
  timeStep := timeStep
  energy := energy
  argsortB := argsortB
  argsortF := argsortF
  plasma w rho _ := plasmaStep2 c xiStep w rho
  fields w := liftFlds w.F

/-- A complete 3D simulation, push_solver.py:190-216: beam pusher (beam3d/move.py:281-284) and plasma solver (plasma3d/move.py:317-321) read the same window-width-steps, transverse-step and xi-step. -/
noncomputable def sim3 (c : Plasma3D.SCfg) (timeStep energy : ℝ) : Beam3D.Env3 Plasma3D.W3 where
  cfg := ⟨c.m.N, c.m.h, c.m.dxi⟩
  timeStep := timeStep
  energy := energy
  plasma w rho prev := Plasma3D.stepDxi c w rho prev
  fields w := w.F

/-! ### C52 for complete simulations -/

theorem plasmaStep2_done (c : Plasma2D.SolverCfg) (xiStep : ℝ) (w : Plasma2D.World) (rho : ℤ → ℝ) : Plasma2D.stepDxi c (fun n => rho n) xiStep w = .done (plasmaStep2 c xiStep w rho) := by
  obtain ⟨xs, h, -⟩ := Plasma2D.stepDxi_covered c (fun n => rho n) xiStep w
  unfold plasmaStep2
  rw [h]

theorem plasmaRel2 (c : Plasma2D.SolverCfg) (xiStep timeStep energy : ℝ) (argsortB : List Bool → List ℕ) (argsortF : List ℝ → List ℕ) :
    PlasmaRel2D (sim2 c xiStep timeStep energy argsortB argsortF) Plasma2D.SplitWorld where
  step s s' rho prev h := by
    have hs := Plasma2D.stepDxi_split c (fun n => rho n) xiStep s s' h
    rw [plasmaStep2_done, plasmaStep2_done] at hs
    cases hs with
    | done hw => exact hw
  fields s s' h := by
    show liftFlds s.F = liftFlds s'.F
    rw [h.F]

theorem plasmaRel3 (c : Plasma3D.SCfg) (hd : c.decl = none) (timeStep energy : ℝ) : PlasmaRel3D (sim3 c timeStep energy) Plasma3D.SplitWorld where
  step s s' rho prev h := Plasma3D.step_split c hd s s' rho prev h
  fields s s' h := h.F.symm

/-- C52 for complete 2D simulations: with the macroparticles of the plasma and of the beam replaced by parts (each by its own number of parts), every field and every beam density in every layer of every time step
is the same, and the beam after every time step is the same beam, split. -/
theorem split_simulation_2D (c : Plasma2D.SolverCfg) (xiStep timeStep energy : ℝ) (argsortB : List Bool → List ℕ) (argsortF : List ℝ → List ℕ)
    (hs : Beam2D.IsArgsort Beam2D.boolLe argsortB) (hf : Beam2D.IsArgsort (· ≤ ·) argsortF) (hx : 0 < xiStep) (N : ℕ) (hlim : ((N : ℝ) + 1) * xiStep ≤ 99999) (dt : ℝ)
    (w w' : Plasma2D.World) (hw : Plasma2D.SplitWorld w w') (b b' : List (Beam2D.Particle ℝ)) (hb : Beam2D.SplitBeam b b') (g : ℕ) :
    (∀ j, j ≤ N + 1 →
      (stAt (world2D (sim2 c xiStep timeStep energy argsortB argsortF) fun _ => w) ((world2D (sim2 c xiStep timeStep energy argsortB argsortF) fun _ => w).init (timeOf dt g))
          (seqLayers (world2D (sim2 c xiStep timeStep energy argsortB argsortF) fun _ => w) N dt b g) j).plasma.F =
        (stAt (world2D (sim2 c xiStep timeStep energy argsortB argsortF) fun _ => w') ((world2D (sim2 c xiStep timeStep energy argsortB argsortF) fun _ => w').init (timeOf dt g))
          (seqLayers (world2D (sim2 c xiStep timeStep energy argsortB argsortF) fun _ => w') N dt b' g) j).plasma.F ∧
      (stAt (world2D (sim2 c xiStep timeStep energy argsortB argsortF) fun _ => w) ((world2D (sim2 c xiStep timeStep energy argsortB argsortF) fun _ => w).init (timeOf dt g))
          (seqLayers (world2D (sim2 c xiStep timeStep energy argsortB argsortF) fun _ => w) N dt b g) j).rhoPrev =
        (stAt (world2D (sim2 c xiStep timeStep energy argsortB argsortF) fun _ => w') ((world2D (sim2 c xiStep timeStep energy argsortB argsortF) fun _ => w').init (timeOf dt g))
          (seqLayers (world2D (sim2 c xiStep timeStep energy argsortB argsortF) fun _ => w') N dt b' g) j).rhoPrev) ∧
    Beam2D.SplitBeam
      (allFinished (world2D (sim2 c xiStep timeStep energy argsortB argsortF) fun _ => w) N dt g (seqLayers (world2D (sim2 c xiStep timeStep energy argsortB argsortF) fun _ => w) N dt b g))
      (allFinished (world2D (sim2 c xiStep timeStep energy argsortB argsortF) fun _ => w') N dt g (seqLayers (world2D (sim2 c xiStep timeStep energy argsortB argsortF) fun _ => w') N dt b' g)) := by
  obtain ⟨-, h2, h3⟩ := split_run_2D (sim2 c xiStep timeStep energy argsortB argsortF) (fun _ => w) (fun _ => w') (plasmaRel2 c xiStep timeStep energy argsortB argsortF) (fun _ => hw) hs hf hx N hlim dt b b' hb g
  exact ⟨fun j hj => ⟨(h2 j hj).1.F.symm, (h2 j hj).2.2⟩, h3⟩

/-- C52 for complete 3D simulations without declustering. -/
theorem split_simulation_3D (c : Plasma3D.SCfg) (hd : c.decl = none) (hx : 0 < c.m.dxi) (timeStep energy : ℝ) (hts : 0 ≤ timeStep) (argsort : List ℝ → List ℕ) (hs : Beam2D.IsArgsort (· ≤ ·) argsort)
    (N : ℕ) (dt : ℝ) (w w' : Plasma3D.W3) (hw : Plasma3D.SplitWorld w w') (b b' : List (Beam3D.Row ℝ)) (hb : Beam3D.SplitBeam b b') (hneg : ∀ p ∈ b, p.xi < 0) (hneg' : ∀ p ∈ b', p.xi < 0) (g : ℕ) :
    (∀ j, j ≤ N + 1 →
      (stAt (world3D (sim3 c timeStep energy) argsort fun _ => w) ((world3D (sim3 c timeStep energy) argsort fun _ => w).init (timeOf dt g)) (seqLayers (world3D (sim3 c timeStep energy) argsort fun _ => w) N dt b g) j).plasma.F =
        (stAt (world3D (sim3 c timeStep energy) argsort fun _ => w') ((world3D (sim3 c timeStep energy) argsort fun _ => w').init (timeOf dt g)) (seqLayers (world3D (sim3 c timeStep energy) argsort fun _ => w') N dt b' g) j).plasma.F ∧
      (stAt (world3D (sim3 c timeStep energy) argsort fun _ => w) ((world3D (sim3 c timeStep energy) argsort fun _ => w).init (timeOf dt g)) (seqLayers (world3D (sim3 c timeStep energy) argsort fun _ => w) N dt b g) j).rhoPrev =
        (stAt (world3D (sim3 c timeStep energy) argsort fun _ => w') ((world3D (sim3 c timeStep energy) argsort fun _ => w').init (timeOf dt g)) (seqLayers (world3D (sim3 c timeStep energy) argsort fun _ => w') N dt b' g) j).rhoPrev) ∧
    Beam3D.SplitBeam
      (allFinished (world3D (sim3 c timeStep energy) argsort fun _ => w) N dt g (seqLayers (world3D (sim3 c timeStep energy) argsort fun _ => w) N dt b g))
      (allFinished (world3D (sim3 c timeStep energy) argsort fun _ => w') N dt g (seqLayers (world3D (sim3 c timeStep energy) argsort fun _ => w') N dt b' g)) := by
  obtain ⟨-, h2, h3⟩ := split_run_3D (sim3 c timeStep energy) argsort (fun _ => w) (fun _ => w') (plasmaRel3 c hd timeStep energy) (fun _ => hw) hs hx hts N dt b b' hb hneg hneg' g
  exact ⟨fun j hj => ⟨(h2 j hj).1.F.symm, (h2 j hj).2.2⟩, h3⟩

/-! ### A concrete case -/

/-- Every 2D plasma and every beam can be replaced by one with every macroparticle in two unequal parts, named anew. -/
theorem thirds_2D (w : Plasma2D.World) (ions : List Plasma2D.PPart) (hi : w.ions = .mobile ions) (b : List (Beam2D.Particle ℝ)) (name : Beam2D.Particle ℝ → ℤ) :
    Plasma2D.SplitWorld w { w with el := w.el.flatMap fun p => [p.part (1 / 3), p.part (2 / 3)], ions := .mobile (ions.flatMap fun p => [p.part (1 / 3), p.part (2 / 3)]) } ∧
    Beam2D.SplitBeam b (b.flatMap fun p => [{ p.part (1 / 3) with id := name p }, { p.part (2 / 3) with id := name p + 1 }]) := by
  refine ⟨⟨IsSplit.thirds _ _, ?_, rfl, rfl⟩, ?_⟩
  · rw [hi]; exact .mobile (IsSplit.thirds _ _)
  · unfold Beam2D.SplitBeam
    have := IsSplit.thirds Beam2D.Particle.part (b.map Beam2D.Particle.anon)
    rw [List.flatMap_map] at this
    rw [List.map_flatMap]
    exact this

/-- The same in 3D. -/
theorem thirds_3D (w : Plasma3D.W3) (b : List (Beam3D.Row ℝ)) (name : Beam3D.Row ℝ → ℤ) :
    Plasma3D.SplitWorld w { w with el := w.el.flatMap fun p => [p.part (1 / 3), p.part (2 / 3)], ions := w.ions.map fun l => l.flatMap fun p => [p.part (1 / 3), p.part (2 / 3)] } ∧
    Beam3D.SplitBeam b (b.flatMap fun p => [{ p.part (1 / 3) with id := name p }, { p.part (2 / 3) with id := name p + 1 }]) := by
  refine ⟨⟨IsSplit.thirds _ _, ?_, rfl, rfl⟩, ?_⟩
  · rcases w.ions with _ | l
    · exact Option.Rel.none
    · exact Option.Rel.some (IsSplit.thirds _ _)
  · unfold Beam3D.SplitBeam
    have := IsSplit.thirds Beam3D.Row.part (b.map Beam3D.Row.anon)
    rw [List.flatMap_map] at this
    rw [List.map_flatMap]
    exact this

/-- A beam of one particle (charge 3 in layer 2) and the same in two parts of charge 1 and 2 meet the hypotheses of the theorems. -/
example : Beam3D.SplitBeam [⟨-5 / 2, 1, 0, 0, 0, 1000, 1, 3, 7, 0, 0⟩] [⟨-5 / 2, 1, 0, 0, 0, 1000, 1, 2, 9, 0, 0⟩, ⟨-5 / 2, 1, 0, 0, 0, 1000, 1, 1, 8, 0, 0⟩] := by
  have h := (thirds_3D ⟨[], none, fun _ _ => 0, fun _ _ => 0, Plasma3D.Fields3.zero, (Plasma3D.Cur.zero, Plasma3D.Cur.zero)⟩ [⟨-5 / 2, 1, 0, 0, 0, 1000, 1, 3, 7, 0, 0⟩] (fun _ => 8)).2
  refine h.perm (List.Perm.refl _) ?_
  simp only [List.flatMap_cons, List.flatMap_nil, List.append_nil, Beam3D.Row.part]
  norm_num
  exact List.Perm.swap _ _ _

end Lcode.Mpi
