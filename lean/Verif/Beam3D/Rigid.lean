import Verif.Beam3D.Sweep

/-!
Model of RigidBeamCalculator (lcode/beam3d/beam_calculator.py:148-181), RigidBeamSource and RigidBeamDrain (lcode/beam3d/beam_io.py:84-108). Property C40.
-/

namespace Lcode.Beam3D

open Lcode.Plasma3D (Fields3)

variable {σ : Type}

/-! ### Model -/

/-- The user's function (xp, xi, x_grid, y_grid) -> array. It may do anything with the grids. -/
abbrev RigidFn := ℝ → Grid → Grid → Grid

/-- `grid`, beam_calculator.py:158-159. -/
noncomputable def rigidNode (c : BCfg) (i : ℤ) : ℝ := ((i - c.N / 2 : ℤ) : ℝ) * c.h

/-- `xp.meshgrid(grid, grid)`, beam_calculator.py:160: with numpy's default indexing='xy' the first array varies along the second index and the second along the first. -/
noncomputable def meshX (c : BCfg) : Grid := fun _ j => rigidNode c j

noncomputable def meshY (c : BCfg) : Grid := fun i _ => rigidNode c i

/-- layout_beam_layer, beam_calculator.py:166-170. -/
noncomputable def rigidLayout (c : BCfg) (f : RigidFn) (plIdx : ℕ) : Grid :=
  let xi := -(plIdx : ℝ) * c.dxi
  f xi (meshX c) (meshY c)

/-- Variables of step_dt (push_solver.py:225-262) with a rigid beam. beam_layer_to_move and fell_size are None after the first layer and are not used (move_beam_layer ignores its arguments, beam_calculator.py:172-175), the drain does nothing (beam_io.py:96-108). `laid` is a ghost: the pairs (ro_beam_full, ro_beam_prev) the plasma solver was given. -/
structure RigidState (σ : Type) where
  plasma : σ
  rhoPrev : Grid
  source : RigidFn
  laid : List (Grid × Grid)

/-- One iteration of the xi loop, push_solver.py:236-261, with RigidBeamSource.get_beam_layer_to_layout (beam_io.py:93-94) and create_next_layer (beam_calculator.py:177-181). -/
noncomputable def rigidStep (env : Env3 σ) (s : RigidState σ) (xiI : ℕ) : RigidState σ :=
  let rho := rigidLayout env.cfg s.source xiI
  { plasma := env.plasma s.plasma rho s.rhoPrev, rhoPrev := rho, source := s.source, laid := s.laid ++ [(rho, s.rhoPrev)] }

noncomputable def rigidDt (env : Env3 σ) (plasma : σ) (f : RigidFn) (xiSteps : ℕ) : RigidState σ :=
  (List.range (xiSteps + 1)).foldl (rigidStep env) ⟨plasma, fun _ _ => 0, f, []⟩

/-! ### Specification and theorems -/

/-- The centre of cell `(i, j)` of the transverse grid: the first index counts x, the second y (as in deposition and field arrays, `layout_pointwise`). -/
noncomputable def cellCentre (c : BCfg) (i j : ℤ) : ℝ × ℝ := (c.h * Lcode.Plasma3D.nodeOf c.N i, c.h * Lcode.Plasma3D.nodeOf c.N j)

/-- C40: in every iteration the plasma solver is given the user's function of that layer's xi and, as the previous density, that of the layer before (zero for the first layer); the user's function itself stays as it is. -/
theorem rigid_deposits (env : Env3 σ) (plasma : σ) (f : RigidFn) (xiSteps : ℕ) :
    (rigidDt env plasma f xiSteps).source = f ∧
    (rigidDt env plasma f xiSteps).laid = (List.range (xiSteps + 1)).map (fun i : ℕ =>
      (f (-(i : ℝ) * env.cfg.dxi) (meshX env.cfg) (meshY env.cfg), match i with
        | 0 => (fun _ _ => 0)
        | j + 1 => f (-(j : ℝ) * env.cfg.dxi) (meshX env.cfg) (meshY env.cfg))) := by
  unfold rigidDt
  generalize xiSteps + 1 = n
  have key : ∀ n : ℕ, ((List.range n).foldl (rigidStep env) ⟨plasma, fun _ _ => 0, f, []⟩).source = f ∧
      ((List.range n).foldl (rigidStep env) ⟨plasma, fun _ _ => 0, f, []⟩).rhoPrev = (match n with
        | 0 => (fun _ _ => 0)
        | j + 1 => f (-(j : ℝ) * env.cfg.dxi) (meshX env.cfg) (meshY env.cfg)) ∧
      ((List.range n).foldl (rigidStep env) ⟨plasma, fun _ _ => 0, f, []⟩).laid = (List.range n).map (fun i : ℕ =>
      (f (-(i : ℝ) * env.cfg.dxi) (meshX env.cfg) (meshY env.cfg), match i with
        | 0 => (fun _ _ => 0)
        | j + 1 => f (-(j : ℝ) * env.cfg.dxi) (meshX env.cfg) (meshY env.cfg))) := by
    intro n
    induction n with
    | zero => exact ⟨rfl, rfl, rfl⟩
    | succ n ih =>
      obtain ⟨h1, h2, h3⟩ := ih
      rw [List.range_succ, List.foldl_append, List.map_append]
      simp only [List.foldl_cons, List.foldl_nil, rigidStep, rigidLayout, h1, h2, h3, List.map_cons, List.map_nil]
      exact ⟨trivial, trivial, trivial⟩
  exact ⟨(key n).1, (key n).2.2⟩

theorem rigidNode_eq (c : BCfg) (i : ℤ) : rigidNode c i = c.h * Lcode.Plasma3D.nodeOf c.N i := by
  unfold rigidNode Lcode.Plasma3D.nodeOf
  push_cast
  ring

/-- C40, what a density computed point by point gives: the value in cell `(i, j)` is the user's density at the MIRRORED point, with x and y exchanged. -/
theorem rigid_transposed (c : BCfg) (ρ : ℝ → ℝ → ℝ → ℝ) (m : ℕ) (i j : ℤ) :
    rigidLayout c (fun xi X Y a b => ρ xi (X a b) (Y a b)) m i j = ρ (-(m : ℝ) * c.dxi) (cellCentre c i j).2 (cellCentre c i j).1 := by
  simp only [rigidLayout, meshX, meshY, rigidNode_eq c, cellCentre]

/-- C40: so the deposited density is the user's density in every cell exactly when that density, sampled on the grid, is symmetric in x and y. -/
theorem rigid_correct_iff (c : BCfg) (ρ : ℝ → ℝ → ℝ → ℝ) (m : ℕ) :
    (∀ i j, rigidLayout c (fun xi X Y a b => ρ xi (X a b) (Y a b)) m i j = ρ (-(m : ℝ) * c.dxi) (cellCentre c i j).1 (cellCentre c i j).2) ↔
    (∀ i j, ρ (-(m : ℝ) * c.dxi) (cellCentre c i j).2 (cellCentre c i j).1 = ρ (-(m : ℝ) * c.dxi) (cellCentre c i j).1 (cellCentre c i j).2) := by
  constructor
  · intro h i j; rw [← h i j, rigid_transposed c]
  · intro h i j; rw [rigid_transposed c, h i j]

/-- C40, refutation: a beam displaced in x only is laid out displaced in y. -/
theorem rigid_swaps_axes : ∃ (c : BCfg) (ρ : ℝ → ℝ → ℝ → ℝ) (i j : ℤ), c.N % 2 = 1 ∧ 0 < c.h ∧ 0 ≤ i ∧ i < c.N ∧ 0 ≤ j ∧ j < c.N ∧
    ρ 0 (cellCentre c i j).1 (cellCentre c i j).2 = 1 ∧ rigidLayout c (fun xi X Y a b => ρ xi (X a b) (Y a b)) 0 i j = 0 := by
  refine ⟨⟨7, 1, 1⟩, fun _ x _ => if x = 1 then 1 else 0, 4, 3, by norm_num, by norm_num, by norm_num, by norm_num, by norm_num, by norm_num, ?_, ?_⟩
  · norm_num [cellCentre, Lcode.Plasma3D.nodeOf]
  · have := rigid_transposed ⟨7, 1, 1⟩ (fun _ x _ => if x = 1 then 1 else 0) 0 4 3
    rw [this]
    norm_num [cellCentre, Lcode.Plasma3D.nodeOf]

/-- A case with several layers: three layers of a wake driven by a density that depends on xi. -/
example (env : Env3 σ) (plasma : σ) : (rigidDt env plasma (fun xi _ _ _ _ => xi) 2).laid.length = 3 := by
  rw [(rigid_deposits env plasma _ 2).2]; rfl

end Lcode.Beam3D
