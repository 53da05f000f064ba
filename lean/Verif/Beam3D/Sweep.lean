import Verif.Beam3D.Move
import Verif.Beam2D.PusherProps
import Mathlib.Tactic.Abel

/-!
Model of BeamCalculator.start_moving_layer, move_beam_layer, create_next_layer (lcode/beam3d/beam_calculator.py) and of the 3D time step PusherAndSolver3D.step_dt (lcode/push_solvers/push_solver.py). Properties C33, C34.
The plasma solver is an arbitrary function, so the statements hold whatever the plasma does.
-/

namespace Lcode.Beam3D

open Lcode.Beam2D (substepFraction substepsOf IsArgsort)
open Lcode.Plasma3D (Fields3 Vec3)

variable {σ : Type}

/-! ### Model -/

/-- Everything the 3D step_dt gets from outside. -/
structure Env3 (σ : Type) where
  cfg : BCfg
  timeStep : ℝ
  energy : ℝ
  /-- `plasma_solver.step_dxi` (push_solver.py:245-248): new plasma state from ro_beam_full and ro_beam_prev. -/
  plasma : σ → Grid → Grid → σ
  /-- `plasma_fields` of a plasma state -/
  fields : σ → Fields3

/-- start_moving_layer, beam_calculator.py:97-114. `beam_substepping_step` (:18-25) is the function modelled for the 2D beam by `substepFraction`; the two are the same text. -/
noncomputable def startMovingLayer (ts energy : ℝ) (b : Beam ℝ) (fellSize : ℕ) : Beam ℝ :=
  let size := b.id.length - fellSize
  let dt := List.zipWith (fun q p => substepFraction q p energy) (b.qm.take size) (b.pz.take size)
  { b with
    dt := dt.map (fun f => f * ts) ++ b.dt.drop size
    remaining := dt.map (fun f => Lcode.Py.pyInt (1 / f)) ++ b.remaining.drop size }

/-- move_beam_layer, beam_calculator.py:116-134; returns lost, moved, fell. The kernel writes the arrays x, y, xi, px, py, pz, id, remaining_steps in place; the other arrays of a row are not changed (`push_causal`). -/
noncomputable def moveBeamLayer (env : Env3 σ) (b : Beam ℝ) (fellSize : ℕ) (plIdx : ℕ) (F0 F1 : Fields3) : Beam ℝ × Beam ℝ × Beam ℝ :=
  if b.id.length ≠ 0 then
    let b := startMovingLayer env.timeStep env.energy b fellSize
    let res := b.rows.map (pushRow env.cfg ((plIdx : ℤ) - 1) F0 F1)
    let b := Beam.ofRows (res.map Moved.row)
    (b.getLayer (res.map Moved.lost), b.getLayer (res.map Moved.moved), b.getLayer (res.map Moved.fell))
  else
    let no := b.id.map fun _ => false
    (b.getLayer no, b.getLayer no, b.getLayer no)

/-- Variables of step_dt across the loop (push_solver.py:225-262). `lostLog` and `sourced` are ghosts: the code discards `lost` (push_solver.py:262 is commented out). -/
structure SweepState (σ : Type) where
  plasma : σ
  rhoLayout : Grid
  rhoPrev : Grid
  toMove : Beam ℝ
  fellSize : ℕ
  source : Beam ℝ
  drain : Beam ℝ
  lostLog : List (Row ℝ)
  sourced : List (List (Row ℝ))

/-- One iteration of the xi loop, push_solver.py:236-261, with create_next_layer (beam_calculator.py:136-143). -/
noncomputable def sweepStep (env : Env3 σ) (s : SweepState σ) (xiI : ℕ) : SweepState σ :=
  let src := getBeamLayerToLayout env.cfg.dxi s.source xiI
  let rho := layoutBeamLayer env.cfg s.rhoLayout src.1.rows xiI
  let plasma := env.plasma s.plasma rho.1 s.rhoPrev
  let mv := moveBeamLayer env s.toMove s.fellSize xiI (env.fields s.plasma) (env.fields plasma)
  { plasma := plasma
    rhoLayout := rho.2
    rhoPrev := rho.1
    toMove := src.1.append mv.2.2
    fellSize := mv.2.2.id.length
    source := src.2
    drain := drainPush s.drain mv.2.1
    lostLog := s.lostLog ++ mv.1.rows
    sourced := s.sourced ++ [src.1.rows] }

/-- State before the loop, push_solver.py:225-232, beam_calculator.py:72-78. -/
def sweepInit (plasma : σ) (source : Beam ℝ) : SweepState σ :=
  { plasma := plasma, rhoLayout := fun _ _ => 0, rhoPrev := fun _ _ => 0, toMove := Beam.empty, fellSize := 0,
    source := source, drain := Beam.empty, lostLog := [], sourced := [] }

/-- step_dt, push_solver.py:236: the loop over `range(0, xi_steps + 1)`. -/
noncomputable def stepDt (env : Env3 σ) (plasma : σ) (source : Beam ℝ) (xiSteps : ℕ) : SweepState σ :=
  (List.range (xiSteps + 1)).foldl (sweepStep env) (sweepInit plasma source)

/-! ### Rows -/

/-- A fresh row gets its substep and number of substeps. -/
noncomputable def initRow (ts energy : ℝ) (r : Row ℝ) : Row ℝ :=
  { r with dt := substepFraction r.qm r.pz energy * ts, remaining := Lcode.Py.pyInt (1 / substepFraction r.qm r.pz energy) }

theorem startMoving_ofRows (ts energy : ℝ) (fresh fell : List (Row ℝ)) :
    startMovingLayer ts energy (Beam.ofRows (fresh ++ fell)) fell.length = Beam.ofRows (fresh.map (initRow ts energy) ++ fell) := by
  unfold startMovingLayer
  have hs : (Beam.ofRows (fresh ++ fell)).id.length - fell.length = fresh.length := by simp [Beam.ofRows]
  rw [hs]
  have ht : ∀ {α : Type} (f : Row ℝ → α), ((fresh ++ fell).map f).take fresh.length = fresh.map f := by
    intro α f
    rw [List.map_append, List.take_left' (by simp)]
  have hd : ∀ {α : Type} (f : Row ℝ → α), ((fresh ++ fell).map f).drop fresh.length = fell.map f := by
    intro α f
    rw [List.map_append, List.drop_left' (by simp)]
  simp only [Beam.ofRows, ht, hd, List.zipWith_map, List.zipWith_self, List.map_map]
  simp only [List.map_append, List.map_map, Function.comp_def, initRow]

theorem moveBeamLayer_rows (env : Env3 σ) (fresh fell : List (Row ℝ)) (xiI : ℕ) (F0 F1 : Fields3) :
    let res := (fresh.map (initRow env.timeStep env.energy) ++ fell).map (pushRow env.cfg ((xiI : ℤ) - 1) F0 F1)
    moveBeamLayer env (Beam.ofRows (fresh ++ fell)) fell.length xiI F0 F1 =
      (Beam.ofRows ((res.filter Moved.lost).map Moved.row), Beam.ofRows ((res.filter Moved.moved).map Moved.row), Beam.ofRows ((res.filter Moved.fell).map Moved.row)) := by
  intro res
  unfold moveBeamLayer
  by_cases h0 : (Beam.ofRows (fresh ++ fell)).id.length ≠ 0
  · rw [if_pos h0, startMoving_ofRows]
    simp only [rows_ofRows, getLayer_ofRows, mask_map, mask_eq_filter]
    rfl
  · rw [if_neg h0]
    have : fresh ++ fell = [] := by simpa [Beam.ofRows] using h0
    obtain ⟨rfl, rfl⟩ := List.append_eq_nil_iff.mp this
    simp [res, Beam.ofRows, Beam.getLayer, mask]

/-! ### Specification -/

/-- `j` completed substeps, in any layers and with any fields, lead from `r` to `r'`. -/
inductive Hist (c : BCfg) : ℕ → Row ℝ → Row ℝ → Prop
  | refl (r : Row ℝ) : Hist c 0 r r
  | chain {j k : ℕ} {r m r' : Row ℝ} (idx : ℤ) (F0 F1 : Fields3) : Hist c j r m → Chain c idx F0 F1 k m r' → Hist c (j + k) r r'

/-- The particle `r` is `src` in the course of its time step: it was given `n` substeps whose lengths add up to the time step, and has done `j` of them. -/
def Underway (env : Env3 σ) (src r : Row ℝ) (n j : ℕ) : Prop :=
  ∃ start : Row ℝ, start = { src with dt := start.dt, remaining := n } ∧ n * start.dt = env.timeStep ∧ (∃ k : ℕ, n = 2 ^ k) ∧ Hist env.cfg j start r ∧ j ≤ n ∧ r.remaining = (n : ℤ) - j

/-- The particle `r` is `src` after it hit the wall during its time step. -/
def WallHit (env : Env3 σ) (src r : Row ℝ) : Prop :=
  ∃ n j m, Underway env src m n j ∧ j < n ∧ r.remaining = 0 ∧ r.id = -src.id ∧ lostRadius env.cfg ^ 2 ≤ r.x ^ 2 + r.y ^ 2

theorem Hist.invariant {c : BCfg} {j : ℕ} {r r' : Row ℝ} (h : Hist c j r r') : r'.id = r.id ∧ r'.qm = r.qm ∧ r'.qnorm = r.qnorm ∧ r'.dt = r.dt ∧ r'.remaining = r.remaining - j := by
  induction h with
  | refl r => simp
  | chain idx F0 F1 h hc ih =>
    obtain ⟨h1, h2, h3, h4, h5⟩ := ih
    obtain ⟨i1, i2, i3, i4, i5, -⟩ := hc.invariant
    exact ⟨by rw [i1, h1], by rw [i2, h2], by rw [i3, h3], by rw [i4, h4], by rw [i5, h5]; push_cast; ring⟩

theorem underway_init (env : Env3 σ) (he : 0 < env.energy) (src : Row ℝ) (hq : src.qm ≠ 0) :
    ∃ n, Underway env src (initRow env.timeStep env.energy src) n 0 := by
  obtain ⟨fuel₀, f, hf, k, hk, -, -, h2, h3⟩ := Lcode.Beam2D.substeps_exact src.qm src.pz env.energy env.timeStep hq he
  have hex : ∃ f, ∃ fuel, Lcode.Beam2D.beamSubsteppingStep fuel src.qm src.pz env.energy = some f := ⟨f, fuel₀, hf fuel₀ le_rfl⟩
  have hfr : substepFraction src.qm src.pz env.energy = f := by
    unfold substepFraction
    rw [dif_pos hex]
    obtain ⟨fuel₁, h1⟩ := hex.choose_spec
    obtain ⟨k1, -, g1, g2, g3⟩ := Lcode.Beam2D.halvingLoop_spec _ _ _ _ h1
    have := hf (max fuel₀ fuel₁) (le_max_left _ _)
    have h2 : Lcode.Beam2D.halvingLoop (Lcode.Beam2D.maxSubstep src.qm src.pz env.energy) (max fuel₀ fuel₁) 1 = some hex.choose := by
      have mono : ∀ (a b : ℕ) (d v : ℝ), a ≤ b → Lcode.Beam2D.halvingLoop (Lcode.Beam2D.maxSubstep src.qm src.pz env.energy) a d = some v →
          Lcode.Beam2D.halvingLoop (Lcode.Beam2D.maxSubstep src.qm src.pz env.energy) b d = some v := by
        intro a
        induction a with
        | zero =>
          intro b d v _ hv
          unfold Lcode.Beam2D.halvingLoop at hv
          by_cases hd : d > Lcode.Beam2D.maxSubstep src.qm src.pz env.energy
          · simp [hd] at hv
          · cases b with
            | zero => unfold Lcode.Beam2D.halvingLoop; exact hv
            | succ b => unfold Lcode.Beam2D.halvingLoop; rw [if_neg hd]; rwa [if_neg hd] at hv
        | succ a ih =>
          intro b d v hab hv
          obtain ⟨b', rfl⟩ : ∃ b', b = b' + 1 := ⟨b - 1, by omega⟩
          unfold Lcode.Beam2D.halvingLoop at hv ⊢
          by_cases hd : d > Lcode.Beam2D.maxSubstep src.qm src.pz env.energy
          · rw [if_pos hd] at hv ⊢; exact ih b' _ _ (by omega) hv
          · rw [if_neg hd] at hv ⊢; exact hv
      exact mono fuel₁ _ _ _ (le_max_right _ _) h1
    have h3' : some hex.choose = some f := by rw [← h2, ← this]; rfl
    exact Option.some.inj h3'
  refine ⟨2 ^ k, initRow env.timeStep env.energy src, ?_, ?_, ⟨k, rfl⟩, .refl _, Nat.zero_le _, ?_⟩
  · simp only [initRow, hfr]
    have : Lcode.Py.pyInt (1 / f) = 2 ^ k := h2
    rw [this]; push_cast; rfl
  · simp only [initRow, hfr]
    rw [h2] at h3
    push_cast at h3 ⊢
    exact h3
  · simp only [initRow, hfr]
    have : Lcode.Py.pyInt (1 / f) = 2 ^ k := h2
    rw [this]; push_cast; ring

/-- One layer of motion for a particle under way. -/
theorem push_underway (env : Env3 σ) (idx : ℤ) (F0 F1 : Fields3) (src r : Row ℝ) (n j : ℕ) (h : Underway env src r n j) :
    let o := pushRow env.cfg idx F0 F1 r
    ((∃ j', Underway env src o.row n j' ∧ o.lost = false) ∨ (WallHit env src o.row ∧ o.lost = true)) ∧
    (o.moved = true → Underway env src o.row n n ∧ -(env.cfg.dxi * (idx + 1)) ≤ o.row.x) := by
  intro o
  obtain ⟨start, h1, h2, h3, h4, h5, h6⟩ := h
  have hr : r.remaining = ((n - j : ℕ) : ℤ) := by rw [h6]; omega
  have ho : pushRow env.cfg idx F0 F1 r = o := rfl
  have := push_outcomes env.cfg idx F0 F1 (n - j) r hr
  simp only [ho] at this
  have hU : ∀ k, k ≤ n - j → Chain env.cfg idx F0 F1 k r o.row → Underway env src o.row n (j + k) := by
    intro k hk hc
    refine ⟨start, h1, h2, h3, .chain idx F0 F1 h4 hc, by omega, ?_⟩
    rw [hc.invariant.2.2.2.2.1, h6]; push_cast; ring
  rcases this with ⟨k, hk, hc, -, -, a1, a2, a3⟩ | ⟨k, m, hk, hc, ht, a0, a1, a2, a3, a4, a5⟩ | ⟨hc, a0, a1, a2, a3⟩
  · refine ⟨Or.inl ⟨j + k, hU k (by omega) hc, a1⟩, ?_⟩
    rw [a3]; simp
  · refine ⟨Or.inr ⟨⟨n, j + k, m, ⟨start, h1, h2, h3, .chain idx F0 F1 h4 hc, by omega, ?_⟩, by omega, a0, ?_, a2⟩, a3⟩, ?_⟩
    · rw [hc.invariant.2.2.2.2.1, h6]; push_cast; ring
    · have hsrc : start.id = src.id := by rw [h1]
      rw [a1, h4.invariant.1, hsrc]
    · rw [a4]; simp
  · have hn := hU (n - j) le_rfl hc
    rw [show j + (n - j) = n by omega] at hn
    exact ⟨Or.inl ⟨n, hn, a1⟩, fun hm => ⟨hn, a3.mp hm⟩⟩

theorem push_wallHit (env : Env3 σ) (idx : ℤ) (F0 F1 : Fields3) (src r : Row ℝ) (h : WallHit env src r) :
    (pushRow env.cfg idx F0 F1 r).row = r ∧ (pushRow env.cfg idx F0 F1 r).lost = false ∧ ((pushRow env.cfg idx F0 F1 r).moved = true → -(env.cfg.dxi * (idx + 1)) ≤ r.x) := by
  obtain ⟨n, j, m, -, -, h0, -⟩ := h
  obtain ⟨h1, h2, h3, h4⟩ := push_waiting env.cfg idx F0 F1 r h0
  exact ⟨h1, h2, h3.mp⟩

/-! ### The sweep, row by row -/

/-- The arrays of a state are the columns of lists of rows: the layer to be moved is `fresh` followed by `fell`. -/
structure RowsOf (s : SweepState σ) (fresh fell src drain : List (Row ℝ)) : Prop where
  toMove : s.toMove = Beam.ofRows (fresh ++ fell)
  fellSize : s.fellSize = fell.length
  source : s.source = Beam.ofRows src
  drain : s.drain = Beam.ofRows drain

/-- What the kernel says about the particles of the layer that is moved in iteration `xiI`. -/
noncomputable def results (env : Env3 σ) (s : SweepState σ) (xiI : ℕ) (fresh fell : List (Row ℝ)) : List Moved :=
  (fresh.map (initRow env.timeStep env.energy) ++ fell).map (pushRow env.cfg ((xiI : ℤ) - 1) (env.fields s.plasma) (env.fields (sweepStep env s xiI).plasma))

theorem sweepStep_rows (env : Env3 σ) (s : SweepState σ) (xiI : ℕ) (fresh fell src drain : List (Row ℝ)) (h : RowsOf s fresh fell src drain) :
    RowsOf (sweepStep env s xiI) (src.take (inLayer env.cfg.dxi xiI src)) (((results env s xiI fresh fell).filter Moved.fell).map Moved.row)
      (src.drop (inLayer env.cfg.dxi xiI src)) (drain ++ ((results env s xiI fresh fell).filter Moved.moved).map Moved.row) ∧
    (sweepStep env s xiI).lostLog = s.lostLog ++ ((results env s xiI fresh fell).filter Moved.lost).map Moved.row ∧
    (sweepStep env s xiI).sourced = s.sourced ++ [src.take (inLayer env.cfg.dxi xiI src)] := by
  obtain ⟨h1, h2, h3, h4⟩ := h
  have hsrc : getBeamLayerToLayout env.cfg.dxi s.source xiI = (Beam.ofRows (src.take (inLayer env.cfg.dxi xiI src)), Beam.ofRows (src.drop (inLayer env.cfg.dxi xiI src))) := by
    rw [h3, getBeamLayer_ofRows]
  have hmv : moveBeamLayer env s.toMove s.fellSize xiI (env.fields s.plasma) (env.fields (sweepStep env s xiI).plasma) =
      (Beam.ofRows (((results env s xiI fresh fell).filter Moved.lost).map Moved.row), Beam.ofRows (((results env s xiI fresh fell).filter Moved.moved).map Moved.row),
        Beam.ofRows (((results env s xiI fresh fell).filter Moved.fell).map Moved.row)) := by
    rw [h1, h2]; exact moveBeamLayer_rows env fresh fell xiI _ _
  have hl : ∀ t : List (Row ℝ), (Beam.ofRows t).id.length = t.length := fun t => by simp [Beam.ofRows]
  refine ⟨⟨?_, ?_, ?_, ?_⟩, ?_, ?_⟩
  · show (getBeamLayerToLayout env.cfg.dxi s.source xiI).1.append (moveBeamLayer env s.toMove s.fellSize xiI (env.fields s.plasma) (env.fields (sweepStep env s xiI).plasma)).2.2 = _
    rw [hsrc, hmv, append_ofRows]
  · show (moveBeamLayer env s.toMove s.fellSize xiI (env.fields s.plasma) (env.fields (sweepStep env s xiI).plasma)).2.2.id.length = _
    rw [hmv, hl]
  · show (getBeamLayerToLayout env.cfg.dxi s.source xiI).2 = _
    rw [hsrc]
  · show drainPush s.drain (moveBeamLayer env s.toMove s.fellSize xiI (env.fields s.plasma) (env.fields (sweepStep env s xiI).plasma)).2.1 = _
    rw [hmv, h4]
    unfold drainPush
    rw [hl, append_ofRows]
    by_cases h0 : (((results env s xiI fresh fell).filter Moved.moved).map Moved.row).length > 0
    · exact if_pos h0
    · have : ((results env s xiI fresh fell).filter Moved.moved).map Moved.row = [] := List.length_eq_zero_iff.mp (by omega)
      rw [this, List.append_nil]
      simp
  · show s.lostLog ++ (moveBeamLayer env s.toMove s.fellSize xiI (env.fields s.plasma) (env.fields (sweepStep env s xiI).plasma)).1.rows = _
    rw [hmv, rows_ofRows]
  · show s.sourced ++ [(getBeamLayerToLayout env.cfg.dxi s.source xiI).1.rows] = _
    rw [hsrc, rows_ofRows]

/-! ### Invariant -/

/-- What nothing in a time step may change: the absolute value of the identifier (its sign marks particles that hit the wall), charge-to-mass ratio and charge. -/
def tag (r : Row ℝ) : ℤ × ℝ × ℝ := (|r.id|, r.qm, r.qnorm)

/-- A particle of the moving layer: some sourced particle on its way, or one that hit the wall. -/
def Traces (env : Env3 σ) (all : List (Row ℝ)) (r : Row ℝ) : Prop := ∃ src ∈ all, (∃ n j, Underway env src r n j) ∨ WallHit env src r

/-- A finished particle: some sourced particle after all its substeps, or one that hit the wall. -/
def Finished (env : Env3 σ) (all : List (Row ℝ)) (r : Row ℝ) : Prop := ∃ src ∈ all, (∃ n, Underway env src r n n) ∨ WallHit env src r

structure Inv (env : Env3 σ) (m : ℕ) (s : SweepState σ) (fresh fell src drain gone back : List (Row ℝ)) : Prop where
  rows : RowsOf s fresh fell src drain
  freshSourced : ∀ r ∈ fresh, r ∈ s.sourced.flatten
  fellTraces : ∀ r ∈ fell, Traces env s.sourced.flatten r
  drainFinished : ∀ r ∈ drain, Finished env s.sourced.flatten r
  drainX : ∀ r ∈ drain, -(env.cfg.dxi * m) ≤ r.x
  log : s.lostLog.Perm (gone ++ back)
  backX : ∀ r ∈ back, r.x < 0
  goneHit : ∀ r ∈ gone ++ back, ∃ src ∈ s.sourced.flatten, WallHit env src r
  count : (s.sourced.flatten.map tag).Perm ((drain ++ (fresh ++ fell) ++ gone).map tag)
  nonneg : ∀ r ∈ fell, 0 ≤ r.remaining

theorem Underway.remaining_nonneg {env : Env3 σ} {src r : Row ℝ} {n j : ℕ} (h : Underway env src r n j) : 0 ≤ r.remaining := by
  obtain ⟨-, -, -, -, -, h5, h6⟩ := h
  rw [h6]; omega

theorem pushRow_tag (c : BCfg) (idx : ℤ) (F0 F1 : Fields3) (r : Row ℝ) (hr : 0 ≤ r.remaining) : tag (pushRow c idx F0 F1 r).row = tag r := by
  obtain ⟨n, hn⟩ := Int.eq_ofNat_of_zero_le hr
  rcases push_outcomes c idx F0 F1 n r hn with ⟨k, -, hc, -⟩ | ⟨k, m, -, hc, ht, -⟩ | ⟨hc, -⟩
  · obtain ⟨a, b, d, -⟩ := hc.invariant; simp only [tag, a, b, d]
  · obtain ⟨a, b, d, -⟩ := hc.invariant
    obtain ⟨-, a', -, -, b', d', -⟩ := turn_lost c idx F0 F1 m _ ht
    simp only [tag, a', b', d', a, b, d, abs_neg]
  · obtain ⟨a, b, d, -⟩ := hc.invariant; simp only [tag, a, b, d]

/-- The results of the kernel fall into three groups: finished, handed on, and lost for good. -/
theorem split_results (res : List Moved) (h1 : ∀ o ∈ res, o.lost = true ∨ o.moved = true ∨ o.fell = true) (h2 : ∀ o ∈ res, ¬ (o.lost = true ∧ o.moved = true))
    (h3 : ∀ o ∈ res, ¬ (o.fell = true ∧ o.moved = true)) :
    res.Perm (res.filter Moved.moved ++ res.filter Moved.fell ++ res.filter fun o => o.lost && !o.fell) := by
  induction res with
  | nil => rfl
  | cons o res ih =>
    have ih := ih (fun o h => h1 o (List.mem_cons_of_mem _ h)) (fun o h => h2 o (List.mem_cons_of_mem _ h)) (fun o h => h3 o (List.mem_cons_of_mem _ h))
    have a1 := h1 o List.mem_cons_self
    have a2 := h2 o List.mem_cons_self
    have a3 := h3 o List.mem_cons_self
    simp only [List.filter_cons]
    cases hl : o.lost <;> cases hm : o.moved <;> cases hf : o.fell <;> simp [hl, hm, hf] at a1 a2 a3 ⊢
    · refine (List.Perm.cons o ih).trans ?_
      simpa using List.perm_middle.symm
    · simpa using ih
    · refine (List.Perm.cons o ih).trans ?_
      rw [← List.append_assoc]
      exact List.perm_middle.symm
    · refine (List.Perm.cons o ih).trans ?_
      simpa using List.perm_middle.symm

theorem inv_step (env : Env3 σ) (he : 0 < env.energy) (hd : 0 ≤ env.cfg.dxi) (m : ℕ) (s : SweepState σ) (fresh fell src drain gone back : List (Row ℝ))
    (hq : ∀ r ∈ src, r.qm ≠ 0) (hqf : ∀ r ∈ fresh, r.qm ≠ 0) (h : Inv env (m - 1) s fresh fell src drain gone back) :
    ∃ gone' back', Inv env m (sweepStep env s m) (src.take (inLayer env.cfg.dxi m src)) (((results env s m fresh fell).filter Moved.fell).map Moved.row)
      (src.drop (inLayer env.cfg.dxi m src)) (drain ++ ((results env s m fresh fell).filter Moved.moved).map Moved.row) gone' back' := by
  obtain ⟨hr, hlog, hsourced⟩ := sweepStep_rows env s m fresh fell src drain h.rows
  set res := results env s m fresh fell with hres
  have hidx : -(env.cfg.dxi * ((((m : ℤ) - 1 : ℤ) : ℝ) + 1)) = -(env.cfg.dxi * m) := by push_cast; ring
  have hsub : ∀ r, r ∈ s.sourced.flatten → r ∈ (sweepStep env s m).sourced.flatten := by
    intro r hr'
    rw [hsourced]; simp only [List.flatten_append, List.mem_append]; exact Or.inl hr'
  -- every particle that is moved is under way or waits after hitting the wall
  have hmoving : ∀ r ∈ fresh.map (initRow env.timeStep env.energy) ++ fell, Traces env s.sourced.flatten r := by
    intro r hr'
    rcases List.mem_append.mp hr' with h1 | h1
    · obtain ⟨r0, hr0, rfl⟩ := List.mem_map.mp h1
      obtain ⟨n, hn⟩ := underway_init env he r0 (hqf r0 hr0)
      exact ⟨r0, h.freshSourced r0 hr0, Or.inl ⟨n, 0, hn⟩⟩
    · exact h.fellTraces r h1
  have hrem : ∀ r ∈ fresh.map (initRow env.timeStep env.energy) ++ fell, 0 ≤ r.remaining := by
    intro r hr'
    obtain ⟨sr, -, ⟨n, j, hU⟩ | hW⟩ := hmoving r hr'
    · exact hU.remaining_nonneg
    · obtain ⟨n, j, m', -, -, h0, -⟩ := hW
      exact h0.symm ▸ le_rfl
  have hout : ∀ o ∈ res, ∃ r ∈ fresh.map (initRow env.timeStep env.energy) ++ fell, o = pushRow env.cfg ((m : ℤ) - 1) (env.fields s.plasma) (env.fields (sweepStep env s m).plasma) r := by
    intro o ho
    obtain ⟨r, hr', rfl⟩ := List.mem_map.mp ho
    exact ⟨r, hr', rfl⟩
  have htr : ∀ o ∈ res, Traces env s.sourced.flatten o.row := by
    intro o ho
    obtain ⟨r, hr', rfl⟩ := hout o ho
    obtain ⟨sr, hsr, ⟨n, j, hU⟩ | hW⟩ := hmoving r hr'
    · rcases (push_underway env ((m : ℤ) - 1) _ _ sr r n j hU).1 with ⟨j', hj, -⟩ | ⟨hW, -⟩
      · exact ⟨sr, hsr, Or.inl ⟨n, j', hj⟩⟩
      · exact ⟨sr, hsr, Or.inr hW⟩
    · rw [(push_wallHit env ((m : ℤ) - 1) _ _ sr r hW).1]
      exact ⟨sr, hsr, Or.inr hW⟩
  have hfin : ∀ o ∈ res, o.moved = true → Finished env s.sourced.flatten o.row ∧ -(env.cfg.dxi * m) ≤ o.row.x := by
    intro o ho hm
    obtain ⟨r, hr', rfl⟩ := hout o ho
    obtain ⟨sr, hsr, ⟨n, j, hU⟩ | hW⟩ := hmoving r hr'
    · have := (push_underway env ((m : ℤ) - 1) _ _ sr r n j hU).2 hm
      rw [hidx] at this
      exact ⟨⟨sr, hsr, Or.inl ⟨n, this.1⟩⟩, this.2⟩
    · obtain ⟨e1, -, e3⟩ := push_wallHit env ((m : ℤ) - 1) (env.fields s.plasma) (env.fields (sweepStep env s m).plasma) sr r hW
      have := e3 hm
      rw [hidx] at this
      rw [e1]
      exact ⟨⟨sr, hsr, Or.inr hW⟩, this⟩
  have hlost : ∀ o ∈ res, o.lost = true → ∃ sr ∈ s.sourced.flatten, WallHit env sr o.row := by
    intro o ho hl
    obtain ⟨r, hr', rfl⟩ := hout o ho
    obtain ⟨sr, hsr, ⟨n, j, hU⟩ | hW⟩ := hmoving r hr'
    · rcases (push_underway env ((m : ℤ) - 1) _ _ sr r n j hU).1 with ⟨j', -, hf⟩ | ⟨hW, -⟩
      · rw [hl] at hf; exact absurd hf (by simp)
      · exact ⟨sr, hsr, hW⟩
    · have := (push_wallHit env ((m : ℤ) - 1) (env.fields s.plasma) (env.fields (sweepStep env s m).plasma) sr r hW).2.1
      rw [hl] at this; exact absurd this (by simp)
  have h3 : ∀ o ∈ res, (o.lost = true ∨ o.moved = true ∨ o.fell = true) ∧ ¬ (o.lost = true ∧ o.moved = true) ∧ ¬ (o.fell = true ∧ o.moved = true) ∧
      ((o.lost = true ∧ o.fell = true) ↔ (o.lost = true ∧ o.row.x < -(env.cfg.dxi * m))) := by
    intro o ho
    obtain ⟨r, hr', rfl⟩ := hout o ho
    have := push_at_least_one env.cfg ((m : ℤ) - 1) (env.fields s.plasma) (env.fields (sweepStep env s m).plasma) r (hrem r hr')
    simp only [hidx] at this
    exact this
  have hperm := split_results res (fun o ho => (h3 o ho).1) (fun o ho => (h3 o ho).2.1) (fun o ho => (h3 o ho).2.2.1)
  set g := (res.filter fun o => o.lost && !o.fell).map Moved.row with hg
  set k := (res.filter fun o => o.lost && o.fell).map Moved.row with hk
  have hlk : ((res.filter Moved.lost).map Moved.row).Perm (g ++ k) := by
    rw [hg, hk, ← List.map_append]
    apply List.Perm.map
    have e1 : (res.filter fun o => o.lost && !o.fell) = (res.filter Moved.lost).filter (fun o => !o.fell) := by
      rw [List.filter_filter]; congr 1; funext o; rw [Bool.and_comm]
    have e2 : (res.filter fun o => o.lost && o.fell) = (res.filter Moved.lost).filter (fun o => !(!o.fell)) := by
      rw [List.filter_filter]; congr 1; funext o; simp [Bool.and_comm]
    rw [e1, e2]
    exact (List.filter_append_perm _ _).symm
  have htag : (res.map Moved.row).map tag = (fresh ++ fell).map tag := by
    rw [hres, results, List.map_map, List.map_map]
    have : ∀ l : List (Row ℝ), (∀ r ∈ l, 0 ≤ r.remaining) →
        l.map ((tag ∘ Moved.row) ∘ pushRow env.cfg ((m : ℤ) - 1) (env.fields s.plasma) (env.fields (sweepStep env s m).plasma)) = l.map tag := by
      intro l hl
      apply List.map_congr_left
      intro r hr'
      exact pushRow_tag _ _ _ _ r (hl r hr')
    rw [this _ hrem, List.map_append, List.map_append, List.map_map]
    rfl
  refine ⟨gone ++ g, back ++ k, hr, ?_, ?_, ?_, ?_, ?_, ?_, ?_, ?_, ?_⟩
  · intro r hr'
    rw [hsourced]; simp [hr']
  · intro r hr'
    obtain ⟨o, ho, rfl⟩ := List.mem_map.mp hr'
    obtain ⟨sr, hsr, hh⟩ := htr o (List.mem_filter.mp ho).1
    exact ⟨sr, hsub sr hsr, hh⟩
  · intro r hr'
    rcases List.mem_append.mp hr' with h1 | h1
    · obtain ⟨sr, hsr, hh⟩ := h.drainFinished r h1
      exact ⟨sr, hsub sr hsr, hh⟩
    · obtain ⟨o, ho, rfl⟩ := List.mem_map.mp h1
      obtain ⟨sr, hsr, hh⟩ := (hfin o (List.mem_filter.mp ho).1 (List.mem_filter.mp ho).2).1
      exact ⟨sr, hsub sr hsr, hh⟩
  · intro r hr'
    rcases List.mem_append.mp hr' with h1 | h1
    · have := h.drainX r h1
      have hm : ((m - 1 : ℕ) : ℝ) ≤ m := by exact_mod_cast Nat.sub_le m 1
      nlinarith
    · obtain ⟨o, ho, rfl⟩ := List.mem_map.mp h1
      exact (hfin o (List.mem_filter.mp ho).1 (List.mem_filter.mp ho).2).2
  · rw [hlog]
    refine (List.Perm.append h.log hlk).trans ?_
    rw [← Multiset.coe_eq_coe]; simp only [← Multiset.coe_add]; abel
  · intro r hr'
    rcases List.mem_append.mp hr' with h1 | h1
    · exact h.backX r h1
    · obtain ⟨o, ho, rfl⟩ := List.mem_map.mp h1
      obtain ⟨ho1, ho2⟩ := List.mem_filter.mp ho
      have ho2' : o.lost = true ∧ o.fell = true := by simpa using ho2
      have := ((h3 o ho1).2.2.2.mp ho2').2
      have hm : (0 : ℝ) ≤ env.cfg.dxi * m := by positivity
      linarith
  · intro r hr'
    have : r ∈ gone ++ back ∨ r ∈ g ++ k := by
      simp only [List.mem_append] at hr' ⊢; tauto
    rcases this with h1 | h1
    · obtain ⟨sr, hsr, hh⟩ := h.goneHit r h1
      exact ⟨sr, hsub sr hsr, hh⟩
    · have h2 := hlk.mem_iff.mpr h1
      obtain ⟨o, ho, rfl⟩ := List.mem_map.mp h2
      obtain ⟨sr, hsr, hh⟩ := hlost o (List.mem_filter.mp ho).1 (List.mem_filter.mp ho).2
      exact ⟨sr, hsub sr hsr, hh⟩
  · rw [hsourced]
    have hp2 := ((hperm.map Moved.row).map tag)
    rw [htag] at hp2
    have hc := h.count
    simp only [List.map_append, List.flatten_append, List.flatten_cons, List.flatten_nil, List.append_nil] at hp2 hc ⊢
    rw [hg]
    generalize List.map tag (List.map Moved.row (res.filter Moved.moved)) = A at hp2 ⊢
    generalize List.map tag (List.map Moved.row (res.filter Moved.fell)) = B at hp2 ⊢
    generalize List.map tag (List.map Moved.row (res.filter fun o => o.lost && !o.fell)) = C at hp2 ⊢
    rw [← Multiset.coe_eq_coe] at hp2 hc ⊢
    simp only [← Multiset.coe_add] at hp2 hc ⊢
    rw [hc]
    have : ∀ D E F G H T : Multiset (ℤ × ℝ × ℝ), E + F = A + B + C → D + (E + F) + G + T = D + A + (T + B) + (G + C) := by
      intro D E F G H T hh
      rw [hh]; abel
    exact this _ _ _ _ 0 _ hp2
  · intro r hr'
    obtain ⟨o, ho, rfl⟩ := List.mem_map.mp hr'
    obtain ⟨sr, -, ⟨n, j, hU⟩ | hW⟩ := htr o (List.mem_filter.mp ho).1
    · exact hU.remaining_nonneg
    · obtain ⟨n, j, m', -, -, h0, -⟩ := hW
      exact h0.symm ▸ le_rfl

theorem inv_run (env : Env3 σ) (he : 0 < env.energy) (hd : 0 ≤ env.cfg.dxi) (plasma : σ) (b : List (Row ℝ)) (hq : ∀ r ∈ b, r.qm ≠ 0) (m : ℕ) :
    ∃ fresh fell src drain gone back, Inv env (m - 1) ((List.range m).foldl (sweepStep env) (sweepInit plasma (Beam.ofRows b))) fresh fell src drain gone back ∧
      (∀ r ∈ fresh, r ∈ b) ∧ (∀ r ∈ src, r ∈ b) := by
  induction m with
  | zero =>
    refine ⟨[], [], b, [], [], [], ⟨⟨rfl, rfl, rfl, rfl⟩, ?_, ?_, ?_, ?_, ?_, ?_, ?_, ?_, ?_⟩, ?_, fun r h => h⟩ <;> simp [sweepInit]
  | succ m ih =>
    obtain ⟨fresh, fell, src, drain, gone, back, hI, hf, hs⟩ := ih
    rw [List.range_succ, List.foldl_append]
    obtain ⟨gone', back', h'⟩ := inv_step env he hd m _ fresh fell src drain gone back (fun r h => hq r (hs r h)) (fun r h => hq r (hf r h)) hI
    exact ⟨_, _, _, _, gone', back', h', fun r h => hs r (List.mem_of_mem_take h), fun r h => hs r (List.mem_of_mem_drop h)⟩

theorem sourced_run (env : Env3 σ) (plasma : σ) (src : Beam ℝ) (m : ℕ) :
    ((List.range m).foldl (sweepStep env) (sweepInit plasma src)).sourced = (sourceLayers env.cfg.dxi src 0 m).1.map Beam.rows ∧
    ((List.range m).foldl (sweepStep env) (sweepInit plasma src)).source = (sourceLayers env.cfg.dxi src 0 m).2 := by
  have hsnoc : ∀ (m i : ℕ) (b : Beam ℝ), sourceLayers env.cfg.dxi b i (m + 1) =
      ((sourceLayers env.cfg.dxi b i m).1 ++ [(getBeamLayerToLayout env.cfg.dxi (sourceLayers env.cfg.dxi b i m).2 (i + m)).1], (getBeamLayerToLayout env.cfg.dxi (sourceLayers env.cfg.dxi b i m).2 (i + m)).2) := by
    intro m
    induction m with
    | zero => intro i b; simp [sourceLayers]
    | succ m ih =>
      intro i b
      rw [sourceLayers, ih (i + 1)]
      simp only [sourceLayers, List.cons_append]
      rw [show i + 1 + m = i + (m + 1) by omega]
  induction m with
  | zero => exact ⟨rfl, rfl⟩
  | succ m ih =>
    rw [List.range_succ, List.foldl_append, hsnoc]
    simp only [List.foldl_cons, List.foldl_nil, Nat.zero_add]
    constructor
    · show _ ++ [(getBeamLayerToLayout env.cfg.dxi ((List.range m).foldl (sweepStep env) (sweepInit plasma src)).source m).1.rows] = _
      rw [ih.1, ih.2]; simp
    · show (getBeamLayerToLayout env.cfg.dxi ((List.range m).foldl (sweepStep env) (sweepInit plasma src)).source m).2 = _
      rw [ih.2]

/-! ### Theorems -/

/-- C33: the books of a time step, whatever the plasma does. The particles handed out by the source are, with their identifiers up to sign, their charges and their masses, exactly those in the new beam, those still waiting in the layer that is moved when the sweep ends (they are DROPPED), and those that hit the wall and were not taken back. Particles that hit the wall can be taken back only at negative x. -/
theorem step_accounts (env : Env3 σ) (he : 0 < env.energy) (hd : 0 ≤ env.cfg.dxi) (plasma : σ) (b : Beam ℝ) (k : ℕ) (hb : b.WF k) (hq : ∀ r ∈ b.rows, r.qm ≠ 0) (xiSteps : ℕ) :
    let s := stepDt env plasma b xiSteps
    ∃ gone back : List (Row ℝ), s.lostLog.Perm (gone ++ back) ∧ (∀ r ∈ back, r.x < 0) ∧
      (((sourceLayers env.cfg.dxi b 0 (xiSteps + 1)).1.map Beam.rows).flatten.map tag).Perm ((s.drain.rows ++ s.toMove.rows ++ gone).map tag) := by
  intro s
  have hs : s = (List.range (xiSteps + 1)).foldl (sweepStep env) (sweepInit plasma (Beam.ofRows b.rows)) := by rw [ofRows_rows hb]; rfl
  obtain ⟨fresh, fell, src, drain, gone, back, hI, -, -⟩ := inv_run env he hd plasma b.rows hq (xiSteps + 1)
  have hso := (sourced_run env plasma b (xiSteps + 1)).1
  rw [← hs] at hI
  refine ⟨gone, back, hI.log, hI.backX, ?_⟩
  have hc := hI.count
  rw [hI.rows.drain, hI.rows.toMove, rows_ofRows, rows_ofRows, ← hso]
  exact hc

/-- C33: every particle of the new beam is a particle of the old beam that did all its substeps, which together make up the time step, or one that hit the wall and was taken back (its identifier has the opposite sign); in either case its x is not below the tail of the window (`-dxi` times the number of xi steps). -/
theorem step_new_beam (env : Env3 σ) (he : 0 < env.energy) (hd : 0 ≤ env.cfg.dxi) (plasma : σ) (b : Beam ℝ) (k : ℕ) (hb : b.WF k) (hq : ∀ r ∈ b.rows, r.qm ≠ 0) (xiSteps : ℕ) :
    ∀ r ∈ (stepDt env plasma b xiSteps).drain.rows,
      (∃ src ∈ ((sourceLayers env.cfg.dxi b 0 (xiSteps + 1)).1.map Beam.rows).flatten, (∃ n, Underway env src r n n) ∨ WallHit env src r) ∧ -(env.cfg.dxi * xiSteps) ≤ r.x := by
  have hs : stepDt env plasma b xiSteps = (List.range (xiSteps + 1)).foldl (sweepStep env) (sweepInit plasma (Beam.ofRows b.rows)) := by rw [ofRows_rows hb]; rfl
  obtain ⟨fresh, fell, src, drain, gone, back, hI, -, -⟩ := inv_run env he hd plasma b.rows hq (xiSteps + 1)
  have hso := (sourced_run env plasma b (xiSteps + 1)).1
  rw [← hs] at hI
  have hso' : (stepDt env plasma b xiSteps).sourced = _ := hso
  rw [hI.rows.drain, rows_ofRows, ← hso']
  intro r hr
  refine ⟨hI.drainFinished r hr, ?_⟩
  have := hI.drainX r hr
  simpa using this

/-! ### Refutations -/

theorem substepFraction_one (q pz e : ℝ) (h : 1 ≤ Lcode.Beam2D.maxSubstep q pz e) : substepFraction q pz e = 1 := by
  have hv : ∀ fuel v, Lcode.Beam2D.beamSubsteppingStep fuel q pz e = some v → v = 1 := by
    intro fuel v hv
    unfold Lcode.Beam2D.beamSubsteppingStep Lcode.Beam2D.halvingLoop at hv
    cases fuel with
    | zero => simpa [not_lt.mpr h] using hv.symm
    | succ fuel => simpa [not_lt.mpr h] using hv.symm
  have hex : ∃ f, ∃ fuel, Lcode.Beam2D.beamSubsteppingStep fuel q pz e = some f := by
    refine ⟨1, 0, ?_⟩
    unfold Lcode.Beam2D.beamSubsteppingStep Lcode.Beam2D.halvingLoop
    simp [not_lt.mpr h]
  unfold substepFraction
  rw [dif_pos hex]
  obtain ⟨fuel, hf⟩ := hex.choose_spec
  exact hv fuel _ hf

def noFields : Fields3 := ⟨0, 0, 0, 0, 0, 0, 0⟩

/-- A window of three layers of width 1 and 11 x 11 cells of size 1, with no fields. -/
noncomputable def emptyWindow : Env3 Unit := ⟨⟨11, 1, 1⟩, 1 / 10, 1, fun _ _ _ => (), fun _ => noFields⟩

theorem lostRadius_emptyWindow : lostRadius emptyWindow.cfg = 4.95 := by
  unfold lostRadius emptyWindow; norm_num

theorem interp3_zero (N : ℤ) (xh yh s : ℝ) : interp3 N xh yh s 0 0 = 0 := by
  unfold interp3
  have : ∀ l : List (ℤ × ℤ × ℝ), l.foldl (fun s' t => s' + ((0 : ℤ → ℤ → ℝ) t.1 t.2.1 * (t.2.2 * weight1 s 0) + (0 : ℤ → ℤ → ℝ) t.1 t.2.1 * (t.2.2 * weight1 s 1))) 0 = 0 := by
    intro l
    induction l with
    | nil => rfl
    | cons t l ih => simp only [List.foldl_cons, Pi.zero_apply, zero_mul, add_zero]; simpa using ih
  exact this _

/-- Without fields a particle at rest falls back by `dt` in a substep. -/
theorem turn_rest (x xi : ℝ) (n idx : ℤ) (h1 : -(1 * ((idx : ℝ) + 1)) ≤ xi - 1 / 10 / 2) (h2 : x ^ 2 < 24) :
    turn emptyWindow.cfg idx noFields noFields (restRow x xi (1 / 10) n) = .next (restRow x (xi - 1 / 10) (1 / 10) (n - 1)) := by
  unfold turn
  simp only [halfPos_rest, notInLayer, isLost, lostRadius_emptyWindow, fieldE3, fieldB3, noFields, interp3_zero]
  have e : fullStep (restRow x xi (1 / 10) n) (halfMomentum (restRow x xi (1 / 10) n) ⟨0, 0, 0⟩ ⟨0, 0, 0⟩) = restRow x (xi - 1 / 10) (1 / 10) n := by
    simp only [fullStep, halfMomentum, restRow, gammaM, Row.mk.injEq]
    norm_num
    ring
  rw [e]
  have ed : emptyWindow.cfg.dxi = 1 := rfl
  rw [if_neg (by rw [ed]; simp only [gt_iff_lt, not_lt]; linarith), if_neg (by norm_num; linarith), if_neg (by norm_num [restRow]; linarith)]
  rfl

theorem initRow_rest (x xi : ℝ) (d : ℝ) (n : ℤ) : initRow emptyWindow.timeStep emptyWindow.energy (restRow x xi d n) = restRow x xi (1 / 10) 1 := by
  have hf : substepFraction 1 0 emptyWindow.energy = 1 := by
    apply substepFraction_one
    unfold Lcode.Beam2D.maxSubstep emptyWindow
    norm_num
  have e1 : Lcode.Py.pyInt (1 / 1 : ℝ) = 1 := by norm_num [Lcode.Py.pyInt]
  simp only [initRow, restRow, hf]
  rw [e1]
  norm_num [emptyWindow]

/-- A particle with no substeps left whose x is below the xi of the next layer waits for another layer. -/
theorem sweep_wait (env : Env3 σ) (s : SweepState σ) (m : ℕ) (r : Row ℝ) (D : List (Row ℝ)) (h : RowsOf s [] [r] [] D) (h0 : r.remaining = 0) (hx : r.x < -(env.cfg.dxi * m)) :
    RowsOf (sweepStep env s m) [] [r] [] D ∧ (sweepStep env s m).lostLog = s.lostLog := by
  obtain ⟨h1, h2, -⟩ := sweepStep_rows env s m [] [r] [] D h
  obtain ⟨a1, a2, a3, a4⟩ := push_waiting env.cfg ((m : ℤ) - 1) (env.fields s.plasma) (env.fields (sweepStep env s m).plasma) r h0
  have e : -(env.cfg.dxi * ((((m : ℤ) - 1 : ℤ) : ℝ) + 1)) = -(env.cfg.dxi * m) := by push_cast; ring
  rw [e] at a3 a4
  have a3' : (pushRow env.cfg ((m : ℤ) - 1) (env.fields s.plasma) (env.fields (sweepStep env s m).plasma) r).moved = false := by
    rw [Bool.eq_false_iff, ne_eq, a3]; linarith
  have a4' := a4.mpr hx
  have hres : results env s m [] [r] = [pushRow env.cfg ((m : ℤ) - 1) (env.fields s.plasma) (env.fields (sweepStep env s m).plasma) r] := rfl
  rw [hres] at h1 h2
  simp only [List.filter_cons, a2, a3', a4', if_true, List.filter_nil, List.map_cons, List.map_nil, a1, List.append_nil, List.take_nil, List.drop_nil, Bool.false_eq_true, if_false] at h1 h2
  exact ⟨h1, h2⟩

theorem sweep_release (env : Env3 σ) (s : SweepState σ) (m : ℕ) (r : Row ℝ) (D : List (Row ℝ)) (h : RowsOf s [] [r] [] D) (h0 : r.remaining = 0) (hx : -(env.cfg.dxi * m) ≤ r.x) :
    RowsOf (sweepStep env s m) [] [] [] (D ++ [r]) := by
  obtain ⟨h1, h2, -⟩ := sweepStep_rows env s m [] [r] [] D h
  obtain ⟨a1, a2, a3, a4⟩ := push_waiting env.cfg ((m : ℤ) - 1) (env.fields s.plasma) (env.fields (sweepStep env s m).plasma) r h0
  have e : -(env.cfg.dxi * ((((m : ℤ) - 1 : ℤ) : ℝ) + 1)) = -(env.cfg.dxi * m) := by push_cast; ring
  rw [e] at a3 a4
  have a4' : (pushRow env.cfg ((m : ℤ) - 1) (env.fields s.plasma) (env.fields (sweepStep env s m).plasma) r).fell = false := by
    rw [Bool.eq_false_iff, ne_eq, a4]; linarith
  have a3' := a3.mpr hx
  have hres : results env s m [] [r] = [pushRow env.cfg ((m : ℤ) - 1) (env.fields s.plasma) (env.fields (sweepStep env s m).plasma) r] := rfl
  rw [hres] at h1
  simp only [List.filter_cons, a3', a4', if_true, List.filter_nil, List.map_cons, List.map_nil, a1, List.append_nil, List.take_nil, List.drop_nil, Bool.false_eq_true, if_false] at h1
  exact h1

theorem sweep_idle (env : Env3 σ) (s : SweepState σ) (m : ℕ) (D : List (Row ℝ)) (h : RowsOf s [] [] [] D) : RowsOf (sweepStep env s m) [] [] [] D := by
  obtain ⟨h1, -, -⟩ := sweepStep_rows env s m [] [] [] D h
  simpa [results] using h1

/-- The first two iterations of the sweep of one resting particle, up to the flags of the kernel. -/
theorem sweep_rest (x : ℝ) (hx : x ^ 2 < 24) (s : SweepState Unit)
    (hs : sweepStep emptyWindow (sweepStep emptyWindow (sweepInit () (Beam.ofRows [restRow x (-1 / 2) 0 0])) 0) 1 = s) :
    (x < -1 → RowsOf s [] [restRow x (-6 / 10) (1 / 10) 0] [] [] ∧ s.lostLog = []) ∧ (-1 ≤ x → RowsOf s [] [] [] [restRow x (-6 / 10) (1 / 10) 0]) := by
  have hin : InLayer emptyWindow.cfg.dxi 0 (restRow x (-1 / 2) 0 0).xi := by
    constructor <;> norm_num [restRow, emptyWindow]
  have hn : inLayer emptyWindow.cfg.dxi 0 [restRow x (-1 / 2) 0 0] = 1 := by
    simp only [inLayer, List.countP_cons, List.countP_nil, hin, decide_true, if_true]
  obtain ⟨h1, h1l, -⟩ := sweepStep_rows emptyWindow (sweepInit () (Beam.ofRows [restRow x (-1 / 2) 0 0])) 0 [] [] [restRow x (-1 / 2) 0 0] [] ⟨rfl, rfl, rfl, rfl⟩
  rw [hn] at h1
  have hr0 : results emptyWindow (sweepInit () (Beam.ofRows [restRow x (-1 / 2) 0 0])) 0 [] [] = [] := rfl
  rw [hr0] at h1 h1l
  simp only [List.take_succ_cons, List.take_zero, List.filter_nil, List.map_nil, List.drop_succ_cons, List.drop_zero, List.append_nil] at h1 h1l
  generalize sweepStep emptyWindow (sweepInit () (Beam.ofRows [restRow x (-1 / 2) 0 0])) 0 = s1 at h1 h1l hs
  obtain ⟨h2, h2l, -⟩ := sweepStep_rows emptyWindow s1 1 [restRow x (-1 / 2) 0 0] [] [] [] h1
  have hl0 : s1.lostLog = [] := h1l
  have hpl : pushLoop emptyWindow.cfg 0 noFields noFields 1 (restRow x (-1 / 2) (1 / 10) 1) = (restRow x (-6 / 10) (1 / 10) 0, false, false) := by
    have e : (-1 / 2 - 1 / 10 : ℝ) = -6 / 10 := by norm_num
    simp only [pushLoop, turn_rest x (-1 / 2) 1 0 (by norm_num) hx, e]
    norm_num
  have hpush : pushRow emptyWindow.cfg 0 noFields noFields (restRow x (-1 / 2) (1 / 10) 1) = pushRow emptyWindow.cfg 0 noFields noFields (restRow x (-6 / 10) (1 / 10) 0) := by
    unfold pushRow
    have e1 : (restRow x (-1 / 2) (1 / 10) 1).remaining.toNat = 1 := rfl
    have e2 : (restRow x (-6 / 10) (1 / 10) 0).remaining.toNat = 0 := rfl
    rw [e1, hpl, e2]
    rfl
  have hres : results emptyWindow s1 1 [restRow x (-1 / 2) 0 0] [] = [pushRow emptyWindow.cfg 0 noFields noFields (restRow x (-6 / 10) (1 / 10) 0)] := by
    rw [← hpush]
    unfold results
    simp only [List.map_cons, List.map_nil, List.append_nil, initRow_rest]
    rfl
  rw [hres] at h2 h2l
  rw [hs] at h2 h2l
  obtain ⟨a1, a2, a3, a4⟩ := push_waiting emptyWindow.cfg 0 noFields noFields (restRow x (-6 / 10) (1 / 10) 0) rfl
  have e : -(emptyWindow.cfg.dxi * (((0 : ℤ) : ℝ) + 1)) = -1 := by norm_num [emptyWindow]
  have ex : (restRow x (-6 / 10) (1 / 10) 0).x = x := rfl
  rw [e, ex] at a3 a4
  constructor
  · intro hlt
    have a3' : (pushRow emptyWindow.cfg 0 noFields noFields (restRow x (-6 / 10) (1 / 10) 0)).moved = false := by
      rw [Bool.eq_false_iff, ne_eq, a3]; linarith
    have a4' := a4.mpr hlt
    simp only [List.filter_cons, a2, a3', a4', if_true, List.filter_nil, List.map_cons, List.map_nil, a1, List.append_nil, List.take_nil, List.drop_nil, Bool.false_eq_true, if_false, hl0] at h2 h2l
    exact ⟨h2, h2l⟩
  · intro hge
    have a4' : (pushRow emptyWindow.cfg 0 noFields noFields (restRow x (-6 / 10) (1 / 10) 0)).fell = false := by
      rw [Bool.eq_false_iff, ne_eq, a4]; linarith
    have a3' := a3.mpr hge
    simp only [List.filter_cons, a3', a4', if_true, List.filter_nil, List.map_cons, List.map_nil, a1, List.append_nil, List.nil_append, List.take_nil, List.drop_nil, Bool.false_eq_true, if_false] at h2
    exact h2

/-- C33, refutation: a beam of one particle, at rest well inside the grid and in the first layer of a window of three layers, without any fields, at x = -4. After one time step it is neither in the new beam nor recorded as lost: it has vanished. With x = +4 it stays in the beam. -/
theorem step_drops_particle :
    (let s := stepDt emptyWindow () (Beam.ofRows [restRow (-4) (-1 / 2) 0 0]) 3
     s.drain.rows = [] ∧ s.lostLog = [] ∧ s.source.rows = [] ∧ s.toMove.rows = [restRow (-4) (-6 / 10) (1 / 10) 0]) ∧
    (stepDt emptyWindow () (Beam.ofRows [restRow 4 (-1 / 2) 0 0]) 3).drain.rows = [restRow 4 (-6 / 10) (1 / 10) 0] := by
  have hrun : ∀ x, stepDt emptyWindow () (Beam.ofRows [restRow x (-1 / 2) 0 0]) 3 =
      sweepStep emptyWindow (sweepStep emptyWindow (sweepStep emptyWindow (sweepStep emptyWindow (sweepInit () (Beam.ofRows [restRow x (-1 / 2) 0 0])) 0) 1) 2) 3 := by
    intro x
    have hr : List.range (3 + 1) = [0, 1, 2, 3] := rfl
    simp only [stepDt, hr, List.foldl_cons, List.foldl_nil]
  constructor
  · simp only [hrun (-4)]
    obtain ⟨h1, h1l⟩ := (sweep_rest (-4) (by norm_num) _ rfl).1 (by norm_num)
    obtain ⟨h2, h2l⟩ := sweep_wait emptyWindow _ 2 _ _ h1 rfl (by norm_num [restRow, emptyWindow])
    obtain ⟨h3, h3l⟩ := sweep_wait emptyWindow _ 3 _ _ h2 rfl (by norm_num [restRow, emptyWindow])
    rw [h3.drain, h3l, h2l, h1l, h3.source, h3.toMove]
    simp only [rows_ofRows]
    exact ⟨trivial, trivial, trivial, rfl⟩
  · rw [hrun 4]
    have h1 := (sweep_rest 4 (by norm_num) _ rfl).2 (by norm_num)
    have h3 := sweep_idle emptyWindow _ 3 _ (sweep_idle emptyWindow _ 2 _ h1)
    rw [h3.drain, rows_ofRows]

/-- C33, refutation: a beam of one particle at x = -5, beyond the wall (4.95) of the same window, with one layer more than 5. It is recorded as lost, and nevertheless it is in the new beam, with its identifier negated. -/
theorem step_keeps_lost_particle :
    let s := stepDt emptyWindow () (Beam.ofRows [restRow (-5) (-1 / 2) 0 0]) 5
    s.lostLog = s.drain.rows ∧ s.drain.rows.map Row.id = [-1] ∧ lostRadius emptyWindow.cfg < 5 := by
  have hrun : stepDt emptyWindow () (Beam.ofRows [restRow (-5) (-1 / 2) 0 0]) 5 =
      sweepStep emptyWindow (sweepStep emptyWindow (sweepStep emptyWindow (sweepStep emptyWindow (sweepStep emptyWindow (sweepStep emptyWindow (sweepInit () (Beam.ofRows [restRow (-5) (-1 / 2) 0 0])) 0) 1) 2) 3) 4) 5 := by
    have hr : List.range (5 + 1) = [0, 1, 2, 3, 4, 5] := rfl
    simp only [stepDt, hr, List.foldl_cons, List.foldl_nil]
  rw [hrun]
  have hin : InLayer emptyWindow.cfg.dxi 0 (restRow (-5) (-1 / 2) 0 0).xi := by
    constructor <;> norm_num [restRow, emptyWindow]
  have hn : inLayer emptyWindow.cfg.dxi 0 [restRow (-5) (-1 / 2) 0 0] = 1 := by
    simp only [inLayer, List.countP_cons, List.countP_nil, hin, decide_true, if_true]
  obtain ⟨h1, h1l, -⟩ := sweepStep_rows emptyWindow (sweepInit () (Beam.ofRows [restRow (-5) (-1 / 2) 0 0])) 0 [] [] [restRow (-5) (-1 / 2) 0 0] [] ⟨rfl, rfl, rfl, rfl⟩
  rw [hn] at h1
  have hr0 : results emptyWindow (sweepInit () (Beam.ofRows [restRow (-5) (-1 / 2) 0 0])) 0 [] [] = [] := rfl
  rw [hr0] at h1 h1l
  simp only [List.take_succ_cons, List.take_zero, List.filter_nil, List.map_nil, List.drop_succ_cons, List.drop_zero, List.append_nil] at h1 h1l
  generalize sweepStep emptyWindow (sweepInit () (Beam.ofRows [restRow (-5) (-1 / 2) 0 0])) 0 = s1 at h1 h1l
  have hl0 : s1.lostLog = [] := h1l
  obtain ⟨h2, h2l, -⟩ := sweepStep_rows emptyWindow s1 1 [restRow (-5) (-1 / 2) 0 0] [] [] [] h1
  set hit : Row ℝ := ⟨-1 / 2 - 1 / 10 / 2, -5, 0, 0, 0, 0, 1, 1, -1, 1 / 10, 0⟩ with hhit
  have ht : turn emptyWindow.cfg 0 noFields noFields (restRow (-5) (-1 / 2) (1 / 10) 1) = .lost hit := by
    unfold turn
    simp only [halfPos_rest, lostRadius_emptyWindow, notInLayer, isLost]
    have ed : emptyWindow.cfg.dxi = 1 := rfl
    rw [ed, if_neg (by norm_num), if_pos (by norm_num)]
    simp [restRow, hhit]
  have hpush : pushRow emptyWindow.cfg 0 noFields noFields (restRow (-5) (-1 / 2) (1 / 10) 1) = ⟨hit, true, false, true⟩ := by
    unfold pushRow
    have e1 : (restRow (-5) (-1 / 2) (1 / 10) 1).remaining.toNat = 1 := rfl
    have ed : emptyWindow.cfg.dxi = 1 := rfl
    have hl : pushLoop emptyWindow.cfg 0 noFields noFields 1 (restRow (-5) (-1 / 2) (1 / 10) 1) = (hit, true, false) := by
      simp only [pushLoop, ht]
    rw [e1, hl]
    simp only [notInLayer, ed, hhit]
    norm_num
  have hres : results emptyWindow s1 1 [restRow (-5) (-1 / 2) 0 0] [] = [⟨hit, true, false, true⟩] := by
    rw [← hpush]
    unfold results
    simp only [List.map_cons, List.map_nil, List.append_nil, initRow_rest]
    rfl
  rw [hres] at h2 h2l
  simp only [List.filter_cons, if_true, List.filter_nil, List.map_cons, List.map_nil, List.append_nil, List.take_nil, List.drop_nil, Bool.false_eq_true, if_false, hl0, List.nil_append] at h2 h2l
  have hx : hit.x = -5 := rfl
  have ed : emptyWindow.cfg.dxi = 1 := rfl
  obtain ⟨h3, h3l⟩ := sweep_wait emptyWindow _ 2 _ _ h2 rfl (by rw [hx, ed]; norm_num)
  obtain ⟨h4, h4l⟩ := sweep_wait emptyWindow _ 3 _ _ h3 rfl (by rw [hx, ed]; norm_num)
  obtain ⟨h5, h5l⟩ := sweep_wait emptyWindow _ 4 _ _ h4 rfl (by rw [hx, ed]; norm_num)
  have h6 := sweep_release emptyWindow _ 5 _ _ h5 rfl (by rw [hx, ed]; norm_num)
  obtain ⟨-, h6l, -⟩ := sweepStep_rows emptyWindow (sweepStep emptyWindow (sweepStep emptyWindow (sweepStep emptyWindow (sweepStep emptyWindow s1 1) 2) 3) 4) 5 [] [hit] [] [] h5
  have hw := (push_waiting emptyWindow.cfg ((5 : ℕ) - 1 : ℤ) (emptyWindow.fields (sweepStep emptyWindow (sweepStep emptyWindow (sweepStep emptyWindow (sweepStep emptyWindow s1 1) 2) 3) 4).plasma) (emptyWindow.fields (sweepStep emptyWindow (sweepStep emptyWindow (sweepStep emptyWindow (sweepStep emptyWindow (sweepStep emptyWindow s1 1) 2) 3) 4) 5).plasma) hit rfl).2.1
  have hres6 : results emptyWindow (sweepStep emptyWindow (sweepStep emptyWindow (sweepStep emptyWindow (sweepStep emptyWindow s1 1) 2) 3) 4) 5 [] [hit] =
    [pushRow emptyWindow.cfg ((5 : ℕ) - 1 : ℤ) (emptyWindow.fields (sweepStep emptyWindow (sweepStep emptyWindow (sweepStep emptyWindow (sweepStep emptyWindow s1 1) 2) 3) 4).plasma) (emptyWindow.fields (sweepStep emptyWindow (sweepStep emptyWindow (sweepStep emptyWindow (sweepStep emptyWindow (sweepStep emptyWindow s1 1) 2) 3) 4) 5).plasma) hit] := by
    unfold results
    simp only [List.map_cons, List.map_nil, List.nil_append]
  rw [hres6] at h6l
  simp only [List.filter_cons, hw, Bool.false_eq_true, if_false, List.filter_nil, List.map_nil, List.append_nil] at h6l
  simp only [h6.drain, h6l, h5l, h4l, h3l, h2l, rows_ofRows, List.nil_append, lostRadius_emptyWindow]
  refine ⟨trivial, ?_, by norm_num⟩
  simp [hhit]

/-! ### Any number of time steps -/

/-- Single-process run, simulation.py:247-264 with MPIBeamTransport.next_step (mpi/beam_io.py:99-103): the drain of a time step, sorted by BeamSource.__init__, is the source of the next one; the plasma is created anew for every time step. -/
noncomputable def runDt (env : Env3 σ) (plasmaAt : ℕ → σ) (argsort : List ℝ → List ℕ) (xiSteps : ℕ) (b : Beam ℝ) : ℕ → Beam ℝ
  | 0 => b
  | t + 1 => (stepDt env (plasmaAt t) (sourceInit argsort (runDt env plasmaAt argsort xiSteps b t)) xiSteps).drain

/-- What the source hands out and what it keeps is what it had. -/
theorem sourceLayers_rows (h : ℝ) (t : List (Row ℝ)) (i n : ℕ) :
    ((sourceLayers h (Beam.ofRows t) i n).1.map Beam.rows).flatten ++ (sourceLayers h (Beam.ofRows t) i n).2.rows = t := by
  induction n generalizing t i with
  | zero => simp [sourceLayers, rows_ofRows]
  | succ n ih =>
    simp only [sourceLayers]
    rw [getBeamLayer_ofRows]
    simp only [List.map_cons, List.flatten_cons, rows_ofRows, List.append_assoc]
    rw [ih, List.take_append_drop]

/-- C33: in any number of time steps of a 3D simulation, whatever the plasma does, no beam particle is created or duplicated: the particles of the beam are, with their identifiers up to sign, their charges and charge-to-mass ratios, among the initial particles, each at most as often as there. -/
theorem run_no_duplication (env : Env3 σ) (he : 0 < env.energy) (hd : 0 ≤ env.cfg.dxi) (plasmaAt : ℕ → σ) (argsort : List ℝ → List ℕ) (hs : IsArgsort (· ≤ ·) argsort) (xiSteps : ℕ)
    (b : Beam ℝ) (k : ℕ) (hb : b.WF k) (hq : ∀ r ∈ b.rows, r.qm ≠ 0) (T : ℕ) :
    ((runDt env plasmaAt argsort xiSteps b T).rows.map tag).Subperm (b.rows.map tag) ∧ ∃ n, (runDt env plasmaAt argsort xiSteps b T).WF n := by
  induction T with
  | zero => exact ⟨List.Subperm.refl _, k, hb⟩
  | succ T ih =>
    obtain ⟨ih, n, hn⟩ := ih
    have hq' : ∀ r ∈ (runDt env plasmaAt argsort xiSteps b T).rows, r.qm ≠ 0 := by
      intro r hr
      have := ih.subset (List.mem_map_of_mem hr)
      obtain ⟨r0, hr0, e⟩ := List.mem_map.mp this
      have e' : r0.qm = r.qm := by
        have := congrArg (fun t => t.2.1) e
        exact this
      rw [← e']; exact hq r0 hr0
    obtain ⟨hp, -, hw⟩ := source_sorted argsort hs _ n hn
    have hq2 : ∀ r ∈ (sourceInit argsort (runDt env plasmaAt argsort xiSteps b T)).rows, r.qm ≠ 0 := fun r hr => hq' r (hp.mem_iff.mp hr)
    generalize hB : sourceInit argsort (runDt env plasmaAt argsort xiSteps b T) = B at hp hw hq2
    have hrun : runDt env plasmaAt argsort xiSteps b (T + 1) = (stepDt env (plasmaAt T) B xiSteps).drain := by rw [← hB]; rfl
    obtain ⟨gone, back, -, -, hacc⟩ := step_accounts env he hd (plasmaAt T) B n hw hq2 xiSteps
    have hsplit := sourceLayers_rows env.cfg.dxi B.rows 0 (xiSteps + 1)
    rw [ofRows_rows hw] at hsplit
    rw [hrun]
    constructor
    · have h1 : ((stepDt env (plasmaAt T) B xiSteps).drain.rows.map tag).Subperm (((sourceLayers env.cfg.dxi B 0 (xiSteps + 1)).1.map Beam.rows).flatten.map tag) := by
        refine List.Subperm.trans ?_ hacc.symm.subperm
        simp only [List.map_append, List.append_assoc]
        exact (List.sublist_append_left _ _).subperm
      have h2 : ((((sourceLayers env.cfg.dxi B 0 (xiSteps + 1)).1.map Beam.rows).flatten).map tag).Subperm (B.rows.map tag) := by
        conv_rhs => rw [← hsplit]
        rw [List.map_append]
        exact (List.sublist_append_left _ _).subperm
      exact (h1.trans h2).trans ((hp.map tag).subperm.trans ih)
    · obtain ⟨fresh, fell, src, drain, gone, back, hI, -, -⟩ := inv_run env he hd (plasmaAt T) B.rows hq2 (xiSteps + 1)
      have hs' : stepDt env (plasmaAt T) B xiSteps = (List.range (xiSteps + 1)).foldl (sweepStep env) (sweepInit (plasmaAt T) (Beam.ofRows B.rows)) := by rw [ofRows_rows hw]; rfl
      rw [hs', hI.rows.drain]
      exact ⟨_, wf_ofRows _⟩

/-! ### What the plasma is given -/

theorem layoutSweep_snoc (c : BCfg) (ls : List (List (Row ℝ))) (l : List (Row ℝ)) (rho : Grid) (i : ℕ) :
    layoutSweep c rho i (ls ++ [l]) = ((layoutSweep c rho i ls).1 ++ [(layoutBeamLayer c (layoutSweep c rho i ls).2 l (i + ls.length)).1], (layoutBeamLayer c (layoutSweep c rho i ls).2 l (i + ls.length)).2) := by
  induction ls generalizing rho i with
  | nil => simp [layoutSweep]
  | cons a ls ih =>
    simp only [List.cons_append, layoutSweep, List.length_cons]
    rw [ih]
    simp only [show i + 1 + ls.length = i + (ls.length + 1) by omega]

/-- C31 over a time step: the plasma is advanced through the layers one after the other, each time with the density laid out for that layer (described by `sweep_pointwise`) and, as the previous one, the density of the layer before; zero before the first layer. The layers laid out are those the source hands out. -/
theorem step_plasma_given (env : Env3 σ) (plasma : σ) (b : Beam ℝ) (xiSteps : ℕ) :
    let rho := (layoutSweep env.cfg (fun _ _ => 0) 0 ((sourceLayers env.cfg.dxi b 0 (xiSteps + 1)).1.map Beam.rows)).1
    rho.length = xiSteps + 1 ∧
    (stepDt env plasma b xiSteps).plasma = (rho.zip ((fun _ _ => 0) :: rho)).foldl (fun p t => env.plasma p t.1 t.2) plasma := by
  have key : ∀ m : ℕ, let s := (List.range m).foldl (sweepStep env) (sweepInit plasma b)
      s.sourced.length = m ∧
      s.rhoLayout = (layoutSweep env.cfg (fun _ _ => 0) 0 s.sourced).2 ∧
      (layoutSweep env.cfg (fun _ _ => 0) 0 s.sourced).1.length = m ∧
      ((fun _ _ => 0) :: (layoutSweep env.cfg (fun _ _ => 0) 0 s.sourced).1).getLast? = some s.rhoPrev ∧
      s.plasma = ((layoutSweep env.cfg (fun _ _ => 0) 0 s.sourced).1.zip ((fun _ _ => 0) :: (layoutSweep env.cfg (fun _ _ => 0) 0 s.sourced).1)).foldl (fun p t => env.plasma p t.1 t.2) plasma := by
    intro m
    induction m with
    | zero => simp [sweepInit, layoutSweep]
    | succ m ih =>
      rw [List.range_succ, List.foldl_append]
      generalize (List.range m).foldl (sweepStep env) (sweepInit plasma b) = s at ih
      obtain ⟨h0, h1, h2, h3, h4⟩ := ih
      have hsr : (sweepStep env s m).sourced = s.sourced ++ [(getBeamLayerToLayout env.cfg.dxi s.source m).1.rows] := rfl
      have hrl : (sweepStep env s m).rhoLayout = (layoutBeamLayer env.cfg s.rhoLayout (getBeamLayerToLayout env.cfg.dxi s.source m).1.rows m).2 := rfl
      have hrp : (sweepStep env s m).rhoPrev = (layoutBeamLayer env.cfg s.rhoLayout (getBeamLayerToLayout env.cfg.dxi s.source m).1.rows m).1 := rfl
      have hpl : (sweepStep env s m).plasma = env.plasma s.plasma (layoutBeamLayer env.cfg s.rhoLayout (getBeamLayerToLayout env.cfg.dxi s.source m).1.rows m).1 s.rhoPrev := rfl
      simp only [List.foldl_cons, List.foldl_nil]
      rw [hsr, hrl, hrp, hpl, layoutSweep_snoc, ← h1, Nat.zero_add, h0]
      generalize (layoutSweep env.cfg (fun _ _ => 0) 0 s.sourced).1 = L at h2 h3 h4
      generalize layoutBeamLayer env.cfg s.rhoLayout (getBeamLayerToLayout env.cfg.dxi s.source m).1.rows m = o
      refine ⟨by simp [h0], rfl, by simp [h2], by rw [← List.cons_append, List.getLast?_append]; rfl, ?_⟩
      simp only
      obtain ⟨L', hL'⟩ : ∃ L', (fun _ _ => 0) :: L = L' ++ [s.rhoPrev] := by
        refine ⟨((fun _ _ => 0) :: L).dropLast, ?_⟩
        have := List.dropLast_append_getLast? _ h3
        exact this.symm
      have hlen : L'.length = L.length := by
        have := congrArg List.length hL'
        simp at this; omega
      have e1 : (fun _ _ => 0 : Grid) :: (L ++ [o.1]) = L' ++ ([s.rhoPrev] ++ [o.1]) := by
        rw [← List.append_assoc, ← hL']; rfl
      have e2 : (L ++ [o.1]).zip ((fun _ _ => 0) :: (L ++ [o.1])) = L.zip ((fun _ _ => 0) :: L) ++ [(o.1, s.rhoPrev)] := by
        rw [e1, List.zip_append hlen.symm, hL']
        rw [show L.zip (L' ++ [s.rhoPrev]) = (L ++ []).zip (L' ++ [s.rhoPrev]) by rw [List.append_nil], List.zip_append hlen.symm]
        simp
      rw [e2, List.foldl_append, ← h4]
      rfl
  intro rho
  have hso := (sourced_run env plasma b (xiSteps + 1)).1
  obtain ⟨-, -, h2, -, h4⟩ := key (xiSteps + 1)
  rw [hso] at h2 h4
  exact ⟨h2, h4⟩

end Lcode.Beam3D
