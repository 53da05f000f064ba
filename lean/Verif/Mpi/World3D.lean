import Verif.Mpi.Props
import Verif.Beam3D.Sweep

/-!
The parallel run of a 3D simulation: the general theorems on parallel runs (Verif.Mpi.Props) applied to the model of the 3D beam source
and of the 3D layer loop (Verif.Beam3D), with an arbitrary plasma solver. Properties C12 and C13 in 3D.

A message is the structured array `particles` of a layer (data.py:42-49), which has no `dt` and `remaining_steps`; they are zero in the
layer built from it (init_generated, data.py:51-63).
-/

namespace Lcode.Mpi

open Lcode.Beam3D
open Lcode.Beam2D (substepFraction IsArgsort gather)
open Lcode.Plasma3D (Fields3)

variable {σ : Type}

/-! ### Model -/

/-- A row of the structured array: everything but `dt` and `remaining_steps`. -/
def strip (r : Row ℝ) : Row ℝ := { r with dt := 0, remaining := 0 }

/-- `BeamParticles.particles`, beam3d/data.py:42-49. -/
def particles3 (b : Beam ℝ) : List (Row ℝ) := b.rows.map strip

/-- Variables of the 3D layer loop (push_solver.py:225-232). -/
structure St3D (σ : Type) where
  plasma : σ
  rhoLayout : Grid
  rhoPrev : Grid
  toMove : Beam ℝ
  fellSize : ℕ

/-- One iteration of the 3D layer loop for the layer received (mpi/beam_io.py:47-54, push_solver.py:236-261, beam_calculator.py:136-143); the slice pushed is `moved.particles` (mpi/beam_io.py:29-38). -/
noncomputable def layer3D (env : Env3 σ) (s : St3D σ) (xiI : ℕ) (ps : List (Row ℝ)) : St3D σ × List (Row ℝ) :=
  let layer := Beam.initGenerated ps
  let rho := layoutBeamLayer env.cfg s.rhoLayout layer.rows xiI
  let plasma := env.plasma s.plasma rho.1 s.rhoPrev
  let mv := moveBeamLayer env s.toMove s.fellSize xiI (env.fields s.plasma) (env.fields plasma)
  (⟨plasma, rho.2, rho.1, layer.append mv.2.2, mv.2.2.id.length⟩, particles3 mv.2.1)

/-- A 3D simulation as a world for the parallel run; `plasma0` is the initial plasma state at a physical time. BeamSource.__init__ on an array: beam3d/beam_io.py:19-27. -/
noncomputable def world3D (env : Env3 σ) (argsort : List ℝ → List ℕ) (plasma0 : ℝ → σ) : World ℝ (Row ℝ) where
  Src := Beam ℝ
  St := St3D σ
  mkSrc b := sourceInit argsort (Beam.initGenerated b)
  pullSrc s j := (particles3 (getBeamLayerToLayout env.cfg.dxi s j).1, (getBeamLayerToLayout env.cfg.dxi s j).2)
  init time := ⟨plasma0 time, fun _ _ => 0, fun _ _ => 0, Beam.empty, 0⟩
  layer := layer3D env

/-! ### Rows -/

theorem initGenerated_ofRows (t : List (Row ℝ)) : Beam.initGenerated t = Beam.ofRows (t.map strip) := by
  simp [Beam.initGenerated, Beam.ofRows, strip, Function.comp_def]

theorem strip_strip (r : Row ℝ) : strip (strip r) = strip r := rfl

theorem map_strip_strip (t : List (Row ℝ)) : (t.map strip).map strip = t.map strip := by
  rw [List.map_map]; rfl

theorem initRow_strip (ts energy : ℝ) (r : Row ℝ) : initRow ts energy (strip r) = initRow ts energy r := rfl

theorem map_initRow_strip (ts energy : ℝ) (t : List (Row ℝ)) : (t.map strip).map (initRow ts energy) = t.map (initRow ts energy) := by
  rw [List.map_map]; rfl

theorem layout_congr (c : BCfg) (rho : Grid) (i : ℕ) (l l' : List (Row ℝ)) (h : (l.map strip).Perm (l'.map strip)) :
    layoutBeamLayer c rho l i = layoutBeamLayer c rho l' i := by
  have hsum : ∀ f : Row ℝ → ℝ, (∀ r, f (strip r) = f r) → (l.map f).sum = (l'.map f).sum := by
    intro f hf
    have e : ∀ t : List (Row ℝ), (t.map strip).map f = t.map f := fun t => by
      rw [List.map_map]; exact List.map_congr_left fun r _ => hf r
    rw [← e l, ← e l']
    exact (h.map f).sum_eq
  have hd : ∀ o0 o1, depositBeam c i l o0 o1 = depositBeam c i l' o0 o1 := by
    intro o0 o1
    refine Prod.ext ?_ ?_
    · funext a b
      rw [(depositBeam_shape c i l o0 o1 a b).1, (depositBeam_shape c i l' o0 o1 a b).1, hsum _ fun r => rfl]
    · funext a b
      rw [(depositBeam_shape c i l o0 o1 a b).2, (depositBeam_shape c i l' o0 o1 a b).2, hsum _ fun r => rfl]
  have hlen : l.length = l'.length := by simpa using h.length_eq
  unfold layoutBeamLayer
  simp only [hd, hlen]

/-- What the kernel says about the particles waiting in a layer loop in iteration `xiI`. -/
noncomputable def moved3D (env : Env3 σ) (xiI : ℕ) (F0 F1 : Fields3) (fresh fell : List (Row ℝ)) : List Moved :=
  (fresh.map (initRow env.timeStep env.energy) ++ fell).map (pushRow env.cfg ((xiI : ℤ) - 1) F0 F1)

/-- The new plasma of an iteration. -/
noncomputable def plasma3D (env : Env3 σ) (s : St3D σ) (xiI : ℕ) (ps : List (Row ℝ)) : σ :=
  env.plasma s.plasma (layoutBeamLayer env.cfg s.rhoLayout ps xiI).1 s.rhoPrev

theorem layer3D_rows (env : Env3 σ) (s : St3D σ) (fresh fell : List (Row ℝ)) (h1 : s.toMove = Beam.ofRows (fresh ++ fell))
    (h2 : s.fellSize = fell.length) (xiI : ℕ) (ps : List (Row ℝ)) :
    let res := moved3D env xiI (env.fields s.plasma) (env.fields (plasma3D env s xiI ps)) fresh fell
    let fell' := (res.filter Moved.fell).map Moved.row
    layer3D env s xiI ps = (⟨plasma3D env s xiI ps, (layoutBeamLayer env.cfg s.rhoLayout ps xiI).2, (layoutBeamLayer env.cfg s.rhoLayout ps xiI).1,
      Beam.ofRows (ps.map strip ++ fell'), fell'.length⟩, ((res.filter Moved.moved).map Moved.row).map strip) := by
  intro res fell'
  have hl : layoutBeamLayer env.cfg s.rhoLayout (Beam.initGenerated ps).rows xiI = layoutBeamLayer env.cfg s.rhoLayout ps xiI := by
    apply layout_congr
    rw [initGenerated_ofRows, rows_ofRows, map_strip_strip]
  unfold layer3D
  simp only [hl]
  rw [h1, h2]
  have hm := moveBeamLayer_rows env fresh fell xiI (env.fields s.plasma) (env.fields (plasma3D env s xiI ps))
  simp only at hm
  have e : env.plasma s.plasma (layoutBeamLayer env.cfg s.rhoLayout ps xiI).1 s.rhoPrev = plasma3D env s xiI ps := rfl
  rw [e, hm]
  simp only [initGenerated_ofRows, append_ofRows, particles3, rows_ofRows]
  have hlen : ∀ t : List (Row ℝ), (Beam.ofRows t).id.length = t.length := fun t => by simp [Beam.ofRows]
  rw [hlen]
  rfl

/-! ### The world is the modelled time step -/

/-- A state of `stepDt` and the state of the world, and of its source: the same up to `dt` and `remaining_steps` of the particles that have not started to move. -/
structure Same3 (s : SweepState σ) (st : St3D σ) (src : Beam ℝ) : Prop where
  plasma : st.plasma = s.plasma
  rhoLayout : st.rhoLayout = s.rhoLayout
  rhoPrev : st.rhoPrev = s.rhoPrev
  rows : ∃ fresh fell srcs drain, RowsOf s fresh fell srcs drain ∧ st.toMove = Beam.ofRows (fresh.map strip ++ fell) ∧ st.fellSize = fell.length ∧
    src = Beam.ofRows (srcs.map strip)

theorem inLayer_strip (h : ℝ) (i : ℕ) (t : List (Row ℝ)) : inLayer h i (t.map strip) = inLayer h i t := by
  unfold inLayer
  rw [List.countP_map]; rfl

theorem same3_step (env : Env3 σ) (argsort : List ℝ → List ℕ) (plasma0 : ℝ → σ) (s : SweepState σ) (st : St3D σ) (src : Beam ℝ) (h : Same3 s st src) (j : ℕ) :
    let W := world3D env argsort plasma0
    let ps : List (Row ℝ) := (W.pullSrc src j).1
    ps = particles3 (getBeamLayerToLayout env.cfg.dxi s.source j).1 ∧
    Same3 (sweepStep env s j) (W.layer st j ps).1 (W.pullSrc src j).2 ∧
    particles3 (sweepStep env s j).drain = particles3 s.drain ++ (W.layer st j ps).2 := by
  intro W ps
  obtain ⟨hp, hr, hv, fresh, fell, srcs, drain, hro, htm, hfs, hsrc⟩ := h
  have hpull : W.pullSrc src j = (particles3 (Beam.ofRows ((srcs.map strip).take (inLayer env.cfg.dxi j srcs))), Beam.ofRows ((srcs.drop (inLayer env.cfg.dxi j srcs)).map strip)) := by
    show (particles3 (getBeamLayerToLayout env.cfg.dxi src j).1, (getBeamLayerToLayout env.cfg.dxi src j).2) = _
    rw [hsrc, getBeamLayer_ofRows, inLayer_strip, ← List.map_drop]
  have hps : ps = (srcs.take (inLayer env.cfg.dxi j srcs)).map strip := by
    show (W.pullSrc src j).1 = _
    rw [hpull, particles3, rows_ofRows, ← List.map_take, map_strip_strip]
  have hpsS : ps.map strip = (srcs.take (inLayer env.cfg.dxi j srcs)).map strip := by rw [hps, map_strip_strip]
  have hsl : getBeamLayerToLayout env.cfg.dxi s.source j = (Beam.ofRows (srcs.take (inLayer env.cfg.dxi j srcs)), Beam.ofRows (srcs.drop (inLayer env.cfg.dxi j srcs))) := by
    rw [hro.source, getBeamLayer_ofRows]
  obtain ⟨hstep, -, -⟩ := sweepStep_rows env s j fresh fell srcs drain hro
  have hlay : layoutBeamLayer env.cfg st.rhoLayout ps j = layoutBeamLayer env.cfg s.rhoLayout (getBeamLayerToLayout env.cfg.dxi s.source j).1.rows j := by
    rw [hr, hsl]
    apply layout_congr
    rw [rows_ofRows, hpsS]
  have hpl : plasma3D env st j ps = (sweepStep env s j).plasma := by
    unfold plasma3D
    rw [hlay, hp, hv]; rfl
  have hres : moved3D env j (env.fields st.plasma) (env.fields (plasma3D env st j ps)) (fresh.map strip) fell = results env s j fresh fell := by
    unfold moved3D results
    rw [hpl, hp, map_initRow_strip]
  have hL := layer3D_rows env st (fresh.map strip) fell htm hfs j ps
  simp only [hres] at hL
  have hW : W.layer st j ps = layer3D env st j ps := rfl
  refine ⟨?_, ⟨?_, ?_, ?_, ?_⟩, ?_⟩
  · rw [hsl, particles3, rows_ofRows, hps]
  · rw [hW, hL]; exact hpl
  · rw [hW, hL, hlay]; rfl
  · rw [hW, hL, hlay]; rfl
  · refine ⟨_, _, _, _, hstep, ?_, ?_, ?_⟩
    · rw [hW, hL, hpsS]
    · rw [hW, hL]
    · rw [hpull]
  · rw [hW, hL, hstep.drain, hro.drain, particles3, particles3, rows_ofRows, rows_ofRows, List.map_append]

theorem same3_run (env : Env3 σ) (argsort : List ℝ → List ℕ) (plasma0 : ℝ → σ) (dt : ℝ) (g : ℕ) (srcs : List (Row ℝ)) (src : Beam ℝ) (hsrc : src = Beam.ofRows (srcs.map strip)) (n : ℕ) :
    let W := world3D env argsort plasma0
    let s := (List.range n).foldl (sweepStep env) (sweepInit (plasma0 (timeOf dt g)) (Beam.ofRows srcs))
    Same3 s (stAt W (W.init (timeOf dt g)) (srcLayer W src) n) (srcAt W src n) ∧
    particles3 s.drain = ((List.range n).map (finished W dt g (srcLayer W src))).flatten ∧
    s.sourced.map (List.map strip) = (List.range n).map (srcLayer W src) := by
  intro W
  induction n with
  | zero =>
    exact ⟨⟨rfl, rfl, rfl, [], [], srcs, [], ⟨rfl, rfl, rfl, rfl⟩, rfl, rfl, hsrc⟩, rfl, rfl⟩
  | succ n ih =>
    rw [List.range_succ, List.foldl_append, List.foldl_cons, List.foldl_nil]
    obtain ⟨h1, h2, h2'⟩ := ih
    obtain ⟨h5, h3, h4⟩ := same3_step env argsort plasma0 _ _ _ h1 n
    refine ⟨h3, ?_, ?_⟩
    · rw [h4, h2, List.map_append, List.flatten_append]
      simp only [List.map_cons, List.map_nil, List.flatten_cons, List.flatten_nil, List.append_nil]
      rfl
    · rw [List.map_append, ← h2', List.map_cons, List.map_nil]
      have : srcLayer W src n = _ := h5
      rw [this]
      unfold sweepStep
      simp only [List.map_append, List.map_cons, List.map_nil]
      rfl

theorem drain_ofRows (env : Env3 σ) (plasma : σ) (srcs : List (Row ℝ)) (N : ℕ) : ∃ t, (stepDt env plasma (Beam.ofRows srcs) N).drain = Beam.ofRows t := by
  have key : ∀ n, ∃ fresh fell src drain, RowsOf ((List.range n).foldl (sweepStep env) (sweepInit plasma (Beam.ofRows srcs))) fresh fell src drain := by
    intro n
    induction n with
    | zero => exact ⟨[], [], srcs, [], rfl, rfl, rfl, rfl⟩
    | succ n ih =>
      obtain ⟨a, b, c, d, h⟩ := ih
      rw [List.range_succ, List.foldl_append, List.foldl_cons, List.foldl_nil]
      exact ⟨_, _, _, _, (sweepStep_rows env _ n a b c d h).1⟩
  obtain ⟨a, b, c, d, h⟩ := key (N + 1)
  exact ⟨d, h.drain⟩

/-- Sorting does not look at `dt` and `remaining_steps`. -/
theorem mkSrc_particles (env : Env3 σ) (argsort : List ℝ → List ℕ) (plasma0 : ℝ → σ) (t : List (Row ℝ)) :
    (world3D env argsort plasma0).mkSrc (t.map strip) = Beam.ofRows ((gather t (argsort (t.map fun r => -r.xi))).map strip) := by
  show sourceInit argsort (Beam.initGenerated (t.map strip)) = _
  rw [initGenerated_ofRows, map_strip_strip, sourceInit, xiSorted_ofRows, List.map_map]
  rw [Lcode.Beam2D.gather_map]
  rfl

/-- The sequential run of the world is the single-process run modelled in Verif.Beam3D.Sweep (which keeps `dt` and `remaining_steps` in the beam between time steps): in every time step the same layers are
handed out and the same beam is collected. -/
theorem world3D_is_runDt (env : Env3 σ) (argsort : List ℝ → List ℕ) (plasma0 : ℝ → σ) (dt : ℝ) (N : ℕ) (b0 : List (Row ℝ)) (T : ℕ) :
    let W := world3D env argsort plasma0
    let B := runDt env (fun g => plasma0 (timeOf dt g)) argsort N (Beam.initGenerated b0)
    (sourceLayers env.cfg.dxi (sourceInit argsort (B T)) 0 (N + 1)).1.map particles3 = (List.range (N + 1)).map (seqLayers W N dt b0 T) ∧
    particles3 (B (T + 1)) = allFinished W N dt T (seqLayers W N dt b0 T) := by
  intro W B
  have step : ∀ T t, B T = Beam.ofRows t → (seqLayers W N dt b0 T = srcLayer W (W.mkSrc (t.map strip))) →
      ((sourceLayers env.cfg.dxi (sourceInit argsort (B T)) 0 (N + 1)).1.map particles3 = (List.range (N + 1)).map (seqLayers W N dt b0 T) ∧
      particles3 (B (T + 1)) = allFinished W N dt T (seqLayers W N dt b0 T) ∧ ∃ t', B (T + 1) = Beam.ofRows t') := by
    intro T t ht hs
    have hsi : sourceInit argsort (B T) = Beam.ofRows (gather t (argsort (t.map fun r => -r.xi))) := by
      rw [ht, sourceInit, xiSorted_ofRows]
    have hstep : B (T + 1) = (stepDt env (plasma0 (timeOf dt T)) (sourceInit argsort (B T)) N).drain := rfl
    obtain ⟨-, h2, h3⟩ := same3_run env argsort plasma0 dt T _ _ (mkSrc_particles env argsort plasma0 t) (N + 1)
    have hso := (sourced_run env (plasma0 (timeOf dt T)) (Beam.ofRows (gather t (argsort (t.map fun r => -r.xi)))) (N + 1)).1
    refine ⟨?_, ?_, ?_⟩
    · rw [hs, ← h3, hso, hsi, List.map_map]; rfl
    · rw [hstep, hsi, hs]; exact h2
    · rw [hstep, hsi]; exact drain_ofRows _ _ _ _
  have all : ∀ T, ∃ t, B T = Beam.ofRows t ∧ seqLayers W N dt b0 T = srcLayer W (W.mkSrc (t.map strip)) := by
    intro T
    induction T with
    | zero =>
      refine ⟨b0.map strip, initGenerated_ofRows b0, ?_⟩
      show srcLayer W (sourceInit argsort (Beam.initGenerated b0)) = srcLayer W (sourceInit argsort (Beam.initGenerated _))
      rw [initGenerated_ofRows, initGenerated_ofRows, map_strip_strip, map_strip_strip]
    | succ T ih =>
      obtain ⟨t, h1, h2⟩ := ih
      obtain ⟨-, h4, t', h5⟩ := step T t h1 h2
      refine ⟨t', h5, ?_⟩
      show srcLayer W (W.mkSrc (allFinished W N dt T (seqLayers W N dt b0 T))) = _
      rw [← h4, h5, particles3, rows_ofRows]
  obtain ⟨t, h1, h2⟩ := all T
  exact ⟨(step T t h1 h2).1, (step T t h1 h2).2.1⟩

end Lcode.Mpi
