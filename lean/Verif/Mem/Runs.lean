import Verif.Mem.Loop
import Verif.Mem.Solver2D
import Verif.Mem.Solver3D
import Verif.Mpi.Whole

/-!
Complete 2D and 3D runs on a store of shared arrays: they compute what the value model of the rest of this development computes, for any number of time steps, with a plasma state made anew for each
time step or with one given plasma state handed to every time step. Property C62.
-/

namespace Lcode.Mem

/-! ### Model: 2D -/

/-- `pl_fields` as the beam pusher reads them. -/
noncomputable def record2 (v : Attr2 → ℕ → ℝ) : Beam2D.Fields := Mpi.liftFlds (fldsOf v)

/-- The 2D plasma solver on the store (plasma/solver.py:39-98); `rho_beam_prev` is not used. A layer always ends (`stepDxiH_shows`), so the other case of the match never happens. -/
noncomputable def plasma2 (c : Plasma2D.SolverCfg) (xiStep : ℝ) : PlasmaH (ℕ → ℝ) (List Plasma2D.PPart) Plasma2D.Currents (ℤ → ℝ) Attr2 Refs2 Plasma2D.World Beam2D.Fields where
  step r b _ H := match stepDxiH c b xiStep r H with
    | .done s => (s.r, s.H)
    | .go _ => (r, H)
  fields := Refs2.fields
  cur := Refs2.cur
  names := attrs2
  record := record2
  value w b _ := Mpi.plasmaStep2 c xiStep w b
  fieldsW w := Mpi.liftFlds w.F
  curW w := w.cur

/-- The beam of a 2D time step: `beam_layer_to_move`, source and drain (with the two ghost logs of the value model). -/
structure BeamSt2 where
  toMove : Beam2D.Beam ℝ
  source : Beam2D.Source ℝ
  drain : Beam2D.Drain ℝ
  lostLog : List (Beam2D.Row ℝ)
  sourced : List (Beam2D.Beam ℝ)

/-- The 2D beam calculator and the exchange of slices, push_solver.py:101-126, beam/beam_calculate.py:381-447. -/
noncomputable def beam2 (e : Beam2D.Env2D Plasma2D.World) : BeamV (ℤ → ℝ) Beam2D.Fields BeamSt2 (Beam2D.Beam ℝ) where
  layer s xiI :=
    let l := s.source.getBeamLayer e.cfg.xiStep xiI
    (l.1, { s with source := l.2 })
  deposit l xiI out0 out1 := Beam2D.depositParticles l.particles out0 out1 (((xiI : ℝ) + 1) * -e.cfg.xiStep) e.cfg.rStep e.cfg.xiStep
  norm rho :=
    let cur := fun i => rho i / e.cfg.rStep ^ 2
    let cur := fun i => if i = 0 then cur i * 6 else cur i
    fun i => if i ≥ 1 then cur i / (i : ℝ) else cur i
  move s l xiI prev cur :=
    let mv := Beam2D.moveBeamLayer e s.toMove xiI prev cur
    ⟨l.append mv.2.2, s.source, s.drain.push mv.2.1, s.lostLog ++ mv.1.rows, s.sourced ++ [l]⟩

/-- init_plasma, plasma/initialization.py:17-93: every array of the plasma state is a new one. -/
noncomputable def initH2 (w : Plasma2D.World) : Prog (ℕ → ℝ) (List Plasma2D.PPart) Plasma2D.Currents (ℤ → ℝ) Attr2 Refs2 := fun H =>
  let f := newGroup attrs2 (attrsOf w.F) H
  let p := newPart w.el f.2
  let c := newCur w.cur p.2
  match w.ions with
  | .mobile l =>
    let i := newPart l c.2
    (⟨p.1, .mobile i.1, f.1, c.1⟩, i.2)
  | .background ni =>
    let i := newGrid ni c.2
    (⟨p.1, .background i.1, f.1, c.1⟩, i.2)

/-! ### Model: 3D -/

/-- The 3D plasma solver on the store. -/
noncomputable def plasma3 (c : Plasma3D.SCfg) : PlasmaH (ℤ → ℤ → ℝ) Sort3 (Plasma3D.Cur × Plasma3D.Cur) (ℤ → ℤ → ℝ) Attr3 Refs3 Plasma3D.W3 Plasma3D.Fields3 where
  step := stepDxiH3 c
  fields := Refs3.fields
  cur := Refs3.cur
  names := attrs3
  record := flds3Of
  value w b b' := Plasma3D.stepDxi c w b b'
  fieldsW w := w.F
  curW w := w.cur

/-- The beam of a 3D time step. -/
structure BeamSt3 where
  toMove : Beam3D.Beam ℝ
  fellSize : ℕ
  source : Beam3D.Beam ℝ
  drain : Beam3D.Beam ℝ
  lostLog : List (Beam3D.Row ℝ)
  sourced : List (List (Beam3D.Row ℝ))

/-- The 3D beam calculator and the exchange of layers, push_solver.py:101-126, beam3d/beam_calculator.py:82-143. -/
noncomputable def beam3 (e : Beam3D.Env3 Plasma3D.W3) : BeamV (ℤ → ℤ → ℝ) Plasma3D.Fields3 BeamSt3 (Beam3D.Beam ℝ) where
  layer s xiI :=
    let l := Beam3D.getBeamLayerToLayout e.cfg.dxi s.source xiI
    (l.1, { s with source := l.2 })
  deposit l xiI out0 out1 := if l.rows.length ≠ 0 then Beam3D.depositBeam e.cfg xiI l.rows out0 out1 else (out0, out1)
  norm rho := fun a b => rho a b / e.cfg.h ^ 2
  move s l xiI prev cur :=
    let mv := Beam3D.moveBeamLayer e s.toMove s.fellSize xiI prev cur
    ⟨l.append mv.2.2, mv.2.2.id.length, s.source, Beam3D.drainPush s.drain mv.2.1, s.lostLog ++ mv.1.rows, s.sourced ++ [l.rows]⟩

/-- init_plasma, plasma3d/initialization.py:274-340: every array of the plasma state is a new one. -/
noncomputable def initH3 (c : Plasma3D.SCfg) (w : Plasma3D.W3) : Prog3 Refs3 := fun H =>
  let f := newGroup attrs3 (attrs3Of w.F) H
  let p := newPart ⟨w.el, w.chx, w.chy⟩ f.2
  let j := newCur w.cur p.2
  let g := newGrid c.roInit j.2
  match w.ions with
  | none => (⟨p.1, none, f.1, j.1, g.1⟩, g.2)
  | some l =>
    let i := newPart ⟨l, fun _ _ => 0, fun _ _ => 0⟩ g.2
    (⟨p.1, some i.1, f.1, j.1, g.1⟩, i.2)

/-! ### The solvers meet the conditions of the loop -/

theorem plasma2_ok (c : Plasma2D.SolverCfg) (xiStep : ℝ) : PlasmaOk (plasma2 c xiStep) Shows2 where
  names := attrs2_all
  keeps _ _ _ _ hs hk := hs.keeps hk
  fields _ _ _ hs := ⟨hs.fields.1, congrArg Mpi.liftFlds hs.fields.2⟩
  cur _ _ _ hs := hs.cur
  step H r w b b' hH hs hb _ := by
    obtain ⟨s, w', h1, h2, h3, h4, h5⟩ := stepDxiH_shows c b xiStep r w H hH hs hb
    have e1 : (plasma2 c xiStep).step r b b' H = (s.r, s.H) := by
      show (match stepDxiH c b xiStep r H with | .done s => (s.r, s.H) | .go _ => (r, H)) = _
      rw [h1]
    have e2 : (plasma2 c xiStep).value w (H.beam b) (H.beam b') = w' := by
      have := Mpi.plasmaStep2_done c xiStep w (H.beam b)
      rw [h2] at this
      injection this with this
      exact this.symm
    rw [e1, e2]
    exact ⟨h3, h4, h5⟩

theorem shows2_same (H H' : Heap2) (r : Refs2) (w : Plasma2D.World) (hs : Shows2 H r w) (hg : H'.grid = H.grid) (hp : H'.part = H.part) (hc : H'.cur = H.cur) (ho : H'.obj = H.obj)
    (hng : H'.ng = H.ng) (hnp : H'.np = H.np) (hnc : H'.nc = H.nc) (hno : H'.no = H.no) : Shows2 H' r w where
  el := by rw [hnp, hp]; exact hs.el
  ions := by
    have h := hs.ions
    cases hi : r.ions with
    | mobile a => rw [hi] at h; exact ⟨by have := h.1; simp only [IonsRef.In] at this ⊢; omega, by have := h.2; simp only [ionsOf] at this ⊢; rw [hp]; exact this⟩
    | background a => rw [hi] at h; exact ⟨by have := h.1; simp only [IonsRef.In] at this ⊢; omega, by have := h.2; simp only [ionsOf] at this ⊢; rw [hg]; exact this⟩
  fields := by rw [hno]; refine ⟨hs.fields.1, ?_⟩; rw [← hs.fields.2]; unfold Heap.val; rw [hg, ho]
  cur := by rw [hnc, hc]; exact hs.cur

theorem plasma3_ok (c : Plasma3D.SCfg) : PlasmaOk (plasma3 c) (Shows3 c) where
  names := attrs3_all
  keeps _ _ _ _ hs hk := hs.keeps hk
  fields _ _ _ hs := hs.fields
  cur _ _ _ hs := hs.cur
  step H r w b b' hH hs hb hb' := stepDxiH3_shows c r w b b' H hH hs hb hb'

theorem shows3_same (c : Plasma3D.SCfg) (H H' : Heap3) (r : Refs3) (w : Plasma3D.W3) (hs : Shows3 c H r w) (hg : H'.grid = H.grid) (hp : H'.part = H.part) (hc : H'.cur = H.cur) (ho : H'.obj = H.obj)
    (hng : H'.ng = H.ng) (hnp : H'.np = H.np) (hnc : H'.nc = H.nc) (hno : H'.no = H.no) : Shows3 c H' r w where
  el := by rw [hnp, hp]; exact hs.el
  ions := by rw [hnp, hp]; exact hs.ions
  fields := by rw [hno]; refine ⟨hs.fields.1, ?_⟩; rw [← hs.fields.2]; unfold Heap.val; rw [hg, ho]
  cur := by rw [hnc, hc]; exact hs.cur
  ro0 := by rw [hng, hg]; exact hs.ro0

/-! ### The loop on values is the value model of a time step -/

/-- The 2D value model. -/
theorem stepV_2D (c : Plasma2D.SolverCfg) (xiStep ts en : ℝ) (aB : List Bool → List ℕ) (aF : List ℝ → List ℕ) (w : Plasma2D.World) (src : Beam2D.Source ℝ) (dr : Beam2D.Drain ℝ) (N : ℕ) :
    let v := stepV (plasma2 c xiStep) (beam2 (Mpi.sim2 c xiStep ts en aB aF)) (fun _ => 0) w ⟨⟨[], [], [], []⟩, src, dr, [], []⟩ N
    Beam2D.stepDt (Mpi.sim2 c xiStep ts en aB aF) w src dr N = ⟨v.w, v.buf, v.prev, v.beam.toMove, v.beam.source, v.beam.drain, v.beam.lostLog, v.beam.sourced⟩ := by
  intro v
  show _ = (fun v : LoopV _ _ _ _ BeamSt2 => (⟨v.w, v.buf, v.prev, v.beam.toMove, v.beam.source, v.beam.drain, v.beam.lostLog, v.beam.sourced⟩ : Beam2D.SweepState Plasma2D.World)) v
  unfold Beam2D.stepDt v stepV
  have key : ∀ (xs : List ℕ) (s : Beam2D.SweepState Plasma2D.World) (v : LoopV Plasma2D.Currents (ℤ → ℝ) Plasma2D.World Beam2D.Fields BeamSt2),
      s = ⟨v.w, v.buf, v.prev, v.beam.toMove, v.beam.source, v.beam.drain, v.beam.lostLog, v.beam.sourced⟩ →
      xs.foldl (Beam2D.sweepStep (Mpi.sim2 c xiStep ts en aB aF)) s =
        (fun v : LoopV Plasma2D.Currents (ℤ → ℝ) Plasma2D.World Beam2D.Fields BeamSt2 => (⟨v.w, v.buf, v.prev, v.beam.toMove, v.beam.source, v.beam.drain, v.beam.lostLog, v.beam.sourced⟩ : Beam2D.SweepState Plasma2D.World))
          (xs.foldl (turnV (plasma2 c xiStep) (beam2 (Mpi.sim2 c xiStep ts en aB aF)) (fun _ => 0)) v) := by
    intro xs
    induction xs with
    | nil => intro s v h; exact h
    | cons x xs ih =>
      intro s v h
      rw [List.foldl_cons, List.foldl_cons]
      refine ih _ _ ?_
      subst h
      rfl
  exact key _ _ _ rfl

/-- The 3D value model. -/
theorem stepV_3D (c : Plasma3D.SCfg) (ts en : ℝ) (w : Plasma3D.W3) (src : Beam3D.Beam ℝ) (N : ℕ) :
    let v := stepV (plasma3 c) (beam3 (Mpi.sim3 c ts en)) (fun _ _ => 0) w ⟨Beam3D.Beam.empty, 0, src, Beam3D.Beam.empty, [], []⟩ N
    Beam3D.stepDt (Mpi.sim3 c ts en) w src N =
      ⟨v.w, v.buf, v.prev, v.beam.toMove, v.beam.fellSize, v.beam.source, v.beam.drain, v.beam.lostLog, v.beam.sourced⟩ := by
  intro v
  show _ = (fun v : LoopV _ _ _ _ BeamSt3 => (⟨v.w, v.buf, v.prev, v.beam.toMove, v.beam.fellSize, v.beam.source, v.beam.drain, v.beam.lostLog, v.beam.sourced⟩ : Beam3D.SweepState Plasma3D.W3)) v
  unfold Beam3D.stepDt v stepV
  have key : ∀ (xs : List ℕ) (s : Beam3D.SweepState Plasma3D.W3) (v : LoopV (Plasma3D.Cur × Plasma3D.Cur) (ℤ → ℤ → ℝ) Plasma3D.W3 Plasma3D.Fields3 BeamSt3),
      s = ⟨v.w, v.buf, v.prev, v.beam.toMove, v.beam.fellSize, v.beam.source, v.beam.drain, v.beam.lostLog, v.beam.sourced⟩ →
      xs.foldl (Beam3D.sweepStep (Mpi.sim3 c ts en)) s =
        (fun v : LoopV (Plasma3D.Cur × Plasma3D.Cur) (ℤ → ℤ → ℝ) Plasma3D.W3 Plasma3D.Fields3 BeamSt3 =>
          (⟨v.w, v.buf, v.prev, v.beam.toMove, v.beam.fellSize, v.beam.source, v.beam.drain, v.beam.lostLog, v.beam.sourced⟩ : Beam3D.SweepState Plasma3D.W3))
          (xs.foldl (turnV (plasma3 c) (beam3 (Mpi.sim3 c ts en)) (fun _ _ => 0)) v) := by
    intro xs
    induction xs with
    | nil => intro s v h; exact h
    | cons x xs ih =>
      intro s v h
      rw [List.foldl_cons, List.foldl_cons]
      refine ih _ _ ?_
      subst h
      rfl
  exact key _ _ _ rfl

/-- What the diagnostics are shown in layer `j` is what the state after layer `j` shows. -/
theorem stepV_log {G P C B ι R W F β L : Type} (pl : PlasmaH G P C B ι R W F) (bv : BeamV B F β L) (zero : B) (w : W) (b : β) (N : ℕ) :
    (stepV pl bv zero w b N).log = (List.range (N + 1)).map fun j => (pl.fieldsW (stepV pl bv zero w b j).w, pl.curW (stepV pl bv zero w b j).w, (stepV pl bv zero w b j).prev) := by
  have key : ∀ n, ((List.range n).foldl (turnV pl bv zero) ⟨w, zero, zero, b, []⟩).log =
      (List.range n).map fun j => (pl.fieldsW (stepV pl bv zero w b j).w, pl.curW (stepV pl bv zero w b j).w, (stepV pl bv zero w b j).prev) := by
    intro n
    induction n with
    | zero => rfl
    | succ n ih =>
      have e : stepV pl bv zero w b n = turnV pl bv zero ((List.range n).foldl (turnV pl bv zero) ⟨w, zero, zero, b, []⟩) n := by
        unfold stepV
        rw [List.range_succ, List.foldl_append]; rfl
      rw [List.range_succ, List.foldl_append, List.map_append, ← ih, List.map_singleton, e]
      rfl
  exact key (N + 1)

/-! ### A new plasma state shows the state it was made for, and its arrays are its own -/

theorem initH2_shows (w : Plasma2D.World) (H : Heap2) (hH : H.Ok) : Keeps H (initH2 w H).2 ∧ (initH2 w H).2.Ok ∧ Shows2 (initH2 w H).2 (initH2 w H).1 w := by
  obtain ⟨f1, f2, f3, f4, f5⟩ := newGroup_keeps attrs2 attrs2_all (attrsOf w.F) H hH
  unfold initH2
  dsimp only
  generalize newGroup attrs2 (attrsOf w.F) H = f at f1 f2 f3 f4 f5 ⊢
  obtain ⟨p1, p2, p3, p4, p5⟩ := newPart_keeps w.el f.2 f2
  obtain ⟨c1, c2, c3, c4, c5⟩ := newCur_keeps w.cur (newPart w.el f.2).2 p2
  have hf : f.1 < f.2.no := by omega
  cases hi : w.ions with
  | mobile l =>
    obtain ⟨i1, i2, i3, i4, i5⟩ := newPart_keeps l (newCur w.cur (newPart w.el f.2).2).2 c2
    have k := (p1.trans c1).trans i1
    refine ⟨f1.trans k, i2, ⟨?_, ⟨?_, ?_⟩, ?_, ?_⟩⟩
    · dsimp only
      rw [p3]
      have h1 : f.2.np < (newPart w.el f.2).2.np := by omega
      exact ⟨lt_of_lt_of_le h1 (c1.trans i1).np, by rw [(c1.trans i1).part _ h1, p5]⟩
    · simp only [IonsRef.In]; omega
    · simp only [ionsOf]; rw [hi, i3, i5]
    · exact ⟨lt_of_lt_of_le hf k.no, by dsimp only; rw [k.val _ hf, f3, f5]; rfl⟩
    · dsimp only
      rw [c3]
      have h1 : (newPart w.el f.2).2.nc < (newCur w.cur (newPart w.el f.2).2).2.nc := by omega
      exact ⟨lt_of_lt_of_le h1 i1.nc, by rw [i1.cur _ h1, c5]⟩
  | background ni =>
    obtain ⟨i1, i2, i3, i4, i5, i6, i7⟩ := newGrid_keeps ni (newCur w.cur (newPart w.el f.2).2).2 c2
    have k := (p1.trans c1).trans i1
    refine ⟨f1.trans k, i2, ⟨?_, ⟨?_, ?_⟩, ?_, ?_⟩⟩
    · dsimp only
      rw [p3]
      have h1 : f.2.np < (newPart w.el f.2).2.np := by omega
      exact ⟨lt_of_lt_of_le h1 (c1.trans i1).np, by rw [(c1.trans i1).part _ h1, p5]⟩
    · simp only [IonsRef.In]; omega
    · simp only [ionsOf]; rw [hi, i3, i7]
    · exact ⟨lt_of_lt_of_le hf k.no, by dsimp only; rw [k.val _ hf, f3, f5]; rfl⟩
    · dsimp only
      rw [c3]
      have h1 : (newPart w.el f.2).2.nc < (newCur w.cur (newPart w.el f.2).2).2.nc := by omega
      exact ⟨lt_of_lt_of_le h1 i1.nc, by rw [i1.cur _ h1, c5]⟩

theorem initH3_shows (c : Plasma3D.SCfg) (w : Plasma3D.W3) (H : Heap3) (hH : H.Ok) : Keeps H (initH3 c w H).2 ∧ (initH3 c w H).2.Ok ∧ Shows3 c (initH3 c w H).2 (initH3 c w H).1 w := by
  obtain ⟨f1, f2, f3, f4, f5⟩ := newGroup_keeps attrs3 attrs3_all (attrs3Of w.F) H hH
  unfold initH3
  dsimp only
  generalize newGroup attrs3 (attrs3Of w.F) H = f at f1 f2 f3 f4 f5 ⊢
  obtain ⟨p1, p2, p3, p4, p5⟩ := newPart_keeps ⟨w.el, w.chx, w.chy⟩ f.2 f2
  generalize newPart (⟨w.el, w.chx, w.chy⟩ : Sort3) f.2 = p at p1 p2 p3 p4 p5 ⊢
  obtain ⟨c1, c2, c3, c4, c5⟩ := newCur_keeps w.cur p.2 p2
  generalize newCur w.cur p.2 = j at c1 c2 c3 c4 c5 ⊢
  obtain ⟨g1, g2, g3, g4, g5, g6, g7⟩ := newGrid_keeps c.roInit j.2 c2
  generalize newGrid c.roInit j.2 = g at g1 g2 g3 g4 g5 g6 g7 ⊢
  have hf : f.1 < f.2.no := by omega
  have hp : p.1 < p.2.np := by omega
  have hj : j.1 < j.2.nc := by omega
  have hg : g.1 < g.2.ng := by omega
  have base : Shows3 c g.2 ⟨p.1, none, f.1, j.1, g.1⟩ { w with ions := none } := by
    refine ⟨⟨lt_of_lt_of_le hp (c1.trans g1).np, ?_⟩, ⟨fun i hi => (by cases hi), rfl⟩, ⟨lt_of_lt_of_le hf ((p1.trans c1).trans g1).no, ?_⟩, ⟨lt_of_lt_of_le hj g1.nc, ?_⟩, ⟨hg, ?_⟩⟩
    · rw [(c1.trans g1).part _ hp, p3, p5]
    · dsimp only; rw [((p1.trans c1).trans g1).val _ hf, f3, f5]; rfl
    · rw [g1.cur _ hj, c3, c5]
    · dsimp only; rw [g3, g7]
  have k := ((f1.trans p1).trans c1).trans g1
  cases hi : w.ions with
  | none =>
    refine ⟨k, g2, ?_⟩
    have := base
    rw [← hi] at this
    exact this
  | some l =>
    obtain ⟨i1, i2, i3, i4, i5⟩ := newPart_keeps ⟨l, fun _ _ => 0, fun _ _ => 0⟩ g.2 g2
    have b2 := base.keeps i1
    refine ⟨k.trans i1, i2, ⟨b2.el, ⟨fun i hh => ?_, ?_⟩, b2.fields, b2.cur, b2.ro0⟩⟩
    · cases hh
      show (newPart _ g.2).1 < (newPart _ g.2).2.np
      omega
    · simp only [Option.map_some]; rw [hi, i3, i5]

/-! ### Specification: time steps of the value model -/

/-- The beam source of time step `g` of a single-process 2D run (mpi/beam_io.py:99-103): what came out of the drain of the time step before, sorted. -/
noncomputable def source2 (e : Beam2D.Env2D Plasma2D.World) (w : ℕ → Plasma2D.World) (N : ℕ) (s0 : Beam2D.Source ℝ) : ℕ → Beam2D.Source ℝ
  | 0 => s0
  | g + 1 => Beam2D.Source.init e.argsortF (Beam2D.Beam.fresh (Beam2D.stepDt e (w g) (source2 e w N s0 g) ⟨[], []⟩ N).drain.beamSlice)

/-- The same in 3D. -/
noncomputable def source3 (e : Beam3D.Env3 Plasma3D.W3) (argsort : List ℝ → List ℕ) (w : ℕ → Plasma3D.W3) (N : ℕ) (s0 : Beam3D.Beam ℝ) : ℕ → Beam3D.Beam ℝ
  | 0 => s0
  | g + 1 => Beam3D.sourceInit argsort (Beam3D.stepDt e (w g) (source3 e argsort w N s0 g) N).drain

/-- A beam at the start of a time step. -/
def begin2 (s : Beam2D.Source ℝ) : BeamSt2 := ⟨⟨[], [], [], []⟩, s, ⟨[], []⟩, [], []⟩

/-- MPIBeamTransport.next_step of a single-process 2D run, mpi/beam_io.py:99-103. -/
noncomputable def next2 (argsortF : List ℝ → List ℕ) (b : BeamSt2) : BeamSt2 := begin2 (Beam2D.Source.init argsortF (Beam2D.Beam.fresh b.drain.beamSlice))

/-- A beam at the start of a time step. -/
def begin3 (s : Beam3D.Beam ℝ) : BeamSt3 := ⟨Beam3D.Beam.empty, 0, s, Beam3D.Beam.empty, [], []⟩

/-- MPIBeamTransport.next_step of a single-process 3D run. -/
noncomputable def next3 (argsort : List ℝ → List ℕ) (b : BeamSt3) : BeamSt3 := begin3 (Beam3D.sourceInit argsort b.drain)

/-! ### C62 -/

theorem runV_2D (c : Plasma2D.SolverCfg) (xiStep ts en : ℝ) (aB : List Bool → List ℕ) (aF : List ℝ → List ℕ) (w : ℕ → Plasma2D.World) (s0 : Beam2D.Source ℝ) (N n : ℕ) :
    runV (plasma2 c xiStep) (beam2 (Mpi.sim2 c xiStep ts en aB aF)) (fun _ => 0) w (next2 aF) N n (begin2 s0) =
      ((List.range n).map fun g => (List.range (N + 1)).map fun j =>
        ((Mpi.liftFlds (Beam2D.stepDt (Mpi.sim2 c xiStep ts en aB aF) (w g) (source2 (Mpi.sim2 c xiStep ts en aB aF) w N s0 g) ⟨[], []⟩ j).plasma.F),
          (Beam2D.stepDt (Mpi.sim2 c xiStep ts en aB aF) (w g) (source2 (Mpi.sim2 c xiStep ts en aB aF) w N s0 g) ⟨[], []⟩ j).plasma.cur,
          (Beam2D.stepDt (Mpi.sim2 c xiStep ts en aB aF) (w g) (source2 (Mpi.sim2 c xiStep ts en aB aF) w N s0 g) ⟨[], []⟩ j).rhoPrev),
        begin2 (source2 (Mpi.sim2 c xiStep ts en aB aF) w N s0 n)) := by
  induction n with
  | zero => rfl
  | succ g ih =>
    unfold runV
    rw [ih]
    dsimp only
    rw [List.range_succ (n := g), List.map_append, List.map_singleton, stepV_log]
    have e := fun j => stepV_2D c xiStep ts en aB aF (w g) (source2 (Mpi.sim2 c xiStep ts en aB aF) w N s0 g) ⟨[], []⟩ j
    dsimp only at e
    refine Prod.ext ?_ ?_
    · dsimp only
      congr 1
      congr 1
      refine List.map_congr_left fun j _ => ?_
      beta_reduce
      rw [e j]; rfl
    · dsimp only
      rw [show source2 (Mpi.sim2 c xiStep ts en aB aF) w N s0 (g + 1) = Beam2D.Source.init aF (Beam2D.Beam.fresh
        (Beam2D.stepDt (Mpi.sim2 c xiStep ts en aB aF) (w g) (source2 (Mpi.sim2 c xiStep ts en aB aF) w N s0 g) ⟨[], []⟩ N).drain.beamSlice) from rfl, e N]
      rfl

theorem runV_3D (c : Plasma3D.SCfg) (ts en : ℝ) (argsort : List ℝ → List ℕ) (w : ℕ → Plasma3D.W3) (s0 : Beam3D.Beam ℝ) (N n : ℕ) :
    runV (plasma3 c) (beam3 (Mpi.sim3 c ts en)) (fun _ _ => 0) w (next3 argsort) N n (begin3 s0) =
      ((List.range n).map fun g => (List.range (N + 1)).map fun j =>
        ((Beam3D.stepDt (Mpi.sim3 c ts en) (w g) (source3 (Mpi.sim3 c ts en) argsort w N s0 g) j).plasma.F,
          (Beam3D.stepDt (Mpi.sim3 c ts en) (w g) (source3 (Mpi.sim3 c ts en) argsort w N s0 g) j).plasma.cur,
          (Beam3D.stepDt (Mpi.sim3 c ts en) (w g) (source3 (Mpi.sim3 c ts en) argsort w N s0 g) j).rhoPrev),
        begin3 (source3 (Mpi.sim3 c ts en) argsort w N s0 n)) := by
  induction n with
  | zero => rfl
  | succ g ih =>
    unfold runV
    rw [ih]
    dsimp only
    rw [List.range_succ (n := g), List.map_append, List.map_singleton, stepV_log]
    have e := fun j => stepV_3D c ts en (w g) (source3 (Mpi.sim3 c ts en) argsort w N s0 g) j
    dsimp only at e
    refine Prod.ext ?_ ?_
    · dsimp only
      congr 1
      congr 1
      refine List.map_congr_left fun j _ => ?_
      beta_reduce
      rw [e j]; rfl
    · dsimp only
      rw [show source3 (Mpi.sim3 c ts en) argsort w N s0 (g + 1) = Beam3D.sourceInit argsort
        (Beam3D.stepDt (Mpi.sim3 c ts en) (w g) (source3 (Mpi.sim3 c ts en) argsort w N s0 g) N).drain from rfl, e N]
      rfl

/-- C62, 2D, plasma made anew for every time step: with all arrays shared as in the code, the slice diagnostics write, at the end of every time step and for every layer, the fields, currents and beam
density of that layer; the beam goes on as in the value model; and nothing that existed before the run is changed. -/
theorem shared_2D (c : Plasma2D.SolverCfg) (xiStep ts en : ℝ) (aB : List Bool → List ℕ) (aF : List ℝ → List ℕ) (w : ℕ → Plasma2D.World) (s0 : Beam2D.Source ℝ) (N n : ℕ) (H : Heap2) (hH : H.Ok) :
    (runH (plasma2 c xiStep) (beam2 (Mpi.sim2 c xiStep ts en aB aF)) (fun _ => 0) (fun g => initH2 (w g)) (next2 aF) N n (begin2 s0) H).1 =
      ((List.range n).map fun g => (List.range (N + 1)).map fun j =>
        ((Mpi.liftFlds (Beam2D.stepDt (Mpi.sim2 c xiStep ts en aB aF) (w g) (source2 (Mpi.sim2 c xiStep ts en aB aF) w N s0 g) ⟨[], []⟩ j).plasma.F),
          (Beam2D.stepDt (Mpi.sim2 c xiStep ts en aB aF) (w g) (source2 (Mpi.sim2 c xiStep ts en aB aF) w N s0 g) ⟨[], []⟩ j).plasma.cur,
          (Beam2D.stepDt (Mpi.sim2 c xiStep ts en aB aF) (w g) (source2 (Mpi.sim2 c xiStep ts en aB aF) w N s0 g) ⟨[], []⟩ j).rhoPrev)) ∧
    (runH (plasma2 c xiStep) (beam2 (Mpi.sim2 c xiStep ts en aB aF)) (fun _ => 0) (fun g => initH2 (w g)) (next2 aF) N n (begin2 s0) H).2.1 = begin2 (source2 (Mpi.sim2 c xiStep ts en aB aF) w N s0 n) ∧
    Keeps H (runH (plasma2 c xiStep) (beam2 (Mpi.sim2 c xiStep ts en aB aF)) (fun _ => 0) (fun g => initH2 (w g)) (next2 aF) N n (begin2 s0) H).2.2 := by
  obtain ⟨h1, h2, h3, -⟩ := runH_eq (plasma2 c xiStep) (beam2 (Mpi.sim2 c xiStep ts en aB aF)) (fun _ => 0) Shows2 (plasma2_ok c xiStep)
    shows2_same H hH (fun g => initH2 (w g)) w
    (fun g H' _ ok => initH2_shows (w g) H' ok) (next2 aF) N n (begin2 s0)
  rw [runV_2D] at h1 h2
  exact ⟨h1, h2, h3⟩

/-- C62, 2D, one given plasma state: the same objects are handed to every time step, and still every time step starts from the values they had at first, and they have these values at the end. -/
theorem loaded_2D (c : Plasma2D.SolverCfg) (xiStep ts en : ℝ) (aB : List Bool → List ℕ) (aF : List ℝ → List ℕ) (r : Refs2) (w : Plasma2D.World) (s0 : Beam2D.Source ℝ) (N n : ℕ) (H : Heap2) (hH : H.Ok)
    (hr : Shows2 H r w) :
    (runH (plasma2 c xiStep) (beam2 (Mpi.sim2 c xiStep ts en aB aF)) (fun _ => 0) (fun _ H => (r, H)) (next2 aF) N n (begin2 s0) H).1 =
      ((List.range n).map fun g => (List.range (N + 1)).map fun j =>
        ((Mpi.liftFlds (Beam2D.stepDt (Mpi.sim2 c xiStep ts en aB aF) w (source2 (Mpi.sim2 c xiStep ts en aB aF) (fun _ => w) N s0 g) ⟨[], []⟩ j).plasma.F),
          (Beam2D.stepDt (Mpi.sim2 c xiStep ts en aB aF) w (source2 (Mpi.sim2 c xiStep ts en aB aF) (fun _ => w) N s0 g) ⟨[], []⟩ j).plasma.cur,
          (Beam2D.stepDt (Mpi.sim2 c xiStep ts en aB aF) w (source2 (Mpi.sim2 c xiStep ts en aB aF) (fun _ => w) N s0 g) ⟨[], []⟩ j).rhoPrev)) ∧
    (runH (plasma2 c xiStep) (beam2 (Mpi.sim2 c xiStep ts en aB aF)) (fun _ => 0) (fun _ H => (r, H)) (next2 aF) N n (begin2 s0) H).2.1 =
      begin2 (source2 (Mpi.sim2 c xiStep ts en aB aF) (fun _ => w) N s0 n) ∧
    Shows2 (runH (plasma2 c xiStep) (beam2 (Mpi.sim2 c xiStep ts en aB aF)) (fun _ => 0) (fun _ H => (r, H)) (next2 aF) N n (begin2 s0) H).2.2 r w := by
  obtain ⟨h1, h2, h3, -⟩ := runH_eq (plasma2 c xiStep) (beam2 (Mpi.sim2 c xiStep ts en aB aF)) (fun _ => 0) Shows2 (plasma2_ok c xiStep)
    shows2_same H hH (fun _ H => (r, H)) (fun _ => w)
    (fun g H' k ok => ⟨Keeps.refl H', ok, hr.keeps k⟩) (next2 aF) N n (begin2 s0)
  rw [runV_2D] at h1 h2
  exact ⟨h1, h2, hr.keeps h3⟩

/-- C62, 3D, plasma made anew for every time step. -/
theorem shared_3D (c : Plasma3D.SCfg) (ts en : ℝ) (argsort : List ℝ → List ℕ) (w : ℕ → Plasma3D.W3) (s0 : Beam3D.Beam ℝ) (N n : ℕ) (H : Heap3) (hH : H.Ok) :
    (runH (plasma3 c) (beam3 (Mpi.sim3 c ts en)) (fun _ _ => 0) (fun g => initH3 c (w g)) (next3 argsort) N n (begin3 s0) H).1 =
      ((List.range n).map fun g => (List.range (N + 1)).map fun j =>
        ((Beam3D.stepDt (Mpi.sim3 c ts en) (w g) (source3 (Mpi.sim3 c ts en) argsort w N s0 g) j).plasma.F,
          (Beam3D.stepDt (Mpi.sim3 c ts en) (w g) (source3 (Mpi.sim3 c ts en) argsort w N s0 g) j).plasma.cur,
          (Beam3D.stepDt (Mpi.sim3 c ts en) (w g) (source3 (Mpi.sim3 c ts en) argsort w N s0 g) j).rhoPrev)) ∧
    (runH (plasma3 c) (beam3 (Mpi.sim3 c ts en)) (fun _ _ => 0) (fun g => initH3 c (w g)) (next3 argsort) N n (begin3 s0) H).2.1 = begin3 (source3 (Mpi.sim3 c ts en) argsort w N s0 n) ∧
    Keeps H (runH (plasma3 c) (beam3 (Mpi.sim3 c ts en)) (fun _ _ => 0) (fun g => initH3 c (w g)) (next3 argsort) N n (begin3 s0) H).2.2 := by
  obtain ⟨h1, h2, h3, -⟩ := runH_eq (plasma3 c) (beam3 (Mpi.sim3 c ts en)) (fun _ _ => 0) (Shows3 c) (plasma3_ok c)
    (shows3_same c) H hH (fun g => initH3 c (w g)) w
    (fun g H' _ ok => initH3_shows c (w g) H' ok) (next3 argsort) N n (begin3 s0)
  rw [runV_3D] at h1 h2
  exact ⟨h1, h2, h3⟩

/-- C62, 3D, one given plasma state handed to every time step. -/
theorem loaded_3D (c : Plasma3D.SCfg) (ts en : ℝ) (argsort : List ℝ → List ℕ) (r : Refs3) (w : Plasma3D.W3) (s0 : Beam3D.Beam ℝ) (N n : ℕ) (H : Heap3) (hH : H.Ok) (hr : Shows3 c H r w) :
    (runH (plasma3 c) (beam3 (Mpi.sim3 c ts en)) (fun _ _ => 0) (fun _ H => (r, H)) (next3 argsort) N n (begin3 s0) H).1 =
      ((List.range n).map fun g => (List.range (N + 1)).map fun j =>
        ((Beam3D.stepDt (Mpi.sim3 c ts en) w (source3 (Mpi.sim3 c ts en) argsort (fun _ => w) N s0 g) j).plasma.F,
          (Beam3D.stepDt (Mpi.sim3 c ts en) w (source3 (Mpi.sim3 c ts en) argsort (fun _ => w) N s0 g) j).plasma.cur,
          (Beam3D.stepDt (Mpi.sim3 c ts en) w (source3 (Mpi.sim3 c ts en) argsort (fun _ => w) N s0 g) j).rhoPrev)) ∧
    (runH (plasma3 c) (beam3 (Mpi.sim3 c ts en)) (fun _ _ => 0) (fun _ H => (r, H)) (next3 argsort) N n (begin3 s0) H).2.1 =
      begin3 (source3 (Mpi.sim3 c ts en) argsort (fun _ => w) N s0 n) ∧
    Shows3 c (runH (plasma3 c) (beam3 (Mpi.sim3 c ts en)) (fun _ _ => 0) (fun _ H => (r, H)) (next3 argsort) N n (begin3 s0) H).2.2 r w := by
  obtain ⟨h1, h2, h3, -⟩ := runH_eq (plasma3 c) (beam3 (Mpi.sim3 c ts en)) (fun _ _ => 0) (Shows3 c) (plasma3_ok c)
    (shows3_same c) H hH (fun _ H => (r, H)) (fun _ => w)
    (fun g H' k ok => ⟨Keeps.refl H', ok, hr.keeps k⟩) (next3 argsort) N n (begin3 s0)
  rw [runV_3D] at h1 h2
  exact ⟨h1, h2, hr.keeps h3⟩

/-! ### Concrete cases -/

/-- A store with nothing in it. -/
def emptyHeap2 : Heap2 := ⟨fun _ _ => 0, 0, fun _ => [], 0, fun _ => ⟨⟨0, 0, 0, 0⟩, []⟩, 0, fun _ _ => 0, 0, fun _ _ => 0, 0⟩

/-- A loaded plasma state of two electrons and two ions meets the hypotheses of `loaded_2D`: it is at the addresses 0, 1 of the particles, 0 of the groups of fields and 0 of the currents. -/
example (w : Plasma2D.World) (p q : Plasma2D.PPart) (hw : w.el = [p, q]) (hi : w.ions = .mobile [q, p]) :
    emptyHeap2.Ok ∧ (initH2 w emptyHeap2).2.Ok ∧ Shows2 (initH2 w emptyHeap2).2 ⟨0, .mobile 1, 0, 0⟩ w ∧ (initH2 w emptyHeap2).2.part 0 = [p, q] ∧ (initH2 w emptyHeap2).2.part 1 = [q, p] := by
  have h0 : emptyHeap2.Ok := fun o ho => absurd ho (Nat.not_lt_zero o)
  obtain ⟨-, h1, h2⟩ := initH2_shows w emptyHeap2 h0
  have e : (initH2 w emptyHeap2).1 = ⟨0, .mobile 1, 0, 0⟩ := by unfold initH2; rw [hi]; rfl
  rw [e] at h2
  refine ⟨h0, h1, h2, h2.el.2.trans hw, ?_⟩
  have := h2.ions.2
  rw [hi] at this
  simp only [ionsOf, Plasma2D.Ions.mobile.injEq] at this
  exact this

end Lcode.Mem
