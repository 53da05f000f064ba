import Verif.Mem.Runs

/-!
The rows of beam particles on a store of shared arrays: slices are views of other arrays (lcode/beam/data.py, beam_io.py, beam_calculate.py; lcode/beam3d/data.py, beam_io.py, beam_calculator.py), the pusher writes
through a view, and the source, the drain and the layer being moved refer to each other's arrays. Property C62.
-/

namespace Lcode.Mem

/-! ### Model: tables and views -/

/-- A store of tables of rows (structured arrays, or the parallel arrays of a 3D beam, which are always made together). -/
structure Tab (T : Type) where
  arr : ℕ → T
  n : ℕ

/-- What a variable refers to: a whole array, or a range of rows of one (`a[lo:hi]` is a view in numpy). -/
inductive View where
  | whole (a : ℕ)
  | part (a lo hi : ℕ)

/-- The array. -/
def View.addr : View → ℕ
  | .whole a => a
  | .part a _ _ => a

/-- How a range of rows of a table is read and replaced. -/
structure Ranges (T : Type) where
  get : T → ℕ → ℕ → T
  set : T → ℕ → ℕ → T → T

variable {T : Type}

/-- What a view shows. -/
def Tab.rows (g : Ranges T) (H : Tab T) : View → T
  | .whole a => H.arr a
  | .part a lo hi => g.get (H.arr a) lo hi

/-- A new array (fancy indexing, boolean indexing, `np.concatenate`, `np.zeros`). -/
def Tab.new (t : T) (H : Tab T) : View × Tab T := (.whole H.n, ⟨Function.update H.arr H.n t, H.n + 1⟩)

/-- Rows written in place through a view. -/
def Tab.write (g : Ranges T) (v : View) (t : T) (H : Tab T) : Tab T :=
  match v with
  | .whole a => ⟨Function.update H.arr a t, H.n⟩
  | .part a lo hi => ⟨Function.update H.arr a (g.set (H.arr a) lo hi t), H.n⟩

/-! ### Model: 2D -/

/-- Ranges of rows of a structured array. -/
def ranges2 : Ranges (List (Beam2D.Particle ℝ)) := ⟨Beam2D.slice, fun t lo hi new => t.take lo ++ new ++ t.drop hi⟩

abbrev Tab2 := Tab (List (Beam2D.Particle ℝ))

/-- A view of a view, `self.particles[begin:end]`, data.py:39. -/
def View.sub (v : View) (lo hi : ℕ) : View :=
  match v with
  | .whole a => .part a lo hi
  | .part a l h => .part a (l + lo) (min h (l + hi))

/-- A BeamParticles object, data.py:9-29: the rows may be a view; dt, remaining_steps and lost are its own arrays (data.py:25-29, :41-43). -/
structure BeamR2 where
  v : View
  dt : List ℝ
  remaining : List ℤ
  lost : List Bool

/-- What it shows. -/
def BeamR2.val (H : Tab2) (b : BeamR2) : Beam2D.Beam ℝ := ⟨H.rows ranges2 b.v, b.dt, b.remaining, b.lost⟩

/-- get_subslice, data.py:38-44. -/
def BeamR2.sub (b : BeamR2) (lo hi : ℕ) : BeamR2 := ⟨b.v.sub lo hi, Beam2D.slice b.dt lo hi, Beam2D.slice b.remaining lo hi, Beam2D.slice b.lost lo hi⟩

/-- Reordering by an index array makes new arrays, beam_calculate.py:470-474, :481-485. -/
def reorderR (b : BeamR2) (idx : List ℕ) (H : Tab2) : BeamR2 × Tab2 :=
  let r := (b.val H).reorder idx
  let a := H.new r.particles
  (⟨a.1, r.dt, r.remaining, r.lost⟩, a.2)

/-- append, data.py:67-87: new arrays. -/
def appendR (b o : BeamR2) (H : Tab2) : BeamR2 × Tab2 :=
  let r := (b.val H).append (o.val H)
  let a := H.new r.particles
  (⟨a.1, r.dt, r.remaining, r.lost⟩, a.2)

/-- split_beam_slice, beam_calculate.py:451-489. -/
noncomputable def splitR (argsort : List Bool → List ℕ) (b : BeamR2) (xiEnd : ℝ) (H : Tab2) : (BeamR2 × BeamR2 × BeamR2) × Tab2 :=
  let size := (b.val H).particles.length
  let r1 := reorderR b (argsort b.lost).reverse H
  let lostCount := r1.1.lost.count true
  let lostSlice := r1.1.sub 0 lostCount
  let b1 := r1.1.sub lostCount size
  let size := (b1.val r1.2).particles.length
  let movingMask := List.zipWith (fun (n : ℤ) (p : Beam2D.Particle ℝ) => decide (n > 0) || decide (p.xi < xiEnd)) b1.remaining (b1.val r1.2).particles
  let stableCount := movingMask.length - movingMask.count true
  let r2 := reorderR b1 (argsort movingMask) r1.2
  ((lostSlice, r2.1.sub 0 stableCount, r2.1.sub stableCount size), r2.2)

/-- move_beam_layer, beam_calculate.py:415-447: the rows are written in place (`beam_slice.xi` and the others are views of `beam_slice.particles`). -/
noncomputable def moveR2 (e : Beam2D.Env2D Plasma2D.World) (b : BeamR2) (xiI : ℕ) (prev cur : Beam2D.Fields) (H : Tab2) : (BeamR2 × BeamR2 × BeamR2) × Tab2 :=
  if (b.val H).particles.length = 0 then splitR e.argsortB b (xiI * -e.cfg.xiStep) H
  else
    let r := (b.val H).mapRows (fun t => Beam2D.pushRow e.cfg xiI cur prev (Beam2D.initRow e.timeStep e.energy t))
    splitR e.argsortB ⟨b.v, r.dt, r.remaining, r.lost⟩ (xiI * -e.cfg.xiStep) (H.write ranges2 b.v r.particles)

/-- MemoryBeamSource, beam_io.py:82-107: the rows, the view `xi` (taken when the array was sorted) and the counter. -/
structure SourceR2 where
  a : ℕ
  stub : ℕ
  xi : List ℝ
  used : ℕ

/-- Sorting makes a new array; a stub row is cut off by taking a view, beam_io.py:91-94. -/
noncomputable def SourceR2.val (H : Tab2) (s : SourceR2) : Beam2D.Source ℝ := ⟨(H.arr s.a).take s.stub, s.xi, s.used⟩

/-- get_beam_slice, beam_io.py:99-107: a view of the rows, with new dt, remaining_steps and lost. -/
noncomputable def layerR2 (h : ℝ) (s : SourceR2) (i : ℕ) (H : Tab2) : BeamR2 × SourceR2 :=
  let r := Beam2D.findSubSlice s.xi s.used (i * -h) ((i + 1) * -h)
  let v := (View.part s.a 0 s.stub).sub r.1 r.2.1
  let ps := H.rows ranges2 v
  (⟨v, ps.map fun _ => 0, ps.map fun _ => 1, ps.map fun _ => false⟩, { s with used := r.2.2.1 })

/-- The variables of the beam in a 2D time step. -/
structure RowsR2 where
  toMove : BeamR2
  source : SourceR2
  drain : List BeamR2
  H : Tab2

/-- The beam part of one turn of the xi loop, push_solver.py:101-126, with the fields of the layer. -/
noncomputable def turnR2 (e : Beam2D.Env2D Plasma2D.World) (F : ℕ → Beam2D.Fields × Beam2D.Fields) (s : RowsR2) (xiI : ℕ) : RowsR2 :=
  let l := layerR2 e.cfg.xiStep s.source xiI s.H
  let m := moveR2 e s.toMove xiI (F xiI).1 (F xiI).2 s.H
  let ap := appendR l.1 m.1.2.2 m.2
  -- push_beam_slice, beam_io.py:118-121
  ⟨ap.1, l.2, if (m.1.2.1.val m.2).particles.length > 0 then s.drain ++ [m.1.2.1] else s.drain, ap.2⟩

/-- The beam part of a time step. -/
noncomputable def sweepR2 (e : Beam2D.Env2D Plasma2D.World) (F : ℕ → Beam2D.Fields × Beam2D.Fields) (src : SourceR2) (N : ℕ) (H : Tab2) : RowsR2 :=
  -- `_set_beam_particles`, push_solver.py:91, :170-172: BeamParticles(0)
  let z := H.new []
  (List.range (N + 1)).foldl (turnR2 e F) ⟨⟨z.1, [], [], []⟩, src, [], z.2⟩

/-! ### Specification: 2D -/

/-- The beam part of one turn on values (`beam2` is the beam of the value model, see `stepV_2D`). -/
noncomputable def turnB2 (e : Beam2D.Env2D Plasma2D.World) (F : ℕ → Beam2D.Fields × Beam2D.Fields) (s : BeamSt2) (xiI : ℕ) : BeamSt2 :=
  (beam2 e).move ((beam2 e).layer s xiI).2 ((beam2 e).layer s xiI).1 xiI (F xiI).1 (F xiI).2

/-! ### C62, beam rows in 2D -/

theorem slice_slice {α : Type} (x : List α) (l h lo hi : ℕ) : Beam2D.slice (Beam2D.slice x l h) lo hi = Beam2D.slice x (l + lo) (min h (l + hi)) := by
  unfold Beam2D.slice
  rw [← List.drop_drop]
  congr 1
  rw [min_comm, ← List.take_take]
  exact List.take_drop.trans (by rw [Nat.add_comm])

theorem sub_val (H : Tab2) (b : BeamR2) (lo hi : ℕ) : (b.sub lo hi).val H = (b.val H).getSubslice lo hi := by
  unfold BeamR2.sub BeamR2.val Beam2D.Beam.getSubslice View.sub
  cases b.v with
  | whole a => rfl
  | part a l h => simp only [Tab.rows, ranges2]; rw [slice_slice]

theorem sub_addr (v : View) (lo hi : ℕ) : (v.sub lo hi).addr = v.addr := by cases v <;> rfl

/-- What a view shows depends on its array only. -/
theorem rows_congr (g : Ranges T) (H H' : Tab T) (v : View) (h : H'.arr v.addr = H.arr v.addr) : H'.rows g v = H.rows g v := by
  cases v with
  | whole a => exact h
  | part a l hh => exact congrArg (fun t => g.get t l hh) h

theorem val_congr (H H' : Tab2) (b : BeamR2) (h : H'.arr b.v.addr = H.arr b.v.addr) : b.val H' = b.val H := by
  unfold BeamR2.val
  rw [rows_congr ranges2 H H' b.v h]

theorem new_val (t : List (Beam2D.Particle ℝ)) (H : Tab2) (dt : List ℝ) (re : List ℤ) (lo : List Bool) : (⟨(H.new t).1, dt, re, lo⟩ : BeamR2).val (H.new t).2 = ⟨t, dt, re, lo⟩ := by
  simp only [BeamR2.val, Tab.new, Tab.rows, Function.update_self]

/-- The three parts of a split layer are the parts of the value model; they are views of arrays made by the split, and older arrays are left alone. -/
theorem splitR_val (argsort : List Bool → List ℕ) (b : BeamR2) (xiEnd : ℝ) (H : Tab2) :
    (fun t : BeamR2 × BeamR2 × BeamR2 => (t.1.val (splitR argsort b xiEnd H).2, t.2.1.val (splitR argsort b xiEnd H).2, t.2.2.val (splitR argsort b xiEnd H).2)) (splitR argsort b xiEnd H).1 =
        Beam2D.splitBeamSlice argsort (b.val H) xiEnd ∧
      (∀ a < H.n, (splitR argsort b xiEnd H).2.arr a = H.arr a) ∧ (splitR argsort b xiEnd H).2.n = H.n + 2 ∧ (splitR argsort b xiEnd H).1.1.v.addr = H.n ∧
      (splitR argsort b xiEnd H).1.2.1.v.addr = H.n + 1 ∧ (splitR argsort b xiEnd H).1.2.2.v.addr = H.n + 1 := by
  have e1 : (reorderR b (argsort b.lost).reverse H).1.val (reorderR b (argsort b.lost).reverse H).2 = (b.val H).reorder (argsort b.lost).reverse := new_val _ _ _ _ _
  have a1 : (reorderR b (argsort b.lost).reverse H).1.v = .whole H.n := rfl
  have n1 : (reorderR b (argsort b.lost).reverse H).2.n = H.n + 1 := rfl
  have o1 : ∀ a < H.n, (reorderR b (argsort b.lost).reverse H).2.arr a = H.arr a := fun a ha => Function.update_of_ne (by omega) _ _
  unfold splitR
  dsimp only
  generalize reorderR b (argsort b.lost).reverse H = r1 at e1 a1 n1 o1 ⊢
  have l1 : r1.1.lost = ((b.val H).reorder (argsort b.lost).reverse).lost := congrArg Beam2D.Beam.lost e1
  have eb1 := sub_val r1.2 r1.1 (r1.1.lost.count true) (b.val H).particles.length
  have ab1 : (r1.1.sub (r1.1.lost.count true) (b.val H).particles.length).v.addr = H.n := by unfold BeamR2.sub; rw [sub_addr, a1]; rfl
  generalize r1.1.sub (r1.1.lost.count true) (b.val H).particles.length = b1 at eb1 ab1 ⊢
  obtain ⟨idx, hidx⟩ : ∃ idx, idx = argsort (List.zipWith (fun (n : ℤ) (p : Beam2D.Particle ℝ) => decide (n > 0) || decide (p.xi < xiEnd)) b1.remaining (b1.val r1.2).particles) := ⟨_, rfl⟩
  rw [← hidx]
  have e2 : (reorderR b1 idx r1.2).1.val (reorderR b1 idx r1.2).2 = (b1.val r1.2).reorder idx := new_val _ _ _ _ _
  have a2 : (reorderR b1 idx r1.2).1.v = .whole r1.2.n := rfl
  have n2 : (reorderR b1 idx r1.2).2.n = r1.2.n + 1 := rfl
  have o2 : ∀ a < r1.2.n, (reorderR b1 idx r1.2).2.arr a = r1.2.arr a := fun a ha => Function.update_of_ne (by omega) _ _
  generalize reorderR b1 idx r1.2 = r2 at e2 a2 n2 o2 ⊢
  have ad : ∀ lo hi, (r2.1.sub lo hi).v.addr = H.n + 1 := fun lo hi => by unfold BeamR2.sub; rw [sub_addr, a2, n1]; rfl
  have ad1 : ∀ lo hi, (r1.1.sub lo hi).v.addr = H.n := fun lo hi => by unfold BeamR2.sub; rw [sub_addr, a1]; rfl
  refine ⟨?_, fun a ha => (o2 a (by omega)).trans (o1 a ha), by omega, ad1 _ _, ad _ _, ad _ _⟩
  have rem : b1.remaining = (b1.val r1.2).remaining := rfl
  have ls : (r1.1.sub 0 (r1.1.lost.count true)).val r2.2 = (r1.1.val r1.2).getSubslice 0 (r1.1.lost.count true) := by
    rw [← sub_val]
    refine val_congr _ _ _ (o2 _ ?_)
    rw [ad1]; omega
  unfold Beam2D.splitBeamSlice
  dsimp only
  have bl : (b.val H).lost = b.lost := rfl
  rw [ls, sub_val, sub_val, e2, bl, ← e1]
  have l1' : (r1.1.val r1.2).lost = r1.1.lost := rfl
  rw [l1', ← eb1, hidx, rem]

/-- A layer is moved in place in its own array. -/
theorem moveR2_val (e : Beam2D.Env2D Plasma2D.World) (b : BeamR2) (a : ℕ) (ha : b.v = .whole a) (H : Tab2) (hlt : a < H.n) (xiI : ℕ) (prev cur : Beam2D.Fields) :
    (fun t : BeamR2 × BeamR2 × BeamR2 => (t.1.val (moveR2 e b xiI prev cur H).2, t.2.1.val (moveR2 e b xiI prev cur H).2, t.2.2.val (moveR2 e b xiI prev cur H).2)) (moveR2 e b xiI prev cur H).1 =
        Beam2D.moveBeamLayer e (b.val H) xiI prev cur ∧
      (∀ x < H.n, x ≠ a → (moveR2 e b xiI prev cur H).2.arr x = H.arr x) ∧ (moveR2 e b xiI prev cur H).2.n = H.n + 2 ∧
      (moveR2 e b xiI prev cur H).1.2.1.v.addr = H.n + 1 ∧ (moveR2 e b xiI prev cur H).1.2.2.v.addr = H.n + 1 := by
  unfold moveR2 Beam2D.moveBeamLayer
  dsimp only
  by_cases h0 : (b.val H).particles.length = 0
  · rw [if_pos h0, if_pos h0]
    obtain ⟨s1, s2, s3, -, s4, s5⟩ := splitR_val e.argsortB b (xiI * -e.cfg.xiStep) H
    exact ⟨s1, fun x hx _ => s2 x hx, s3, s4, s5⟩
  · rw [if_neg h0, if_neg h0]
    generalize (b.val H).mapRows (fun t => Beam2D.pushRow e.cfg xiI cur prev (Beam2D.initRow e.timeStep e.energy t)) = r
    obtain ⟨s1, s2, s3, -, s4, s5⟩ := splitR_val e.argsortB ⟨b.v, r.dt, r.remaining, r.lost⟩ (xiI * -e.cfg.xiStep) (H.write ranges2 b.v r.particles)
    have hv : (⟨b.v, r.dt, r.remaining, r.lost⟩ : BeamR2).val (H.write ranges2 b.v r.particles) = r := by
      simp only [BeamR2.val, ha, Tab.write, Tab.rows, Function.update_self]
    have hn : (H.write ranges2 b.v r.particles).n = H.n := by rw [ha]; rfl
    rw [hv] at s1
    rw [hn] at s2 s3 s4 s5
    refine ⟨s1, fun x hx hxa => (s2 x hx).trans ?_, s3, s4, s5⟩
    rw [ha]
    exact Function.update_of_ne hxa _ _

/-- The two loops are in step: the layer being moved has an array of its own, which neither the source nor the drain refers to. -/
structure RowsRel2 (H0 : Tab2) (s : RowsR2) (v : BeamSt2) : Prop where
  keeps : ∀ a < H0.n, s.H.arr a = H0.arr a
  own : ∃ a, s.toMove.v = .whole a ∧ H0.n ≤ a ∧ a < s.H.n ∧ ∀ d ∈ s.drain, d.v.addr ≠ a ∧ d.v.addr < s.H.n
  toMove : s.toMove.val s.H = v.toMove
  source : s.source.a < H0.n ∧ s.source.val s.H = v.source
  drain : s.drain.map (BeamR2.val s.H) = v.drain.buffer

theorem turnR2_rel (e : Beam2D.Env2D Plasma2D.World) (F : ℕ → Beam2D.Fields × Beam2D.Fields) (H0 : Tab2) (s : RowsR2) (v : BeamSt2) (h : RowsRel2 H0 s v) (xiI : ℕ) :
    RowsRel2 H0 (turnR2 e F s xiI) (turnB2 e F v xiI) := by
  obtain ⟨hk, ⟨a, ha, ha0, han, had⟩, ht, ⟨hs0, hs⟩, hd⟩ := h
  obtain ⟨m1, m2, m3, m4, m5⟩ := moveR2_val e s.toMove a ha s.H han xiI (F xiI).1 (F xiI).2
  have hn0 : H0.n ≤ s.H.n := by omega
  -- the layer
  have hl : (layerR2 e.cfg.xiStep s.source xiI s.H).1.val s.H = (v.source.getBeamLayer e.cfg.xiStep xiI).1 ∧
      (layerR2 e.cfg.xiStep s.source xiI s.H).2.val s.H = (v.source.getBeamLayer e.cfg.xiStep xiI).2 ∧ (layerR2 e.cfg.xiStep s.source xiI s.H).1.v.addr = s.source.a ∧
      (layerR2 e.cfg.xiStep s.source xiI s.H).2.a = s.source.a := by
    rw [← hs]
    refine ⟨?_, rfl, ?_, rfl⟩
    · unfold layerR2 Beam2D.Source.getBeamLayer Beam2D.Source.getBeamSlice SourceR2.val BeamR2.val Beam2D.Beam.fresh
      dsimp only
      have : Tab.rows ranges2 s.H ((View.part s.source.a 0 s.source.stub).sub (Beam2D.findSubSlice s.source.xi s.source.used (↑xiI * -e.cfg.xiStep) ((↑xiI + 1) * -e.cfg.xiStep)).1
          (Beam2D.findSubSlice s.source.xi s.source.used (↑xiI * -e.cfg.xiStep) ((↑xiI + 1) * -e.cfg.xiStep)).2.1) =
          Beam2D.slice ((s.H.arr s.source.a).take s.source.stub) (Beam2D.findSubSlice s.source.xi s.source.used (↑xiI * -e.cfg.xiStep) ((↑xiI + 1) * -e.cfg.xiStep)).1
          (Beam2D.findSubSlice s.source.xi s.source.used (↑xiI * -e.cfg.xiStep) ((↑xiI + 1) * -e.cfg.xiStep)).2.1 := by
        simp only [View.sub, Tab.rows, ranges2]
        rw [← slice_slice]
        rfl
      rw [this]
    · exact sub_addr (View.part s.source.a 0 s.source.stub) _ _
  unfold turnR2
  dsimp only
  generalize layerR2 e.cfg.xiStep s.source xiI s.H = l at hl ⊢
  obtain ⟨l1, l2, l3, l4⟩ := hl
  generalize moveR2 e s.toMove xiI (F xiI).1 (F xiI).2 s.H = m at m1 m2 m3 m4 m5 ⊢
  have e1 : m.1.2.1.val m.2 = (Beam2D.moveBeamLayer e v.toMove xiI (F xiI).1 (F xiI).2).2.1 := by rw [← ht, ← m1]
  have e2 : m.1.2.2.val m.2 = (Beam2D.moveBeamLayer e v.toMove xiI (F xiI).1 (F xiI).2).2.2 := by rw [← ht, ← m1]
  have ls : l.1.val m.2 = l.1.val s.H := val_congr _ _ _ (m2 _ (by rw [l3]; omega) (by rw [l3]; omega))
  have n3 : (appendR l.1 m.1.2.2 m.2).2.n = m.2.n + 1 := rfl
  have o3 : ∀ x < m.2.n, (appendR l.1 m.1.2.2 m.2).2.arr x = m.2.arr x := fun x hx => Function.update_of_ne (by omega) _ _
  have v3 : (appendR l.1 m.1.2.2 m.2).1.v = .whole m.2.n := rfl
  have e3 : (appendR l.1 m.1.2.2 m.2).1.val (appendR l.1 m.1.2.2 m.2).2 = (l.1.val m.2).append (m.1.2.2.val m.2) := new_val _ _ _ _ _
  generalize appendR l.1 m.1.2.2 m.2 = ap at n3 o3 v3 e3 ⊢
  have e1' : m.1.2.1.val ap.2 = m.1.2.1.val m.2 := val_congr _ _ _ (o3 _ (by omega))
  have old : s.drain.map (BeamR2.val ap.2) = v.drain.buffer := by
    rw [← hd]
    refine List.map_congr_left fun d hdm => val_congr _ _ _ ?_
    obtain ⟨d1, d2⟩ := had d hdm
    rw [o3 _ (by omega), m2 _ d2 d1]
  unfold turnB2
  simp only [beam2]
  refine ⟨fun x hx => ?_, ⟨m.2.n, v3, by omega, by dsimp only; omega, ?_⟩, ?_, ⟨by dsimp only; omega, ?_⟩, ?_⟩
  · dsimp only
    rw [o3 x (by omega), m2 x (by omega) (by omega)]
    exact hk x hx
  · intro d hdm
    dsimp only at hdm ⊢
    have : d ∈ s.drain ∨ d = m.1.2.1 := by
      split at hdm
      · simpa using hdm
      · exact Or.inl hdm
    rcases this with hdm | rfl
    · have := had d hdm; constructor <;> omega
    · constructor <;> omega
  · dsimp only
    rw [e3, ls, l1, e2]
  · dsimp only
    rw [← l2]
    unfold SourceR2.val
    rw [l4, o3 _ (by omega), m2 _ (by omega) (by omega)]
  · dsimp only
    unfold Beam2D.Drain.push
    rw [← e1]
    by_cases hp : (m.1.2.1.val m.2).particles.length > 0
    · rw [if_pos hp, if_pos hp, List.map_append, List.map_singleton, old, e1']
    · rw [if_neg hp, if_neg hp, old]

/-- C62, 2D beam rows: whatever the fields of the layers are, with slices as views and rows written in place a time step gives the layers, the rows and the drain of the value model; at its end the drain
still shows everything that was put into it, and no array that existed before (the source among them) is changed. -/
theorem rows_2D (e : Beam2D.Env2D Plasma2D.World) (F : ℕ → Beam2D.Fields × Beam2D.Fields) (src : SourceR2) (N : ℕ) (H : Tab2) (hs : src.a < H.n) :
    RowsRel2 H (sweepR2 e F src N H) ((List.range (N + 1)).foldl (turnB2 e F) (begin2 (src.val H))) := by
  unfold sweepR2
  dsimp only
  have base : RowsRel2 H ⟨⟨(H.new []).1, [], [], []⟩, src, [], (H.new []).2⟩ (begin2 (src.val H)) := by
    refine ⟨fun a ha => Function.update_of_ne (by omega) _ _, ⟨H.n, rfl, le_rfl, Nat.lt_succ_self _, by simp⟩, new_val _ _ _ _ _, ⟨hs, ?_⟩, rfl⟩
    unfold SourceR2.val
    have : (H.new []).2.arr src.a = H.arr src.a := Function.update_of_ne (by omega) _ _
    dsimp only [begin2]
    rw [this]
  generalize (⟨⟨(H.new []).1, [], [], []⟩, src, [], (H.new []).2⟩ : RowsR2) = s0 at base ⊢
  generalize begin2 (src.val H) = v0 at base ⊢
  generalize List.range (N + 1) = xs
  induction xs generalizing s0 v0 with
  | nil => exact base
  | cons x xs ih => exact ih _ _ (turnR2_rel e F H s0 v0 base x)

/-! ### Model: 3D -/

/-- Ranges of the parallel arrays of a 3D beam. -/
def ranges3 : Ranges (Beam3D.Beam ℝ) := ⟨fun t lo hi => ((t.cut lo).2.cut (hi - lo)).1, fun t lo hi new => (t.cut lo).1.append (new.append (t.cut hi).2)⟩

abbrev Tab3 := Tab (Beam3D.Beam ℝ)

/-- move_beam_layer, beam3d/beam_calculator.py:116-134: dt and remaining_steps, then everything else, is written in place; get_layer (beam3d/data.py:106-126) makes new arrays. -/
noncomputable def moveR3 (e : Beam3D.Env3 Plasma3D.W3) (v : View) (fellSize xiI : ℕ) (F0 F1 : Plasma3D.Fields3) (H : Tab3) : (View × View × View) × Tab3 :=
  if (H.rows ranges3 v).id.length ≠ 0 then
    let H := H.write ranges3 v (Beam3D.startMovingLayer e.timeStep e.energy (H.rows ranges3 v) fellSize)
    let res := (H.rows ranges3 v).rows.map (Beam3D.pushRow e.cfg ((xiI : ℤ) - 1) F0 F1)
    let H := H.write ranges3 v (Beam3D.Beam.ofRows (res.map Beam3D.Moved.row))
    let l := H.new ((H.rows ranges3 v).getLayer (res.map Beam3D.Moved.lost))
    let m := l.2.new ((l.2.rows ranges3 v).getLayer (res.map Beam3D.Moved.moved))
    let f := m.2.new ((m.2.rows ranges3 v).getLayer (res.map Beam3D.Moved.fell))
    ((l.1, m.1, f.1), f.2)
  else
    let no := (H.rows ranges3 v).id.map fun _ => false
    let l := H.new ((H.rows ranges3 v).getLayer no)
    let m := l.2.new ((l.2.rows ranges3 v).getLayer no)
    let f := m.2.new ((m.2.rows ranges3 v).getLayer no)
    ((l.1, m.1, f.1), f.2)

/-- BeamSource, beam3d/beam_io.py:11-31: what has not been handed out yet is a view from row `k` on. -/
structure SourceR3 where
  a : ℕ
  k : ℕ

/-- What is left. -/
noncomputable def SourceR3.val (H : Tab3) (s : SourceR3) : Beam3D.Beam ℝ := ((H.arr s.a).cut s.k).2

/-- get_beam_layer_to_layout, beam3d/beam_io.py:33-54, with cut_beam_layer (data.py:128-149): the layer and the rest are views. -/
noncomputable def layerR3 (dxi : ℝ) (s : SourceR3) (i : ℕ) (H : Tab3) : View × SourceR3 :=
  let xi := (s.val H).xi
  let n := if xi.length ≠ 0 then xi.countP fun z => decide (-dxi * ((i : ℝ) + 1) ≤ z) && decide (z < -dxi * (i : ℝ)) else 0
  (.part s.a s.k (s.k + n), ⟨s.a, s.k + n⟩)

/-- The variables of the beam in a 3D time step. -/
structure RowsR3 where
  toMove : View
  fellSize : ℕ
  source : SourceR3
  drain : View
  H : Tab3

/-- The beam part of one turn of the xi loop, push_solver.py:101-126; append (data.py:151-169) makes new arrays, also in the drain (beam3d/beam_io.py:61-66). -/
noncomputable def turnR3 (e : Beam3D.Env3 Plasma3D.W3) (F : ℕ → Plasma3D.Fields3 × Plasma3D.Fields3) (s : RowsR3) (xiI : ℕ) : RowsR3 :=
  let l := layerR3 e.cfg.dxi s.source xiI s.H
  let m := moveR3 e s.toMove s.fellSize xiI (F xiI).1 (F xiI).2 s.H
  let ap := m.2.new ((m.2.rows ranges3 l.1).append (m.2.rows ranges3 m.1.2.2))
  let fell := (ap.2.rows ranges3 m.1.2.2).id.length
  if (ap.2.rows ranges3 m.1.2.1).id.length > 0 then
    let d := ap.2.new ((ap.2.rows ranges3 s.drain).append (ap.2.rows ranges3 m.1.2.1))
    ⟨ap.1, fell, l.2, d.1, d.2⟩
  else ⟨ap.1, fell, l.2, s.drain, ap.2⟩

/-- The beam part of a time step: an empty layer to move and an empty drain, push_solver.py:90-92, beam3d/beam_io.py:56-60. -/
noncomputable def sweepR3 (e : Beam3D.Env3 Plasma3D.W3) (F : ℕ → Plasma3D.Fields3 × Plasma3D.Fields3) (src : SourceR3) (N : ℕ) (H : Tab3) : RowsR3 :=
  let z := H.new Beam3D.Beam.empty
  let d := z.2.new Beam3D.Beam.empty
  (List.range (N + 1)).foldl (turnR3 e F) ⟨z.1, 0, src, d.1, d.2⟩

/-! ### Specification: 3D -/

/-- The beam part of one turn on values. -/
noncomputable def turnB3 (e : Beam3D.Env3 Plasma3D.W3) (F : ℕ → Plasma3D.Fields3 × Plasma3D.Fields3) (s : BeamSt3) (xiI : ℕ) : BeamSt3 :=
  (beam3 e).move ((beam3 e).layer s xiI).2 ((beam3 e).layer s xiI).1 xiI (F xiI).1 (F xiI).2

/-! ### C62, beam rows in 3D -/

theorem new_rows (g : Ranges T) (t : T) (H : Tab T) : (H.new t).2.rows g (H.new t).1 = t := by simp only [Tab.new, Tab.rows, Function.update_self]

theorem new_old (t : T) (H : Tab T) (a : ℕ) (ha : a < H.n) : (H.new t).2.arr a = H.arr a := Function.update_of_ne (by omega) _ _

theorem new_n (t : T) (H : Tab T) : (H.new t).2.n = H.n + 1 := rfl

theorem new_addr (t : T) (H : Tab T) : (H.new t).1 = .whole H.n := rfl

/-- Three selections from one layer, each a new array. -/
theorem three_new (H : Tab3) (v : View) (hv : v.addr < H.n) (p q r : List Bool) :
    let l := H.new ((H.rows ranges3 v).getLayer p)
    let m := l.2.new ((l.2.rows ranges3 v).getLayer q)
    let f := m.2.new ((m.2.rows ranges3 v).getLayer r)
    f.2.rows ranges3 l.1 = (H.rows ranges3 v).getLayer p ∧ f.2.rows ranges3 m.1 = (H.rows ranges3 v).getLayer q ∧ f.2.rows ranges3 f.1 = (H.rows ranges3 v).getLayer r ∧
      (∀ a < H.n, f.2.arr a = H.arr a) ∧ f.2.n = H.n + 3 ∧ m.1.addr = H.n + 1 ∧ f.1.addr = H.n + 2 := by
  intro l m f
  have l1 : l.2.rows ranges3 v = H.rows ranges3 v := rows_congr _ _ _ _ (new_old _ _ _ hv)
  have m0 : m.2.rows ranges3 v = l.2.rows ranges3 v := rows_congr _ _ _ _ (new_old _ _ _ (by rw [new_n]; omega))
  refine ⟨?_, ?_, ?_, fun a ha => ?_, rfl, rfl, rfl⟩
  · rw [rows_congr ranges3 m.2 f.2 l.1 (new_old _ _ _ (by show H.n < _; rw [new_n, new_n]; omega)), rows_congr ranges3 l.2 m.2 l.1 (new_old _ _ _ (by show H.n < _; rw [new_n]; omega))]
    exact new_rows _ _ _
  · rw [rows_congr ranges3 m.2 f.2 m.1 (new_old _ _ _ (by show H.n + 1 < _; rw [new_n, new_n]; omega))]
    rw [← l1]
    exact new_rows _ _ _
  · rw [← l1, ← m0]
    exact new_rows _ _ _
  · rw [new_old _ _ _ (by rw [new_n, new_n]; omega), new_old _ _ _ (by rw [new_n]; omega), new_old _ _ _ ha]

theorem moveR3_val (e : Beam3D.Env3 Plasma3D.W3) (a : ℕ) (H : Tab3) (hlt : a < H.n) (fs xiI : ℕ) (F0 F1 : Plasma3D.Fields3) :
    (fun t : View × View × View => ((moveR3 e (.whole a) fs xiI F0 F1 H).2.rows ranges3 t.1, (moveR3 e (.whole a) fs xiI F0 F1 H).2.rows ranges3 t.2.1, (moveR3 e (.whole a) fs xiI F0 F1 H).2.rows ranges3 t.2.2))
        (moveR3 e (.whole a) fs xiI F0 F1 H).1 = Beam3D.moveBeamLayer e (H.arr a) fs xiI F0 F1 ∧
      (∀ x < H.n, x ≠ a → (moveR3 e (.whole a) fs xiI F0 F1 H).2.arr x = H.arr x) ∧ (moveR3 e (.whole a) fs xiI F0 F1 H).2.n = H.n + 3 ∧
      (moveR3 e (.whole a) fs xiI F0 F1 H).1.2.1.addr = H.n + 1 ∧ (moveR3 e (.whole a) fs xiI F0 F1 H).1.2.2.addr = H.n + 2 := by
  unfold moveR3 Beam3D.moveBeamLayer
  have e0 : H.rows ranges3 (.whole a) = H.arr a := rfl
  rw [e0]
  by_cases h0 : (H.arr a).id.length ≠ 0
  · rw [if_pos h0, if_pos h0]
    dsimp only
    have w1 : (H.write ranges3 (.whole a) (Beam3D.startMovingLayer e.timeStep e.energy (H.arr a) fs)).rows ranges3 (.whole a) = Beam3D.startMovingLayer e.timeStep e.energy (H.arr a) fs := by
      simp only [Tab.write, Tab.rows, Function.update_self]
    rw [w1]
    generalize Beam3D.startMovingLayer e.timeStep e.energy (H.arr a) fs = b1
    generalize b1.rows.map (Beam3D.pushRow e.cfg ((xiI : ℤ) - 1) F0 F1) = res
    obtain ⟨H2, hH2⟩ : ∃ H2, H2 = (H.write ranges3 (.whole a) b1).write ranges3 (.whole a) (Beam3D.Beam.ofRows (res.map Beam3D.Moved.row)) := ⟨_, rfl⟩
    have n2 : H2.n = H.n := by rw [hH2]; rfl
    have r2 : H2.rows ranges3 (.whole a) = Beam3D.Beam.ofRows (res.map Beam3D.Moved.row) := by rw [hH2]; simp only [Tab.write, Tab.rows, Function.update_self]
    have o2 : ∀ x, x ≠ a → H2.arr x = H.arr x := by
      intro x hx
      rw [hH2]
      simp only [Tab.write]
      rw [Function.update_of_ne hx, Function.update_of_ne hx]
    rw [← hH2]
    obtain ⟨t1, t2, t3, t4, t5, t6, t7⟩ := three_new H2 (.whole a) (by rw [n2]; exact hlt) (res.map Beam3D.Moved.lost) (res.map Beam3D.Moved.moved) (res.map Beam3D.Moved.fell)
    rw [t1, t2, t3]
    rw [r2] at t4 t5 t6 t7 ⊢
    rw [n2] at t4 t5 t6 t7
    exact ⟨rfl, fun x hx hxa => (t4 x hx).trans (o2 x hxa), t5, t6, t7⟩
  · rw [if_neg h0, if_neg h0]
    dsimp only
    obtain ⟨t1, t2, t3, t4, t5, t6, t7⟩ := three_new H (.whole a) hlt ((H.arr a).id.map fun _ => false) ((H.arr a).id.map fun _ => false) ((H.arr a).id.map fun _ => false)
    rw [e0] at t1 t2 t3 t4 t5 t6 t7
    rw [t1, t2, t3]
    exact ⟨rfl, fun x hx _ => t4 x hx, t5, t6, t7⟩

/-- The two loops are in step. -/
structure RowsRel3 (H0 : Tab3) (s : RowsR3) (v : BeamSt3) : Prop where
  keeps : ∀ a < H0.n, s.H.arr a = H0.arr a
  own : ∃ a, s.toMove = .whole a ∧ H0.n ≤ a ∧ a < s.H.n ∧ s.drain.addr ≠ a ∧ s.drain.addr < s.H.n
  toMove : s.H.rows ranges3 s.toMove = v.toMove
  fell : s.fellSize = v.fellSize
  source : s.source.a < H0.n ∧ s.source.val s.H = v.source
  drain : s.H.rows ranges3 s.drain = v.drain

theorem cut_cut (t : Beam3D.Beam ℝ) (k n : ℕ) : (t.cut (k + n)).2 = ((t.cut k).2.cut n).2 := by
  simp only [Beam3D.Beam.cut, List.drop_drop]

theorem turnR3_rel (e : Beam3D.Env3 Plasma3D.W3) (F : ℕ → Plasma3D.Fields3 × Plasma3D.Fields3) (H0 : Tab3) (s : RowsR3) (v : BeamSt3) (h : RowsRel3 H0 s v) (xiI : ℕ) :
    RowsRel3 H0 (turnR3 e F s xiI) (turnB3 e F v xiI) := by
  obtain ⟨hk, ⟨a, ha, ha0, han, had, hadn⟩, ht, hf, ⟨hs0, hs⟩, hd⟩ := h
  have hn0 : H0.n ≤ s.H.n := by omega
  obtain ⟨m1, m2, m3, m4, m5⟩ := moveR3_val e a s.H han s.fellSize xiI (F xiI).1 (F xiI).2
  have hta : s.H.arr a = v.toMove := by rw [← ht, ha]; rfl
  rw [hta, hf] at m1
  beta_reduce at m1
  have hl : s.H.rows ranges3 (layerR3 e.cfg.dxi s.source xiI s.H).1 = (Beam3D.getBeamLayerToLayout e.cfg.dxi v.source xiI).1 ∧
      (layerR3 e.cfg.dxi s.source xiI s.H).2.val s.H = (Beam3D.getBeamLayerToLayout e.cfg.dxi v.source xiI).2 ∧ (layerR3 e.cfg.dxi s.source xiI s.H).1.addr = s.source.a ∧
      (layerR3 e.cfg.dxi s.source xiI s.H).2.a = s.source.a := by
    rw [← hs]
    refine ⟨?_, ?_, rfl, rfl⟩
    · unfold layerR3 Beam3D.getBeamLayerToLayout
      simp only [Tab.rows, ranges3, Nat.add_sub_cancel_left]
      rfl
    · unfold layerR3 Beam3D.getBeamLayerToLayout
      exact cut_cut _ _ _
  unfold turnR3
  rw [ha, hf]
  dsimp only
  rw [hf] at m2 m3 m4 m5
  generalize layerR3 e.cfg.dxi s.source xiI s.H = l at hl ⊢
  obtain ⟨l1, l2, l3, l4⟩ := hl
  generalize moveR3 e (.whole a) v.fellSize xiI (F xiI).1 (F xiI).2 s.H = m at m1 m2 m3 m4 m5 ⊢
  have e1 : m.2.rows ranges3 m.1.2.1 = (Beam3D.moveBeamLayer e v.toMove v.fellSize xiI (F xiI).1 (F xiI).2).2.1 := by rw [← m1]
  have e2 : m.2.rows ranges3 m.1.2.2 = (Beam3D.moveBeamLayer e v.toMove v.fellSize xiI (F xiI).1 (F xiI).2).2.2 := by rw [← m1]
  have ls : m.2.rows ranges3 l.1 = s.H.rows ranges3 l.1 := rows_congr _ _ _ _ (m2 _ (by rw [l3]; omega) (by rw [l3]; omega))
  have ds : m.2.rows ranges3 s.drain = s.H.rows ranges3 s.drain := rows_congr _ _ _ _ (m2 _ hadn had)
  obtain ⟨t, htt⟩ : ∃ t, t = (m.2.rows ranges3 l.1).append (m.2.rows ranges3 m.1.2.2) := ⟨_, rfl⟩
  rw [← htt]
  have c1 : (m.2.new t).2.rows ranges3 m.1.2.1 = m.2.rows ranges3 m.1.2.1 := rows_congr _ _ _ _ (new_old _ _ _ (by omega))
  have c2 : (m.2.new t).2.rows ranges3 m.1.2.2 = m.2.rows ranges3 m.1.2.2 := rows_congr _ _ _ _ (new_old _ _ _ (by omega))
  have c3 : (m.2.new t).2.rows ranges3 s.drain = m.2.rows ranges3 s.drain := rows_congr _ _ _ _ (new_old _ _ _ (by omega))
  have c4 := new_rows ranges3 t m.2
  have c5 := new_addr t m.2
  have c6 := new_n t m.2
  have c7 : ∀ x < m.2.n, (m.2.new t).2.arr x = m.2.arr x := fun x hx => new_old _ _ _ hx
  generalize m.2.new t = ap at c1 c2 c3 c4 c5 c6 c7 ⊢
  rw [c1, c2, c3, e1, e2, ds, hd]
  rw [e2, ls, l1] at htt
  have src : l.2.val ap.2 = l.2.val s.H := by
    unfold SourceR3.val
    rw [l4, c7 _ (by omega), m2 _ (by omega) (by omega)]
  have keep : ∀ x < H0.n, ap.2.arr x = H0.arr x := by
    intro x hx
    rw [c7 x (by omega), m2 x (by omega) (by omega)]
    exact hk x hx
  unfold turnB3
  simp only [beam3]
  by_cases hp : (Beam3D.moveBeamLayer e v.toMove v.fellSize xiI (F xiI).1 (F xiI).2).2.1.id.length > 0
  · rw [if_pos hp]
    obtain ⟨t', ht'⟩ : ∃ t', t' = v.drain.append (Beam3D.moveBeamLayer e v.toMove v.fellSize xiI (F xiI).1 (F xiI).2).2.1 := ⟨_, rfl⟩
    rw [← ht']
    have d1 : ∀ x < ap.2.n, (ap.2.new t').2.arr x = ap.2.arr x := fun x hx => new_old _ _ _ hx
    refine ⟨fun x hx => (d1 x (by omega)).trans (keep x hx), ⟨m.2.n, c5, by omega, ?_, ?_, ?_⟩, ?_, rfl, ⟨by dsimp only; omega, ?_⟩, ?_⟩
    · dsimp only; rw [new_n]; omega
    · show ap.2.n ≠ m.2.n; omega
    · show ap.2.n < (ap.2.new t').2.n; rw [new_n]; omega
    · dsimp only
      rw [rows_congr ranges3 ap.2 (ap.2.new t').2 ap.1 (d1 _ (by rw [c5]; show m.2.n < _; omega)), c4, htt]
    · dsimp only
      rw [← l2, ← src]
      unfold SourceR3.val
      rw [d1 _ (by omega)]
    · dsimp only
      rw [new_rows, ht']
      unfold Beam3D.drainPush
      rw [if_pos hp]
  · rw [if_neg hp]
    refine ⟨keep, ⟨m.2.n, c5, by omega, by dsimp only; omega, by dsimp only; omega, by dsimp only; omega⟩, ?_, rfl, ⟨by dsimp only; omega, by dsimp only; rw [src, l2]⟩, ?_⟩
    · dsimp only; rw [c4, htt]
    · dsimp only
      rw [c3, ds, hd]
      unfold Beam3D.drainPush
      rw [if_neg hp]

/-- C62, 3D beam rows. -/
theorem rows_3D (e : Beam3D.Env3 Plasma3D.W3) (F : ℕ → Plasma3D.Fields3 × Plasma3D.Fields3) (src : SourceR3) (N : ℕ) (H : Tab3) (hs : src.a < H.n) :
    RowsRel3 H (sweepR3 e F src N H) ((List.range (N + 1)).foldl (turnB3 e F) (begin3 (src.val H))) := by
  unfold sweepR3
  dsimp only
  obtain ⟨z, hz⟩ : ∃ z, z = H.new Beam3D.Beam.empty := ⟨_, rfl⟩
  have base : RowsRel3 H ⟨z.1, 0, src, (z.2.new Beam3D.Beam.empty).1, (z.2.new Beam3D.Beam.empty).2⟩ (begin3 (src.val H)) := by
    have zn : z.2.n = H.n + 1 := by rw [hz]; rfl
    have za : z.1 = .whole H.n := by rw [hz]; rfl
    have zr : z.2.rows ranges3 z.1 = Beam3D.Beam.empty := by rw [hz]; exact new_rows _ _ _
    have zo : ∀ x < H.n, z.2.arr x = H.arr x := fun x hx => by rw [hz]; exact new_old _ _ _ hx
    have dn := new_n Beam3D.Beam.empty z.2
    have da : (z.2.new (Beam3D.Beam.empty (K := ℝ))).1.addr = z.2.n := rfl
    have dr := new_rows ranges3 Beam3D.Beam.empty z.2
    have d0 : ∀ x < z.2.n, (z.2.new (Beam3D.Beam.empty (K := ℝ))).2.arr x = z.2.arr x := fun x hx => new_old _ _ _ hx
    refine ⟨fun x hx => (d0 x (by omega)).trans (zo x hx), ⟨H.n, za, le_rfl, by dsimp only; omega, by dsimp only; omega, by dsimp only; omega⟩, ?_, rfl, ⟨hs, ?_⟩, dr⟩
    · dsimp only
      rw [rows_congr ranges3 z.2 _ z.1 (d0 _ (by rw [za]; show H.n < _; omega)), zr]
      rfl
    · unfold SourceR3.val
      dsimp only [begin3]
      rw [d0 _ (by omega), zo _ hs]
  rw [← hz]
  generalize (⟨z.1, 0, src, (z.2.new Beam3D.Beam.empty).1, (z.2.new Beam3D.Beam.empty).2⟩ : RowsR3) = s0 at base ⊢
  generalize begin3 (src.val H) = v0 at base ⊢
  generalize List.range (N + 1) = xs
  induction xs generalizing s0 v0 with
  | nil => exact base
  | cons x xs ih => exact ih _ _ (turnR3_rel e F H s0 v0 base x)

/-! ### With the fields of the run -/

/-- The fields before and after layer `j`, of the value model of a time step (`prev_pl_fields`, `pl_fields`, push_solver.py:107-113). -/
noncomputable def layerFields {G P C B ι R W F β L : Type} (pl : PlasmaH G P C B ι R W F) (bv : BeamV B F β L) (zero : B) (w : W) (b : β) (j : ℕ) : F × F :=
  (if j = 0 then pl.fieldsW w else pl.fieldsW (stepV pl bv zero w b (j - 1)).w, pl.fieldsW (stepV pl bv zero w b j).w)

theorem beam_foldl {G P C B ι R W F β L : Type} (pl : PlasmaH G P C B ι R W F) (bv : BeamV B F β L) (zero : B) (w : W) (b : β) (N : ℕ) :
    (stepV pl bv zero w b N).beam = (List.range (N + 1)).foldl (fun s j => bv.move (bv.layer s j).2 (bv.layer s j).1 j (layerFields pl bv zero w b j).1 (layerFields pl bv zero w b j).2) b := by
  have e : ∀ n, stepV pl bv zero w b n = turnV pl bv zero ((List.range n).foldl (turnV pl bv zero) ⟨w, zero, zero, b, []⟩) n := by
    intro n
    unfold stepV
    rw [List.range_succ, List.foldl_append]; rfl
  induction N with
  | zero =>
    rw [e 0]
    rfl
  | succ n ih =>
    rw [List.range_succ, List.foldl_append, ← ih, List.foldl_cons, List.foldl_nil, e (n + 1)]
    have h1 : (layerFields pl bv zero w b (n + 1)).1 = pl.fieldsW (stepV pl bv zero w b n).w := rfl
    have h2 : (layerFields pl bv zero w b (n + 1)).2 = pl.fieldsW (stepV pl bv zero w b (n + 1)).w := rfl
    rw [h1, h2, e (n + 1)]
    rfl

/-- C62, 2D: in a time step in the fields of the run, what the drain shows at the end, read through its views, is the beam of the value model. -/
theorem drained_2D (c : Plasma2D.SolverCfg) (xiStep ts en : ℝ) (aB : List Bool → List ℕ) (aF : List ℝ → List ℕ) (w : Plasma2D.World) (src : SourceR2) (N : ℕ) (H : Tab2) (hs : src.a < H.n) (R : RowsR2)
    (hR : R = sweepR2 (Mpi.sim2 c xiStep ts en aB aF) (layerFields (plasma2 c xiStep) (beam2 (Mpi.sim2 c xiStep ts en aB aF)) (fun _ => 0) w (begin2 (src.val H))) src N H) :
    (R.drain.map fun d => (d.val R.H).particles).flatten = (Beam2D.stepDt (Mpi.sim2 c xiStep ts en aB aF) w (src.val H) ⟨[], []⟩ N).drain.beamSlice ∧ ∀ a < H.n, R.H.arr a = H.arr a := by
  have h := rows_2D (Mpi.sim2 c xiStep ts en aB aF) (layerFields (plasma2 c xiStep) (beam2 (Mpi.sim2 c xiStep ts en aB aF)) (fun _ => 0) w (begin2 (src.val H))) src N H hs
  rw [← hR] at h
  refine ⟨?_, h.keeps⟩
  have e := stepV_2D c xiStep ts en aB aF w (src.val H) ⟨[], []⟩ N
  dsimp only at e
  rw [e]
  have hb := beam_foldl (plasma2 c xiStep) (beam2 (Mpi.sim2 c xiStep ts en aB aF)) (fun _ => 0) w (begin2 (src.val H)) N
  unfold Beam2D.Drain.beamSlice
  dsimp only
  have hd := h.drain
  unfold turnB2 at hd
  rw [← hb] at hd
  unfold begin2 at hd
  rw [← hd, List.map_map]
  rfl

/-- C62, 3D. -/
theorem drained_3D (c : Plasma3D.SCfg) (ts en : ℝ) (w : Plasma3D.W3) (src : SourceR3) (N : ℕ) (H : Tab3) (hs : src.a < H.n) (R : RowsR3)
    (hR : R = sweepR3 (Mpi.sim3 c ts en) (layerFields (plasma3 c) (beam3 (Mpi.sim3 c ts en)) (fun _ _ => 0) w (begin3 (src.val H))) src N H) :
    R.H.rows ranges3 R.drain = (Beam3D.stepDt (Mpi.sim3 c ts en) w (src.val H) N).drain ∧ ∀ a < H.n, R.H.arr a = H.arr a := by
  have h := rows_3D (Mpi.sim3 c ts en) (layerFields (plasma3 c) (beam3 (Mpi.sim3 c ts en)) (fun _ _ => 0) w (begin3 (src.val H))) src N H hs
  rw [← hR] at h
  refine ⟨?_, h.keeps⟩
  have e := stepV_3D c ts en w (src.val H) N
  dsimp only at e
  rw [e]
  have hb := beam_foldl (plasma3 c) (beam3 (Mpi.sim3 c ts en)) (fun _ _ => 0) w (begin3 (src.val H)) N
  have hd := h.drain
  unfold turnB3 at hd
  rw [← hb] at hd
  exact hd

/-! ### A source made twice from one object -/

/-- A BeamParticles object loaded from a file: the rows and the view `xi` of them (data.py:109-137). -/
structure Loaded where
  particles : List (Beam2D.Particle ℝ)
  xi : List ℝ

/-- MemoryBeamSource.__init__ on an object, beam_io.py:83-96 with sort, data.py:93-107: the index array is made from the view `xi`, and fancy indexing raises IndexError (`none`) when an index is out of range;
the stub row is removed from the rows, not from the view. -/
noncomputable def sourceOn (argsort : List ℝ → List ℕ) (o : Loaded) : Option Loaded :=
  if o.particles = [] then some o
  else
    let idx := argsort (o.xi.map fun x => -x)
    if idx.all fun i => i < o.particles.length then
      let ps := Beam2D.gather o.particles idx
      let xi := ps.map Beam2D.Particle.xi
      match xi.getLast? with
      | some x => some (if x + 100000 < 1 then ⟨ps.dropLast, xi⟩ else ⟨ps, xi⟩)
      | none => none
    else none

/-- A loaded beam. -/
def Loaded.of (ps : List (Beam2D.Particle ℝ)) : Loaded := ⟨ps, ps.map Beam2D.Particle.xi⟩

theorem sourceOn_loaded (argsort : List ℝ → List ℕ) (hs : Beam2D.IsArgsort (· ≤ ·) argsort) (ps : List (Beam2D.Particle ℝ)) (hne : ps ≠ []) :
    ∃ S : List (Beam2D.Particle ℝ), S = Beam2D.gather ps (argsort (ps.map fun p => -p.xi)) ∧ S.length = ps.length ∧ S ≠ [] ∧ S.Perm ps ∧ S.Pairwise (fun p q => q.xi ≤ p.xi) ∧
      ∀ hS : S ≠ [], sourceOn argsort (.of ps) = some (if (S.getLast hS).xi + 100000 < 1 then ⟨S.dropLast, S.map Beam2D.Particle.xi⟩ else ⟨S, S.map Beam2D.Particle.xi⟩) := by
  have hk : (Loaded.of ps).xi.map (fun x => -x) = ps.map fun p => -p.xi := by simp [Loaded.of, List.map_map, Function.comp_def]
  obtain ⟨hp, hsort⟩ := hs (ps.map fun p => -p.xi)
  rw [List.length_map] at hp
  obtain ⟨S, hSd⟩ : ∃ S, S = Beam2D.gather ps (argsort (ps.map fun p => -p.xi)) := ⟨_, rfl⟩
  have hperm : S.Perm ps := by
    rw [hSd]
    exact Beam2D.gather_perm hp
  have hl : S.length = ps.length := hperm.length_eq
  have hSne : S ≠ [] := fun hc => hne (by rw [hc] at hperm; exact List.nil_perm.mp hperm)
  have hpw : S.Pairwise (fun p q => q.xi ≤ p.xi) := by
    rw [Beam2D.gather_map, ← hSd, List.pairwise_map] at hsort
    exact hsort.imp fun hab => by linarith
  refine ⟨S, hSd, hl, hSne, hperm, hpw, fun hS => ?_⟩
  unfold sourceOn
  have hall : ((argsort (ps.map fun p => -p.xi)).all fun i => decide (i < (Loaded.of ps).particles.length)) = true := by
    rw [List.all_eq_true]
    intro i hi
    rw [decide_eq_true_eq]
    exact List.mem_range.1 (hp.mem_iff.1 hi)
  have hne' : (Loaded.of ps).particles ≠ [] := hne
  rw [if_neg hne']
  dsimp only
  rw [hk, if_pos hall]
  have : (Loaded.of ps).particles = ps := rfl
  rw [this, ← hSd, List.getLast?_map, List.getLast?_eq_some_getLast hS]
  rfl

/-- The defect: a 2D simulation makes two sources from the same loaded beam (simulation.py:237-243: its own, and that of the transport, mpi/beam_io.py:14). If the beam has a stub row (xi at most -99999), the first
source removes the row from the object but leaves the view `xi` as it was, and the second fails with an IndexError: a loaded beam with a stub, and at least one other particle, cannot be used. -/
theorem loaded_stub_fails (argsort : List ℝ → List ℕ) (hs : Beam2D.IsArgsort (· ≤ ·) argsort) (ps : List (Beam2D.Particle ℝ)) (h2 : 2 ≤ ps.length) (hstub : ∃ p ∈ ps, p.xi + 100000 < 1) :
    ((sourceOn argsort (.of ps)).bind (sourceOn argsort)) = none := by
  have hne : ps ≠ [] := by rintro rfl; simp at h2
  obtain ⟨S, hSd, hl, hSne, hperm, hpw, h1⟩ := sourceOn_loaded argsort hs ps hne
  have hlast : (S.getLast hSne).xi + 100000 < 1 := by
    obtain ⟨p, hp, hx⟩ := hstub
    have hpS := hperm.mem_iff.mpr hp
    rw [← List.dropLast_append_getLast hSne] at hpS hpw
    rcases List.mem_append.1 hpS with hd | hd
    · have := (List.pairwise_append.1 hpw).2.2 p hd (S.getLast hSne) (by simp)
      linarith
    · rw [List.mem_singleton] at hd
      rw [← hd]; exact hx
  rw [h1 hSne, if_pos hlast, Option.bind_some]
  unfold sourceOn
  have hd : S.dropLast ≠ [] := by
    intro hc
    have := congrArg List.length hc
    rw [List.length_dropLast, List.length_nil] at this
    omega
  rw [if_neg hd]
  dsimp only
  rw [if_neg]
  intro hall
  rw [List.all_eq_true] at hall
  obtain ⟨hp, -⟩ := hs ((S.map Beam2D.Particle.xi).map fun x => -x)
  rw [List.length_map, List.length_map] at hp
  have := hall (S.length - 1) (hp.mem_iff.mpr (List.mem_range.2 (by omega)))
  rw [decide_eq_true_eq, List.length_dropLast] at this
  omega

/-- Without a stub the second source has the rows of the first, up to the order of rows with equal coordinates. -/
theorem loaded_twice (argsort : List ℝ → List ℕ) (hs : Beam2D.IsArgsort (· ≤ ·) argsort) (ps : List (Beam2D.Particle ℝ)) (hno : ∀ p ∈ ps, -99999 ≤ p.xi) :
    ∃ o o', sourceOn argsort (.of ps) = some o ∧ sourceOn argsort o = some o' ∧ o.particles.Perm ps ∧ o'.particles.Perm ps ∧ o'.particles.Pairwise (fun p q => q.xi ≤ p.xi) ∧
      o'.xi = o'.particles.map Beam2D.Particle.xi := by
  by_cases hne : ps = []
  · subst hne
    exact ⟨.of [], .of [], rfl, rfl, List.Perm.refl _, List.Perm.refl _, List.Pairwise.nil, rfl⟩
  · obtain ⟨S, -, -, hSne, hperm, -, h1⟩ := sourceOn_loaded argsort hs ps hne
    obtain ⟨S', -, -, hSne', hperm', hpw', h1'⟩ := sourceOn_loaded argsort hs S hSne
    have n1 : ¬ (S.getLast hSne).xi + 100000 < 1 := by
      have := hno _ (hperm.mem_iff.1 (List.getLast_mem hSne)); linarith
    have n2 : ¬ (S'.getLast hSne').xi + 100000 < 1 := by
      have := hno _ (hperm.mem_iff.1 (hperm'.mem_iff.1 (List.getLast_mem hSne'))); linarith
    refine ⟨.of S, .of S', ?_, ?_, hperm, hperm'.trans hperm, hpw', rfl⟩
    · rw [h1 hSne, if_neg n1]; rfl
    · rw [h1' hSne', if_neg n2]; rfl

/-! ### Concrete cases -/

/-- A source of three rows without a stub meets the hypotheses of `rows_2D`; the first layer is a view of its first row. -/
example (p q r : Beam2D.Particle ℝ) : (⟨fun _ => [p, q, r], 1⟩ : Tab2).rows ranges2 ((View.part 0 0 3).sub 0 1) = [p] ∧ (⟨0, 3, [p.xi, q.xi, r.xi], 0⟩ : SourceR2).a < (⟨fun _ => [p, q, r], 1⟩ : Tab2).n :=
  ⟨rfl, Nat.one_pos⟩

/-- A loaded beam of a particle and a stub meets the hypotheses of `loaded_stub_fails`. -/
example : 2 ≤ [(⟨-1, 0, 0, 0, 0, 1, 1, 7⟩ : Beam2D.Particle ℝ), ⟨-100000, 0, 0, 0, 0, 1, 1, 8⟩].length ∧
    ∃ p ∈ [(⟨-1, 0, 0, 0, 0, 1, 1, 7⟩ : Beam2D.Particle ℝ), ⟨-100000, 0, 0, 0, 0, 1, 1, 8⟩], p.xi + 100000 < 1 :=
  ⟨le_rfl, ⟨-100000, 0, 0, 0, 0, 1, 1, 8⟩, by simp, by norm_num⟩

end Lcode.Mem
