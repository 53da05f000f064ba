import Verif.Mem.Heap
import Verif.Plasma3D.Step

/-!
The 3D plasma solver as a program that works on a store (lcode/plasma3d/solver.py, move.py, rhoj.py, fields.py, noise_filter.py). `stepDxiH3_shows`: the result is that of the value model
`Plasma3D.stepDxi`, and nothing that existed before is changed. Property C62.
-/

namespace Lcode.Mem

open Plasma3D

/-! ### Model -/

/-- The attributes of `pl_fields` in 3D, plasma3d/fields.py:309-312. -/
inductive Attr3 where
  | Ex | Ey | Ez | Bx | By | Bz | Phi
deriving DecidableEq

def attrs3 : List Attr3 := [.Ex, .Ey, .Ez, .Bx, .By, .Bz, .Phi]

/-- The arrays of one sort: particles and the chaotic displacements of the noise filter. -/
structure Sort3 where
  ps : List Ptl
  chx : ℤ → ℤ → ℝ
  chy : ℤ → ℤ → ℝ

/-- The store of a 3D simulation. -/
abbrev Heap3 := Heap (ℤ → ℤ → ℝ) Sort3 (Cur × Cur) (ℤ → ℤ → ℝ) Attr3

abbrev Prog3 := Prog (ℤ → ℤ → ℝ) Sort3 (Cur × Cur) (ℤ → ℤ → ℝ) Attr3

/-- The values of the attributes, as a record. -/
def flds3Of (v : Attr3 → ℤ → ℤ → ℝ) : Fields3 := ⟨v .Ex, v .Ey, v .Ez, v .Bx, v .By, v .Bz, v .Phi⟩

/-- The record, by attribute. -/
def attrs3Of (F : Fields3) : Attr3 → ℤ → ℤ → ℝ
  | .Ex => F.Ex
  | .Ey => F.Ey
  | .Ez => F.Ez
  | .Bx => F.Bx
  | .By => F.By
  | .Bz => F.Bz
  | .Phi => F.Phi

/-- Where the parts of a plasma state are; `ro0` is `const_arrays.ro_initial`, `ions` is none with an ion background. -/
structure Refs3 where
  el : ℕ
  ions : Option ℕ
  fields : ℕ
  cur : ℕ
  ro0 : ℕ

/-- One sort in move_particles_wo_fields, move.py:338-347: the arrays are copied and the copy is written in place. -/
noncomputable def freeSortH (c : SCfg) (a : ℕ) : Prog3 ℕ := fun H =>
  let b := newPart (H.part a) H
  (b.1, (setPart b.1 { b.2.part b.1 with ps := (b.2.part b.1).ps.map (moveFree c.m.dxi) } b.2).2)

/-- move_particles_wo_fields, move.py:331-349, for the sorts that there are. (The code copies all sorts before it moves the first.) -/
noncomputable def freeH (c : SCfg) (el : ℕ) (ions : Option ℕ) : Prog3 (ℕ × Option ℕ) := fun H =>
  let a := freeSortH c el H
  match ions with
  | none => ((a.1, none), a.2)
  | some i =>
    let b := freeSortH c i a.2
    ((a.1, some b.1), b.2)

/-- One sort in move_particles_smart, move.py:361-385: the arrays of `particles_full` are written in place. -/
noncomputable def pushSortH (c : SCfg) (F : Fields3) (prev full : ℕ) : Prog3 Unit := fun H =>
  setPart full { H.part full with ps := moveSort c.m F (H.part prev).ps (H.part full).ps } H

/-- move_particles_smart, move.py:351-387. -/
noncomputable def pushH (c : SCfg) (fields : ℕ) (el : ℕ) (ions : Option ℕ) (full : ℕ × Option ℕ) : Prog3 Unit := fun H =>
  let H1 := (pushSortH c (flds3Of (H.val fields)) el full.1 H).2
  match ions, full.2 with
  | some i, some j => pushSortH c (flds3Of (H1.val fields)) i j H1
  | _, _ => ((), H1)

/-- compute_rhoj, plasma3d/rhoj.py:11-20: new arrays; `const_arrays.ro_initial` is copied into row 1 when there are no mobile ions. -/
noncomputable def rhojH3 (c : SCfg) (full : ℕ × Option ℕ) (ro0 : ℕ) : Prog3 ℕ := fun H =>
  newCur (computeRhoj c.m.N c.m.h (H.grid ro0) (H.part full.1).ps (full.2.map fun i => (H.part i).ps)) H

/-- compute_fields, fields.py:276-324: two new groups; the arguments are only read. -/
noncomputable def fieldsH3 (c : SCfg) (fields prev bFull bPrev curPrev cur : ℕ) : Prog3 (ℕ × ℕ) := fun H =>
  let v := computeFields c.f (flds3Of (H.val fields)) (flds3Of (H.val prev)) (H.beam bFull) (H.beam bPrev) (H.cur curPrev) (H.cur cur)
  let full := newGroup attrs3 (attrs3Of v.1) H
  let half := newGroup attrs3 (attrs3Of v.2) full.2
  ((full.1, half.1), half.2)

/-- noise_filter, noise_filter.py:102-238: px and py are changed in place in the arrays of `particles`; the result is a new group that copies all arrays, with new chaotic displacements. -/
noncomputable def filterH (d : NCfg) (full prev : ℕ) : Prog3 ℕ := fun H =>
  let r := filterSort d (H.part full).ps (H.part prev).chx (H.part prev).chy
  let H1 := (setPart full { H.part full with ps := r.1 } H).2
  newPart ⟨(H1.part full).ps, r.2.1, r.2.2⟩ H1

/-- step_dxi, solver.py:25-78. -/
noncomputable def stepDxiH3 (c : SCfg) (r : Refs3) (bFull bPrev : ℕ) : Prog3 Refs3 := fun H =>
  let fl := freeH c r.el r.ions H
  let p1 := (pushH c r.fields r.el r.ions fl.1 fl.2).2
  let j1 := rhojH3 c fl.1 r.ro0 p1
  let f1 := fieldsH3 c r.fields r.fields bFull bPrev r.cur j1.1 j1.2
  let p2 := (pushH c f1.1.2 r.el r.ions fl.1 f1.2).2
  let j2 := rhojH3 c fl.1 r.ro0 p2
  let f2 := fieldsH3 c f1.1.2 r.fields bFull bPrev r.cur j2.1 j2.2
  let p3 := (pushH c f2.1.2 r.el r.ions fl.1 f2.2).2
  match c.decl with
  | none =>
    let j3 := rhojH3 c fl.1 r.ro0 p3
    (⟨fl.1.1, fl.1.2, f2.1.1, j3.1, r.ro0⟩, j3.2)
  | some d =>
    let n := filterH d fl.1.1 r.el p3
    let j3 := rhojH3 c (n.1, fl.1.2) r.ro0 n.2
    (⟨n.1, fl.1.2, f2.1.1, j3.1, r.ro0⟩, j3.2)

/-! ### Specification -/

/-- The references show the plasma state `w`, and `const_arrays.ro_initial` is that of the configuration. -/
structure Shows3 (c : SCfg) (H : Heap3) (r : Refs3) (w : W3) : Prop where
  el : r.el < H.np ∧ H.part r.el = ⟨w.el, w.chx, w.chy⟩
  ions : (∀ i, r.ions = some i → i < H.np) ∧ (r.ions.map fun i => (H.part i).ps) = w.ions
  fields : r.fields < H.no ∧ flds3Of (H.val r.fields) = w.F
  cur : r.cur < H.nc ∧ H.cur r.cur = w.cur
  ro0 : r.ro0 < H.ng ∧ H.grid r.ro0 = c.roInit

/-! ### C62 for the 3D solver -/

theorem Shows3.keeps {c : SCfg} {H H' : Heap3} {r : Refs3} {w : W3} (s : Shows3 c H r w) (k : Keeps H H') : Shows3 c H' r w where
  el := ⟨lt_of_lt_of_le s.el.1 k.np, (k.part _ s.el.1).trans s.el.2⟩
  ions := by
    refine ⟨fun i hi => lt_of_lt_of_le (s.ions.1 i hi) k.np, ?_⟩
    rw [← s.ions.2]
    cases h : r.ions with
    | none => rfl
    | some i => simp only [Option.map_some]; rw [k.part i (s.ions.1 i h)]
  fields := ⟨lt_of_lt_of_le s.fields.1 k.no, by rw [k.val _ s.fields.1]; exact s.fields.2⟩
  cur := ⟨lt_of_lt_of_le s.cur.1 k.nc, (k.cur _ s.cur.1).trans s.cur.2⟩
  ro0 := ⟨lt_of_lt_of_le s.ro0.1 k.ng, (k.grid _ s.ro0.1).trans s.ro0.2⟩

/-- The working copies: made after `H0`, different from each other, holding `p` and the old chaotic displacements. -/
structure Work (H0 H : Heap3) (w : W3) (fl : ℕ × Option ℕ) (p : List Ptl × Option (List Ptl)) : Prop where
  keeps : Keeps H0 H
  ok : H.Ok
  el : H0.np ≤ fl.1 ∧ fl.1 < H.np ∧ H.part fl.1 = ⟨p.1, w.chx, w.chy⟩
  ions : (∀ i, fl.2 = some i → H0.np ≤ i ∧ i < H.np ∧ i ≠ fl.1) ∧ (fl.2.map fun i => (H.part i).ps) = p.2
  same : fl.2.isSome = w.ions.isSome

/-- Steps that leave the working copies alone. -/
theorem Work.keep {H0 H H' : Heap3} {w : W3} {fl : ℕ × Option ℕ} {p : List Ptl × Option (List Ptl)} (k : Work H0 H w fl p) (h : Keeps H H') (ok : H'.Ok) : Work H0 H' w fl p where
  keeps := k.keeps.trans h
  ok := ok
  el := ⟨k.el.1, lt_of_lt_of_le k.el.2.1 h.np, (h.part _ k.el.2.1).trans k.el.2.2⟩
  ions := by
    refine ⟨fun i hi => ⟨(k.ions.1 i hi).1, lt_of_lt_of_le (k.ions.1 i hi).2.1 h.np, (k.ions.1 i hi).2.2⟩, ?_⟩
    rw [← k.ions.2]
    cases hf : fl.2 with
    | none => rfl
    | some i => simp only [Option.map_some]; rw [h.part i (k.ions.1 i hf).2.1]
  same := k.same

theorem freeSortH_keeps (c : SCfg) (a : ℕ) (H : Heap3) (hH : H.Ok) :
    Keeps H (freeSortH c a H).2 ∧ (freeSortH c a H).2.Ok ∧ (freeSortH c a H).1 = H.np ∧ (freeSortH c a H).2.np = H.np + 1 ∧
      (freeSortH c a H).2.part H.np = { H.part a with ps := (H.part a).ps.map (moveFree c.m.dxi) } := by
  obtain ⟨k1, k2, k3, k4, k5⟩ := newPart_keeps (H.part a) H hH
  have e : freeSortH c a H = (H.np, (setPart H.np { (newPart (H.part a) H).2.part H.np with ps := ((newPart (H.part a) H).2.part H.np).ps.map (moveFree c.m.dxi) } (newPart (H.part a) H).2).2) := rfl
  rw [e, k5]
  obtain ⟨m1, m2, m3, m4⟩ := setPart_keeps H.np { H.part a with ps := (H.part a).ps.map (moveFree c.m.dxi) } H _ k1 k2 le_rfl
  exact ⟨m1, m2, rfl, by rw [m4, k4], m3⟩

theorem freeH_work (c : SCfg) (r : Refs3) (w : W3) (H : Heap3) (hH : H.Ok) (hs : Shows3 c H r w) : Work H (freeH c r.el r.ions H).2 w (freeH c r.el r.ions H).1 (freeSorts c w) := by
  obtain ⟨k1, k2, k3, k4, k5⟩ := freeSortH_keeps c r.el H hH
  have hions := hs.ions
  generalize hi : r.ions = ri at hions ⊢
  cases ri with
  | none =>
    have e : freeH c r.el none H = (((freeSortH c r.el H).1, none), (freeSortH c r.el H).2) := rfl
    rw [e]
    refine ⟨k1, k2, ⟨by dsimp only; omega, by dsimp only; omega, ?_⟩, ⟨fun i hi => by simp at hi, ?_⟩, by rw [← hions.2]; rfl⟩
    · rw [k3, k5, hs.el.2]; rfl
    · simp only [freeSorts, ← hions.2, Option.map_none]
  | some i =>
    have e : freeH c r.el (some i) H = (((freeSortH c r.el H).1, some (freeSortH c i (freeSortH c r.el H).2).1), (freeSortH c i (freeSortH c r.el H).2).2) := rfl
    obtain ⟨m1, m2, m3, m4, m5⟩ := freeSortH_keeps c i _ k2
    rw [e]
    refine ⟨k1.trans m1, m2, ⟨by dsimp only; omega, by dsimp only; omega, ?_⟩, ⟨fun j hj => ?_, ?_⟩, by rw [← hions.2]; rfl⟩
    · rw [k3, m1.part _ (by omega), k5, hs.el.2]; rfl
    · simp only [Option.some.injEq] at hj
      dsimp only
      omega
    · simp only [freeSorts, ← hions.2, Option.map_some]
      rw [m3, m5, k1.part i (hions.1 i rfl)]

theorem pushH_work (c : SCfg) (f : ℕ) (r : Refs3) (w : W3) (fl : ℕ × Option ℕ) (p : List Ptl × Option (List Ptl)) (H0 H : Heap3) (hs : Shows3 c H0 r w) (k : Work H0 H w fl p) (hf : f < H.no) :
    Work H0 (pushH c f r.el r.ions fl H).2 w fl (pushSorts c (flds3Of (H.val f)) w p) ∧ (pushH c f r.el r.ions fl H).2.obj = H.obj ∧ (pushH c f r.el r.ions fl H).2.grid = H.grid ∧
      (pushH c f r.el r.ions fl H).2.cur = H.cur ∧ (pushH c f r.el r.ions fl H).2.no = H.no ∧ (pushH c f r.el r.ions fl H).2.ng = H.ng ∧
      (pushH c f r.el r.ions fl H).2.nc = H.nc ∧ (pushH c f r.el r.ions fl H).2.beam = H.beam := by
  have hsH := hs.keeps k.keeps
  obtain ⟨m1, m2, m3, m4⟩ := setPart_keeps fl.1 { H.part fl.1 with ps := moveSort c.m (flds3Of (H.val f)) (H.part r.el).ps (H.part fl.1).ps } H0 H k.keeps k.ok k.el.1
  have e1 : (pushSortH c (flds3Of (H.val f)) r.el fl.1 H).2 = (setPart fl.1 { H.part fl.1 with ps := moveSort c.m (flds3Of (H.val f)) (H.part r.el).ps (H.part fl.1).ps } H).2 := rfl
  have hel : (setPart fl.1 { H.part fl.1 with ps := moveSort c.m (flds3Of (H.val f)) (H.part r.el).ps (H.part fl.1).ps } H).2.part fl.1 =
      ⟨(pushSorts c (flds3Of (H.val f)) w p).1, w.chx, w.chy⟩ := by
    rw [m3, k.el.2.2, hsH.el.2]; rfl
  have hoth : ∀ i, i ≠ fl.1 → (setPart fl.1 { H.part fl.1 with ps := moveSort c.m (flds3Of (H.val f)) (H.part r.el).ps (H.part fl.1).ps } H).2.part i = H.part i :=
    fun i hi => Function.update_of_ne hi _ _
  have hion := k.ions
  have hrion := hs.ions
  unfold pushH
  rw [e1]
  dsimp only
  have hval : (setPart fl.1 { H.part fl.1 with ps := moveSort c.m (flds3Of (H.val f)) (H.part r.el).ps (H.part fl.1).ps } H).2.val f = H.val f := rfl
  have hH1 : (setPart fl.1 { H.part fl.1 with ps := moveSort c.m (flds3Of (H.val f)) (H.part r.el).ps (H.part fl.1).ps } H).2.obj = H.obj ∧
    (setPart fl.1 { H.part fl.1 with ps := moveSort c.m (flds3Of (H.val f)) (H.part r.el).ps (H.part fl.1).ps } H).2.grid = H.grid ∧
    (setPart fl.1 { H.part fl.1 with ps := moveSort c.m (flds3Of (H.val f)) (H.part r.el).ps (H.part fl.1).ps } H).2.cur = H.cur ∧
    (setPart fl.1 { H.part fl.1 with ps := moveSort c.m (flds3Of (H.val f)) (H.part r.el).ps (H.part fl.1).ps } H).2.no = H.no ∧
    (setPart fl.1 { H.part fl.1 with ps := moveSort c.m (flds3Of (H.val f)) (H.part r.el).ps (H.part fl.1).ps } H).2.ng = H.ng ∧
    (setPart fl.1 { H.part fl.1 with ps := moveSort c.m (flds3Of (H.val f)) (H.part r.el).ps (H.part fl.1).ps } H).2.nc = H.nc ∧
    (setPart fl.1 { H.part fl.1 with ps := moveSort c.m (flds3Of (H.val f)) (H.part r.el).ps (H.part fl.1).ps } H).2.beam = H.beam := ⟨rfl, rfl, rfl, rfl, rfl, rfl, rfl⟩
  rw [hval]
  generalize (setPart fl.1 { H.part fl.1 with ps := moveSort c.m (flds3Of (H.val f)) (H.part r.el).ps (H.part fl.1).ps } H).2 = H1 at m1 m2 m3 m4 hel hoth hH1 ⊢
  cases hfl : fl.2 with
  | none =>
    rw [hfl] at hion
    have hn : p.2 = none := by rw [← hion.2]; rfl
    have hm : (match r.ions, (none : Option ℕ) with
      | some i, some j => pushSortH c (flds3Of (H.val f)) i j H1
      | _, _ => ((), H1)) = ((), H1) := by cases r.ions <;> rfl
    rw [hm]
    refine ⟨⟨m1, m2, ⟨k.el.1, by rw [m4]; exact k.el.2.1, hel⟩, ⟨fun i hi => by rw [hfl] at hi; simp at hi, ?_⟩, k.same⟩, hH1⟩
    rw [hfl]
    simp only [pushSorts, hn, Option.map_none]
    cases w.ions <;> rfl
  | some j =>
    rw [hfl] at hion
    obtain ⟨j1, j2, j3⟩ := hion.1 j rfl
    have hp : p.2 = some (H.part j).ps := by rw [← hion.2]; rfl
    cases hri : r.ions with
    | none =>
      rw [hri] at hrion
      have hwi : w.ions = none := by rw [← hrion.2]; rfl
      have := k.same
      rw [hfl, hwi] at this
      simp at this
    | some i =>
      rw [hri] at hrion
      have hwi : w.ions = some (H0.part i).ps := by rw [← hrion.2]; rfl
      have hi0 := hrion.1 i rfl
      show Work H0 (pushSortH c (flds3Of (H.val f)) i j H1).2 w fl _ ∧ _
      obtain ⟨n1, n2, n3, n4⟩ := setPart_keeps j { H1.part j with ps := moveSort c.m (flds3Of (H.val f)) (H1.part i).ps (H1.part j).ps } H0 H1 m1 m2 j1
      have e2 : (pushSortH c (flds3Of (H.val f)) i j H1).2 = (setPart j { H1.part j with ps := moveSort c.m (flds3Of (H.val f)) (H1.part i).ps (H1.part j).ps } H1).2 := rfl
      refine ⟨⟨n1, n2, ⟨k.el.1, ?_, ?_⟩, ⟨fun i' hi' => ?_, ?_⟩, k.same⟩, hH1⟩
      · rw [e2, n4, m4]; exact k.el.2.1
      · rw [← hel]; exact Function.update_of_ne (Ne.symm j3) _ _
      · rw [hfl, Option.some.injEq] at hi'; subst hi'; rw [e2, n4, m4]; exact ⟨j1, j2, j3⟩
      · rw [hfl, e2]
        simp only [Option.map_some]
        rw [n3, hoth j j3, m1.part i hi0]
        simp only [pushSorts, hwi, hp]

theorem rhojH3_keeps (c : SCfg) (r : Refs3) (w : W3) (fl : ℕ × Option ℕ) (p : List Ptl × Option (List Ptl)) (H0 H : Heap3) (hs : Shows3 c H0 r w) (k : Work H0 H w fl p) :
    Keeps H (rhojH3 c fl r.ro0 H).2 ∧ (rhojH3 c fl r.ro0 H).2.Ok ∧ (rhojH3 c fl r.ro0 H).1 < (rhojH3 c fl r.ro0 H).2.nc ∧
      (rhojH3 c fl r.ro0 H).2.cur (rhojH3 c fl r.ro0 H).1 = rhojSorts c p := by
  obtain ⟨k1, k2, k3, k4, k5⟩ := newCur_keeps (computeRhoj c.m.N c.m.h (H.grid r.ro0) (H.part fl.1).ps (fl.2.map fun i => (H.part i).ps)) H k.ok
  refine ⟨k1, k2, by unfold rhojH3; rw [k3, k4]; exact Nat.lt_succ_self _, ?_⟩
  unfold rhojH3
  rw [k3, k5, (hs.keeps k.keeps).ro0.2, k.el.2.2, k.ions.2]
  rfl

theorem attrs3_all (i : Attr3) : i ∈ attrs3 := by cases i <;> decide

theorem fieldsH3_keeps (c : SCfg) (f prev b b' cp cu : ℕ) (H : Heap3) (hH : H.Ok) :
    Keeps H (fieldsH3 c f prev b b' cp cu H).2 ∧ (fieldsH3 c f prev b b' cp cu H).2.Ok ∧ (fieldsH3 c f prev b b' cp cu H).1.1 < (fieldsH3 c f prev b b' cp cu H).2.no ∧
      (fieldsH3 c f prev b b' cp cu H).1.2 < (fieldsH3 c f prev b b' cp cu H).2.no ∧
      flds3Of ((fieldsH3 c f prev b b' cp cu H).2.val (fieldsH3 c f prev b b' cp cu H).1.1) =
        (computeFields c.f (flds3Of (H.val f)) (flds3Of (H.val prev)) (H.beam b) (H.beam b') (H.cur cp) (H.cur cu)).1 ∧
      flds3Of ((fieldsH3 c f prev b b' cp cu H).2.val (fieldsH3 c f prev b b' cp cu H).1.2) =
        (computeFields c.f (flds3Of (H.val f)) (flds3Of (H.val prev)) (H.beam b) (H.beam b') (H.cur cp) (H.cur cu)).2 := by
  unfold fieldsH3
  dsimp only
  generalize computeFields c.f (flds3Of (H.val f)) (flds3Of (H.val prev)) (H.beam b) (H.beam b') (H.cur cp) (H.cur cu) = v
  obtain ⟨k1, k2, k3, k4, k5⟩ := newGroup_keeps attrs3 attrs3_all (attrs3Of v.1) H hH
  generalize newGroup attrs3 (attrs3Of v.1) H = a at k1 k2 k3 k4 k5 ⊢
  obtain ⟨m1, m2, m3, m4, m5⟩ := newGroup_keeps attrs3 attrs3_all (attrs3Of v.2) a.2 k2
  generalize newGroup attrs3 (attrs3Of v.2) a.2 = e at m1 m2 m3 m4 m5 ⊢
  refine ⟨k1.trans m1, m2, by omega, by omega, ?_, ?_⟩
  · rw [m1.val _ (by omega), k3, k5]; rfl
  · rw [m3, m5]; rfl

/-- C62 (3D solver): step_dxi, working on shared arrays and objects, returns references to the plasma state of the value model, and changes nothing that existed before it was called. -/
theorem stepDxiH3_shows (c : SCfg) (r : Refs3) (w : W3) (b b' : ℕ) (H : Heap3) (hH : H.Ok) (hs : Shows3 c H r w) (hb : b < H.nb) (hb' : b' < H.nb) :
    Keeps H (stepDxiH3 c r b b' H).2 ∧ (stepDxiH3 c r b b' H).2.Ok ∧ Shows3 c (stepDxiH3 c r b b' H).2 (stepDxiH3 c r b b' H).1 (stepDxi c w (H.beam b) (H.beam b')) := by
  have wk0 := freeH_work c r w H hH hs
  unfold stepDxiH3
  dsimp only
  generalize freeH c r.el r.ions H = fl at wk0 ⊢
  have s0 := hs.keeps wk0.keeps
  -- first push
  obtain ⟨wk1, -⟩ := pushH_work c r.fields r w fl.1 _ H fl.2 hs wk0 s0.fields.1
  rw [s0.fields.2] at wk1
  generalize (pushH c r.fields r.el r.ions fl.1 fl.2).2 = H1 at wk1 ⊢
  obtain ⟨a1, a2, a3, a4⟩ := rhojH3_keeps c r w fl.1 _ H H1 hs wk1
  have wj1 := wk1.keep a1 a2
  generalize rhojH3 c fl.1 r.ro0 H1 = j1 at a1 a2 a3 a4 wj1 ⊢
  have s1 := hs.keeps wj1.keeps
  obtain ⟨f1, f2, f3, f4, f5, f6⟩ := fieldsH3_keeps c r.fields r.fields b b' r.cur j1.1 j1.2 a2
  rw [s1.fields.2, wj1.keeps.beam b hb, wj1.keeps.beam b' hb', s1.cur.2, a4] at f5 f6
  have wf1 := wj1.keep f1 f2
  generalize fieldsH3 c r.fields r.fields b b' r.cur j1.1 j1.2 = g1 at f1 f2 f3 f4 f5 f6 wf1 ⊢
  -- second push
  obtain ⟨wk2, o2, g2', c2, n2, ng2, nc2, bm2⟩ := pushH_work c g1.1.2 r w fl.1 _ H g1.2 hs wf1 f4
  rw [f6] at wk2
  have hv2 : ∀ o, (pushH c g1.1.2 r.el r.ions fl.1 g1.2).2.val o = g1.2.val o := by
    intro o; funext i; unfold Heap.val; rw [o2, g2']
  generalize (pushH c g1.1.2 r.el r.ions fl.1 g1.2).2 = H2 at wk2 o2 g2' c2 n2 ng2 nc2 bm2 hv2 ⊢
  obtain ⟨b1, b2, b3, b4⟩ := rhojH3_keeps c r w fl.1 _ H H2 hs wk2
  have wj2 := wk2.keep b1 b2
  generalize rhojH3 c fl.1 r.ro0 H2 = j2 at b1 b2 b3 b4 wj2 ⊢
  have s2 := hs.keeps wj2.keeps
  obtain ⟨h1, h2, h3, h4, h5, h6⟩ := fieldsH3_keeps c g1.1.2 r.fields b b' r.cur j2.1 j2.2 b2
  have hg : flds3Of (j2.2.val g1.1.2) = (computeFields c.f w.F w.F (H.beam b) (H.beam b') w.cur (rhojSorts c (pushSorts c w.F w (freeSorts c w)))).2 := by
    rw [b1.val _ (by rw [n2]; exact f4), hv2, f6]
  rw [hg, s2.fields.2, wj2.keeps.beam b hb, wj2.keeps.beam b' hb', s2.cur.2, b4] at h5 h6
  have wf2 := wj2.keep h1 h2
  generalize fieldsH3 c g1.1.2 r.fields b b' r.cur j2.1 j2.2 = g2 at h1 h2 h3 h4 h5 h6 wf2 ⊢
  -- third push
  obtain ⟨wk3, o3, g3', c3, n3, ng3, nc3, bm3⟩ := pushH_work c g2.1.2 r w fl.1 _ H g2.2 hs wf2 h4
  rw [h6] at wk3
  have hv3 : ∀ o, (pushH c g2.1.2 r.el r.ions fl.1 g2.2).2.val o = g2.2.val o := by
    intro o; funext i; unfold Heap.val; rw [o3, g3']
  generalize (pushH c g2.1.2 r.el r.ions fl.1 g2.2).2 = H3 at wk3 o3 g3' c3 n3 ng3 nc3 bm3 hv3 ⊢
  have hF : g2.1.1 < H3.no ∧ flds3Of (H3.val g2.1.1) = (predictor c w (H.beam b) (H.beam b')).2.1 := ⟨by rw [n3]; exact h3, by rw [hv3, h5]; rfl⟩
  have hP : pushSorts c (computeFields c.f (computeFields c.f w.F w.F (H.beam b) (H.beam b') w.cur (rhojSorts c (pushSorts c w.F w (freeSorts c w)))).2 w.F (H.beam b) (H.beam b') w.cur
      (rhojSorts c (pushSorts c (computeFields c.f w.F w.F (H.beam b) (H.beam b') w.cur (rhojSorts c (pushSorts c w.F w (freeSorts c w)))).2 w (pushSorts c w.F w (freeSorts c w))))).2 w
      (pushSorts c (computeFields c.f w.F w.F (H.beam b) (H.beam b') w.cur (rhojSorts c (pushSorts c w.F w (freeSorts c w)))).2 w (pushSorts c w.F w (freeSorts c w))) =
      pushSorts c (predictor c w (H.beam b) (H.beam b')).2.2 w (predictor c w (H.beam b) (H.beam b')).1 := rfl
  rw [hP] at wk3
  have s3 := hs.keeps wk3.keeps
  unfold stepDxi
  dsimp only
  generalize pushSorts c (predictor c w (H.beam b) (H.beam b')).2.2 w (predictor c w (H.beam b) (H.beam b')).1 = p3 at wk3 ⊢
  generalize (predictor c w (H.beam b) (H.beam b')).2.1 = F at hF ⊢
  clear hP hv3 hv2 hg h1 h2 h3 h4 h5 h6 f1 f2 f3 f4 f5 f6 a1 a2 a3 a4 b1 b2 b3 b4 wf1 wf2 wj1 wj2 wk0 wk1 wk2 s0 s1 s2
  cases c.decl with
  | none =>
    obtain ⟨q1, q2, q3, q4⟩ := rhojH3_keeps c r w fl.1 p3 H H3 hs wk3
    have wj := wk3.keep q1 q2
    have sj := hs.keeps wj.keeps
    refine ⟨wj.keeps, q2, ⟨⟨wj.el.2.1, wj.el.2.2⟩, ⟨fun i hi => (wj.ions.1 i hi).2.1, wj.ions.2⟩, ⟨lt_of_lt_of_le hF.1 q1.no, ?_⟩, ⟨q3, q4⟩, sj.ro0⟩⟩
    show flds3Of ((rhojH3 c fl.1 r.ro0 H3).2.val g2.1.1) = F
    rw [q1.val _ hF.1]; exact hF.2
  | some d =>
    dsimp only
    have e : filterH d fl.1.1 r.el H3 = newPart ⟨((setPart fl.1.1 { H3.part fl.1.1 with ps := (filterSort d (H3.part fl.1.1).ps (H3.part r.el).chx (H3.part r.el).chy).1 } H3).2.part fl.1.1).ps,
      (filterSort d (H3.part fl.1.1).ps (H3.part r.el).chx (H3.part r.el).chy).2.1, (filterSort d (H3.part fl.1.1).ps (H3.part r.el).chx (H3.part r.el).chy).2.2⟩
      (setPart fl.1.1 { H3.part fl.1.1 with ps := (filterSort d (H3.part fl.1.1).ps (H3.part r.el).chx (H3.part r.el).chy).1 } H3).2 := rfl
    rw [e, wk3.el.2.2, s3.el.2]
    dsimp only
    generalize filterSort d p3.1 w.chx w.chy = ft
    obtain ⟨m1, m2, m3, m4⟩ := setPart_keeps fl.1.1 ⟨ft.1, w.chx, w.chy⟩ H H3 wk3.keeps wk3.ok wk3.el.1
    have hoth : ∀ i, i ≠ fl.1.1 → (setPart fl.1.1 ⟨ft.1, w.chx, w.chy⟩ H3).2.part i = H3.part i := fun i hi => Function.update_of_ne hi _ _
    have hv : (setPart fl.1.1 (⟨ft.1, w.chx, w.chy⟩ : Sort3) H3).2.val g2.1.1 = H3.val g2.1.1 := rfl
    have hn : (setPart fl.1.1 (⟨ft.1, w.chx, w.chy⟩ : Sort3) H3).2.no = H3.no := rfl
    rw [m3]
    dsimp only
    generalize (setPart fl.1.1 (⟨ft.1, w.chx, w.chy⟩ : Sort3) H3).2 = H4 at m1 m2 m3 m4 hoth hv hn ⊢
    obtain ⟨k1, k2, k3, k4, k5⟩ := newPart_keeps (⟨ft.1, ft.2.1, ft.2.2⟩ : Sort3) H4 m2
    generalize newPart (⟨ft.1, ft.2.1, ft.2.2⟩ : Sort3) H4 = nw at k1 k2 k3 k4 k5 ⊢
    have hions : (∀ i, fl.1.2 = some i → i < nw.2.np) ∧ (fl.1.2.map fun i => (nw.2.part i).ps) = p3.2 := by
      refine ⟨fun i hi => by have := (wk3.ions.1 i hi).2.1; omega, ?_⟩
      rw [← wk3.ions.2]
      cases hfl : fl.1.2 with
      | none => rfl
      | some i =>
        have := wk3.ions.1 i hfl
        simp only [Option.map_some]
        rw [k1.part i (by omega), hoth i this.2.2]
    have sn := hs.keeps (m1.trans k1)
    obtain ⟨q1, q2, q3, q4, q5⟩ := newCur_keeps (computeRhoj c.m.N c.m.h (nw.2.grid r.ro0) (nw.2.part nw.1).ps (fl.1.2.map fun i => (nw.2.part i).ps)) nw.2 k2
    have sj := sn.keeps q1
    have ej : rhojH3 c (nw.1, fl.1.2) r.ro0 nw.2 = newCur (computeRhoj c.m.N c.m.h (nw.2.grid r.ro0) (nw.2.part nw.1).ps (fl.1.2.map fun i => (nw.2.part i).ps)) nw.2 := rfl
    rw [ej]
    refine ⟨(m1.trans k1).trans q1, q2, ⟨⟨?_, ?_⟩, ⟨?_, ?_⟩, ⟨?_, ?_⟩, ⟨?_, ?_⟩, ?_⟩⟩
    · exact lt_of_lt_of_le (by omega : nw.1 < nw.2.np) q1.np
    · show (newCur _ nw.2).2.part nw.1 = _
      rw [q1.part _ (by omega), k3, k5]
    · exact fun i hi => lt_of_lt_of_le (hions.1 i hi) q1.np
    · rw [← hions.2]; rfl
    · exact lt_of_lt_of_le (by rw [hn]; exact hF.1) (k1.trans q1).no
    · show flds3Of ((newCur _ nw.2).2.val g2.1.1) = F
      rw [(k1.trans q1).val _ (by rw [hn]; exact hF.1), hv]; exact hF.2
    · dsimp only
      omega
    · dsimp only
      rw [q3, q5, sn.ro0.2, k3, k5, hions.2]
      rfl
    · exact sj.ro0

end Lcode.Mem
