import Verif.Mem.Heap
import Verif.Plasma2D.World

/-!
The 2D plasma solver as a program that works on a store: which arrays it makes, which it writes in place, which attributes it binds (lcode/plasma/solver.py, move.py, rhoj.py, fields.py).
`stepDxiH_shows`: the result is that of the value model `Plasma2D.stepDxi`, and nothing that existed before is changed. Property C62.
-/

namespace Lcode.Mem

open Plasma2D

/-! ### Model -/

/-- The attributes of `pl_fields` in 2D, plasma/initialization.py:53-54. -/
inductive Attr2 where
  | Er | Ef | Ez | Bf | Bz
deriving DecidableEq

/-- The order in which compute_fields treats them, fields.py:228-232. -/
def attrs2 : List Attr2 := [.Er, .Ef, .Ez, .Bf, .Bz]

/-- The store of a 2D simulation. -/
abbrev Heap2 := Heap (ℕ → ℝ) (List PPart) Currents (ℤ → ℝ) Attr2

/-- The values of the attributes, as a record. -/
def fldsOf (v : Attr2 → ℕ → ℝ) : Flds := ⟨v .Er, v .Ef, v .Ez, v .Bf, v .Bz⟩

/-- The record, by attribute. -/
def attrsOf (F : Flds) : Attr2 → ℕ → ℝ
  | .Er => F.Er
  | .Ef => F.Ef
  | .Ez => F.Ez
  | .Bf => F.Bf
  | .Bz => F.Bz

/-- Where the ions are: `particles['ions']`, or the array `const_arrays.ni` (plasma/initialization.py:69-90). -/
inductive IonsRef where
  | mobile (a : ℕ)
  | background (a : ℕ)

/-- Where the parts of a plasma state are: `particles['electrons']`, the ions, `fields`, `currents`. -/
structure Refs2 where
  el : ℕ
  ions : IonsRef
  fields : ℕ
  cur : ℕ

/-- The ions a reference shows. -/
def ionsOf (H : Heap2) : IonsRef → Ions
  | .mobile a => .mobile (H.part a)
  | .background a => .background (H.grid a)

/-- One sort in move_particles, move.py:226-233: the arrays are copied, and the copy is written in place. (The particle loop is taken as one write; it touches these arrays only.) -/
noncomputable def moveSortH (c : SolverCfg) (F : Flds) (noise : ℕ → ℝ) (step : ℝ) (a : ℕ) : Prog (ℕ → ℝ) (List PPart) Currents (ℤ → ℝ) Attr2 ℕ := fun H =>
  let b := newPart (H.part a) H
  let e : Env := ⟨c.M + 1, { F with Bz := fun i => F.Bz i + c.B0 }, noise, c.h, c.R⟩
  (b.1, (setPart b.1 ((b.2.part b.1).map (movePart e step)) b.2).2)

/-- move_particles, move.py:222-235: all sorts in `const_arrays.sorts`. -/
noncomputable def moveH (c : SolverCfg) (fields : ℕ) (noise : ℕ → ℝ) (step : ℝ) (el : ℕ) (ions : IonsRef) : Prog (ℕ → ℝ) (List PPart) Currents (ℤ → ℝ) Attr2 (ℕ × IonsRef) := fun H =>
  let a := moveSortH c (fldsOf (H.val fields)) noise step el H
  match ions with
  | .mobile i =>
    let b := moveSortH c (fldsOf (a.2.val fields)) noise step i a.2
    ((a.1, .mobile b.1), b.2)
  | .background i => ((a.1, .background i), a.2)

/-- compute_rhoj, rhoj.py:103-125: new arrays; `const_arrays.ni` is copied into row 1. -/
noncomputable def rhojH (c : SolverCfg) (el : ℕ) (ions : IonsRef) : Prog (ℕ → ℝ) (List PPart) Currents (ℤ → ℝ) Attr2 ℕ := fun H =>
  newCur (computeRhoj c.h c.ppc (c.M + 1) (H.part el) (ionsOf H ions)) H

/-- compute_fields, fields.py:233-253: the new fields from the argument `fields` after it has been averaged. -/
noncomputable def newFields (h : ℝ) (nr : ℕ) (fields : Flds) (rhoBeam : ℕ → ℝ) (curPrev cur : Currents) (dxi : ℝ) : Flds :=
  let pf : ℕ → ℝ := fun i => erPreviousFactor (cur.el.rho i) (cur.el.jr i) (cur.el.jf i) (cur.el.jz i)
  let er := computeEr (fun i => cur.sum Cur.rho i + rhoBeam i) (cur.sum Cur.jr) (curPrev.sum Cur.jr) fields.Er pf h dxi nr
  ⟨er, computeEf (cur.sum Cur.jf) (curPrev.sum Cur.jf) fields.Ef (fun _ => 1) h dxi nr, computeEz (cur.sum Cur.jr) h nr, computeBf (cur.sum Cur.rho) (cur.sum Cur.jz) er h,
    computeBz (cur.sum Cur.jf) h nr⟩

/-- compute_fields, fields.py:203-266: the attributes of the argument `fields` are bound to the averages; the new fields and the averages are new groups. -/
noncomputable def computeFieldsH (c : SolverCfg) (fields prev rhoBeam curPrev cur : ℕ) (step : ℝ) : Prog (ℕ → ℝ) (List PPart) Currents (ℤ → ℝ) Attr2 (ℕ × ℕ) := fun H =>
  let H1 := (averageInto avgArr fields prev attrs2 H).2
  let new := newGroup attrs2 (attrsOf (newFields c.h c.M (fldsOf (H1.val fields)) (fun n => H1.beam rhoBeam n) (H1.cur curPrev) (H1.cur cur) step)) H1
  let av := newGroup attrs2 (fun i => avgArr (new.2.val new.1 i) (new.2.val prev i)) new.2
  ((new.1, av.1), av.2)

/-- The predictor, solver.py:56-62: `particles_new` and `currents_new`. -/
noncomputable def predictH (c : SolverCfg) (r : Refs2) (step : ℝ) : Prog (ℕ → ℝ) (List PPart) Currents (ℤ → ℝ) Attr2 (ℕ × IonsRef × ℕ) := fun H =>
  let p := moveH c r.fields (noiseAmplitude (c.M + 1) (H.cur r.cur) c.decl) step r.el r.ions H
  let j := rhojH c p.1.1 p.1.2 p.2
  ((p.1.1, p.1.2, j.1), j.2)

/-- One turn of the corrector loop, solver.py:74-85. `r` is what the substep started from, `t` holds `particles_new`, `fields_new`, `currents_new`. -/
noncomputable def correctH (c : SolverCfg) (rhoBeam : ℕ) (r : Refs2) (step : ℝ) (t : Refs2) : Prog (ℕ → ℝ) (List PPart) Currents (ℤ → ℝ) Attr2 Refs2 := fun H =>
  let f := computeFieldsH c t.fields r.fields rhoBeam r.cur t.cur step H
  let p := moveH c f.1.2 (noiseAmplitude (c.M + 1) (f.2.cur t.cur) c.decl) step r.el r.ions f.2
  let j := rhojH c p.1.1 p.1.2 p.2
  (⟨p.1.1, p.1.2, f.1.1, j.1⟩, j.2)

/-- The corrector loop, solver.py:73-85. -/
noncomputable def correctLoopH (c : SolverCfg) (rhoBeam : ℕ) (r : Refs2) (step : ℝ) : ℕ → Refs2 → Prog (ℕ → ℝ) (List PPart) Currents (ℤ → ℝ) Attr2 Refs2
  | 0, t => fun H => (t, H)
  | k + 1, t => fun H =>
    let a := correctLoopH c rhoBeam r step k t H
    correctH c rhoBeam r step a.1 a.2

open Classical in
/-- solver.py:63-64, from the predicted currents. -/
noncomputable def tooFar (c : SolverCfg) (cur : Currents) (step : ℝ) : Bool := decide (∃ row ∈ cur.el :: cur.ions, ∃ i ≤ c.M, |step * row.jz i| > c.sens)

/-- The state of the loop: `particles`, `fields`, `currents`; `fields_new`; the store. -/
structure St2 where
  r : Refs2
  fnew : ℕ
  H : Heap2

/-- One turn of the loop of step_dxi, solver.py:47-96. A rejected predictor leaves its arrays behind and `fields_new` as it was. -/
noncomputable def turnH (c : SolverCfg) (rhoBeam : ℕ) : Conf St2 → Conf St2
  | .done s => .done s
  | .go s =>
    let p := predictH c s.w.r s.step s.w.H
    if tooFar c (p.2.cur p.1.2.2) s.step && decide (s.depth < c.depth) then
      .go ⟨⟨s.w.r, s.w.fnew, p.2⟩, s.depth + 1, Function.update s.state (s.depth + 1) 10, s.step / 10⟩
    else
      let t := correctLoopH c rhoBeam s.w.r s.step c.corrector ⟨p.1.1, p.1.2.1, s.w.fnew, p.1.2.2⟩ p.2
      afterAccept ⟨t.1, t.1.fields, t.2⟩ s.depth s.state s.step

/-- step_dxi, solver.py:38-98 (trapped-path-limit = 0): `fields_new = fields` at the start. -/
noncomputable def stepDxiH (c : SolverCfg) (rhoBeam : ℕ) (L : ℝ) (r : Refs2) (H : Heap2) : Conf St2 := (turnH c rhoBeam)^[turns c.depth] (startLayer ⟨r, r.fields, H⟩ L)

/-! ### Specification -/

/-- The reference is to something that exists. -/
def IonsRef.In (H : Heap2) : IonsRef → Prop
  | .mobile a => a < H.np
  | .background a => a < H.ng

/-- The references show the plasma state `w`. -/
structure Shows2 (H : Heap2) (r : Refs2) (w : World) : Prop where
  el : r.el < H.np ∧ H.part r.el = w.el
  ions : r.ions.In H ∧ ionsOf H r.ions = w.ions
  fields : r.fields < H.no ∧ fldsOf (H.val r.fields) = w.F
  cur : r.cur < H.nc ∧ H.cur r.cur = w.cur

/-! ### C62 for the 2D solver -/

theorem ionsOf_keeps {H H' : Heap2} (k : Keeps H H') (i : IonsRef) (hi : i.In H) :
    i.In H' ∧ ionsOf H' i = ionsOf H i := by
  cases i with
  | mobile a => exact ⟨lt_of_lt_of_le hi k.np, by simp only [ionsOf]; rw [k.part a hi]⟩
  | background a => exact ⟨lt_of_lt_of_le hi k.ng, by simp only [ionsOf]; rw [k.grid a hi]⟩

/-- What is shown stays shown while everything is kept. -/
theorem Shows2.keeps {H H' : Heap2} {r : Refs2} {w : World} (s : Shows2 H r w) (k : Keeps H H') : Shows2 H' r w where
  el := ⟨lt_of_lt_of_le s.el.1 k.np, (k.part _ s.el.1).trans s.el.2⟩
  ions := ⟨(ionsOf_keeps k r.ions s.ions.1).1, (ionsOf_keeps k r.ions s.ions.1).2.trans s.ions.2⟩
  fields := ⟨lt_of_lt_of_le s.fields.1 k.no, by rw [k.val _ s.fields.1]; exact s.fields.2⟩
  cur := ⟨lt_of_lt_of_le s.cur.1 k.nc, (k.cur _ s.cur.1).trans s.cur.2⟩

theorem attrs2_all (i : Attr2) : i ∈ attrs2 := by cases i <;> decide

theorem avg_self (x : ℕ → ℝ) : avgArr x x = x := by
  funext i
  simp only [avgArr, add_self_div_two]

theorem fldsOf_attrsOf (F : Flds) : fldsOf (attrsOf F) = F := rfl

theorem moveSortH_keeps (c : SolverCfg) (F : Flds) (noise : ℕ → ℝ) (step : ℝ) (a : ℕ) (H : Heap2) (hH : H.Ok) :
    Keeps H (moveSortH c F noise step a H).2 ∧ (moveSortH c F noise step a H).2.Ok ∧ (moveSortH c F noise step a H).1 < (moveSortH c F noise step a H).2.np ∧
      (moveSortH c F noise step a H).2.part (moveSortH c F noise step a H).1 =
        (H.part a).map (movePart ⟨c.M + 1, { F with Bz := fun i => F.Bz i + c.B0 }, noise, c.h, c.R⟩ step) := by
  obtain ⟨k1, k2, k3, k4, k5⟩ := newPart_keeps (H.part a) H hH
  have e : moveSortH c F noise step a H = (H.np, (setPart H.np (((newPart (H.part a) H).2.part H.np).map
      (movePart ⟨c.M + 1, { F with Bz := fun i => F.Bz i + c.B0 }, noise, c.h, c.R⟩ step)) (newPart (H.part a) H).2).2) := rfl
  rw [e, k5]
  obtain ⟨m1, m2, m3, m4⟩ := setPart_keeps H.np ((H.part a).map (movePart ⟨c.M + 1, { F with Bz := fun i => F.Bz i + c.B0 }, noise, c.h, c.R⟩ step)) H _ k1 k2 le_rfl
  exact ⟨m1, m2, by rw [m4, k4]; exact Nat.lt_succ_self _, m3⟩

theorem moveH_keeps (c : SolverCfg) (f : ℕ) (noise : ℕ → ℝ) (step : ℝ) (el : ℕ) (ions : IonsRef) (H : Heap2) (hH : H.Ok) (hf : f < H.no) (hel : el < H.np)
    (hi : ions.In H) :
    Keeps H (moveH c f noise step el ions H).2 ∧ (moveH c f noise step el ions H).2.Ok ∧ (moveH c f noise step el ions H).1.1 < (moveH c f noise step el ions H).2.np ∧
      (moveH c f noise step el ions H).1.2.In (moveH c f noise step el ions H).2 ∧
      (moveH c f noise step el ions H).2.part (moveH c f noise step el ions H).1.1 = (moveAll c (fldsOf (H.val f)) noise step (H.part el) (ionsOf H ions)).1 ∧
      ionsOf (moveH c f noise step el ions H).2 (moveH c f noise step el ions H).1.2 = (moveAll c (fldsOf (H.val f)) noise step (H.part el) (ionsOf H ions)).2 := by
  obtain ⟨k1, k2, k3, k4⟩ := moveSortH_keeps c (fldsOf (H.val f)) noise step el H hH
  cases ions with
  | background a =>
    have e : moveH c f noise step el (.background a) H = (((moveSortH c (fldsOf (H.val f)) noise step el H).1, .background a), (moveSortH c (fldsOf (H.val f)) noise step el H).2) := rfl
    rw [e]
    refine ⟨k1, k2, k3, lt_of_lt_of_le hi k1.ng, k4, ?_⟩
    simp only [ionsOf, moveAll]
    rw [k1.grid a hi]
  | mobile a =>
    obtain ⟨m1, m2, m3, m4⟩ := moveSortH_keeps c (fldsOf ((moveSortH c (fldsOf (H.val f)) noise step el H).2.val f)) noise step a _ k2
    have e : moveH c f noise step el (.mobile a) H = (((moveSortH c (fldsOf (H.val f)) noise step el H).1,
      .mobile (moveSortH c (fldsOf ((moveSortH c (fldsOf (H.val f)) noise step el H).2.val f)) noise step a (moveSortH c (fldsOf (H.val f)) noise step el H).2).1),
      (moveSortH c (fldsOf ((moveSortH c (fldsOf (H.val f)) noise step el H).2.val f)) noise step a (moveSortH c (fldsOf (H.val f)) noise step el H).2).2) := rfl
    rw [e]
    rw [k1.val f hf] at m1 m2 m3 m4 ⊢
    rw [k1.part a hi] at m4
    refine ⟨k1.trans m1, m2, lt_of_lt_of_le k3 m1.np, m3, ?_, ?_⟩
    · rw [m1.part _ k3, k4]; rfl
    · simp only [ionsOf, moveAll]
      rw [m4]

theorem rhojH_keeps (c : SolverCfg) (el : ℕ) (ions : IonsRef) (H : Heap2) (hH : H.Ok) :
    Keeps H (rhojH c el ions H).2 ∧ (rhojH c el ions H).2.Ok ∧ (rhojH c el ions H).1 < (rhojH c el ions H).2.nc ∧
      (rhojH c el ions H).2.cur (rhojH c el ions H).1 = computeRhoj c.h c.ppc (c.M + 1) (H.part el) (ionsOf H ions) := by
  obtain ⟨k1, k2, k3, k4, k5⟩ := newCur_keeps (computeRhoj c.h c.ppc (c.M + 1) (H.part el) (ionsOf H ions)) H hH
  exact ⟨k1, k2, by unfold rhojH; rw [k3, k4]; exact Nat.lt_succ_self _, k5⟩

theorem predictH_shows (c : SolverCfg) (r : Refs2) (w : World) (step : ℝ) (H : Heap2) (hH : H.Ok) (hs : Shows2 H r w) (fnew : ℕ) (hf : fnew = r.fields) :
    Keeps H (predictH c r step H).2 ∧ (predictH c r step H).2.Ok ∧
      Shows2 (predictH c r step H).2 ⟨(predictH c r step H).1.1, (predictH c r step H).1.2.1, fnew, (predictH c r step H).1.2.2⟩ (predict c w step) := by
  obtain ⟨k1, k2, k3, k4, k5, k6⟩ := moveH_keeps c r.fields (noiseAmplitude (c.M + 1) (H.cur r.cur) c.decl) step r.el r.ions H hH hs.fields.1 hs.el.1 hs.ions.1
  unfold predictH
  dsimp only
  generalize moveH c r.fields (noiseAmplitude (c.M + 1) (H.cur r.cur) c.decl) step r.el r.ions H = p at k1 k2 k3 k4 k5 k6 ⊢
  obtain ⟨j1, j2, j3, j4⟩ := rhojH_keeps c p.1.1 p.1.2 p.2 k2
  obtain ⟨i1, i2⟩ := ionsOf_keeps j1 p.1.2 k4
  rw [hs.el.2, hs.ions.2, hs.fields.2, hs.cur.2] at k5 k6
  refine ⟨k1.trans j1, j2, ⟨⟨lt_of_lt_of_le k3 j1.np, by rw [j1.part _ k3, k5]; rfl⟩, ⟨i1, by rw [i2, k6]; rfl⟩, ?_, ⟨j3, by rw [j4, k5, k6]; rfl⟩⟩⟩
  subst hf
  exact (hs.keeps (k1.trans j1)).fields

/-- compute_fields: nothing older than `H0` changes if `fields` is `prev` or newer than `H0`; the results are new groups with the values of the value model. -/
theorem computeFieldsH_keeps (c : SolverCfg) (f prev rho curPrev cur : ℕ) (step : ℝ) (H0 H : Heap2) (h0 : Keeps H0 H) (hH : H.Ok) (hf : f < H.no) (hp : prev < H.no)
    (hfp : f = prev ∨ H0.no ≤ f) :
    Keeps H0 (computeFieldsH c f prev rho curPrev cur step H).2 ∧ (computeFieldsH c f prev rho curPrev cur step H).2.Ok ∧
      H.no ≤ (computeFieldsH c f prev rho curPrev cur step H).1.1 ∧
      (computeFieldsH c f prev rho curPrev cur step H).1.1 < (computeFieldsH c f prev rho curPrev cur step H).2.no ∧
      (computeFieldsH c f prev rho curPrev cur step H).1.2 < (computeFieldsH c f prev rho curPrev cur step H).2.no ∧
      fldsOf ((computeFieldsH c f prev rho curPrev cur step H).2.val (computeFieldsH c f prev rho curPrev cur step H).1.1) =
        (computeFields c.h c.M (fldsOf (H.val f)) (fldsOf (H.val prev)) (fun n => H.beam rho n) (H.cur curPrev) (H.cur cur) step).1 ∧
      fldsOf ((computeFieldsH c f prev rho curPrev cur step H).2.val (computeFieldsH c f prev rho curPrev cur step H).1.2) =
        (computeFields c.h c.M (fldsOf (H.val f)) (fldsOf (H.val prev)) (fun n => H.beam rho n) (H.cur curPrev) (H.cur cur) step).2.1 ∧
      H.nc ≤ (computeFieldsH c f prev rho curPrev cur step H).2.nc ∧ (∀ a < H.nc, (computeFieldsH c f prev rho curPrev cur step H).2.cur a = H.cur a) := by
  obtain ⟨a1, a2, a3, a4, -, a6, a7, a8, a9, a10, a11, a12, -, -⟩ := averageInto_keeps avgArr avg_self f prev attrs2 (by decide) H0 H h0 hH hf hp hfp
  unfold computeFieldsH
  dsimp only
  generalize (averageInto avgArr f prev attrs2 H).2 = H1 at a1 a2 a3 a4 a6 a7 a8 a9 a10 a11 a12 ⊢
  have hprev : H1.val prev = H.val prev := by
    by_cases e : prev = f
    · subst e
      funext i
      rw [a4 i (attrs2_all i), avg_self]
    · exact a6 prev hp e
  have hval : fldsOf (H1.val f) = (fldsOf (H.val f)).avg (fldsOf (H.val prev)) := by
    unfold fldsOf Flds.avg
    dsimp only
    rw [a4 .Er (by decide), a4 .Ef (by decide), a4 .Ez (by decide), a4 .Bf (by decide), a4 .Bz (by decide)]
  obtain ⟨n1, n2, n3, n4, n5⟩ := newGroup_keeps attrs2 attrs2_all (attrsOf (newFields c.h c.M (fldsOf (H1.val f)) (fun n => H1.beam rho n) (H1.cur curPrev) (H1.cur cur) step)) H1 a2
  have hnew : newFields c.h c.M (fldsOf (H1.val f)) (fun n => H1.beam rho n) (H1.cur curPrev) (H1.cur cur) step =
      (computeFields c.h c.M (fldsOf (H.val f)) (fldsOf (H.val prev)) (fun n => H.beam rho n) (H.cur curPrev) (H.cur cur) step).1 := by
    rw [hval, a9, a8]; rfl
  rw [hnew] at n1 n2 n3 n4 n5 ⊢
  generalize hF : computeFields c.h c.M (fldsOf (H.val f)) (fldsOf (H.val prev)) (fun n => H.beam rho n) (H.cur curPrev) (H.cur cur) step = F at n1 n2 n3 n4 n5 ⊢
  have hF2 : F.2.1 = F.1.avg (fldsOf (H.val prev)) := by rw [← hF]; rfl
  generalize newGroup attrs2 (attrsOf F.1) H1 = nw at n1 n2 n3 n4 n5 ⊢
  obtain ⟨m1, m2, m3, m4, m5⟩ := newGroup_keeps attrs2 attrs2_all (fun i => avgArr (nw.2.val nw.1 i) (nw.2.val prev i)) nw.2 n2
  generalize newGroup attrs2 (fun i => avgArr (nw.2.val nw.1 i) (nw.2.val prev i)) nw.2 = av at m1 m2 m3 m4 m5 ⊢
  have hn : nw.1 < nw.2.no := by omega
  refine ⟨(a1.trans n1).trans m1, m2, by omega, by omega, by omega, ?_, ?_, ?_, ?_⟩
  · rw [m1.val _ hn, n3, n5]; rfl
  · rw [m3, m5, n3, n5, n1.val prev (by omega), hprev, hF2]; rfl
  · exact le_trans (le_of_eq a11.symm) (n1.trans m1).nc
  · intro a ha
    rw [(n1.trans m1).cur a (by omega), a8]

/-- One turn of the corrector loop. -/
theorem correctH_shows (c : SolverCfg) (rho : ℕ) (r : Refs2) (w : World) (step : ℝ) (t : Refs2) (tw : World) (H0 H : Heap2) (h0 : Keeps H0 H) (hH : H.Ok) (hr : Shows2 H0 r w)
    (hb : rho < H0.nb) (ht : Shows2 H t tw) (hft : t.fields = r.fields ∨ H0.no ≤ t.fields) :
    Keeps H0 (correctH c rho r step t H).2 ∧ (correctH c rho r step t H).2.Ok ∧ (((correctH c rho r step t H).1.fields = r.fields) ∨ H0.no ≤ (correctH c rho r step t H).1.fields) ∧
      Shows2 (correctH c rho r step t H).2 (correctH c rho r step t H).1 (correct c (fun n => H0.beam rho n) w step tw) := by
  have hr' := hr.keeps h0
  obtain ⟨f1, f2, f3, f4, f5, f6, f7, f8, f9⟩ := computeFieldsH_keeps c t.fields r.fields rho r.cur t.cur step H0 H h0 hH ht.fields.1 hr'.fields.1 hft
  unfold correctH
  dsimp only
  generalize computeFieldsH c t.fields r.fields rho r.cur t.cur step H = f at f1 f2 f3 f4 f5 f6 f7 f8 f9 ⊢
  have hrf := hr.keeps f1
  rw [ht.fields.2, hr'.fields.2, h0.beam rho hb, hr'.cur.2, ht.cur.2] at f6 f7
  have hcur : f.2.cur t.cur = tw.cur := (f9 _ ht.cur.1).trans ht.cur.2
  rw [hcur]
  obtain ⟨k1, k2, k3, k4, k5, k6⟩ := moveH_keeps c f.1.2 (noiseAmplitude (c.M + 1) tw.cur c.decl) step r.el r.ions f.2 f2 f5 hrf.el.1 hrf.ions.1
  generalize moveH c f.1.2 (noiseAmplitude (c.M + 1) tw.cur c.decl) step r.el r.ions f.2 = p at k1 k2 k3 k4 k5 k6 ⊢
  rw [f7, hrf.el.2, hrf.ions.2] at k5 k6
  obtain ⟨j1, j2, j3, j4⟩ := rhojH_keeps c p.1.1 p.1.2 p.2 k2
  obtain ⟨i1, i2⟩ := ionsOf_keeps j1 p.1.2 k4
  refine ⟨(f1.trans k1).trans j1, j2, Or.inr (le_trans h0.no f3), ⟨⟨lt_of_lt_of_le k3 j1.np, by rw [j1.part _ k3, k5]; rfl⟩, ⟨i1, by rw [i2, k6]; rfl⟩,
    ⟨lt_of_lt_of_le f4 (k1.trans j1).no, ?_⟩, ⟨j3, by rw [j4, k5, k6]; rfl⟩⟩⟩
  show fldsOf ((rhojH c p.1.1 p.1.2 p.2).2.val f.1.1) = _
  rw [(k1.trans j1).val _ f4, f6]
  rfl

theorem correctLoopH_shows (c : SolverCfg) (rho : ℕ) (r : Refs2) (w : World) (step : ℝ) (k : ℕ) (t : Refs2) (tw : World) (H0 H : Heap2) (h0 : Keeps H0 H) (hH : H.Ok) (hr : Shows2 H0 r w)
    (hb : rho < H0.nb) (ht : Shows2 H t tw) (hft : t.fields = r.fields ∨ H0.no ≤ t.fields) :
    Keeps H0 (correctLoopH c rho r step k t H).2 ∧ (correctLoopH c rho r step k t H).2.Ok ∧
      (((correctLoopH c rho r step k t H).1.fields = r.fields) ∨ H0.no ≤ (correctLoopH c rho r step k t H).1.fields) ∧
      Shows2 (correctLoopH c rho r step k t H).2 (correctLoopH c rho r step k t H).1 ((correct c (fun n => H0.beam rho n) w step)^[k] tw) := by
  induction k with
  | zero => exact ⟨h0, hH, hft, ht⟩
  | succ k ih =>
    obtain ⟨i1, i2, i3, i4⟩ := ih
    have e : correctLoopH c rho r step (k + 1) t H = correctH c rho r step (correctLoopH c rho r step k t H).1 (correctLoopH c rho r step k t H).2 := rfl
    rw [e, Function.iterate_succ_apply']
    exact correctH_shows c rho r w step _ _ H0 _ i1 i2 hr hb i4 i3

/-- The two loops are at corresponding places. -/
inductive ConfRel (H0 : Heap2) : Conf St2 → Conf World → Prop
  | done (s : St2) (w : World) (k : Keeps H0 s.H) (ok : s.H.Ok) (sh : Shows2 s.H s.r w) (hf : s.fnew = s.r.fields) : ConfRel H0 (.done s) (.done w)
  | go (s : St2) (w : World) (d : ℕ) (st : ℕ → ℤ) (x : ℝ) (k : Keeps H0 s.H) (ok : s.H.Ok) (sh : Shows2 s.H s.r w) (hf : s.fnew = s.r.fields) :
      ConfRel H0 (.go ⟨s, d, st, x⟩) (.go ⟨w, d, st, x⟩)

theorem turnH_rel (c : SolverCfg) (rho : ℕ) (H0 : Heap2) (hb : rho < H0.nb) (a : Conf St2) (b : Conf World) (h : ConfRel H0 a b) :
    ConfRel H0 (turnH c rho a) (turn (needRefine c) (advance c fun n => H0.beam rho n) c.depth b) := by
  cases h with
  | done s w k ok sh hf => exact ConfRel.done s w k ok sh hf
  | go s w d st x k ok sh hf =>
    obtain ⟨p1, p2, p3⟩ := predictH_shows c s.r w x s.H ok sh s.fnew hf
    have hneed : tooFar c ((predictH c s.r x s.H).2.cur (predictH c s.r x s.H).1.2.2) x = needRefine c w x := by
      rw [p3.cur.2]; rfl
    unfold turnH turn
    dsimp only
    rw [hneed]
    by_cases hn : (needRefine c w x && decide (d < c.depth)) = true
    · rw [if_pos hn, if_pos hn]
      exact ConfRel.go ⟨s.r, s.fnew, _⟩ w _ _ _ (k.trans p1) p2 (sh.keeps p1) hf
    · rw [if_neg hn, if_neg hn]
      obtain ⟨q1, q2, q3, q4⟩ := correctLoopH_shows c rho s.r w x c.corrector _ _ s.H _ p1 p2 sh (lt_of_lt_of_le hb k.nb) p3 (Or.inl hf)
      rw [k.beam rho hb] at q4
      generalize correctLoopH c rho s.r x c.corrector ⟨(predictH c s.r x s.H).1.1, (predictH c s.r x s.H).1.2.1, s.fnew, (predictH c s.r x s.H).1.2.2⟩ (predictH c s.r x s.H).2 = t at q1 q2 q3 q4 ⊢
      unfold afterAccept
      dsimp only
      by_cases hz : (popLevels d st x).1 = 0
      · rw [if_pos hz, if_pos hz]
        exact ConfRel.done ⟨t.1, t.1.fields, t.2⟩ _ (k.trans q1) q2 q4 rfl
      · rw [if_neg hz, if_neg hz]
        exact ConfRel.go ⟨t.1, t.1.fields, t.2⟩ _ _ _ _ (k.trans q1) q2 q4 rfl

/-- C62 (2D solver): step_dxi, working on shared arrays and objects, returns references to the plasma state of the value model, and changes nothing that existed before it was called -
neither the arrays of the old particles and currents, nor those of the beam density, nor anything that refers to the old fields. -/
theorem stepDxiH_shows (c : SolverCfg) (rho : ℕ) (L : ℝ) (r : Refs2) (w : World) (H : Heap2) (hH : H.Ok) (hr : Shows2 H r w) (hb : rho < H.nb) :
    ∃ s : St2, ∃ w' : World, stepDxiH c rho L r H = .done s ∧ stepDxi c (fun n => H.beam rho n) L w = .done w' ∧ Keeps H s.H ∧ s.H.Ok ∧ Shows2 s.H s.r w' := by
  have key : ∀ n, ConfRel H ((turnH c rho)^[n] (startLayer ⟨r, r.fields, H⟩ L)) ((turn (needRefine c) (advance c fun n => H.beam rho n) c.depth)^[n] (startLayer w L)) := by
    intro n
    induction n with
    | zero => exact ConfRel.go ⟨r, r.fields, H⟩ w _ _ _ (Keeps.refl H) hH hr rfl
    | succ n ih =>
      rw [Function.iterate_succ_apply', Function.iterate_succ_apply']
      exact turnH_rel c rho H hb _ _ ih
  obtain ⟨xs, hx, -⟩ := stepDxi_covered c (fun n => H.beam rho n) L w
  have := key (turns c.depth)
  unfold stepDxi at hx
  rw [hx] at this
  generalize ha : (turnH c rho)^[turns c.depth] (startLayer ⟨r, r.fields, H⟩ L) = a at this
  generalize hb : xs.foldl (advance c fun n => H.beam rho n) w = w' at this
  cases this with
  | done s _ k ok sh hf =>
    refine ⟨s, w', ha, ?_, k, ok, sh⟩
    unfold stepDxi
    rw [hx, hb]

end Lcode.Mem
