import Mathlib.Logic.Function.Basic
import Mathlib.Data.Real.Basic

/-!
A store of arrays and objects, as Python has it: names refer to objects, objects refer to arrays, an array can be written in place, an attribute can be bound to another array,
and two names can refer to the same thing. Elsewhere in this development arrays are values; here it is shown that this is justified (property C62).

`G` is the type of grid arrays of the plasma, `P` that of the arrays of one sort of plasma particles (bundled: the code copies and moves them together), `C` that of a group of currents,
`B` that of the beam density arrays, `ι` the attribute names of a group of fields. The four kinds have separate addresses.
-/

namespace Lcode.Mem

variable {G P C B ι : Type}

/-- The store: contents by address, and the first free address of each kind. -/
structure Heap (G P C B ι : Type) where
  grid : ℕ → G
  ng : ℕ
  part : ℕ → P
  np : ℕ
  cur : ℕ → C
  nc : ℕ
  beam : ℕ → B
  nb : ℕ
  obj : ℕ → ι → ℕ
  no : ℕ

/-- A program: it returns a result and changes the store. -/
abbrev Prog (G P C B ι : Type) (α : Type) := Heap G P C B ι → α × Heap G P C B ι

/-- One program after the other. -/
def Prog.bind {α β : Type} (p : Prog G P C B ι α) (f : α → Prog G P C B ι β) : Prog G P C B ι β := fun H => let r := p H; f r.1 r.2

/-- A new grid array with the contents `v` (`xp.array`, `xp.zeros`, the result of an arithmetic expression). -/
def newGrid (v : G) : Prog G P C B ι ℕ := fun H => (H.ng, { H with grid := Function.update H.grid H.ng v, ng := H.ng + 1 })

/-- New particle arrays. -/
def newPart (v : P) : Prog G P C B ι ℕ := fun H => (H.np, { H with part := Function.update H.part H.np v, np := H.np + 1 })

/-- Particle arrays written in place. -/
def setPart (a : ℕ) (v : P) : Prog G P C B ι Unit := fun H => ((), { H with part := Function.update H.part a v })

/-- A new group of currents. -/
def newCur (v : C) : Prog G P C B ι ℕ := fun H => (H.nc, { H with cur := Function.update H.cur H.nc v, nc := H.nc + 1 })

/-- A new beam density array. -/
def newBeam (v : B) : Prog G P C B ι ℕ := fun H => (H.nb, { H with beam := Function.update H.beam H.nb v, nb := H.nb + 1 })

/-- A beam density array written in place. -/
def setBeam (a : ℕ) (v : B) : Prog G P C B ι Unit := fun H => ((), { H with beam := Function.update H.beam a v })

/-- A new group of fields whose attributes refer to the given arrays. -/
def newObj (as : ι → ℕ) : Prog G P C B ι ℕ := fun H => (H.no, { H with obj := Function.update H.obj H.no as, no := H.no + 1 })

/-- `o.i = array`: the attribute `i` of `o` is bound to another array. -/
def setAttr [DecidableEq ι] (o : ℕ) (i : ι) (a : ℕ) : Prog G P C B ι Unit := fun H => ((), { H with obj := Function.update H.obj o (Function.update (H.obj o) i a) })

/-- The contents of the attribute `i` of `o`. -/
def Heap.val (H : Heap G P C B ι) (o : ℕ) (i : ι) : G := H.grid (H.obj o i)

/-! ### What a program leaves alone -/

/-- Every object refers to arrays that exist. -/
def Heap.Ok (H : Heap G P C B ι) : Prop := ∀ o < H.no, ∀ i, H.obj o i < H.ng

/-- Everything that existed before is as it was: every array has its old contents, every group of fields shows its old values (its attributes may refer to other arrays with the same contents). -/
structure Keeps (H H' : Heap G P C B ι) : Prop where
  ng : H.ng ≤ H'.ng
  np : H.np ≤ H'.np
  nc : H.nc ≤ H'.nc
  nb : H.nb ≤ H'.nb
  no : H.no ≤ H'.no
  grid : ∀ a < H.ng, H'.grid a = H.grid a
  part : ∀ a < H.np, H'.part a = H.part a
  cur : ∀ a < H.nc, H'.cur a = H.cur a
  beam : ∀ a < H.nb, H'.beam a = H.beam a
  val : ∀ o < H.no, H'.val o = H.val o

theorem Keeps.refl (H : Heap G P C B ι) : Keeps H H :=
  ⟨le_rfl, le_rfl, le_rfl, le_rfl, le_rfl, fun _ _ => rfl, fun _ _ => rfl, fun _ _ => rfl, fun _ _ => rfl, fun _ _ => rfl⟩

theorem Keeps.trans {H H' H'' : Heap G P C B ι} (h : Keeps H H') (k : Keeps H' H'') : Keeps H H'' where
  ng := h.ng.trans k.ng
  np := h.np.trans k.np
  nc := h.nc.trans k.nc
  nb := h.nb.trans k.nb
  no := h.no.trans k.no
  grid a ha := (k.grid a (lt_of_lt_of_le ha h.ng)).trans (h.grid a ha)
  part a ha := (k.part a (lt_of_lt_of_le ha h.np)).trans (h.part a ha)
  cur a ha := (k.cur a (lt_of_lt_of_le ha h.nc)).trans (h.cur a ha)
  beam a ha := (k.beam a (lt_of_lt_of_le ha h.nb)).trans (h.beam a ha)
  val o ho := (k.val o (lt_of_lt_of_le ho h.no)).trans (h.val o ho)

theorem newGrid_keeps (v : G) (H : Heap G P C B ι) (hH : H.Ok) : Keeps H (newGrid v H).2 ∧ (newGrid v H).2.Ok ∧ (newGrid v H).1 = H.ng ∧
    (newGrid v H).2.ng = H.ng + 1 ∧ (newGrid v H).2.no = H.no ∧ (newGrid v H).2.obj = H.obj ∧ (newGrid v H).2.grid H.ng = v := by
  have old : ∀ a < H.ng, Function.update H.grid H.ng v a = H.grid a := fun a ha => Function.update_of_ne (by omega) _ _
  refine ⟨⟨Nat.le_succ _, le_rfl, le_rfl, le_rfl, le_rfl, old, fun _ _ => rfl, fun _ _ => rfl, fun _ _ => rfl, fun o ho => ?_⟩, ?_, rfl, rfl, rfl, rfl, Function.update_self _ _ _⟩
  · funext i; exact old _ (hH o ho i)
  · intro o ho i; exact Nat.lt_succ_of_lt (hH o ho i)

theorem newPart_keeps (v : P) (H : Heap G P C B ι) (hH : H.Ok) : Keeps H (newPart v H).2 ∧ (newPart v H).2.Ok ∧ (newPart v H).1 = H.np ∧
    (newPart v H).2.np = H.np + 1 ∧ (newPart v H).2.part H.np = v :=
  ⟨⟨le_rfl, Nat.le_succ _, le_rfl, le_rfl, le_rfl, fun _ _ => rfl, fun a ha => Function.update_of_ne (by omega) _ _, fun _ _ => rfl, fun _ _ => rfl, fun _ _ => rfl⟩, hH, rfl, rfl,
    Function.update_self _ _ _⟩

theorem newCur_keeps (v : C) (H : Heap G P C B ι) (hH : H.Ok) : Keeps H (newCur v H).2 ∧ (newCur v H).2.Ok ∧ (newCur v H).1 = H.nc ∧
    (newCur v H).2.nc = H.nc + 1 ∧ (newCur v H).2.cur H.nc = v :=
  ⟨⟨le_rfl, le_rfl, Nat.le_succ _, le_rfl, le_rfl, fun _ _ => rfl, fun _ _ => rfl, fun a ha => Function.update_of_ne (by omega) _ _, fun _ _ => rfl, fun _ _ => rfl⟩, hH, rfl, rfl,
    Function.update_self _ _ _⟩

theorem newBeam_keeps (v : B) (H : Heap G P C B ι) (hH : H.Ok) : Keeps H (newBeam v H).2 ∧ (newBeam v H).2.Ok ∧ (newBeam v H).1 = H.nb ∧
    (newBeam v H).2.nb = H.nb + 1 ∧ (newBeam v H).2.beam H.nb = v :=
  ⟨⟨le_rfl, le_rfl, le_rfl, Nat.le_succ _, le_rfl, fun _ _ => rfl, fun _ _ => rfl, fun _ _ => rfl, fun a ha => Function.update_of_ne (by omega) _ _, fun _ _ => rfl⟩, hH, rfl, rfl,
    Function.update_self _ _ _⟩

theorem newObj_keeps (as : ι → ℕ) (H : Heap G P C B ι) (hH : H.Ok) (has : ∀ i, as i < H.ng) : Keeps H (newObj as H).2 ∧ (newObj as H).2.Ok ∧ (newObj as H).1 = H.no ∧
    (newObj as H).2.no = H.no + 1 ∧ (newObj as H).2.val H.no = fun i => H.grid (as i) := by
  refine ⟨⟨le_rfl, le_rfl, le_rfl, le_rfl, Nat.le_succ _, fun _ _ => rfl, fun _ _ => rfl, fun _ _ => rfl, fun _ _ => rfl, fun o ho => ?_⟩, ?_, rfl, rfl, ?_⟩
  · funext i
    show H.grid (Function.update H.obj H.no as o i) = H.grid (H.obj o i)
    rw [Function.update_of_ne (by omega)]
  · intro o ho i
    show Function.update H.obj H.no as o i < H.ng
    by_cases h : o = H.no
    · subst h; rw [Function.update_self]; exact has i
    · rw [Function.update_of_ne h]
      refine hH o ?_ i
      have : o < H.no + 1 := ho
      omega
  · funext i
    show H.grid (Function.update H.obj H.no as H.no i) = _
    rw [Function.update_self]

/-- Writing in place into arrays made after `H` leaves what `H` had alone. -/
theorem setPart_keeps (a : ℕ) (v : P) (H H' : Heap G P C B ι) (h : Keeps H H') (hH : H'.Ok) (ha : H.np ≤ a) :
    Keeps H (setPart a v H').2 ∧ (setPart a v H').2.Ok ∧ (setPart a v H').2.part a = v ∧ (setPart a v H').2.np = H'.np := by
  refine ⟨⟨h.ng, h.np, h.nc, h.nb, h.no, h.grid, fun b hb => ?_, h.cur, h.beam, h.val⟩, hH, Function.update_self _ _ _, rfl⟩
  rw [← h.part b hb]
  exact Function.update_of_ne (by omega) _ _

/-- Binding an attribute to an array with the same contents leaves everything as it was. -/
theorem setAttr_keeps [DecidableEq ι] (o : ℕ) (i : ι) (a : ℕ) (H : Heap G P C B ι) (hH : H.Ok) (ha : a < H.ng) (hv : H.grid a = H.val o i) :
    Keeps H (setAttr o i a H).2 ∧ (setAttr o i a H).2.Ok ∧ ∀ o', (setAttr o i a H).2.val o' = H.val o' := by
  have key : ∀ o', (setAttr o i a H).2.val o' = H.val o' := by
    intro o'
    funext j
    show H.grid (Function.update H.obj o (Function.update (H.obj o) i a) o' j) = H.grid (H.obj o' j)
    by_cases ho : o' = o
    · subst ho
      rw [Function.update_self]
      by_cases hj : j = i
      · subst hj; rw [Function.update_self, hv]; rfl
      · rw [Function.update_of_ne hj]
    · rw [Function.update_of_ne ho]
  refine ⟨⟨le_rfl, le_rfl, le_rfl, le_rfl, le_rfl, fun _ _ => rfl, fun _ _ => rfl, fun _ _ => rfl, fun _ _ => rfl, fun o' _ => key o'⟩, ?_, key⟩
  intro o' ho' j
  show Function.update H.obj o (Function.update (H.obj o) i a) o' j < H.ng
  by_cases ho : o' = o
  · subst ho
    rw [Function.update_self]
    by_cases hj : j = i
    · subst hj; rw [Function.update_self]; exact ha
    · rw [Function.update_of_ne hj]; exact hH _ ho' _
  · rw [Function.update_of_ne ho]; exact hH _ ho' _

/-- Binding an attribute of an object made after `H` leaves what `H` had alone. -/
theorem setAttr_keeps_new [DecidableEq ι] (o : ℕ) (i : ι) (a : ℕ) (H H' : Heap G P C B ι) (h : Keeps H H') (hH : H'.Ok) (ha : a < H'.ng) (ho : H.no ≤ o) :
    Keeps H (setAttr o i a H').2 ∧ (setAttr o i a H').2.Ok := by
  refine ⟨⟨h.ng, h.np, h.nc, h.nb, h.no, h.grid, h.part, h.cur, h.beam, fun o' ho' => ?_⟩, ?_⟩
  · rw [← h.val o' ho']
    funext j
    show H'.grid (Function.update H'.obj o (Function.update (H'.obj o) i a) o' j) = H'.grid (H'.obj o' j)
    rw [Function.update_of_ne (by omega)]
  · intro o' ho' j
    show Function.update H'.obj o (Function.update (H'.obj o) i a) o' j < H'.ng
    by_cases hoo : o' = o
    · subst hoo
      rw [Function.update_self]
      by_cases hj : j = i
      · subst hj; rw [Function.update_self]; exact ha
      · rw [Function.update_of_ne hj]; exact hH _ ho' _
    · rw [Function.update_of_ne hoo]; exact hH _ ho' _

/-- What an attribute shows after it has been bound. -/
theorem setAttr_val [DecidableEq ι] (o : ℕ) (i : ι) (a : ℕ) (H : Heap G P C B ι) :
    (setAttr o i a H).2.val o = Function.update (H.val o) i (H.grid a) ∧ ∀ o', o' ≠ o → (setAttr o i a H).2.val o' = H.val o' := by
  constructor
  · funext j
    show H.grid (Function.update H.obj o (Function.update (H.obj o) i a) o j) = _
    rw [Function.update_self]
    by_cases hj : j = i
    · subst hj; rw [Function.update_self, Function.update_self]
    · rw [Function.update_of_ne hj, Function.update_of_ne hj]; rfl
  · intro o' ho
    funext j
    show H.grid (Function.update H.obj o (Function.update (H.obj o) i a) o' j) = H.grid (H.obj o' j)
    rw [Function.update_of_ne ho]

/-! ### Groups of arrays -/

/-- New arrays for the attributes in the list. -/
def allocAll [DecidableEq ι] (v : ι → G) : List ι → Prog G P C B ι (ι → ℕ)
  | [] => fun H => (fun _ => 0, H)
  | i :: is => (allocAll v is).bind fun as => (newGrid (v i)).bind fun a => fun H => (Function.update as i a, H)

/-- `Arrays(xp, E_r=..., ...)`, plasma/data.py:15-25 and plasma3d/data.py: every array is copied (`xp.array`), so the group shares nothing with anybody. `is` lists the names. -/
def newGroup [DecidableEq ι] (is : List ι) (v : ι → G) : Prog G P C B ι ℕ := (allocAll v is).bind newObj

theorem allocAll_keeps [DecidableEq ι] (v : ι → G) (is : List ι) (H : Heap G P C B ι) (hH : H.Ok) :
    Keeps H (allocAll v is H).2 ∧ (allocAll v is H).2.Ok ∧ (allocAll v is H).2.no = H.no ∧
      ∀ i ∈ is, (allocAll v is H).1 i < (allocAll v is H).2.ng ∧ (allocAll v is H).2.grid ((allocAll v is H).1 i) = v i := by
  induction is with
  | nil => exact ⟨Keeps.refl H, hH, rfl, fun i hi => absurd hi (List.not_mem_nil)⟩
  | cons i is ih =>
    obtain ⟨h1, h2, h3, h4⟩ := ih
    simp only [allocAll, Prog.bind]
    generalize allocAll v is H = r at h1 h2 h3 h4 ⊢
    obtain ⟨k1, k2, k3, k4, k5, k6, k7⟩ := newGrid_keeps (v i) r.2 h2
    refine ⟨h1.trans k1, k2, k5.trans h3, ?_⟩
    intro j hj
    by_cases hji : j = i
    · subst hji
      rw [Function.update_self, k3, k4]
      exact ⟨Nat.lt_succ_self _, k7⟩
    · rw [Function.update_of_ne hji]
      obtain ⟨a, b⟩ := h4 j ((List.mem_cons.mp hj).resolve_left hji)
      exact ⟨by omega, by rw [k1.grid _ a]; exact b⟩

theorem newGroup_keeps [DecidableEq ι] (is : List ι) (his : ∀ i, i ∈ is) (v : ι → G) (H : Heap G P C B ι) (hH : H.Ok) :
    Keeps H (newGroup is v H).2 ∧ (newGroup is v H).2.Ok ∧ (newGroup is v H).1 = H.no ∧ (newGroup is v H).2.no = H.no + 1 ∧ (newGroup is v H).2.val H.no = v := by
  obtain ⟨h1, h2, h3, h4⟩ := allocAll_keeps v is H hH
  simp only [newGroup, Prog.bind]
  generalize allocAll v is H = r at h1 h2 h3 h4 ⊢
  obtain ⟨k1, k2, k3, k4, k5⟩ := newObj_keeps r.1 r.2 h2 (fun i => (h4 i (his i)).1)
  refine ⟨h1.trans k1, k2, k3.trans h3, by rw [k4, h3], ?_⟩
  rw [← h3, k5]
  funext i
  exact (h4 i (his i)).2

/-- `o.i = (o.i + o2.i) / 2` (plasma/fields.py:228-232): the mean is a new array, and the attribute `i` of the object `o` is bound to it. -/
def averageOne [DecidableEq ι] (mean : G → G → G) (o o2 : ℕ) (i : ι) : Prog G P C B ι Unit := fun H =>
  ((newGrid (mean (H.val o i) (H.val o2 i))).bind fun a => setAttr o i a) H

/-- One attribute after the other. -/
def averageInto [DecidableEq ι] (mean : G → G → G) (o o2 : ℕ) : List ι → Prog G P C B ι Unit
  | [] => fun H => ((), H)
  | i :: is => (averageOne mean o o2 i).bind fun _ => averageInto mean o o2 is

/-- If both are the same object nobody sees a change; if the object was made after `H`, nothing that `H` had is changed. -/
theorem averageOne_keeps [DecidableEq ι] (mean : G → G → G) (hm : ∀ x, mean x x = x) (o o2 : ℕ) (i : ι) (H0 H : Heap G P C B ι) (h0 : Keeps H0 H) (hH : H.Ok) (ho : o < H.no)
    (hoo : o = o2 ∨ H0.no ≤ o) :
    Keeps H0 (averageOne mean o o2 i H).2 ∧ (averageOne mean o o2 i H).2.Ok ∧ (averageOne mean o o2 i H).2.no = H.no ∧
      (averageOne mean o o2 i H).2.val o = Function.update (H.val o) i (mean (H.val o i) (H.val o2 i)) ∧ (∀ o' < H.no, o' ≠ o → (averageOne mean o o2 i H).2.val o' = H.val o') ∧
      (averageOne mean o o2 i H).2.part = H.part ∧ (averageOne mean o o2 i H).2.cur = H.cur ∧ (averageOne mean o o2 i H).2.beam = H.beam ∧
      (averageOne mean o o2 i H).2.np = H.np ∧ (averageOne mean o o2 i H).2.nc = H.nc ∧ (averageOne mean o o2 i H).2.nb = H.nb ∧
      H.ng ≤ (averageOne mean o o2 i H).2.ng ∧ ∀ a < H.ng, (averageOne mean o o2 i H).2.grid a = H.grid a := by
  obtain ⟨k1, k2, k3, k4, k5, k6, k7⟩ := newGrid_keeps (mean (H.val o i) (H.val o2 i)) H hH
  have e : averageOne mean o o2 i H = setAttr o i H.ng (newGrid (mean (H.val o i) (H.val o2 i)) H).2 := rfl
  rw [e]
  obtain ⟨v1, v2⟩ := setAttr_val o i H.ng (newGrid (mean (H.val o i) (H.val o2 i)) H).2
  have vo := k1.val o ho
  have key : Keeps H0 (setAttr o i H.ng (newGrid (mean (H.val o i) (H.val o2 i)) H).2).2 ∧ (setAttr o i H.ng (newGrid (mean (H.val o i) (H.val o2 i)) H).2).2.Ok := by
    rcases hoo with hoo | hoo
    · obtain ⟨s1, s2, -⟩ := setAttr_keeps o i H.ng (newGrid (mean (H.val o i) (H.val o2 i)) H).2 k2 (by rw [k4]; exact Nat.lt_succ_self _)
        (by rw [k7, vo, ← hoo, hm])
      exact ⟨(h0.trans k1).trans s1, s2⟩
    · exact setAttr_keeps_new o i H.ng H0 _ (h0.trans k1) k2 (by rw [k4]; exact Nat.lt_succ_self _) hoo
  refine ⟨key.1, key.2, k5, ?_, ?_, rfl, rfl, rfl, rfl, rfl, rfl, Nat.le_succ _, k1.grid⟩
  · rw [v1, vo, k7]
  · intro o' ho' hne
    rw [v2 o' hne, k1.val o' ho']

theorem averageInto_keeps [DecidableEq ι] (mean : G → G → G) (hm : ∀ x, mean x x = x) (o o2 : ℕ) (is : List ι) (hnd : is.Nodup) (H0 H : Heap G P C B ι) (h0 : Keeps H0 H) (hH : H.Ok)
    (ho : o < H.no) (ho2 : o2 < H.no) (hoo : o = o2 ∨ H0.no ≤ o) :
    Keeps H0 (averageInto mean o o2 is H).2 ∧ (averageInto mean o o2 is H).2.Ok ∧ (averageInto mean o o2 is H).2.no = H.no ∧
      (∀ i ∈ is, (averageInto mean o o2 is H).2.val o i = mean (H.val o i) (H.val o2 i)) ∧ (∀ i, i ∉ is → (averageInto mean o o2 is H).2.val o i = H.val o i) ∧
      (∀ o' < H.no, o' ≠ o → (averageInto mean o o2 is H).2.val o' = H.val o') ∧
      (averageInto mean o o2 is H).2.part = H.part ∧ (averageInto mean o o2 is H).2.cur = H.cur ∧ (averageInto mean o o2 is H).2.beam = H.beam ∧
      (averageInto mean o o2 is H).2.np = H.np ∧ (averageInto mean o o2 is H).2.nc = H.nc ∧ (averageInto mean o o2 is H).2.nb = H.nb ∧
      H.ng ≤ (averageInto mean o o2 is H).2.ng ∧ ∀ a < H.ng, (averageInto mean o o2 is H).2.grid a = H.grid a := by
  induction is generalizing H with
  | nil => exact ⟨h0, hH, rfl, fun i hi => absurd hi List.not_mem_nil, fun _ _ => rfl, fun _ _ _ => rfl, rfl, rfl, rfl, rfl, rfl, rfl, le_rfl, fun _ _ => rfl⟩
  | cons i is ih =>
    obtain ⟨k1, k2, k3, k4, k5, k6, k7, k8, k9, k10, k11, k12, k13⟩ := averageOne_keeps mean hm o o2 i H0 H h0 hH ho hoo
    have e : averageInto mean o o2 (i :: is) H = averageInto mean o o2 is (averageOne mean o o2 i H).2 := rfl
    rw [e]
    rw [List.nodup_cons] at hnd
    generalize (averageOne mean o o2 i H).2 = H1 at k1 k2 k3 k4 k5 k6 k7 k8 k9 k10 k11 k12 k13 ⊢
    obtain ⟨m1, m2, m3, m4, m5, m6, m7, m8, m9, m10, m11, m12, m13, m14⟩ := ih hnd.2 H1 k1 k2 (by omega) (by omega)
    refine ⟨m1, m2, m3.trans k3, ?_, ?_, ?_, m7.trans k6, m8.trans k7, m9.trans k8, m10.trans k9, m11.trans k10, m12.trans k11, k12.trans m13,
      fun a ha => (m14 a (by omega)).trans (k13 a ha)⟩
    · intro j hj
      rcases List.mem_cons.mp hj with rfl | hj
      · rw [m5 _ hnd.1, k4, Function.update_self]
      · have hne : j ≠ i := fun hh => hnd.1 (hh ▸ hj)
        rw [m4 j hj, k4, Function.update_of_ne hne]
        by_cases h2 : o2 = o
        · rw [h2, k4, Function.update_of_ne hne]
        · rw [k5 o2 ho2 h2]
    · intro j hj
      rw [List.mem_cons, not_or] at hj
      rw [m5 j hj.2, k4, Function.update_of_ne hj.1]
    · intro o' ho' hne
      rw [m6 o' (by omega) hne, k5 o' ho' hne]

end Lcode.Mem
