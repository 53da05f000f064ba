import Verif.Fp.Round
import Mathlib.Data.List.GetD
import Mathlib.Tactic.Linarith

/-!
C59: what a message between two processes carries.

Model of lcode/mpi/util.py and of `send` and `recv` of lcode/mpi/transport.py:47-62, down to the bytes of the array. The MPI library is
represented by the definitions of the MPI standard: a datatype is a type map (a list of basic types with displacements) with an extent.
-/

namespace Lcode.Mpi.Datatype

/-- numpy's dtypes as far as util.py distinguishes them: `isbuiltin == 1` (with name and size in bytes), `isbuiltin == 2`, a record (`isbuiltin == 0` with `fields`, a list of offsets and types in the order of definition, and `itemsize`), and the rest (`isbuiltin == 0` and `fields` is None: strings of given length, subarrays, other byte order). -/
inductive Dtype where
  | builtin (name : String) (size : ℕ)
  | userDefined
  | record (fields : List (ℕ × Dtype)) (itemsize : ℕ)
  | other

/-- MPI's basic types that occur, with their sizes in bytes. -/
inductive Basic where
  | int8 | int16 | int32 | int64 | uint8 | uint16 | uint32 | uint64 | float | double
  deriving DecidableEq, Repr

/-- Sizes of the C types (fixed width integers, IEEE single and double). -/
def Basic.size : Basic → ℕ
  | .int8 | .uint8 => 1
  | .int16 | .uint16 => 2
  | .int32 | .uint32 | .float => 4
  | .int64 | .uint64 | .double => 8

/-- `mapped_dtypes`, util.py:9-20. -/
def mapped : String → Option Basic
  | "int8" => some .int8
  | "int16" => some .int16
  | "int32" => some .int32
  | "int64" => some .int64
  | "uint8" => some .uint8
  | "uint16" => some .uint16
  | "uint32" => some .uint32
  | "uint64" => some .uint64
  | "float32" => some .float
  | "float64" => some .double
  | _ => none

/-- The size numpy gives to the type of this name. -/
def npSize : String → ℕ
  | "int8" | "uint8" => 1
  | "int16" | "uint16" | "float16" => 2
  | "int32" | "uint32" | "float32" => 4
  | "int64" | "uint64" | "float64" | "complex64" => 8
  | "complex128" => 16
  | "bool" => 1
  | _ => 0

/-- An MPI datatype: its type map (MPI standard, section 4.1) and its extent; the lower bound is always zero here. -/
structure MpiType where
  map : List (Basic × ℕ)
  extent : ℕ

inductive Err where
  | valueError | attributeError
  deriving DecidableEq, Repr

/-- `_mpi_type_from_builtin`, util.py:23-30, for a builtin type. -/
def fromBuiltin (name : String) : Except Err MpiType :=
  match mapped name with
  | some b => .ok ⟨[(b, 0)], b.size⟩
  | none => .error .valueError

/-- MPI_Type_create_struct with block lengths one (util.py:45): the type maps of the parts, shifted. (The extent of the struct is replaced at once, :46.) -/
def createStruct (parts : List (ℕ × MpiType)) : List (Basic × ℕ) := parts.flatMap fun p => p.2.map.map fun e => (e.1, p.1 + e.2)

mutual
/-- `mpi_type_from_dtype`, util.py:33-48. -/
def fromDtype : Dtype → Except Err MpiType
  | .builtin name _ => fromBuiltin name
  | .userDefined => .error .valueError
  | .record fields itemsize =>
    match fromFields fields with
    | .error e => .error e
    | .ok parts => .ok ⟨createStruct parts, itemsize⟩
  | .other => .error .attributeError
/-- The loop over the fields, util.py:39-44. -/
def fromFields : List (ℕ × Dtype) → Except Err (List (ℕ × MpiType))
  | [] => .ok []
  | f :: fs =>
    match fromDtype f.2 with
    | .error e => .error e
    | .ok t =>
      match fromFields fs with
      | .error e => .error e
      | .ok ts => .ok ((f.1, t) :: ts)
end

/-! ### The datatype describes the record -/

/-- Specification: an item of this dtype has a number of type `name` at byte `o`. -/
inductive Cell : Dtype → ℕ → String → Prop where
  | here (name : String) (size : ℕ) : Cell (.builtin name size) 0 name
  | field (fields : List (ℕ × Dtype)) (itemsize o c : ℕ) (d : Dtype) (name : String) : (o, d) ∈ fields → Cell d c name → Cell (.record fields itemsize) (o + c) name

/-- Number of bytes of an item. -/
def Dtype.itemsize : Dtype → ℕ
  | .builtin _ s => s
  | .record _ s => s
  | _ => 0

/-- The builtin types have the sizes numpy gives them. -/
inductive Proper : Dtype → Prop where
  | builtin (name : String) : Proper (.builtin name (npSize name))
  | userDefined : Proper .userDefined
  | other : Proper .other
  | record (fields : List (ℕ × Dtype)) (n : ℕ) : (∀ f ∈ fields, Proper f.2) → Proper (.record fields n)

/-- All numbers in the item are of one of the ten supported types. -/
inductive Supported : Dtype → Prop where
  | builtin (name : String) (size : ℕ) : name ∈ ["int8", "int16", "int32", "int64", "uint8", "uint16", "uint32", "uint64", "float32", "float64"] → Supported (.builtin name size)
  | record (fields : List (ℕ × Dtype)) (n : ℕ) : (∀ f ∈ fields, Supported f.2) → Supported (.record fields n)

theorem mapped_size {name : String} {b : Basic} (h : mapped name = some b) : b.size = npSize name := by
  unfold mapped at h
  split at h <;> first | (cases h; rfl) | cases h

theorem mapped_iff (name : String) : (∃ b, mapped name = some b) ↔ name ∈ ["int8", "int16", "int32", "int64", "uint8", "uint16", "uint32", "uint64", "float32", "float64"] := by
  constructor
  · rintro ⟨b, h⟩
    unfold mapped at h
    split at h <;> first | cases h; done | simp
  · intro h
    simp only [List.mem_cons, List.not_mem_nil, or_false] at h
    rcases h with rfl | rfl | rfl | rfl | rfl | rfl | rfl | rfl | rfl | rfl <;> exact ⟨_, rfl⟩

/-- The names are told apart. -/
theorem mapped_inj {a b : String} {x : Basic} (ha : mapped a = some x) (hb : mapped b = some x) : a = b := by
  unfold mapped at ha hb
  split at ha <;> (first | cases ha) <;> (split at hb <;> first | rfl | cases hb)

/-- The fields that were translated. -/
theorem fromFields_mem : ∀ (fs : List (ℕ × Dtype)) (ts : List (ℕ × MpiType)), fromFields fs = .ok ts →
    List.Forall₂ (fun f t => f.1 = t.1 ∧ fromDtype f.2 = .ok t.2) fs ts := by
  intro fs
  induction fs with
  | nil => intro ts h; rw [fromFields] at h; cases h; exact .nil
  | cons f fs ih =>
    intro ts h
    rw [fromFields] at h
    cases h1 : fromDtype f.2 with
    | error e => rw [h1] at h; cases h
    | ok t =>
      rw [h1] at h
      cases h2 : fromFields fs with
      | error e => rw [h2] at h; cases h
      | ok ts' => rw [h2] at h; cases h; exact .cons ⟨rfl, h1⟩ (ih ts' h2)

/-- The statement of `datatype_describes` for one dtype. -/
def Describes (d : Dtype) : Prop := ∀ t, fromDtype d = .ok t → (∀ o b, (b, o) ∈ t.map ↔ ∃ name, mapped name = some b ∧ Cell d o name) ∧ (Proper d → t.extent = d.itemsize)

/-- The statement of `accepted_iff` for one dtype. -/
def AcceptedOnly (d : Dtype) : Prop := ∀ t, fromDtype d = .ok t → Supported d

/-- For the fields of a record. -/
def AllFields (p : Dtype → Prop) (fs : List (ℕ × Dtype)) : Prop := ∀ f ∈ fs, p f.2

/-- Induction over dtypes. -/
theorem Dtype.induct (p : Dtype → Prop) (h1 : ∀ n s, p (.builtin n s)) (h2 : p .userDefined) (h3 : p .other) (h4 : ∀ fs n, (∀ f ∈ fs, p f.2) → p (.record fs n)) (d : Dtype) : p d := by
  refine Dtype.rec (motive_1 := p) (motive_2 := AllFields p) (motive_3 := fun f => p f.2) h1 h2 (fun fs n ih => h4 fs n ih) h3 ?_ ?_ ?_ d
  · intro f hf; cases hf
  · intro f fs ihf ihfs g hg
    rcases List.mem_cons.mp hg with rfl | hg
    · exact ihf
    · exact ihfs g hg
  · intro o d ih; exact ih

/-- C59: the datatype that is committed describes exactly the numbers of the record, with their types, each at its place, and its extent is the size of an item; nested records included. -/
theorem datatype_describes : ∀ (d : Dtype) (t : MpiType), fromDtype d = .ok t → (∀ o b, (b, o) ∈ t.map ↔ ∃ name, mapped name = some b ∧ Cell d o name) ∧ (Proper d → t.extent = d.itemsize) := by
  intro d
  change Describes d
  induction d using Dtype.induct with
  | h1 name size =>
    intro t h
    rw [fromDtype, fromBuiltin] at h
    cases hm : mapped name with
    | none => rw [hm] at h; cases h
    | some b =>
      rw [hm] at h; cases h
      refine ⟨fun o b' => ?_, fun hp => ?_⟩
      · simp only [List.mem_singleton, Prod.mk.injEq]
        constructor
        · rintro ⟨rfl, rfl⟩; exact ⟨name, hm, .here _ _⟩
        · rintro ⟨n', h1, h2⟩
          cases h2
          rw [hm] at h1; cases h1; exact ⟨rfl, rfl⟩
      · cases hp; exact mapped_size hm
  | h2 => intro t h; rw [fromDtype] at h; cases h
  | h3 => intro t h; rw [fromDtype] at h; cases h
  | h4 fields itemsize ih =>
    intro t h
    rw [fromDtype] at h
    cases hf : fromFields fields with
    | error e => rw [hf] at h; cases h
    | ok parts =>
      rw [hf] at h; cases h
      refine ⟨fun o b => ?_, fun _ => rfl⟩
      have hall := fromFields_mem _ _ hf
      simp only [createStruct, List.mem_flatMap, List.mem_map, Prod.exists, Prod.mk.injEq]
      constructor
      · rintro ⟨po, pt, hp, eb, eo, he, rfl, rfl⟩
        obtain ⟨k, hk, hpk⟩ := List.getElem_of_mem hp
        have hl := hall.length_eq
        have h1 := (List.forall₂_iff_get.mp hall).2 k (by omega) hk
        simp only [List.get_eq_getElem, hpk] at h1
        have hmem : fields[k]'(by omega) ∈ fields := List.getElem_mem _
        obtain ⟨name, h2, h3⟩ := ((ih _ hmem pt h1.2).1 eo eb).mp he
        refine ⟨name, h2, .field fields itemsize po eo _ name ?_ h3⟩
        rw [← h1.1]; exact hmem
      · rintro ⟨name, h1, h2⟩
        cases h2 with
        | field _ _ po c d' _ hmem hc =>
          obtain ⟨k, hk, hpk⟩ := List.getElem_of_mem hmem
          have hl := hall.length_eq
          have h3 := (List.forall₂_iff_get.mp hall).2 k hk (by omega)
          simp only [List.get_eq_getElem, hpk] at h3
          have h4 := ((ih _ hmem _ h3.2).1 c b).mpr ⟨name, h1, hc⟩
          refine ⟨(parts[k]'(by omega)).1, (parts[k]'(by omega)).2, List.getElem_mem _, b, c, h4, rfl, ?_⟩
          rw [← h3.1]

theorem fromFields_ok (fs : List (ℕ × Dtype)) (h : ∀ f ∈ fs, ∃ t, fromDtype f.2 = .ok t) : ∃ ts, fromFields fs = .ok ts := by
  induction fs with
  | nil => exact ⟨[], by rw [fromFields]⟩
  | cons f fs ih =>
    obtain ⟨t, ht⟩ := h f (by simp)
    obtain ⟨ts, hts⟩ := ih fun g hg => h g (by simp [hg])
    exact ⟨(f.1, t) :: ts, by rw [fromFields, ht, hts]⟩

/-- C59: a dtype is accepted exactly if all its numbers are of the ten supported types; anything else raises before any message is sent. -/
theorem accepted_iff (d : Dtype) : (∃ t, fromDtype d = .ok t) ↔ Supported d := by
  constructor
  · rintro ⟨t, h⟩
    revert t h
    change AcceptedOnly d
    induction d using Dtype.induct with
    | h1 name size =>
      intro t h
      rw [fromDtype, fromBuiltin] at h
      cases hm : mapped name with
      | none => rw [hm] at h; cases h
      | some b => exact .builtin _ _ ((mapped_iff name).mp ⟨b, hm⟩)
    | h2 => intro t h; rw [fromDtype] at h; cases h
    | h3 => intro t h; rw [fromDtype] at h; cases h
    | h4 fields itemsize ih =>
      intro t h
      rw [fromDtype] at h
      cases hf : fromFields fields with
      | error e => rw [hf] at h; cases h
      | ok parts =>
        refine .record _ _ fun f hfm => ?_
        obtain ⟨k, hk, hpk⟩ := List.getElem_of_mem hfm
        have hall := fromFields_mem _ _ hf
        have hl := hall.length_eq
        have h3 := (List.forall₂_iff_get.mp hall).2 k hk (by omega)
        simp only [List.get_eq_getElem, hpk] at h3
        exact ih f hfm _ h3.2
  · intro h
    induction h with
    | builtin name size h =>
      obtain ⟨b, hb⟩ := (mapped_iff name).mpr h
      exact ⟨_, by rw [fromDtype, fromBuiltin, hb]⟩
    | record fields n _ ih =>
      obtain ⟨ts, hts⟩ := fromFields_ok fields ih
      exact ⟨_, by rw [fromDtype, hts]⟩

/-! ### Bytes -/

/-- MPI_Type_size: the number of bytes of data in one item. -/
def MpiType.size (t : MpiType) : ℕ := (t.map.map fun e => e.1.size).sum

/-- The places of the bytes of one basic type. -/
def bytesAt (start : ℕ) (b : Basic) : List ℕ := (List.range b.size).map (start + ·)

/-- The places in the buffer of the bytes of `n` items, in the order in which they are sent: MPI standard, section 4.1. -/
def MpiType.places (t : MpiType) (n : ℕ) : List ℕ := (List.range n).flatMap fun i => t.map.flatMap fun e => bytesAt (i * t.extent + e.2) e.1

/-- `Send` of `n` items of a buffer: the bytes of the message. -/
def send {B : Type*} (t : MpiType) (n : ℕ) (buf : ℕ → B) : List B := (t.places n).map buf

/-- Writing the bytes of a message one after another. -/
def write {B : Type*} (buf : ℕ → B) : List (ℕ × B) → ℕ → B
  | [] => buf
  | (k, x) :: l => write (fun j => if j = k then x else buf j) l

/-- `Recv` into a buffer. -/
def recv {B : Type*} (t : MpiType) (n : ℕ) (msg : List B) (buf : ℕ → B) : ℕ → B := write buf ((t.places n).zip msg)

/-- mpi4py finds the number of items from the length of the array in bytes (transport.py:53); it raises if the extent does not divide it. -/
def itemsOf (t : MpiType) (nbytes : ℕ) : Option ℕ := if t.extent ∣ nbytes then some (nbytes / t.extent) else none

/-- MPI_Get_count, transport.py:58: the number of items in a message of `len` bytes; `none` is MPI_UNDEFINED, for which `np.empty` raises. -/
def getCount (t : MpiType) (len : ℕ) : Option ℕ := if t.size = 0 then (if len = 0 then some 0 else none) else if t.size ∣ len then some (len / t.size) else none

theorem write_of {B : Type*} (src : ℕ → B) (l : List ℕ) (buf : ℕ → B) (j : ℕ) : write buf (l.zip (l.map src)) j = if j ∈ l then src j else buf j := by
  induction l generalizing buf with
  | nil => simp [write]
  | cons k l ih =>
    rw [List.map_cons, List.zip_cons_cons, write, ih]
    by_cases h1 : j ∈ l
    · simp [h1]
    · by_cases h2 : j = k
      · subst h2; simp [h1]
      · simp [h1, h2]

/-- C59: what arrives. Every byte that belongs to a number of one of the `n` items is the byte that was sent from the same place, whatever was in the buffer; every other byte of the buffer is untouched. -/
theorem transfer {B : Type*} (t : MpiType) (n : ℕ) (src dst : ℕ → B) (j : ℕ) :
    recv t n (send t n src) dst j = if j ∈ t.places n then src j else dst j := write_of src _ dst j

theorem places_length (t : MpiType) (n : ℕ) : (t.places n).length = n * t.size := by
  unfold MpiType.places
  rw [List.length_flatMap]
  have e : ∀ i, (t.map.flatMap fun e => bytesAt (i * t.extent + e.2) e.1).length = t.size := by
    intro i
    rw [List.length_flatMap]
    unfold MpiType.size bytesAt
    congr 1
    apply List.map_congr_left
    intro e _
    simp
  simp [e]

/-- C59: the receiver allocates the same number of items as were sent. -/
theorem count_exact {B : Type*} (t : MpiType) (hs : t.size ≠ 0) (n : ℕ) (src : ℕ → B) : getCount t (send t n src).length = some n := by
  unfold getCount send
  rw [List.length_map, places_length, if_neg hs, if_pos (Dvd.intro_left _ rfl), Nat.mul_div_cancel _ (Nat.pos_of_ne_zero hs)]

/-- C59: an array of `n` items is sent as `n` items. -/
theorem items_exact (d : Dtype) (hp : Proper d) (t : MpiType) (h : fromDtype d = .ok t) (h0 : d.itemsize ≠ 0) (n : ℕ) : itemsOf t (n * d.itemsize) = some n := by
  have := (datatype_describes d t h).2 hp
  unfold itemsOf
  rw [this, if_pos (Dvd.intro_left _ rfl), Nat.mul_div_cancel _ (Nat.pos_of_ne_zero h0)]

/-! ### The dtypes of the beams -/

/-- `np.dtype([(name, type), ...])` without alignment: the fields follow each other. -/
def packed (types : List String) : Dtype :=
  .record ((List.range types.length).map fun k => (((types.take k).map npSize).sum, .builtin (types.getD k "") (npSize (types.getD k "")))) ((types.map npSize).sum)

/-- `particle_dtype`, beam/beam_io.py:62-63 (and util.py:6-7): seven floats and an id. -/
def beam2 : Dtype := packed (List.replicate 7 "float64" ++ ["int64"])

/-- `particle_dtype3d`, beam3d/data.py:5-7: eight floats and an id. -/
def beam3 : Dtype := packed (List.replicate 8 "float64" ++ ["int64"])

theorem beam2_type : fromDtype beam2 = .ok ⟨[(.double, 0), (.double, 8), (.double, 16), (.double, 24), (.double, 32), (.double, 40), (.double, 48), (.int64, 56)], 64⟩ := by rfl

theorem beam3_type : fromDtype beam3 = .ok ⟨[(.double, 0), (.double, 8), (.double, 16), (.double, 24), (.double, 32), (.double, 40), (.double, 48), (.double, 56), (.int64, 64)], 72⟩ := by rfl

/-- A type without gaps: every byte of an item is sent. -/
def Full (t : MpiType) : Prop := ∀ b < t.extent, ∃ e ∈ t.map, e.2 ≤ b ∧ b < e.2 + e.1.size

theorem full_places {t : MpiType} (hf : Full t) (n j : ℕ) (hj : j < n * t.extent) : j ∈ t.places n := by
  have h0 : 0 < t.extent := by
    rcases Nat.eq_zero_or_pos t.extent with h | h
    · rw [h] at hj; omega
    · exact h
  obtain ⟨e, he, h1, h2⟩ := hf (j % t.extent) (Nat.mod_lt _ h0)
  unfold MpiType.places
  rw [List.mem_flatMap]
  refine ⟨j / t.extent, List.mem_range.mpr (by rw [Nat.div_lt_iff_lt_mul h0]; exact hj), ?_⟩
  rw [List.mem_flatMap]
  refine ⟨e, he, ?_⟩
  unfold bytesAt
  rw [List.mem_map]
  refine ⟨j % t.extent - e.2, List.mem_range.mpr (by omega), ?_⟩
  have := Nat.div_add_mod j t.extent
  rw [Nat.mul_comm] at this
  omega

/-- C59: an array of any number of particles of a 2D or of a 3D beam arrives byte for byte: the receiver allocates the same number of particles, and after the call its array is equal to the array that was sent. -/
theorem beam_message {B : Type*} (d : Dtype) (hd : d = beam2 ∨ d = beam3) (n : ℕ) (src dst : ℕ → B) :
    ∃ t, fromDtype d = .ok t ∧ itemsOf t (n * d.itemsize) = some n ∧ getCount t (send t n src).length = some n ∧
      (∀ j < n * d.itemsize, recv t n (send t n src) dst j = src j) ∧ (∀ j, n * d.itemsize ≤ j → recv t n (send t n src) dst j = dst j) := by
  have key : ∀ t : MpiType, fromDtype d = .ok t → t.extent = d.itemsize → d.itemsize ≠ 0 → Full t → (∀ e ∈ t.map, e.2 + e.1.size ≤ t.extent) → t.size ≠ 0 → itemsOf t (n * d.itemsize) = some n ∧ getCount t (send t n src).length = some n ∧
      (∀ j < n * d.itemsize, recv t n (send t n src) dst j = src j) ∧ (∀ j, n * d.itemsize ≤ j → recv t n (send t n src) dst j = dst j) := by
    intro t _ he h0 hf hin hs
    refine ⟨?_, count_exact t hs n src, ?_, ?_⟩
    · unfold itemsOf
      rw [he, if_pos (Dvd.intro_left _ rfl), Nat.mul_div_cancel _ (Nat.pos_of_ne_zero h0)]
    · intro j hj
      rw [transfer, if_pos (full_places hf n j (by rw [he]; exact hj))]
    · intro j hj
      rw [transfer, if_neg]
      intro hm
      unfold MpiType.places at hm
      rw [List.mem_flatMap] at hm
      obtain ⟨i, hi, hm⟩ := hm
      rw [List.mem_flatMap] at hm
      obtain ⟨e, hem, hm⟩ := hm
      unfold bytesAt at hm
      rw [List.mem_map] at hm
      obtain ⟨b, hb, rfl⟩ := hm
      rw [List.mem_range] at hb hi
      have h1 := hin e hem
      have h2 : (i + 1) * t.extent ≤ n * t.extent := Nat.mul_le_mul_right _ (by omega)
      rw [← he] at hj
      have h3 : (i + 1) * t.extent = i * t.extent + t.extent := by ring
      omega
  rcases hd with rfl | rfl
  · exact ⟨_, beam2_type, key _ beam2_type rfl (by decide) (by unfold Full; decide) (by decide) (by decide)⟩
  · exact ⟨_, beam3_type, key _ beam3_type rfl (by decide) (by unfold Full; decide) (by decide) (by decide)⟩

/-- C59: the empty array that ends a time step (`np.array([])`, beam_io.py:111) is a message with no particle, although its dtype is another one. -/
theorem end_message {B : Type*} (d : Dtype) (hd : d = beam2 ∨ d = beam3) (src : ℕ → B) : ∃ t, fromDtype d = .ok t ∧ itemsOf t 0 = some 0 ∧ send t 0 src = [] ∧ getCount t 0 = some 0 := by
  rcases hd with rfl | rfl
  · exact ⟨_, beam2_type, by decide, rfl, by decide⟩
  · exact ⟨_, beam3_type, by decide, rfl, by decide⟩

/-- An array of another dtype is refused only if its length does not fit: nine doubles are taken for one 3D particle. -/
example : ∃ t, fromDtype beam3 = .ok t ∧ itemsOf t (9 * 8) = some 1 ∧ itemsOf t (10 * 8) = none := ⟨_, beam3_type, by decide, by decide⟩

/-- A dtype with a gap (alignment) and a nested record: the gap is not sent. -/
example : ∃ t, fromDtype (.record [(0, .builtin "int8" 1), (8, packed ["float64", "int32"])] 24) = .ok t ∧ t.map = [(.int8, 0), (.double, 8), (.int32, 16)] ∧ t.extent = 24 ∧ 3 ∉ t.places 1 ∧ 21 ∉ t.places 1 :=
  ⟨_, rfl, rfl, rfl, by decide, by decide⟩

/-- Refused: booleans, complex numbers, strings. -/
example : fromDtype (packed ["float64", "bool"]) = .error .valueError ∧ fromDtype (.builtin "complex128" 16) = .error .valueError ∧ fromDtype (.record [(0, .other)] 5) = .error .attributeError := ⟨rfl, rfl, rfl⟩

/-! ### 3D particles on the way into a message -/

open Lcode.Fp Lcode.Py

/-- `BeamParticles.particles`, beam3d/data.py:42-49, for the id of a particle: the columns are stacked into one array of floats, and the last one is turned back into an integer. The eight other columns are floats and unchanged. -/
def idThroughFloat (id : ℤ) : ℤ := pyInt (fl (id : ℚ))

/-- C59: ids up to `2^53` in absolute value are unchanged. -/
theorem id_kept (id : ℤ) (h : |id| ≤ 2 ^ 53) : idThroughFloat id = id := by
  unfold idThroughFloat
  rw [fl_int h, pyInt_intCast]

/-- C59, beyond that two particles can be given the same id by a message of a 3D run (not by one of a 2D run, which sends the ids as they are). -/
theorem id_collision : idThroughFloat (2 ^ 53 + 1) = idThroughFloat (2 ^ 53) := by decide +kernel

end Lcode.Mpi.Datatype
