import Verif.Beam2D.DataProps

/-!
Model of lcode/beam3d/data.py (BeamParticles of the 3D beam) and lcode/beam3d/beam_io.py (BeamSource, BeamDrain).
Property C34 (and the 3D part of C39). numpy arrays are lists, `np.argsort` is any function satisfying `IsArgsort`.
-/

namespace Lcode.Beam3D

open Lcode.Beam2D (gather IsArgsort gather_zip gather_map gather_perm gather_length mem_argsort_lt npArgsort npArgsort_correct takeWhile_eq_filter_of_sorted)

variable {K : Type}

/-! ### Model -/

/-- Class BeamParticles, data.py:21-40: eleven parallel arrays. -/
structure Beam (K : Type) where
  xi : List K
  x : List K
  y : List K
  px : List K
  py : List K
  pz : List K
  qm : List K
  qnorm : List K
  id : List ℤ
  dt : List K
  remaining : List ℤ
  deriving DecidableEq

/-- Everything the eleven arrays say about one particle. -/
structure Row (K : Type) where
  xi : K
  x : K
  y : K
  px : K
  py : K
  pz : K
  qm : K
  qnorm : K
  id : ℤ
  dt : K
  remaining : ℤ
  deriving DecidableEq

/-- numpy boolean indexing `a[mask]`. -/
def mask {α : Type*} (l : List α) (m : List Bool) : List α := ((l.zip m).filter (fun t => t.2)).map (fun t => t.1)

namespace Beam

/-- data.py:29-40 -/
def empty : Beam K := ⟨[], [], [], [], [], [], [], [], [], [], []⟩

/-- init_generated, data.py:51-63, from a table of rows of `particle_dtype3d` (here rows whose `dt` and `remaining` are ignored). -/
def initGenerated [Zero K] (t : List (Row K)) : Beam K :=
  { xi := t.map Row.xi, x := t.map Row.x, y := t.map Row.y, px := t.map Row.px, py := t.map Row.py, pz := t.map Row.pz
    qm := t.map Row.qm, qnorm := t.map Row.qnorm, id := t.map Row.id
    dt := t.map fun _ => 0, remaining := t.map fun _ => 0 }

/-- xi_sorted, data.py:88-104 -/
def xiSorted [Neg K] (argsort : List K → List ℕ) (b : Beam K) : Beam K :=
  let idx := argsort (b.xi.map fun z => -z)
  { xi := gather b.xi idx
    x := gather b.x idx
    y := gather b.y idx
    px := gather b.px idx
    py := gather b.py idx
    pz := gather b.pz idx
    qm := gather b.qm idx
    qnorm := gather b.qnorm idx
    id := gather b.id idx
    dt := gather b.dt idx
    remaining := gather b.remaining idx }

/-- get_layer, data.py:106-126 (called with boolean masks) -/
def getLayer (b : Beam K) (m : List Bool) : Beam K :=
  { xi := mask b.xi m
    x := mask b.x m
    y := mask b.y m
    px := mask b.px m
    py := mask b.py m
    pz := mask b.pz m
    qm := mask b.qm m
    qnorm := mask b.qnorm m
    id := mask b.id m
    dt := mask b.dt m
    remaining := mask b.remaining m }

/-- cut_beam_layer, data.py:128-149 -/
def cut (b : Beam K) (n : ℕ) : Beam K × Beam K :=
  ({ xi := b.xi.take n, x := b.x.take n, y := b.y.take n, px := b.px.take n, py := b.py.take n, pz := b.pz.take n
     qm := b.qm.take n, qnorm := b.qnorm.take n, id := b.id.take n, dt := b.dt.take n, remaining := b.remaining.take n },
   { xi := b.xi.drop n, x := b.x.drop n, y := b.y.drop n, px := b.px.drop n, py := b.py.drop n, pz := b.pz.drop n
     qm := b.qm.drop n, qnorm := b.qnorm.drop n, id := b.id.drop n, dt := b.dt.drop n, remaining := b.remaining.drop n })

/-- append, data.py:151-169 -/
def append (a b : Beam K) : Beam K :=
  { xi := a.xi ++ b.xi
    x := a.x ++ b.x
    y := a.y ++ b.y
    px := a.px ++ b.px
    py := a.py ++ b.py
    pz := a.pz ++ b.pz
    qm := a.qm ++ b.qm
    qnorm := a.qnorm ++ b.qnorm
    id := a.id ++ b.id
    dt := a.dt ++ b.dt
    remaining := a.remaining ++ b.remaining }

/-- One entry of an npz archive: a float array or an integer array under a key. -/
inductive Arr (K : Type) where
  | f (l : List K)
  | i (l : List ℤ)

/-- save, data.py:80-84: the keyword arguments of `savez_compressed`. -/
def save (b : Beam K) : List (String × Arr K) :=
  [("xi", .f b.xi), ("x", .f b.x), ("y", .f b.y), ("px", .f b.px), ("py", .f b.py), ("pz", .f b.pz), ("q_m", .f b.qm),
   ("q_norm", .f b.qnorm), ("id", .i b.id)]

/-- `loaded[key]`: a missing key raises. -/
def key (a : List (String × Arr K)) (k : String) : Option (Arr K) := a.lookup k

def keyF (a : List (String × Arr K)) (k : String) : Option (List K) :=
  match key a k with
  | some (.f l) => some l
  | _ => none

def keyI (a : List (String × Arr K)) (k : String) : Option (List ℤ) :=
  match key a k with
  | some (.i l) => some l
  | _ => none

/-- load, data.py:65-78; `none` is an exception. -/
def load [Zero K] (a : List (String × Arr K)) : Option (Beam K) := do
  let xi ← keyF a "xi"
  let x ← keyF a "x"
  let y ← keyF a "y"
  let px ← keyF a "px"
  let py ← keyF a "py"
  let pz ← keyF a "pz"
  let qm ← keyF a "q_m"
  let qnorm ← keyF a "q_norm"
  let id ← keyI a "id"
  pure { xi := xi, x := x, y := y, px := px, py := py, pz := pz, qm := qm, qnorm := qnorm, id := id
         dt := List.replicate id.length 0, remaining := List.replicate id.length 0 }

end Beam

/-- BeamSource.get_beam_layer_to_layout, beam_io.py:29-47: counts the particles whose `xi` is in layer `i` and cuts as many off the head. -/
def getBeamLayerToLayout [Field K] [LinearOrder K] (h : K) (beam : Beam K) (i : ℕ) : Beam K × Beam K :=
  let xiMin := -h * i
  let xiMax := -h * (i + 1)
  let n := if beam.xi.length ≠ 0 then beam.xi.countP fun z => decide (xiMax ≤ z) && decide (z < xiMin) else 0
  beam.cut n

/-- BeamSource.__init__, beam_io.py:14-27 (the beam is a BeamParticles object). -/
def sourceInit [Neg K] (argsort : List K → List ℕ) (beam : Beam K) : Beam K := beam.xiSorted argsort

/-- The layers `i, ..., i + n - 1` a time step asks for, and the rest of the source. -/
def sourceLayers [Field K] [LinearOrder K] (h : K) : Beam K → ℕ → ℕ → List (Beam K) × Beam K
  | b, _, 0 => ([], b)
  | b, i, n + 1 =>
    let r := getBeamLayerToLayout h b i
    let rest := sourceLayers h r.2 (i + 1) n
    (r.1 :: rest.1, rest.2)

/-- BeamDrain.push_beam_layer, beam_io.py:61-66; the drain is its beam_buffer. -/
def drainPush (d b : Beam K) : Beam K := if b.id.length > 0 then d.append b else d

/-! ### Specification -/

namespace Beam

/-- The rows of a beam: position `k` of all arrays. -/
def rows (b : Beam K) : List (Row K) :=
  (b.xi.zip (b.x.zip (b.y.zip (b.px.zip (b.py.zip (b.pz.zip (b.qm.zip (b.qnorm.zip (b.id.zip (b.dt.zip b.remaining)))))))))).map
    fun t => ⟨t.1, t.2.1, t.2.2.1, t.2.2.2.1, t.2.2.2.2.1, t.2.2.2.2.2.1, t.2.2.2.2.2.2.1, t.2.2.2.2.2.2.2.1, t.2.2.2.2.2.2.2.2.1, t.2.2.2.2.2.2.2.2.2.1, t.2.2.2.2.2.2.2.2.2.2⟩

/-- All arrays have the same length. -/
structure WF (b : Beam K) (n : ℕ) : Prop where
  xi : b.xi.length = n
  x : b.x.length = n
  y : b.y.length = n
  px : b.px.length = n
  py : b.py.length = n
  pz : b.pz.length = n
  qm : b.qm.length = n
  qnorm : b.qnorm.length = n
  id : b.id.length = n
  dt : b.dt.length = n
  remaining : b.remaining.length = n

/-- The beam whose arrays are the columns of a list of rows. -/
def ofRows (t : List (Row K)) : Beam K :=
  { xi := t.map Row.xi, x := t.map Row.x, y := t.map Row.y, px := t.map Row.px, py := t.map Row.py, pz := t.map Row.pz
    qm := t.map Row.qm, qnorm := t.map Row.qnorm, id := t.map Row.id, dt := t.map Row.dt, remaining := t.map Row.remaining }

end Beam

/-- A particle is in layer `i` of the window: at or ahead of its tail side and behind its head side. -/
def InLayer [Field K] [LinearOrder K] (h : K) (i : ℕ) (z : K) : Prop := -(h * (i + 1)) ≤ z ∧ z < -(h * i)

instance [Field K] [LinearOrder K] (h : K) (i : ℕ) (z : K) : Decidable (InLayer h i z) := inferInstanceAs (Decidable (_ ∧ _))

theorem decide_inLayer [Field K] [LinearOrder K] (h : K) (i : ℕ) (z : K) : decide (InLayer h i z) = (decide (-(h * (i + 1)) ≤ z) && decide (z < -(h * i))) := by
  rw [Bool.eq_iff_iff, Bool.and_eq_true, decide_eq_true_iff, decide_eq_true_iff, decide_eq_true_iff]; exact Iff.rfl

/-! ### The arrays move together -/

theorem rows_ofRows (t : List (Row K)) : (Beam.ofRows t).rows = t := by
  unfold Beam.rows Beam.ofRows
  induction t with
  | nil => rfl
  | cons a t ih => simp only [List.map_cons, List.zip_cons_cons] at ih ⊢; rw [ih]

theorem wf_ofRows (t : List (Row K)) : (Beam.ofRows t).WF t.length := by
  constructor <;> simp [Beam.ofRows]

/-- A well-formed beam is the columns of its rows. -/
theorem ofRows_rows {b : Beam K} {n : ℕ} (hb : b.WF n) : Beam.ofRows b.rows = b := by
  obtain ⟨h1, h2, h3, h4, h5, h6, h7, h8, h9, h10, h11⟩ := hb
  rcases b with ⟨a1, a2, a3, a4, a5, a6, a7, a8, a9, a10, a11⟩
  simp only at h1 h2 h3 h4 h5 h6 h7 h8 h9 h10 h11
  induction n generalizing a1 a2 a3 a4 a5 a6 a7 a8 a9 a10 a11 with
  | zero =>
    rw [List.length_eq_zero_iff] at *
    subst_vars; rfl
  | succ n ih =>
    match a1, a2, a3, a4, a5, a6, a7, a8, a9, a10, a11, h1, h2, h3, h4, h5, h6, h7, h8, h9, h10, h11 with
    | c1 :: a1, c2 :: a2, c3 :: a3, c4 :: a4, c5 :: a5, c6 :: a6, c7 :: a7, c8 :: a8, c9 :: a9, c10 :: a10, c11 :: a11, h1, h2, h3, h4, h5, h6, h7, h8, h9, h10, h11 =>
      simp only [List.length_cons, Nat.add_right_cancel_iff] at h1 h2 h3 h4 h5 h6 h7 h8 h9 h10 h11
      have := ih a1 a2 a3 a4 a5 a6 a7 a8 a9 a10 a11 h1 h2 h3 h4 h5 h6 h7 h8 h9 h10 h11
      simp only [Beam.ofRows, Beam.rows, List.zip_cons_cons, List.map_cons, Beam.mk.injEq, List.cons.injEq, true_and] at this ⊢
      exact this

theorem rows_length {b : Beam K} {n : ℕ} (hb : b.WF n) : b.rows.length = n := by
  rw [← hb.xi]
  conv_rhs => rw [← ofRows_rows hb]
  simp [Beam.ofRows]

theorem mask_map {α β : Type*} (f : α → β) (l : List α) (m : List Bool) : mask (l.map f) m = (mask l m).map f := by
  unfold mask
  induction l generalizing m with
  | nil => simp
  | cons a l ih =>
    cases m with
    | nil => simp
    | cons c m => cases c <;> simp [List.filter_cons, ih m]

theorem mask_eq_filter {α : Type*} (l : List α) (p : α → Bool) : mask l (l.map p) = l.filter p := by
  unfold mask
  induction l with
  | nil => simp
  | cons a l ih => by_cases h : p a <;> simp [List.filter_cons, h, ih]

theorem append_ofRows (s t : List (Row K)) : (Beam.ofRows s).append (Beam.ofRows t) = Beam.ofRows (s ++ t) := by
  simp [Beam.append, Beam.ofRows]

theorem cut_ofRows (t : List (Row K)) (n : ℕ) : (Beam.ofRows t).cut n = (Beam.ofRows (t.take n), Beam.ofRows (t.drop n)) := by
  simp [Beam.cut, Beam.ofRows]

theorem getLayer_ofRows (t : List (Row K)) (m : List Bool) : (Beam.ofRows t).getLayer m = Beam.ofRows (mask t m) := by
  simp only [Beam.getLayer, Beam.ofRows, mask_map]

theorem xiSorted_ofRows [Neg K] (argsort : List K → List ℕ) (t : List (Row K)) :
    (Beam.ofRows t).xiSorted argsort = Beam.ofRows (gather t (argsort (t.map fun r => -r.xi))) := by
  simp only [Beam.xiSorted, Beam.ofRows, gather_map, List.map_map, Function.comp_def]

/-- C34: every operation on a beam treats all eleven arrays alike, so a particle keeps its own values: sorting permutes whole rows, a mask selects whole rows, cutting and appending keep rows together. -/
theorem operations_keep_rows [Field K] [LinearOrder K] (argsort : List K → List ℕ) (a b : Beam K) (m n : ℕ) (ha : a.WF m) (hb : b.WF n) (k : ℕ) (msk : List Bool) :
    ((b.append a).rows = b.rows ++ a.rows ∧ (b.append a).WF (n + m)) ∧
    ((b.cut k).1.rows = b.rows.take k ∧ (b.cut k).2.rows = b.rows.drop k) ∧
    ((b.getLayer msk).rows = mask b.rows msk) ∧
    ((b.xiSorted argsort).rows = gather b.rows (argsort (b.rows.map fun r => -r.xi))) := by
  rw [← ofRows_rows ha, ← ofRows_rows hb]
  generalize hta : a.rows = ta
  generalize htb : b.rows = tb
  have la : ta.length = m := by rw [← hta, rows_length ha]
  have lb : tb.length = n := by rw [← htb, rows_length hb]
  refine ⟨⟨?_, ?_⟩, ⟨?_, ?_⟩, ?_, ?_⟩
  · rw [append_ofRows]; simp only [rows_ofRows]
  · rw [append_ofRows, ← la, ← lb, ← List.length_append]; exact wf_ofRows _
  · rw [cut_ofRows]; simp only [rows_ofRows]
  · rw [cut_ofRows]; simp only [rows_ofRows]
  · rw [getLayer_ofRows]; simp only [rows_ofRows]
  · rw [xiSorted_ofRows]; simp only [rows_ofRows]

/-- C34: sorting the source is a permutation of the particles into order from head to tail. -/
theorem source_sorted [Field K] [LinearOrder K] [IsStrictOrderedRing K] (argsort : List K → List ℕ) (hs : IsArgsort (· ≤ ·) argsort) (b : Beam K) (n : ℕ) (hb : b.WF n) :
    ((sourceInit argsort b).rows.Perm b.rows) ∧ (sourceInit argsort b).rows.Pairwise (fun p q => q.xi ≤ p.xi) ∧ (sourceInit argsort b).WF n := by
  have e : sourceInit argsort b = Beam.ofRows (gather b.rows (argsort (b.rows.map fun r => -r.xi))) := by
    rw [sourceInit]; conv_lhs => rw [← ofRows_rows hb]
    exact xiSorted_ofRows _ _
  rw [e]
  have h := hs (b.rows.map fun r => -r.xi)
  rw [List.length_map] at h
  have hperm := gather_perm (l := b.rows) h.1
  refine ⟨?_, ?_, ?_⟩
  · rw [rows_ofRows]; exact hperm
  · rw [rows_ofRows]
    have h2 := h.2
    rw [gather_map, List.pairwise_map] at h2
    exact h2.imp (fun h => by linarith)
  · have := wf_ofRows (gather b.rows (argsort (b.rows.map fun r => -r.xi)))
    rwa [hperm.length_eq, rows_length hb] at this

/-! ### C34: what the source hands out -/

section Source
variable [Field K] [LinearOrder K] [IsStrictOrderedRing K]

/-- Number of particles with `-h i ≤ xi < 0`: those of the layers before `i`. -/
def before (h : K) (i : ℕ) (S : List (Row K)) : ℕ := S.countP fun r => decide (-(h * i) ≤ r.xi) && decide (r.xi < 0)

/-- Number of particles of layer `i`. -/
def inLayer (h : K) (i : ℕ) (S : List (Row K)) : ℕ := S.countP fun r => decide (InLayer h i r.xi)

theorem getBeamLayer_ofRows (h : K) (t : List (Row K)) (i : ℕ) :
    getBeamLayerToLayout h (Beam.ofRows t) i = (Beam.ofRows (t.take (inLayer h i t)), Beam.ofRows (t.drop (inLayer h i t))) := by
  have hn : (if (Beam.ofRows t).xi.length ≠ 0 then (Beam.ofRows t).xi.countP (fun z => decide (-h * (i + 1) ≤ z) && decide (z < -h * i)) else 0) = inLayer h i t := by
    have e : (Beam.ofRows t).xi.countP (fun z => decide (-h * (i + 1) ≤ z) && decide (z < -h * i)) = inLayer h i t := by
      unfold inLayer Beam.ofRows
      rw [List.countP_map]
      apply List.countP_congr
      intro r _
      simp only [Function.comp, decide_inLayer, neg_mul]
    split_ifs with h0
    · exact e
    · simp only [Beam.ofRows, List.length_map, ne_eq, not_not, List.length_eq_zero_iff] at h0
      subst h0; rfl
  unfold getBeamLayerToLayout
  simp only
  rw [hn, cut_ofRows]

/-- In a list ordered from head to tail the particles at or ahead of a point are a prefix. -/
theorem take_sorted (S : List (Row K)) (hS : S.Pairwise fun p q => q.xi ≤ p.xi) (c : K) (n : ℕ) (hn : n ≤ S.countP fun r => decide (c ≤ r.xi)) :
    ∀ r ∈ S.take n, c ≤ r.xi := by
  have h := Lcode.Beam2D.take_countP_of_first (fun r : Row K => decide (c ≤ r.xi)) S
    (hS.imp (by intro a b hab hb; simp only [decide_eq_true_eq] at hb ⊢; linarith))
  intro r hr
  have : r ∈ S.take (S.countP fun r => decide (c ≤ r.xi)) := (List.take_subset_take_left S hn) hr
  rw [h.1] at this
  simpa using (List.mem_filter.mp this).2

theorem before_succ (h : K) (hh : 0 < h) (i : ℕ) (S : List (Row K)) : before h (i + 1) S = before h i S + inLayer h i S := by
  unfold before inLayer
  induction S with
  | nil => rfl
  | cons a S ih =>
    simp only [List.countP_cons, ih]
    have hi : (0 : K) ≤ h * i := by positivity
    have e : (h * ((i + 1 : ℕ) : K)) = h * i + h := by push_cast; ring
    have e2 : h * ((i : K) + 1) = h * i + h := by ring
    simp only [decide_inLayer, Bool.and_eq_true, decide_eq_true_eq, e, e2]
    by_cases h1 : -(h * i) ≤ a.xi
    · have : ¬ (a.xi < -(h * i)) := not_lt.mpr h1
      have h2 : -(h * i + h) ≤ a.xi := by linarith
      by_cases h3 : a.xi < 0
      · simp only [h1, h2, h3, this, decide_true, decide_false, and_true, and_false, false_and, if_true, if_false, reduceIte, true_and, Bool.false_eq_true]; omega
      · simp only [h1, h2, h3, this, decide_true, decide_false, and_true, and_false, false_and, if_true, if_false, reduceIte, true_and, Bool.false_eq_true]; omega
    · have h3 : a.xi < 0 := by linarith [not_le.mp h1]
      have h4 := not_le.mp h1
      by_cases h2 : -(h * i + h) ≤ a.xi
      · simp only [h1, h2, h3, h4, decide_true, decide_false, and_true, and_false, false_and, if_true, if_false, reduceIte, true_and, Bool.false_eq_true]; omega
      · simp only [h1, h2, h3, h4, decide_true, decide_false, and_true, and_false, false_and, if_true, if_false, reduceIte, true_and, Bool.false_eq_true]; omega

theorem inLayer_drop (h : K) (i : ℕ) (S : List (Row K)) (hS : S.Pairwise fun p q => q.xi ≤ p.xi) : inLayer h i (S.drop (before h i S)) = inLayer h i S := by
  have hsplit : inLayer h i S = inLayer h i (S.take (before h i S)) + inLayer h i (S.drop (before h i S)) := by
    unfold inLayer
    rw [← List.countP_append, List.take_append_drop]
  have h0 : inLayer h i (S.take (before h i S)) = 0 := by
    unfold inLayer
    rw [List.countP_eq_zero]
    intro r hr
    have hle : before h i S ≤ S.countP fun r => decide (-(h * i) ≤ r.xi) := by
      unfold before
      apply List.countP_mono_left
      intro r _ hr
      simp only [Bool.and_eq_true] at hr
      exact hr.1
    have := take_sorted S hS _ _ hle r hr
    simp only [decide_inLayer, Bool.and_eq_true, decide_eq_true_eq, not_and, not_lt]
    intro _; exact this
  omega

/-- C34: whatever the beam, layer `i` of the sweep gets the next `n_i` particles of the beam ordered from head to tail, where `n_i` is the number of particles whose coordinate lies in that layer, and the particles left at the end are the ones behind all of those. -/
theorem source_by_count (h : K) (hh : 0 < h) (S : List (Row K)) (hS : S.Pairwise fun p q => q.xi ≤ p.xi) (n i : ℕ) :
    sourceLayers h (Beam.ofRows (S.drop (before h i S))) i n =
      ((List.range n).map (fun j => Beam.ofRows ((S.drop (before h (i + j) S)).take (inLayer h (i + j) S))), Beam.ofRows (S.drop (before h (i + n) S))) := by
  induction n generalizing i with
  | zero => simp [sourceLayers]
  | succ n ih =>
    simp only [sourceLayers]
    rw [getBeamLayer_ofRows, inLayer_drop h i S hS]
    simp only [List.drop_drop]
    rw [← before_succ h hh, ih (i + 1)]
    rw [List.range_succ_eq_map, List.map_cons, List.map_map]
    simp only [Nat.add_zero, Function.comp_def]
    have e : ∀ j, i + 1 + j = i + (j + 1) := fun j => by omega
    simp only [e, Nat.succ_eq_add_one]

/-- C34: when every particle is behind the window head (`xi < 0`), layer `i` consists of exactly the particles whose coordinate lies in layer `i`, and what is left are exactly the particles behind the window. -/
theorem source_layers (argsort : List K → List ℕ) (hs : IsArgsort (· ≤ ·) argsort) (b : Beam K) (m : ℕ) (hb : b.WF m) (h : K) (hh : 0 < h)
    (hneg : ∀ r ∈ b.rows, r.xi < 0) (n : ℕ) :
    ((sourceLayers h (sourceInit argsort b) 0 n).1.map Beam.rows) =
        (List.range n).map (fun i => (sourceInit argsort b).rows.filter fun r => decide (InLayer h i r.xi)) ∧
    (sourceLayers h (sourceInit argsort b) 0 n).2.rows = (sourceInit argsort b).rows.filter fun r => decide (r.xi < -(h * n)) := by
  obtain ⟨hp, hS, hw⟩ := source_sorted argsort hs b m hb
  have hneg' : ∀ r ∈ (sourceInit argsort b).rows, r.xi < 0 := fun r hr => hneg r (hp.mem_iff.mp hr)
  rw [← ofRows_rows hw]
  simp only [rows_ofRows]
  generalize (sourceInit argsort b).rows = S at hS hneg'
  have hb0 : before h 0 S = 0 := by
    unfold before
    rw [List.countP_eq_zero]
    intro r hr
    have := hneg' r hr
    simp only [Nat.cast_zero, mul_zero, neg_zero, Bool.and_eq_true, decide_eq_true_eq, not_and]
    intro h1; linarith
  have key := source_by_count h hh S hS n 0
  rw [hb0, List.drop_zero] at key
  rw [key]
  have hdrop : ∀ i, S.drop (before h i S) = S.filter fun r => decide (r.xi < -(h * i)) := by
    intro i
    have := (Lcode.Beam2D.take_countP_of_first (fun r : Row K => decide (-(h * i) ≤ r.xi)) S
      (hS.imp (by intro a b hab hb; simp only [decide_eq_true_eq] at hb ⊢; linarith))).2
    have hc : before h i S = S.countP fun r => decide (-(h * i) ≤ r.xi) := by
      unfold before
      apply List.countP_congr
      intro r hr
      simp [hneg' r hr]
    rw [hc, this]
    apply List.filter_congr
    intro r _
    by_cases h1 : -(h * i) ≤ r.xi <;> simp [h1, not_lt.mpr, not_le.mp]
  refine ⟨?_, ?_⟩
  · rw [List.map_map]
    apply List.map_congr_left
    intro i _
    simp only [Function.comp, rows_ofRows, Nat.zero_add]
    rw [← inLayer_drop h i S hS, hdrop i]
    have hsub : (S.filter fun r => decide (r.xi < -(h * i))).Pairwise fun p q => q.xi ≤ p.xi := hS.filter _
    have := (Lcode.Beam2D.take_countP_of_first (fun r : Row K => decide (-(h * (i + 1)) ≤ r.xi)) _
      (hsub.imp (by intro a b hab hb; simp only [decide_eq_true_eq] at hb ⊢; linarith))).1
    have hc : inLayer h i (S.filter fun r => decide (r.xi < -(h * i))) = (S.filter fun r => decide (r.xi < -(h * i))).countP fun r => decide (-(h * (i + 1)) ≤ r.xi) := by
      unfold inLayer
      apply List.countP_congr
      intro r hr
      have := (List.mem_filter.mp hr).2
      simp only [decide_eq_true_eq] at this
      simp [decide_inLayer, this]
    rw [hc, this, List.filter_filter]
    apply List.filter_congr
    intro r _
    simp [decide_inLayer]
  · simp only [rows_ofRows, Nat.zero_add]
    exact hdrop n

/-- C34: every particle of the window (`-h n ≤ xi < 0`) is handed out exactly once during the `n` layers of a time step. -/
theorem source_delivers_once (argsort : List K → List ℕ) (hs : IsArgsort (· ≤ ·) argsort) (b : Beam K) (m : ℕ) (hb : b.WF m) (h : K) (hh : 0 < h)
    (hneg : ∀ r ∈ b.rows, r.xi < 0) (n : ℕ) :
    ((sourceLayers h (sourceInit argsort b) 0 n).1.flatMap Beam.rows).Perm (b.rows.filter fun r => decide (-(h * n) ≤ r.xi)) := by
  obtain ⟨hp, hS, hw⟩ := source_sorted argsort hs b m hb
  have hl := source_layers argsort hs b m hb h hh hneg n
  have hneg' : ∀ r ∈ (sourceInit argsort b).rows, r.xi < 0 := fun r hr => hneg r (hp.mem_iff.mp hr)
  have e : (sourceLayers h (sourceInit argsort b) 0 n).1.flatMap Beam.rows = ((sourceLayers h (sourceInit argsort b) 0 n).1.map Beam.rows).flatten := by
    rw [List.flatMap_def]
  rw [e, hl.1]
  refine List.Perm.trans ?_ (hp.filter _)
  generalize (sourceInit argsort b).rows = S at hneg'
  clear e hl hp hS hw
  induction n with
  | zero =>
    simp only [List.range_zero, List.map_nil, List.flatten_nil, Nat.cast_zero, mul_zero, neg_zero]
    rw [List.filter_eq_nil_iff.mpr]
    intro r hr; simpa using hneg' r hr
  | succ n ih =>
    rw [List.range_succ, List.map_append, List.flatten_append]
    simp only [List.map_cons, List.map_nil, List.flatten_cons, List.flatten_nil, List.append_nil]
    refine (ih.append_right _).trans ?_
    have e1 : S.filter (fun r => decide (-(h * n) ≤ r.xi)) = (S.filter fun r => decide (-(h * ((n + 1 : ℕ) : K)) ≤ r.xi)).filter fun r => decide (-(h * n) ≤ r.xi) := by
      rw [List.filter_filter]
      apply List.filter_congr
      intro r _
      by_cases h1 : -(h * n) ≤ r.xi
      · have : -(h * ((n + 1 : ℕ) : K)) ≤ r.xi := by push_cast; linarith
        simp [h1]; push_cast at this; linarith
      · simp [h1]
    have e2 : S.filter (fun r => decide (InLayer h n r.xi)) = (S.filter fun r => decide (-(h * ((n + 1 : ℕ) : K)) ≤ r.xi)).filter fun r => !decide (-(h * n) ≤ r.xi) := by
      rw [List.filter_filter]
      apply List.filter_congr
      intro r _
      by_cases h1 : -(h * n) ≤ r.xi
      · simp [decide_inLayer, h1]
      · simp [decide_inLayer, h1, not_le.mp h1]
    rw [e1, e2]
    exact List.filter_append_perm _ _

end Source

/-- The order of the source is determined when the coordinates differ. -/
theorem sourceInit_unique [Field K] [LinearOrder K] [IsStrictOrderedRing K] (argsort : List K → List ℕ) (hs : IsArgsort (· ≤ ·) argsort) (t S : List (Row K)) (hp : S.Perm t)
    (hS : S.Pairwise fun p q => q.xi < p.xi) : sourceInit argsort (Beam.ofRows t) = Beam.ofRows S := by
  obtain ⟨h1, h2, h3⟩ := source_sorted argsort hs (Beam.ofRows t) _ (wf_ofRows t)
  rw [← ofRows_rows h3]
  congr 1
  rw [rows_ofRows] at h1
  refine List.Perm.eq_of_pairwise (le := fun p q : Row K => q.xi ≤ p.xi) ?_ h2 (hS.imp (fun h => le_of_lt h)) (h1.trans hp.symm)
  intro p q hp' hq hpq hqp
  have hpS : p ∈ S := hp.symm.subset (h1.subset hp')
  have heq : p.xi = q.xi := le_antisymm hqp hpq
  by_contra hne
  rw [List.pairwise_iff_getElem] at hS
  obtain ⟨i, hi, rfl⟩ := List.getElem_of_mem hpS
  obtain ⟨j, hj, rfl⟩ := List.getElem_of_mem hq
  rcases lt_trichotomy i j with h | h | h
  · exact absurd heq (ne_of_gt (hS i j hi hj h))
  · subst h; exact hne rfl
  · exact absurd heq (ne_of_lt (hS j i hj hi h))

/-- C34, refutation without the head condition: a particle at or ahead of the head is handed out in the place of another one, and as many particles of the window are never handed out. Here the particle with id 7 sits at `xi = 0` and the particle with id 8, in the middle of layer 0, is left in the source after all layers. -/
theorem source_displaced_by_head (argsort : List ℚ → List ℕ) (hs : IsArgsort (· ≤ ·) argsort) :
    let beam : Beam ℚ := Beam.ofRows [⟨-1 / 2, 0, 0, 0, 0, 5, 1, 1, 8, 0, 0⟩, ⟨0, 0, 0, 0, 0, 5, 1, 1, 7, 0, 0⟩]
    ((sourceLayers 1 (sourceInit argsort beam) 0 3).1.map fun b => b.id) = [[7], [], []] ∧ (sourceLayers 1 (sourceInit argsort beam) 0 3).2.id = [8] := by
  intro beam
  rw [show sourceInit argsort beam = Beam.ofRows [⟨0, 0, 0, 0, 0, 5, 1, 1, 7, 0, 0⟩, ⟨-1 / 2, 0, 0, 0, 0, 5, 1, 1, 8, 0, 0⟩] from
    sourceInit_unique argsort hs _ _ (by decide +kernel) (by norm_num)]
  decide +kernel

/-- C34: in general the number of particles handed out in `n` layers is the number of particles in the window, so each particle at or ahead of the head displaces one. -/
theorem source_displacement [Field K] [LinearOrder K] [IsStrictOrderedRing K] (argsort : List K → List ℕ) (hs : IsArgsort (· ≤ ·) argsort) (b : Beam K) (m : ℕ) (hb : b.WF m) (h : K) (hh : 0 < h) (n : ℕ) :
    (sourceLayers h (sourceInit argsort b) 0 n).1.flatMap Beam.rows =
      (sourceInit argsort b).rows.take (b.rows.countP fun r => decide (-(h * n) ≤ r.xi) && decide (r.xi < 0)) := by
  obtain ⟨hp, hS, hw⟩ := source_sorted argsort hs b m hb
  have hcount : (b.rows.countP fun r => decide (-(h * n) ≤ r.xi) && decide (r.xi < 0)) = before h n (sourceInit argsort b).rows := by
    unfold before; exact (hp.countP_eq _).symm
  rw [hcount]
  conv_lhs => rw [← ofRows_rows hw]
  generalize (sourceInit argsort b).rows = S at hS
  have hb0 : before h 0 S = 0 := by
    unfold before
    rw [List.countP_eq_zero]
    intro r _
    simp only [Nat.cast_zero, mul_zero, neg_zero, Bool.and_eq_true, decide_eq_true_eq, not_and, not_lt, imp_self]
  have key := source_by_count h hh S hS n 0
  rw [hb0, List.drop_zero] at key
  rw [key]
  simp only [Nat.zero_add]
  clear key
  induction n with
  | zero => simp [hb0]
  | succ n ih =>
    rw [List.range_succ, List.map_append, List.flatMap_append]
    simp only [List.map_cons, List.map_nil, List.flatMap_cons, List.flatMap_nil, List.append_nil, rows_ofRows]
    rw [before_succ h hh, List.take_add]
    congr 1
    clear ih hcount
    induction n with
    | zero => simp [hb0]
    | succ n ih =>
      rw [List.range_succ, List.map_append, List.flatMap_append, ih]
      simp only [List.map_cons, List.map_nil, List.flatMap_cons, List.flatMap_nil, List.append_nil, rows_ofRows]
      rw [before_succ h hh n, List.take_add]

/-! ### C39, 3D: save and load -/

/-- C39: loading what the 3D beam saved gives the same particles, ready for a new time step (`dt` and `remaining_steps` zero). -/
theorem load_save [Zero K] (b : Beam K) : Beam.load b.save = some { b with dt := List.replicate b.id.length 0, remaining := List.replicate b.id.length 0 } := by
  simp [Beam.load, Beam.save, Beam.keyF, Beam.keyI, Beam.key, List.lookup]

/-- C34, C39: a beam table given by the user becomes the particles of that table, row by row, ready for a time step. -/
theorem initGenerated_rows [Zero K] (t : List (Row K)) : (Beam.initGenerated t).rows = t.map fun r => { r with dt := 0, remaining := 0 } := by
  have : Beam.initGenerated t = Beam.ofRows (t.map fun r => { r with dt := 0, remaining := 0 }) := by
    simp [Beam.initGenerated, Beam.ofRows, Function.comp_def]
  rw [this, rows_ofRows]

/-- The hypotheses of C34 are met: three particles, out of order, one of them on the edge between two layers of width 1. -/
example (argsort : List ℚ → List ℕ) (hs : IsArgsort (· ≤ ·) argsort) :
    ((sourceLayers 1 (sourceInit argsort (Beam.ofRows [⟨-3 / 2, 0, 0, 0, 0, 5, 1, 1, 1, 0, 0⟩, ⟨-1 / 2, 0, 0, 0, 0, 5, 1, 1, 2, 0, 0⟩, ⟨-1, 0, 0, 0, 0, 5, 1, 1, 3, 0, 0⟩])) 0 2).1.map fun b => b.id) = [[2, 3], [1]] := by
  rw [sourceInit_unique argsort hs _ [⟨-1 / 2, 0, 0, 0, 0, 5, 1, 1, 2, 0, 0⟩, ⟨-1, 0, 0, 0, 0, 5, 1, 1, 3, 0, 0⟩, ⟨-3 / 2, 0, 0, 0, 0, 5, 1, 1, 1, 0, 0⟩] (by decide +kernel) (by norm_num)]
  decide +kernel

example : ∃ argsort : List ℚ → List ℕ, IsArgsort (· ≤ ·) argsort := ⟨npArgsort, npArgsort_correct⟩

end Lcode.Beam3D
