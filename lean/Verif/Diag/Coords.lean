import Verif.Diag.Slice
import Mathlib.Data.List.Forall2

/-!
C37, C38: which points of the window the recorded values belong to, and what the recorded energy flux measures.
-/

namespace Lcode.Diag

open Lcode.Py

variable {K : Type*} [Field K] [LinearOrder K] [IsStrictOrderedRing K] [FloorRing K]

/-! ### Probes -/

/-- `v` is the value of the array at a node within half a cell of `(x, y)`; the nodes are at `-m h, ..., m h`. -/
def AtNode (g : Grid K) (m : ℕ) (h x y v : K) : Prop :=
  ∃ i j : ℕ, i < 2 * m + 1 ∧ j < 2 * m + 1 ∧ |((i : K) - m) * h - x| ≤ h / 2 ∧ |((j : K) - m) * h - y| ≤ h / 2 ∧ v = g.at' i j

theorem read_atNode {h : K} (hh : 0 < h) (m : ℕ) (g : Grid K) (hg : g.n = 2 * m + 1) (x y : K) (hx : |x| ≤ m * h) (hy : |y| ≤ m * h) :
    ∃ v, g.read (probeIndex (2 * m + 1) h x) (probeIndex (2 * m + 1) h y) = some v ∧ AtNode g m h x y v := by
  obtain ⟨i, hi, ei, di⟩ := probe_inside hh m x hx
  obtain ⟨j, hj, ej, dj⟩ := probe_inside hh m y hy
  refine ⟨g.at' i j, ?_, i, j, hi, hj, di, dj, rfl⟩
  rw [Grid.read, hg, ei, ej]; rfl

theorem mapM_forall₂ {A B : Type*} (R : B → A → Prop) (r : A → Option B) (l : List A) (h : ∀ a ∈ l, ∃ v, r a = some v ∧ R v a) :
    ∃ vs, l.mapM r = some vs ∧ List.Forall₂ R vs l := by
  induction l with
  | nil => exact ⟨[], rfl, List.Forall₂.nil⟩
  | cons a l ih =>
    obtain ⟨v, hv, hr⟩ := h a (by simp)
    obtain ⟨vs, hvs, hf⟩ := ih fun b hb => h b (by simp [hb])
    exact ⟨v :: vs, by rw [List.mapM_cons, hv, hvs]; rfl, List.Forall₂.cons hr hf⟩

/-- C37: probes given as two lists of coordinates inside the window are read, pair by pair and in order, at the nearest node: the first list is `x` (first index), the second `y`. -/
theorem plane_probe_values {h : K} (hh : 0 < h) (m : ℕ) (g : Grid K) (hg : g.n = 2 * m + 1) (xs ys : List K) (hx : ∀ x ∈ xs, |x| ≤ m * h) (hy : ∀ y ∈ ys, |y| ≤ m * h) :
    ∃ vs, g.probe (probes3 (2 * m + 1) h (.plane xs ys)) = some (.arr vs) ∧ List.Forall₂ (fun v p => AtNode g m h p.1 p.2 v) vs (xs.zip ys) := by
  obtain ⟨vs, h1, h2⟩ := mapM_forall₂ (fun v (p : K × K) => AtNode g m h p.1 p.2 v)
    (fun p => g.read (probeIndex (2 * m + 1) h p.1) (probeIndex (2 * m + 1) h p.2)) (xs.zip ys)
    fun p hp => read_atNode hh m g hg p.1 p.2 (hx _ (List.of_mem_zip hp).1) (hy _ (List.of_mem_zip hp).2)
  refine ⟨vs, ?_, h2⟩
  simp only [probes3, Grid.probe, List.mapM_map]
  have : (fun p : ℤ × ℤ => g.read p.1 p.2) ∘ (fun p : K × K => (probeIndex (2 * m + 1) h p.1, probeIndex (2 * m + 1) h p.2)) =
      fun p => g.read (probeIndex (2 * m + 1) h p.1) (probeIndex (2 * m + 1) h p.2) := rfl
  rw [this, h1]; rfl

/-- C37: probes given as one list of coordinates are read at the nearest nodes of the line `y = 0`. -/
theorem line_probe_values {h : K} (hh : 0 < h) (m : ℕ) (g : Grid K) (hg : g.n = 2 * m + 1) (xs : List K) (hx : ∀ x ∈ xs, |x| ≤ m * h) :
    ∃ vs, g.probe (probes3 (2 * m + 1) h (.line xs)) = some (.arr vs) ∧ List.Forall₂ (fun v x => AtNode g m h x 0 v) vs xs := by
  have h0 : |(0 : K)| ≤ m * h := by rw [abs_zero]; positivity
  obtain ⟨vs, h1, h2⟩ := mapM_forall₂ (fun v (x : K) => AtNode g m h x 0 v)
    (fun x => g.read (probeIndex (2 * m + 1) h x) (probeIndex (2 * m + 1) h 0)) xs
    fun x hx' => read_atNode hh m g hg x 0 (hx x hx') h0
  refine ⟨vs, ?_, h2⟩
  simp only [probes3, Grid.probe, List.mapM_map]
  have : (fun p : ℤ × ℤ => g.read p.1 p.2) ∘ (fun x : K => (probeIndex (2 * m + 1) h x, probeIndex (2 * m + 1) h 0)) =
      fun x => g.read (probeIndex (2 * m + 1) h x) (probeIndex (2 * m + 1) h 0) := rfl
  rw [this, h1]; rfl

/-- C37: without probe lines the value on the axis is recorded: the central node. -/
theorem axis_probe_value {h : K} (m : ℕ) (g : Grid K) (hg : g.n = 2 * m + 1) :
    g.probe (probes3 (2 * m + 1) h .axis) = some (.num (g.at' m m)) := by
  have hd : (2 * m + 1) / 2 = m := by omega
  have e : probeIndex (2 * m + 1) h 0 = m := by
    have : (0 : K) / h = ((0 : ℤ) : K) := by simp
    rw [probeIndex, this, pyRound_intCast, hd, add_zero]
  simp only [probes3, e, Grid.probe, Grid.read, hg, npIndex]
  rw [if_pos (by push_cast; omega)]
  rfl

theorem readList_nearest {h : K} (hh : 0 < h) (a : List K) (x : K) (hx0 : 0 ≤ x) (hx : x + h ≤ a.length * h) :
    ∃ v, readList a (pyRound (x / h)) = some v ∧ ∃ i : ℕ, |(i : K) * h - x| ≤ h / 2 ∧ a[i]? = some v := by
  have habs := abs_pyRound_sub_le (x / h)
  have habs' := habs
  rw [abs_le] at habs
  have h0 : 0 ≤ x / h := div_nonneg hx0 hh.le
  have h1 : x / h ≤ (a.length : K) - 1 := by rw [div_le_iff₀ hh]; linarith
  have g0 : 0 ≤ pyRound (x / h) := by
    by_contra hc
    have : (pyRound (x / h) : K) ≤ -1 := by exact_mod_cast (by omega : pyRound (x / h) ≤ -1)
    linarith
  have g1 : pyRound (x / h) < a.length := by
    by_contra hc
    have : (a.length : K) ≤ (pyRound (x / h) : K) := by exact_mod_cast (by omega : (a.length : ℤ) ≤ pyRound (x / h))
    linarith
  have hlt : (pyRound (x / h)).toNat < a.length := by omega
  refine ⟨a[(pyRound (x / h)).toNat], ?_, (pyRound (x / h)).toNat, ?_, List.getElem?_eq_getElem hlt⟩
  · rw [readList, npIndex, if_pos ⟨g0, g1⟩, Option.bind_some, List.getElem?_eq_getElem hlt]
  · have e : (((pyRound (x / h)).toNat : ℕ) : K) = (pyRound (x / h) : K) := by
      have : (((pyRound (x / h)).toNat : ℕ) : ℤ) = pyRound (x / h) := by omega
      exact_mod_cast congrArg (Int.cast : ℤ → K) this
    have e2 : (pyRound (x / h) : K) * h - x = ((pyRound (x / h) : K) - x / h) * h := by field_simp
    rw [e, e2, abs_mul, abs_of_pos hh]
    nlinarith

/-- C37, 2D: probe radii inside the window (nodes `0, h, ..., (n - 1) h`) are read, in order, at the nearest node. -/
theorem radial_probe_values (sqrt : K → K) {h : K} (hh : 0 < h) (a : List K) (xs : List K) (hx : ∀ x ∈ xs, 0 ≤ x ∧ x + h ≤ a.length * h) :
    ∃ vs, probeList a (probes2 sqrt h (.line xs)) = some (.arr vs) ∧ List.Forall₂ (fun v x => ∃ i : ℕ, |(i : K) * h - x| ≤ h / 2 ∧ a[i]? = some v) vs xs := by
  obtain ⟨vs, h1, h2⟩ := mapM_forall₂ (fun v (x : K) => ∃ i : ℕ, |(i : K) * h - x| ≤ h / 2 ∧ a[i]? = some v) (fun x => readList a (pyRound (x / h))) xs
    fun x hx' => readList_nearest hh a x (hx x hx').1 (hx x hx').2
  refine ⟨vs, ?_, h2⟩
  simp only [probes2, probeList, List.mapM_map]
  have : readList a ∘ (fun x : K => pyRound (x / h)) = fun x => readList a (pyRound (x / h)) := rfl
  rw [this, h1]; rfl

/-- C37, 2D: probes given as Cartesian coordinates are read at the node nearest to their distance from the axis. -/
theorem radial_plane_values (sqrt : K → K) {h : K} (hh : 0 < h) (a : List K) (xs ys : List K)
    (hx : ∀ p ∈ xs.zip ys, 0 ≤ sqrt (p.1 ^ 2 + p.2 ^ 2) ∧ sqrt (p.1 ^ 2 + p.2 ^ 2) + h ≤ a.length * h) :
    ∃ vs, probeList a (probes2 sqrt h (.plane xs ys)) = some (.arr vs) ∧
      List.Forall₂ (fun v p => ∃ i : ℕ, |(i : K) * h - sqrt (p.1 ^ 2 + p.2 ^ 2)| ≤ h / 2 ∧ a[i]? = some v) vs (xs.zip ys) := by
  obtain ⟨vs, h1, h2⟩ := mapM_forall₂ (fun v (p : K × K) => ∃ i : ℕ, |(i : K) * h - sqrt (p.1 ^ 2 + p.2 ^ 2)| ≤ h / 2 ∧ a[i]? = some v)
    (fun p => readList a (pyRound (sqrt (p.1 ^ 2 + p.2 ^ 2) / h))) (xs.zip ys)
    fun p hp => readList_nearest hh a _ (hx p hp).1 (hx p hp).2
  refine ⟨vs, ?_, h2⟩
  simp only [probes2, probeList, List.mapM_map]
  have : readList a ∘ (fun p : K × K => pyRound (sqrt (p.1 ^ 2 + p.2 ^ 2) / h)) = fun p => readList a (pyRound (sqrt (p.1 ^ 2 + p.2 ^ 2) / h)) := rfl
  rw [this, h1]; rfl

/-! ### Coordinates stored with a slice -/

theorem range'_forall₂ {A B : Type*} (R : A → B → Prop) (f : ℕ → A) (g : ℕ → B) (a n : ℕ) (h : ∀ i, a ≤ i → i < a + n → R (f i) (g i)) :
    List.Forall₂ R ((List.range' a n).map f) ((List.range' a n).map g) := by
  rw [List.forall₂_map_left_iff, List.forall₂_map_right_iff, List.forall₂_same]
  intro i hi
  rw [List.mem_range'_1] at hi
  exact h i hi.1 hi.2

theorem nodeIndex_le (N : ℕ) (h : K) (upper : ℤ) (hu : upper ≤ N) (x : K) : nodeIndex N h upper x ≤ N := by
  unfold nodeIndex clip; omega

/-- C38, `XI_X`: the coordinates stored in the file are, value by value, those of the nodes that the recorded values come from, on the line of the offset. -/
theorem slicerX_coords (N : ℕ) (h : K) (lim : Limits K) (off : K) (g : Grid K) (hg : g.n = N) (hoff : offsetIndex N h N off < N) :
    ∃ (xs vs : List K), (slicerX N h lim off).grid = [xs] ∧
      g.column (nodeIndex N h N lim.from2) (nodeIndex N h N lim.to2) (offsetIndex N h N off) = some (.arr vs) ∧
      List.Forall₂ (fun v x => ∃ i : ℕ, i < N ∧ x = ((i : K) - ((N / 2 : ℕ) : K)) * h ∧ v = g.at' i (offsetIndex N h N off)) vs xs := by
  have hb := nodeIndex_le N h N le_rfl lim.to2
  refine ⟨_, (List.range' (nodeIndex N h N lim.from2) (nodeIndex N h N lim.to2 - nodeIndex N h N lim.from2)).map fun i => g.at' i (offsetIndex N h N off), rfl, ?_, ?_⟩
  · rw [Grid.column, hg, if_pos hoff, min_eq_left hb]
  · exact range'_forall₂ _ _ _ _ _ fun i h1 h2 => ⟨i, by omega, rfl, rfl⟩

/-- C38, `XI_Y`: likewise; the line of the offset is along the second index. -/
theorem slicerY_coords (N : ℕ) (hN : 0 < N) (h : K) (lim : Limits K) (off : K) (g : Grid K) (hg : g.n = N) :
    ∃ (ys vs : List K), (slicerY N h lim off).grid = [ys] ∧
      g.rowOf (offsetIndex N h ((N : ℤ) - 1) off) (nodeIndex N h N lim.from2) (nodeIndex N h N lim.to2) = some (.arr vs) ∧
      List.Forall₂ (fun v y => ∃ j : ℕ, j < N ∧ y = ((j : K) - ((N / 2 : ℕ) : K)) * h ∧ v = g.at' (offsetIndex N h ((N : ℤ) - 1) off) j) vs ys := by
  have hb := nodeIndex_le N h N le_rfl lim.to2
  have ho : offsetIndex N h ((N : ℤ) - 1) off < N := by unfold offsetIndex clip; omega
  refine ⟨_, (List.range' (nodeIndex N h N lim.from2) (nodeIndex N h N lim.to2 - nodeIndex N h N lim.from2)).map fun j => g.at' (offsetIndex N h ((N : ℤ) - 1) off) j, rfl, ?_, ?_⟩
  · rw [Grid.rowOf, hg, if_pos ho, min_eq_left hb]
  · exact range'_forall₂ _ _ _ _ _ fun i h1 h2 => ⟨i, by omega, rfl, rfl⟩

/-- C38, `X_Y`: the two stored coordinate lists are those of the rows and of the columns of the recorded block. -/
theorem slicerXY_coords (N : ℕ) (h : K) (lim : Limits K) (period dt xiPeriod dxi : K) (s : Slicer K (Layer3 K)) (hs : slicerXY N h lim period dt xiPeriod dxi = some s)
    (g : Grid K) (hg : g.n = N) :
    ∃ (xs ys : List K) (vs : List (List K)), s.grid = [xs, ys] ∧
      g.block (nodeIndex N h ((N : ℤ) - 1) lim.from1) (nodeIndex N h ((N : ℤ) - 1) lim.to1) (nodeIndex N h ((N : ℤ) - 1) lim.from2) (nodeIndex N h ((N : ℤ) - 1) lim.to2) =
        some (.grid vs) ∧
      List.Forall₂ (fun row x => ∃ i : ℕ, i < N ∧ x = ((i : K) - ((N / 2 : ℕ) : K)) * h ∧
        List.Forall₂ (fun v y => ∃ j : ℕ, j < N ∧ y = ((j : K) - ((N / 2 : ℕ) : K)) * h ∧ v = g.at' i j) row ys) vs xs := by
  have hb1 := nodeIndex_le N h ((N : ℤ) - 1) (by omega) lim.to1
  have hb2 := nodeIndex_le N h ((N : ℤ) - 1) (by omega) lim.to2
  unfold slicerXY at hs
  simp only at hs
  split_ifs at hs with hlen
  have hs := Option.some.inj hs
  subst hs
  refine ⟨_, _, (List.range' (nodeIndex N h ((N : ℤ) - 1) lim.from1) (nodeIndex N h ((N : ℤ) - 1) lim.to1 - nodeIndex N h ((N : ℤ) - 1) lim.from1)).map fun i => (List.range' (nodeIndex N h ((N : ℤ) - 1) lim.from2) (nodeIndex N h ((N : ℤ) - 1) lim.to2 - nodeIndex N h ((N : ℤ) - 1) lim.from2)).map fun j => g.at' i j, rfl, ?_, ?_⟩
  · rw [Grid.block, hg, min_eq_left hb1, min_eq_left hb2]
  · exact range'_forall₂ _ _ _ _ _ fun i h1 h2 => ⟨i, by omega, rfl, range'_forall₂ _ _ _ _ _ fun j h3 h4 => ⟨j, by omega, rfl, rfl⟩⟩

/-- C38, 2D: the stored radii are those of the recorded nodes (the grid has `⌊W / h⌋ + 1` nodes). -/
theorem slicerR_coords (W h : K) (lim : Limits K) (v : List K) (hv : (v.length : ℤ) = ⌊W / h⌋ + 1) :
    ∃ rs, (slicerR W h lim).grid = [rs] ∧
      List.Forall₂ (fun x r => ∃ i : ℕ, r = (i : K) * h ∧ v[i]? = some x) ((v.take (radialIndex W h lim.to2)).drop (radialIndex W h lim.from2)) rs := by
  have hb : radialIndex W h lim.to2 ≤ v.length := by unfold radialIndex clip; omega
  refine ⟨_, rfl, ?_⟩
  generalize radialIndex W h lim.to2 = b at hb
  generalize radialIndex W h lim.from2 = a
  rw [List.forall₂_iff_get]
  refine ⟨by simp [hb], fun i h1 h2 => ⟨a + i, ?_, ?_⟩⟩
  · simp
  · simp only [List.length_drop, List.length_take] at h1
    simp only [List.get_eq_getElem, List.getElem_drop, List.getElem_take]
    exact List.getElem?_eq_getElem (by omega)

/-- C38, 2D, user limits: a node is part of the slice only if its radius is between `from - h/2` and `to - h/2` ... -/
theorem radial_limits_sound {h : K} (hh : 0 < h) (W : K) (i : ℕ) (x y : K) (hi : (i : ℤ) ≤ ⌊W / h⌋) (h1 : radialIndex W h x ≤ i) (h2 : i < radialIndex W h y) :
    x - h / 2 ≤ (i : K) * h ∧ (i : K) * h ≤ y - h / 2 := by
  have hx := abs_pyRound_sub_le (x / h)
  have hy := abs_pyRound_sub_le (y / h)
  rw [abs_le] at hx hy
  have r1 : pyRound (x / h) ≤ i := by unfold radialIndex clip at h1; omega
  have r2 : (i : ℤ) + 1 ≤ pyRound (y / h) := by unfold radialIndex clip at h2; omega
  have r1' : (pyRound (x / h) : K) ≤ i := by exact_mod_cast r1
  have r2' : (i : K) + 1 ≤ (pyRound (y / h) : K) := by exact_mod_cast r2
  constructor
  · have : x / h - 1 / 2 ≤ (i : K) := by linarith
    have := mul_le_mul_of_nonneg_right this hh.le
    rw [sub_mul, div_mul_cancel₀ _ hh.ne'] at this
    linarith
  · have : (i : K) ≤ y / h - 1 / 2 := by linarith
    have := mul_le_mul_of_nonneg_right this hh.le
    rw [sub_mul (y / h), div_mul_cancel₀ _ hh.ne'] at this
    linarith

/-- ... and every node with radius between `from + h/2` and `to - h/2` (exclusive) is, up to and including the wall. -/
theorem radial_limits_complete {h : K} (hh : 0 < h) (W : K) (i : ℕ) (x y : K) (hi : (i : ℤ) ≤ ⌊W / h⌋) (h1 : x + h / 2 ≤ (i : K) * h) (h2 : (i : K) * h < y - h / 2) :
    radialIndex W h x ≤ i ∧ i < radialIndex W h y := by
  have hx := abs_pyRound_sub_le (x / h)
  have hy := abs_pyRound_sub_le (y / h)
  rw [abs_le] at hx hy
  have d1 : x / h + 1 / 2 ≤ (i : K) := by
    rw [← sub_nonneg, ← mul_nonneg_iff_of_pos_right hh, sub_mul, add_mul, div_mul_cancel₀ _ hh.ne']
    linarith
  have d2 : (i : K) < y / h - 1 / 2 := by
    rw [← sub_pos, ← mul_pos_iff_of_pos_right hh, sub_mul, sub_mul (y / h), div_mul_cancel₀ _ hh.ne']
    linarith
  have r1 : pyRound (x / h) ≤ (i : ℤ) := by
    have : (pyRound (x / h) : K) ≤ i := by linarith
    exact_mod_cast this
  have r2 : (i : ℤ) < pyRound (y / h) := by
    have : (i : K) < (pyRound (y / h) : K) := by linarith
    exact_mod_cast this
  unfold radialIndex clip
  omega

theorem mapM_none_of_mem {E B : Type*} (r : E → Option B) (es : List E) (h : ∃ e ∈ es, r e = none) : es.mapM r = none := by
  induction es with
  | nil => simp at h
  | cons e es ih =>
    rw [List.mapM_cons]
    cases hr : r e with
    | none => rfl
    | some v =>
      obtain ⟨e', he', hn⟩ := h
      rcases List.mem_cons.mp he' with rfl | he'
      · rw [hr] at hn; cases hn
      · rw [ih ⟨e', he', hn⟩]; rfl

/-- C37: a 2D slice of `Phi` raises at the first kept layer: the axisymmetric solver has no potential. -/
theorem slice_r_unsupported (W h : K) (lim : Limits K) (f : ℕ) (time : K) (l : Layer2 K) (hf : f &&& 0x40 ≠ 0) (hl : lim.to1 ≤ l.xi ∧ l.xi ≤ lim.from1) :
    (slicerR W h lim).proc f time l = none := by
  have hk : (slicerR W h lim).keep time l = true := (keep_iff lim l.xi).mpr hl
  unfold Slicer.proc
  rw [if_pos hk, mapM_none_of_mem]
  · rfl
  · refine ⟨⟨0x40, "Phi", fun _ => none⟩, List.mem_filter.mpr ⟨?_, by simpa using hf⟩, rfl⟩
    simp [slicerR, sliceTable2]

/-! ### The energy flux -/

theorem sum_eq_zero_of_nonneg (l : List K) (h : ∀ x ∈ l, 0 ≤ x) : l.sum = 0 ↔ ∀ x ∈ l, x = 0 := by
  induction l with
  | nil => simp
  | cons a l ih =>
    have ha := h a (by simp)
    have hl : ∀ x ∈ l, 0 ≤ x := fun x hx => h x (by simp [hx])
    have hs := List.sum_nonneg hl
    rw [List.sum_cons]
    constructor
    · intro he
      have h1 : a = 0 := by linarith
      have h2 : l.sum = 0 := by linarith
      intro x hx
      rcases List.mem_cons.mp hx with rfl | hx
      · exact h1
      · exact (ih hl).mp h2 x hx
    · intro he
      rw [he a (by simp), (ih hl).mpr fun x hx => he x (by simp [hx]), add_zero]

/-- The recorded energy flux is zero exactly when all plasma electrons are at rest and the fields carry no energy relative to the window: no longitudinal field, and transverse fields of a wave that moves with it
(`Ex = By`, `Ey = -Bx`), such as the field of the beam itself in vacuum. -/
theorem energyFlux_zero_iff (sqrt : K → K) (hs : ∀ y : K, 0 ≤ y → 0 ≤ sqrt y ∧ sqrt y ^ 2 = y) {h : K} (hh : 0 < h) (l : Layer3 K)
    (hm : ∀ m ∈ l.electrons.m, 0 ≤ m) :
    energyFlux sqrt h l = 0 ↔
      (∀ p ∈ l.electrons.m.zip (l.electrons.px.zip (l.electrons.py.zip l.electrons.pz)), p.2.1 = 0 ∧ p.2.2.1 = 0 ∧ p.2.2.2 = 0) ∧
      ∀ i j, i < l.Ez.n → j < l.Ez.n → l.Ez.at' i j = 0 ∧ l.Bz.at' i j = 0 ∧ l.Ex.at' i j = l.By.at' i j ∧ l.Ey.at' i j = -l.Bx.at' i j := by
  have hmono : ∀ x y : K, 0 ≤ x → x ^ 2 ≤ y → x ≤ sqrt y := by
    intro x y hx hxy
    obtain ⟨h1, h2⟩ := hs y ((sq_nonneg x).trans hxy)
    exact abs_le_of_sq_le_sq' (by rw [h2]; exact hxy) h1 |>.2
  have hmot : ∀ x ∈ motionEnergy sqrt l.electrons, 0 ≤ x := by
    intro x hx
    obtain ⟨p, hp, rfl⟩ := List.mem_map.mp hx
    have := hmono p.1 (p.1 ^ 2 + p.2.1 ^ 2 + p.2.2.1 ^ 2 + p.2.2.2 ^ 2) (hm p.1 (List.of_mem_zip hp).1)
      (by nlinarith [sq_nonneg p.2.1, sq_nonneg p.2.2.1, sq_nonneg p.2.2.2])
    linarith
  have hfld : ∀ i j, 0 ≤ (fieldEnergy h l).at' i j := by intro i j; simp only [fieldEnergy]; positivity
  have hrow : ∀ x ∈ (List.range (fieldEnergy h l).n).map (fun i => ((List.range (fieldEnergy h l).n).map fun j => (fieldEnergy h l).at' i j).sum), 0 ≤ x := by
    intro x hx
    obtain ⟨i, _, rfl⟩ := List.mem_map.mp hx
    apply List.sum_nonneg
    intro y hy
    obtain ⟨j, _, rfl⟩ := List.mem_map.mp hy
    exact hfld i j
  have hsum1 := List.sum_nonneg hmot
  have hsum2 := List.sum_nonneg hrow
  have hsplit : energyFlux sqrt h l = 0 ↔ (motionEnergy sqrt l.electrons).sum = 0 ∧ (fieldEnergy h l).total = 0 := by
    unfold energyFlux
    constructor
    · intro he
      have h2' : 0 ≤ (fieldEnergy h l).total := hsum2
      constructor <;> linarith
    · rintro ⟨h1, h2⟩; rw [h1, h2, add_zero]
  rw [hsplit, sum_eq_zero_of_nonneg _ hmot, Grid.total, sum_eq_zero_of_nonneg _ hrow]
  constructor
  · rintro ⟨h1, h2⟩
    refine ⟨fun p hp => ?_, fun i j hi hj => ?_⟩
    · have h3 := h1 _ (List.mem_map_of_mem hp)
      have hpos : 0 ≤ p.1 ^ 2 + p.2.1 ^ 2 + p.2.2.1 ^ 2 + p.2.2.2 ^ 2 := by positivity
      have h4 := (hs _ hpos).2
      have h5 : sqrt (p.1 ^ 2 + p.2.1 ^ 2 + p.2.2.1 ^ 2 + p.2.2.2 ^ 2) = p.1 := by linarith
      rw [h5] at h4
      have a1 := sq_nonneg p.2.1
      have a2 := sq_nonneg p.2.2.1
      have a3 := sq_nonneg p.2.2.2
      refine ⟨pow_eq_zero_iff (two_ne_zero) |>.mp ?_, pow_eq_zero_iff (two_ne_zero) |>.mp ?_, pow_eq_zero_iff (two_ne_zero) |>.mp ?_⟩ <;> linarith
    · have h3 := h2 _ (List.mem_map_of_mem (List.mem_range.mpr hi))
      rw [sum_eq_zero_of_nonneg _ (by intro x hx; obtain ⟨j, _, rfl⟩ := List.mem_map.mp hx; exact hfld i j)] at h3
      have h4 := h3 _ (List.mem_map_of_mem (List.mem_range.mpr hj))
      simp only [fieldEnergy] at h4
      have hh2 : (0 : K) < h ^ 2 := by positivity
      have h5 : l.Ez.at' i j ^ 2 + l.Bz.at' i j ^ 2 + (l.Ex.at' i j - l.By.at' i j) ^ 2 + (l.Ey.at' i j + l.Bx.at' i j) ^ 2 = 0 := by
        have := mul_eq_zero.mp ((div_eq_zero_iff.mp h4).resolve_right two_ne_zero)
        exact this.resolve_right hh2.ne'
      have a1 := sq_nonneg (l.Ez.at' i j)
      have a2 := sq_nonneg (l.Bz.at' i j)
      have a3 := sq_nonneg (l.Ex.at' i j - l.By.at' i j)
      have a4 := sq_nonneg (l.Ey.at' i j + l.Bx.at' i j)
      have b1 : l.Ez.at' i j ^ 2 = 0 := by linarith
      have b2 : l.Bz.at' i j ^ 2 = 0 := by linarith
      have b3 : (l.Ex.at' i j - l.By.at' i j) ^ 2 = 0 := by linarith
      have b4 : (l.Ey.at' i j + l.Bx.at' i j) ^ 2 = 0 := by linarith
      refine ⟨pow_eq_zero_iff (two_ne_zero) |>.mp b1, pow_eq_zero_iff (two_ne_zero) |>.mp b2, ?_, ?_⟩
      · exact sub_eq_zero.mp (pow_eq_zero_iff (two_ne_zero) |>.mp b3)
      · exact eq_neg_of_add_eq_zero_left (pow_eq_zero_iff (two_ne_zero) |>.mp b4)
  · rintro ⟨h1, h2⟩
    refine ⟨fun x hx => ?_, fun x hx => ?_⟩
    · obtain ⟨p, hp, rfl⟩ := List.mem_map.mp hx
      obtain ⟨a, b, c⟩ := h1 p hp
      have hp1 := hm p.1 (List.of_mem_zip hp).1
      have e : p.1 ^ 2 + p.2.1 ^ 2 + p.2.2.1 ^ 2 + p.2.2.2 ^ 2 = p.1 ^ 2 := by rw [a, b, c]; ring
      rw [e]
      obtain ⟨c1, c2⟩ := hs (p.1 ^ 2) (sq_nonneg _)
      have : sqrt (p.1 ^ 2) = p.1 := by
        rcases sq_eq_sq_iff_eq_or_eq_neg.mp c2 with h | h
        · exact h
        · have : p.1 = 0 := by linarith
          rw [this] at h ⊢; simpa using h
      rw [this, sub_self]
    · obtain ⟨i, hi, rfl⟩ := List.mem_map.mp hx
      rw [List.mem_range] at hi
      apply List.sum_eq_zero
      intro y hy
      obtain ⟨j, hj, rfl⟩ := List.mem_map.mp hy
      rw [List.mem_range] at hj
      obtain ⟨a, b, c, d⟩ := h2 i j hi hj
      simp only [fieldEnergy, a, b, c, d]
      ring

/-- The normalisation: one electron of mass 3 moving with momentum 4 across a grid of one cell of side 2 with `Ez = 5`: kinetic energy `5 - 3`, field energy `25 / 2` per unit area times the area. -/
example : energyFlux (fun x : ℚ => if x = 25 then 5 else 0) 2
    ⟨0, ⟨1, fun _ _ => 0⟩, ⟨1, fun _ _ => 0⟩, ⟨1, fun _ _ => 5⟩, ⟨1, fun _ _ => 0⟩, ⟨1, fun _ _ => 0⟩, ⟨1, fun _ _ => 0⟩, ⟨1, fun _ _ => 0⟩, ⟨1, fun _ _ => 0⟩, ⟨1, fun _ _ => 0⟩,
      ⟨1, fun _ _ => 0⟩, ⟨[3], [0], [4], [0], ⟨1, fun _ _ => 0⟩, ⟨1, fun _ _ => 0⟩⟩⟩ = 2 + 25 / 2 * 4 := by
  decide +kernel

/-- The hypotheses are met: probes at 0.1 and -0.4 on a grid of five nodes with step 0.2. -/
example : (∀ x ∈ ([1 / 10, -2 / 5] : List ℚ), |x| ≤ ((2 : ℕ) : ℚ) * (1 / 5)) ∧
    (⟨5, fun i j => 10 * (i : ℚ) + j⟩ : Grid ℚ).probe (probes3 5 (1 / 5 : ℚ) (.line [1 / 10, -2 / 5])) = some (.arr [22, 2]) := by
  decide +kernel

/-- A 2D slice of a wall-reaching limit contains the wall node. -/
example : radialIndex (1 : ℚ) (1 / 5) 2 = 6 ∧ radialIndex (1 : ℚ) (1 / 5) 0 = 0 := by decide +kernel

end Lcode.Diag
