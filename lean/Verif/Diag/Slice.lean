import Verif.Diag.FXi

/-!
C38 (and C37): the `SliceDiag` diagnostic.

Model of lcode/diagnostics/slice.py:41-133 (the buffer is `Verif.Diag.Buffer`) and of its four slicers: `_3D_XI_X_Slicer` (:135-210), `_3D_XI_Y_Slicer` (:213-283),
`_3D_X_Y_Slicer` (:285-366), `_2D_XI_R_Slicer` (:369-438). `np.round` is `pyRound`, `//` on floats is the floor of the quotient.
-/

namespace Lcode.Diag

open Lcode.Py

variable {K : Type*} [Field K] [LinearOrder K] [IsStrictOrderedRing K] [FloorRing K]

/-- `np.clip(v, lo, hi)` -/
def clip (v lo hi : ℤ) : ℤ := min (max v lo) hi

/-- Two pairs of limits: slice.py:144-159. -/
structure Limits (K : Type*) where
  from1 : K
  to1 : K
  from2 : K
  to2 : K

/-- slice.py:144-148, :222-226: limits of a longitudinal slice when none are given. -/
def defaultXi (L W : K) : Limits K := ⟨0, -L, -(W / 2), W / 2⟩

/-- slice.py:295-299: limits of a transverse slice when none are given. -/
def defaultXY (W : K) : Limits K := ⟨-(W / 2), W / 2, -(W / 2), W / 2⟩

/-- slice.py:382-386: limits of a 2D slice when none are given. -/
def defaultR (L W : K) : Limits K := ⟨0, -L, 0, W⟩

/-- slice.py:166-167, :242-243 (upper = `x_steps`) and :312-316 (upper = `x_steps - 1`): the index of a transverse limit. -/
def nodeIndex (N : ℕ) (h : K) (upper : ℤ) (x : K) : ℕ := (clip (pyRound (x / h) + (N / 2 : ℕ)) 0 upper).toNat

/-- slice.py:171 (upper = `x_steps`), :247 (upper = `x_steps - 1`): the index of the offset. -/
def offsetIndex (N : ℕ) (h : K) (upper : ℤ) (off : K) : ℕ := (clip ((N / 2 : ℕ) + ⌊off / h⌋) 0 upper).toNat

/-- `(np.arange(a, b) - x_steps // 2) * grid_step_size`, slice.py:169, :245, :318-319. -/
def nodeCoords (N : ℕ) (h : K) (a b : ℕ) : List K := (List.range' a (b - a)).map fun i : ℕ => ((i : K) - ((N / 2 : ℕ) : K)) * h

/-- `array[a:b, off]`: the slice is cut at the end of the array; an index outside raises. -/
def Grid.column (g : Grid K) (a b off : ℕ) : Option (Val K) :=
  if off < g.n then some (.arr ((List.range' a (min b g.n - a)).map fun i => g.at' i off)) else none

/-- `array[off, a:b]` -/
def Grid.rowOf (g : Grid K) (off a b : ℕ) : Option (Val K) :=
  if off < g.n then some (.arr ((List.range' a (min b g.n - a)).map fun j => g.at' off j)) else none

/-- `array[a1:b1, a2:b2]` -/
def Grid.block (g : Grid K) (a1 b1 a2 b2 : ℕ) : Option (Val K) :=
  some (.grid ((List.range' a1 (min b1 g.n - a1)).map fun i => (List.range' a2 (min b2 g.n - a2)).map fun j => g.at' i j))

/-- One line `if self._diag._slice_value & SliceValue.X:`; `none` is an exception, `some none` a line that appends nothing. -/
structure Entry (K L : Type*) where
  mask : ℕ
  key : String
  read : L → Option (Option (Val K))

/-- A slicer: which layers it keeps, the chain of `if`s, and the stored grid `x`. -/
structure Slicer (K L : Type*) where
  keep : K → L → Bool
  xi : L → K
  table : List (Entry K L)
  grid : List (List K)

/-- The common shape of the four `process` methods: return unless the layer is kept; append `xi`; then the selected lines. -/
def Slicer.proc {L : Type*} (s : Slicer K L) (f : ℕ) (time : K) (l : L) : Option (List (String × Val K)) :=
  if s.keep time l then
    ((s.table.filter fun e : Entry K L => f &&& e.mask ≠ 0).mapM fun e : Entry K L => (e.read l).map fun v => v.map fun v => (e.key, v)).map fun vs =>
      ("xi", Val.num (s.xi l)) :: vs.filterMap id
  else some []

/-- The quantities of a 3D slice, slice.py:180-210, :254-283, :337-366, in order; `cut` is the part of the array that is taken. -/
def sliceTable3 (cut : Grid K → Option (Val K)) : List (Entry K (Layer3 K)) :=
  [⟨0x1, "Ex", fun l => (cut l.Ex).map some⟩,
   ⟨0x2, "Ey", fun l => (cut l.Ey).map some⟩,
   ⟨0x4, "Ez", fun l => (cut l.Ez).map some⟩,
   ⟨0x8, "Bx", fun l => (cut l.Bx).map some⟩,
   ⟨0x10, "By", fun l => (cut l.By).map some⟩,
   ⟨0x20, "Bz", fun l => (cut l.Bz).map some⟩,
   ⟨0x80, "ne", fun l => (cut l.ne).map some⟩,
   ⟨0x100, "ni", fun l => (cut l.ni).map some⟩,
   ⟨0x200, "rho_beam", fun l => (cut l.rhoBeam).map some⟩,
   ⟨0x40, "Phi", fun l => (cut l.Phi).map some⟩]

/-- slice.py:411-438: the quantities of a 2D slice. -/
def sliceTable2 (cut : List K → List K) : List (Entry K (Layer2 K)) :=
  [⟨0x1, "Er", fun l => some (some (.arr (cut l.Er)))⟩,
   ⟨0x2, "Ef", fun l => some (some (.arr (cut l.Ef)))⟩,
   ⟨0x4, "Ez", fun l => some (some (.arr (cut l.Ez)))⟩,
   ⟨0x8, "Bf", fun l => some (some (.arr (cut l.Bf)))⟩,
   ⟨0x10, "By", fun _ => some none⟩,
   ⟨0x20, "Bz", fun l => some (some (.arr (cut l.Bz)))⟩,
   ⟨0x80, "ne", fun l => some (some (.arr (cut l.rho0)))⟩,
   ⟨0x100, "ni", fun l => some (some (.arr (cut l.rho1)))⟩,
   ⟨0x200, "rho_beam", fun l => some (some (.arr (cut l.rhoBeam)))⟩,
   ⟨0x40, "Phi", fun _ => none⟩]

/-- slice.py:176, :251, :407: `if xi < to_1 or xi > from_1: return`. -/
def inLimits (lim : Limits K) (xi : K) : Bool := ¬ (xi < lim.to1 ∨ xi > lim.from1)

/-- slice.py:135-210. -/
def slicerX (N : ℕ) (h : K) (lim : Limits K) (off : K) : Slicer K (Layer3 K) :=
  let a := nodeIndex N h N lim.from2
  let b := nodeIndex N h N lim.to2
  ⟨fun _ l => inLimits lim l.xi, Layer3.xi, sliceTable3 fun g => g.column a b (offsetIndex N h N off), [nodeCoords N h a b]⟩

/-- slice.py:213-283. -/
def slicerY (N : ℕ) (h : K) (lim : Limits K) (off : K) : Slicer K (Layer3 K) :=
  let a := nodeIndex N h N lim.from2
  let b := nodeIndex N h N lim.to2
  ⟨fun _ l => inLimits lim l.xi, Layer3.xi, sliceTable3 fun g => g.rowOf (offsetIndex N h ((N : ℤ) - 1) off) a b, [nodeCoords N h a b]⟩

/-- slice.py:285-366: `conditions_check` uses the time and the layer coordinate; `np.vstack` (:320) raises if the two grids have different lengths. -/
def slicerXY (N : ℕ) (h : K) (lim : Limits K) (period dt xiPeriod dxi : K) : Option (Slicer K (Layer3 K)) :=
  let a1 := nodeIndex N h ((N : ℤ) - 1) lim.from1
  let b1 := nodeIndex N h ((N : ℤ) - 1) lim.to1
  let a2 := nodeIndex N h ((N : ℤ) - 1) lim.from2
  let b2 := nodeIndex N h ((N : ℤ) - 1) lim.to2
  if b1 - a1 = b2 - a2 then
    some ⟨fun time l => cond time period dt ∧ cond l.xi xiPeriod dxi, Layer3.xi, sliceTable3 fun g => g.block a1 b1 a2 b2,
      [nodeCoords N h a1 b1, nodeCoords N h a2 b2]⟩
  else none

/-- slice.py:376, :398-399: the radial index of a limit, clipped to `window_width // grid_step_size + 1`. -/
def radialIndex (W h x : K) : ℕ := (clip (pyRound (x / h)) 0 (⌊W / h⌋ + 1)).toNat

/-- slice.py:369-438. -/
def slicerR (W h : K) (lim : Limits K) : Slicer K (Layer2 K) :=
  let a := radialIndex W h lim.from2
  let b := radialIndex W h lim.to2
  ⟨fun _ l => inLimits lim l.xi, Layer2.xi, sliceTable2 fun v => (v.take b).drop a, [(List.range' a (b - a)).map fun i : ℕ => (i : K) * h]⟩

/-- `SliceDiag` after `pull_config`, slice.py:60-99. -/
def sliceCfg {L : Type*} (s : Slicer K L) (f : ℕ) (dt outputPeriod : K) : Cfg K L (Val K) :=
  ⟨adjust outputPeriod dt, dt, true, s.proc f⟩

/-! ### C37 for slices -/

/-- A slice file holds a time step: under `xi` the coordinates of the kept layers, and for each selected quantity its part of each kept layer, in order; nothing else. -/
def HoldsSlice {L : Type*} (s : Slicer K L) (f : ℕ) (file : File (Val K)) (st : K × List L) : Prop :=
  file.code = pyRound (100 * st.1) ∧
    (∀ e ∈ s.table, f &&& e.mask ≠ 0 → ∀ val : L → Option (Val K), (∀ l, e.read l = (val l).map some) →
      (file.data.get e.key).map some = (st.2.filter (s.keep st.1)).map val) ∧
    file.data.get "xi" = (st.2.filter (s.keep st.1)).map (fun l => Val.num (s.xi l)) ∧
    (∀ k, k ∈ file.data.keys → k = "xi" ∨ ∃ e ∈ s.table, f &&& e.mask ≠ 0 ∧ e.key = k)

theorem flatMap_filter_map {A B C : Type*} (l : List A) (p : A → Bool) (g : A → List B) (r : A → C) (q : B → C)
    (h1 : ∀ a ∈ l, p a = true → (g a).map q = [r a]) (h2 : ∀ a ∈ l, p a = false → g a = []) : (l.flatMap g).map q = (l.filter p).map r := by
  induction l with
  | nil => rfl
  | cons a l ih =>
    rw [List.flatMap_cons, List.map_append, ih (fun b hb => h1 b (by simp [hb])) (fun b hb => h2 b (by simp [hb]))]
    cases hp : p a with
    | false => rw [h2 a (by simp) hp, List.filter_cons_of_neg (by simp [hp])]; rfl
    | true => rw [h1 a (by simp) hp, List.filter_cons_of_pos hp]; rfl

theorem Slicer.proc_spec {L : Type*} (s : Slicer K L) (hnd : (s.table.map fun e => e.key).Nodup) (hxi : "xi" ∉ s.table.map fun e => e.key) (f : ℕ) (time : K) (l : L)
    (out : List (String × Val K)) (ho : s.proc f time l = some out) :
    (s.keep time l = false → out = []) ∧
    (s.keep time l = true →
      (∀ e ∈ s.table, f &&& e.mask ≠ 0 → ∃ v, e.read l = some v ∧ (out.filterMap fun kv => if kv.1 = e.key then some kv.2 else none) = v.toList) ∧
      (out.filterMap fun kv => if kv.1 = "xi" then some kv.2 else none) = [Val.num (s.xi l)]) ∧
    (∀ k, k ∈ out.map Prod.fst → k = "xi" ∨ ∃ e ∈ s.table, f &&& e.mask ≠ 0 ∧ e.key = k) := by
  unfold Slicer.proc at ho
  cases hk : s.keep time l with
  | false =>
    rw [hk] at ho
    have : out = [] := (Option.some.inj ho).symm
    subst this
    refine ⟨fun _ => rfl, ?_, ?_⟩
    · intro h; cases h
    · intro k hk; cases hk
  | true =>
    rw [hk, if_pos rfl] at ho
    obtain ⟨vs, h1, h2⟩ := Option.map_eq_some_iff.mp ho
    subst h2
    have hsub := List.filter_sublist (l := s.table) (p := fun e => decide (f &&& e.mask ≠ 0))
    have hnd' := List.Sublist.nodup (hsub.map fun e => e.key) hnd
    have hxi' : "xi" ∉ (s.table.filter fun e => decide (f &&& e.mask ≠ 0)).map fun e => e.key := fun hm => hxi ((hsub.map fun e => e.key).subset hm)
    obtain ⟨i1, i2, i3⟩ := contrib_entries_opt (fun e : Entry K L => e.key) (fun e l => e.read l) _ hnd' l ("xi", Val.num (s.xi l)) vs h1 hxi'
    refine ⟨(fun h => nomatch h), fun _ => ⟨?_, ?_⟩, ?_⟩
    · intro e he hf
      have hem : e ∈ s.table.filter fun e => decide (f &&& e.mask ≠ 0) := List.mem_filter.mpr ⟨he, by simpa using hf⟩
      obtain ⟨v, hv, hl⟩ := i1 e hem
      refine ⟨v, hv, ?_⟩
      have hne : ¬ "xi" = e.key := fun h => hxi (h ▸ List.mem_map_of_mem he)
      rw [List.filterMap_append] at hl
      rw [List.filterMap_cons]
      simp only [if_neg hne] at hl ⊢
      simpa [hne] using hl
    · rw [List.filterMap_append] at i2
      have hnil : ((vs.filterMap id).filterMap fun kv => if kv.1 = "xi" then some kv.2 else none) = [] := by
        have hlen := congrArg List.length i2
        rw [List.length_append] at hlen
        simp only [List.filterMap_cons, if_pos, List.filterMap_nil, List.length_cons, List.length_nil] at hlen
        exact List.length_eq_zero_iff.mp (by omega)
      rw [List.filterMap_cons]
      simp only [if_pos]
      rw [hnil]
    · intro k hk
      have : k ∈ (vs.filterMap id ++ [("xi", Val.num (s.xi l))]).map Prod.fst := by
        rw [List.map_cons, List.mem_cons] at hk
        rw [List.map_append, List.mem_append]
        rcases hk with rfl | hk
        · right; simp
        · left; exact hk
      rcases (i3 k).mp this with h | ⟨e, he, _, hk'⟩
      · exact Or.inl h
      · obtain ⟨a, b⟩ := List.mem_filter.mp he
        exact Or.inr ⟨e, a, by simpa using b, hk'⟩

theorem records_holdsSlice {L : Type*} (s : Slicer K L) (hnd : (s.table.map fun e => e.key).Nodup) (hxi : "xi" ∉ s.table.map fun e => e.key) (f : ℕ) (dt P : K)
    (file : File (Val K)) (st : K × List L) (hsome : ∀ l ∈ st.2, (s.proc f st.1 l).isSome)
    (hr : Records (sliceCfg s f dt P) [] file st) : HoldsSlice s f file st := by
  obtain ⟨h1, h2, h3⟩ := hr
  have hg : ∀ k, (Data.get ([] : Data (Val K)) k) = [] := fun _ => rfl
  refine ⟨h1, fun e he hf val hval => ?_, ?_, fun k hk => ?_⟩
  · rw [h2, hg, List.nil_append]
    apply flatMap_filter_map
    · intro l hl hk
      obtain ⟨out, ho⟩ := Option.isSome_iff_exists.mp (hsome l hl)
      obtain ⟨v, hv, hlist⟩ := ((s.proc_spec hnd hxi f st.1 l out ho).2.1 hk).1 e he hf
      show (((s.proc f st.1 l).getD []).filterMap _).map some = _
      rw [ho]
      show (out.filterMap fun kv => if kv.1 = e.key then some kv.2 else none).map some = _
      rw [hlist]
      rw [hval] at hv
      obtain ⟨w, hw, rfl⟩ := Option.map_eq_some_iff.mp hv
      rw [hw]; rfl
    · intro l hl hk
      obtain ⟨out, ho⟩ := Option.isSome_iff_exists.mp (hsome l hl)
      have := (s.proc_spec hnd hxi f st.1 l out ho).1 hk
      show ((s.proc f st.1 l).getD []).filterMap _ = _
      rw [ho, this]; rfl
  · rw [h2, hg, List.nil_append, ← List.map_id (st.2.flatMap _)]
    apply flatMap_filter_map
    · intro l hl hk
      obtain ⟨out, ho⟩ := Option.isSome_iff_exists.mp (hsome l hl)
      have := ((s.proc_spec hnd hxi f st.1 l out ho).2.1 hk).2
      rw [List.map_id]
      show ((s.proc f st.1 l).getD []).filterMap _ = _
      rw [ho]; exact this
    · intro l hl hk
      obtain ⟨out, ho⟩ := Option.isSome_iff_exists.mp (hsome l hl)
      have := (s.proc_spec hnd hxi f st.1 l out ho).1 hk
      show ((s.proc f st.1 l).getD []).filterMap _ = _
      rw [ho, this]; rfl
  · rcases (h3 k).mp hk with hk | ⟨l, hl, hk⟩
    · simp [Data.keys] at hk
    · obtain ⟨out, ho⟩ := Option.isSome_iff_exists.mp (hsome l hl)
      have hk' : k ∈ ((s.proc f st.1 l).getD []).map Prod.fst := hk
      rw [ho] at hk'
      exact (s.proc_spec hnd hxi f st.1 l out ho).2.2 k hk'

/-- C37 for slices: whatever the slicer, the files of a `SliceDiag` are those of the output steps, in order, each holding exactly its own step. -/
theorem slice_files {L : Type*} (s : Slicer K L) (hnd : (s.table.map fun e => e.key).Nodup) (hxi : "xi" ∉ s.table.map fun e => e.key) (f : ℕ) (dt P : K) (rank : ℕ)
    (hist : List (K × List L)) (files : List (File (Val K))) (b' : Buf (Val K)) (hrun : runDiag (sliceCfg s f dt P) (sliceInit rank) hist = some (files, b')) :
    List.Forall₂ (HoldsSlice s f) files (outSteps (sliceCfg s f dt P) (rank == 0) hist) := by
  have h1 := files_of_run (sliceCfg s f dt P) rfl _ _ _ _ hrun
  have h2 := runDiag_outSteps_some _ _ _ _ _ hrun
  have e : (sliceInit rank : Buf (Val K)).first = (rank == 0) := rfl
  rw [e] at h1 h2
  generalize outSteps (sliceCfg s f dt P) (rank == 0) hist = ss at h1 h2
  have later : ∀ (fs : List (File (Val K))) (ss : List (K × List L)),
      (∀ st ∈ ss, ∀ l ∈ st.2, ((sliceCfg s f dt P).proc st.1 l).isSome) →
      List.Forall₂ (Records (sliceCfg s f dt P) []) fs ss → List.Forall₂ (HoldsSlice s f) fs ss := by
    intro fs ss hs hfa
    induction hfa with
    | nil => exact List.Forall₂.nil
    | cons hr _ ih =>
      exact List.Forall₂.cons (records_holdsSlice s hnd hxi f dt P _ _ (hs _ (by simp)) hr) (ih fun st hs' => hs st (by simp [hs']))
  match files, ss with
  | [], [] => exact List.Forall₂.nil
  | [], _ :: _ => exact h1.elim
  | _ :: _, [] => exact h1.elim
  | fl :: fs, st :: ss =>
    exact List.Forall₂.cons (records_holdsSlice s hnd hxi f dt P _ _ (h2 _ (by simp)) h1.1) (later fs ss (fun st hs => h2 st (by simp [hs])) h1.2)

theorem sliceTable3_keys (cut : Grid K → Option (Val K)) :
    ((sliceTable3 cut).map fun e => e.key).Nodup ∧ "xi" ∉ (sliceTable3 cut).map fun e => e.key := by
  simp only [sliceTable3, List.map_cons, List.map_nil]; decide

theorem sliceTable2_keys (cut : List K → List K) :
    ((sliceTable2 cut).map fun e => e.key).Nodup ∧ "xi" ∉ (sliceTable2 cut).map fun e => e.key := by
  simp only [sliceTable2, List.map_cons, List.map_nil]; decide

/-- A file of a 3D slice holds a time step: `kept` are the layers within the limits; for each selected quantity the cut of its array in each kept layer, in order; the coordinates of
the kept layers; and no quantity that was not selected. -/
def HoldsSlice3 (cut : Grid K → Option (Val K)) (f : ℕ) (kept : List (Layer3 K)) (time : K) (file : File (Val K)) : Prop :=
  file.code = pyRound (100 * time) ∧
    (∀ q ∈ (grids3 : List (String × ℕ × (Layer3 K → Grid K))), f &&& q.2.1 ≠ 0 → (file.data.get q.1).map some = kept.map fun l => cut (q.2.2 l)) ∧
    file.data.get "xi" = kept.map (fun l => Val.num l.xi) ∧
    (∀ k, k ∈ file.data.keys → k = "xi" ∨ ∃ q ∈ (grids3 : List (String × ℕ × (Layer3 K → Grid K))), f &&& q.2.1 ≠ 0 ∧ q.1 = k)

theorem grids3_mem_table (cut : Grid K → Option (Val K)) (q : String × ℕ × (Layer3 K → Grid K)) (hq : q ∈ (grids3 : List (String × ℕ × (Layer3 K → Grid K)))) :
    (⟨q.2.1, q.1, fun l => (cut (q.2.2 l)).map some⟩ : Entry K (Layer3 K)) ∈ sliceTable3 cut := by
  simp only [grids3, List.mem_cons, List.not_mem_nil, or_false] at hq
  rcases hq with rfl | rfl | rfl | rfl | rfl | rfl | rfl | rfl | rfl | rfl <;> simp [sliceTable3]

theorem sliceTable3_mem_grids (cut : Grid K → Option (Val K)) (e : Entry K (Layer3 K)) (he : e ∈ sliceTable3 cut) :
    ∃ q ∈ (grids3 : List (String × ℕ × (Layer3 K → Grid K))), q.2.1 = e.mask ∧ q.1 = e.key := by
  simp only [sliceTable3, List.mem_cons, List.not_mem_nil, or_false] at he
  rcases he with rfl | rfl | rfl | rfl | rfl | rfl | rfl | rfl | rfl | rfl <;> simp [grids3]

theorem slice3_files (s : Slicer K (Layer3 K)) (cut : Grid K → Option (Val K)) (ht : s.table = sliceTable3 cut) (hx : s.xi = Layer3.xi) (f : ℕ) (dt P : K) (rank : ℕ)
    (hist : List (K × List (Layer3 K))) (files : List (File (Val K))) (b' : Buf (Val K)) (hrun : runDiag (sliceCfg s f dt P) (sliceInit rank) hist = some (files, b')) :
    List.Forall₂ (fun file st => HoldsSlice3 cut f (st.2.filter (s.keep st.1)) st.1 file) files (outSteps (sliceCfg s f dt P) (rank == 0) hist) := by
  have hk := sliceTable3_keys cut
  rw [← ht] at hk
  refine List.Forall₂.imp ?_ (slice_files s hk.1 hk.2 f dt P rank hist files b' hrun)
  rintro file st ⟨h1, h2, h3, h4⟩
  refine ⟨h1, fun q hq hf => ?_, by rw [h3, hx], fun k hk => ?_⟩
  · exact h2 _ (ht ▸ grids3_mem_table cut q hq) hf (fun l => cut (q.2.2 l)) fun _ => rfl
  · rcases h4 k hk with hk | ⟨e, he, hf, hke⟩
    · exact Or.inl hk
    · obtain ⟨q, hq, hm, hn⟩ := sliceTable3_mem_grids cut e (ht ▸ he)
      exact Or.inr ⟨q, hq, by rw [hm]; exact hf, by rw [hn, hke]⟩

/-- C37, `XI_X` slices: each file holds, for its own time step, the columns `from2 ≤ i < to2` of the line at the offset, for the layers with `to ≤ xi ≤ from`. -/
theorem slice_x_files (N : ℕ) (h : K) (lim : Limits K) (off : K) (f : ℕ) (dt P : K) (rank : ℕ) (hist : List (K × List (Layer3 K))) (files : List (File (Val K)))
    (b' : Buf (Val K)) (hrun : runDiag (sliceCfg (slicerX N h lim off) f dt P) (sliceInit rank) hist = some (files, b')) :
    List.Forall₂ (fun file st => HoldsSlice3
        (fun g => g.column (nodeIndex N h N lim.from2) (nodeIndex N h N lim.to2) (offsetIndex N h N off)) f
        (st.2.filter fun l => decide (lim.to1 ≤ l.xi ∧ l.xi ≤ lim.from1)) st.1 file)
      files (outSteps (sliceCfg (slicerX N h lim off) f dt P) (rank == 0) hist) := by
  refine List.Forall₂.imp ?_ (slice3_files (slicerX N h lim off)
    (fun g => g.column (nodeIndex N h N lim.from2) (nodeIndex N h N lim.to2) (offsetIndex N h N off)) rfl rfl f dt P rank hist files b' hrun)
  intro file st h1
  have e : (slicerX N h lim off).keep st.1 = fun l => decide (lim.to1 ≤ l.xi ∧ l.xi ≤ lim.from1) := by
    funext l; simp [slicerX, inLimits, not_or, not_lt]
  rwa [e] at h1

/-- C37, `XI_Y` slices. -/
theorem slice_y_files (N : ℕ) (h : K) (lim : Limits K) (off : K) (f : ℕ) (dt P : K) (rank : ℕ) (hist : List (K × List (Layer3 K))) (files : List (File (Val K)))
    (b' : Buf (Val K)) (hrun : runDiag (sliceCfg (slicerY N h lim off) f dt P) (sliceInit rank) hist = some (files, b')) :
    List.Forall₂ (fun file st => HoldsSlice3
        (fun g => g.rowOf (offsetIndex N h ((N : ℤ) - 1) off) (nodeIndex N h N lim.from2) (nodeIndex N h N lim.to2)) f
        (st.2.filter fun l => decide (lim.to1 ≤ l.xi ∧ l.xi ≤ lim.from1)) st.1 file)
      files (outSteps (sliceCfg (slicerY N h lim off) f dt P) (rank == 0) hist) := by
  refine List.Forall₂.imp ?_ (slice3_files (slicerY N h lim off)
    (fun g => g.rowOf (offsetIndex N h ((N : ℤ) - 1) off) (nodeIndex N h N lim.from2) (nodeIndex N h N lim.to2)) rfl rfl f dt P rank hist files b' hrun)
  intro file st h1
  have e : (slicerY N h lim off).keep st.1 = fun l => decide (lim.to1 ≤ l.xi ∧ l.xi ≤ lim.from1) := by
    funext l; simp [slicerY, inLimits, not_or, not_lt]
  rwa [e] at h1

/-- C37, `X_Y` slices: the layers near multiples of `saving_xi_period`, at times near multiples of the output period. -/
theorem slice_xy_files (N : ℕ) (h : K) (lim : Limits K) (dt P xiPeriod dxi : K) (s : Slicer K (Layer3 K)) (hs : slicerXY N h lim (adjust P dt) dt xiPeriod dxi = some s) (f : ℕ)
    (rank : ℕ) (hist : List (K × List (Layer3 K))) (files : List (File (Val K))) (b' : Buf (Val K)) (hrun : runDiag (sliceCfg s f dt P) (sliceInit rank) hist = some (files, b')) :
    List.Forall₂ (fun file st => HoldsSlice3
        (fun g => g.block (nodeIndex N h ((N : ℤ) - 1) lim.from1) (nodeIndex N h ((N : ℤ) - 1) lim.to1) (nodeIndex N h ((N : ℤ) - 1) lim.from2) (nodeIndex N h ((N : ℤ) - 1) lim.to2)) f
        (st.2.filter fun l => decide (cond st.1 (adjust P dt) dt ∧ cond l.xi xiPeriod dxi)) st.1 file)
      files (outSteps (sliceCfg s f dt P) (rank == 0) hist) := by
  unfold slicerXY at hs
  simp only at hs
  split_ifs at hs with hlen
  have hs := Option.some.inj hs
  subst hs
  refine List.Forall₂.imp ?_ (slice3_files _
    (fun g => g.block (nodeIndex N h ((N : ℤ) - 1) lim.from1) (nodeIndex N h ((N : ℤ) - 1) lim.to1) (nodeIndex N h ((N : ℤ) - 1) lim.from2) (nodeIndex N h ((N : ℤ) - 1) lim.to2))
    rfl rfl f dt P rank hist files b' hrun)
  intro file st h1
  exact h1

/-- The quantities of a 2D slice. -/
def radialSlice : List (String × ℕ × (Layer2 K → List K)) :=
  [("Er", 0x1, Layer2.Er), ("Ef", 0x2, Layer2.Ef), ("Ez", 0x4, Layer2.Ez), ("Bf", 0x8, Layer2.Bf), ("Bz", 0x20, Layer2.Bz),
   ("ne", 0x80, Layer2.rho0), ("ni", 0x100, Layer2.rho1), ("rho_beam", 0x200, Layer2.rhoBeam)]

/-- C37, 2D slices: each file holds, for its own time step, the nodes `from2 ≤ i < to2` of each selected radial array, for the layers with `to ≤ xi ≤ from`. -/
theorem slice_r_files (W h : K) (lim : Limits K) (f : ℕ) (dt P : K) (rank : ℕ) (hist : List (K × List (Layer2 K))) (files : List (File (Val K)))
    (b' : Buf (Val K)) (hrun : runDiag (sliceCfg (slicerR W h lim) f dt P) (sliceInit rank) hist = some (files, b')) :
    List.Forall₂ (fun file st =>
        file.code = pyRound (100 * st.1) ∧
        (∀ q ∈ (radialSlice : List (String × ℕ × (Layer2 K → List K))), f &&& q.2.1 ≠ 0 → file.data.get q.1 =
          (st.2.filter fun l => decide (lim.to1 ≤ l.xi ∧ l.xi ≤ lim.from1)).map fun l => Val.arr (((q.2.2 l).take (radialIndex W h lim.to2)).drop (radialIndex W h lim.from2))) ∧
        file.data.get "xi" = (st.2.filter fun l => decide (lim.to1 ≤ l.xi ∧ l.xi ≤ lim.from1)).map fun l => Val.num l.xi)
      files (outSteps (sliceCfg (slicerR W h lim) f dt P) (rank == 0) hist) := by
  have hk := sliceTable2_keys (K := K) fun v => (v.take (radialIndex W h lim.to2)).drop (radialIndex W h lim.from2)
  refine List.Forall₂.imp ?_ (slice_files (slicerR W h lim) hk.1 hk.2 f dt P rank hist files b' hrun)
  rintro file st ⟨h1, h2, h3, _⟩
  have e : (slicerR W h lim).keep st.1 = fun l => decide (lim.to1 ≤ l.xi ∧ l.xi ≤ lim.from1) := by
    funext l; simp [slicerR, inLimits, not_or, not_lt]
  rw [e] at h2 h3
  refine ⟨h1, fun q hq hf => ?_, h3⟩
  apply map_some_inj
  have hmem : (⟨q.2.1, q.1, fun l => some (some (.arr (((q.2.2 l).take (radialIndex W h lim.to2)).drop (radialIndex W h lim.from2))))⟩ : Entry K (Layer2 K)) ∈ (slicerR W h lim).table := by
    simp only [radialSlice, List.mem_cons, List.not_mem_nil, or_false] at hq
    rcases hq with rfl | rfl | rfl | rfl | rfl | rfl | rfl | rfl <;> simp [slicerR, sliceTable2]
  exact h2 _ hmem hf (fun l => some _) fun _ => rfl

/-! ### C38: which nodes -/

theorem pyRound_half (k : ℕ) : pyRound ((k : K) + 1 / 2) = k + (k % 2 : ℕ) ∧ pyRound (-((k : K) + 1 / 2)) = -(k : ℤ) - (k % 2 : ℕ) := by
  have f1 : ⌊(k : K) + 1 / 2⌋ = k := by
    rw [Int.floor_eq_iff]; push_cast; constructor <;> linarith
  have f2 : ⌊-((k : K) + 1 / 2)⌋ = -(k : ℤ) - 1 := by
    rw [Int.floor_eq_iff]; push_cast; constructor <;> linarith
  constructor
  · unfold pyRound
    simp only [f1]
    have : (k : K) + 1 / 2 - ((k : ℤ) : K) = 1 / 2 := by push_cast; ring
    rw [this, if_neg (lt_irrefl _), if_neg (lt_irrefl _)]
    split_ifs <;> omega
  · unfold pyRound
    simp only [f2]
    have : -((k : K) + 1 / 2) - ((-(k : ℤ) - 1 : ℤ) : K) = 1 / 2 := by push_cast; ring
    rw [this, if_neg (lt_irrefl _), if_neg (lt_irrefl _)]
    split_ifs <;> omega

/-- C38, longitudinal slices with default limits on the `2 k + 1` columns of a window of width `(2 k + 1) h` (the width is made an odd number of cells, C03): the slice begins
with the first column; it ends with the last one if `k` is odd, and misses it if `k` is even. -/
theorem default_columns {h : K} (hh : 0 < h) (k : ℕ) (L : K) :
    nodeIndex (2 * k + 1) h (2 * k + 1 : ℕ) (defaultXi L (((2 * k + 1 : ℕ) : K) * h)).from2 = 0 ∧
      nodeIndex (2 * k + 1) h (2 * k + 1 : ℕ) (defaultXi L (((2 * k + 1 : ℕ) : K) * h)).to2 = 2 * k + k % 2 := by
  have e1 : ((2 * k + 1 : ℕ) : K) * h / 2 / h = (k : K) + 1 / 2 := by push_cast; field_simp
  have e2 : -(((2 * k + 1 : ℕ) : K) * h / 2) / h = -((k : K) + 1 / 2) := by rw [← e1]; ring
  have hd : (2 * k + 1) / 2 = k := by omega
  obtain ⟨r1, r2⟩ := pyRound_half (K := K) k
  constructor
  · simp only [nodeIndex, defaultXi, e2, r2, hd, clip]
    omega
  · simp only [nodeIndex, defaultXi, e1, r1, hd, clip]
    omega

/-- The number of values of each recorded line and of the stored coordinates. -/
theorem column_coords (g : Grid K) (N : ℕ) (hg : g.n = N) (h : K) (a b off : ℕ) (hb : b ≤ N) (v : Val K) (hv : g.column a b off = some v) :
    ∃ l : List K, v = .arr l ∧ l.length = (nodeCoords N h a b).length ∧
      ∀ j (hj : j < l.length) (hj' : j < (nodeCoords N h a b).length),
        ∃ i : ℕ, a ≤ i ∧ i < b ∧ (nodeCoords N h a b)[j] = ((i : K) - ((N / 2 : ℕ) : K)) * h ∧ l[j] = g.at' i off := by
  unfold Grid.column at hv
  split_ifs at hv with ho
  have hv := Option.some.inj hv
  have hm : min b g.n = b := by omega
  rw [hm] at hv
  refine ⟨_, hv.symm, by simp [nodeCoords], fun j hj hj' => ⟨a + j, by omega, ?_, ?_, ?_⟩⟩
  · simp at hj; omega
  · simp [nodeCoords]
  · simp

/-- C38, refutation: for every `k` even (`N = 1, 5, 9, ...` cells) an `XI_X` or `XI_Y` slice with default limits has one value less per layer than the grid has columns: the last column is
missing; for `k` odd (`N = 3, 7, 11, ...`) it is complete. -/
theorem default_slice_complete_iff {h : K} (hh : 0 < h) (k : ℕ) (L : K) (off : ℕ) (ho : off < 2 * k + 1) (at' : ℕ → ℕ → K) :
    ((⟨2 * k + 1, at'⟩ : Grid K).column (nodeIndex (2 * k + 1) h (2 * k + 1 : ℕ) (defaultXi L (((2 * k + 1 : ℕ) : K) * h)).from2)
        (nodeIndex (2 * k + 1) h (2 * k + 1 : ℕ) (defaultXi L (((2 * k + 1 : ℕ) : K) * h)).to2) off =
      some (.arr ((List.range (2 * k + k % 2)).map fun i => at' i off))) ∧
    (2 * k + k % 2 = 2 * k + 1 ↔ k % 2 = 1) := by
  obtain ⟨h1, h2⟩ := default_columns hh k L
  rw [h1, h2]
  refine ⟨?_, by omega⟩
  unfold Grid.column
  rw [if_pos ho]
  have : min (2 * k + k % 2) (2 * k + 1) - 0 = 2 * k + k % 2 := by omega
  simp only [this, List.range_eq_range']

/-- C38, refutation for transverse slices: with default limits, for every grid size, an `X_Y` slice misses the last row and the last column. -/
theorem default_xy_misses_edge {h : K} (hh : 0 < h) (k : ℕ) (period dt xiPeriod dxi : K) :
    ∃ s, slicerXY (2 * k + 1) h (defaultXY (((2 * k + 1 : ℕ) : K) * h)) period dt xiPeriod dxi = some s ∧
      s.grid = [nodeCoords (2 * k + 1) h 0 (2 * k), nodeCoords (2 * k + 1) h 0 (2 * k)] ∧
      s.table = sliceTable3 fun g => g.block 0 (2 * k) 0 (2 * k) := by
  have e1 : ((2 * k + 1 : ℕ) : K) * h / 2 / h = (k : K) + 1 / 2 := by push_cast; field_simp
  have e2 : -(((2 * k + 1 : ℕ) : K) * h / 2) / h = -((k : K) + 1 / 2) := by rw [← e1]; ring
  have hd : (2 * k + 1) / 2 = k := by omega
  obtain ⟨r1, r2⟩ := pyRound_half (K := K) k
  have a : nodeIndex (2 * k + 1) h (((2 * k + 1 : ℕ) : ℤ) - 1) (-(((2 * k + 1 : ℕ) : K) * h / 2)) = 0 := by
    simp only [nodeIndex, e2, r2, hd, clip]; omega
  have b : nodeIndex (2 * k + 1) h (((2 * k + 1 : ℕ) : ℤ) - 1) (((2 * k + 1 : ℕ) : K) * h / 2) = 2 * k := by
    simp only [nodeIndex, e1, r1, hd, clip]; omega
  simp only [slicerXY, defaultXY, a, b, if_true]
  exact ⟨_, rfl, rfl, rfl⟩

/-- C38, user limits: a node of the window is part of a longitudinal slice only if its coordinate is between `from - h/2` and `to - h/2` ... -/
theorem limits_sound {h : K} (hh : 0 < h) (N i : ℕ) (x y : K) (hi : i < N) (h1 : nodeIndex N h N x ≤ i) (h2 : i < nodeIndex N h N y) :
    x - h / 2 ≤ ((i : K) - ((N / 2 : ℕ) : K)) * h ∧ ((i : K) - ((N / 2 : ℕ) : K)) * h ≤ y - h / 2 := by
  obtain ⟨q, hq⟩ : ∃ q, q = N / 2 := ⟨_, rfl⟩
  rw [← hq]
  have hx := abs_pyRound_sub_le (x / h)
  have hy := abs_pyRound_sub_le (y / h)
  rw [abs_le] at hx hy
  have r1 : pyRound (x / h) + q ≤ i := by
    unfold nodeIndex clip at h1; rw [← hq] at h1; omega
  have r2 : (i : ℤ) + 1 ≤ pyRound (y / h) + q := by
    unfold nodeIndex clip at h2; rw [← hq] at h2; omega
  have r1' : (pyRound (x / h) : K) + (q : K) ≤ i := by exact_mod_cast r1
  have r2' : (i : K) + 1 ≤ (pyRound (y / h) : K) + (q : K) := by exact_mod_cast r2
  constructor
  · have : x / h - 1 / 2 ≤ (i : K) - (q : K) := by linarith
    have := mul_le_mul_of_nonneg_right this hh.le
    rw [sub_mul, div_mul_cancel₀ _ hh.ne'] at this
    linarith
  · have : (i : K) - (q : K) ≤ y / h - 1 / 2 := by linarith
    have := mul_le_mul_of_nonneg_right this hh.le
    rw [sub_mul (y / h), div_mul_cancel₀ _ hh.ne'] at this
    linarith

/-- ... and every node with coordinate between `from + h/2` and `to - h/2` (exclusive) is part of it. -/
theorem limits_complete {h : K} (hh : 0 < h) (N i : ℕ) (x y : K) (hi : i < N) (h1 : x + h / 2 ≤ ((i : K) - ((N / 2 : ℕ) : K)) * h)
    (h2 : ((i : K) - ((N / 2 : ℕ) : K)) * h < y - h / 2) : nodeIndex N h N x ≤ i ∧ i < nodeIndex N h N y := by
  obtain ⟨q, hq⟩ : ∃ q, q = N / 2 := ⟨_, rfl⟩
  rw [← hq] at h1 h2
  have hx := abs_pyRound_sub_le (x / h)
  have hy := abs_pyRound_sub_le (y / h)
  rw [abs_le] at hx hy
  have d1 : x / h + 1 / 2 ≤ (i : K) - (q : K) := by
    rw [← sub_nonneg, ← mul_nonneg_iff_of_pos_right hh, sub_mul, add_mul, div_mul_cancel₀ _ hh.ne']
    linarith
  have d2 : (i : K) - (q : K) < y / h - 1 / 2 := by
    rw [← sub_pos, ← mul_pos_iff_of_pos_right hh, sub_mul, sub_mul (y / h), div_mul_cancel₀ _ hh.ne']
    linarith
  have r1' : (pyRound (x / h) : K) + (q : K) ≤ i := by linarith
  have r2' : (i : K) < (pyRound (y / h) : K) + (q : K) := by linarith
  have r1 : pyRound (x / h) + q ≤ (i : ℤ) := by exact_mod_cast r1'
  have r2 : (i : ℤ) < pyRound (y / h) + q := by exact_mod_cast r2'
  unfold nodeIndex clip
  rw [← hq]
  omega

/-- C38: the line of a longitudinal slice at a given offset is the grid line just below it (not the nearest one): the offset is at most one whole cell above it. -/
theorem offset_line {h : K} (hh : 0 < h) (N : ℕ) (hN : 0 < N) (off : K) (h1 : -(((N / 2 : ℕ) : K) * h) ≤ off) (h2 : off < ((N : K) - ((N / 2 : ℕ) : K)) * h) (upper : ℤ)
    (hu : (N : ℤ) - 1 ≤ upper) :
    offsetIndex N h upper off < N ∧ (((offsetIndex N h upper off : ℕ) : K) - ((N / 2 : ℕ) : K)) * h ≤ off ∧
      off < (((offsetIndex N h upper off : ℕ) : K) - ((N / 2 : ℕ) : K) + 1) * h := by
  obtain ⟨q, hq⟩ : ∃ q, q = N / 2 := ⟨_, rfl⟩
  rw [← hq] at h1 h2
  rw [← hq]
  have f1 := Int.floor_le (off / h)
  have f2 := Int.lt_floor_add_one (off / h)
  have d1 : -(q : K) ≤ off / h := by rw [le_div_iff₀ hh]; linarith
  have d2 : off / h < (N : K) - (q : K) := by rw [div_lt_iff₀ hh]; exact h2
  have g1 : -(q : ℤ) ≤ ⌊off / h⌋ := by rw [Int.le_floor]; push_cast at d1 ⊢; exact_mod_cast d1
  have g2 : ⌊off / h⌋ < (N : ℤ) - q := by
    rw [Int.floor_lt]; exact_mod_cast d2
  have e : ((offsetIndex N h upper off : ℕ) : ℤ) = q + ⌊off / h⌋ := by
    unfold offsetIndex clip; rw [← hq]; omega
  have e' : ((offsetIndex N h upper off : ℕ) : K) = (q : K) + (⌊off / h⌋ : K) := by exact_mod_cast congrArg (Int.cast : ℤ → K) e
  refine ⟨by omega, ?_, ?_⟩
  · rw [e', add_sub_cancel_left, ← le_div_iff₀ hh]; exact f1
  · rw [e', add_sub_cancel_left, ← div_lt_iff₀ hh]; exact f2

/-- C38, refutation: an `XI_X` slice whose offset is beyond the positive edge of the window raises an IndexError at the first kept layer (whatever quantity is selected), although the offset is clipped:
to one more than the last column. -/
theorem xi_x_offset_raises {h : K} (hh : 0 < h) (N : ℕ) (lim : Limits K) (off : K) (ho : ((N : K) - ((N / 2 : ℕ) : K)) * h ≤ off) (f : ℕ) (time : K) (l : Layer3 K)
    (hl : lim.to1 ≤ l.xi ∧ l.xi ≤ lim.from1) (hf : f &&& 0x4 ≠ 0) (hn : l.Ez.n = N) : (slicerX N h lim off).proc f time l = none := by
  obtain ⟨q, hq⟩ : ∃ q, q = N / 2 := ⟨_, rfl⟩
  rw [← hq] at ho
  have d2 : (N : K) - (q : K) ≤ off / h := by rw [le_div_iff₀ hh]; exact ho
  have g2 : (N : ℤ) - q ≤ ⌊off / h⌋ := by rw [Int.le_floor]; exact_mod_cast d2
  have e : offsetIndex N h N off = N := by unfold offsetIndex clip; rw [← hq]; omega
  have hk : (slicerX N h lim off).keep time l = true := by
    simp only [slicerX, inLimits]
    simp [hl.1, hl.2]
  have key : ∀ es : List (Entry K (Layer3 K)), (∃ e ∈ es, e.read l = none) →
      es.mapM (fun e => (e.read l).map fun v => v.map fun v => (e.key, v)) = none := by
    intro es
    induction es with
    | nil => simp
    | cons e es ih =>
      intro he
      rw [List.mapM_cons]
      cases hr : e.read l with
      | none => rfl
      | some v =>
        obtain ⟨e', he', hn⟩ := he
        rcases List.mem_cons.mp he' with rfl | he'
        · rw [hr] at hn; cases hn
        · rw [ih ⟨e', he', hn⟩]; rfl
  unfold Slicer.proc
  rw [if_pos hk, key]
  · rfl
  · refine ⟨⟨0x4, "Ez", fun l => (l.Ez.column (nodeIndex N h N lim.from2) (nodeIndex N h N lim.to2) (offsetIndex N h N off)).map some⟩,
      List.mem_filter.mpr ⟨by simp [slicerX, sliceTable3], by simpa using hf⟩, ?_⟩
    simp [Grid.column, e, hn]

/-- ... while an `XI_Y` slice takes the last line. -/
theorem xi_y_offset_clamped {h : K} (hh : 0 < h) (N : ℕ) (off : K) (ho : ((N : K) - ((N / 2 : ℕ) : K)) * h ≤ off) :
    offsetIndex N h ((N : ℤ) - 1) off = N - 1 := by
  obtain ⟨q, hq⟩ : ∃ q, q = N / 2 := ⟨_, rfl⟩
  rw [← hq] at ho
  have d2 : (N : K) - (q : K) ≤ off / h := by rw [le_div_iff₀ hh]; exact ho
  have g2 : (N : ℤ) - q ≤ ⌊off / h⌋ := by rw [Int.le_floor]; exact_mod_cast d2
  unfold offsetIndex clip; rw [← hq]; omega

/-- C38: a longitudinal slice keeps exactly the layers with `to ≤ xi ≤ from`. -/
theorem keep_iff (lim : Limits K) (xi : K) : inLimits lim xi = true ↔ lim.to1 ≤ xi ∧ xi ≤ lim.from1 := by
  unfold inLimits
  simp [not_or, not_lt]

/-- C38: with default limits, layer `i` (`xi = - i dxi`, `i ≥ 1`) is kept exactly when it lies in the window: in 3D, where the number of layers is `round (L / dxi)`
(push_solver.py), the last layer is dropped when rounding went up. -/
theorem default_layers {dxi : K} (hd : 0 < dxi) (L W : K) (i : ℕ) : inLimits (defaultXi L W) (-((i : K) * dxi)) = true ↔ (i : K) * dxi ≤ L := by
  rw [keep_iff]
  simp only [defaultXi]
  have : (0 : K) ≤ (i : K) * dxi := mul_nonneg (Nat.cast_nonneg i) hd.le
  constructor
  · rintro ⟨h1, _⟩; linarith
  · intro h; constructor <;> linarith

/-- C38, 2D: the grid has `⌊W / h⌋ + 1` nodes; with default limits and a width that is a whole number of cells the slice misses the node at the wall. -/
theorem default_radial_misses_wall {h : K} (hh : 0 < h) (n : ℕ) (L : K) :
    radialIndex ((n : K) * h) h (defaultR L ((n : K) * h)).from2 = 0 ∧ radialIndex ((n : K) * h) h (defaultR L ((n : K) * h)).to2 = n ∧
      (⌊(n : K) * h / h⌋ + 1 = n + 1) := by
  have e : (n : K) * h / h = ((n : ℤ) : K) := by push_cast; field_simp
  have e0 : (0 : K) / h = ((0 : ℤ) : K) := by simp
  refine ⟨?_, ?_, ?_⟩
  · simp only [radialIndex, defaultR, e, e0, pyRound_intCast, Int.floor_intCast, clip]; omega
  · simp only [radialIndex, defaultR, e, pyRound_intCast, Int.floor_intCast, clip]; omega
  · rw [e, Int.floor_intCast]

/-- C37, refutation for transverse slices: at an output step whose time is not near a multiple of the period (the first step of a run) no layer is kept, so the file written for it has no data. -/
theorem xy_first_step_empty (N : ℕ) (h : K) (lim : Limits K) (period dt xiPeriod dxi : K) (s : Slicer K (Layer3 K))
    (hs : slicerXY N h lim period dt xiPeriod dxi = some s) (f : ℕ) (time : K) (hc : ¬ cond time period dt) (l : Layer3 K) : s.proc f time l = some [] := by
  unfold slicerXY at hs
  simp only at hs
  split_ifs at hs with hlen
  have hs := Option.some.inj hs
  subst hs
  unfold Slicer.proc
  rw [if_neg]
  simp [hc]

/-- C38, refutation: a transverse slice whose two limits select different numbers of nodes raises in `np.vstack` when it is configured. -/
theorem xy_unequal_raises (N : ℕ) (h : K) (lim : Limits K) (period dt xiPeriod dxi : K)
    (hne : nodeIndex N h ((N : ℤ) - 1) lim.to1 - nodeIndex N h ((N : ℤ) - 1) lim.from1 ≠ nodeIndex N h ((N : ℤ) - 1) lim.to2 - nodeIndex N h ((N : ℤ) - 1) lim.from2) :
    slicerXY N h lim period dt xiPeriod dxi = none := by
  unfold slicerXY
  simp only
  rw [if_neg hne]

/-- The hypotheses are met: an `XI_X` slice of `Ez` at the axis of a 5-cell grid, default limits, window of length 2 with layers at -1, -2, -3 (the last outside). -/
example : (runDiag (sliceCfg (slicerX 5 (1 / 5) (defaultXi 2 1) 0) 0x4 10 30) (sliceInit 0)
    [(10, [sampleLayer (-1) 0, sampleLayer (-2) 100, sampleLayer (-3) 200])]).map Prod.fst =
    some [⟨1000, [("xi", [.num (-1), .num (-2)]), ("Ez", [.arr [2, 12, 22, 32], .arr [102, 112, 122, 132]])]⟩] := by
  decide +kernel

end Lcode.Diag
