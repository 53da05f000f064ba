import Verif.Diag.OldFXi

/-!
C67: `DiagnosticsColormaps` of lcode/diagnostics/diagnostics_3d.py: the sub-window, the rows of a map and when a run with it fails.
-/

namespace Lcode.Diag.Old

open Lcode.Py Lcode.Diag

variable {K : Type*} [Field K] [LinearOrder K] [IsStrictOrderedRing K] [FloorRing K]

/-- diagnostics_3d.py:330-331, :340-343: `r_f`; `none` is the default `-inf`. -/
def rFrom (steps : ℕ) (h : K) : Option K → ℤ
  | none => 0
  | some x => if ((steps / 2 : ℕ) : K) + x / h < 0 then 0 else pyRound (((steps / 2 : ℕ) : K) + x / h)

/-- :332, :335-338: `r_t`; `none` is the default `inf`. There is no check against zero. -/
def rTo (steps : ℕ) (h : K) : Option K → ℤ
  | none => steps
  | some x => if (steps : K) < ((steps / 2 : ℕ) : K) + x / h then steps else pyRound (((steps / 2 : ℕ) : K) + x / h)

/-- The indices of the Python slice `a[lo:hi]` on an axis of length `n`, for `lo ≥ 0`: a negative end counts from the end of the axis. -/
def pySlice (n : ℕ) (lo hi : ℤ) : List ℕ :=
  List.range' (min lo.toNat n) ((if hi < 0 then (hi + n).toNat else min hi.toNat n) - min lo.toNat n)

/-- :369-384: `array[grid_steps // 2, r_f:r_t]`; a row outside: IndexError. -/
def mapRow (g : Grid K) (steps : ℕ) (lo hi : ℤ) : Option (Val K) :=
  if steps / 2 < g.n then some (.arr ((pySlice g.n lo hi).map fun j => g.at' (steps / 2) j)) else none

/-- :366-400: the value for a name. 'y_offt' and 'y_plasma_particles' ask the dictionary of plasma particles for an attribute, which raises AttributeError. -/
def mapEntry (steps : ℕ) (lo hi : ℤ) (name : String) (l : Layer3 K) : Option (Option (Val K)) :=
  match name with
  | "Ex" => (mapRow l.Ex steps lo hi).map some
  | "Ey" => (mapRow l.Ey steps lo hi).map some
  | "Ez" => (mapRow l.Ez steps lo hi).map some
  | "Bx" => (mapRow l.Bx steps lo hi).map some
  | "By" => (mapRow l.By steps lo hi).map some
  | "Bz" => (mapRow l.Bz steps lo hi).map some
  | "Phi" => (mapRow l.Phi steps lo hi).map some
  | "ne" => (mapRow l.ne steps lo hi).map some
  | "ni" => (mapRow l.ni steps lo hi).map some
  | "rho_beam" => (mapRow l.rhoBeam steps lo hi).map some
  | "y_offt" => none
  | "y_plasma_particles" => none
  | _ => some none

/-- The numbers in a recorded value. -/
def Val.flat : Val K → List K
  | .num x => [x]
  | .arr l => l
  | .grid l => l.flatten

/-- `np.reshape(a, (size, -1))`, :434-437: with no rows the second length is undefined and numpy raises ValueError. -/
def reshape (size : ℕ) (l : List K) : Option (List (List K)) :=
  if size = 0 then none else if l.length % size = 0 then some ((List.range size).map fun i => (l.drop (i * (l.length / size))).take (l.length / size)) else none

/-- A file of `DiagnosticsColormaps`, :430-456. -/
structure MapFile (K : Type*) where
  grid : List K
  xi : List K
  maps : List (String × List (List K))
  deriving DecidableEq

/-- :430-456: what is written. With merging, `conv_2d` calls `math.ceil` with two arguments (:67), which raises TypeError. -/
def packMaps (steps : ℕ) (h : K) (names : List String) (mergeR mergeXi : ℤ) (d : Data (Val K)) : Option (MapFile K) :=
  (names.mapM fun n => (reshape (d.get "xi").length ((d.get n).flatMap Val.flat)).map fun a => (n, a)).bind fun maps =>
    if (1 < mergeR ∨ 1 < mergeXi) ∧ names ≠ [] then none
    else some ⟨(List.range steps).map fun (i : ℕ) => ((i : K) - ((steps / 2 : ℕ) : K)) * h, (d.get "xi").flatMap Val.flat, maps⟩

/-- :419-424, without the time: the layer lies in the sub-window; `none` are the defaults `inf` and `-inf`. -/
def inMap (xiFrom xiTo : Option K) (xi : K) : Bool :=
  (match xiFrom with | none => true | some a => decide (xi ≤ a)) && (match xiTo with | none => true | some b => decide (b ≤ xi))

/-- :412-414: the layer at which the sub-window ends. -/
def endsMap (xiTo : Option K) (dxi xi : K) : Bool := match xiTo with | none => false | some b => decide (xi ≤ b) && decide (b ≤ xi + dxi)

/-- :273-308, :323-357: `DiagnosticsColormaps` after `pull_config`. Infinite periods are not modelled. -/
def oldMaps (steps : ℕ) (h dt dxi outputPeriod savingPeriod : K) (xiFrom xiTo rF rT : Option K) (mergeR mergeXi : ℤ) (names : List String) : OCfg K (Layer3 K) (Val K) (MapFile K) :=
  { period := adjust outputPeriod dt, dt := dt, savePeriod := adjust savingPeriod dxi, dxi := dxi, xi := Layer3.xi
    keep := fun l => inMap xiFrom xiTo l.xi, last := fun l => endsMap xiTo dxi l.xi
    proc := appends Layer3.xi (mapEntry steps (rFrom steps h rF) (rTo steps h rT)) names, pack := packMaps steps h names mergeR mergeXi }

/-! ### Specification -/

/-- The sub-window in `xi`. -/
def InXi (xiFrom xiTo : Option K) (xi : K) : Prop := (∀ a, xiFrom = some a → xi ≤ a) ∧ ∀ b, xiTo = some b → b ≤ xi

/-- A layer of the simulation: all arrays have the size of the grid. -/
def Sized (steps : ℕ) (l : Layer3 K) : Prop := ∀ q ∈ (grids3 : List (String × ℕ × (Layer3 K → Grid K))), (q.2.2 l).n = steps

/-- What a file must hold of the kept layers: their coordinates, and for each name one row per layer, in order: the central row of the array, at the nodes of `cols`. -/
def HoldsMaps (steps : ℕ) (cols : List ℕ) (names : List String) (f : MapFile K) (kept : List (Layer3 K)) : Prop :=
  f.xi = kept.map Layer3.xi ∧ f.maps.map Prod.fst = names ∧
  ∀ q ∈ (grids3 : List (String × ℕ × (Layer3 K → Grid K))), q.1 ∈ names → f.maps.lookup q.1 = some (kept.map fun l => cols.map fun j => (q.2.2 l).at' (steps / 2) j)

/-! ### Proofs -/

theorem inMap_iff (xiFrom xiTo : Option K) (xi : K) : inMap xiFrom xiTo xi = true ↔ InXi xiFrom xiTo xi := by
  unfold inMap InXi
  cases xiFrom <;> cases xiTo <;> simp

/-- Cutting rows of equal length out of their concatenation gives the rows back. -/
theorem reshape_rows (rows : List (List K)) (m : ℕ) (h : ∀ r ∈ rows, r.length = m) (hne : rows ≠ []) : reshape rows.length rows.flatten = some rows := by
  have hl : rows.flatten.length = m * rows.length := by
    rw [List.length_flatten]
    have : rows.map List.length = List.replicate rows.length m := by
      rw [List.eq_replicate_iff]
      exact ⟨by simp, fun b hb => by obtain ⟨r, hr, rfl⟩ := List.mem_map.mp hb; exact h r hr⟩
    rw [this, List.sum_replicate_nat, mul_comm]
  have hpos : 0 < rows.length := List.length_pos_iff.mpr hne
  unfold reshape
  rw [if_neg hpos.ne', if_pos (by rw [hl]; exact Nat.mul_mod_left _ _), hl, Nat.mul_div_cancel _ hpos]
  congr 1
  have cut : ∀ (rows : List (List K)), (∀ r ∈ rows, r.length = m) → ∀ i (hi : i < rows.length), (rows.flatten.drop (i * m)).take m = rows[i] := by
    intro rows
    induction rows with
    | nil => intro _ i hi; simp at hi
    | cons r rows ih =>
      intro hr i hi
      have hrl := hr r List.mem_cons_self
      rw [List.flatten_cons]
      cases i with
      | zero => rw [Nat.zero_mul, List.drop_zero, List.take_append_of_le_length (by omega), List.take_of_length_le (by omega)]; rfl
      | succ i =>
        have e : (i + 1) * m = r.length + i * m := by rw [hrl]; ring
        rw [e, ← List.drop_drop, List.drop_append_of_le_length le_rfl, List.drop_length, List.nil_append, ih (fun x hx => hr x (List.mem_cons_of_mem _ hx)) i (by simpa using hi)]
        rfl
  apply List.ext_getElem
  · simp
  · intro i h1 h2
    rw [List.getElem_map, List.getElem_range]
    exact cut rows h i h2

theorem length_pySlice_of (g g' : ℕ) (lo hi : ℤ) (h : g = g') : (pySlice g lo hi).length = (pySlice g' lo hi).length := by rw [h]

/-- The columns of the kept layers under a name of a grid quantity. -/
theorem map_column (steps : ℕ) (hst : 0 < steps) (lo hi : ℤ) (c : OCfg K (Layer3 K) (Val K) F) (names : List String) (hp : c.proc = appends Layer3.xi (mapEntry steps lo hi) names) (hx : "xi" ∉ names) (hnd : names.Nodup)
    (kept : List (Layer3 K)) (hs : ∀ l ∈ kept, (c.proc l).isSome) (hz : ∀ l ∈ kept, Sized steps l) (q : String × ℕ × (Layer3 K → Grid K)) (hq : q ∈ (grids3 : List (String × ℕ × (Layer3 K → Grid K)))) (hm : q.1 ∈ names) :
    kept.flatMap (contrib c q.1) = kept.map fun l => Val.arr ((pySlice steps lo hi).map fun j => (q.2.2 l).at' (steps / 2) j) := by
  have hent : ∀ l, mapEntry steps lo hi q.1 l = (mapRow (q.2.2 l) steps lo hi).map some := by
    intro l
    simp only [grids3, List.mem_cons, List.not_mem_nil, or_false] at hq
    rcases hq with rfl | rfl | rfl | rfl | rfl | rfl | rfl | rfl | rfl | rfl <;> rfl
  have hne : q.1 ≠ "xi" := by rintro e; rw [e] at hm; exact hx hm
  have := column c (mapEntry steps lo hi) names hp hx kept hs q.1 hne (fun l => mapRow (q.2.2 l) steps lo hi) hent
  rw [List.count_eq_one_of_mem hnd hm] at this
  apply map_some_inj
  rw [this]
  have e : ∀ l ∈ kept, List.replicate 1 (mapRow (q.2.2 l) steps lo hi) = [some (Val.arr ((pySlice steps lo hi).map fun j => (q.2.2 l).at' (steps / 2) j))] := by
    intro l hl
    have hn : (q.2.2 l).n = steps := hz l hl q hq
    unfold mapRow
    rw [hn, if_pos (by omega)]; rfl
  exact flatMap_singletons _ _ _ e

theorem lookup_forall₂ {A : Type*} (R : A → String → Prop) (vs : List (String × A)) (names : List String) (h : List.Forall₂ (fun (v : String × A) n => v.1 = n ∧ R v.2 n) vs names) :
    vs.map Prod.fst = names ∧ ∀ n ∈ names, ∃ a, vs.lookup n = some a ∧ R a n := by
  induction h with
  | nil => exact ⟨rfl, fun n hn => by simp at hn⟩
  | @cons v n vs names hv _ ih =>
    obtain ⟨e, hr⟩ := hv
    refine ⟨by rw [List.map_cons, e, ih.1], fun k hk => ?_⟩
    by_cases hkn : k = n
    · subst hkn
      refine ⟨v.2, ?_, hr⟩
      rw [← Prod.mk.eta (p := v), e, List.lookup_cons, beq_self_eq_true]
    · obtain ⟨a, ha, hra⟩ := ih.2 k (by rcases List.mem_cons.mp hk with h | h; exacts [absurd h hkn, h])
      refine ⟨a, ?_, hra⟩
      rw [← Prod.mk.eta (p := v), e, List.lookup_cons]
      have : (k == n) = false := by simpa using hkn
      rw [this]
      exact ha

/-- Names of grid quantities. -/
def GridNames (names : List String) : Prop := ∀ n ∈ names, ∃ q ∈ (grids3 : List (String × ℕ × (Layer3 K → Grid K))), q.1 = n

theorem grids3_inj (q q' : String × ℕ × (Layer3 K → Grid K)) (h : q ∈ (grids3 : List (String × ℕ × (Layer3 K → Grid K)))) (h' : q' ∈ (grids3 : List (String × ℕ × (Layer3 K → Grid K)))) (e : q.1 = q'.1) : q = q' := by
  simp only [grids3, List.mem_cons, List.not_mem_nil, or_false] at h h'
  rcases h with rfl | rfl | rfl | rfl | rfl | rfl | rfl | rfl | rfl | rfl <;>
    rcases h' with rfl | rfl | rfl | rfl | rfl | rfl | rfl | rfl | rfl | rfl <;> first | rfl | (simp at e)

theorem entry_isSome (steps : ℕ) (hst : 0 < steps) (lo hi : ℤ) (names : List String) (hg : GridNames (K := K) names) (l : Layer3 K) (hz : Sized steps l) : (appends Layer3.xi (mapEntry steps lo hi) names l).isSome := by
  unfold appends
  rw [Option.isSome_map]
  induction names with
  | nil => rfl
  | cons n names ih =>
    rw [List.mapM_cons]
    obtain ⟨q, hq, rfl⟩ := hg n List.mem_cons_self
    have hent : mapEntry steps lo hi q.1 l = (mapRow (q.2.2 l) steps lo hi).map some := by
      clear hg ih
      simp only [grids3, List.mem_cons, List.not_mem_nil, or_false] at hq
      rcases hq with rfl | rfl | rfl | rfl | rfl | rfl | rfl | rfl | rfl | rfl <;> rfl
    have hn : (q.2.2 l).n = steps := hz q hq
    obtain ⟨vs, hvs⟩ := Option.isSome_iff_exists.mp (ih fun n hn => hg n (List.mem_cons_of_mem _ hn))
    rw [hent, mapRow, if_pos (by omega), hvs]; rfl

/-- What is written from a buffer that holds some kept layers. -/
theorem pack_some (steps : ℕ) (hst : 0 < steps) (h : K) (lo hi : ℤ) (c : OCfg K (Layer3 K) (Val K) F) (names : List String) (hp : c.proc = appends Layer3.xi (mapEntry steps lo hi) names) (hx : "xi" ∉ names) (hnd : names.Nodup)
    (hg : GridNames (K := K) names) (mergeR mergeXi : ℤ) (hm : mergeR ≤ 1 ∧ mergeXi ≤ 1) (kept : List (Layer3 K)) (hne : kept ≠ []) (hz : ∀ l ∈ kept, Sized steps l) (d : Data (Val K))
    (hd : ∀ k, d.get k = kept.flatMap (contrib c k)) :
    ∃ f, packMaps steps h names mergeR mergeXi d = some f ∧ HoldsMaps steps (pySlice steps lo hi) names f kept ∧ f.grid = (List.range steps).map fun (i : ℕ) => ((i : K) - ((steps / 2 : ℕ) : K)) * h := by
  have hs : ∀ l ∈ kept, (c.proc l).isSome := fun l hl => by rw [hp]; exact entry_isSome steps hst lo hi names hg l (hz l hl)
  have hxi : d.get "xi" = kept.map fun l => Val.num l.xi := by rw [hd, coords c (mapEntry steps lo hi) names hp hx kept hs]
  have hone : ∀ n ∈ names, ∃ v : String × List (List K), ((reshape (d.get "xi").length ((d.get n).flatMap Val.flat)).map fun a => (n, a)) = some v ∧
      (v.1 = n ∧ ∀ q ∈ (grids3 : List (String × ℕ × (Layer3 K → Grid K))), q.1 = n → v.2 = kept.map fun l => (pySlice steps lo hi).map fun j => (q.2.2 l).at' (steps / 2) j) := by
    intro n hn
    obtain ⟨q, hq, rfl⟩ := hg n hn
    have hcol := map_column steps hst lo hi c names hp hx hnd kept hs hz q hq hn
    have e : (d.get q.1).flatMap Val.flat = (kept.map fun l => (pySlice steps lo hi).map fun j => (q.2.2 l).at' (steps / 2) j).flatten := by
      rw [hd, hcol, List.flatMap_map, List.flatMap_def]; rfl
    have el : (d.get "xi").length = (kept.map fun l => (pySlice steps lo hi).map fun j => (q.2.2 l).at' (steps / 2) j).length := by
      rw [hxi, List.length_map, List.length_map]
    rw [e, el, reshape_rows _ (pySlice steps lo hi).length]
    · refine ⟨_, rfl, rfl, fun q' hq' e' => ?_⟩
      rw [grids3_inj q' q hq' hq e']
    · intro r hr
      obtain ⟨l, _, rfl⟩ := List.mem_map.mp hr
      rw [List.length_map]
    · simpa using hne
  obtain ⟨vs, hvs, hf⟩ := mapM_forall₂ (fun (v : String × List (List K)) n => v.1 = n ∧ ∀ q ∈ (grids3 : List (String × ℕ × (Layer3 K → Grid K))), q.1 = n → v.2 = kept.map fun l => (pySlice steps lo hi).map fun j => (q.2.2 l).at' (steps / 2) j) _ names hone
  obtain ⟨h1, h2⟩ := lookup_forall₂ (fun (a : List (List K)) n => ∀ q ∈ (grids3 : List (String × ℕ × (Layer3 K → Grid K))), q.1 = n → a = kept.map fun l => (pySlice steps lo hi).map fun j => (q.2.2 l).at' (steps / 2) j) vs names hf
  unfold packMaps
  rw [hvs, Option.bind_some, if_neg (by omega)]
  refine ⟨_, rfl, ⟨?_, h1, fun q hq hn => ?_⟩, rfl⟩
  · simp only
    rw [hxi, List.flatMap_map]
    exact flatMap_singletons _ _ _ (fun l _ => rfl)
  · obtain ⟨a, ha, hr⟩ := h2 q.1 hn
    rw [ha, hr q hq rfl]

/-- Packing an empty buffer raises. -/
theorem pack_empty (steps : ℕ) (h : K) (names : List String) (hn : names ≠ []) (mergeR mergeXi : ℤ) (d : Data (Val K)) (hd : d.get "xi" = []) : packMaps steps h names mergeR mergeXi d = none := by
  unfold packMaps
  cases names with
  | nil => exact absurd rfl hn
  | cons n names =>
    rw [List.mapM_cons, hd]
    rfl

/-- Packing with merging raises. -/
theorem pack_merging (steps : ℕ) (h : K) (names : List String) (hn : names ≠ []) (mergeR mergeXi : ℤ) (hm : 1 < mergeR ∨ 1 < mergeXi) (d : Data (Val K)) : packMaps steps h names mergeR mergeXi d = none := by
  unfold packMaps
  cases (names.mapM fun n => (reshape (d.get "xi").length ((d.get n).flatMap Val.flat)).map fun a => (n, a)) with
  | none => rfl
  | some v => rw [Option.bind_some, if_pos ⟨hm, hn⟩]

/-- C67: after a run with `DiagnosticsColormaps`, the file of an output step holds exactly the layers of the sub-window of that step, in order, unless a later output step has the same two-decimal time. -/
theorem old_maps_files (steps : ℕ) (hst : 0 < steps) (h dt dxi outputPeriod savingPeriod : K) (xiFrom xiTo rF rT : Option K) (mergeR mergeXi : ℤ) (names : List String) (hg : GridNames (K := K) names) (hnd : names.Nodup) (hne : names ≠ [])
    (pre post : List (K × List (Layer3 K))) (s : K × List (Layer3 K)) (hz : ∀ l ∈ s.2, Sized steps l) (b' : OBuf (Val K) (MapFile K))
    (hrun : runDiag (oldMaps steps h dt dxi outputPeriod savingPeriod xiFrom xiTo rF rT mergeR mergeXi names) (start names) (pre ++ s :: post) = some b') (hc : cond s.1 (adjust outputPeriod dt) dt)
    (hlast : ∀ s' ∈ post, cond s'.1 (adjust outputPeriod dt) dt → pyRound (100 * s'.1) ≠ pyRound (100 * s.1)) :
    ∃ (f : MapFile K) (kept : List (Layer3 K)), content b'.files (pyRound (100 * s.1)) = some f ∧ List.Sublist kept s.2 ∧ (∀ l ∈ s.2, l ∈ kept ↔ InXi xiFrom xiTo l.xi) ∧ kept ≠ [] ∧
      HoldsMaps steps (pySlice steps (rFrom steps h rF) (rTo steps h rT)) names f kept := by
  obtain ⟨f, hf, d, hd, hcols⟩ := file_of_step _ pre post s (start names) b' (start_empty names) hrun hc hlast
  have hx : "xi" ∉ names := by
    intro hm
    obtain ⟨q, hq, e⟩ := hg _ hm
    simp only [grids3, List.mem_cons, List.not_mem_nil, or_false] at hq
    rcases hq with rfl | rfl | rfl | rfl | rfl | rfl | rfl | rfl | rfl | rfl <;> simp at e
  have hdk : d.get "xi" ≠ [] := by
    intro e
    have : packMaps steps h names mergeR mergeXi d = some f := hd
    rw [pack_empty steps h names hne mergeR mergeXi d e] at this
    exact absurd this (by simp)
  have hm : mergeR ≤ 1 ∧ mergeXi ≤ 1 := by
    by_contra hcon
    have : packMaps steps h names mergeR mergeXi d = some f := hd
    rw [pack_merging steps h names hne mergeR mergeXi (by omega) d] at this
    exact absurd this (by simp)
  have hk : s.2.filter (fun l => inMap xiFrom xiTo l.xi) ≠ [] := by
    intro e
    apply hdk
    rw [hcols]
    show ((s.2.filter fun l => inMap xiFrom xiTo l.xi).flatMap _) = []
    rw [e]; rfl
  obtain ⟨f', e1, e2, _⟩ := pack_some steps hst h (rFrom steps h rF) (rTo steps h rT) (oldMaps steps h dt dxi outputPeriod savingPeriod xiFrom xiTo rF rT mergeR mergeXi names) names rfl hx hnd hg mergeR mergeXi hm _ hk
    (fun l hl => hz l (List.mem_of_mem_filter hl)) d hcols
  have : f' = f := by
    have e3 : packMaps steps h names mergeR mergeXi d = some f := hd
    rw [e1] at e3; exact Option.some.inj e3
  subst this
  refine ⟨f', _, hf, List.filter_sublist, fun l hl => ?_, hk, e2⟩
  rw [List.mem_filter, inMap_iff]
  exact ⟨fun h => h.2, fun h => ⟨hl, h⟩⟩

/-- C67: exactly when an output step raises: no layer of it lies in the sub-window, or something is to be saved before the first layer of the sub-window. -/
theorem old_maps_step (steps : ℕ) (hst : 0 < steps) (h dt dxi outputPeriod savingPeriod : K) (xiFrom xiTo rF rT : Option K) (names : List String) (hg : GridNames (K := K) names) (hnd : names.Nodup) (hne : names ≠ [])
    (mergeR mergeXi : ℤ) (hm : mergeR ≤ 1 ∧ mergeXi ≤ 1) (s : K × List (Layer3 K)) (hz : ∀ l ∈ s.2, Sized steps l) (hc : cond s.1 (adjust outputPeriod dt) dt) (b : OBuf (Val K) (MapFile K)) (hb : Empty b.data) :
    (stepDiag (oldMaps steps h dt dxi outputPeriod savingPeriod xiFrom xiTo rF rT mergeR mergeXi names) b s).isSome ↔
      (∃ l ∈ s.2, InXi xiFrom xiTo l.xi) ∧
      ∀ pre l post, s.2 = pre ++ l :: post → cond l.xi (adjust savingPeriod dxi) dxi ∨ (∃ a, xiTo = some a ∧ l.xi ≤ a ∧ a ≤ l.xi + dxi) → ∃ l' ∈ pre ++ [l], InXi xiFrom xiTo l'.xi := by
  have hx : "xi" ∉ names := by
    intro hm
    obtain ⟨q, hq, e⟩ := hg _ hm
    simp only [grids3, List.mem_cons, List.not_mem_nil, or_false] at hq
    rcases hq with rfl | rfl | rfl | rfl | rfl | rfl | rfl | rfl | rfl | rfl <;> simp at e
  rw [step_isSome (oldMaps steps h dt dxi outputPeriod savingPeriod xiFrom xiTo rF rT mergeR mergeXi names) (Sized steps)
    (fun l hl => entry_isSome steps hst _ _ names hg l hl) ?_ s hc hz b hb]
  · have hkeep : ∀ l : Layer3 K, (oldMaps steps h dt dxi outputPeriod savingPeriod xiFrom xiTo rF rT mergeR mergeXi names).keep l = true ↔ InXi xiFrom xiTo l.xi := fun l => inMap_iff _ _ _
    have hsv : ∀ l : Layer3 K, saves (oldMaps steps h dt dxi outputPeriod savingPeriod xiFrom xiTo rF rT mergeR mergeXi names) l = true ↔ cond l.xi (adjust savingPeriod dxi) dxi := fun l => by
      unfold saves; rw [decide_eq_true_eq]; rfl
    have hl : ∀ l : Layer3 K, (oldMaps steps h dt dxi outputPeriod savingPeriod xiFrom xiTo rF rT mergeR mergeXi names).last l = true ↔ ∃ a, xiTo = some a ∧ l.xi ≤ a ∧ a ≤ l.xi + dxi := by
      intro l
      show endsMap xiTo dxi l.xi = true ↔ _
      unfold endsMap
      cases xiTo <;> simp
    simp only [hkeep, hsv, hl]
  · intro d ks hks hd
    constructor
    · intro hs hk
      subst hk
      have : packMaps steps h names mergeR mergeXi d = none := pack_empty steps h names hne mergeR mergeXi d (hd "xi")
      have hs' : (packMaps steps h names mergeR mergeXi d).isSome := hs
      rw [this] at hs'
      exact absurd hs' (by simp)
    · intro hk
      obtain ⟨f, e, _⟩ := pack_some steps hst h (rFrom steps h rF) (rTo steps h rT) _ names rfl hx hnd hg mergeR mergeXi hm ks hk hks d hd
      show (packMaps steps h names mergeR mergeXi d).isSome
      rw [e]; rfl

/-- C67, refutation of "the output can be merged": with a merging factor above one, every output step raises. -/
theorem old_maps_merging (steps : ℕ) (h dt dxi outputPeriod savingPeriod : K) (xiFrom xiTo rF rT : Option K) (names : List String) (hne : names ≠ [])
    (mergeR mergeXi : ℤ) (hm : 1 < mergeR ∨ 1 < mergeXi) (s : K × List (Layer3 K)) (hc : cond s.1 (adjust outputPeriod dt) dt) (b : OBuf (Val K) (MapFile K)) :
    stepDiag (oldMaps steps h dt dxi outputPeriod savingPeriod xiFrom xiTo rF rT mergeR mergeXi names) b s = none := by
  cases hf : stepDiag (oldMaps steps h dt dxi outputPeriod savingPeriod xiFrom xiTo rF rT mergeR mergeXi names) b s with
  | none => rfl
  | some b' =>
    unfold stepDiag at hf
    obtain ⟨b1, _, h2⟩ := Option.bind_eq_some_iff.mp hf
    unfold dump at h2
    obtain ⟨b2, h3, _⟩ := Option.map_eq_some_iff.mp h2
    obtain ⟨f, e, _⟩ := (write_spec _ s.1 b1 b2 h3).2.2 hc
    have e' : packMaps steps h names mergeR mergeXi b1.data = some f := e
    rw [pack_merging steps h names hne mergeR mergeXi hm] at e'
    exact absurd e' (by simp)

/-- C67, refutation of "'y_offt' and 'y_plasma_particles' can be mapped": the names are accepted, and the first layer of the sub-window in an output step raises. -/
theorem old_maps_particles (steps : ℕ) (h dt dxi outputPeriod savingPeriod : K) (xiFrom xiTo rF rT : Option K) (names : List String) (hy : "y_offt" ∈ names ∨ "y_plasma_particles" ∈ names)
    (mergeR mergeXi : ℤ) (s : K × List (Layer3 K)) (hc : cond s.1 (adjust outputPeriod dt) dt) (hk : ∃ l ∈ s.2, InXi xiFrom xiTo l.xi) (b : OBuf (Val K) (MapFile K)) :
    stepDiag (oldMaps steps h dt dxi outputPeriod savingPeriod xiFrom xiTo rF rT mergeR mergeXi names) b s = none := by
  cases hf : stepDiag (oldMaps steps h dt dxi outputPeriod savingPeriod xiFrom xiTo rF rT mergeR mergeXi names) b s with
  | none => rfl
  | some b' =>
    obtain ⟨l, hl, hi⟩ := hk
    have := recorded _ b b' s hf hc l hl ((inMap_iff _ _ _).mpr hi)
    have h1 : (appends Layer3.xi (mapEntry steps (rFrom steps h rF) (rTo steps h rT)) names l).isSome := this
    exfalso
    unfold appends at h1
    rw [Option.isSome_map] at h1
    have key : ∀ (names : List String), (∃ n ∈ names, mapEntry steps (rFrom steps h rF) (rTo steps h rT) n l = none) →
        (names.mapM fun n => (mapEntry steps (rFrom steps h rF) (rTo steps h rT) n l).map fun v => v.map fun v => (n, v)) = none := by
      intro names
      induction names with
      | nil => simp
      | cons n names ih =>
        rintro ⟨n', hn', e⟩
        rw [List.mapM_cons]
        cases hr : mapEntry steps (rFrom steps h rF) (rTo steps h rT) n l with
        | none => rfl
        | some v =>
          rcases List.mem_cons.mp hn' with rfl | hn'
          · rw [hr] at e; exact absurd e (by simp)
          · rw [ih ⟨n', hn', e⟩]; rfl
    rw [key names (by rcases hy with hy | hy; exacts [⟨_, hy, rfl⟩, ⟨_, hy, rfl⟩])] at h1
    exact absurd h1 (by simp)

/-! ### The sub-window in the transverse direction -/

/-- C67: the nodes of a row. On a grid of `2 m + 1` nodes at `-m h, ..., m h`, the columns of a map are consecutive nodes; each lies in the requested interval up to half a cell, the end excluded,
and every node well inside the interval is there. -/
theorem map_nodes {h : K} (hh : 0 < h) (m : ℕ) (rF rT : Option K) (hF : ∀ x, rF = some x → x ≤ m * h) (hT : ∀ x, rT = some x → -(m * h) ≤ x) (j : ℕ) :
    (j ∈ pySlice (2 * m + 1) (rFrom (2 * m + 1) h rF) (rTo (2 * m + 1) h rT) → j < 2 * m + 1 ∧ (∀ x, rF = some x → x - h / 2 ≤ ((j : K) - m) * h) ∧ ∀ x, rT = some x → ((j : K) - m) * h ≤ x - h / 2) ∧
    (j < 2 * m + 1 → (∀ x, rF = some x → x + h / 2 < ((j : K) - m) * h) → (∀ x, rT = some x → ((j : K) - m) * h < x - h / 2) → j ∈ pySlice (2 * m + 1) (rFrom (2 * m + 1) h rF) (rTo (2 * m + 1) h rT)) := by
  have hdiv : (2 * m + 1) / 2 = m := by omega
  have hlo : ∃ lo : ℕ, rFrom (2 * m + 1) h rF = lo ∧ lo ≤ 2 * m + 1 ∧ ((lo ≤ j → ∀ x, rF = some x → x - h / 2 ≤ ((j : K) - m) * h) ∧ ((∀ x, rF = some x → x + h / 2 < ((j : K) - m) * h) → lo ≤ j)) := by
    cases rF with
    | none => exact ⟨0, rfl, by omega, fun _ x hx => (by cases hx), fun _ => Nat.zero_le _⟩
    | some x =>
      have hxm := hF x rfl
      have hx1 : x / h ≤ m := by rw [div_le_iff₀ hh]; exact hxm
      unfold rFrom
      rw [hdiv]
      by_cases hneg : (m : K) + x / h < 0
      · simp only [hneg, if_true]
        refine ⟨0, rfl, by omega, fun _ y hy => ?_, fun _ => Nat.zero_le _⟩
        cases hy
        have h1 : x / h * h = x := div_mul_cancel₀ _ hh.ne'
        have h2 : (0 : K) ≤ (j : K) := Nat.cast_nonneg j
        have h3 : (m + x / h) * h < 0 := mul_neg_of_neg_of_pos hneg hh
        have h4 : (0 : K) ≤ (j : K) * h := mul_nonneg h2 hh.le
        nlinarith
      · simp only [hneg, if_false]
        have hr := abs_pyRound_sub_le ((m : K) + x / h)
        rw [abs_le] at hr
        set r := pyRound ((m : K) + x / h) with hrdef
        have r0 : 0 ≤ r := by
          by_contra hc
          have : (r : K) ≤ -1 := by exact_mod_cast (by omega : r ≤ -1)
          linarith [hr.1]
        have r1 : r ≤ 2 * m := by
          by_contra hc
          have : ((2 * m + 1 : ℤ) : K) ≤ (r : K) := by exact_mod_cast (by omega : (2 * m + 1 : ℤ) ≤ r)
          push_cast at this
          linarith [hr.2]
        have ern : (r : K) = ((r.toNat : ℕ) : K) := by
          have : ((r.toNat : ℕ) : ℤ) = r := Int.toNat_of_nonneg r0
          exact_mod_cast congrArg (Int.cast : ℤ → K) this.symm
        have e1 : x / h * h = x := div_mul_cancel₀ _ hh.ne'
        refine ⟨r.toNat, (Int.toNat_of_nonneg r0).symm, by omega, fun hle y hy => ?_, fun hall => ?_⟩
        · cases hy
          have : (r : K) ≤ (j : K) := by rw [ern]; exact_mod_cast hle
          have h2 : (m + x / h - 1 / 2) * h ≤ (j : K) * h := mul_le_mul_of_nonneg_right (by linarith [hr.1]) hh.le
          linarith
        · by_contra hc
          have h2 := hall x rfl
          have h3 : (j : K) + 1 ≤ (r : K) := by rw [ern]; exact_mod_cast (by omega : j + 1 ≤ r.toNat)
          have h4 : (j : K) * h ≤ (m + x / h - 1 / 2) * h := mul_le_mul_of_nonneg_right (by linarith [hr.2]) hh.le
          linarith
  have hhi : ∃ hi : ℕ, rTo (2 * m + 1) h rT = hi ∧ hi ≤ 2 * m + 1 ∧ ((j < hi → ∀ x, rT = some x → ((j : K) - m) * h ≤ x - h / 2) ∧ (j < 2 * m + 1 → (∀ x, rT = some x → ((j : K) - m) * h < x - h / 2) → j < hi)) := by
    cases rT with
    | none => exact ⟨2 * m + 1, rfl, le_rfl, fun _ x hx => (by cases hx), fun hj _ => hj⟩
    | some x =>
      have hxm := hT x rfl
      have hx1 : -(m : K) ≤ x / h := by rw [le_div_iff₀ hh]; linarith
      have e1 : x / h * h = x := div_mul_cancel₀ _ hh.ne'
      unfold rTo
      rw [hdiv]
      by_cases hbig : ((2 * m + 1 : ℕ) : K) < (m : K) + x / h
      · simp only [hbig, if_true]
        refine ⟨2 * m + 1, rfl, le_rfl, fun hj y hy => ?_, fun hj _ => hj⟩
        cases hy
        have h2 : (j : K) + 1 ≤ ((2 * m + 1 : ℕ) : K) := by exact_mod_cast hj
        have h3 : (j : K) * h ≤ (m + x / h - 1) * h := mul_le_mul_of_nonneg_right (by linarith) hh.le
        linarith
      · simp only [hbig, if_false]
        have hr := abs_pyRound_sub_le ((m : K) + x / h)
        rw [abs_le] at hr
        push Not at hbig
        push_cast at hbig
        set r := pyRound ((m : K) + x / h) with hrdef
        have r0 : 0 ≤ r := by
          by_contra hc
          have : (r : K) ≤ -1 := by exact_mod_cast (by omega : r ≤ -1)
          linarith [hr.1]
        have r1 : r ≤ 2 * m + 1 := by
          by_contra hc
          have : ((2 * m + 2 : ℤ) : K) ≤ (r : K) := by exact_mod_cast (by omega : (2 * m + 2 : ℤ) ≤ r)
          push_cast at this
          linarith [hr.2]
        have ern : (r : K) = ((r.toNat : ℕ) : K) := by
          have : ((r.toNat : ℕ) : ℤ) = r := Int.toNat_of_nonneg r0
          exact_mod_cast congrArg (Int.cast : ℤ → K) this.symm
        refine ⟨r.toNat, (Int.toNat_of_nonneg r0).symm, by omega, fun hlt y hy => ?_, fun _ hall => ?_⟩
        · cases hy
          have h3 : (j : K) + 1 ≤ (r : K) := by rw [ern]; exact_mod_cast (by omega : j + 1 ≤ r.toNat)
          have h4 : (j : K) * h ≤ (m + x / h - 1 / 2) * h := mul_le_mul_of_nonneg_right (by linarith [hr.2]) hh.le
          linarith
        · by_contra hc
          have h2 := hall x rfl
          have : (r : K) ≤ (j : K) := by rw [ern]; exact_mod_cast (by omega : r.toNat ≤ j)
          have h4 : (m + x / h - 1 / 2) * h ≤ (j : K) * h := mul_le_mul_of_nonneg_right (by linarith [hr.1]) hh.le
          linarith
  obtain ⟨lo, e1, b1, l1, l2⟩ := hlo
  obtain ⟨hi, e2, b2, h1, h2⟩ := hhi
  have hmem : j ∈ pySlice (2 * m + 1) (rFrom (2 * m + 1) h rF) (rTo (2 * m + 1) h rT) ↔ lo ≤ j ∧ j < hi := by
    unfold pySlice
    rw [e1, e2, List.mem_range'_1, if_neg (by omega)]
    simp only [Int.toNat_natCast]
    omega
  rw [hmem]
  exact ⟨fun hm => ⟨by omega, l1 hm.1, h1 hm.2⟩, fun hj a b => ⟨l2 a, h2 hj b⟩⟩

/-- C67, refutation of "the stored transverse grid belongs to the stored rows": the file holds the whole grid, `steps` coordinates, whatever the columns. -/
theorem map_grid_whole (steps : ℕ) (h : K) (names : List String) (mergeR mergeXi : ℤ) (d : Data (Val K)) (f : MapFile K) (hf : packMaps steps h names mergeR mergeXi d = some f) :
    f.grid.length = steps := by
  unfold packMaps at hf
  obtain ⟨maps, _, h2⟩ := Option.bind_eq_some_iff.mp hf
  split_ifs at h2
  cases h2
  simp

/-- C67, refutation of "an interval outside the window gives no columns": an interval that ends `k` cells below the axis, below the lower edge of the window, is taken as counted from the upper edge. -/
theorem map_below {h : K} (hh : 0 < h) (m k : ℕ) (hk : m < k) : pySlice (2 * m + 1) (rFrom (2 * m + 1) h none) (rTo (2 * m + 1) h (some (-((k : K) * h)))) = List.range (3 * m + 1 - k) := by
  have hdiv : (2 * m + 1) / 2 = m := by omega
  have e : ((m : ℕ) : K) + -((k : K) * h) / h = (((m : ℤ) - (k : ℤ) : ℤ) : K) := by push_cast; field_simp; ring
  have hneg : ¬ ((2 * m + 1 : ℕ) : K) < (((m : ℤ) - (k : ℤ) : ℤ) : K) := by
    have : (((m : ℤ) - (k : ℤ) : ℤ) : K) ≤ ((2 * m + 1 : ℕ) : K) := by exact_mod_cast (by push_cast; omega : ((m : ℤ) - (k : ℤ)) ≤ ((2 * m + 1 : ℕ) : ℤ))
    linarith
  have er : rTo (2 * m + 1) h (some (-((k : K) * h))) = (m : ℤ) - k := by
    unfold rTo
    simp only [hdiv, e, hneg, if_false]
    exact pyRound_intCast _
  unfold pySlice
  rw [er, if_pos (by omega)]
  unfold rFrom
  rw [List.range_eq_range']
  congr 1
  push_cast
  simp
  omega

end Lcode.Diag.Old
