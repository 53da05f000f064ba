import Verif.Diag.Old
import Verif.Diag.Coords

/-!
C67: `DiagnosticsFXi` of lcode/diagnostics/diagnostics_3d.py: the names that the user gives, and what a file holds.
-/

namespace Lcode.Diag.Old

open Lcode.Py Lcode.Diag

variable {K : Type*} [Field K] [LinearOrder K] [IsStrictOrderedRing K] [FloorRing K]

/-! ### Names -/

/-- diagnostics_3d.py:24-31: `from_str_into_list`: blanks are removed, the text is split at the commas, and empty names are dropped. -/
def namesOf (s : List Char) : List (List Char) := ((s.filter (· ≠ ' ')).splitOn ',').filter (· ≠ [])

/-- :96-99: the names that `DiagnosticsFXi` accepts; there is no comma between 'ni' and 'rho_beam', so Python joins the two. -/
def allowedFXi : List String :=
  ["Ex", "Ey", "Ez", "Bx", "By", "Bz", "ne", "nirho_beam", "Phi", "Sf", "dx_chaotic", "dy_chaotic", "dx_chaotic_perp", "dy_chaotic_perp"]

/-- :266-267: the names that `DiagnosticsColormaps` accepts. -/
def allowedMaps : List String := ["Ex", "Ey", "Ez", "Bx", "By", "Bz", "ne", "ni", "rho_beam", "Phi", "y_offt", "y_plasma_particles"]

/-- :109-112, :279-282, :484-487: the names of a text; `none`: the Exception about an unsupported name. -/
def parseNames (allowed : List String) (s : List Char) : Option (List String) :=
  if ((namesOf s).map String.ofList).all (fun n => allowed.contains n) = true then some ((namesOf s).map String.ofList) else none

/-! ### Probes -/

/-- :122-133: two numbers, or two lists. (A number and a list, which fails in `pull_config`, is not modelled.) -/
inductive ProbeArg (K : Type*) where
  | point (x y : K)
  | lists (xs ys : List K)

/-- :122-133 and :162-166; lists of different lengths raise an Exception. -/
def oldProbes (steps : ℕ) (h : K) : ProbeArg K → Option Probes
  | .point x y => some (.single (probeIndex steps h x) (probeIndex steps h y))
  | .lists xs ys => if xs.length = ys.length then some (.many ((xs.zip ys).map fun p => (probeIndex steps h p.1, probeIndex steps h p.2))) else none

/-! ### What a layer appends -/

/-- :188-222: the value for a name; `none`: an exception; `some none`: nothing is appended. -/
def oldEntry (sqrt : K → K) (h : K) (p : Probes) (name : String) (l : Layer3 K) : Option (Option (Val K)) :=
  match name with
  | "Ex" => (l.Ex.probe p).map some
  | "Ey" => (l.Ey.probe p).map some
  | "Ez" => (l.Ez.probe p).map some
  | "Bx" => (l.Bx.probe p).map some
  | "By" => (l.By.probe p).map some
  | "Bz" => (l.Bz.probe p).map some
  | "Phi" => (l.Phi.probe p).map some
  | "ne" => (l.ne.probe p).map some
  | "ni" => (l.ni.probe p).map some
  | "rho_beam" => (l.rhoBeam.probe p).map some
  | "Sf" => some (some (.num (energyFlux sqrt h l)))
  | "dx_chaotic" => (l.electrons.dxChaotic.amaxAbs 0 l.electrons.dxChaotic.n).map fun v => some (.num v)
  | "dy_chaotic" => (l.electrons.dyChaotic.amaxAbs 0 l.electrons.dyChaotic.n).map fun v => some (.num v)
  | "dx_chaotic_perp" => (l.electrons.dxChaotic.amaxAbs (l.electrons.dxChaotic.n / 6) (5 * (l.electrons.dxChaotic.n / 6))).map fun v => some (.num v)
  | "dy_chaotic_perp" => (l.electrons.dyChaotic.amaxAbs (l.electrons.dyChaotic.n / 6) (5 * (l.electrons.dyChaotic.n / 6))).map fun v => some (.num v)
  | _ => some none

/-- :186-222: the appends of one layer, given what a name contributes. -/
def appends {L : Type*} (xi : L → K) (entry : String → L → Option (Option (Val K))) (names : List String) (l : L) : Option (List (String × Val K)) :=
  (names.mapM fun n => (entry n l).map fun v => v.map fun v => (n, v)).map fun vs => ("xi", Val.num (xi l)) :: vs.filterMap id

/-- :105-145, :157-179: `DiagnosticsFXi` with `f_xi_type = 'numbers'` after `pull_config`. An infinite period (Python's `inf`) and the output mode 'pictures' are not modelled. -/
def oldFXi (sqrt : K → K) (h dt dxi outputPeriod savingPeriod : K) (p : Probes) (names : List String) : OCfg K (Layer3 K) (Val K) (Data (Val K)) :=
  { period := adjust outputPeriod dt, dt := dt, savePeriod := adjust savingPeriod dxi, dxi := dxi, xi := Layer3.xi, keep := fun _ => true, last := fun _ => false
    proc := appends Layer3.xi (oldEntry sqrt h p) names, pack := some }

/-- :144-145, :307-308: the buffer of the constructor. -/
def start (names : List String) : OBuf (Val K) F := ⟨names.map (fun n => (n, [])) ++ [("xi", [])], []⟩

/-! ### Specification -/

/-- A text that lists the given names: between commas stand names, possibly with blanks in them and around them, or nothing. -/
def Lists (s : List Char) (names : List (List Char)) : Prop :=
  ∃ pieces : List (List Char), pieces ≠ [] ∧ (∀ q ∈ pieces, ',' ∉ q) ∧ s = [','].intercalate pieces ∧ names = (pieces.map fun q => q.filter (· ≠ ' ')).filter (· ≠ [])

/-- What a file of `DiagnosticsFXi` must hold of a time step: the layer coordinates, and for each name that was asked for, the quantity at the probes (or its value), once per layer and
per time that the name was listed, in the order of the layers. -/
def HoldsFXi (sqrt : K → K) (h : K) (p : Probes) (names : List String) (f : Data (Val K)) (layers : List (Layer3 K)) : Prop :=
  f.get "xi" = layers.map (fun l => Val.num l.xi) ∧
  (∀ q ∈ (grids3 : List (String × ℕ × (Layer3 K → Grid K))), (f.get q.1).map some = layers.flatMap fun l => List.replicate (names.count q.1) ((q.2.2 l).probe p)) ∧
  f.get "Sf" = layers.flatMap (fun l => List.replicate (names.count "Sf") (Val.num (energyFlux sqrt h l))) ∧
  (f.get "dx_chaotic").map some = layers.flatMap (fun l => List.replicate (names.count "dx_chaotic") ((l.electrons.dxChaotic.amaxAbs 0 l.electrons.dxChaotic.n).map Val.num)) ∧
  (f.get "dy_chaotic").map some = layers.flatMap (fun l => List.replicate (names.count "dy_chaotic") ((l.electrons.dyChaotic.amaxAbs 0 l.electrons.dyChaotic.n).map Val.num)) ∧
  (f.get "dx_chaotic_perp").map some = layers.flatMap (fun l => List.replicate (names.count "dx_chaotic_perp") ((l.electrons.dxChaotic.amaxAbs (l.electrons.dxChaotic.n / 6) (5 * (l.electrons.dxChaotic.n / 6))).map Val.num)) ∧
  (f.get "dy_chaotic_perp").map some = layers.flatMap (fun l => List.replicate (names.count "dy_chaotic_perp") ((l.electrons.dyChaotic.amaxAbs (l.electrons.dyChaotic.n / 6) (5 * (l.electrons.dyChaotic.n / 6))).map Val.num)) ∧
  f.get "nirho_beam" = []

/-! ### Proofs -/

theorem filter_intercalate (pieces : List (List Char)) : ([','].intercalate pieces).filter (· ≠ ' ') = [','].intercalate (pieces.map fun q => q.filter (· ≠ ' ')) := by
  unfold List.intercalate
  induction pieces with
  | nil => rfl
  | cons a l ih =>
    cases l with
    | nil => simp
    | cons b l =>
      simp only [List.intersperse_cons₂, List.map_cons, List.flatten_cons, List.filter_append] at ih ⊢
      rw [ih]
      rfl

/-- C67: the names of a text are the pieces between the commas, without blanks and without the empty ones, in order. -/
theorem namesOf_lists (s : List Char) (names : List (List Char)) (h : Lists s names) : namesOf s = names := by
  obtain ⟨pieces, h0, h1, rfl, rfl⟩ := h
  unfold namesOf
  rw [filter_intercalate, List.splitOn_intercalate]
  · intro q hq
    obtain ⟨q', hq', rfl⟩ := List.mem_map.mp hq
    exact fun hm => h1 q' hq' (List.mem_of_mem_filter hm)
  · simpa using h0

/-- C67: a diagnostic is constructed exactly when all names of the text are on its list. -/
theorem parse_iff (allowed : List String) (s : List Char) (names : List (List Char)) (h : Lists s names) :
    parseNames allowed s = if ∀ n ∈ names, String.ofList n ∈ allowed then some (names.map String.ofList) else none := by
  unfold parseNames
  rw [namesOf_lists s names h]
  congr 1
  simp

/-- What one layer appends under a name. -/
theorem appends_count {L : Type*} (xi : L → K) (entry : String → L → Option (Option (Val K))) (names : List String) (l : L) (out : List (String × Val K))
    (h : appends xi entry names l = some out) (hx : "xi" ∉ names) :
    (out.filterMap fun kv => if kv.1 = "xi" then some kv.2 else none) = [Val.num (xi l)] ∧
    ∀ k, k ≠ "xi" → k ∉ names ∧ (out.filterMap fun kv => if kv.1 = k then some kv.2 else none) = [] ∨
      ∃ r, entry k l = some r ∧ (out.filterMap fun kv => if kv.1 = k then some kv.2 else none) = (List.replicate (names.count k) r).filterMap id := by
  unfold appends at h
  obtain ⟨vs, hv, rfl⟩ := Option.map_eq_some_iff.mp h
  have main : ∀ (names : List String) (vs : List (Option (String × Val K))), (names.mapM fun n => (entry n l).map fun v => v.map fun v => (n, v)) = some vs → ∀ k,
      k ∉ names ∧ ((vs.filterMap id).filterMap fun kv => if kv.1 = k then some kv.2 else none) = [] ∨
      ∃ r, entry k l = some r ∧ ((vs.filterMap id).filterMap fun kv => if kv.1 = k then some kv.2 else none) = (List.replicate (names.count k) r).filterMap id := by
    intro names
    induction names with
    | nil => intro vs h k; simp only [List.mapM_nil] at h; cases h; exact Or.inl ⟨by simp, rfl⟩
    | cons n names ih =>
      intro vs h k
      rw [List.mapM_cons] at h
      obtain ⟨y, hy, h⟩ := Option.bind_eq_some_iff.mp h
      obtain ⟨ws, hws, h⟩ := Option.bind_eq_some_iff.mp h
      obtain ⟨v, hv, rfl⟩ := Option.map_eq_some_iff.mp hy
      have e2 : vs = (v.map fun v => (n, v)) :: ws := (Option.some.inj h).symm
      subst e2
      by_cases hk : n = k
      · subst hk
        right
        refine ⟨v, hv, ?_⟩
        rw [List.count_cons_self]
        have hi : ((ws.filterMap id).filterMap fun kv => if kv.1 = n then some kv.2 else none) = (List.replicate (names.count n) v).filterMap id := by
          rcases ih ws hws n with ⟨h1, h2⟩ | ⟨r, h1, h2⟩
          · rw [h2, List.count_eq_zero_of_not_mem h1]; rfl
          · rw [hv] at h1; cases h1; exact h2
        rw [List.replicate_succ]
        cases v with
        | none => simpa using hi
        | some v =>
          have e1 : ((Option.map (fun v => (n, v)) (some v) :: ws).filterMap id) = (n, v) :: ws.filterMap id := rfl
          have e2 : ((some v :: List.replicate (names.count n) (some v)).filterMap id) = v :: (List.replicate (names.count n) (some v)).filterMap id := rfl
          rw [e1, e2, ← hi, List.filterMap_cons, if_pos rfl]
      · have e : (((v.map fun v => (n, v)) :: ws).filterMap id).filterMap (fun kv => if kv.1 = k then some kv.2 else none) = (ws.filterMap id).filterMap fun kv => if kv.1 = k then some kv.2 else none := by
          cases v with
          | none => rfl
          | some v => simp only [Option.map_some, List.filterMap_cons, id]; rw [if_neg hk]
        rw [e, List.count_cons_of_ne hk]
        rcases ih ws hws k with ⟨h1, h2⟩ | h1
        · exact Or.inl ⟨by simp [h1, Ne.symm hk], h2⟩
        · exact Or.inr h1
  constructor
  · rw [List.filterMap_cons, if_pos rfl]
    simp only
    congr 1
    rcases main names vs hv "xi" with ⟨_, h2⟩ | ⟨r, _, h2⟩
    · exact h2
    · rw [h2, List.count_eq_zero_of_not_mem hx]; rfl
  · intro k hk
    rw [List.filterMap_cons, if_neg (fun e => hk e.symm)]
    exact main names vs hv k

/-- Under a name whose entry is `r l`, the file holds `r l` as often as the name is listed, layer by layer. -/
theorem column (c : OCfg K (Layer3 K) (Val K) F) (entry : String → Layer3 K → Option (Option (Val K))) (names : List String) (hp : c.proc = appends Layer3.xi entry names) (hx : "xi" ∉ names)
    (layers : List (Layer3 K)) (hs : ∀ l ∈ layers, (c.proc l).isSome) (k : String) (hk : k ≠ "xi") (r : Layer3 K → Option (Val K)) (hr : ∀ l, entry k l = (r l).map some) :
    (layers.flatMap (contrib c k)).map some = layers.flatMap fun l => List.replicate (names.count k) (r l) := by
  rw [List.map_flatMap]
  apply List.flatMap_congr
  intro l hl
  obtain ⟨out, ho⟩ := Option.isSome_iff_exists.mp (hs l hl)
  unfold contrib
  rw [ho, Option.getD_some]
  rw [hp] at ho
  rcases (appends_count Layer3.xi entry names l out ho hx).2 k hk with ⟨h1, h2⟩ | ⟨q, h1, h2⟩
  · rw [h2, List.count_eq_zero_of_not_mem h1]; rfl
  · rw [hr] at h1
    obtain ⟨v, hv, rfl⟩ := Option.map_eq_some_iff.mp h1
    rw [h2, hv]
    generalize names.count k = n
    induction n with
    | zero => rfl
    | succ n ih =>
      have e2 : ((some v :: List.replicate n (some v)).filterMap id) = v :: (List.replicate n (some v)).filterMap id := rfl
      rw [List.replicate_succ, e2, List.map_cons, ih]

theorem coords (c : OCfg K (Layer3 K) (Val K) F) (entry : String → Layer3 K → Option (Option (Val K))) (names : List String) (hp : c.proc = appends Layer3.xi entry names) (hx : "xi" ∉ names)
    (layers : List (Layer3 K)) (hs : ∀ l ∈ layers, (c.proc l).isSome) : layers.flatMap (contrib c "xi") = layers.map fun l => Val.num l.xi := by
  apply flatMap_singletons
  intro l hl
  obtain ⟨out, ho⟩ := Option.isSome_iff_exists.mp (hs l hl)
  unfold contrib
  rw [ho, Option.getD_some]
  rw [hp] at ho
  exact (appends_count Layer3.xi entry names l out ho hx).1

/-- Nothing is stored under a name whose entry appends nothing. -/
theorem no_column (c : OCfg K (Layer3 K) (Val K) F) (entry : String → Layer3 K → Option (Option (Val K))) (names : List String) (hp : c.proc = appends Layer3.xi entry names) (hx : "xi" ∉ names)
    (layers : List (Layer3 K)) (hs : ∀ l ∈ layers, (c.proc l).isSome) (k : String) (hk : k ≠ "xi") (hr : ∀ l, entry k l = some none) : layers.flatMap (contrib c k) = [] := by
  rw [List.flatMap_eq_nil_iff]
  intro l hl
  obtain ⟨out, ho⟩ := Option.isSome_iff_exists.mp (hs l hl)
  unfold contrib
  rw [ho, Option.getD_some]
  rw [hp] at ho
  rcases (appends_count Layer3.xi entry names l out ho hx).2 k hk with ⟨h1, h2⟩ | ⟨q, h1, h2⟩
  · exact h2
  · rw [hr] at h1; cases h1
    rw [h2, List.filterMap_eq_nil_iff]
    intro a ha
    rw [List.eq_of_mem_replicate ha]; rfl

theorem xi_not_allowed (allowed : List String) (hx : "xi" ∉ allowed) (s : List Char) (names : List String) (h : parseNames allowed s = some names) : "xi" ∉ names := by
  unfold parseNames at h
  split_ifs at h with ha
  cases h
  intro hm
  rw [List.all_eq_true] at ha
  exact hx (by simpa using ha _ hm)

theorem start_empty (names : List String) : Empty (start names : OBuf (Val K) F).data := by
  intro k
  unfold start Data.get
  simp only
  induction names with
  | nil =>
    by_cases hk : k = "xi"
    · subst hk; rfl
    · have : (k == "xi") = false := by simpa using hk
      simp [List.lookup, this]
  | cons n names ih =>
    simp only [List.map_cons, List.cons_append, List.lookup]
    split
    · rfl
    · exact ih

/-- Steps that completed recorded every due layer. -/
theorem recorded {L V : Type*} (c : OCfg K L V F) (b b' : OBuf V F) (s : K × List L) (h : stepDiag c b s = some b') (hc : cond s.1 c.period c.dt) : ∀ l ∈ s.2, c.keep l = true → (c.proc l).isSome := by
  unfold stepDiag at h
  obtain ⟨b1, h1, hd⟩ := Option.bind_eq_some_iff.mp h
  clear hd h
  obtain ⟨time, layers⟩ := s
  simp only at h1 hc ⊢
  induction layers generalizing b with
  | nil => simp
  | cons l layers ih =>
    rw [List.foldlM_cons] at h1
    obtain ⟨b2, h2, h3⟩ := Option.bind_eq_some_iff.mp h1
    intro l' hl' hk
    rcases List.mem_cons.mp hl' with rfl | hl'
    · unfold afterStep at h2
      obtain ⟨b3, h4, _⟩ := Option.bind_eq_some_iff.mp h2
      unfold record at h4
      rw [if_pos ⟨hc, hk⟩] at h4
      obtain ⟨a, ha, _⟩ := Option.map_eq_some_iff.mp h4
      rw [ha]; rfl
    · exact ih b2 h3 l' hl' hk

theorem run_split {L V : Type*} (c : OCfg K L V F) (pre post : List (K × List L)) (s : K × List L) (b b' : OBuf V F) (h : runDiag c b (pre ++ s :: post) = some b') :
    ∃ b1 b2, runDiag c b pre = some b1 ∧ stepDiag c b1 s = some b2 ∧ runDiag c b2 post = some b' := by
  unfold runDiag at h ⊢
  rw [List.foldlM_append] at h
  obtain ⟨b1, h1, h2⟩ := Option.bind_eq_some_iff.mp h
  rw [List.foldlM_cons] at h2
  obtain ⟨b2, h3, h4⟩ := Option.bind_eq_some_iff.mp h2
  exact ⟨b1, b2, h1, h3, h4⟩

/-- C67: for every grid, step, probes, periods, accepted names and history of layers: after a run with `DiagnosticsFXi`, the file of an output step holds exactly that step, unless a later output
step has the same two-decimal time. -/
theorem old_fxi_files (sqrt : K → K) (h dt dxi outputPeriod savingPeriod : K) (p : Probes) (text : List Char) (names : List String) (hn : parseNames allowedFXi text = some names)
    (pre post : List (K × List (Layer3 K))) (s : K × List (Layer3 K)) (b' : OBuf (Val K) (Data (Val K)))
    (hrun : runDiag (oldFXi sqrt h dt dxi outputPeriod savingPeriod p names) (start names) (pre ++ s :: post) = some b') (hc : cond s.1 (adjust outputPeriod dt) dt)
    (hlast : ∀ s' ∈ post, cond s'.1 (adjust outputPeriod dt) dt → pyRound (100 * s'.1) ≠ pyRound (100 * s.1)) :
    ∃ f, content b'.files (pyRound (100 * s.1)) = some f ∧ HoldsFXi sqrt h p names f s.2 := by
  obtain ⟨f, hf, d, hd, hcols⟩ := file_of_step (oldFXi sqrt h dt dxi outputPeriod savingPeriod p names) pre post s (start names) b' (start_empty names) hrun hc hlast
  have e : d = f := Option.some.inj hd
  subst e
  obtain ⟨b1, b2, _, h2, _⟩ := run_split _ pre post s _ _ hrun
  have hs : ∀ l ∈ s.2, ((oldFXi sqrt h dt dxi outputPeriod savingPeriod p names).proc l).isSome := fun l hl => recorded _ b1 b2 s h2 hc l hl rfl
  have hx : "xi" ∉ names := xi_not_allowed allowedFXi (by decide) text names hn
  have hkeep : s.2.filter (oldFXi sqrt h dt dxi outputPeriod savingPeriod p names).keep = s.2 := List.filter_eq_self.mpr fun _ _ => rfl
  simp only [hkeep] at hcols
  have col := column (oldFXi sqrt h dt dxi outputPeriod savingPeriod p names) (oldEntry sqrt h p) names rfl hx s.2 hs
  refine ⟨d, hf, ?_, ?_, ?_, ?_, ?_, ?_, ?_, ?_⟩
  · rw [hcols, coords _ (oldEntry sqrt h p) names rfl hx s.2 hs]
  · intro q hq
    rw [hcols]
    simp only [grids3, List.mem_cons, List.not_mem_nil, or_false] at hq
    rcases hq with rfl | rfl | rfl | rfl | rfl | rfl | rfl | rfl | rfl | rfl <;> exact col _ (by simp) _ (fun l => rfl)
  · rw [hcols]
    have := col "Sf" (by simp) (fun l => some (Val.num (energyFlux sqrt h l))) (fun l => rfl)
    have e2 : (fun l => List.replicate (names.count "Sf") (some (Val.num (energyFlux sqrt h l)))) = fun l : Layer3 K => (List.replicate (names.count "Sf") (Val.num (energyFlux sqrt h l))).map some := by
      funext l; rw [List.map_replicate]
    rw [e2, ← List.map_flatMap] at this
    exact List.map_injective_iff.mpr (Option.some_injective _) this
  · rw [hcols]; exact col _ (by simp) _ (fun l => by rw [Option.map_map]; rfl)
  · rw [hcols]; exact col _ (by simp) _ (fun l => by rw [Option.map_map]; rfl)
  · rw [hcols]; exact col _ (by simp) _ (fun l => by rw [Option.map_map]; rfl)
  · rw [hcols]; exact col _ (by simp) _ (fun l => by rw [Option.map_map]; rfl)
  · rw [hcols]; exact no_column _ (oldEntry sqrt h p) names rfl hx s.2 hs _ (by simp) (fun l => rfl)

/-- C67, refutation of "the ion density and the beam density can be asked for": any text with 'ni' or 'rho_beam' among its names is rejected, although the code has branches for them. -/
theorem ni_rejected (text : List Char) (names : List (List Char)) (h : Lists text names) (hm : "ni".toList ∈ names ∨ "rho_beam".toList ∈ names) : parseNames allowedFXi text = none := by
  rw [parse_iff allowedFXi text names h, if_neg]
  intro hall
  rcases hm with hm | hm
  · have := hall _ hm; revert this; decide
  · have := hall _ hm; revert this; decide

/-- ... while the joined name is accepted, and its column stays empty (`old_fxi_files`). -/
theorem joined_accepted (text : List Char) (h : Lists text ["nirho_beam".toList]) : parseNames allowedFXi text = some ["nirho_beam"] := by
  rw [parse_iff allowedFXi text _ h, if_pos]
  · decide
  · decide

/-- C67: with probes inside the window and nonempty arrays of electrons, no run with `DiagnosticsFXi` raises. -/
theorem old_fxi_total (sqrt : K → K) (h dt dxi outputPeriod savingPeriod : K) (p : Probes) (names : List String) (hist : List (K × List (Layer3 K)))
    (hg : ∀ s ∈ hist, ∀ l ∈ s.2, (∀ q ∈ (grids3 : List (String × ℕ × (Layer3 K → Grid K))), ((q.2.2 l).probe p).isSome) ∧
      (l.electrons.dxChaotic.amaxAbs 0 l.electrons.dxChaotic.n).isSome ∧ (l.electrons.dyChaotic.amaxAbs 0 l.electrons.dyChaotic.n).isSome ∧
      (l.electrons.dxChaotic.amaxAbs (l.electrons.dxChaotic.n / 6) (5 * (l.electrons.dxChaotic.n / 6))).isSome ∧ (l.electrons.dyChaotic.amaxAbs (l.electrons.dyChaotic.n / 6) (5 * (l.electrons.dyChaotic.n / 6))).isSome) :
    (runDiag (oldFXi sqrt h dt dxi outputPeriod savingPeriod p names) (start names) hist).isSome := by
  refine run_ok _ (fun _ => rfl) hist (fun s hs hcd l hl hke => ?_) _
  obtain ⟨h1, h2, h3, h4, h5⟩ := hg s hs l hl
  have hone : ∀ n, (oldEntry sqrt h p n l).isSome := by
    intro n
    unfold oldEntry
    have g : ∀ q ∈ (grids3 : List (String × ℕ × (Layer3 K → Grid K))), (((q.2.2 l).probe p).map some).isSome := fun q hq => by rw [Option.isSome_map]; exact h1 q hq
    split
    · exact g ("Ex", 0x1, Layer3.Ex) (by simp [grids3])
    · exact g ("Ey", 0x2, Layer3.Ey) (by simp [grids3])
    · exact g ("Ez", 0x4, Layer3.Ez) (by simp [grids3])
    · exact g ("Bx", 0x8, Layer3.Bx) (by simp [grids3])
    · exact g ("By", 0x10, Layer3.By) (by simp [grids3])
    · exact g ("Bz", 0x20, Layer3.Bz) (by simp [grids3])
    · exact g ("Phi", 0x40, Layer3.Phi) (by simp [grids3])
    · exact g ("ne", 0x80, Layer3.ne) (by simp [grids3])
    · exact g ("ni", 0x100, Layer3.ni) (by simp [grids3])
    · exact g ("rho_beam", 0x200, Layer3.rhoBeam) (by simp [grids3])
    · rfl
    · rw [Option.isSome_map]; exact h2
    · rw [Option.isSome_map]; exact h3
    · rw [Option.isSome_map]; exact h4
    · rw [Option.isSome_map]; exact h5
    · rfl
  clear hcd hke
  show (appends Layer3.xi (oldEntry sqrt h p) names l).isSome
  unfold appends
  rw [Option.isSome_map]
  induction names with
  | nil => rfl
  | cons n names ih =>
    rw [List.mapM_cons]
    obtain ⟨v, hv⟩ := Option.isSome_iff_exists.mp (hone n)
    obtain ⟨vs, hvs⟩ := Option.isSome_iff_exists.mp ih
    rw [hv, hvs]; rfl

end Lcode.Diag.Old
