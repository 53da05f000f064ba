import Verif.Config.DumpSpec

/-! Running again from the runas file (C51). -/

namespace Lcode.Cfg

open Lcode.Py

/-- Fineness from the square root of the number of particles per cell. -/
def fine (s : ℚ) : ℚ := if 0 < s ∧ s < 1 then 1 / (pyRound (1 / s) : ℚ) else (pyRound s : ℚ)

theorem fine_fine (s : ℚ) (hs : 0 ≤ s) : fine (fine s) = fine s := by
  by_cases h : 0 < s ∧ s < 1
  · have e : fine s = 1 / (pyRound (1 / s) : ℚ) := by rw [fine, if_pos h]
    have h1 : 1 ≤ pyRound (1 / s) := one_le_pyRound (by rw [le_div_iff₀ h.1]; linarith [h.2])
    rw [e]
    generalize pyRound (1 / s) = m at h1
    by_cases hm : m = 1
    · subst hm
      rw [fine, if_neg (by norm_num)]
      have : (1 : ℚ) / ((1 : ℤ) : ℚ) = ((1 : ℤ) : ℚ) := by norm_num
      rw [this, pyRound_intCast]
    · have h2 : (2 : ℚ) ≤ (m : ℚ) := by exact_mod_cast (by omega : (2 : ℤ) ≤ m)
      have h3 : (0 : ℚ) < 1 / (m : ℚ) ∧ 1 / (m : ℚ) < 1 := by
        refine ⟨by positivity, ?_⟩
        rw [div_lt_one (by linarith)]; linarith
      rw [fine, if_pos h3, one_div_one_div, pyRound_intCast]
  · have e : fine s = (pyRound s : ℚ) := by rw [fine, if_neg h]
    rw [e]
    have h0 := pyRound_nonneg hs
    generalize pyRound s = m at h0
    rw [fine, if_neg, pyRound_intCast]
    rintro ⟨h1, h2⟩
    have a : 0 < m := by exact_mod_cast h1
    have b : m < 1 := by exact_mod_cast h2
    omega

theorem fine_nonneg (s : ℚ) (hs : 0 ≤ s) : 0 ≤ fine s := by
  unfold fine
  split_ifs with h
  · have : 0 ≤ pyRound (1 / s) := pyRound_nonneg (by positivity)
    have : (0 : ℚ) ≤ (pyRound (1 / s) : ℚ) := by exact_mod_cast this
    positivity
  · exact_mod_cast pyRound_nonneg hs

theorem fineness_values (env : Env) (c : Config) :
    (c.adjustFineness env).getfloat env "plasma-fineness" =
      fine (env.sqrt (c.getfloat env "plasma-particles-per-cell")) ∧
    (c.adjustFineness env).getfloat env "plasma-particles-per-cell" =
      fine (env.sqrt (c.getfloat env "plasma-particles-per-cell")) ^ 2 := by
  unfold Config.adjustFineness fine
  generalize env.sqrt (c.getfloat env "plasma-particles-per-cell") = s
  simp only
  split_ifs with h
  · constructor
    · simp [Config.getfloat, lookup_set, toFloat?]
    · simp [Config.getfloat, lookup_set, toFloat?]
  · constructor
    · simp [Config.getfloat, lookup_set, toFloat?]
    · simp [Config.getfloat, lookup_set, toFloat?]

/-- The values the 3d adjustment leaves. -/
theorem adjust3d_values (env : Env) (c c' : Config) (hgeo : c.get env "geometry" = "3d")
    (h : c.adjust3d env = some c') :
    c'.getfloat env "plasma-fineness" = fine (env.sqrt (c.getfloat env "plasma-particles-per-cell")) ∧
    c'.getfloat env "plasma-particles-per-cell" =
      fine (env.sqrt (c.getfloat env "plasma-particles-per-cell")) ^ 2 ∧
    (c.get env "field-solver-subtraction-coefficient" = "1" →
      c'.getfloat env "field-solver-subtraction-coefficient" = 1 + c.getfloat env "xi-step") := by
  unfold Config.adjust3d at h
  rw [if_pos hgeo] at h
  simp only [Config.adjustWindow, getfloat_set] at h
  simp only [if_true, show ¬ ("window-width" = "transverse-step") by decide, if_false] at h
  cases ha : argminDist (requestedCells env c) (goodNumbers (requestedCells env c)) with
  | none =>
    unfold requestedCells at ha
    simp [ha] at h
  | some n =>
    unfold requestedCells at ha
    simp only [ha] at h
    generalize hc2 : ((c.set env "window-width" (.float (2 * c.getfloat env "window-width"))).set env "window-width"
      (.float (↑n * c.getfloat env "transverse-step"))).set env "window-width-steps" (.int n) = c2 at h
    have e1 : c2.getfloat env "plasma-particles-per-cell" = c.getfloat env "plasma-particles-per-cell" := by
      subst hc2; simp [Config.getfloat, lookup_set]
    have e2 : (c2.adjustFineness env).get env "field-solver-subtraction-coefficient" =
        c.get env "field-solver-subtraction-coefficient" := by
      subst hc2; simp [Config.get, lookup_set, lookup_adjustFineness]
    have e3 : (c2.adjustFineness env).getfloat env "xi-step" = c.getfloat env "xi-step" := by
      subst hc2; simp [Config.getfloat, lookup_set, lookup_adjustFineness]
    have hf := fineness_values env c2
    rw [e1] at hf
    rw [e2] at h
    split_ifs at h with hcase
    · simp only [Option.some.injEq] at h
      subst h
      refine ⟨?_, ?_, fun _ => ?_⟩
      · rw [getfloat_set, if_neg (by decide)]; exact hf.1
      · rw [getfloat_set, if_neg (by decide)]; exact hf.2
      · rw [getfloat_set, if_pos rfl, e3]
    · simp only [Option.some.injEq] at h
      subst h
      exact ⟨hf.1, hf.2, fun h' => absurd h' hcase⟩

theorem adjust3d_some (env : Env) (c : Config) (n : ℕ)
    (ha : argminDist (requestedCells env c) (goodNumbers (requestedCells env c)) = some n) :
    ∃ c', c.adjust3d env = some c' := by
  unfold Config.adjust3d
  split_ifs with hgeo
  · simp only [Config.adjustWindow, getfloat_set]
    simp only [if_true, show ¬ ("window-width" = "transverse-step") by decide, if_false]
    unfold requestedCells at ha
    simp only [ha]
    split_ifs
    · exact ⟨_, rfl⟩
    · exact ⟨_, rfl⟩
  · exact ⟨_, rfl⟩

theorem argmin_self (n : ℕ) (h : GoodGrid n) : argminDist (n : ℤ) (goodNumbers n) = some n := by
  have hm : n ∈ goodNumbers (n : ℤ) := (mem_goodNumbers _ _).mpr ⟨by omega, by omega, (goodSize_iff n).mpr h⟩
  cases ha : argminDist (n : ℤ) (goodNumbers n) with
  | none =>
    exfalso
    revert ha
    generalize goodNumbers (n : ℤ) = l at hm
    cases l with
    | nil => cases hm
    | cons a l =>
      rw [argminDist]
      split
      · simp
      · split_ifs <;> simp
  | some k =>
    have hmin := (argminDist_spec _ _ _ ha).2 n hm
    simp at hmin
    have : (k : ℤ) = n := by omega
    congr 1
    exact_mod_cast this

/-- **C51, running again**: let the first run be a 3d run whose adjustment succeeded (`c`, `c1`), and let
`r` be a configuration with the values its runas file shows: half of the adjusted width, the same steps,
the adjusted number of particles per cell. The second run is adjusted successfully and has the same width, the same number
of cells, the same plasma fineness and particles per cell; and if neither of the two sets the
subtraction coefficient of the field solver, the same coefficient. (Exact arithmetic; `np.sqrt` is exact on squares.) -/
theorem rerun_same_grid (env : Env) (hsqrt : ∀ q : ℚ, 0 ≤ q → env.sqrt (q ^ 2) = q) (c c1 r : Config)
    (hc : c.get env "geometry" = "3d") (h : c.adjust3d env = some c1)
    (hs : 0 ≤ env.sqrt (c.getfloat env "plasma-particles-per-cell"))
    (hstep : c.getfloat env "transverse-step" ≠ 0)
    (hr : r.get env "geometry" = "3d")
    (hrw : r.getfloat env "window-width" = c1.getfloat env "window-width" / 2)
    (hrs : r.getfloat env "transverse-step" = c1.getfloat env "transverse-step")
    (hrx : r.getfloat env "xi-step" = c1.getfloat env "xi-step")
    (hrp : r.getfloat env "plasma-particles-per-cell" = c1.getfloat env "plasma-particles-per-cell") :
    ∃ r1, r.adjust3d env = some r1 ∧
      r1.getfloat env "window-width" = c1.getfloat env "window-width" ∧
      r1.getraw "window-width-steps" = c1.getraw "window-width-steps" ∧
      r1.getfloat env "plasma-fineness" = c1.getfloat env "plasma-fineness" ∧
      r1.getfloat env "plasma-particles-per-cell" = c1.getfloat env "plasma-particles-per-cell" ∧
      (c.get env "field-solver-subtraction-coefficient" = "1" →
        r.get env "field-solver-subtraction-coefficient" = "1" →
        r1.getfloat env "field-solver-subtraction-coefficient" =
          c1.getfloat env "field-solver-subtraction-coefficient") := by
  obtain ⟨n, hn1, hn2, hgood, _, _, _, hother⟩ := adjusted_grid env c c1 hc h
  obtain ⟨f1, f2, f3⟩ := adjust3d_values env c c1 hc h
  have ht : c1.getfloat env "transverse-step" = c.getfloat env "transverse-step" := by
    unfold Config.getfloat; rw [hother _ (by decide)]
  have hx : c1.getfloat env "xi-step" = c.getfloat env "xi-step" := by
    unfold Config.getfloat; rw [hother _ (by decide)]
  have hreq : requestedCells env r = n := by
    unfold requestedCells
    rw [hrw, hn2, hrs, ht]
    have : 2 * ((n : ℚ) * c.getfloat env "transverse-step" / 2) / c.getfloat env "transverse-step" = ((n : ℤ) : ℚ) := by
      field_simp
      push_cast
      ring
    rw [this, pyInt_intCast]
  have ha : argminDist (requestedCells env r) (goodNumbers (requestedCells env r)) = some n := by
    rw [hreq]; exact argmin_self n hgood
  obtain ⟨r1, hr1⟩ := adjust3d_some env r n ha
  obtain ⟨n', ha', hw', hs', _⟩ := adjust3d_cases env r r1 hr hr1
  rw [ha] at ha'
  obtain rfl : n = n' := by simpa using ha'
  obtain ⟨g1, g2, g3⟩ := adjust3d_values env r r1 hr hr1
  have hfin : fine (env.sqrt (r.getfloat env "plasma-particles-per-cell")) =
      fine (env.sqrt (c.getfloat env "plasma-particles-per-cell")) := by
    rw [hrp, f2, hsqrt _ (fine_nonneg _ hs), fine_fine _ hs]
  refine ⟨r1, hr1, ?_, ?_, ?_, ?_, ?_⟩
  · have : r1.getfloat env "window-width" = n * r.getfloat env "transverse-step" := by
      simp [Config.getfloat, hw', toFloat?]
    rw [this, hn2, hrs, ht]
  · rw [hn1]; simp [Config.getraw, hs']
  · rw [g1, f1, hfin]
  · rw [g2, f2, hfin]
  · intro h1 h2
    rw [g3 h2, f3 h1, hrx, hx]

/-! ### Which options are recorded -/

theorem keys_distinct_common : (commonEntries.map Prod.fst ++ extraEnd.map Prod.fst).Nodup := by decide +kernel

/-- The options in every file. -/
def mainKeys : List String := ["geometry", "processing-unit-type", "window-width", "transverse-step",
  "window-length", "xi-step", "time-limit", "time-step", "plasma-particles-per-cell", "ion-model", "ion-mass",
  "plasma-shape", "plasma-rshape", "plasma-width", "plasma-width-2", "plasma-density-2", "plasma-zshape",
  "declustering-enabled", "declustering-averaging", "declustering-force", "declustering-damping",
  "declustering-limit", "beam-substepping-energy", "magnetic-field", "substepping-depth", "substepping-sensitivity",
  "bound-padding-steps", "plasma-padding-steps", "dual-plasma-approach", "plasma-coarseness", "rigid-beam"]

/-- The options in a file with "extra" in its name only. -/
def extraKeys : List String :=
  ["field-solver-subtraction-coefficient", "trapped-path-limit", "correctotransverse-steps"]

theorem main_keys : commonEntries.map Prod.fst ++ ["rigid-beam"] = mainKeys := rfl

/-- **C51**: the options in the file are distinct, and are `mainKeys`; with "extra" in the name of the file
also `extraKeys`. -/
theorem recorded_keys (name : List Char) : ((template name).map Prod.fst).Nodup ∧
    ∀ k, k ∈ (template name).map Prod.fst ↔ k ∈ mainKeys ∨ ("extra".toList <:+: name ∧ k ∈ extraKeys) := by
  by_cases h : "extra".toList <:+: name
  · have e : (template name).map Prod.fst = mainKeys ++ extraKeys := by
      rw [template, if_pos h, List.map_append, ← main_keys, List.append_assoc]; rfl
    have e2 : commonEntries.map Prod.fst ++ extraEnd.map Prod.fst = mainKeys ++ extraKeys := by
      rw [← main_keys, List.append_assoc]; rfl
    rw [e]
    refine ⟨e2 ▸ keys_distinct_common, fun k => ?_⟩
    rw [List.mem_append]
    exact or_congr_right ⟨fun hk => ⟨h, hk⟩, fun hk => hk.2⟩
  · have e : (template name).map Prod.fst = mainKeys := by
      rw [template, if_neg h, List.map_append, ← main_keys]; rfl
    have e2 : commonEntries.map Prod.fst ++ extraEnd.map Prod.fst = mainKeys ++ extraKeys := by
      rw [← main_keys, List.append_assoc]; rfl
    rw [e]
    refine ⟨List.Nodup.sublist (List.sublist_append_left _ extraKeys) (e2 ▸ keys_distinct_common), fun k => ?_⟩
    exact ⟨fun hk => .inl hk, fun hk => hk.elim id (fun h' => absurd h'.1 h)⟩

/-! ### Cases -/

/-- Printing with one digit after the point, enough for the examples. -/
def printEnv : Env where
  showFloat := fun q => toString (pyInt q) ++ "." ++ toString (pyInt (10 * (q - pyInt q)))
  parse := fun _ => none
  sqrt := fun q => q

theorem demo_floats (q : ℚ) : ∀ c ∈ [':', ',', '\n'], c ∉ (printEnv.showFloat q).toList := by
  intro c hc h
  simp only [printEnv, String.toList_append, List.mem_append] at h
  have key : ∀ i : ℤ, c ∈ (toString i).toList → False := by
    intro i hi
    simp only [List.mem_cons, List.not_mem_nil, or_false] at hc
    rcases int_chars i c hi with h' | h'
    · rcases hc with rfl | rfl | rfl <;> revert h' <;> decide
    · rcases hc with rfl | rfl | rfl <;> revert h' <;> decide
  rcases h with (h | h) | h
  · exact key _ h
  · simp only [List.mem_cons, List.not_mem_nil, or_false] at hc
    have : c = '.' := by simpa using h
    rcases hc with rfl | rfl | rfl <;> revert this <;> decide
  · exact key _ h

/-- A 3d configuration after the adjustment: full width 9.5, a longitudinal profile, a transverse
shape, one developer option. -/
def demoItems (rshape : String) (coef : ℚ) : List (String × Stored) :=
  [("geometry", .val (.str "3d")), ("window-width", .val (.float (19 / 2))), ("time-step", .val (.int 50)),
   ("plasma-rshape", .val (.str rshape)), ("plasma-zshape", .val (.str "\n  10 1 L 1\n   20 1 L 0 \n ")),
   ("ion-model", .val (.str "Background")), ("declustering-enabled", .val (.bool true)),
   ("field-solver-subtraction-coefficient", .val (.float coef))]

/-- The items before the transverse shape. -/
def demoHead : List (String × Stored) :=
  [("geometry", .val (.str "3d")), ("window-width", .val (.float (19 / 2))), ("time-step", .val (.int 50))]

/-- The items after the transverse shape. -/
def demoTail (coef : ℚ) : List (String × Stored) :=
  [("plasma-zshape", .val (.str "\n  10 1 L 1\n   20 1 L 0 \n ")),
   ("ion-model", .val (.str "Background")), ("declustering-enabled", .val (.bool true)),
   ("field-solver-subtraction-coefficient", .val (.float coef))]

/-- The items before the developer option. -/
def demoFront (rshape : String) : List (String × Stored) :=
  [("geometry", .val (.str "3d")), ("window-width", .val (.float (19 / 2))), ("time-step", .val (.int 50)),
   ("plasma-rshape", .val (.str rshape)), ("plasma-zshape", .val (.str "\n  10 1 L 1\n   20 1 L 0 \n ")),
   ("ion-model", .val (.str "Background")), ("declustering-enabled", .val (.bool true))]

theorem fetch_other (a : List (String × Stored)) (k : String) (v v' : Stored) (b : List (String × Stored))
    (k' : String) (h : k ≠ k') : fetch (a ++ (k, v) :: b) k' = fetch (a ++ (k, v') :: b) k' := by
  induction a with
  | nil => simp only [List.nil_append, fetch, h, if_false]
  | cons x a ih => simp only [List.cons_append, fetch, ih]

theorem demo_writable (rshape : String) (h : ':' ∉ rshape.toList) (coef : ℚ) :
    Writable printEnv (demoItems rshape coef) where
  nodup := by
    have : (demoItems rshape coef).map Prod.fst = ["geometry", "window-width", "time-step", "plasma-rshape",
      "plasma-zshape", "ion-model", "declustering-enabled", "field-solver-subtraction-coefficient"] := rfl
    rw [this]; decide
  keys := by
    have : (demoItems rshape coef).map Prod.fst = ["geometry", "window-width", "time-step", "plasma-rshape",
      "plasma-zshape", "ion-model", "declustering-enabled", "field-solver-subtraction-coefficient"] := rfl
    have h2 : ∀ k ∈ (demoItems rshape coef).map Prod.fst, '\'' ∉ k.toList := by rw [this]; decide
    exact fun kv hkv => h2 _ (List.mem_map_of_mem hkv)
  strs := by
    intro k s hm
    simp only [demoItems, List.mem_cons, Prod.mk.injEq, Stored.val.injEq, PyVal.str.injEq, reduceCtorEq,
      and_false, List.not_mem_nil, or_false, false_or] at hm
    rcases hm with ⟨_, rfl⟩ | ⟨_, rfl⟩ | ⟨_, rfl⟩ | ⟨_, rfl⟩
    · decide
    · exact h
    · decide
    · decide
  fns := by intro k r hm; simp [demoItems] at hm
  floats := demo_floats
  width := by intro s hm; simp [demoItems] at hm

/-- Every entry of the description is a line of the file. -/
theorem Says.line {env : Env} {items : List (String × Stored)} {version : String} {name text : List Char}
    (h : Says env items version name text) (e : String × String × String) (he : e ∈ template name) :
    ∃ t, Shows env items e.1 e.2.1.toList t ∧ marker e.1.toList ++ (t ++ [',']) <:+: text := by
  obtain ⟨val, rfl, hs⟩ := h
  refine ⟨val e, hs e he, ?_⟩
  obtain ⟨a, b, hab⟩ := List.append_of_mem he
  rw [hab, List.map_append, List.map_cons, List.flatten_append, List.flatten_cons]
  refine ⟨header version ++ (a.map (fun e => marker e.1.toList ++ (val e ++ (',' :: e.2.2.toList)))).flatten,
    e.2.2.toList ++ (b.map (fun e => marker e.1.toList ++ (val e ++ (',' :: e.2.2.toList)))).flatten, ?_⟩
  simp [List.append_assoc]

/-- **C51, refuted for the transverse shape**: for any two dictionaries that differ only in the transverse shape of the
plasma, both shapes being given by one word, the files are the same, and say "uniform". -/
theorem rshape_not_recorded (env : Env) (items items' : List (String × Stored)) (h : Writable env items)
    (h' : Writable env items') (version : String) (hv : ':' ∉ version.toList) (name text text' : List Char)
    (hsame : ∀ k, k ≠ "plasma-rshape" → fetch items k = fetch items' k) (s s' : String)
    (hs : fetch items "plasma-rshape" = some (.val (.str s))) (hs1 : wordCount s.toList = 1)
    (hs' : fetch items' "plasma-rshape" = some (.val (.str s'))) (hs1' : wordCount s'.toList = 1)
    (hd : dump env version name items = some text) (hd' : dump env version name items' = some text') :
    text = text' ∧ "'plasma-rshape': 'uniform',".toList <:+: text := by
  rcases dump_cases env items h version hv name with ⟨h1, _⟩ | ⟨t, h1, hsays, p1⟩
  · rw [h1] at hd; cases hd
  rcases dump_cases env items' h' version hv name with ⟨h2, _⟩ | ⟨t', h2, ⟨val', e2, s2⟩, p2⟩
  · rw [h2] at hd'; cases hd'
  rw [h1] at hd; rw [h2] at hd'
  obtain rfl : t = text := by simpa using hd
  obtain rfl : t' = text' := by simpa using hd'
  constructor
  · obtain ⟨val, e1, s1⟩ := hsays
    rw [e1, e2]
    congr 2
    refine List.map_congr_left fun e he => ?_
    by_cases hk : e.1 = "plasma-rshape"
    · have a1 := (s1 e he).forgotten hk (.inr (.inr ⟨s, by rw [hk]; exact hs, hs1⟩))
      have a2 := (s2 e he).forgotten hk (.inr (.inr ⟨s', by rw [hk]; exact hs', hs1'⟩))
      rw [a1, a2]
    · have hf := hsame e.1 hk
      have hgeo := hsame "geometry" (by decide)
      have h3 : Is3d items ↔ Is3d items' := by unfold Is3d; rw [hgeo]
      have := s2 e he
      have hsh : Shows env items e.1 e.2.1.toList (val' e) := {
        halfWidth := by rw [h3, hf]; exact this.halfWidth
        absent := by rw [hf]; exact this.absent
        number := by rw [h3, hf]; exact this.number
        word := by rw [hf]; exact this.word
        profile := by rw [hf]; exact this.profile
        function := by rw [hf]; exact this.function
        otherFunction := by rw [hf]; exact this.otherFunction
        forgotten := by rw [hf]; exact this.forgotten }
      rw [Shows.unique (s1 e he) hsh p1]
  · have hm : ("plasma-rshape", "'uniform'", "\n    ") ∈ template name := by
      rcases template_cases name with h | h <;> rw [h] <;> decide +kernel
    obtain ⟨u, hu, hl⟩ := hsays.line _ hm
    rw [hu.forgotten rfl (.inr (.inr ⟨s, hs, hs1⟩))] at hl
    have e : "'plasma-rshape': 'uniform',".toList =
      marker ("plasma-rshape", "'uniform'", "\n    ").1.toList ++
        ((("plasma-rshape", "'uniform'", "\n    ") : String × String × String).2.1.toList ++ [',']) := by decide +kernel
    rw [e]; exact hl

theorem demo_printable (rshape : String) (coef : ℚ) : ¬ Unprintable printEnv (demoItems rshape coef) := by
  rintro (⟨kv, hm, hk, hs, hr, hp⟩ | h | ⟨_, h⟩)
  · simp only [demoItems, List.mem_cons, List.not_mem_nil, or_false] at hm
    rcases hm with rfl | rfl | rfl | rfl | rfl | rfl | rfl | rfl
    · exact hs _ rfl
    · revert hk; decide
    · revert hk; decide
    · exact hs _ rfl
    · exact hs _ rfl
    · exact hs _ rfl
    · exact absurd hk (show ¬ "declustering-enabled" ∈ strKeys by decide)
    · exact absurd hk (show ¬ "field-solver-subtraction-coefficient" ∈ strKeys by decide)
  · exact h "3d" rfl
  · exact h (.val (.float (19 / 2))) (19 / 2) rfl rfl

/-- The file of the example is written, and shows half of the width, the time step, the ion model in small letters
and the longitudinal profile; the step along ξ, which is not in the dictionary, is the default. -/
theorem demo_file (rshape : String) (h : ':' ∉ rshape.toList) (coef : ℚ) (name : List Char) :
    ∃ text, dump printEnv "0.3.1" name (demoItems rshape coef) = some text ∧
    "'window-width': 4.7,".toList <:+: text ∧ "'time-step': 50,".toList <:+: text ∧
    "'ion-model': 'background',".toList <:+: text ∧
    "'plasma-zshape': '''\n        10 1 l 1\n        20 1 l 0\n        ''',".toList <:+: text ∧
    "'xi-step': 0.05,".toList <:+: text := by
  have hw := demo_writable rshape h coef
  rcases dump_cases printEnv _ hw "0.3.1" (by decide) name with ⟨_, hu⟩ | ⟨text, ht, hs, _⟩
  · exact absurd hu (demo_printable rshape coef)
  have hin : ∀ e ∈ commonEntries, e ∈ template name := by
    intro e he
    rcases template_cases name with h | h <;> rw [h] <;> exact List.mem_append_left _ he
  refine ⟨text, ht, ?_, ?_, ?_, ?_, ?_⟩
  · obtain ⟨u, hu, hl⟩ := hs.line ("window-width", "5.0", "\n    ") (hin _ (by decide +kernel))
    obtain ⟨w, q, h1, h2, h3⟩ := hu.halfWidth rfl ⟨"3d", rfl, by decide⟩
    have h1' : some (Stored.val (.float (19 / 2))) = some w := h1
    obtain rfl : Stored.val (.float (19 / 2)) = w := by simpa using h1'
    obtain rfl : (19 / 2 : ℚ) = q := by simpa [floatOf] using h2
    rw [h3] at hl
    have e : (printEnv.showFloat (19 / 2 / 2)).toList = "4.7".toList := by decide +kernel
    rw [e] at hl
    exact hl
  · obtain ⟨u, hu, hl⟩ := hs.line ("time-step", "25", "\n\n    # Parameters of plasma model:\n\n    ## The number of plasma particles per one cell must be the square of \n    ## an integer in 3d. This parameter will be adjusted in 3d geometry\n    ## to the nearest integer squared (to 9 by default).\n    ") (hin _ (by decide +kernel))
    rw [hu.number (by decide) (fun h => absurd h.1 (by decide)) (.int 50) rfl] at hl
    exact hl
  · obtain ⟨u, hu, hl⟩ := hs.line ("ion-model", "'mobile'", " # 'mobile' or 'background'\n\n    ## Mass of plasma ions in unita of electron mass\n    ") (hin _ (by decide +kernel))
    rw [hu.word (by decide) "Background" rfl] at hl
    have e : '\'' :: lower "Background" ++ ['\''] = "'background'".toList := by decide +kernel
    rw [e] at hl
    exact hl
  · obtain ⟨u, hu, hl⟩ := hs.line ("plasma-zshape", "'''\n        '''", "\n\n    ## Declustering of plasma electrons\n    ") (hin _ (by decide +kernel))
    rw [hu.profile _ rfl (.inl rfl)] at hl
    have e : profileText "\n  10 1 L 1\n   20 1 L 0 \n " = "'''\n        10 1 l 1\n        20 1 l 0\n        '''".toList := by
      decide +kernel
    rw [e] at hl
    exact hl
  · obtain ⟨u, hu, hl⟩ := hs.line ("xi-step", "0.05", "\n\n    ## Time limit for beam evolution and time step.\n    ") (hin _ (by decide +kernel))
    rw [hu.absent rfl] at hl
    exact hl

/-- The example meets the hypotheses of `rshape_not_recorded`: a uniform and a Gaussian plasma. -/
theorem demo_rshape (coef : ℚ) (name : List Char) : ∃ text,
    dump printEnv "0.3.1" name (demoItems "uniform" coef) = some text ∧
    dump printEnv "0.3.1" name (demoItems "gaussian" coef) = some text ∧
    "'plasma-rshape': 'uniform',".toList <:+: text := by
  obtain ⟨t1, h1, _⟩ := demo_file "uniform" (by decide) coef name
  obtain ⟨t2, h2, _⟩ := demo_file "gaussian" (by decide) coef name
  have := rshape_not_recorded printEnv _ _ (demo_writable "uniform" (by decide) coef)
    (demo_writable "gaussian" (by decide) coef) "0.3.1" (by decide) name t1 t2
    (fun k hk => fetch_other (demoHead) "plasma-rshape" _ _ (demoTail coef) k (Ne.symm hk)) "uniform" "gaussian" rfl (by decide +kernel) rfl
    (by decide +kernel) h1 h2
  exact ⟨t1, h1, by rw [h2, this.1], this.2⟩

/-- **C51, refuted for the developer options**: the subtraction coefficient of the field solver is not in
the file of the default name, and is in a file whose name contains "extra". -/
theorem coefficient_not_recorded (coef coef' : ℚ) :
    dump printEnv "0.3.1" "runas.py".toList (demoItems "uniform" coef) =
      dump printEnv "0.3.1" "runas.py".toList (demoItems "uniform" coef') ∧
    ∃ text, dump printEnv "0.3.1" "extra.py".toList (demoItems "uniform" coef) = some text ∧
      marker "field-solver-subtraction-coefficient".toList ++ ((printEnv.showFloat coef).toList ++ [',']) <:+: text := by
  have hname : template "runas.py".toList = commonEntries ++ shortEnd := by
    rw [template, if_neg (by decide +kernel)]
  have hname' : template "extra.py".toList = commonEntries ++ extraEnd := by
    rw [template, if_pos (by decide +kernel)]
  have hu : ':' ∉ "uniform".toList := by decide
  constructor
  · obtain ⟨t1, h1, _⟩ := demo_file "uniform" hu coef "runas.py".toList
    obtain ⟨t2, h2, _⟩ := demo_file "uniform" hu coef' "runas.py".toList
    rw [h1, h2]
    congr 1
    refine runas_other_keys printEnv _ _ (demo_writable _ hu coef) (demo_writable _ hu coef') "0.3.1" (by decide) _ t1 t2
      ?_ h1 h2
    intro e he
    have hk : ¬ "field-solver-subtraction-coefficient" = e.1 := by
      rw [hname] at he
      have : ∀ e ∈ commonEntries ++ shortEnd, ¬ "field-solver-subtraction-coefficient" = e.1 := by decide +kernel
      exact this e he
    exact fetch_other (demoFront "uniform") "field-solver-subtraction-coefficient" _ _ [] e.1 hk
  · rcases dump_cases printEnv _ (demo_writable _ hu coef) "0.3.1" (by decide) "extra.py".toList with
      ⟨_, hx⟩ | ⟨text, ht, hs, _⟩
    · exact absurd hx (demo_printable _ coef)
    · refine ⟨text, ht, ?_⟩
      obtain ⟨u, hu, hl⟩ := hs.line ("field-solver-subtraction-coefficient", "1", " \n    \n    ## Only 2d\n    ## Plasma:\n    ")
        (by rw [hname']; decide +kernel)
      rw [hu.number (by decide) (fun h => absurd h.1 (by decide)) (.float coef) rfl] at hl
      exact hl

/-- **C51, finding**: with the geometry written "3D" the width is not doubled by the adjustment
(`adjust3d_skips_capitals`), but the file still shows half of it. -/
theorem capital_halved (env : Env) (items : List (String × Stored)) (h : Writable env items) (version : String)
    (hv : ':' ∉ version.toList) (name text : List Char) (hg : fetch items "geometry" = some (.val (.str "3D")))
    (q : ℚ) (hw : fetch items "window-width" = some (.val (.float q)))
    (hd : dump env version name items = some text) :
    marker "window-width".toList ++ ((env.showFloat (q / 2)).toList ++ [',']) <:+: text := by
  have hs := runas_text env items h version hv name text hd
  obtain ⟨u, hu, hl⟩ := hs.line ("window-width", "5.0", "\n    ") (by
    rcases template_cases name with h | h <;> rw [h] <;> decide +kernel)
  obtain ⟨w, q', h1, h2, h3⟩ := hu.halfWidth rfl ⟨"3D", hg, by decide +kernel⟩
  have hw' : fetch items ("window-width", "5.0", "\n    ").1 = some (.val (.float q)) := hw
  rw [hw'] at h1
  obtain rfl : Stored.val (.float q) = w := by simpa using h1
  obtain rfl : q = q' := by simpa [floatOf] using h2
  rw [h3] at hl
  exact hl

open Classical in
/-- A square root that is exact on squares of rationals exists, so that the hypothesis of `rerun_same_grid` can be met. -/
theorem exists_sqrt : ∃ f : ℚ → ℚ, ∀ q : ℚ, 0 ≤ q → f (q ^ 2) = q := by
  refine ⟨fun x => if h : ∃ q : ℚ, 0 ≤ q ∧ q ^ 2 = x then h.choose else 0, fun q hq => ?_⟩
  have h : ∃ p : ℚ, 0 ≤ p ∧ p ^ 2 = q ^ 2 := ⟨q, hq, rfl⟩
  simp only
  rw [dif_pos h]
  exact (pow_left_inj₀ h.choose_spec.1 hq (by norm_num)).mp h.choose_spec.2

/-- The hypotheses of `rerun_same_grid` are met: half-width 5.0 and step 0.05 give 199 cells, the file says
199·0.05/2. -/
example (env : Env) (hsqrt : ∀ q : ℚ, 0 ≤ q → env.sqrt (q ^ 2) = q) : ∃ c c1 r : Config,
    c.get env "geometry" = "3d" ∧ c.adjust3d env = some c1 ∧
    0 ≤ env.sqrt (c.getfloat env "plasma-particles-per-cell") ∧ c.getfloat env "transverse-step" ≠ 0 ∧
    r.get env "geometry" = "3d" ∧ r.getfloat env "window-width" = c1.getfloat env "window-width" / 2 ∧
    r.getfloat env "transverse-step" = c1.getfloat env "transverse-step" ∧
    r.getfloat env "xi-step" = c1.getfloat env "xi-step" ∧
    r.getfloat env "plasma-particles-per-cell" = c1.getfloat env "plasma-particles-per-cell" := by
  let c : Config := ⟨[("geometry", .str "3d"), ("window-width", .float 5), ("transverse-step", .float (1/20)),
    ("xi-step", .float (1/20)), ("plasma-particles-per-cell", .int 4)], .numpy⟩
  have hgeo : c.get env "geometry" = "3d" := by simp [c, Config.get, Table.lookup, str]
  have hp : c.getfloat env "plasma-particles-per-cell" = 2 ^ 2 := by
    simp [c, Config.getfloat, Table.lookup, toFloat?]; norm_num
  have hreq : requestedCells env c = ((200 : ℕ) : ℤ) := by
    have : 2 * c.getfloat env "window-width" / c.getfloat env "transverse-step" = ((200 : ℤ) : ℚ) := by
      simp [c, Config.getfloat, Table.lookup, toFloat?]; norm_num
    rw [requestedCells, this, pyInt_intCast]; rfl
  have hm : (199 : ℕ) ∈ goodNumbers (requestedCells env c) := by
    rw [hreq]
    exact (mem_goodNumbers _ _).mpr ⟨by norm_num, by norm_num, by
      rw [goodSize_iff]
      have := chain_good
      exact (goodSize_iff 199).mp (by decide +kernel)⟩
  obtain ⟨n, hn⟩ := argminDist_isSome (requestedCells env c) _ (List.ne_nil_of_mem hm)
  obtain ⟨c1, hc1⟩ := adjust3d_some env c n hn
  refine ⟨c, c1, ⟨[("geometry", .str "3d"), ("window-width", .float (c1.getfloat env "window-width" / 2)),
    ("transverse-step", .float (c1.getfloat env "transverse-step")),
    ("xi-step", .float (c1.getfloat env "xi-step")),
    ("plasma-particles-per-cell", .float (c1.getfloat env "plasma-particles-per-cell"))], .numpy⟩,
    hgeo, hc1, ?_, ?_, ?_, ?_, ?_, ?_, ?_⟩
  · rw [hp, hsqrt 2 (by norm_num)]; norm_num
  · simp [c, Config.getfloat, Table.lookup, toFloat?]
  · simp [Config.get, Table.lookup, str]
  · simp [Config.getfloat, Table.lookup, toFloat?]
  · simp [Config.getfloat, Table.lookup, toFloat?]
  · simp [Config.getfloat, Table.lookup, toFloat?]
  · simp [Config.getfloat, Table.lookup, toFloat?]

end Lcode.Cfg
