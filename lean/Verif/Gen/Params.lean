import Verif.Gen.Beam

/-!
The user's beam parameters (C35), cases that meet the hypotheses, and failures of the generator.
-/

namespace Lcode.Gen

open Lcode.Beam2D (IsArgsort gather)
open Lcode.Beam3D (InLayer)

variable {S T : Type}

/-! ### Parameters -/

/-- The value of `key` in the dictionary. -/
def dictGet {α : Type} (d : List (String × α)) (key : String) : Option α := (d.find? fun kv => kv.1 == key).map Prod.snd

theorem foldl_setKey {α : Type} (d : List (String × α)) (hd : (d.map Prod.fst).Nodup) (p : String → Option α) (key : String) :
    (d.foldl (fun p kv => setKey p kv.1 kv.2) p) key = (dictGet d key).or (p key) := by
  induction d generalizing p with
  | nil => simp [dictGet]
  | cons kv d ih =>
    rw [List.map_cons, List.nodup_cons] at hd
    rw [List.foldl_cons, ih hd.2]
    by_cases h : kv.1 = key
    · have hno : dictGet d key = none := by
        unfold dictGet
        rw [Option.map_eq_none_iff, List.find?_eq_none]
        intro x hx hk
        simp only [beq_iff_eq] at hk
        exact hd.1 (List.mem_map.mpr ⟨x, hx, by rw [hk, h]⟩)
      rw [hno]
      simp [dictGet, h, setKey]
    · have hne : key ≠ kv.1 := fun e => h e.symm
      simp [dictGet, h, hne, setKey]

/-- A segment parameter: the segment's own value, else the value in the default dictionary in force, else the built-in one. -/
noncomputable def effective (dflt own : List (String × PVal)) : Params := fun key => (dictGet own key).or ((dictGet dflt key).or (defaultSegment key))

/-- Dictionaries of Python have distinct keys. -/
def DistinctKeys (u : List (String × TopVal)) : Prop := (u.map Prod.fst).Nodup ∧ ∀ k d, (k, TopVal.dict d) ∈ u → (d.map Prod.fst).Nodup

/-- The segment dictionaries, in the order given. -/
def segmentDicts (u : List (String × TopVal)) : List (List (String × PVal)) :=
  u.filterMap fun kv => match kv.2 with
    | .dict d => if kv.1 = "default" then none else some d
    | .scalar _ => none

/-- Every entry that is not a dictionary is one of the beam-wide parameters. -/
def KnownScalars (u : List (String × TopVal)) : Prop := ∀ k v, (k, TopVal.scalar v) ∈ u → k ∈ shapeKeys

theorem override_effective (dflt own : List (String × PVal)) (h1 : (dflt.map Prod.fst).Nodup) (h2 : (own.map Prod.fst).Nodup) : override (override defaultSegment dflt) own = effective dflt own := by
  funext key
  unfold override effective
  rw [foldl_setKey own h2, foldl_setKey dflt h1]

theorem segmentLoop_noDefault (u : List (String × TopVal)) (dflt : List (String × PVal)) (hdn : (dflt.map Prod.fst).Nodup) (segs : List Segment)
    (hno : ∀ kv ∈ u, kv.1 ≠ "default") (hd : ∀ k d, (k, TopVal.dict d) ∈ u → (d.map Prod.fst).Nodup) (hk : KnownScalars u) :
    segmentLoop (override defaultSegment dflt, segs) u = ((segmentDicts u).mapM fun own => mkSegment (effective dflt own)).map fun new => (override defaultSegment dflt, segs ++ new) := by
  induction u generalizing segs with
  | nil => simp [segmentLoop, segmentDicts]
  | cons kv u ih =>
    obtain ⟨k, v⟩ := kv
    have ih' := fun segs => ih segs (fun kv h => hno kv (List.mem_cons_of_mem _ h)) (fun k d h => hd k d (List.mem_cons_of_mem _ h)) (fun k v h => hk k v (List.mem_cons_of_mem _ h))
    have hk0 : k ≠ "default" := hno _ List.mem_cons_self
    unfold segmentLoop at ih' ⊢
    rw [List.foldlM_cons]
    cases v with
    | scalar v =>
      have hmem : k ∈ shapeKeys := hk k v List.mem_cons_self
      have e1 : segmentTurn (override defaultSegment dflt, segs) (k, TopVal.scalar v) = some (override defaultSegment dflt, segs) := by
        simp only [segmentTurn, if_pos hmem]
      have e2 : segmentDicts ((k, TopVal.scalar v) :: u) = segmentDicts u := by simp [segmentDicts]
      rw [e1, e2]
      exact ih' segs
    | dict d =>
      have e1 : segmentTurn (override defaultSegment dflt, segs) (k, TopVal.dict d) = (mkSegment (effective dflt d)).map fun p => (override defaultSegment dflt, segs ++ [p]) := by
        simp only [segmentTurn, if_neg hk0]
        rw [override_effective dflt d hdn (hd k d List.mem_cons_self)]
      have e2 : segmentDicts ((k, TopVal.dict d) :: u) = d :: segmentDicts u := by simp [segmentDicts, hk0]
      rw [e1, e2, List.mapM_cons]
      cases hm : mkSegment (effective dflt d) with
      | none => simp
      | some p =>
        simp only [Option.map_some, Option.bind_eq_bind, Option.bind_some, Option.pure_def]
        rw [ih']
        cases (segmentDicts u).mapM fun own => mkSegment (effective dflt own) with
        | none => simp
        | some new => simp

theorem mapM_length {α β : Type} (f : α → Option β) (l : List α) (o : List β) (h : l.mapM f = some o) : o.length = l.length := by
  induction l generalizing o with
  | nil => cases h; rfl
  | cons x l ih =>
    rw [List.mapM_cons] at h
    simp only [Option.bind_eq_bind, Option.bind_eq_some_iff, Option.pure_def, Option.some.injEq] at h
    obtain ⟨y, -, ys, hys, rfl⟩ := h
    simp [ih _ hys]

/-- C35: the segments of the beam when the user gives a `default` dictionary: those given before it take the built-in defaults, those after it take its values; every segment's own values come first. -/
theorem segments_with_default (A B : List (String × TopVal)) (D : List (String × PVal)) (hu : DistinctKeys (A ++ ("default", .dict D) :: B)) (hk : KnownScalars (A ++ ("default", .dict D) :: B)) :
    segmentsOf (some (A ++ ("default", .dict D) :: B)) =
      if segmentDicts A = [] ∧ segmentDicts B = [] then (mkSegment (effective D [])).map fun p => [p]
      else ((segmentDicts A).mapM fun own => mkSegment (effective [] own)).bind fun a => ((segmentDicts B).mapM fun own => mkSegment (effective D own)).map fun b => a ++ b := by
  obtain ⟨hnd, hdd⟩ := hu
  rw [List.map_append, List.map_cons, List.nodup_append] at hnd
  obtain ⟨-, hB, hAB⟩ := hnd
  rw [List.nodup_cons] at hB
  have hAno : ∀ kv ∈ A, kv.1 ≠ "default" := fun kv h e => hAB kv.1 (List.mem_map_of_mem h) "default" List.mem_cons_self e
  have hBno : ∀ kv ∈ B, kv.1 ≠ "default" := fun kv h e => hB.1 (List.mem_map.mpr ⟨kv, h, e⟩)
  have hDn : (D.map Prod.fst).Nodup := hdd "default" D (by simp)
  have eA := segmentLoop_noDefault A [] List.nodup_nil [] hAno (fun k d h => hdd k d (by simp [h])) (fun k v h => hk k v (by simp [h]))
  have e0 : override defaultSegment [] = defaultSegment := rfl
  rw [e0] at eA
  have eB := fun segs => segmentLoop_noDefault B D hDn segs hBno (fun k d h => hdd k d (by simp [h])) (fun k v h => hk k v (by simp [h]))
  unfold segmentsOf
  simp only
  have eL : segmentLoop (defaultSegment, []) (A ++ ("default", .dict D) :: B) = (segmentLoop (defaultSegment, []) A).bind fun st => segmentLoop (override st.1 D, st.2) B := by
    unfold segmentLoop
    rw [List.foldlM_append]
    simp only [List.foldlM_cons, segmentTurn, if_true]
    rfl
  rw [eL, eA]
  have eD : override (override defaultSegment D) [] = override defaultSegment D := rfl
  have hfin : override defaultSegment D = effective D [] := by rw [← override_effective D [] hDn List.nodup_nil, eD]
  cases hA : (segmentDicts A).mapM fun own => mkSegment (effective [] own) with
  | none =>
    have hne : segmentDicts A ≠ [] := by intro h; rw [h] at hA; cases hA
    simp [hne]
  | some a =>
    have la := mapM_length _ _ _ hA
    simp only [Option.map_some, List.nil_append, Option.bind_some]
    rw [eB]
    cases hBm : (segmentDicts B).mapM fun own => mkSegment (effective D own) with
    | none =>
      have hne : segmentDicts B ≠ [] := by intro h; rw [h] at hBm; cases hBm
      simp [hne]
    | some bb =>
      have lb := mapM_length _ _ _ hBm
      simp only [Option.map_some, Option.bind_some, List.length_append]
      by_cases hz : segmentDicts A = [] ∧ segmentDicts B = []
      · rw [if_pos hz, if_pos (by rw [la, lb, hz.1, hz.2]; rfl), hfin]
      · rw [if_neg hz, if_neg]
        intro h0
        apply hz
        constructor <;> apply List.length_eq_zero_iff.mp <;> omega

/-- C35: without a `default` dictionary every segment takes the built-in defaults where it gives no value of its own; with no segment at all the beam is the built-in segment. -/
theorem segments_without_default (u : List (String × TopVal)) (hu : DistinctKeys u) (hno : ∀ kv ∈ u, kv.1 ≠ "default") (hk : KnownScalars u) :
    segmentsOf (some u) = if segmentDicts u = [] then (mkSegment defaultSegment).map fun p => [p] else (segmentDicts u).mapM fun own => mkSegment (effective [] own) := by
  have eA := segmentLoop_noDefault u [] List.nodup_nil [] hno hu.2 hk
  have e0 : override defaultSegment [] = defaultSegment := rfl
  rw [e0] at eA
  unfold segmentsOf
  simp only
  rw [eA]
  cases hA : (segmentDicts u).mapM fun own => mkSegment (effective [] own) with
  | none =>
    have hne : segmentDicts u ≠ [] := by intro h; rw [h] at hA; cases hA
    simp [hne]
  | some a =>
    have la := mapM_length _ _ _ hA
    simp only [Option.map_some, List.nil_append, Option.bind_some]
    by_cases hz : segmentDicts u = []
    · rw [if_pos hz, if_pos (by rw [la, hz]; rfl)]
    · rw [if_neg hz, if_neg]
      intro h0
      exact hz (List.length_eq_zero_iff.mp (by omega))

/-- C35: an entry that is neither a dictionary nor one of `current`, `particles_in_layer`, `rng_seed` makes the generator raise. -/
theorem unknown_scalar_raises (u : List (String × TopVal)) (k : String) (v : PVal) (hmem : (k, TopVal.scalar v) ∈ u) (hk : k ∉ shapeKeys) : segmentsOf (some u) = none := by
  have : ∀ (u : List (String × TopVal)) st, (k, TopVal.scalar v) ∈ u → segmentLoop st u = none := by
    intro u
    induction u with
    | nil => intro st h; cases h
    | cons kv u ih =>
      intro st h
      unfold segmentLoop at ih ⊢
      rw [List.foldlM_cons]
      rcases List.mem_cons.mp h with rfl | h
      · simp [segmentTurn, hk]
      · cases segmentTurn st kv with
        | none => rfl
        | some st' => exact ih st' h
  unfold segmentsOf
  simp only
  rw [this u _ hmem]
  rfl

/-- C35: every field of a segment is the parameter of that name; the shapes are the registered functions of that name, and only the Gaussian radial shape exists. -/
theorem segment_fields (p : Params) (s : Segment) (h : mkSegment p = some s) :
    p "length" = some (.num s.length) ∧ p "ampl" = some (.num s.ampl) ∧ p "radius" = some (.num s.radius) ∧ p "energy" = some (.num s.energy) ∧ p "xshift" = some (.num s.xshift) ∧
    p "yshift" = some (.num s.yshift) ∧ p "angspread" = some (.num s.angspread) ∧ p "espread" = some (.num s.espread) ∧ p "mass_charge_ratio" = some (.num s.massCharge) ∧
    (∃ n, p "xishape" = some (.str n) ∧ xiShape n = some s.xishape) ∧ (∃ n, p "angshape" = some (.str n) ∧ xiShape n = some s.angshape) ∧
    (∃ n, p "eshape" = some (.str n) ∧ eShape n = some s.eshape) ∧ (p "rshape" = some (.str "g") ∨ p "rshape" = some (.str "gaussian")) := by
  have hnum : ∀ k x, numOf p k = some x → p k = some (.num x) := by
    intro k x hx
    unfold numOf at hx
    split at hx
    · rename_i y hy; cases hx; exact hy
    · cases hx
  have hstr : ∀ k x, strOf p k = some x → p k = some (.str x) := by
    intro k x hx
    unfold strOf at hx
    split at hx
    · rename_i y hy; cases hx; exact hy
    · cases hx
  unfold mkSegment at h
  obtain ⟨x1, h1, h⟩ := Option.bind_eq_some_iff.mp h
  obtain ⟨x2, h2, h⟩ := Option.bind_eq_some_iff.mp h
  obtain ⟨x3, h3p, h⟩ := Option.bind_eq_some_iff.mp h
  obtain ⟨n3, h3, h3'⟩ := Option.bind_eq_some_iff.mp h3p
  obtain ⟨x4, h4, h⟩ := Option.bind_eq_some_iff.mp h
  obtain ⟨x5, h5, h⟩ := Option.bind_eq_some_iff.mp h
  obtain ⟨x6, h6, h⟩ := Option.bind_eq_some_iff.mp h
  obtain ⟨x7, h7, h⟩ := Option.bind_eq_some_iff.mp h
  obtain ⟨x8, h8, h⟩ := Option.bind_eq_some_iff.mp h
  obtain ⟨x9, h9, h⟩ := Option.bind_eq_some_iff.mp h
  obtain ⟨x10, h10p, h⟩ := Option.bind_eq_some_iff.mp h
  obtain ⟨n10, h10, h10'⟩ := Option.bind_eq_some_iff.mp h10p
  obtain ⟨x11, h11, h⟩ := Option.bind_eq_some_iff.mp h
  obtain ⟨x12, h12p, h⟩ := Option.bind_eq_some_iff.mp h
  obtain ⟨n12, h12, h12'⟩ := Option.bind_eq_some_iff.mp h12p
  obtain ⟨x13, h13, h⟩ := Option.bind_eq_some_iff.mp h
  have hr := h
  split at hr
  · rename_i hok
    cases hr
    refine ⟨hnum _ _ h1, hnum _ _ h2, hnum _ _ h4, hnum _ _ h5, hnum _ _ h6, hnum _ _ h7, hnum _ _ h9, hnum _ _ h11, hnum _ _ h13, ⟨n3, hstr _ _ h3, h3'⟩, ⟨n10, hstr _ _ h10, h10'⟩, ⟨n12, hstr _ _ h12, h12'⟩, ?_⟩
    have := hstr _ _ h8
    unfold rShapeOk at hok
    split at hok
    · right; exact this
    · left; exact this
    · cases hok
  · cases hr

/-- The energy shapes with several levels have at least two. -/
theorem eShape_levels (n : String) (m : ℕ) (h : eShape n = some (.multi m)) : 2 ≤ m ∧ m ≤ 9 ∧ n = toString m := by
  unfold eShape at h
  split at h <;> first | cases h | skip
  all_goals exact ⟨by norm_num, by norm_num, rfl⟩

/-- C35: with no parameters the beam is the built-in one. -/
theorem default_beam : ∃ s, segmentsOf none = some [s] ∧ s.length = 5.01 ∧ s.ampl = 1 ∧ s.radius = 1 ∧ s.energy = 1000 ∧ s.xshift = 0 ∧ s.yshift = 0 ∧ s.angspread = 1e-5 ∧ s.espread = 0 ∧
    s.eshape = .mono ∧ s.massCharge = 1 ∧ (∀ d l, s.angshape d l = 1) ∧ ∀ d l, s.xishape d l = 0.5 * (1 - Real.cos (2 * Real.pi * d / l)) := by
  refine ⟨_, rfl, rfl, rfl, rfl, rfl, rfl, rfl, rfl, rfl, rfl, rfl, fun _ _ => rfl, fun _ _ => rfl⟩

/-- C35: the beam-wide parameters: the user's values, else a current of 0.05 and 2000 macroparticles in a layer of that current; in 3D the current is multiplied by twice the literal for pi; the cut-off radius is the larger of 0.9 of the (half, in 3D) window width and the width less one. -/
theorem shape_of_user (threeD : Bool) (dxi width piLit : ℝ) (u : List (String × TopVal)) (hu : DistinctKeys u) (b : Shape) (h : makeShape threeD dxi width piLit (some u) = some b) :
    (∃ I, b.current = (if threeD then I * (2 * piLit) else I) ∧ (dictGet u "current" = some (.scalar (.num I)) ∨ (dictGet u "current" = none ∧ I = 0.05))) ∧
    (dictGet u "particles_in_layer" = some (.scalar (.num b.perLayer)) ∨ (dictGet u "particles_in_layer" = none ∧ b.perLayer = 2000)) ∧
    segmentsOf (some u) = some b.segs ∧ b.dxi = dxi ∧ b.rMax = (if threeD then max (0.9 * (width / 2)) (width / 2 - 1) else max (0.9 * width) (width - 1)) := by
  have hsp : ∀ key ∈ shapeKeys, ∀ p, (u.foldl (fun p kv => if kv.1 ∈ shapeKeys then setKey p kv.1 kv.2 else p) p) key = (dictGet u key).or (p key) := by
    intro key hkey
    have hnd := hu.1
    clear hu h
    induction u with
    | nil => intro p; simp [dictGet]
    | cons kv u ih =>
      intro p
      rw [List.map_cons, List.nodup_cons] at hnd
      rw [List.foldl_cons, ih hnd.2]
      by_cases hk : kv.1 = key
      · have hno : dictGet u key = none := by
          unfold dictGet
          rw [Option.map_eq_none_iff, List.find?_eq_none]
          intro x hx hk'
          simp only [beq_iff_eq] at hk'
          exact hnd.1 (List.mem_map.mpr ⟨x, hx, by rw [hk', hk]⟩)
        rw [hno]
        simp [dictGet, hk, setKey, hkey]
      · have hne : key ≠ kv.1 := fun e => hk e.symm
        by_cases hin : kv.1 ∈ shapeKeys
        · simp [dictGet, hk, hne, setKey, hin]
        · simp [dictGet, hk, hin]
  have htop : ∀ o x, topNum o = some x → o = some (.scalar (.num x)) := by
    intro o x hx
    unfold topNum at hx
    split at hx
    · cases hx; rfl
    · cases hx
  unfold makeShape at h
  simp only [Option.bind_eq_bind, Option.bind_eq_some_iff, Option.getD_some] at h
  obtain ⟨segs, hsegs, I, hI, N, hN, hb⟩ := h
  cases hb
  have hI' := htop _ _ hI
  have hN' := htop _ _ hN
  unfold shapeParams at hI' hN'
  rw [hsp "current" (by simp [shapeKeys])] at hI'
  rw [hsp "particles_in_layer" (by simp [shapeKeys])] at hN'
  refine ⟨⟨I, rfl, ?_⟩, ?_, hsegs, rfl, ?_⟩
  · cases hg : dictGet u "current" with
    | none => right; rw [hg] at hI'; simp at hI'; exact ⟨rfl, hI'.symm⟩
    | some v => left; rw [hg] at hI'; simp at hI'; rw [hI']
  · cases hg : dictGet u "particles_in_layer" with
    | none => right; rw [hg] at hN'; simp at hN'; exact ⟨rfl, hN'.symm⟩
    | some v => left; rw [hg] at hN'; simp at hN'; rw [hN']
  · cases threeD <;> simp

/-- C35, C05: no particle of a generated 2D beam is born beyond the wall: the cut-off radius is the radius at which the pusher declares particles lost. -/
theorem born_inside_2d (dxi width piLit : ℝ) (u : List (String × TopVal)) (hu : DistinctKeys u) (b : Shape) (h : makeShape false dxi width piLit (some u) = some b) (c : Lcode.Beam2D.PushCfg) (hc : c.maxRadius = width) :
    b.rMax = c.lostBoundary := by
  obtain ⟨-, -, -, -, h5⟩ := shape_of_user false dxi width piLit u hu b h
  rw [h5, Lcode.Beam2D.PushCfg.lostBoundary, hc]; rfl

/-- C35, C33: the same in 3D for a segment without transverse shift, when the grid is as wide as the window. -/
theorem born_inside_3d (dxi width piLit : ℝ) (u : List (String × TopVal)) (hu : DistinctKeys u) (b : Shape) (h : makeShape true dxi width piLit (some u) = some b) (c : Lcode.Beam3D.BCfg) (hc : c.h * c.N = width)
    (p : Segment) (hp : p.xshift = 0 ∧ p.yshift = 0) (d : ℝ) (t : Tr3) (ht : Ok3 b.rMax p d t) : ¬ Lcode.Beam3D.isLost t.x t.y (Lcode.Beam3D.lostRadius c) := by
  obtain ⟨-, -, -, -, h5⟩ := shape_of_user true dxi width piLit u hu b h
  unfold Lcode.Beam3D.isLost Lcode.Beam3D.lostRadius
  rw [hc]
  have := ht.1
  rw [hp.1, hp.2, h5] at this
  simp only [sub_zero, if_true] at this
  exact not_le.mpr this

end Lcode.Gen
