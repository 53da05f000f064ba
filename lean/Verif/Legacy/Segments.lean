import Verif.Legacy.Scan
import Mathlib.Analysis.SpecialFunctions.Trigonometric.Basic
import Mathlib.Data.List.GetD

/-!
Model of split_into_segments, lcode/beam_generator/beam_profiles.py:96-129. Property C57.
-/

namespace Lcode.Legacy

/-- A value of a segment: a text or a number. -/
inductive Val where
  | text (s : String)
  | num (x : ℝ)

/-- A segment is a dict. -/
abbrev Segment := String → Option Val

inductive Err where
  | typeError
  | valueError
  | keyError
  | zeroDivision
  deriving DecidableEq

/-- default_segment_pars, beam_profiles.py:96-109. -/
noncomputable def defaults : Segment
  | "xi0" => some (.num 0)
  | "xishape" => some (.text "cos")
  | "ampl" => some (.num 0.5)
  | "length" => some (.num (2 * Real.pi))
  | "rshape" => some (.text "g")
  | "radius" => some (.num 1)
  | "angshape" => some (.text "l")
  | "angspread" => some (.num 1e-5)
  | "energy" => some (.num 1000)
  | "vshift" => some (.num 0)
  | "eshape" => some (.text "m")
  | "espread" => some (.num 0)
  | "m/q" => some (.num 1)
  | _ => none

/-- `s.find(pat)`, beam_profiles.py:125: the first place where `pat` begins in `s`. -/
def find (pat s : List Char) : Option ℕ := (List.range (s.length + 1)).find? fun i => pat.isPrefixOf (s.drop i)

/-- `par_name.find('shape') > 0`, beam_profiles.py:125. -/
def isShapeName (name : String) : Bool := match find "shape".toList name.toList with | some i => decide (0 < i) | none => false

/-- `float(v)` of a value of a dict. `flt` is Python's float of a text, `none` is ValueError. -/
def Val.toFloat (flt : String → Option ℝ) : Val → Option ℝ
  | .num x => some x
  | .text s => flt s

/-- The assignment to the segment, beam_profiles.py:125-128: the right hand side first, then the subscript, which fails on None. -/
noncomputable def assign (flt : String → Option ℝ) (seg : Option Segment) (name value : String) : Except Err (Option Segment) :=
  if isShapeName name then
    match seg with
    | none => .error .typeError
    | some s => .ok (some (Function.update s name (some (.text value))))
  else
    match flt value, seg with
    | none, _ => .error .valueError
    | some _, none => .error .typeError
    | some x, some s => .ok (some (Function.update s name (some (.num x))))

/-- The variables of the loop: xi_current, segments, segment. -/
structure SplitSt where
  xi : ℝ
  segs : List (Option Segment)
  seg : Option Segment

/-- beam_profiles.py:119-124: what the name xishape does before the assignment. A dict made from the defaults is not empty, so `if segment` asks whether there is one. -/
noncomputable def newSegment (flt : String → Option ℝ) (st : SplitSt) : Except Err SplitSt :=
  match st.seg with
  | none => .ok ⟨st.xi, st.segs, some (Function.update defaults "xi0" (some (.num st.xi)))⟩
  | some s =>
    match s "length" with
    | none => .error .keyError
    | some v =>
      match v.toFloat flt with
      | none => .error .valueError
      | some len => .ok ⟨st.xi - len, st.segs ++ [some s], some (Function.update defaults "xi0" (some (.num (st.xi - len))))⟩

/-- One turn of the loop, beam_profiles.py:116-128. -/
noncomputable def splitTurn (flt : String → Option ℝ) (st : SplitSt) (par : String × String) : Except Err SplitSt := do
  let st ← if par.1 = "xishape" then newSegment flt st else pure st
  let seg ← assign flt st.seg par.1 par.2
  pure { st with seg := seg }

/-- split_into_segments, beam_profiles.py:112-130. -/
noncomputable def splitIntoSegments (flt : String → Option ℝ) (pars : List (String × String)) : Except Err (List (Option Segment)) := do
  let st ← pars.foldlM (splitTurn flt) ⟨0, [], none⟩
  pure (st.segs ++ [st.seg])

/-! ### Specification -/

/-- The assignments of one segment: it begins with its xishape, and has no further one. Values of names without `shape` are numbers. -/
structure Block (flt : String → Option ℝ) (b : List (String × String)) : Prop where
  head : ∃ v t, b = ("xishape", v) :: t ∧ ∀ p ∈ t, p.1 ≠ "xishape"
  numbers : ∀ p ∈ b, ¬ isShapeName p.1 → ∃ x, flt p.2 = some x

/-- The value written last for a name. -/
def lastWritten (b : List (String × String)) (k : String) : Option String := ((b.filter fun p => p.1 = k).getLast?).map Prod.snd

/-- What a written value means. -/
def meaning (flt : String → Option ℝ) (k v : String) : Option Val := if isShapeName k then some (.text v) else (flt v).map .num

/-- What a segment says about a name: the value written last, else the default; the default of `xi0` is `xi`. -/
noncomputable def entry (flt : String → Option ℝ) (b : List (String × String)) (xi : ℝ) (k : String) : Option Val :=
  match lastWritten b k with
  | some v => meaning flt k v
  | none => if k = "xi0" then some (.num xi) else defaults k

/-- The length of a segment: the number written last, else 2π. -/
noncomputable def lengthOf (flt : String → Option ℝ) (b : List (String × String)) : ℝ :=
  match lastWritten b "length" with
  | some v => (flt v).getD 0
  | none => 2 * Real.pi

/-- Where a segment begins: behind all segments before it. -/
noncomputable def startOf (flt : String → Option ℝ) (bs : List (List (String × String))) (i : ℕ) : ℝ := -(((bs.take i).map (lengthOf flt)).sum)

/-! ### Proofs -/

theorem shape_xishape : isShapeName "xishape" = true := by decide +kernel
theorem shape_length : isShapeName "length" = false := by decide +kernel

theorem lastWritten_snoc (b : List (String × String)) (p : String × String) (k : String) : lastWritten (b ++ [p]) k = if p.1 = k then some p.2 else lastWritten b k := by
  unfold lastWritten
  rw [List.filter_append]
  by_cases h : p.1 = k
  · rw [if_pos h]
    simp [h]
  · rw [if_neg h]
    simp [h]

theorem entry_snoc (flt : String → Option ℝ) (b : List (String × String)) (p : String × String) (xi : ℝ) (k : String) : entry flt (b ++ [p]) xi k = if p.1 = k then meaning flt k p.2 else entry flt b xi k := by
  unfold entry
  rw [lastWritten_snoc]
  by_cases h : p.1 = k
  · rw [if_pos h, if_pos h]
  · rw [if_neg h, if_neg h]

theorem entry_nil (flt : String → Option ℝ) (xi : ℝ) : (fun k => entry flt [] xi k) = Function.update defaults "xi0" (some (.num xi)) := by
  funext k
  unfold entry lastWritten
  simp only [List.filter_nil, List.getLast?_nil, Option.map_none]
  by_cases h : k = "xi0"
  · subst h; simp
  · rw [if_neg h, Function.update_of_ne h]

/-- The assignments of a segment, without its beginning, one after the other. -/
theorem assign_says (flt : String → Option ℝ) (b : List (String × String)) (xi : ℝ) (p : String × String) (hp : ¬ isShapeName p.1 → ∃ x, flt p.2 = some x) :
    assign flt (some fun k => entry flt b xi k) p.1 p.2 = .ok (some fun k => entry flt (b ++ [p]) xi k) := by
  have e : (fun k => entry flt (b ++ [p]) xi k) = Function.update (fun k => entry flt b xi k) p.1 (meaning flt p.1 p.2) := by
    funext k
    rw [entry_snoc]
    by_cases h : p.1 = k
    · subst h; rw [if_pos rfl, Function.update_self]
    · rw [if_neg h, Function.update_of_ne (Ne.symm h)]
  unfold assign
  rw [e]
  by_cases h : isShapeName p.1 = true
  · rw [if_pos h]; simp only [meaning, if_pos h]
  · rw [if_neg h]
    obtain ⟨x, hx⟩ := hp h
    simp only [meaning, if_neg h, hx, Option.map_some]

theorem rest_says (flt : String → Option ℝ) (xi : ℝ) (segs : List (Option Segment)) (b t : List (String × String)) (ht : ∀ p ∈ t, p.1 ≠ "xishape") (hn : ∀ p ∈ t, ¬ isShapeName p.1 → ∃ x, flt p.2 = some x) :
    t.foldlM (splitTurn flt) ⟨xi, segs, some fun k => entry flt b xi k⟩ = Except.ok ⟨xi, segs, some fun k => entry flt (b ++ t) xi k⟩ := by
  induction t generalizing b with
  | nil => rw [List.append_nil]; rfl
  | cons p t ih =>
    have h1 : splitTurn flt ⟨xi, segs, some fun k => entry flt b xi k⟩ p = .ok ⟨xi, segs, some fun k => entry flt (b ++ [p]) xi k⟩ := by
      unfold splitTurn
      rw [if_neg (ht p List.mem_cons_self)]
      simp only [pure_bind]
      rw [assign_says flt b xi p (hn p List.mem_cons_self)]
      rfl
    rw [List.foldlM_cons, h1]
    have := ih (b ++ [p]) (fun q hq => ht q (List.mem_cons_of_mem _ hq)) (fun q hq => hn q (List.mem_cons_of_mem _ hq))
    rw [List.append_assoc] at this
    exact this

theorem entry_length (flt : String → Option ℝ) (b : List (String × String)) (hb : Block flt b) (xi : ℝ) : entry flt b xi "length" = some (.num (lengthOf flt b)) := by
  unfold entry lengthOf
  cases h : lastWritten b "length" with
  | none => rw [if_neg (by decide)]; rfl
  | some v =>
    unfold lastWritten at h
    rw [Option.map_eq_some_iff] at h
    obtain ⟨p, hp, rfl⟩ := h
    have hm := List.mem_of_getLast? hp
    rw [List.mem_filter] at hm
    have hk : p.1 = "length" := of_decide_eq_true hm.2
    obtain ⟨x, hx⟩ := hb.numbers p hm.1 (by rw [hk, shape_length]; simp)
    unfold meaning
    simp only [shape_length, hx]
    rfl

theorem block_says (flt : String → Option ℝ) (st : SplitSt) (b : List (String × String)) (hb : Block flt b) (xi : ℝ) (segs : List (Option Segment))
    (hst : newSegment flt st = .ok ⟨xi, segs, some fun k => entry flt [] xi k⟩) : b.foldlM (splitTurn flt) st = Except.ok ⟨xi, segs, some fun k => entry flt b xi k⟩ := by
  obtain ⟨⟨v, t, rfl, ht⟩, hn⟩ := hb
  have h1 : splitTurn flt st ("xishape", v) = .ok ⟨xi, segs, some fun k => entry flt ([] ++ [("xishape", v)]) xi k⟩ := by
    unfold splitTurn
    simp only [if_true]
    rw [hst]
    show (assign flt (some fun k => entry flt [] xi k) "xishape" v >>= fun seg => pure _) = _
    rw [assign_says flt [] xi ("xishape", v) (fun h => absurd shape_xishape h)]
    rfl
  rw [List.foldlM_cons, h1]
  exact rest_says flt xi segs _ t ht fun p hp => hn p (List.mem_cons_of_mem _ hp)

theorem blocks_says (flt : String → Option ℝ) (bs : List (List (String × String))) (hbs : ∀ b ∈ bs, Block flt b) (b0 : List (String × String)) (hb0 : Block flt b0) (xi : ℝ) (segs : List (Option Segment)) :
    bs.flatten.foldlM (splitTurn flt) ⟨xi, segs, some fun k => entry flt b0 xi k⟩ =
      Except.ok ⟨xi - (((b0 :: bs).dropLast).map (lengthOf flt)).sum,
        segs ++ ((List.range bs.length).map fun i => some fun k => entry flt ((b0 :: bs).getD i []) (xi + startOf flt (b0 :: bs) i) k),
        some fun k => entry flt ((b0 :: bs).getD bs.length []) (xi + startOf flt (b0 :: bs) bs.length) k⟩ := by
  induction bs generalizing b0 xi segs with
  | nil => simp [startOf, pure, Except.pure]
  | cons b bs ih =>
    have hb := hbs b List.mem_cons_self
    have hnew : newSegment flt ⟨xi, segs, some fun k => entry flt b0 xi k⟩ = .ok ⟨xi - lengthOf flt b0, segs ++ [some fun k => entry flt b0 xi k], some fun k => entry flt [] (xi - lengthOf flt b0) k⟩ := by
      unfold newSegment
      simp only [entry_length flt b0 hb0 xi, Val.toFloat, entry_nil]
    rw [List.flatten_cons, List.foldlM_append, block_says flt _ b hb _ _ hnew]
    show bs.flatten.foldlM (splitTurn flt) _ = _
    rw [ih (fun c hc => hbs c (List.mem_cons_of_mem _ hc)) b hb]
    have hstart : ∀ i, xi - lengthOf flt b0 + startOf flt (b :: bs) i = xi + startOf flt (b0 :: b :: bs) (i + 1) := by
      intro i
      unfold startOf
      simp only [List.take_succ_cons, List.map_cons, List.sum_cons]
      ring
    congr 2
    · simp only [List.dropLast_cons_cons, List.map_cons, List.sum_cons]; ring
    · rw [List.append_assoc]
      congr 1
      rw [List.length_cons, List.range_succ_eq_map, List.map_cons, List.map_map]
      simp only [List.singleton_append, List.cons.injEq]
      refine ⟨?_, ?_⟩
      · simp [startOf]
      · apply List.map_congr_left
        intro i _
        simp only [Function.comp, List.getD_cons_succ, hstart]
    · simp only [List.length_cons, List.getD_cons_succ, hstart]

/-- C57: a profile of `n` segments gives `n` segments in order. Each says for each name what was written last in it, else the default, and begins where the one before ends. -/
theorem split_segments (flt : String → Option ℝ) (bs : List (List (String × String))) (hne : bs ≠ []) (hbs : ∀ b ∈ bs, Block flt b) :
    splitIntoSegments flt bs.flatten = .ok ((List.range bs.length).map fun i => some fun k => entry flt (bs.getD i []) (startOf flt bs i) k) := by
  obtain ⟨b, bs, rfl⟩ := List.exists_cons_of_ne_nil hne
  have hb := hbs b List.mem_cons_self
  have hnew : newSegment flt ⟨0, [], none⟩ = .ok ⟨0, [], some fun k => entry flt [] 0 k⟩ := by
    unfold newSegment
    simp only [entry_nil]
  unfold splitIntoSegments
  rw [List.flatten_cons, List.foldlM_append, block_says flt _ b hb _ _ hnew]
  show (bs.flatten.foldlM (splitTurn flt) _ >>= fun st => pure (st.segs ++ [st.seg])) = _
  rw [blocks_says flt bs (fun c hc => hbs c (List.mem_cons_of_mem _ hc)) b hb]
  show Except.ok _ = _
  simp only [List.nil_append, zero_add, List.length_cons, List.range_succ, List.map_append, List.map_cons, List.map_nil]

/-- Every profile that begins with a xishape and writes numbers where numbers are expected is such a list of segments. -/
theorem blocks_exist (flt : String → Option ℝ) (pars : List (String × String)) (hn : ∀ p ∈ pars, ¬ isShapeName p.1 → ∃ x, flt p.2 = some x) (v : String) (t : List (String × String)) (h : pars = ("xishape", v) :: t) :
    ∃ bs : List (List (String × String)), bs ≠ [] ∧ (∀ b ∈ bs, Block flt b) ∧ bs.flatten = pars ∧ bs.length = (pars.filter fun p => p.1 = "xishape").length := by
  subst h
  have key : ∀ t : List (String × String), (∀ p ∈ t, ¬ isShapeName p.1 → ∃ x, flt p.2 = some x) →
      ∃ (t0 : List (String × String)) (bs : List (List (String × String))), t = t0 ++ bs.flatten ∧ (∀ p ∈ t0, p.1 ≠ "xishape") ∧ (∀ b ∈ bs, Block flt b) ∧ bs.length = (t.filter fun p => p.1 = "xishape").length := by
    intro t
    induction t with
    | nil => intro _; exact ⟨[], [], rfl, by simp, by simp, rfl⟩
    | cons p t ih =>
      intro hn
      obtain ⟨t0, bs, h1, h2, h3, h4⟩ := ih fun q hq => hn q (List.mem_cons_of_mem _ hq)
      by_cases hp : p.1 = "xishape"
      · refine ⟨[], (p :: t0) :: bs, by simp [h1], by simp, ?_, by simp [hp, h4]⟩
        intro b hb
        rcases List.mem_cons.mp hb with rfl | hb
        · refine ⟨⟨p.2, t0, by rw [← hp], h2⟩, ?_⟩
          intro q hq
          refine hn q ?_
          rcases List.mem_cons.mp hq with rfl | hq
          · exact List.mem_cons_self
          · exact List.mem_cons_of_mem _ (by rw [h1]; exact List.mem_append_left _ hq)
        · exact h3 b hb
      · refine ⟨p :: t0, bs, by simp [h1], ?_, h3, by simp [hp, h4]⟩
        intro q hq
        rcases List.mem_cons.mp hq with rfl | hq
        · exact hp
        · exact h2 q hq
  obtain ⟨t0, bs, h1, h2, h3, h4⟩ := key t fun q hq => hn q (List.mem_cons_of_mem _ hq)
  refine ⟨(("xishape", v) :: t0) :: bs, by simp, ?_, by simp [h1], by simp [h4]⟩
  intro b hb
  rcases List.mem_cons.mp hb with rfl | hb
  · refine ⟨⟨v, t0, rfl, h2⟩, ?_⟩
    intro q hq
    refine hn q ?_
    rcases List.mem_cons.mp hq with rfl | hq
    · exact List.mem_cons_self
    · exact List.mem_cons_of_mem _ (by rw [h1]; exact List.mem_append_left _ hq)
  · exact h3 b hb

/-- C57: a profile whose first assignment is not a xishape is refused. -/
theorem split_refused (flt : String → Option ℝ) (p : String × String) (t : List (String × String)) (h : p.1 ≠ "xishape") : ∃ e, splitIntoSegments flt (p :: t) = .error e := by
  have : ∃ e, splitTurn flt ⟨0, [], none⟩ p = .error e := by
    unfold splitTurn assign
    rw [if_neg h]
    simp only [pure_bind]
    by_cases hs : isShapeName p.1 = true
    · rw [if_pos hs]; exact ⟨_, rfl⟩
    · rw [if_neg hs]
      cases flt p.2 with
      | none => exact ⟨_, rfl⟩
      | some x => exact ⟨_, rfl⟩
  obtain ⟨e, he⟩ := this
  refine ⟨e, ?_⟩
  unfold splitIntoSegments
  rw [List.foldlM_cons, he]
  rfl

/-- C57: a value that is not a number, where a number is expected, is refused. -/
theorem split_refused_value (flt : String → Option ℝ) (a : List (String × String)) (p : String × String) (t : List (String × String)) (h : ¬ isShapeName p.1) (hv : flt p.2 = none) : ∃ e, splitIntoSegments flt (a ++ p :: t) = .error e := by
  have key : ∀ st : SplitSt, ∃ e, splitTurn flt st p = .error e := by
    intro st
    have hx : p.1 ≠ "xishape" := fun hx => h (by rw [hx]; exact shape_xishape)
    unfold splitTurn assign
    rw [if_neg hx]
    simp only [pure_bind]
    rw [if_neg h, hv]
    exact ⟨_, rfl⟩
  unfold splitIntoSegments
  rw [List.foldlM_append]
  cases ha : a.foldlM (splitTurn flt) ⟨0, [], none⟩ with
  | error e => exact ⟨e, rfl⟩
  | ok st =>
    obtain ⟨e, he⟩ := key st
    refine ⟨e, ?_⟩
    show ((p :: t).foldlM (splitTurn flt) st >>= _) = _
    rw [List.foldlM_cons, he]
    rfl

/-- C57, finding: a text without any assignment gives one segment, which is None. -/
theorem split_empty (flt : String → Option ℝ) : splitIntoSegments flt [] = .ok [none] := rfl

/-- A profile of two segments: the second begins at -3, and takes over nothing from the first. -/
example (flt : String → Option ℝ) (h3 : flt "3" = some 3) (h1 : flt "0.1" = some 0.1) :
    ∃ s1 s2, splitIntoSegments flt [("xishape", "g"), ("length", "3"), ("ampl", "0.1"), ("xishape", "cos"), ("eshape", "g")] = .ok [some s1, some s2] ∧
      s1 "xi0" = some (.num 0) ∧ s1 "ampl" = some (.num 0.1) ∧ s2 "xi0" = some (.num (-3)) ∧ s2 "ampl" = some (.num 0.5) ∧ s2 "eshape" = some (.text "g") := by
  have h := split_segments flt [[("xishape", "g"), ("length", "3"), ("ampl", "0.1")], [("xishape", "cos"), ("eshape", "g")]] (by simp) ?_
  · refine ⟨_, _, h, ?_, ?_, ?_, ?_, ?_⟩
    · simp [entry, lastWritten, startOf]
    · have : isShapeName "ampl" = false := by decide +kernel
      simp [entry, lastWritten, meaning, this, h1]
    · simp [entry, lastWritten, startOf, lengthOf, h3]
    · simp [entry, lastWritten, defaults]
    · have : isShapeName "eshape" = true := by decide +kernel
      simp [entry, lastWritten, meaning, this]
  · intro b hb
    have e1 : isShapeName "eshape" = true := by decide +kernel
    simp only [List.mem_cons, List.not_mem_nil, or_false] at hb
    rcases hb with rfl | rfl
    · refine ⟨⟨"g", _, rfl, by decide⟩, ?_⟩
      intro p hp
      simp only [List.mem_cons, List.not_mem_nil, or_false] at hp
      rcases hp with rfl | rfl | rfl
      · intro h; exact absurd shape_xishape h
      · intro _; exact ⟨_, h3⟩
      · intro _; exact ⟨_, h1⟩
    · refine ⟨⟨"cos", _, rfl, by decide⟩, ?_⟩
      intro p hp
      simp only [List.mem_cons, List.not_mem_nil, or_false] at hp
      rcases hp with rfl | rfl
      · intro h; exact absurd shape_xishape h
      · intro h; exact absurd e1 h

end Lcode.Legacy
