import Verif.Gen.Cases

/-!
Property C35, beams of segments that are whole numbers of layers long (all examples shipped with the program): the generator never raises, and for flat segments the number of macroparticles is known exactly.
-/

namespace Lcode.Gen

open Lcode.Beam2D (IsArgsort)

variable {S T : Type}

/-- The segments are `ms` layers long, one after the other. -/
def WholeLayers (b : Shape) (ms : List ℕ) : Prop := b.segs.map Segment.length = ms.map fun m : ℕ => (m : ℝ) * b.dxi

theorem headOf_whole (b : Shape) (ms : List ℕ) (h : WholeLayers b ms) (j : ℕ) : headOf b.segs j = ((ms.take j).sum : ℕ) * b.dxi := by
  unfold headOf
  rw [← List.map_take.symm, h, ← List.map_take]
  generalize ms.take j = l
  induction l with
  | nil => simp
  | cons a l ih => rw [List.map_cons, List.sum_cons, ih, List.sum_cons]; push_cast; ring

/-- C35: if all segments are whole numbers of layers long, no layer has its middle on a joint and the beam is always generated. -/
theorem whole_generated (tv : Segment → Rng S → S → ℝ → ℝ → ℕ → Option (List T × S)) (g : Rng S) (htv : ∀ p s d rMax n, (tv p g s d rMax n).isSome ↔ 0 ≤ p.sigma d) (b : Shape) (s : S) (argsort : List ℝ → List ℕ)
    (hd : 0 < b.dxi) (hpos : ∀ p ∈ b.segs, 0 < p.length) (hok : ∀ p ∈ b.segs, ∀ d, 0 ≤ d → d ≤ p.length → p.NoRaise d) (ms : List ℕ) (hw : WholeLayers b ms) :
    ∃ beam, generateArray tv b g s argsort = some beam := by
  cases hb : generateArray tv b g s argsort with
  | some beam => exact ⟨beam, rfl⟩
  | none =>
    exfalso
    obtain ⟨k, j, -, -, h2⟩ := (generator_raises_iff tv g htv b s argsort hd hpos hok).mp hb
    rw [headOf_whole b ms hw] at h2
    have h3 := mul_right_cancel₀ hd.ne' h2
    have h4 : (2 * k + 1 : ℝ) = 2 * ((ms.take j).sum : ℕ) := by linarith
    have h5 : 2 * k + 1 = 2 * (ms.take j).sum := by exact_mod_cast h4
    omega

/-- The number of layers is the sum of the lengths in layers. -/
theorem whole_layers (b : Shape) (hd : 0 < b.dxi) (ms : List ℕ) (hw : WholeLayers b ms) : layersNumber b = ms.sum := by
  have key : ∀ k : ℕ, k < layersNumber b ↔ k < ms.sum := by
    intro k
    rw [layersNumber_spec b hd, totalLength_eq, headOf_whole b ms hw]
    have hl : b.segs.length = ms.length := by
      have := congrArg List.length hw
      simpa using this
    rw [hl, List.take_length]
    constructor
    · intro h
      have h1 := lt_of_mul_lt_mul_right h hd.le
      have : (k : ℝ) < (ms.sum : ℕ) := by linarith
      exact_mod_cast this
    · intro h
      refine mul_lt_mul_of_pos_right ?_ hd
      have : (k : ℝ) + 1 ≤ (ms.sum : ℕ) := by exact_mod_cast h
      linarith
  rcases lt_trichotomy (layersNumber b) ms.sum with h | h | h
  · exact absurd ((key _).mpr h) (lt_irrefl _)
  · exact h
  · exact absurd ((key _).mp h) (lt_irrefl _)

theorem sum_blocks (L : List (ℕ × ℕ)) (f : ℕ → ℕ) (h : ∀ (j : ℕ) (c : ℕ × ℕ), L[j]? = some c → ∀ k, ((L.map Prod.fst).take j).sum ≤ k → k < ((L.map Prod.fst).take (j + 1)).sum → f k = c.2) :
    ((List.range (L.map Prod.fst).sum).map f).sum = (L.map fun c => c.1 * c.2).sum := by
  induction L generalizing f with
  | nil => rfl
  | cons a L ih =>
    rw [List.map_cons, List.sum_cons, List.range_add, List.map_append, List.sum_append, List.map_map, ih (f ∘ fun x => a.1 + x)]
    · rw [List.map_cons, List.sum_cons]
      congr 1
      rw [List.map_congr_left (g := fun _ => a.2)]
      · simp
      · intro k hk
        exact h 0 a rfl k (by simp) (by simpa using List.mem_range.mp hk)
    · intro j c hc k h1 h2
      refine h (j + 1) c (by simpa using hc) (a.1 + k) ?_ ?_
      · rw [List.map_cons, List.take_succ_cons, List.sum_cons]; omega
      · rw [List.map_cons, List.take_succ_cons, List.sum_cons]; omega

/-- C35: a beam of flat segments that are whole numbers of layers long has in each layer of a segment ⌊particles in layer · |amplitude|⌋ macroparticles, and the sum of that over all layers. -/
theorem whole_flat_count (b : Shape) (hd : 0 < b.dxi) (hI : b.current ≠ 0) (hp : 0 ≤ b.perLayer) (hpos : ∀ p ∈ b.segs, 0 < p.length) (ms : List ℕ) (hw : WholeLayers b ms) (hflat : ∀ p ∈ b.segs, ∀ d l, p.xishape d l = 1) :
    (∀ (j : ℕ) (p : Segment), b.segs[j]? = some p → ∀ k, (ms.take j).sum ≤ k → k < (ms.take (j + 1)).sum → layerCount b k = ⌊b.perLayer * |p.ampl|⌋₊) ∧
    ((List.range (layersNumber b)).map (layerCount b)).sum = (List.zipWith (fun m p => m * ⌊b.perLayer * |p.ampl|⌋₊) ms b.segs).sum := by
  have hl : ms.length = b.segs.length := by
    have := congrArg List.length hw
    simpa using this.symm
  have one : ∀ (j : ℕ) (p : Segment), b.segs[j]? = some p → ∀ k, (ms.take j).sum ≤ k → k < (ms.take (j + 1)).sum → layerCount b k = ⌊b.perLayer * |p.ampl|⌋₊ := by
    intro j p hj k h1 h2
    have hc := layerCurrent_spec b hpos k j p hj
      (by
        rw [headOf_whole b ms hw]
        refine mul_lt_mul_of_pos_right ?_ hd
        have : (((ms.take j).sum : ℕ) : ℝ) ≤ k := by exact_mod_cast h1
        linarith)
      (by
        rw [headOf_whole b ms hw]
        refine mul_lt_mul_of_pos_right ?_ hd
        have : (k : ℝ) + 1 ≤ ((ms.take (j + 1)).sum : ℕ) := by exact_mod_cast h2
        linarith)
    unfold layerCount
    rw [hc, hflat p (List.mem_of_getElem? hj), mul_one, mul_div_assoc, div_self hI, mul_one]
    have h0 : 0 ≤ b.perLayer * |p.ampl| := mul_nonneg hp (abs_nonneg _)
    unfold Lcode.Py.pyInt
    simp only [h0, if_true]
    rfl
  refine ⟨one, ?_⟩
  rw [whole_layers b hd ms hw]
  have hfst : (List.zipWith (fun m (p : Segment) => (m, ⌊b.perLayer * |p.ampl|⌋₊)) ms b.segs).map Prod.fst = ms := by
    rw [List.map_zipWith]
    have : ∀ (a : List ℕ) (c : List Segment), a.length = c.length → List.zipWith (fun m (_ : Segment) => m) a c = a := by
      intro a
      induction a with
      | nil => intro c _; rfl
      | cons x a ih =>
        intro c hc
        cases c with
        | nil => simp at hc
        | cons y c => rw [List.zipWith_cons_cons, ih c (by simpa using hc)]
    exact this ms b.segs hl
  have hs := sum_blocks (List.zipWith (fun m (p : Segment) => (m, ⌊b.perLayer * |p.ampl|⌋₊)) ms b.segs) (layerCount b) (by
    intro j c hc k h1 h2
    rw [hfst] at h1 h2
    rw [List.getElem?_zipWith] at hc
    cases hm : ms[j]? with
    | none => simp [hm] at hc
    | some m =>
      cases hq : b.segs[j]? with
      | none => simp [hm, hq] at hc
      | some p =>
        simp only [hm, hq, Option.some.injEq] at hc
        subst hc
        exact one j p hq k h1 h2)
  rw [hfst, List.map_zipWith] at hs
  exact hs

/-- The beam of lcode/examples/original-ssm.py:25-30. -/
noncomputable def ssmBeams : List (String × TopVal) :=
  [("current", .scalar (.num (-0.03))), ("particles_in_layer", .scalar (.num 250)),
   ("default", .dict [("angspread", .num 2e-4), ("energy", .num 1000)]),
   ("driver", .dict [("xishape", .str "l"), ("length", .num 40), ("radius", .num 2)]),
   ("witness", .dict [("xishape", .str "l"), ("length", .num 3), ("radius", .num 0.2)])]

/-- C35, the example original-ssm.py: for every state of the random generator the beam is made, of exactly 537500 macroparticles, 250 in each of 2150 layers. -/
theorem ssm_beam (piLit : ℝ) (g : Rng S) (hg : g.Valid) (s : S) (argsort : List ℝ → List ℕ) (hs : IsArgsort (· ≤ ·) argsort) :
    ∃ b beam, makeShape false 0.02 5 piLit (some ssmBeams) = some b ∧ generateArray Segment.trans2 b g s argsort = some beam ∧ beam.length = 537500 ∧ layersNumber b = 2150 ∧ ∀ k < 2150, layerCount b k = 250 := by
  obtain ⟨b, hb, h1, h2, h3, h4, p, q, h5, hp, hq⟩ : ∃ b, makeShape false 0.02 5 piLit (some ssmBeams) = some b ∧ b.current = -0.03 ∧ b.perLayer = 250 ∧ b.dxi = 0.02 ∧ b.rMax = max (0.9 * 5) (5 - 1) ∧
      ∃ p q, b.segs = [p, q] ∧
      (p.length = 40 ∧ p.ampl = 1 ∧ (∀ d l, p.xishape d l = 1) ∧ p.radius = 2 ∧ p.energy = 1000 ∧ p.angspread = 2e-4 ∧ (∀ d l, p.angshape d l = 1) ∧ p.eshape = .mono) ∧
      (q.length = 3 ∧ q.ampl = 1 ∧ (∀ d l, q.xishape d l = 1) ∧ q.radius = 0.2 ∧ q.energy = 1000 ∧ q.angspread = 2e-4 ∧ (∀ d l, q.angshape d l = 1) ∧ q.eshape = .mono) := by
    refine ⟨_, rfl, rfl, rfl, rfl, rfl, _, _, rfl, ⟨rfl, rfl, fun _ _ => rfl, rfl, rfl, rfl, fun _ _ => rfl, rfl⟩, ⟨rfl, rfl, fun _ _ => rfl, rfl, rfl, rfl, fun _ _ => rfl, rfl⟩⟩
  obtain ⟨p1, p2, p3, p4, p5, p6, p7, p8⟩ := hp
  obtain ⟨q1, q2, q3, q4, q5, q6, q7, q8⟩ := hq
  have all : ∀ r ∈ b.segs, 0 < r.length ∧ 0 < r.radius ∧ r.eshape = .mono ∧ (∀ d l, r.xishape d l = 1) ∧ ∀ d, 0 ≤ r.sigma d := by
    intro r hr
    rw [h5] at hr
    simp only [List.mem_cons, List.not_mem_nil, or_false] at hr
    rcases hr with rfl | rfl
    · refine ⟨by rw [p1]; norm_num, by rw [p4]; norm_num, p8, p3, fun d => ?_⟩
      unfold Segment.sigma; rw [p5, p6, p7]; norm_num
    · refine ⟨by rw [q1]; norm_num, by rw [q4]; norm_num, q8, q3, fun d => ?_⟩
      unfold Segment.sigma; rw [q5, q6, q7]; norm_num
  have hd : 0 < b.dxi := by rw [h3]; norm_num
  have hw : WholeLayers b [2000, 150] := by
    unfold WholeLayers; rw [h5, h3]; simp only [List.map_cons, List.map_nil, p1, q1]; norm_num
  obtain ⟨beam, hbeam⟩ := whole_generated Segment.trans2 g (fun p s d r n => trans2_isSome g p s d r n) b s argsort hd (fun r hr => (all r hr).1)
    (fun r hr d _ _ => ⟨(all r hr).2.2.2.2 d, fun e => by rw [(all r hr).2.2.1] at e; cases e⟩) _ hw
  have hlayers := whole_layers b hd _ hw
  obtain ⟨c1, c2⟩ := whole_flat_count b hd (by rw [h1]; norm_num) (by rw [h2]; norm_num) (fun r hr => (all r hr).1) _ hw (fun r hr => (all r hr).2.2.2.1)
  have e1 : ⌊b.perLayer * |p.ampl|⌋₊ = 250 := by rw [h2, p2, abs_one, mul_one]; exact Nat.floor_ofNat 250
  have e2 : ⌊b.perLayer * |q.ampl|⌋₊ = 250 := by rw [h2, q2, abs_one, mul_one]; exact Nat.floor_ofNat 250
  have hlen := (generated_2d b ⟨hd, by rw [h4]; norm_num, by rw [h2]; norm_num, by rw [h1]; norm_num, fun r hr => (all r hr).1, fun r hr => (all r hr).2.1, fun r hr m hm => by rw [(all r hr).2.2.1] at hm; cases hm⟩ g hg argsort hs s beam hbeam).2.2.2.2
  refine ⟨b, beam, hb, hbeam, ?_, by rw [hlayers]; rfl, ?_⟩
  · rw [hlen, c2, h5]
    simp only [List.zipWith_cons_cons, List.zipWith_nil_left, List.sum_cons, List.sum_nil, e1, e2]
    rfl
  · intro k hk
    rcases lt_or_ge k 2000 with h | h
    · rw [c1 0 p (by rw [h5]; rfl) k (by simp) (by simpa using h), e1]
    · rw [c1 1 q (by rw [h5]; rfl) k (by simpa using h) (by simpa using hk), e2]

/-! ### A current profile given by many short flat segments -/

/-- The defaults of lcode/examples/high-R.py:24-25. -/
noncomputable def highRDefault : List (String × PVal) := [("xishape", .str "l"), ("length", .num 0.05), ("radius", .num 0.2), ("angspread", .num 1e-3), ("energy", .num 1000)]

/-- lcode/examples/high-R.py:27-248: `'name': {'ampl': a}`. -/
def amplSegments (segs : List (String × ℝ)) : List (String × TopVal) := segs.map fun na => (na.1, .dict [("ampl", .num na.2)])

/-- lcode/examples/high-R.py:250-253, with any segments. -/
noncomputable def highRBeams (segs : List (String × ℝ)) : List (String × TopVal) :=
  [("current", .scalar (.num (-5))), ("particles_in_layer", .scalar (.num 800)), ("default", .dict highRDefault)] ++ amplSegments segs

/-- The segment of amplitude `a`. -/
noncomputable def highRSegment (a : ℝ) : Segment :=
  { length := 0.05, ampl := a, xishape := fun _ _ => 1, radius := 0.2, energy := 1000, xshift := 0, yshift := 0, angspread := 1e-3, angshape := fun _ _ => 1, espread := 0, eshape := .mono, massCharge := 1 }

theorem highR_loop (segs : List (String × ℝ)) (hn : ∀ na ∈ segs, na.1 ≠ "default") (acc : List Segment) :
    segmentLoop (override defaultSegment highRDefault, acc) (amplSegments segs) = some (override defaultSegment highRDefault, acc ++ segs.map fun na => highRSegment na.2) := by
  induction segs generalizing acc with
  | nil => simp [amplSegments, segmentLoop]
  | cons na segs ih =>
    have h1 : segmentTurn (override defaultSegment highRDefault, acc) (na.1, .dict [("ampl", .num na.2)]) = some (override defaultSegment highRDefault, acc ++ [highRSegment na.2]) := by
      unfold segmentTurn
      simp only [hn na (List.mem_cons_self ..), if_false]
      rfl
    have h2 := ih (fun x hx => hn x (List.mem_cons_of_mem _ hx)) (acc ++ [highRSegment na.2])
    unfold segmentLoop amplSegments at h2 ⊢
    rw [List.map_cons, List.foldlM_cons, h1]
    simp only [Option.bind_eq_bind, Option.bind_some]
    rw [h2, List.map_cons, List.append_assoc, List.singleton_append]

theorem highR_params (segs : List (String × ℝ)) (hn : ∀ na ∈ segs, na.1 ∉ shapeKeys) (p : String → Option TopVal) :
    (amplSegments segs).foldl (fun p kv => if kv.1 ∈ shapeKeys then setKey p kv.1 kv.2 else p) p = p := by
  induction segs with
  | nil => rfl
  | cons na segs ih =>
    unfold amplSegments at ih ⊢
    rw [List.map_cons, List.foldl_cons, if_neg (hn na (List.mem_cons_self ..)), ih (fun x hx => hn x (List.mem_cons_of_mem _ hx))]

/-- C35, beams like that of the example high-R.py: for every non-empty list of named amplitudes (no name being a beam-wide parameter or `default`) and every state of the random generator the beam is made; segment `j` is layers 5j to 5j+4, each with ⌊800 |amplitude|⌋ macroparticles. -/
theorem highR_beam (segs : List (String × ℝ)) (hne : segs ≠ []) (hn : ∀ na ∈ segs, na.1 ≠ "default" ∧ na.1 ∉ shapeKeys) (piLit : ℝ) (g : Rng S) (hg : g.Valid) (s : S) (argsort : List ℝ → List ℕ) (hs : IsArgsort (· ≤ ·) argsort) :
    ∃ b beam, makeShape false 0.01 10 piLit (some (highRBeams segs)) = some b ∧ generateArray Segment.trans2 b g s argsort = some beam ∧ layersNumber b = 5 * segs.length ∧
      (∀ (j : ℕ) (na : String × ℝ), segs[j]? = some na → ∀ i < 5, layerCount b (5 * j + i) = ⌊800 * |na.2|⌋₊) ∧ beam.length = 5 * (segs.map fun na => ⌊800 * |na.2|⌋₊).sum := by
  have hseg : segmentsOf (some (highRBeams segs)) = some (segs.map fun na => highRSegment na.2) := by
    have h0 : segmentLoop (defaultSegment, []) (highRBeams segs) = segmentLoop (override defaultSegment highRDefault, []) (amplSegments segs) := rfl
    unfold segmentsOf
    simp only [h0]
    rw [highR_loop segs (fun na h => (hn na h).1)]
    have : (segs.map fun na => highRSegment na.2).length ≠ 0 := by
      rw [List.length_map]; exact fun e => hne (List.length_eq_zero_iff.mp e)
    simp only [List.nil_append, Option.bind_some, this, if_false]
  have hpar : ∀ k, shapeParams (highRBeams segs) k = shapeParams (highRBeams []) k := by
    intro k
    have := highR_params segs (fun na h => (hn na h).2)
    unfold shapeParams highRBeams
    rw [List.foldl_append, this]
    rfl
  obtain ⟨b, hb, h1, h2, h3, h4, h5⟩ : ∃ b, makeShape false 0.01 10 piLit (some (highRBeams segs)) = some b ∧ b.current = -5 ∧ b.perLayer = 800 ∧ b.dxi = 0.01 ∧ b.rMax = max (0.9 * 10) (10 - 1) ∧ b.segs = segs.map fun na => highRSegment na.2 := by
    unfold makeShape
    simp only [hseg, Option.getD_some, hpar]
    exact ⟨_, rfl, rfl, rfl, rfl, rfl, rfl⟩
  have all : ∀ r ∈ b.segs, 0 < r.length ∧ 0 < r.radius ∧ r.eshape = .mono ∧ (∀ d l, r.xishape d l = 1) ∧ ∀ d, 0 ≤ r.sigma d := by
    intro r hr
    rw [h5] at hr
    obtain ⟨na, -, rfl⟩ := List.mem_map.mp hr
    refine ⟨by norm_num [highRSegment], by norm_num [highRSegment], rfl, fun _ _ => rfl, fun d => by norm_num [Segment.sigma, highRSegment]⟩
  have hd : 0 < b.dxi := by rw [h3]; norm_num
  have hw : WholeLayers b (List.replicate segs.length 5) := by
    unfold WholeLayers
    rw [h5, h3, List.map_map, List.map_replicate]
    rw [List.eq_replicate_iff]
    refine ⟨by simp, ?_⟩
    intro x hx
    obtain ⟨na, -, rfl⟩ := List.mem_map.mp hx
    norm_num [highRSegment]
  obtain ⟨beam, hbeam⟩ := whole_generated Segment.trans2 g (fun p s d r n => trans2_isSome g p s d r n) b s argsort hd (fun r hr => (all r hr).1)
    (fun r hr d _ _ => ⟨(all r hr).2.2.2.2 d, fun e => by rw [(all r hr).2.2.1] at e; cases e⟩) _ hw
  have hlayers := whole_layers b hd _ hw
  obtain ⟨c1, c2⟩ := whole_flat_count b hd (by rw [h1]; norm_num) (by rw [h2]; norm_num) (fun r hr => (all r hr).1) _ hw (fun r hr => (all r hr).2.2.2.1)
  have hlen := (generated_2d b ⟨hd, by rw [h4]; norm_num, by rw [h2]; norm_num, by rw [h1]; norm_num, fun r hr => (all r hr).1, fun r hr => (all r hr).2.1, fun r hr m hm => by rw [(all r hr).2.2.1] at hm; cases hm⟩ g hg argsort hs s beam hbeam).2.2.2.2
  refine ⟨b, beam, hb, hbeam, by rw [hlayers]; simp [mul_comm], ?_, ?_⟩
  · intro j na hj i hi
    have hjl : j < segs.length := (List.getElem?_eq_some_iff.mp hj).1
    have e : ∀ t, t ≤ segs.length → ((List.replicate segs.length 5).take t).sum = 5 * t := by
      intro t ht
      rw [List.take_replicate, min_eq_left ht]; simp [mul_comm]
    have := c1 j (highRSegment na.2) (by rw [h5, List.getElem?_map, hj]; rfl) (5 * j + i) (by rw [e j hjl.le]; omega) (by rw [e (j + 1) hjl]; omega)
    rw [this, h2]; rfl
  · rw [hlen, c2, h5, h2]
    have : ∀ l : List (String × ℝ), (List.zipWith (fun m (p : Segment) => m * ⌊800 * |p.ampl|⌋₊) (List.replicate l.length 5) (l.map fun na => highRSegment na.2)).sum = 5 * (l.map fun na => ⌊800 * |na.2|⌋₊).sum := by
      intro l
      induction l with
      | nil => rfl
      | cons a l ih =>
        rw [List.length_cons, List.replicate_succ, List.map_cons, List.zipWith_cons_cons, List.sum_cons, ih, List.map_cons, List.sum_cons, mul_add]
        rfl
    exact this segs

end Lcode.Gen
