import Verif.Gen.Params

/-!
Concrete beams for C35: the hypotheses are met, and the failures happen.
-/

namespace Lcode.Gen

open Lcode.Beam2D (IsArgsort gather npArgsort npArgsort_correct)
open Lcode.Beam3D (InLayer)

/-- A random generator that always returns the middle. -/
noncomputable def midRng : Rng Unit := ⟨fun _ n => (List.replicate n (1 / 2), ()), fun _ n => (List.replicate n 0, ()), fun _ _ => (0, ())⟩

theorem midRng_valid : midRng.Valid where
  sample_length := fun _ n => by simp [midRng]
  sample_range := fun _ n u hu => by
    have := (List.mem_replicate.mp hu).2
    rw [this]; norm_num
  gauss_length := fun _ n => by simp [midRng]
  randint_range := fun _ n hn => hn

/-- A uniform segment. -/
noncomputable def flat (length ampl : ℝ) : Segment where
  length := length
  ampl := ampl
  xishape := fun _ _ => 1
  radius := 1
  energy := 1000
  xshift := 0
  yshift := 0
  angspread := 0
  angshape := fun _ _ => 1
  espread := 0
  eshape := .mono
  massCharge := 1

/-- Unit current, four macroparticles in a layer of that current, layers of length 1: a segment of length 2 and a segment of length 1 with half the current and the opposite sign. -/
noncomputable def twoSegments : Shape where
  current := 1
  perLayer := 4
  segs := [flat 2 1, flat 1 (-1 / 2)]
  dxi := 1
  rMax := 5

theorem flat_noRaise (l a d : ℝ) : (flat l a).NoRaise d := by
  constructor
  · simp [Segment.sigma, flat]
  · intro h; cases h

theorem twoSegments_valid : twoSegments.Valid := by
  constructor <;> first | (norm_num [twoSegments]; done) | skip
  · intro p hp
    simp only [twoSegments, List.mem_cons, List.not_mem_nil, or_false] at hp
    rcases hp with rfl | rfl <;> norm_num [flat]
  · intro p hp
    simp only [twoSegments, List.mem_cons, List.not_mem_nil, or_false] at hp
    rcases hp with rfl | rfl <;> norm_num [flat]
  · intro p hp m hm
    simp only [twoSegments, List.mem_cons, List.not_mem_nil, or_false] at hp
    rcases hp with rfl | rfl <;> cases hm

theorem twoSegments_heads : headOf twoSegments.segs 0 = 0 ∧ headOf twoSegments.segs 1 = 2 ∧ headOf twoSegments.segs 2 = 3 := by
  refine ⟨?_, ?_, ?_⟩ <;> norm_num [headOf, twoSegments, flat]

theorem twoSegments_total : totalLength twoSegments.segs = 3 := by norm_num [totalLength, twoSegments, flat]

/-- The hypotheses of C35 are met: the generator accepts the two-segment beam. -/
theorem twoSegments_generated : ∃ beam, generateArray Segment.trans3 twoSegments midRng () npArgsort = some beam := by
  have h := generator_raises_iff Segment.trans3 midRng (fun p s d r n => trans3_isSome midRng p s d r n) twoSegments () npArgsort twoSegments_valid.dxi twoSegments_valid.length (by
    intro p hp d _ _
    simp only [twoSegments, List.mem_cons, List.not_mem_nil, or_false] at hp
    rcases hp with rfl | rfl <;> exact flat_noRaise _ _ _)
  cases hb : generateArray Segment.trans3 twoSegments midRng () npArgsort with
  | some beam => exact ⟨beam, rfl⟩
  | none =>
    exfalso
    obtain ⟨k, j, h0, h1, h2⟩ := h.mp hb
    have hj : j = 1 := by simp only [twoSegments, List.length_cons, List.length_nil] at h1; omega
    subst hj
    rw [twoSegments_heads.2.1] at h2
    simp only [twoSegments, mul_one] at h2
    have h3 : (2 : ℝ) * k + 1 = 4 := by linarith
    have h4 : 2 * k + 1 = 4 := by exact_mod_cast h3
    omega

theorem twoSegments_current : layerCurrent twoSegments 1 = 1 ∧ layerCurrent twoSegments 2 = -1 / 2 := by
  obtain ⟨e0, e1, e2⟩ := twoSegments_heads
  constructor
  · rw [layerCurrent_spec twoSegments twoSegments_valid.length 1 0 (flat 2 1) rfl (by rw [e0]; norm_num [twoSegments]) (by rw [e1]; norm_num [twoSegments])]
    norm_num [twoSegments, flat]
  · rw [layerCurrent_spec twoSegments twoSegments_valid.length 2 1 (flat 1 (-1 / 2)) rfl (by rw [e1]; norm_num [twoSegments]) (by rw [e2]; norm_num [twoSegments])]
    norm_num [twoSegments, flat]

theorem twoSegments_count : layerCount twoSegments 1 = 4 ∧ layerCount twoSegments 2 = 2 := by
  unfold layerCount
  rw [twoSegments_current.1, twoSegments_current.2]
  constructor
  · have : (twoSegments.perLayer * |(1 : ℝ) / twoSegments.current|) = ((4 : ℤ) : ℝ) := by norm_num [twoSegments]
    rw [this, Lcode.Py.pyInt_intCast]; rfl
  · have : (twoSegments.perLayer * |(-1 / 2 : ℝ) / twoSegments.current|) = ((2 : ℤ) : ℝ) := by norm_num [twoSegments, abs_div]
    rw [this, Lcode.Py.pyInt_intCast]; rfl

/-- C35 fails for a segment of opposite sign (for every random generator): the layer of current -1/2 holds two macroparticles of total charge +1 instead of -1, although their charge-to-mass ratio is negative; the layer of current 1 holds charge 2, as it should. -/
theorem opposite_segment (S : Type) (g : Rng S) (hg : g.Valid) (s : S) (argsort : List ℝ → List ℕ) (hs : IsArgsort (· ≤ ·) argsort) (beam : List (GRow Tr3)) (h : generateArray Segment.trans3 twoSegments g s argsort = some beam) :
    (((beam.filter fun r => decide (InLayer 1 1 r.xi)).map GRow.qnorm).sum = 2 ∧ ∀ r ∈ beam.filter fun r => decide (InLayer 1 1 r.xi), r.qm = 1) ∧
    (((beam.filter fun r => decide (InLayer 1 2 r.xi)).map GRow.qnorm).sum = 1 ∧ ∀ r ∈ beam.filter fun r => decide (InLayer 1 2 r.xi), r.qm = -1) := by
  obtain ⟨-, -, -, hl, -⟩ := generated_3d twoSegments twoSegments_valid g hg argsort hs s beam h
  have h1 := hl 1 (by rw [twoSegments_total]; norm_num [twoSegments])
  have h2 := hl 2 (by rw [twoSegments_total]; norm_num [twoSegments])
  have mc : ∀ (j : ℕ) (p : Segment), twoSegments.segs[j]? = some p → p.massCharge = 1 := by
    intro j p hp
    have := List.mem_of_getElem? hp
    simp only [twoSegments, List.mem_cons, List.not_mem_nil, or_false] at this
    rcases this with rfl | rfl <;> rfl
  refine ⟨⟨?_, ?_⟩, ⟨?_, ?_⟩⟩
  · have := layer_charge h1 twoSegments_valid.current twoSegments_valid.perLayer
    rw [twoSegments_count.1] at this
    refine this.trans ?_
    norm_num [twoSegments]
  · intro r hr
    obtain ⟨j, p, hj, -, -, hrow⟩ := h1.seg
    rw [(hrow r hr).1, mc j p hj, twoSegments_current.1]; norm_num
  · have := layer_charge h2 twoSegments_valid.current twoSegments_valid.perLayer
    rw [twoSegments_count.2] at this
    refine this.trans ?_
    norm_num [twoSegments]
  · intro r hr
    obtain ⟨j, p, hj, -, -, hrow⟩ := h2.seg
    rw [(hrow r hr).1, mc j p hj, twoSegments_current.2]; norm_num

/-- C35: the generator raises for a harmless-looking beam: two segments of length 3/2 on layers of length 1, because the middle of the second layer is the joint. -/
theorem joint_raises (S : Type) (g : Rng S) (s : S) (argsort : List ℝ → List ℕ) : generateArray Segment.trans2 { twoSegments with segs := [flat (3 / 2) 1, flat (3 / 2) 1] } g s argsort = none := by
  refine (generator_raises_iff Segment.trans2 g (fun p s d r n => trans2_isSome g p s d r n) { twoSegments with segs := [flat (3 / 2) 1, flat (3 / 2) 1] } s argsort (by norm_num [twoSegments]) ?_ ?_).mpr ⟨1, 1, by norm_num, by norm_num, ?_⟩
  · intro p hp
    simp only [List.mem_cons, List.not_mem_nil, or_false] at hp
    rcases hp with rfl | rfl <;> norm_num [flat]
  · intro p hp d _ _
    simp only [List.mem_cons, List.not_mem_nil, or_false] at hp
    rcases hp with rfl | rfl <;> exact flat_noRaise _ _ _
  · norm_num [headOf, flat, twoSegments]

/-- The hypotheses on the user's parameters are met: a segment, a default dictionary, another segment. The second segment takes the radius of the default dictionary, the first the built-in radius. -/
example : ∃ p q, segmentsOf (some [("current", .scalar (.num 1)), ("first", .dict [("length", .num 2)]), ("default", .dict [("radius", .num 3)]), ("second", .dict [("energy", .num 10)])]) = some [p, q] ∧
    p.radius = 1 ∧ p.length = 2 ∧ q.radius = 3 ∧ q.length = 5.01 ∧ q.energy = 10 ∧ p.energy = 1000 := by
  have h := segments_with_default [("current", .scalar (.num 1)), ("first", .dict [("length", .num 2)])] [("second", .dict [("energy", .num 10)])] [("radius", .num 3)]
    ⟨by decide, by
      intro k d hd
      simp at hd
      rcases hd with ⟨rfl, rfl⟩ | ⟨rfl, rfl⟩ | ⟨rfl, rfl⟩ <;> simp⟩ (by
      intro k v hv
      simp at hv
      rw [hv.1]; simp [shapeKeys])
  refine ⟨_, _, h.trans rfl, rfl, rfl, rfl, rfl, rfl, rfl⟩

end Lcode.Gen
