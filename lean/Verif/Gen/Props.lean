import Verif.Gen.Model
import Verif.Beam3D.Data

/-!
Properties of generated beams (C35).
-/

namespace Lcode.Gen

open Lcode.Beam2D (IsArgsort gather gather_perm gather_map)
open Lcode.Beam3D (InLayer)

variable {S T : Type}

/-! ### Segments of the current profile -/

/-- Distance from the head to the start of segment `j`: the sum of the lengths before it. -/
def headOf (segs : List Segment) (j : ℕ) : ℝ := ((segs.take j).map Segment.length).sum

theorem headOf_zero (segs : List Segment) : headOf segs 0 = 0 := by simp [headOf]

theorem headOf_cons (p : Segment) (ps : List Segment) (j : ℕ) : headOf (p :: ps) (j + 1) = p.length + headOf ps j := by simp [headOf]

theorem headOf_nonneg (segs : List Segment) (hpos : ∀ p ∈ segs, 0 < p.length) (j : ℕ) : 0 ≤ headOf segs j := by
  apply List.sum_nonneg
  intro x hx
  obtain ⟨p, hp, rfl⟩ := List.mem_map.mp hx
  exact (hpos p (List.mem_of_mem_take hp)).le

theorem totalLength_eq (segs : List Segment) : totalLength segs = headOf segs segs.length := by
  unfold totalLength headOf
  rw [List.take_length]
  have : ∀ (l : List Segment) (a : ℝ), l.foldl (fun x p => x + p.length) a = a + (l.map Segment.length).sum := by
    intro l
    induction l with
    | nil => intro a; simp
    | cons p l ih => intro a; simp only [List.foldl_cons, ih, List.map_cons, List.sum_cons]; ring
  rw [this]; ring

theorem getSegment_nonpos (segs : List Segment) (hpos : ∀ p ∈ segs, 0 < p.length) (start xi : ℝ) (h : start - xi ≤ 0) : getSegment segs start xi = none := by
  induction segs generalizing start with
  | nil => rfl
  | cons p ps ih =>
    unfold getSegment
    rw [if_neg (by intro hh; linarith [hh.1])]
    exact ih (fun q hq => hpos q (List.mem_cons_of_mem _ hq)) _ (by linarith [hpos p List.mem_cons_self])

theorem getSegment_some_aux (segs : List Segment) (hpos : ∀ p ∈ segs, 0 < p.length) (start xi : ℝ) (p : Segment) (st : ℝ) :
    getSegment segs start xi = some (p, st) ↔ ∃ j, segs[j]? = some p ∧ st = start - headOf segs j ∧ headOf segs j < start - xi ∧ start - xi < headOf segs (j + 1) := by
  induction segs generalizing start with
  | nil => simp [getSegment]
  | cons q qs ih =>
    have hq := hpos q List.mem_cons_self
    have hpos' : ∀ p ∈ qs, 0 < p.length := fun q hq => hpos q (List.mem_cons_of_mem _ hq)
    unfold getSegment
    by_cases h : 0 < start - xi ∧ start - xi < q.length
    · rw [if_pos h]
      constructor
      · intro e
        obtain ⟨rfl, rfl⟩ := Prod.mk.inj (Option.some.inj e)
        refine ⟨0, rfl, by simp [headOf], by simpa [headOf] using h.1, by simpa [headOf] using h.2⟩
      · rintro ⟨j, h1, h2, h3, h4⟩
        cases j with
        | zero =>
          simp [headOf] at h1 h2
          rw [h1, h2]
        | succ j =>
          rw [headOf_cons] at h3
          have := headOf_nonneg qs hpos' j
          linarith [h.2]
    · rw [if_neg h, ih hpos']
      constructor
      · rintro ⟨j, h1, h2, h3, h4⟩
        refine ⟨j + 1, h1, ?_, ?_, ?_⟩
        · rw [headOf_cons, h2]; ring
        · rw [headOf_cons]; linarith
        · rw [headOf_cons]; linarith
      · rintro ⟨j, h1, h2, h3, h4⟩
        cases j with
        | zero =>
          rw [headOf_zero] at h3
          rw [headOf_cons, headOf_zero] at h4
          exact absurd ⟨h3, by linarith⟩ h
        | succ j =>
          rw [headOf_cons] at h2 h3 h4
          exact ⟨j, h1, by rw [h2]; ring, by linarith, by linarith⟩

/-- C35: the segment a point of the beam belongs to: the point at distance `z` behind the head is in segment `j` exactly when it is strictly between the heads of segments `j` and `j + 1`. -/
theorem segment_located (segs : List Segment) (hpos : ∀ p ∈ segs, 0 < p.length) (z : ℝ) (p : Segment) (st : ℝ) :
    getSegment segs 0 (-z) = some (p, st) ↔ ∃ j, segs[j]? = some p ∧ st = -headOf segs j ∧ headOf segs j < z ∧ z < headOf segs (j + 1) := by
  rw [getSegment_some_aux segs hpos]
  simp only [zero_sub, neg_neg]

theorem segment_missing_aux (segs : List Segment) (hpos : ∀ p ∈ segs, 0 < p.length) (start xi : ℝ) (h0 : 0 < start - xi) (h1 : start - xi < headOf segs segs.length) :
    getSegment segs start xi = none ↔ ∃ j, 0 < j ∧ j < segs.length ∧ start - xi = headOf segs j := by
  induction segs generalizing start with
  | nil => simp [headOf] at h1; linarith
  | cons q qs ih =>
    have hq := hpos q List.mem_cons_self
    have hpos' : ∀ p ∈ qs, 0 < p.length := fun q hq => hpos q (List.mem_cons_of_mem _ hq)
    unfold getSegment
    rw [List.length_cons, headOf_cons] at h1
    by_cases h : 0 < start - xi ∧ start - xi < q.length
    · rw [if_pos h]
      simp only [reduceCtorEq, false_iff]
      rintro ⟨j, hj, -, e⟩
      obtain ⟨i, rfl⟩ : ∃ i, j = i + 1 := ⟨j - 1, by omega⟩
      rw [headOf_cons] at e
      have := headOf_nonneg qs hpos' i
      linarith [h.2]
    · rw [if_neg h]
      have hge : q.length ≤ start - xi := by
        by_contra hlt
        exact h ⟨h0, by linarith⟩
      rcases eq_or_lt_of_le hge with he | hlt
      · rw [getSegment_nonpos qs hpos' _ _ (by linarith)]
        simp only [true_iff]
        refine ⟨1, by omega, ?_, ?_⟩
        · by_contra hlen
          have : qs.length = 0 := by simp at hlen; simp [hlen]
          have hnil : qs = [] := List.length_eq_zero_iff.mp this
          subst hnil
          simp [headOf] at h1
          linarith
        · rw [show (1 : ℕ) = 0 + 1 from rfl, headOf_cons, headOf_zero]; linarith
      · rw [ih hpos' _ (by linarith) (by linarith)]
        constructor
        · rintro ⟨j, a, b, e⟩
          exact ⟨j + 1, by omega, by simpa using b, by rw [headOf_cons]; linarith⟩
        · rintro ⟨j, a, b, e⟩
          obtain ⟨i, rfl⟩ : ∃ i, j = i + 1 := ⟨j - 1, by omega⟩
          rw [headOf_cons] at e
          refine ⟨i, ?_, by simpa using b, by linarith⟩
          rcases Nat.eq_zero_or_pos i with hi | hi
          · subst hi; rw [headOf_zero] at e; linarith
          · exact hi

/-- C35: inside the beam there is no segment exactly at the joints of consecutive segments. -/
theorem segment_missing (segs : List Segment) (hpos : ∀ p ∈ segs, 0 < p.length) (z : ℝ) (h0 : 0 < z) (h1 : z < totalLength segs) :
    getSegment segs 0 (-z) = none ↔ ∃ j, 0 < j ∧ j < segs.length ∧ z = headOf segs j := by
  rw [totalLength_eq] at h1
  have := segment_missing_aux segs hpos 0 (-z) (by linarith) (by linarith)
  simpa using this

/-- C35: the registered longitudinal shapes have values between 0 and 1 on the segment. -/
theorem xiShape_range (name : String) (f : ℝ → ℝ → ℝ) (hf : xiShape name = some f) (d l : ℝ) (hl : 0 < l) (h0 : 0 ≤ d) (h1 : d ≤ l) : 0 ≤ f d l ∧ f d l ≤ 1 := by
  have hr0 : 0 ≤ d / l := by positivity
  have hr1 : d / l ≤ 1 := by rw [div_le_one hl]; exact h1
  have hc : ∀ x, 0 ≤ 0.5 * (1 - Real.cos x) ∧ 0.5 * (1 - Real.cos x) ≤ 1 := by
    intro x; constructor
    · linarith [Real.cos_le_one x]
    · linarith [Real.neg_one_le_cos x]
  have hc' : ∀ x, 0 ≤ 0.5 * (1 + Real.cos x) ∧ 0.5 * (1 + Real.cos x) ≤ 1 := by
    intro x; constructor
    · linarith [Real.neg_one_le_cos x]
    · linarith [Real.cos_le_one x]
  have hg : 0 ≤ 0.5 * Real.exp (-18 * (d / l) ^ 2) ∧ 0.5 * Real.exp (-18 * (d / l) ^ 2) ≤ 1 := by
    constructor
    · positivity
    · have : Real.exp (-18 * (d / l) ^ 2) ≤ 1 := Real.exp_le_one_iff.mpr (by nlinarith [sq_nonneg (d / l)])
      linarith
  unfold xiShape at hf
  split at hf <;> first | (cases hf) | skip
  all_goals first | exact hc _ | exact hc' _ | exact hg | skip
  · exact ⟨hr0, hr1⟩
  · constructor <;> linarith
  · constructor <;> norm_num

/-! ### Layers -/

/-- C35: layer `k` is generated exactly when its middle lies inside the beam. -/
theorem layersNumber_spec (b : Shape) (hd : 0 < b.dxi) (k : ℕ) : k < layersNumber b ↔ (k + 1 / 2) * b.dxi < totalLength b.segs := by
  unfold layersNumber
  rw [Int.lt_toNat, Int.lt_ceil]
  have e : (-totalLength b.segs - -b.dxi / 2) / -b.dxi = (totalLength b.segs - b.dxi / 2) / b.dxi := by
    rw [div_neg, ← neg_div]; congr 1; ring
  rw [e, lt_div_iff₀ hd]
  push_cast
  constructor <;> intro h <;> linarith

/-- C35: the current of a layer is the beam current times the amplitude of the segment in which the middle of the layer lies times the shape of that segment there. -/
theorem layerCurrent_spec (b : Shape) (hpos : ∀ p ∈ b.segs, 0 < p.length) (k j : ℕ) (p : Segment) (hp : b.segs[j]? = some p)
    (h1 : headOf b.segs j < (k + 1 / 2) * b.dxi) (h2 : (k + 1 / 2) * b.dxi < headOf b.segs (j + 1)) :
    layerCurrent b k = p.ampl * b.current * p.xishape ((k + 1 / 2) * b.dxi - headOf b.segs j) p.length := by
  unfold layerCurrent initialCurrent
  have e : -b.dxi / 2 + k * -b.dxi = -((k + 1 / 2) * b.dxi) := by ring
  rw [e, (segment_located b.segs hpos _ p (-headOf b.segs j)).mpr ⟨j, hp, rfl, h1, h2⟩]
  simp only [Segment.initialCurrent]
  have hlen : headOf b.segs (j + 1) = headOf b.segs j + p.length := by
    unfold headOf
    rw [List.take_add_one, hp]
    simp
  rw [if_neg (by push Not; constructor <;> linarith)]
  congr 2
  ring

/-- Rows of one generated layer. -/
structure LayerOk (tok : Segment → ℝ → T → Prop) (eok : Segment → ℝ → ℝ → Prop) (b : Shape) (k : ℕ) (l : List (GRow T)) : Prop where
  seg : ∃ j p, b.segs[j]? = some p ∧ headOf b.segs j < (k + 1 / 2) * b.dxi ∧ (k + 1 / 2) * b.dxi < headOf b.segs (j + 1) ∧
    ∀ r ∈ l, r.qm = (if layerCurrent b k > 0 then 1 else -1) / p.massCharge ∧ tok p ((k + 1 / 2) * b.dxi - headOf b.segs j) r.tr ∧ eok p ((k + 1 / 2) * b.dxi - headOf b.segs j) r.pz
  count : l.length = layerCount b k
  xi : ∀ r ∈ l, InLayer b.dxi k r.xi
  charge : ∀ r ∈ l, r.qnorm = (if 0 ≤ b.current then 1 else -1) * |2 * b.current / b.perLayer|

/-- What a transverse generator guarantees. -/
def TransOk (tv : Segment → Rng S → S → ℝ → ℝ → ℕ → Option (List T × S)) (tok : Segment → ℝ → T → Prop) (g : Rng S) (b : Shape) : Prop :=
  ∀ p ∈ b.segs, ∀ s d n o, tv p g s d b.rMax n = some o → o.1.length = n ∧ ∀ t ∈ o.1, tok p d t

/-- What the energy shapes guarantee. -/
def EnergyOk (eok : Segment → ℝ → ℝ → Prop) (g : Rng S) (b : Shape) : Prop := ∀ p ∈ b.segs, ∀ s d n o, p.pz g s d n = some o → o.1.length = n ∧ ∀ e ∈ o.1, eok p d e

theorem uniform_spec (g : Rng S) (hg : g.Valid) (s : S) (lo hi : ℝ) (h : lo < hi) (n : ℕ) :
    (uniform g s lo hi n).1.length = n ∧ ∀ z ∈ (uniform g s lo hi n).1, lo ≤ z ∧ z < hi := by
  constructor
  · simp [uniform, hg.sample_length]
  · intro z hz
    obtain ⟨u, hu, rfl⟩ := List.mem_map.mp hz
    obtain ⟨h0, h1⟩ := hg.sample_range s n u hu
    constructor <;> nlinarith

theorem mem_zip3 {α β γ δ : Type*} (f : α → β × γ → δ) (a : List α) (b : List β) (c : List γ) (x : δ) (h : x ∈ List.zipWith f a (b.zip c)) :
    ∃ u ∈ a, ∃ v ∈ b, ∃ w ∈ c, x = f u (v, w) := by
  rw [List.mem_iff_getElem] at h
  obtain ⟨i, hi, rfl⟩ := h
  simp only [List.length_zipWith, List.length_zip, lt_min_iff] at hi
  refine ⟨a[i], List.getElem_mem _, b[i], List.getElem_mem _, c[i], List.getElem_mem _, ?_⟩
  simp

theorem genLayer_spec (tv : Segment → Rng S → S → ℝ → ℝ → ℕ → Option (List T × S)) (tok : Segment → ℝ → T → Prop) (eok : Segment → ℝ → ℝ → Prop) (b : Shape) (g : Rng S) (hg : g.Valid)
    (hd : 0 < b.dxi) (hpos : ∀ p ∈ b.segs, 0 < p.length) (ht : TransOk tv tok g b) (he : EnergyOk eok g b) (s : S) (k : ℕ) (l : List (GRow T)) (s' : S)
    (h : genLayer tv b g s k = some (l, s')) : LayerOk tok eok b k l := by
  have emid : -b.dxi * k - b.dxi / 2 = -((k + 1 / 2) * b.dxi) := by ring
  unfold genLayer at h
  simp only [Option.bind_eq_bind, Option.bind_eq_some_iff, Option.pure_def, Option.some.injEq] at h
  obtain ⟨⟨p, st⟩, hseg, tr, htr, pz, hpz, hl⟩ := h
  rw [emid] at hseg htr hpz
  obtain ⟨j, hj, hst, h1, h2⟩ := (segment_located b.segs hpos _ p st).mp hseg
  have ed : st - -((k + 1 / 2) * b.dxi) = (k + 1 / 2) * b.dxi - headOf b.segs j := by rw [hst]; ring
  simp only [ed] at htr hpz
  obtain ⟨t1, t2⟩ := ht _ (List.mem_of_getElem? hj) _ _ _ _ htr
  obtain ⟨e1, e2⟩ := he _ (List.mem_of_getElem? hj) _ _ _ _ hpz
  obtain ⟨u1, u2⟩ := uniform_spec g hg s (-b.dxi * k - b.dxi) (-b.dxi * k) (by linarith) (layerCount b k)
  have hl' := (Prod.mk.inj hl).1
  refine ⟨⟨j, p, hj, h1, h2, ?_⟩, ?_, ?_, ?_⟩
  · intro r hr
    rw [← hl'] at hr
    obtain ⟨z, hz, t, htt, e, hee, rfl⟩ := mem_zip3 _ _ _ _ _ hr
    refine ⟨?_, t2 t htt, e2 e hee⟩
    simp only
    ring
  · rw [← hl', List.length_zipWith, List.length_zip, u1, t1, e1]; simp
  · intro r hr
    rw [← hl'] at hr
    obtain ⟨z, hz, t, htt, e, hee, rfl⟩ := mem_zip3 _ _ _ _ _ hr
    obtain ⟨a, c⟩ := u2 z hz
    constructor
    · simp only; linarith
    · simp only; linarith
  · intro r hr
    rw [← hl'] at hr
    obtain ⟨z, hz, t, htt, e, hee, rfl⟩ := mem_zip3 _ _ _ _ _ hr
    simp only [elemCharge, ge_iff_le]
    ring

theorem genLoop_spec (tv : Segment → Rng S → S → ℝ → ℝ → ℕ → Option (List T × S)) (tok : Segment → ℝ → T → Prop) (eok : Segment → ℝ → ℝ → Prop) (b : Shape) (g : Rng S) (hg : g.Valid)
    (hd : 0 < b.dxi) (hpos : ∀ p ∈ b.segs, 0 < p.length) (ht : TransOk tv tok g b) (he : EnergyOk eok g b) (n : ℕ) (s : S) (k : ℕ) (ls : List (List (GRow T)))
    (h : genLoop tv b g s k n = some ls) : ls.length = n ∧ ∀ i l, ls[i]? = some l → LayerOk tok eok b (k + i) l := by
  induction n generalizing s k ls with
  | zero =>
    simp only [genLoop, Option.some.injEq] at h
    subst h; simp
  | succ n ih =>
    simp only [genLoop, Option.bind_eq_bind, Option.bind_eq_some_iff, Option.pure_def, Option.some.injEq] at h
    obtain ⟨⟨l0, s'⟩, h0, rest, hrest, rfl⟩ := h
    obtain ⟨a1, a2⟩ := ih _ _ _ hrest
    refine ⟨by simp [a1], ?_⟩
    intro i l hl
    cases i with
    | zero =>
      simp at hl; subst hl
      exact genLayer_spec tv tok eok b g hg hd hpos ht he s k l0 s' h0
    | succ i =>
      have := a2 i l (by simpa using hl)
      rwa [show k + 1 + i = k + (i + 1) by omega] at this

/-! ### The whole beam -/

theorem inLayer_unique {h : ℝ} (hh : 0 < h) {i j : ℕ} {z : ℝ} (hi : InLayer h i z) (hj : InLayer h j z) : i = j := by
  obtain ⟨a, b⟩ := hi
  obtain ⟨c, d⟩ := hj
  have h1 : (i : ℝ) < j + 1 := by by_contra hc; push Not at hc; nlinarith
  have h2 : (j : ℝ) < i + 1 := by by_contra hc; push Not at hc; nlinarith
  have h1' : i < j + 1 := by exact_mod_cast h1
  have h2' : j < i + 1 := by exact_mod_cast h2
  omega

theorem filter_layers {α : Type*} (P : ℕ → α → Prop) [∀ i a, Decidable (P i a)] (hP : ∀ i j a, P i a → P j a → i = j) (ls : List (List α)) (k : ℕ)
    (h : ∀ i l, ls[i]? = some l → ∀ a ∈ l, P (k + i) a) (m : ℕ) :
    ls.flatten.filter (fun a => decide (P m a)) = if k ≤ m then (ls[m - k]?).getD [] else [] := by
  induction ls generalizing k with
  | nil => simp
  | cons l ls ih =>
    have ih' := ih (k + 1) (fun i l' hl' a ha => by
      have := h (i + 1) l' (by simpa using hl') a ha
      rwa [show k + 1 + i = k + (i + 1) by omega])
    rw [List.flatten_cons, List.filter_append, ih']
    have h0 := h 0 l rfl
    rw [Nat.add_zero] at h0
    by_cases hm : m = k
    · subst hm
      have : l.filter (fun a => decide (P m a)) = l := List.filter_eq_self.mpr fun a ha => by simpa using h0 a ha
      rw [this]; simp
    · have : l.filter (fun a => decide (P m a)) = [] := List.filter_eq_nil_iff.mpr fun a ha => by
        simp only [decide_eq_true_eq]
        intro hp
        exact hm (hP _ _ _ hp (h0 a ha))
      rw [this, List.nil_append]
      by_cases hk : k ≤ m
      · rw [if_pos hk, if_pos (by omega), show m - k = (m - (k + 1)) + 1 by omega]; simp
      · rw [if_neg hk, if_neg (by omega)]

/-- The row without its identifier. -/
def GRow.erase (r : GRow T) : GRow T := { r with id := 0 }

theorem LayerOk.perm {tok : Segment → ℝ → T → Prop} {eok : Segment → ℝ → ℝ → Prop} {b : Shape} {k : ℕ} {l l' : List (GRow T)} (h : LayerOk tok eok b k l)
    (hp : (l'.map GRow.erase).Perm (l.map GRow.erase)) : LayerOk tok eok b k l' := by
  have hm : ∀ r ∈ l', ∃ r' ∈ l, r'.erase = r.erase := by
    intro r hr
    have : r.erase ∈ l.map GRow.erase := hp.mem_iff.mp (List.mem_map_of_mem hr)
    obtain ⟨r', h1, h2⟩ := List.mem_map.mp this
    exact ⟨r', h1, h2⟩
  obtain ⟨j, p, hj, h1, h2, h3⟩ := h.seg
  refine ⟨⟨j, p, hj, h1, h2, ?_⟩, ?_, ?_, ?_⟩
  · intro r hr
    obtain ⟨r', hr', e⟩ := hm r hr
    have e' := GRow.mk.inj e
    have := h3 r' hr'
    rw [← e'.2.1, ← e'.2.2.1, ← e'.2.2.2.1]; exact this
  · have := hp.length_eq
    rw [List.length_map, List.length_map] at this
    rw [this, h.count]
  · intro r hr
    obtain ⟨r', hr', e⟩ := hm r hr
    rw [← (GRow.mk.inj e).1]; exact h.xi r' hr'
  · intro r hr
    obtain ⟨r', hr', e⟩ := hm r hr
    rw [← (GRow.mk.inj e).2.2.2.2.1]; exact h.charge r' hr'

/-- C35: every generated beam has identifiers 1, 2, ..., N, once each, is sorted from head to tail, lies in the layers the current profile covers, and every layer has the number of macroparticles, the charge, the charge-to-mass ratio, the transverse part and the energy of its segment. -/
theorem generated_beam (tv : Segment → Rng S → S → ℝ → ℝ → ℕ → Option (List T × S)) (tok : Segment → ℝ → T → Prop) (eok : Segment → ℝ → ℝ → Prop) (b : Shape) (g : Rng S) (hg : g.Valid)
    (hd : 0 < b.dxi) (hpos : ∀ p ∈ b.segs, 0 < p.length) (ht : TransOk tv tok g b) (he : EnergyOk eok g b) (argsort : List ℝ → List ℕ) (hs : IsArgsort (· ≤ ·) argsort)
    (s : S) (beam : List (GRow T)) (h : generateArray tv b g s argsort = some beam) :
    (beam.map GRow.id).Perm ((List.range beam.length).map fun i : ℕ => (i : ℤ) + 1) ∧
    beam.Pairwise (fun p q => q.xi ≤ p.xi) ∧
    (∀ r ∈ beam, ∃ k : ℕ, (k + 1 / 2) * b.dxi < totalLength b.segs ∧ InLayer b.dxi k r.xi) ∧
    (∀ k : ℕ, (k + 1 / 2) * b.dxi < totalLength b.segs → LayerOk tok eok b k (beam.filter fun r => decide (InLayer b.dxi k r.xi))) ∧
    beam.length = ((List.range (layersNumber b)).map (layerCount b)).sum := by
  unfold generateArray at h
  simp only [Option.bind_eq_bind, Option.bind_eq_some_iff, Option.pure_def, Option.some.injEq] at h
  obtain ⟨ls, hls, rfl⟩ := h
  obtain ⟨hlen, hlay⟩ := genLoop_spec tv tok eok b g hg hd hpos ht he _ _ _ _ hls
  simp only [Nat.zero_add] at hlay
  set B := ls.flatten.mapIdx (fun i r => ({ r with id := (i : ℤ) + 1 } : GRow T)) with hB
  have hs' := hs (B.map fun r => -r.xi)
  have hperm : (gather B (argsort (B.map fun r => -r.xi))).Perm B := gather_perm (by simpa using hs'.1)
  have hBer : B.map GRow.erase = ls.flatten.map GRow.erase := by
    rw [hB]
    generalize ls.flatten = F
    apply List.ext_getElem
    · simp
    · intro i h1 h2; simp [GRow.erase]
  have hBid : B.map GRow.id = (List.range B.length).map fun i : ℕ => (i : ℤ) + 1 := by
    rw [hB]
    apply List.ext_getElem
    · simp
    · intro i h1 h2; simp
  have hfil : ∀ k, ((gather B (argsort (B.map fun r => -r.xi))).filter (fun r => decide (InLayer b.dxi k r.xi))).map GRow.erase |>.Perm (((ls[k]?).getD []).map GRow.erase) := by
    intro k
    have e1 : ∀ l : List (GRow T), (l.filter (fun r => decide (InLayer b.dxi k r.xi))).map GRow.erase = (l.map GRow.erase).filter (fun r => decide (InLayer b.dxi k r.xi)) := by
      intro l
      rw [List.filter_map]
      rfl
    have e2 := filter_layers (fun k (r : GRow T) => InLayer b.dxi k r.xi) (fun i j a hi hj => inLayer_unique hd hi hj) ls 0
      (fun i l hl a ha => by rw [Nat.zero_add]; exact (hlay i l hl).xi a ha) k
    simp only [Nat.zero_le, if_true, Nat.sub_zero] at e2
    rw [← e2, e1, e1, ← hBer]
    exact (hperm.map _).filter _
  refine ⟨?_, ?_, ?_, ?_, ?_⟩
  · rw [hperm.length_eq, ← hBid]
    exact hperm.map _
  · have := hs'.2
    rw [gather_map, List.pairwise_map] at this
    exact this.imp fun hle => by linarith
  · intro r hr
    have hr' := hperm.mem_iff.mp hr
    have : r.erase ∈ ls.flatten.map GRow.erase := by rw [← hBer]; exact List.mem_map_of_mem hr'
    obtain ⟨r0, h0, e0⟩ := List.mem_map.mp this
    obtain ⟨l, hl, hrl⟩ := List.mem_flatten.mp h0
    obtain ⟨i, hi, rfl⟩ := List.mem_iff_getElem.mp hl
    refine ⟨i, ?_, ?_⟩
    · rw [← layersNumber_spec b hd]; omega
    · rw [← (GRow.mk.inj e0).1]
      exact (hlay i _ (List.getElem?_eq_getElem hi)).xi r0 hrl
  · intro k hk
    rw [← layersNumber_spec b hd] at hk
    have hk' : k < ls.length := by omega
    refine (hlay k _ (List.getElem?_eq_getElem hk')).perm ?_
    have := hfil k
    rwa [List.getElem?_eq_getElem hk', Option.getD_some] at this
  · rw [hperm.length_eq, hB, List.length_mapIdx, List.length_flatten]
    congr 1
    apply List.ext_getElem
    · simp [hlen]
    · intro i h1 h2
      simp only [List.length_map] at h1
      simp [(hlay i _ (List.getElem?_eq_getElem h1)).count]

end Lcode.Gen
