import Verif.Gen.Props
import Mathlib.Analysis.SpecialFunctions.Pow.Real

/-!
Charges, transverse positions, energies and failures of the beam generator (C35).
-/

namespace Lcode.Gen

open Lcode.Beam2D (IsArgsort gather)
open Lcode.Beam3D (InLayer)

variable {S T : Type}

/-! ### Charges -/

theorem layerCount_bounds (b : Shape) (hp : 0 ≤ b.perLayer) (k : ℕ) :
    (layerCount b k : ℝ) ≤ b.perLayer * |layerCurrent b k / b.current| ∧ b.perLayer * |layerCurrent b k / b.current| < layerCount b k + 1 := by
  have h0 : 0 ≤ b.perLayer * |layerCurrent b k / b.current| := by positivity
  have hi := Lcode.Py.pyInt_nonneg h0
  have e : ((layerCount b k : ℕ) : ℝ) = ((Lcode.Py.pyInt (b.perLayer * |layerCurrent b k / b.current|) : ℤ) : ℝ) := by
    unfold layerCount
    have : (((Lcode.Py.pyInt (b.perLayer * |layerCurrent b k / b.current|)).toNat : ℤ) : ℝ) = ((Lcode.Py.pyInt (b.perLayer * |layerCurrent b k / b.current|) : ℤ) : ℝ) := by
      rw [Int.toNat_of_nonneg hi]
    exact_mod_cast this
  rw [e]
  exact ⟨Lcode.Py.pyInt_le h0, Lcode.Py.lt_pyInt_add_one h0⟩

/-- The charge of a layer: its macroparticles times the charge of one, with the sign of the beam current. -/
theorem layer_charge {tok : Segment → ℝ → T → Prop} {eok : Segment → ℝ → ℝ → Prop} {b : Shape} {k : ℕ} {l : List (GRow T)} (h : LayerOk tok eok b k l) (hI : b.current ≠ 0) (hp : 0 < b.perLayer) :
    (l.map GRow.qnorm).sum = layerCount b k * (2 * b.current / b.perLayer) := by
  have hq : ∀ r ∈ l, r.qnorm = 2 * b.current / b.perLayer := by
    intro r hr
    rw [h.charge r hr]
    by_cases hc : 0 ≤ b.current
    · rw [if_pos hc, abs_of_nonneg (by positivity)]; ring
    · rw [if_neg hc, abs_of_nonpos]
      · ring
      · push Not at hc
        apply div_nonpos_of_nonpos_of_nonneg <;> linarith
  rw [List.sum_eq_card_nsmul _ (2 * b.current / b.perLayer), List.length_map, h.count, nsmul_eq_mul]
  intro x hx
  obtain ⟨r, hr, rfl⟩ := List.mem_map.mp hx
  exact hq r hr

/-- C35: the charges of a layer add up to twice the current of the layer, up to less than the charge of one macroparticle, when the layer's current has the sign of the beam's. -/
theorem layer_charge_matches {tok : Segment → ℝ → T → Prop} {eok : Segment → ℝ → ℝ → Prop} {b : Shape} {k : ℕ} {l : List (GRow T)} (h : LayerOk tok eok b k l) (hI : b.current ≠ 0) (hp : 0 < b.perLayer)
    (hsame : 0 ≤ layerCurrent b k * b.current) : |(l.map GRow.qnorm).sum - 2 * layerCurrent b k| < |2 * b.current / b.perLayer| ∧ |(l.map GRow.qnorm).sum| ≤ |2 * layerCurrent b k| := by
  rw [layer_charge h hI hp]
  obtain ⟨h1, h2⟩ := layerCount_bounds b hp.le k
  have hr : 0 ≤ layerCurrent b k / b.current := by
    rw [div_eq_mul_inv]
    rcases lt_or_gt_of_ne hI with h | h
    · have := mul_nonneg_of_nonpos_of_nonpos (a := layerCurrent b k) (b := b.current⁻¹) (by nlinarith) (inv_nonpos.mpr h.le)
      exact this
    · exact mul_nonneg (by nlinarith) (inv_nonneg.mpr h.le)
  rw [abs_of_nonneg hr] at h1 h2
  set n : ℝ := (layerCount b k : ℝ)
  have e : n * (2 * b.current / b.perLayer) - 2 * layerCurrent b k = (n - b.perLayer * (layerCurrent b k / b.current)) * (2 * b.current / b.perLayer) := by
    field_simp
  have e' : 2 * layerCurrent b k = b.perLayer * (layerCurrent b k / b.current) * (2 * b.current / b.perLayer) := by
    field_simp
  have hn : 0 ≤ n := Nat.cast_nonneg _
  have hpos : 0 < |2 * b.current / b.perLayer| := by positivity
  constructor
  · rw [e, abs_mul]
    have : |n - b.perLayer * (layerCurrent b k / b.current)| < 1 := by rw [abs_lt]; constructor <;> linarith
    nlinarith
  · rw [e', abs_mul, abs_mul]
    apply mul_le_mul_of_nonneg_right _ hpos.le
    rw [abs_of_nonneg hn, abs_of_nonneg (by linarith)]
    exact h1

/-- C35 fails for a segment of the opposite sign (amplitude below zero): its charges add up to minus twice its current, up to one macroparticle, while the charge-to-mass ratio has the sign of the segment, so charge and charge-to-mass ratio of its particles have opposite signs. -/
theorem layer_charge_opposite {tok : Segment → ℝ → T → Prop} {eok : Segment → ℝ → ℝ → Prop} {b : Shape} {k : ℕ} {l : List (GRow T)} (h : LayerOk tok eok b k l) (hI : b.current ≠ 0) (hp : 0 < b.perLayer)
    (hmc : ∀ p ∈ b.segs, 0 < p.massCharge) (hopp : layerCurrent b k * b.current < 0) :
    |(l.map GRow.qnorm).sum + 2 * layerCurrent b k| < |2 * b.current / b.perLayer| ∧ (∀ r ∈ l, r.qnorm * layerCurrent b k < 0 ∧ 0 < r.qm * layerCurrent b k ∧ r.qm * r.qnorm < 0) := by
  have hr : layerCurrent b k / b.current < 0 := by
    rw [div_neg_iff]
    rcases lt_or_gt_of_ne hI with h | h
    · left; exact ⟨by by_contra hc; push Not at hc; nlinarith, h⟩
    · right; exact ⟨by by_contra hc; push Not at hc; nlinarith, h⟩
  constructor
  · rw [layer_charge h hI hp]
    obtain ⟨h1, h2⟩ := layerCount_bounds b hp.le k
    rw [abs_of_neg hr] at h1 h2
    set n : ℝ := (layerCount b k : ℝ)
    have e : n * (2 * b.current / b.perLayer) + 2 * layerCurrent b k = (n - b.perLayer * -(layerCurrent b k / b.current)) * (2 * b.current / b.perLayer) := by
      field_simp; ring
    have hpos : 0 < |2 * b.current / b.perLayer| := by positivity
    rw [e, abs_mul]
    have : |n - b.perLayer * -(layerCurrent b k / b.current)| < 1 := by rw [abs_lt]; constructor <;> linarith
    nlinarith
  · intro r hr'
    obtain ⟨j, p, hj, -, -, hrow⟩ := h.seg
    have hmc' := hmc p (List.mem_of_getElem? hj)
    have hq := h.charge r hr'
    have hm := (hrow r hr').1
    have hpos : 0 < |2 * b.current / b.perLayer| := by positivity
    rcases lt_or_gt_of_ne hI with hneg | hgt
    · have hc : 0 < layerCurrent b k := by by_contra hc; push Not at hc; nlinarith
      rw [if_neg (by linarith)] at hq
      rw [if_pos hc] at hm
      have hm' : 0 < r.qm := by rw [hm]; positivity
      have hq' : r.qnorm < 0 := by rw [hq]; linarith
      exact ⟨mul_neg_of_neg_of_pos hq' hc, mul_pos hm' hc, mul_neg_of_pos_of_neg hm' hq'⟩
    · have hc : layerCurrent b k < 0 := by by_contra hc; push Not at hc; nlinarith
      rw [if_pos hgt.le] at hq
      rw [if_neg (by linarith)] at hm
      have hm' : r.qm < 0 := by rw [hm]; exact div_neg_of_neg_of_pos (by norm_num) hmc'
      have hq' : 0 < r.qnorm := by rw [hq]; linarith
      exact ⟨mul_neg_of_pos_of_neg hq' hc, mul_pos_of_neg_of_neg hm' hc, mul_neg_of_neg_of_pos hm' hq'⟩

/-! ### Transverse positions and momenta -/

/-- C35: the radius drawn for a particle: never negative, below the cut-off radius, and with the distribution of a Gaussian beam of the given width cut at that radius: it is at most `rho` exactly when the uniform deviate is at most the (normalised) charge inside `rho`. -/
theorem radiusOf_spec (radius rMax u : ℝ) (hr : 0 < radius) (hR : 0 < rMax) (hu0 : 0 ≤ u) (hu1 : u < 1) :
    0 ≤ radiusOf radius rMax u ∧ radiusOf radius rMax u < rMax ∧
    ∀ rho, 0 ≤ rho → (radiusOf radius rMax u ≤ rho ↔ u * (1 - Real.exp (-rMax ^ 2 / (2 * radius ^ 2))) ≤ 1 - Real.exp (-rho ^ 2 / (2 * radius ^ 2))) := by
  have key : ∀ rho, 0 ≤ rho → (radiusOf radius rMax u ≤ rho ↔ u * (1 - Real.exp (-rMax ^ 2 / (2 * radius ^ 2))) ≤ 1 - Real.exp (-rho ^ 2 / (2 * radius ^ 2))) := by
    intro rho hrho
    have ha0 : 0 < Real.exp (-rMax ^ 2 / (2 * radius ^ 2)) := Real.exp_pos _
    have ha1 : Real.exp (-rMax ^ 2 / (2 * radius ^ 2)) ≤ 1 := Real.exp_le_one_iff.mpr (by rw [neg_div]; simp only [Left.neg_nonpos_iff]; positivity)
    set E := Real.exp (-rMax ^ 2 / (2 * radius ^ 2))
    have hpos : 0 < 1 - u * (1 - E) := by nlinarith
    have hle : 1 - u * (1 - E) ≤ 1 := by nlinarith
    have hlog : Real.log (1 - u * (1 - E)) ≤ 0 := Real.log_nonpos hpos.le hle
    unfold radiusOf
    simp only
    rw [← le_div_iff₀' hr, Real.sqrt_le_left (by positivity)]
    have e1 : (-2 * Real.log (1 - u * (1 - E)) ≤ (rho / radius) ^ 2) ↔ -rho ^ 2 / (2 * radius ^ 2) ≤ Real.log (1 - u * (1 - E)) := by
      have : -rho ^ 2 / (2 * radius ^ 2) = -(rho / radius) ^ 2 / 2 := by field_simp
      rw [this]
      constructor <;> intro h <;> linarith
    rw [e1, Real.le_log_iff_exp_le hpos]
    constructor <;> intro h <;> linarith
  refine ⟨?_, ?_, key⟩
  · unfold radiusOf; positivity
  · by_contra hc
    push Not at hc
    have ha1 : Real.exp (-rMax ^ 2 / (2 * radius ^ 2)) < 1 := by
      rw [Real.exp_lt_one_iff]
      rw [neg_div]; simp only [Left.neg_neg_iff]; positivity
    have ha0 : 0 < Real.exp (-rMax ^ 2 / (2 * radius ^ 2)) := Real.exp_pos _
    -- a radius slightly below rMax is exceeded by less than the whole charge
    set E := Real.exp (-rMax ^ 2 / (2 * radius ^ 2)) with hE
    have hlt : u * (1 - E) < 1 - E := by nlinarith
    have hpos : 0 < 1 - u * (1 - E) := by nlinarith
    have : radius * Real.sqrt (-2 * Real.log (1 - u * (1 - E))) < rMax := by
      rw [← lt_div_iff₀' hr, Real.sqrt_lt' (by positivity)]
      have h1 : -rMax ^ 2 / (2 * radius ^ 2) < Real.log (1 - u * (1 - E)) := by
        rw [Real.lt_log_iff_exp_lt hpos]; linarith
      have : -rMax ^ 2 / (2 * radius ^ 2) = -(rMax / radius) ^ 2 / 2 := by field_simp
      rw [this] at h1
      linarith
    unfold radiusOf at hc
    simp only [← hE] at hc
    linarith

theorem normal_spec (g : Rng S) (hg : g.Valid) (s : S) (mu sigma : ℝ) (n : ℕ) (o : List ℝ × S) (h : normal g s mu sigma n = some o) :
    0 ≤ sigma ∧ o.1.length = n ∧ ∀ v ∈ o.1, sigma = 0 → v = mu := by
  unfold normal at h
  split at h
  · cases h
  · cases h
    refine ⟨by linarith, by simp [hg.gauss_length], ?_⟩
    intro v hv h0
    obtain ⟨w, -, rfl⟩ := List.mem_map.mp hv
    simp [h0]

/-- The transverse part of a particle of the axisymmetric beam: inside the cut-off radius, with no transverse momentum if the beam has no angular spread, and angular momentum only off the axis. -/
def Ok2 (rMax : ℝ) (p : Segment) (_d : ℝ) (t : Tr2) : Prop := 0 ≤ t.r ∧ t.r < rMax ∧ (p.angspread = 0 → t.pr = 0 ∧ t.M = 0) ∧ (t.r = 0 → t.M = 0)

/-- The transverse part of a particle of the 3D beam: inside the circle of the cut-off radius about the segment's own axis. -/
def Ok3 (rMax : ℝ) (p : Segment) (_d : ℝ) (t : Tr3) : Prop := (t.x - p.xshift) ^ 2 + (t.y - p.yshift) ^ 2 < rMax ^ 2 ∧ (p.angspread = 0 → t.px = 0 ∧ t.py = 0)

theorem mem_zip2 {α β γ : Type*} (f : α → β → γ) (a : List α) (b : List β) (x : γ) (h : x ∈ List.zipWith f a b) : ∃ u ∈ a, ∃ v ∈ b, x = f u v := by
  rw [List.mem_iff_getElem] at h
  obtain ⟨i, hi, rfl⟩ := h
  simp only [List.length_zipWith, lt_min_iff] at hi
  exact ⟨a[i], List.getElem_mem _, b[i], List.getElem_mem _, by simp⟩

/-- C35 in 2D. -/
theorem trans2_ok (g : Rng S) (hg : g.Valid) (rMax : ℝ) (hR : 0 < rMax) (p : Segment) (hr : 0 < p.radius) (s : S) (d : ℝ) (n : ℕ) (o : List Tr2 × S) (h : p.trans2 g s d rMax n = some o) :
    o.1.length = n ∧ ∀ t ∈ o.1, Ok2 rMax p d t := by
  unfold Segment.trans2 gauss2d at h
  simp only [Option.bind_eq_bind, Option.bind_eq_some_iff, Option.pure_def, Option.some.injEq] at h
  obtain ⟨pr, hpr, pf, hpf, rfl⟩ := h
  obtain ⟨-, l1, z1⟩ := normal_spec g hg _ _ _ _ _ hpr
  obtain ⟨-, l2, z2⟩ := normal_spec g hg _ _ _ _ _ hpf
  constructor
  · simp [l1, l2, hg.sample_length]
  · intro t ht
    rw [List.mem_iff_getElem] at ht
    obtain ⟨i, hi, rfl⟩ := ht
    simp only [List.length_zipWith, List.length_zip, List.length_map, lt_min_iff] at hi
    simp only [List.getElem_zipWith, List.getElem_zip, List.getElem_map]
    have hu := hg.sample_range s n _ (List.getElem_mem hi.1)
    obtain ⟨r0, r1, -⟩ := radiusOf_spec p.radius rMax _ hr hR hu.1 hu.2
    refine ⟨r0, r1, ?_, ?_⟩
    · intro h0
      have hs0 : p.sigma d = 0 := by simp [Segment.sigma, h0]
      refine ⟨z1 _ (List.getElem_mem _) hs0, ?_⟩
      simp only
      rw [z2 _ (List.getElem_mem _) hs0, mul_zero]
    · intro h0
      simp only at h0 ⊢
      rw [h0, zero_mul]

/-- C35 in 3D. -/
theorem trans3_ok (g : Rng S) (hg : g.Valid) (rMax : ℝ) (hR : 0 < rMax) (p : Segment) (hr : 0 < p.radius) (s : S) (d : ℝ) (n : ℕ) (o : List Tr3 × S) (h : p.trans3 g s d rMax n = some o) :
    o.1.length = n ∧ ∀ t ∈ o.1, Ok3 rMax p d t := by
  unfold Segment.trans3 gauss3d at h
  simp only [Option.bind_eq_bind, Option.bind_eq_some_iff, Option.pure_def, Option.some.injEq] at h
  obtain ⟨px, hpx, py, hpy, rfl⟩ := h
  obtain ⟨-, l1, z1⟩ := normal_spec g hg _ _ _ _ _ hpx
  obtain ⟨-, l2, z2⟩ := normal_spec g hg _ _ _ _ _ hpy
  constructor
  · simp [l1, l2, hg.sample_length, uniform]
  · intro t ht
    rw [List.mem_iff_getElem] at ht
    obtain ⟨i, hi, rfl⟩ := ht
    simp only [List.length_zipWith, List.length_zip, List.length_map, lt_min_iff] at hi
    simp only [List.getElem_zipWith, List.getElem_zip, List.getElem_map]
    have hu := hg.sample_range s n _ (List.getElem_mem hi.1.1)
    obtain ⟨r0, r1, -⟩ := radiusOf_spec p.radius rMax _ hr hR hu.1 hu.2
    generalize radiusOf p.radius rMax (g.sample s n).1[i] = R at r0 r1
    refine ⟨?_, ?_⟩
    · simp only [add_sub_cancel_right]
      generalize (uniform g (g.sample s n).2 0 (2 * Real.pi) n).1[i] = phi
      have e : (R * Real.cos phi) ^ 2 + (R * Real.sin phi) ^ 2 = R ^ 2 := by
        have := Real.sin_sq_add_cos_sq phi
        linear_combination R ^ 2 * this
      rw [e]; nlinarith
    · intro h0
      have hs0 : p.sigma d = 0 := by simp [Segment.sigma, h0]
      exact ⟨z1 _ (List.getElem_mem _) hs0, z2 _ (List.getElem_mem _) hs0⟩

/-- C35: the draws of one particle of the 3D beam: the polar angle about the segment's axis is a whole turn times a uniform deviate, and the two momentum components are independent normal deviates with the standard deviation `angspread * energy * angshape`. -/
theorem trans3_draws (g : Rng S) (rMax : ℝ) (p : Segment) (s : S) (d : ℝ) (n : ℕ) (o : List Tr3 × S) (h : p.trans3 g s d rMax n = some o) :
    ∃ s1 s2 s3, s1 = (g.sample s n).2 ∧ s2 = (g.sample s1 n).2 ∧ s3 = (g.gauss s2 n).2 ∧ ∀ (i : ℕ) t, o.1[i]? = some t → ∃ u v a b, (g.sample s n).1[i]? = some u ∧ (g.sample s1 n).1[i]? = some v ∧ (g.gauss s2 n).1[i]? = some a ∧ (g.gauss s3 n).1[i]? = some b ∧
      t.x = p.xshift + radiusOf p.radius rMax u * Real.cos (2 * Real.pi * v) ∧ t.y = p.yshift + radiusOf p.radius rMax u * Real.sin (2 * Real.pi * v) ∧
      t.px = p.angspread * p.energy * p.angshape d p.length * a ∧ t.py = p.angspread * p.energy * p.angshape d p.length * b := by
  refine ⟨_, _, _, rfl, rfl, rfl, ?_⟩
  unfold Segment.trans3 gauss3d at h
  simp only [Option.bind_eq_bind, Option.bind_eq_some_iff, Option.pure_def, Option.some.injEq] at h
  obtain ⟨px, hpx, py, hpy, rfl⟩ := h
  unfold normal at hpx hpy
  split at hpx
  · cases hpx
  · cases hpx
    split at hpy
    · cases hpy
    · cases hpy
      intro i t ht
      rw [List.getElem?_eq_some_iff] at ht
      obtain ⟨hi, rfl⟩ := ht
      have hi' := hi
      simp only [List.length_zipWith, List.length_zip, List.length_map, lt_min_iff, uniform] at hi'
      refine ⟨_, _, _, _, List.getElem?_eq_getElem hi'.1.1, List.getElem?_eq_getElem hi'.1.2, List.getElem?_eq_getElem hi'.2.2.1, List.getElem?_eq_getElem hi'.2.2.2, ?_⟩
      simp only [List.getElem_zipWith, List.getElem_zip, List.getElem_map, uniform, Segment.sigma]
      refine ⟨?_, ?_, ?_, ?_⟩
      · simp only [zero_add, sub_zero]; ring
      · simp only [zero_add, sub_zero]; ring
      · ring
      · ring

/-- C35: the draws of one particle of the 2D beam: radial and azimuthal momenta are normal deviates, and the angular momentum is the radius times the azimuthal one. -/
theorem trans2_draws (g : Rng S) (rMax : ℝ) (p : Segment) (s : S) (d : ℝ) (n : ℕ) (o : List Tr2 × S) (h : p.trans2 g s d rMax n = some o) :
    ∃ s1 s2, s1 = (g.sample s n).2 ∧ s2 = (g.gauss s1 n).2 ∧ ∀ (i : ℕ) t, o.1[i]? = some t → ∃ u a b, (g.sample s n).1[i]? = some u ∧ (g.gauss s1 n).1[i]? = some a ∧ (g.gauss s2 n).1[i]? = some b ∧
      t.r = radiusOf p.radius rMax u ∧ t.pr = p.angspread * p.energy * p.angshape d p.length * a ∧ t.M = t.r * (p.angspread * p.energy * p.angshape d p.length * b) := by
  refine ⟨_, _, rfl, rfl, ?_⟩
  unfold Segment.trans2 gauss2d at h
  simp only [Option.bind_eq_bind, Option.bind_eq_some_iff, Option.pure_def, Option.some.injEq] at h
  obtain ⟨px, hpx, py, hpy, rfl⟩ := h
  unfold normal at hpx hpy
  split at hpx
  · cases hpx
  · cases hpx
    split at hpy
    · cases hpy
    · cases hpy
      intro i t ht
      rw [List.getElem?_eq_some_iff] at ht
      obtain ⟨hi, rfl⟩ := ht
      have hi' := hi
      simp only [List.length_zipWith, List.length_zip, List.length_map, lt_min_iff] at hi'
      refine ⟨_, _, _, List.getElem?_eq_getElem hi'.1, List.getElem?_eq_getElem hi'.2.1, List.getElem?_eq_getElem hi'.2.2.2, ?_⟩
      simp only [List.getElem_zipWith, List.getElem_zip, List.getElem_map, Segment.sigma]
      refine ⟨trivial, ?_, ?_⟩ <;> ring

/-! ### Energies -/

/-- The energy of a particle at distance `d` behind the head of its segment, for each energy shape. -/
def OkE (p : Segment) (d e : ℝ) : Prop :=
  match p.eshape with
  | .mono => e = p.energy
  | .uniform => min p.energy p.espread ≤ e ∧ e ≤ max p.energy p.espread
  | .linear => e = p.espread + (p.energy - p.espread) * (d / p.length)
  | .gaussian => p.espread = 0 → e = p.energy
  | .multi m => ∃ j : ℕ, j < m ∧ e = p.espread + j * (p.energy - p.espread) / (m - 1)

/-- C35: the energies of the particles of a layer. -/
theorem energy_ok (g : Rng S) (hg : g.Valid) (p : Segment) (hm : ∀ m, p.eshape = .multi m → 0 < m) (s : S) (d : ℝ) (n : ℕ) (o : List ℝ × S) (h : p.pz g s d n = some o) :
    o.1.length = n ∧ ∀ e ∈ o.1, OkE p d e := by
  unfold Segment.pz at h
  unfold OkE
  cases hk : p.eshape with
  | mono =>
    rw [hk] at h
    cases h
    refine ⟨by simp, fun e he => ?_⟩
    simpa using (List.mem_replicate.mp he).2
  | uniform =>
    rw [hk] at h
    cases h
    refine ⟨by simp [uniform, hg.sample_length], fun e he => ?_⟩
    obtain ⟨u, hu, rfl⟩ := List.mem_map.mp he
    obtain ⟨h0, h1⟩ := hg.sample_range s n u hu
    rcases le_total p.energy p.espread with hle | hle
    · simp only [min_eq_left hle, max_eq_right hle]; constructor <;> nlinarith
    · simp only [min_eq_right hle, max_eq_left hle]; constructor <;> nlinarith
  | linear =>
    rw [hk] at h
    cases h
    refine ⟨by simp, fun e he => ?_⟩
    simp only [(List.mem_replicate.mp he).2]
    ring
  | gaussian =>
    rw [hk] at h
    obtain ⟨-, h1, h2⟩ := normal_spec g hg _ _ _ _ _ h
    exact ⟨h1, fun e he h0 => h2 e he h0⟩
  | multi m =>
    rw [hk] at h
    cases h
    refine ⟨by simp, fun e he => ?_⟩
    exact ⟨_, hg.randint_range s m (hm m hk), (List.mem_replicate.mp he).2⟩

/-- With the shapes "2", ..., "9" and also with the linear and monoenergetic shapes, all the particles of a layer have one energy: one random level is drawn per layer, not per particle. -/
theorem multi_energy_whole_layer (g : Rng S) (p : Segment) (m : ℕ) (hm : p.eshape = .multi m) (s : S) (d : ℝ) (n : ℕ) (o : List ℝ × S) (h : p.pz g s d n = some o) :
    ∀ e ∈ o.1, ∀ e' ∈ o.1, e = e' := by
  unfold Segment.pz at h
  rw [hm] at h
  cases h
  intro e he e' he'
  rw [(List.mem_replicate.mp he).2, (List.mem_replicate.mp he').2]

/-! ### When the generator fails -/

/-- The generators of a segment do not raise at distance `d`: the spread of the transverse momentum is not negative, nor that of the energy if it is Gaussian. -/
def Segment.NoRaise (p : Segment) (d : ℝ) : Prop := 0 ≤ p.sigma d ∧ (p.eshape = .gaussian → 0 ≤ p.espread)

theorem normal_isSome (g : Rng S) (s : S) (mu sigma : ℝ) (n : ℕ) : (normal g s mu sigma n).isSome ↔ 0 ≤ sigma := by
  unfold normal; split <;> simp_all

theorem pz_isSome (g : Rng S) (p : Segment) (s : S) (d : ℝ) (n : ℕ) : (p.pz g s d n).isSome ↔ (p.eshape = .gaussian → 0 ≤ p.espread) := by
  unfold Segment.pz eValues
  cases p.eshape <;> simp [normal_isSome]

theorem trans2_isSome (g : Rng S) (p : Segment) (s : S) (d rMax : ℝ) (n : ℕ) : (p.trans2 g s d rMax n).isSome ↔ 0 ≤ p.sigma d := by
  unfold Segment.trans2 gauss2d normal
  by_cases h : p.sigma d < 0
  · simp [h]
  · simp [h, not_lt.mp h]

theorem trans3_isSome (g : Rng S) (p : Segment) (s : S) (d rMax : ℝ) (n : ℕ) : (p.trans3 g s d rMax n).isSome ↔ 0 ≤ p.sigma d := by
  unfold Segment.trans3 gauss3d normal
  by_cases h : p.sigma d < 0
  · simp [h]
  · simp [h, not_lt.mp h]

theorem genLayer_isSome (tv : Segment → Rng S → S → ℝ → ℝ → ℕ → Option (List T × S)) (g : Rng S) (htv : ∀ p s d rMax n, (tv p g s d rMax n).isSome ↔ 0 ≤ p.sigma d) (b : Shape) (s : S) (k : ℕ) :
    (genLayer tv b g s k).isSome ↔ ∃ p st, getSegment b.segs 0 (-((k + 1 / 2) * b.dxi)) = some (p, st) ∧ p.NoRaise (st + (k + 1 / 2) * b.dxi) := by
  have emid : -b.dxi * k - b.dxi / 2 = -((k + 1 / 2) * b.dxi) := by ring
  unfold genLayer
  simp only [Option.bind_eq_bind, Option.pure_def, emid]
  cases hseg : getSegment b.segs 0 (-((k + 1 / 2) * b.dxi)) with
  | none => simp
  | some v =>
    obtain ⟨p, st⟩ := v
    simp only [Option.bind_some, sub_neg_eq_add, Option.some.injEq, Prod.mk.injEq]
    constructor
    · intro h
      refine ⟨p, st, ⟨rfl, rfl⟩, ?_⟩
      cases htr : tv p g (uniform g s (-b.dxi * ↑k - b.dxi) (-b.dxi * ↑k) (layerCount b k)).2 (st + (k + 1 / 2) * b.dxi) b.rMax (layerCount b k) with
      | none => simp only [htr, Option.bind_none, Option.isSome_none] at h; cases h
      | some tr =>
        simp only [htr, Option.bind_some] at h
        refine ⟨(htv _ _ _ _ _).mp (by rw [htr]; rfl), ?_⟩
        cases hpz : p.pz g tr.2 (st + (k + 1 / 2) * b.dxi) (layerCount b k) with
        | none => simp only [hpz, Option.bind_none, Option.isSome_none] at h; cases h
        | some pz => exact (pz_isSome g p _ _ _).mp (by rw [hpz]; rfl)
    · rintro ⟨p', st', ⟨rfl, rfl⟩, h1, h2⟩
      obtain ⟨tr, htr⟩ := Option.isSome_iff_exists.mp ((htv p (uniform g s (-b.dxi * ↑k - b.dxi) (-b.dxi * ↑k) (layerCount b k)).2 (st + (k + 1 / 2) * b.dxi) b.rMax (layerCount b k)).mpr h1)
      obtain ⟨pz, hpz⟩ := Option.isSome_iff_exists.mp ((pz_isSome g p tr.2 (st + (k + 1 / 2) * b.dxi) (layerCount b k)).mpr h2)
      simp only [htr, hpz, Option.bind_some, Option.isSome_some]

theorem genLoop_isSome (tv : Segment → Rng S → S → ℝ → ℝ → ℕ → Option (List T × S)) (b : Shape) (g : Rng S) (Q : ℕ → Prop) (hQ : ∀ s k, (genLayer tv b g s k).isSome ↔ Q k) (n : ℕ) (s : S) (k : ℕ) :
    (genLoop tv b g s k n).isSome ↔ ∀ i < n, Q (k + i) := by
  induction n generalizing s k with
  | zero => simp [genLoop]
  | succ n ih =>
    simp only [genLoop, Option.bind_eq_bind, Option.pure_def]
    cases hl : genLayer tv b g s k with
    | none =>
      have : ¬ Q k := fun hq => by have := (hQ s k).mpr hq; rw [hl] at this; cases this
      simp only [Option.bind_none, Option.isSome_none, Bool.false_eq_true, false_iff]
      intro hall
      exact this (by simpa using hall 0 (by omega))
    | some l =>
      have hqk : Q k := (hQ s k).mp (by rw [hl]; rfl)
      have := ih l.2 (k + 1)
      cases hr : genLoop tv b g l.2 (k + 1) n with
      | none =>
        rw [hr] at this
        simp only [Option.bind_some, hr, Option.bind_none, Option.isSome_none, Bool.false_eq_true, false_iff] at this ⊢
        intro hall
        exact this fun i hi => by have := hall (i + 1) (by omega); rwa [show k + (i + 1) = k + 1 + i by omega] at this
      | some rest =>
        rw [hr] at this
        simp only [Option.bind_some, hr, Option.isSome_some, true_iff] at this ⊢
        intro i hi
        cases i with
        | zero => exact hqk
        | succ i => have := this i (by omega); rwa [show k + 1 + i = k + (i + 1) by omega] at this

/-- C35: for segments with admissible spreads, the generator raises exactly when the middle of some layer falls on the joint of two consecutive segments. -/
theorem generator_raises_iff (tv : Segment → Rng S → S → ℝ → ℝ → ℕ → Option (List T × S)) (g : Rng S) (htv : ∀ p s d rMax n, (tv p g s d rMax n).isSome ↔ 0 ≤ p.sigma d) (b : Shape) (s : S) (argsort : List ℝ → List ℕ)
    (hd : 0 < b.dxi) (hpos : ∀ p ∈ b.segs, 0 < p.length) (hok : ∀ p ∈ b.segs, ∀ d, 0 ≤ d → d ≤ p.length → p.NoRaise d) :
    generateArray tv b g s argsort = none ↔ ∃ k j : ℕ, 0 < j ∧ j < b.segs.length ∧ (k + 1 / 2) * b.dxi = headOf b.segs j := by
  have h1 : generateArray tv b g s argsort = none ↔ ¬ (genLoop tv b g s 0 (layersNumber b)).isSome := by
    unfold generateArray
    simp only [Option.bind_eq_bind, Option.pure_def]
    cases genLoop tv b g s 0 (layersNumber b) <;> simp
  rw [h1, genLoop_isSome tv b g _ (genLayer_isSome tv g htv b)]
  simp only [Nat.zero_add]
  push Not
  have hseg : ∀ k : ℕ, k < layersNumber b → ((∀ p st, getSegment b.segs 0 (-((k + 1 / 2) * b.dxi)) = some (p, st) → ¬ p.NoRaise (st + (k + 1 / 2) * b.dxi)) ↔ ∃ j, 0 < j ∧ j < b.segs.length ∧ (k + 1 / 2) * b.dxi = headOf b.segs j) := by
    intro k hk
    rw [layersNumber_spec b hd] at hk
    rw [← segment_missing b.segs hpos _ (by positivity) hk]
    cases hs : getSegment b.segs 0 (-((k + 1 / 2) * b.dxi)) with
    | none => simp
    | some v =>
      obtain ⟨p, st⟩ := v
      obtain ⟨j, hj, hst, a1, a2⟩ := (segment_located b.segs hpos _ p st).mp hs
      have hlen : headOf b.segs (j + 1) = headOf b.segs j + p.length := by
        unfold headOf
        rw [List.take_add_one, hj]
        simp
      simp only [Option.some.injEq, Prod.mk.injEq, reduceCtorEq, iff_false, not_forall, not_not]
      exact ⟨p, st, ⟨rfl, rfl⟩, hok p (List.mem_of_getElem? hj) _ (by rw [hst]; linarith) (by rw [hst]; linarith)⟩
  constructor
  · rintro ⟨k, hk, h⟩
    obtain ⟨j, hj⟩ := (hseg k hk).mp h
    exact ⟨k, j, hj⟩
  · rintro ⟨k, j, hj0, hj1, hj⟩
    have hk : k < layersNumber b := by
      rw [layersNumber_spec b hd, hj, totalLength_eq]
      have hlt : headOf b.segs j + b.segs[j].length ≤ headOf b.segs b.segs.length := by
        have e : headOf b.segs b.segs.length = headOf b.segs j + ((b.segs.drop j).map Segment.length).sum := by
          unfold headOf
          rw [List.take_length, ← List.sum_append, ← List.map_append, List.take_append_drop]
        rw [e, List.drop_eq_getElem_cons hj1, List.map_cons, List.sum_cons]
        have : 0 ≤ ((b.segs.drop (j + 1)).map Segment.length).sum := List.sum_nonneg fun x hx => by
          obtain ⟨p, hp, rfl⟩ := List.mem_map.mp hx
          exact (hpos p (List.mem_of_mem_drop hp)).le
        linarith
      linarith [hpos _ (List.getElem_mem hj1)]
    exact ⟨k, hk, (hseg k hk).mpr ⟨j, hj0, hj1, hj⟩⟩

end Lcode.Gen
