import Verif.Plasma3D.Init
import Verif.Plasma2D.Init
import Mathlib.Analysis.SpecialFunctions.Exp

/-!
Model of lcode/plasma3d/profile.py, which shapes the plasma density of both geometries. Property C30.
The tables `plasma-zshape` and `plasma-rshape` are lists of lines whose numbers are already read (splitting the text and `float` are not modelled). Real arithmetic.
-/

namespace Lcode.Plasma3D

/-! ### Model -/

/-- One line `length density1 kind density2` of plasma-zshape, profile.py:93-101. -/
structure ZSeg where
  len : ℝ
  n1 : ℝ
  kind : String
  n2 : ℝ

/-- _get_zshape_coef, profile.py:87-109: the loop over the segments with `time_middle -= float(seg[0])`. -/
noncomputable def zCoef (t : ℝ) : List ZSeg → ℝ
  | [] => 1
  | s :: rest => if t < s.len then (if s.kind = "L" then (s.n1 * (s.len - t) + s.n2 * t) / s.len else 1) else zCoef (t - s.len) rest

/-- The names understood by _calculate_radial_coefficients, profile.py:9-43. -/
inductive Shape
  | uniform | stepwise | channel | parabolic | gaussian | unknown
deriving DecidableEq

/-- profile.py:9-43 and the set available_profiles, profile.py:51-52. -/
def Shape.ofName (s : String) : Shape :=
  if s = "1" ∨ s = "uniform" then .uniform
  else if s = "2" ∨ s = "stepwise" then .stepwise
  else if s = "3" ∨ s = "channel" then .channel
  else if s = "4" ∨ s = "parabolic-channel" then .parabolic
  else if s = "5" ∨ s = "gaussian" then .gaussian
  else .unknown

/-- `xp.min(r_init[mask])` with `mask = width < r < width2`; an empty selection raises ValueError (`none`), profile.py:15-17, 27-29. -/
noncomputable def rampStart (w w2 : ℝ) (rs : List ℝ) : Option ℝ :=
  match rs.filter fun r => decide (w < r ∧ r < w2) with
  | [] => none
  | a :: l => some (l.foldl min a)

/-- The coefficient of one particle, profile.py:7-45; `r0` is the start of the ramp (used by stepwise and channel only). -/
noncomputable def radialOne (p : Shape) (w w2 d2 r0 r : ℝ) : ℝ :=
  match p with
  | .uniform => 1
  | .stepwise =>
    let c := if w2 - w > 0 ∧ (w < r ∧ r < w2) then 1 - (r - r0) / (w2 - w) else 1
    if r > max w w2 then 0 else c
  | .channel =>
    let c := if r ≤ w then d2 else 1
    if w2 - w > 0 ∧ (w < r ∧ r < w2) then (d2 * (1 + (w2 - w) - r) + (r - r0)) / (w2 - w) else c
  | .parabolic =>
    let c := d2 * (1 + (r / w) ^ 2)
    if c > 1 then 1 else c
  | .gaussian =>
    let c := Real.exp (-r ^ 2 / 2 / w ^ 2)
    if r > 5 * w then 0 else c
  | .unknown => 1

/-- _calculate_radial_coefficients, profile.py:3-47; `none` is the ValueError of an empty minimum. -/
noncomputable def radialCoef (p : Shape) (w w2 d2 : ℝ) (rs : List ℝ) : Option (List ℝ) :=
  if (p = .stepwise ∨ p = .channel) ∧ w2 - w > 0 then (rampStart w w2 rs).map fun r0 => rs.map (radialOne p w w2 d2 r0)
  else some (rs.map (radialOne p w w2 d2 0))

/-- One line `length name width width2 density2` of a plasma-rshape table, profile.py:68-82. -/
structure RSeg where
  len : ℝ
  name : String
  w : ℝ
  w2 : ℝ
  d2 : ℝ

/-- The loop over the table, profile.py:71-85. -/
noncomputable def rTable (t : ℝ) (rs : List ℝ) : List RSeg → Option (List ℝ)
  | [] => some (rs.map fun _ => 1)
  | s :: rest => if t < s.len then radialCoef (Shape.ofName s.name) s.w s.w2 s.d2 rs else rTable (t - s.len) rs rest

/-- plasma-rshape: one of the names (with plasma-width, plasma-width-2, plasma-density-2), or a table. -/
inductive RShape
  | name (s : String) (w w2 d2 : ℝ)
  | table (segs : List RSeg)

/-- _get_rshape_coef, profile.py:50-85; `r_init = sqrt(x**2 + y**2)`. A text that is not an available name is read as a table, so `name` carries available names only. -/
noncomputable def rCoef (sh : RShape) (t : ℝ) (xy : List (ℝ × ℝ)) : Option (List ℝ) :=
  let rs := xy.map fun a => Real.sqrt (a.1 ^ 2 + a.2 ^ 2)
  match sh with
  | .name s w w2 d2 => radialCoef (Shape.ofName s) w w2 d2 rs
  | .table segs => rTable t rs segs

/-- plasma-shape: a function of time and positions, or `legacy`. -/
inductive PShape
  | user (f : ℝ → List (ℝ × ℝ) → List ℝ)
  | legacy (z : List ZSeg) (r : RShape)

/-- The coefficients of profile_initial_plasma, profile.py:117-134. -/
noncomputable def profileCoef (sh : PShape) (dt now : ℝ) (xy : List (ℝ × ℝ)) : Option (List ℝ) :=
  let coef : Option (List ℝ) := match sh with
    | .user f => some (f now xy)
    | .legacy z r => (rCoef r (now - dt / 2) xy).map fun l => l.map fun c => zCoef (now - dt / 2) z * c
  coef.map fun l => if l.any (fun c => decide (c < 0)) then xy.map fun _ => 1 else l

/-- profile_initial_plasma, profile.py:111-145: `q * coef, m * coef`. -/
noncomputable def profilePlasma (sh : PShape) (dt now : ℝ) (xy : List (ℝ × ℝ)) (q m : List ℝ) : Option (List ℝ × List ℝ) :=
  (profileCoef sh dt now xy).map fun l => (List.zipWith (· * ·) q l, List.zipWith (· * ·) m l)

/-! ### Specification -/

/-- Where segment `k` of a table begins. -/
noncomputable def startOf (segs : List ZSeg) (k : ℕ) : ℝ := ((segs.take k).map ZSeg.len).sum

/-- Straight line through (a, u) and (b, v). -/
noncomputable def lerp (a u b v x : ℝ) : ℝ := u + (v - u) * (x - a) / (b - a)

/-! ### C30: the longitudinal table -/

theorem zCoef_nil (t : ℝ) : zCoef t [] = 1 := rfl

/-- C30: inside segment `k` the density is the straight line from the first to the second density of that segment. -/
theorem zCoef_segment (segs : List ZSeg) (hpos : ∀ s ∈ segs, 0 < s.len) (k : ℕ) (hk : k < segs.length) (hL : segs[k].kind = "L") (t : ℝ)
    (h1 : startOf segs k ≤ t) (h2 : t < startOf segs k + segs[k].len) :
    zCoef t segs = lerp (startOf segs k) segs[k].n1 (startOf segs k + segs[k].len) segs[k].n2 t := by
  induction segs generalizing k t with
  | nil => simp at hk
  | cons s rest ih =>
    have hs := hpos s (by simp)
    cases k with
    | zero =>
      simp only [startOf, List.take_zero, List.map_nil, List.sum_nil, List.getElem_cons_zero, zero_add] at h1 h2 hL ⊢
      rw [zCoef, if_pos h2, if_pos hL]
      unfold lerp
      have hne : s.len ≠ 0 := hs.ne'
      rw [sub_zero, sub_zero]
      field_simp
      ring
    | succ k =>
      have e : startOf (s :: rest) (k + 1) = s.len + startOf rest k := by simp [startOf]
      have h0 : 0 ≤ startOf rest k := by
        unfold startOf
        apply List.sum_nonneg
        intro a ha
        obtain ⟨b, hb, rfl⟩ := List.mem_map.mp ha
        exact (hpos b (List.mem_cons_of_mem _ (List.mem_of_mem_take hb))).le
      simp only [List.getElem_cons_succ] at h2 hL ⊢
      rw [e] at h1 h2 ⊢
      rw [zCoef, if_neg (by linarith)]
      rw [ih (fun b hb => hpos b (List.mem_cons_of_mem _ hb)) k (by simpa using hk) hL (t - s.len) (by linarith) (by linarith)]
      unfold lerp
      ring

/-- C30: past the end of the table, and in a segment of an unknown kind, the density is one. -/
theorem zCoef_outside (segs : List ZSeg) (hpos : ∀ s ∈ segs, 0 < s.len) (t : ℝ) :
    (startOf segs segs.length ≤ t → zCoef t segs = 1) ∧
    (∀ (k : ℕ) (hk : k < segs.length), segs[k].kind ≠ "L" → startOf segs k ≤ t → t < startOf segs k + segs[k].len → zCoef t segs = 1) := by
  induction segs generalizing t with
  | nil => exact ⟨fun _ => rfl, fun k hk => by simp at hk⟩
  | cons s rest ih =>
    have ih' := ih (fun b hb => hpos b (List.mem_cons_of_mem _ hb)) (t - s.len)
    have nn : ∀ k, 0 ≤ startOf rest k := by
      intro k
      unfold startOf
      apply List.sum_nonneg
      intro a ha
      obtain ⟨b, hb, rfl⟩ := List.mem_map.mp ha
      exact (hpos b (List.mem_cons_of_mem _ (List.mem_of_mem_take hb))).le
    have e : ∀ k, startOf (s :: rest) (k + 1) = s.len + startOf rest k := by intro k; simp [startOf]
    constructor
    · intro h
      rw [List.length_cons, e] at h
      rw [zCoef, if_neg (by linarith [nn rest.length])]
      exact ih'.1 (by linarith)
    · intro k hk hL h1 h2
      cases k with
      | zero =>
        simp only [startOf, List.take_zero, List.map_nil, List.sum_nil, List.getElem_cons_zero, zero_add] at h1 h2 hL
        rw [zCoef, if_pos h2, if_neg hL]
      | succ k =>
        simp only [List.getElem_cons_succ] at h2 hL
        rw [e] at h1 h2
        rw [zCoef, if_neg (by linarith [nn k])]
        exact ih'.2 k (by simpa using hk) hL (by linarith) (by linarith)

/-- C30: with non-negative densities in the table the multiplier is not negative, and it never leaves the range of the tabulated densities and one. -/
theorem zCoef_range (segs : List ZSeg) (a b : ℝ) (hb : ∀ s ∈ segs, 0 < s.len ∧ a ≤ s.n1 ∧ a ≤ s.n2 ∧ s.n1 ≤ b ∧ s.n2 ≤ b) (ha1 : a ≤ 1) (hb1 : 1 ≤ b) (t : ℝ) (ht : 0 ≤ t) :
    a ≤ zCoef t segs ∧ zCoef t segs ≤ b := by
  induction segs generalizing t with
  | nil => exact ⟨ha1, hb1⟩
  | cons s rest ih =>
    obtain ⟨h0, h1, h2, h3, h4⟩ := hb s (by simp)
    rw [zCoef]
    split
    · rename_i hlt
      split
      · rw [le_div_iff₀ h0, div_le_iff₀ h0]
        constructor <;> nlinarith
      · exact ⟨ha1, hb1⟩
    · exact ih (fun s hs => hb s (List.mem_cons_of_mem _ hs)) (t - s.len) (by linarith)

/-- C30: a table whose neighbouring segments agree is continuous at the joint: from the left the value tends to the second density of the segment, which is the value right of the joint. -/
theorem zCoef_joint (segs : List ZSeg) (hpos : ∀ s ∈ segs, 0 < s.len) (k : ℕ) (hk : k + 1 < segs.length) (hL : segs[k].kind = "L") (hL' : segs[k + 1].kind = "L")
    (hj : segs[k].n2 = segs[k + 1].n1) :
    zCoef (startOf segs (k + 1)) segs = segs[k].n2 ∧
    ∀ t, startOf segs k ≤ t → t < startOf segs (k + 1) → |zCoef t segs - segs[k].n2| = |segs[k].n2 - segs[k].n1| * (startOf segs (k + 1) - t) / segs[k].len := by
  have hp := hpos segs[k] (List.getElem_mem _)
  have e : startOf segs (k + 1) = startOf segs k + segs[k].len := by
    unfold startOf
    rw [List.take_succ, List.getElem?_eq_getElem (by omega), List.map_append, List.sum_append]
    simp
  have hne := hp.ne'
  constructor
  · have hp' := hpos segs[k + 1] (List.getElem_mem _)
    rw [zCoef_segment segs hpos (k + 1) hk hL' _ le_rfl (by linarith)]
    unfold lerp
    simp [hj]
  · intro t h1 h2
    rw [zCoef_segment segs hpos k (by omega) hL t h1 (by linarith)]
    unfold lerp
    rw [e]
    generalize startOf segs k = S at *
    rw [add_sub_cancel_left]
    rw [show segs[k].n1 + (segs[k].n2 - segs[k].n1) * (t - S) / segs[k].len - segs[k].n2
        = -((segs[k].n2 - segs[k].n1) * ((S + segs[k].len - t) / segs[k].len)) by field_simp; ring]
    rw [abs_neg, abs_mul, abs_of_nonneg (div_nonneg (by linarith) hp.le)]
    ring

example : zCoef 3 [⟨2, 0, "L", 1⟩, ⟨4, 1, "L", 3⟩] = 3 / 2 := by
  norm_num [zCoef]

/-! ### C30: the transverse profiles -/

theorem foldl_min_le (l : List ℝ) (a : ℝ) : l.foldl min a ≤ a ∧ (∀ x ∈ l, l.foldl min a ≤ x) ∧ (l.foldl min a = a ∨ l.foldl min a ∈ l) := by
  induction l generalizing a with
  | nil => simp
  | cons b l ih =>
    obtain ⟨h1, h2, h3⟩ := ih (min a b)
    simp only [List.foldl_cons]
    refine ⟨h1.trans (min_le_left _ _), ?_, ?_⟩
    · intro x hx
      rcases List.mem_cons.mp hx with rfl | hx
      · exact h1.trans (min_le_right _ _)
      · exact h2 x hx
    · rcases h3 with h3 | h3
      · rcases min_choice a b with h | h
        · left; rw [h3, h]
        · right; rw [h3, h]; simp
      · right; exact List.mem_cons_of_mem _ h3

/-- The ramp starts at the innermost particle between the two radii; it is an error if there is none. -/
theorem rampStart_spec (w w2 : ℝ) (rs : List ℝ) :
    (rampStart w w2 rs = none ↔ ∀ r ∈ rs, ¬(w < r ∧ r < w2)) ∧
    (∀ r0, rampStart w w2 rs = some r0 → r0 ∈ rs ∧ (w < r0 ∧ r0 < w2) ∧ ∀ r ∈ rs, w < r ∧ r < w2 → r0 ≤ r) := by
  unfold rampStart
  cases h : rs.filter fun r => decide (w < r ∧ r < w2) with
  | nil =>
    refine ⟨⟨fun _ r hr hc => ?_, fun _ => rfl⟩, fun r0 h => by simp at h⟩
    have : r ∈ rs.filter fun r => decide (w < r ∧ r < w2) := List.mem_filter.mpr ⟨hr, by simpa using hc⟩
    rw [h] at this; simp at this
  | cons a l =>
    have mem : ∀ x, x ∈ a :: l ↔ x ∈ rs ∧ (w < x ∧ x < w2) := by
      intro x; rw [← h, List.mem_filter]; simp
    obtain ⟨h1, h2, h3⟩ := foldl_min_le l a
    refine ⟨⟨fun h => by simp at h, fun h => ?_⟩, ?_⟩
    · exact absurd ((mem a).mp (by simp)).2 (h a ((mem a).mp (by simp)).1)
    · intro r0 hr0
      simp only [Option.some.injEq] at hr0
      subst hr0
      have : l.foldl min a ∈ a :: l := by
        rcases h3 with h3 | h3
        · rw [h3]; simp
        · exact List.mem_cons_of_mem _ h3
      refine ⟨((mem _).mp this).1, ((mem _).mp this).2, fun r hr hc => ?_⟩
      rcases List.mem_cons.mp ((mem r).mpr ⟨hr, hc⟩) with rfl | hr
      · exact h1
      · exact h2 r hr

/-- C30: uniform, parabolic and Gaussian profiles. -/
theorem radial_simple (w w2 d2 : ℝ) (rs : List ℝ) :
    radialCoef .uniform w w2 d2 rs = some (rs.map fun _ => 1) ∧
    radialCoef .parabolic w w2 d2 rs = some (rs.map fun r => min 1 (d2 * (1 + (r / w) ^ 2))) ∧
    radialCoef .gaussian w w2 d2 rs = some (rs.map fun r => if r ≤ 5 * w then Real.exp (-(r / w) ^ 2 / 2) else 0) ∧
    radialCoef .unknown w w2 d2 rs = some (rs.map fun _ => 1) := by
  refine ⟨by simp only [radialCoef, reduceCtorEq, or_self, false_and, if_false]; rfl, ?_, ?_, by simp only [radialCoef, reduceCtorEq, or_self, false_and, if_false]; rfl⟩
  · simp only [radialCoef, reduceCtorEq, or_self, false_and, if_false, Option.some.injEq]
    apply List.map_congr_left
    intro r _
    simp only [radialOne]
    split
    · rw [min_eq_left (by linarith)]
    · rw [min_eq_right (by linarith)]
  · simp only [radialCoef, reduceCtorEq, or_self, false_and, if_false, Option.some.injEq]
    apply List.map_congr_left
    intro r _
    simp only [radialOne]
    by_cases h : r ≤ 5 * w
    · rw [if_neg (by linarith), if_pos h]; congr 1; rw [div_pow]; ring
    · rw [if_pos (by linarith), if_neg h]

/-- C30: a sharp step (no second width, or one not beyond the first). -/
theorem radial_sharp (w w2 d2 : ℝ) (h : w2 ≤ w) (rs : List ℝ) :
    radialCoef .stepwise w w2 d2 rs = some (rs.map fun r => if r ≤ w then 1 else 0) ∧
    radialCoef .channel w w2 d2 rs = some (rs.map fun r => if r ≤ w then d2 else 1) := by
  have hn : ¬(w2 - w > 0) := by linarith
  refine ⟨?_, ?_⟩
  · simp only [radialCoef, hn, and_false, if_false, Option.some.injEq]
    apply List.map_congr_left
    intro r _
    simp only [radialOne, hn, false_and, if_false, max_eq_left h]
    by_cases hr : r ≤ w
    · rw [if_neg (by linarith), if_pos hr]
    · rw [if_pos (by linarith), if_neg hr]
  · simp only [radialCoef, hn, and_false, if_false, Option.some.injEq]
    apply List.map_congr_left
    intro r _
    simp only [radialOne, hn, false_and, if_false]

/-- C30: a step with a ramp. Inside the first width the density is one, beyond the second it is zero, and between them it falls linearly with the slope 1/(w2 - w) from one at the innermost particle of the ramp. -/
theorem radial_ramp (w w2 d2 : ℝ) (h : w < w2) (rs : List ℝ) :
    ((∀ r ∈ rs, ¬(w < r ∧ r < w2)) → radialCoef .stepwise w w2 d2 rs = none) ∧
    (∀ r0 ∈ rs, (w < r0 ∧ r0 < w2) → (∀ r ∈ rs, w < r ∧ r < w2 → r0 ≤ r) →
      ∃ g : ℝ → ℝ, radialCoef .stepwise w w2 d2 rs = some (rs.map g) ∧ (∀ r, r ≤ w → g r = 1) ∧ (∀ r, w2 < r → g r = 0) ∧
        (∀ r, w < r → r < w2 → g r = 1 - (r - r0) / (w2 - w)) ∧ ∀ r ∈ rs, 0 ≤ g r ∧ g r ≤ 1) := by
  have hp : w2 - w > 0 := by linarith
  obtain ⟨hn, hs⟩ := rampStart_spec w w2 rs
  constructor
  · intro hr
    simp only [radialCoef, true_or, hp, and_self, if_true, hn.mpr hr, Option.map_none]
  · intro r0 hm hr0 hmin
    cases hc : rampStart w w2 rs with
    | none => exact absurd hr0 (hn.mp hc r0 hm)
    | some a =>
      obtain ⟨ha1, ha2, ha3⟩ := hs a hc
      have ea : a = r0 := le_antisymm (ha3 r0 hm hr0) (hmin a ha1 ha2)
      subst ea
      refine ⟨radialOne .stepwise w w2 d2 a, ?_, ?_, ?_, ?_, ?_⟩
      · simp only [radialCoef, true_or, hp, and_self, if_true, hc, Option.map_some]
      · intro r hr
        simp only [radialOne]
        rw [if_neg (by rw [max_eq_right h.le]; linarith), if_neg (by rintro ⟨-, h2, -⟩; linarith)]
      · intro r hr
        simp only [radialOne]
        rw [if_pos (by rw [max_eq_right h.le]; linarith)]
      · intro r h1 h2
        simp only [radialOne]
        rw [if_neg (by rw [max_eq_right h.le]; linarith), if_pos ⟨hp, h1, h2⟩]
      · intro r hr
        simp only [radialOne]
        split
        · exact ⟨le_rfl, by norm_num⟩
        · split
          · rename_i h2
            have h3 := ha3 r hr h2.2
            have : 0 ≤ (r - a) / (w2 - w) := div_nonneg (by linarith) hp.le
            have : (r - a) / (w2 - w) ≤ 1 := by rw [div_le_one hp]; linarith [h2.2.2]
            constructor <;> linarith
          · norm_num

/-- C30, finding: a particle exactly at the second width of a ramp keeps the full density, whereas the density next to it is almost zero. -/
theorem ramp_edge_spike (w w2 d2 r0 : ℝ) (h : w < w2) : radialOne .stepwise w w2 d2 r0 w2 = 1 := by
  simp only [radialOne]
  rw [if_neg (by rw [max_eq_right h.le]; linarith), if_neg (by rintro ⟨-, -, h3⟩; linarith)]

/-- C30, refuted for the channel with a ramp: the value between the widths is the straight line from `d2` at the innermost particle of the ramp with the slope (1 - d2)/(w2 - w), plus the offset `d2 (1 - r0)/(w2 - w)`; it is right only if the ramp happens to start at radius one (or d2 is zero). -/
theorem channel_ramp (w w2 d2 : ℝ) (h : w < w2) (r0 : ℝ) (r : ℝ) (h1 : w < r) (h2 : r < w2) :
    radialOne .channel w w2 d2 r0 r = lerp r0 d2 (r0 + (w2 - w)) 1 r + d2 * (1 - r0) / (w2 - w) := by
  have hp : w2 - w > 0 := by linarith
  simp only [radialOne, lerp]
  rw [if_pos ⟨hp, h1, h2⟩, add_sub_cancel_left]
  field_simp
  ring

/-- C30, refuted for the channel with a ramp, a case: widths 3 and 4, density 1/2 in the channel. The density at the inner end of the ramp is negative, so the whole plasma is made uniform. -/
theorem channel_ramp_uniform :
    profileCoef (.legacy [] (.name "channel" 3 4 (1 / 2))) 1 1 [(1, 0), (13 / 4, 0), (5, 0)] = some [1, 1, 1] := by
  have s1 : Real.sqrt (1 ^ 2 + 0 ^ 2) = 1 := by norm_num
  have s2 : Real.sqrt ((13 / 4) ^ 2 + 0 ^ 2) = 13 / 4 := by rw [show ((13 : ℝ) / 4) ^ 2 + 0 ^ 2 = (13 / 4) ^ 2 by ring]; exact Real.sqrt_sq (by norm_num)
  have s3 : Real.sqrt (5 ^ 2 + 0 ^ 2) = 5 := by rw [show (5 : ℝ) ^ 2 + 0 ^ 2 = 5 ^ 2 by ring]; exact Real.sqrt_sq (by norm_num)
  have hs : Shape.ofName "channel" = .channel := by decide
  simp only [profileCoef, rCoef, List.map_cons, List.map_nil, s1, s2, s3, hs]
  have hr : rampStart 3 4 [1, 13 / 4, 5] = some (13 / 4) := by
    unfold rampStart
    norm_num [List.filter_cons]
  simp only [radialCoef, hr]
  norm_num [radialOne, zCoef]

/-! ### C30: the whole profile -/

/-- The selected line of a transverse table: the first whose end is after `t`. -/
theorem rTable_segment (segs : List RSeg) (hpos : ∀ s ∈ segs, 0 < s.len) (rs : List ℝ) (t : ℝ) :
    (((segs.map RSeg.len).sum ≤ t → rTable t rs segs = some (rs.map fun _ => 1)) ∧
    (∀ (k : ℕ) (hk : k < segs.length), ((segs.take k).map RSeg.len).sum ≤ t → t < ((segs.take k).map RSeg.len).sum + segs[k].len →
      rTable t rs segs = radialCoef (Shape.ofName segs[k].name) segs[k].w segs[k].w2 segs[k].d2 rs)) := by
  induction segs generalizing t with
  | nil => exact ⟨fun _ => rfl, fun k hk => by simp at hk⟩
  | cons s rest ih =>
    have ih' := ih (fun b hb => hpos b (List.mem_cons_of_mem _ hb)) (t - s.len)
    have nn : ∀ l : List RSeg, (∀ b ∈ l, b ∈ rest) → 0 ≤ (l.map RSeg.len).sum := by
      intro l hl
      apply List.sum_nonneg
      intro a ha
      obtain ⟨b, hb, rfl⟩ := List.mem_map.mp ha
      exact (hpos b (List.mem_cons_of_mem _ (hl b hb))).le
    constructor
    · intro h
      rw [List.map_cons, List.sum_cons] at h
      rw [rTable, if_neg (by linarith [nn rest fun b hb => hb])]
      exact ih'.1 (by linarith)
    · intro k hk h1 h2
      cases k with
      | zero =>
        simp only [List.take_zero, List.map_nil, List.sum_nil, zero_add, List.getElem_cons_zero] at h1 h2 ⊢
        rw [rTable, if_pos h2]
      | succ k =>
        simp only [List.take_succ_cons, List.map_cons, List.sum_cons, List.getElem_cons_succ] at h1 h2 ⊢
        rw [rTable, if_neg (by linarith [nn (rest.take k) fun b hb => List.mem_of_mem_take hb])]
        exact ih'.2 k (by simpa using hk) (by linarith) (by linarith)

/-- Whatever the profile, the transverse coefficient is a function of the radius alone. -/
theorem rCoef_radial (sh : RShape) (t : ℝ) (xy : List (ℝ × ℝ)) (l : List ℝ) (h : rCoef sh t xy = some l) :
    ∃ g : ℝ → ℝ, l = xy.map fun a => g (Real.sqrt (a.1 ^ 2 + a.2 ^ 2)) := by
  have rad : ∀ p w w2 d2 (rs l : List ℝ), radialCoef p w w2 d2 rs = some l → ∃ g : ℝ → ℝ, l = rs.map g := by
    intro p w w2 d2 rs l h
    unfold radialCoef at h
    split at h
    · cases hc : rampStart w w2 rs with
      | none => rw [hc] at h; simp at h
      | some r0 => rw [hc] at h; simp only [Option.map_some, Option.some.injEq] at h; exact ⟨_, h.symm⟩
    · simp only [Option.some.injEq] at h; exact ⟨_, h.symm⟩
  have key : ∃ g : ℝ → ℝ, l = (xy.map fun a => Real.sqrt (a.1 ^ 2 + a.2 ^ 2)).map g := by
    unfold rCoef at h
    simp only at h
    cases sh with
    | name s w w2 d2 => exact rad _ _ _ _ _ _ h
    | table segs =>
      simp only at h
      induction segs generalizing t with
      | nil => simp only [rTable, Option.some.injEq] at h; exact ⟨_, h.symm⟩
      | cons s rest ih =>
        rw [rTable] at h
        split at h
        · exact rad _ _ _ _ _ _ h
        · exact ih _ h
  obtain ⟨g, hg⟩ := key
  exact ⟨g, by rw [hg, List.map_map]; rfl⟩

/-- C30: the densities handed to the plasma are never negative; they are the product of the longitudinal table at the middle of the time step and of the transverse profile there, unless that product is negative for some particle, in which case the plasma is uniform. The step number `n` ends at time `(n + 1) dt`. -/
theorem profile_spec (z : List ZSeg) (sh : RShape) (dt : ℝ) (n : ℕ) (xy : List (ℝ × ℝ)) (l : List ℝ) (h : profileCoef (.legacy z sh) dt (dt * (n + 1)) xy = some l) :
    ∃ g : ℝ → ℝ, (rCoef sh ((n + 1 / 2) * dt) xy = some (xy.map fun a => g (Real.sqrt (a.1 ^ 2 + a.2 ^ 2)))) ∧
      l.length = xy.length ∧ (∀ c ∈ l, 0 ≤ c) ∧
      ((∀ a ∈ xy, 0 ≤ zCoef ((n + 1 / 2) * dt) z * g (Real.sqrt (a.1 ^ 2 + a.2 ^ 2))) → l = xy.map fun a => zCoef ((n + 1 / 2) * dt) z * g (Real.sqrt (a.1 ^ 2 + a.2 ^ 2))) ∧
      ((∃ a ∈ xy, zCoef ((n + 1 / 2) * dt) z * g (Real.sqrt (a.1 ^ 2 + a.2 ^ 2)) < 0) → l = xy.map fun _ => 1) := by
  have et : dt * (n + 1) - dt / 2 = (n + 1 / 2) * dt := by ring
  unfold profileCoef at h
  simp only [et] at h
  cases hr : rCoef sh ((n + 1 / 2) * dt) xy with
  | none => rw [hr] at h; simp at h
  | some c =>
    obtain ⟨g, rfl⟩ := rCoef_radial sh _ xy c hr
    rw [hr] at h
    simp only [Option.map_some, Option.some.injEq, List.map_map, List.any_map, List.any_eq_true] at h
    refine ⟨g, rfl, ?_⟩
    split at h
    · rename_i hex
      obtain ⟨v, hv, hneg⟩ := hex
      obtain ⟨a, ha, rfl⟩ := List.mem_map.mp hv
      simp only [Function.comp_apply, decide_eq_true_eq] at hneg
      subst h
      refine ⟨by simp, ?_, fun hall => absurd (hall a ha) (by linarith), fun _ => rfl⟩
      intro c hc
      obtain ⟨b, _, rfl⟩ := List.mem_map.mp hc
      norm_num
    · rename_i hex
      subst h
      have hall : ∀ a ∈ xy, 0 ≤ zCoef ((n + 1 / 2) * dt) z * g (Real.sqrt (a.1 ^ 2 + a.2 ^ 2)) := by
        intro a ha
        by_contra hneg
        exact hex ⟨_, List.mem_map.mpr ⟨a, ha, rfl⟩, by simpa using not_le.mp hneg⟩
      refine ⟨by simp, ?_, fun _ => rfl, fun ⟨a, ha, hneg⟩ => absurd (hall a ha) (by linarith)⟩
      intro c hc
      obtain ⟨b, hb, rfl⟩ := List.mem_map.mp hc
      exact hall b hb

/-- C30, finding: a user function is evaluated at the end of the time step, half a step later than the tables; its values are used as they are unless one is negative. -/
theorem profile_user (f : ℝ → List (ℝ × ℝ) → List ℝ) (dt now : ℝ) (xy : List (ℝ × ℝ)) :
    ((∀ c ∈ f now xy, 0 ≤ c) → profileCoef (.user f) dt now xy = some (f now xy)) ∧
    ((∃ c ∈ f now xy, c < 0) → profileCoef (.user f) dt now xy = some (xy.map fun _ => 1)) := by
  simp only [profileCoef, Option.map_some, Option.some.injEq]
  constructor
  · intro h
    rw [if_neg]
    simp only [List.any_eq_true, decide_eq_true_eq, not_exists, not_and, not_lt]
    exact h
  · intro h
    rw [if_pos]
    simpa [List.any_eq_true] using h

/-- C30: whatever the profile, no density is negative. -/
theorem profile_nonneg (sh : PShape) (dt now : ℝ) (xy : List (ℝ × ℝ)) (l : List ℝ) (h : profileCoef sh dt now xy = some l) : ∀ c ∈ l, 0 ≤ c := by
  unfold profileCoef at h
  simp only [Option.map_eq_some_iff] at h
  obtain ⟨c, -, rfl⟩ := h
  split
  · intro x hx
    obtain ⟨b, _, rfl⟩ := List.mem_map.mp hx
    norm_num
  · rename_i hn
    simpa [List.any_eq_true] using hn

/-- C30: charge and mass get the same factor, which is not negative: the charge-to-mass ratio and the sign of the charge are kept. -/
theorem profile_ratio (sh : PShape) (dt now : ℝ) (xy : List (ℝ × ℝ)) (q m q' m' : List ℝ) (h : profilePlasma sh dt now xy q m = some (q', m')) (k : ℕ)
    (h1 : k < q.length) (h2 : k < m.length) (h3 : k < q'.length) (h4 : k < m'.length) :
    ∃ c, 0 ≤ c ∧ q'[k] = q[k] * c ∧ m'[k] = m[k] * c := by
  unfold profilePlasma at h
  cases hc : profileCoef sh dt now xy with
  | none => rw [hc] at h; simp at h
  | some l =>
    rw [hc] at h
    simp only [Option.map_some, Option.some.injEq, Prod.mk.injEq] at h
    obtain ⟨rfl, rfl⟩ := h
    have hl : k < l.length := by simp only [List.length_zipWith] at h3; omega
    exact ⟨l[k], profile_nonneg sh dt now xy l hc _ (List.getElem_mem _), by simp [List.getElem_zipWith], by simp [List.getElem_zipWith]⟩

/-- Every successful table profile is given by one function of the radius that is not negative on the particles. -/
theorem profile_function (z : List ZSeg) (sh : RShape) (dt now : ℝ) (xy : List (ℝ × ℝ)) (l : List ℝ) (h : profileCoef (.legacy z sh) dt now xy = some l) :
    ∃ g : ℝ → ℝ, l = xy.map (fun a => g (Real.sqrt (a.1 ^ 2 + a.2 ^ 2))) ∧ ∀ a ∈ xy, 0 ≤ g (Real.sqrt (a.1 ^ 2 + a.2 ^ 2)) := by
  have nn := profile_nonneg _ _ _ _ _ h
  have : ∃ g : ℝ → ℝ, l = xy.map (fun a => g (Real.sqrt (a.1 ^ 2 + a.2 ^ 2))) := by
    unfold profileCoef at h
    simp only [Option.map_eq_some_iff] at h
    obtain ⟨c, ⟨c0, hc0, rfl⟩, rfl⟩ := h
    obtain ⟨g, rfl⟩ := rCoef_radial sh _ xy c0 hc0
    split
    · exact ⟨fun _ => 1, rfl⟩
    · exact ⟨fun r => zCoef (now - dt / 2) z * g r, by rw [List.map_map]; rfl⟩
  obtain ⟨g, rfl⟩ := this
  exact ⟨g, rfl, fun a ha => nn _ (List.mem_map.mpr ⟨a, ha, rfl⟩)⟩

/-- C30: the profiled 3D plasma is the plasma of C27 with a radial, non-negative density function; so the neutrality of C27 and C43 covers every profile. -/
theorem profiled_single (z : List ZSeg) (sh : RShape) (dt now : ℝ) (steps : ℤ) (h f : ℝ) (base : List Ptl) (hb : base = makePlasmaSingle steps h f fun _ _ => 1) (q m : List ℝ)
    (hq : profilePlasma (.legacy z sh) dt now (base.map fun p => (p.x0, p.y0)) (base.map Ptl.q) (base.map Ptl.m) = some (q, m)) :
    ∃ g : ℝ → ℝ, q = (makePlasmaSingle steps h f fun x y => g (Real.sqrt (x ^ 2 + y ^ 2))).map Ptl.q ∧ m = (makePlasmaSingle steps h f fun x y => g (Real.sqrt (x ^ 2 + y ^ 2))).map Ptl.m ∧
      ∀ p ∈ base, 0 ≤ g (Real.sqrt (p.x0 ^ 2 + p.y0 ^ 2)) := by
  unfold profilePlasma at hq
  simp only [Option.map_eq_some_iff, Prod.mk.injEq] at hq
  obtain ⟨l, hl, rfl, rfl⟩ := hq
  obtain ⟨g, rfl, hg⟩ := profile_function z sh dt now _ l hl
  have e : ∀ coef : ℝ → ℝ → ℝ, makePlasmaSingle steps h f coef = base.map fun p => { p with q := p.q * coef p.x0 p.y0, m := p.m * coef p.x0 p.y0 } := by
    intro coef
    rw [hb]
    unfold makePlasmaSingle
    simp [List.map_flatMap, Function.comp_def]
  refine ⟨g, ?_, ?_, fun p hp => hg (p.x0, p.y0) (List.mem_map.mpr ⟨p, hp, rfl⟩)⟩
  · rw [e, List.map_map, List.map_map]
    rw [List.zipWith_map_left, List.zipWith_map_right, List.zipWith_self]
    rfl
  · rw [e, List.map_map, List.map_map]
    rw [List.zipWith_map_left, List.zipWith_map_right, List.zipWith_self]
    rfl

/-- C30: likewise in the cylindrical geometry, where the positions are (r, 0): charge and mass of the electrons are those of C22 with a non-negative density function. -/
theorem profiled_rings (z : List ZSeg) (sh : RShape) (dt now R h : ℝ) (ppc : ℕ) (hR : 0 ≤ R) (pos w q m : List ℝ) (hp : pos = Plasma2D.placeParticles R h ppc) (hw : w = Plasma2D.weightParticles pos)
    (hq : profilePlasma (.legacy z sh) dt now (pos.map fun r => (r, 0)) (w.map fun a => -a) w = some (q, m)) :
    ∃ g : ℝ → ℝ, (∀ age, Plasma2D.initElectrons R h ppc g age = ((pos.zip (q.zip m)).map fun t => Plasma2D.PPart.mk t.1 0 0 0 t.2.1 t.2.2 age).filter fun p => p.q ≠ 0) ∧ ∀ r ∈ pos, 0 ≤ g r := by
  unfold profilePlasma at hq
  simp only [Option.map_eq_some_iff, Prod.mk.injEq] at hq
  obtain ⟨l, hl, rfl, rfl⟩ := hq
  obtain ⟨g, rfl, hg⟩ := profile_function z sh dt now _ l hl
  have hpos : ∀ r ∈ pos, Real.sqrt (r ^ 2 + 0 ^ 2) = r := by
    intro r hr
    rw [hp] at hr
    unfold Plasma2D.placeParticles at hr
    simp only [List.mem_map] at hr
    obtain ⟨k, _, rfl⟩ := hr
    rw [show (0 : ℝ) ^ 2 = 0 by norm_num, add_zero]
    exact Real.sqrt_sq (by positivity)
  refine ⟨g, ?_, ?_⟩
  · intro age
    unfold Plasma2D.initElectrons
    simp only
    rw [← hp, ← hw]
    congr 1
    have lw : w.length = pos.length := by rw [hw]; simp [Plasma2D.weightParticles]
    apply List.ext_getElem
    · simp [lw]
    · intro k h1 h2
      have hk : k < pos.length := by simp at h1; omega
      simp [hpos pos[k] (List.getElem_mem _)]
      have := hpos pos[k] (List.getElem_mem _)
      simp at this
      rw [this]; simp
  · intro r hr
    have := hg (r, 0) (List.mem_map.mpr ⟨r, hr, rfl⟩)
    rwa [hpos r hr] at this

end Lcode.Plasma3D
