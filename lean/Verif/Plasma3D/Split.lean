import Verif.Plasma3D.Symmetric
import Verif.Split

/-!
Property C52: macroparticles. Only the ratio of charge to mass and the total charge matter: a macroparticle may be replaced by several lighter ones at the same place with the same velocity,
in any storage order, without any change of fields and currents. This file: the 3D plasma.
-/

namespace Lcode
namespace Plasma3D

/-- The part `a` of a macroparticle: the same place, the fraction `a` of its charge, mass and momentum (so the same velocity). -/
def Ptl.part (a : ℝ) (p : Ptl) : Ptl := { p with px := a * p.px, py := a * p.py, pz := a * p.pz, q := a * p.q, m := a * p.m }

/-- The same plasma with every macroparticle split into parts, in any order. -/
structure SplitWorld (w w' : W3) : Prop where
  el : IsSplit Ptl.part w.el w'.el
  ions : Option.Rel (IsSplit Ptl.part) w.ions w'.ions
  F : w'.F = w.F
  cur : w'.cur = w.cur

/-! ### One particle -/

def Vec3.scale (a : ℝ) (v : Vec3) : Vec3 := ⟨a * v.x, a * v.y, a * v.z⟩

theorem kick3_scale (a : ℝ) (ha : 0 < a) (q m dxi : ℝ) (E B p : Vec3) : kick3 (a * q) (a * m) dxi E B (p.scale a) = (kick3 q m dxi E B p).scale a := by
  unfold kick3 Vec3.scale
  simp only [sqrt_scale a ha, div_scale a ha, Vec3.mk.injEq]
  refine ⟨?_, ?_, ?_⟩ <;> ring

theorem addHalf_scale (a : ℝ) (p d : Vec3) : addHalf (p.scale a) (d.scale a) = (addHalf p d).scale a := by
  unfold addHalf Vec3.scale
  simp only [Vec3.mk.injEq]
  refine ⟨?_, ?_, ?_⟩ <;> ring

def Corr.scale (a : ℝ) (c : Corr) : Corr := { c with p := c.p.scale a }

theorem zero_scale (a : ℝ) : Vec3.scale a ⟨0, 0, 0⟩ = ⟨0, 0, 0⟩ := by simp [Vec3.scale]

theorem correctBoundary_scale (a x0 y0 xo yo : ℝ) (p : Vec3) (b : ℝ) : correctBoundary x0 y0 xo yo (p.scale a) b = (correctBoundary x0 y0 xo yo p b).scale a := by
  have r1 : ∀ c : Corr, reflRight b x0 (c.scale a) = (reflRight b x0 c).scale a := by
    intro c; unfold reflRight; by_cases h : c.x > b
    · rw [if_pos h, if_pos (show (c.scale a).x > b from h)]; simp only [Corr.scale, zero_scale]
    · rw [if_neg h, if_neg (show ¬ (c.scale a).x > b from h)]
  have r2 : ∀ c : Corr, reflLeft b x0 (c.scale a) = (reflLeft b x0 c).scale a := by
    intro c; unfold reflLeft; by_cases h : c.x < -b
    · rw [if_pos h, if_pos (show (c.scale a).x < -b from h)]; simp only [Corr.scale, zero_scale]
    · rw [if_neg h, if_neg (show ¬ (c.scale a).x < -b from h)]
  have r3 : ∀ c : Corr, reflTop b y0 (c.scale a) = (reflTop b y0 c).scale a := by
    intro c; unfold reflTop; by_cases h : c.y > b
    · rw [if_pos h, if_pos (show (c.scale a).y > b from h)]; simp only [Corr.scale, zero_scale]
    · rw [if_neg h, if_neg (show ¬ (c.scale a).y > b from h)]
  have r4 : ∀ c : Corr, reflBottom b y0 (c.scale a) = (reflBottom b y0 c).scale a := by
    intro c; unfold reflBottom; by_cases h : c.y < -b
    · rw [if_pos h, if_pos (show (c.scale a).y < -b from h)]; simp only [Corr.scale, zero_scale]
    · rw [if_neg h, if_neg (show ¬ (c.scale a).y < -b from h)]
  unfold correctBoundary
  rw [← r4, ← r3, ← r2, ← r1] <;> rfl

theorem finish3_scale (c : MCfg) (a : ℝ) (ha : 0 < a) (prev full : Ptl) (op mid d : Vec3) :
    finish3 c (prev.part a) (full.part a) (op.scale a) (mid.scale a) (d.scale a) = (finish3 c prev full op mid d).part a := by
  have e : ∀ o s : ℝ, o + (a * s) / (a * Real.sqrt (full.m ^ 2 + mid.z ^ 2 + mid.x ^ 2 + mid.y ^ 2) - a * mid.z) * c.dxi = o + s / (Real.sqrt (full.m ^ 2 + mid.z ^ 2 + mid.x ^ 2 + mid.y ^ 2) - mid.z) * c.dxi := by
    intro o s; rw [← mul_sub, div_scale a ha]
  have e2 : (⟨a * op.x + a * d.x, a * op.y + a * d.y, a * op.z + a * d.z⟩ : Vec3) = Vec3.scale a ⟨op.x + d.x, op.y + d.y, op.z + d.z⟩ := by
    simp only [Vec3.scale, Vec3.mk.injEq]; refine ⟨?_, ?_, ?_⟩ <;> ring
  unfold finish3
  simp only [Ptl.part]
  simp only [Vec3.scale, sqrt_scale a ha, e] at e2 ⊢
  rw [e2]
  have hs := correctBoundary_scale a prev.x0 prev.y0 (prev.x + mid.x / (Real.sqrt (full.m ^ 2 + mid.z ^ 2 + mid.x ^ 2 + mid.y ^ 2) - mid.z) * c.dxi)
    (prev.y + mid.y / (Real.sqrt (full.m ^ 2 + mid.z ^ 2 + mid.x ^ 2 + mid.y ^ 2) - mid.z) * c.dxi) ⟨op.x + d.x, op.y + d.y, op.z + d.z⟩ c.boundary
  simp only [Vec3.scale] at hs
  rw [hs]
  generalize correctBoundary prev.x0 prev.y0 (prev.x + mid.x / (Real.sqrt (full.m ^ 2 + mid.z ^ 2 + mid.x ^ 2 + mid.y ^ 2) - mid.z) * c.dxi)
    (prev.y + mid.y / (Real.sqrt (full.m ^ 2 + mid.z ^ 2 + mid.x ^ 2 + mid.y ^ 2) - mid.z) * c.dxi) ⟨op.x + d.x, op.y + d.y, op.z + d.z⟩ c.boundary = r
  by_cases h : prev.x0 + r.xo ≥ c.boundary ∨ prev.x0 + r.xo ≤ -c.boundary ∨ prev.y0 + r.yo ≥ c.boundary ∨ prev.y0 + r.yo ≤ -c.boundary
  · refine (if_pos h).trans ?_
    rw [if_pos h]; simp
  · refine (if_neg h).trans ?_
    rw [if_neg h]; rfl

/-- C52: a part of a macroparticle moves exactly as the whole one. -/
theorem moveOne_part (c : MCfg) (F : Fields3) (a : ℝ) (ha : 0 < a) (prev full : Ptl) : moveOne c F (prev.part a) (full.part a) = (moveOne c F prev full).part a := by
  unfold moveOne
  have hq : (full.part a).q = 0 ↔ full.q = 0 := by simp [Ptl.part, ha.ne']
  by_cases h : full.q = 0
  · rw [if_pos h, if_pos (hq.mpr h)]
  · rw [if_neg h, if_neg (fun g => h (hq.mp g))]
    have hh : half3 c (prev.part a) (full.part a) = (half3 c prev full).scale a := by
      unfold half3; exact correctBoundary_scale a _ _ _ _ ⟨prev.px, prev.py, prev.pz⟩ _
    simp only [hh]
    have ho : (⟨(prev.part a).px, (prev.part a).py, (prev.part a).pz⟩ : Vec3) = Vec3.scale a ⟨prev.px, prev.py, prev.pz⟩ := rfl
    rw [ho]
    simp only [Corr.scale, show (full.part a).q = a * full.q from rfl, show (full.part a).m = a * full.m from rfl, kick3_scale a ha, addHalf_scale]
    exact finish3_scale c a ha prev full _ _ _

theorem moveFree_part (dxi : ℝ) (a : ℝ) (ha : 0 < a) (p : Ptl) : moveFree dxi (p.part a) = (moveFree dxi p).part a := by
  unfold moveFree
  have hm : (p.part a).m = 0 ↔ p.m = 0 := by simp [Ptl.part, ha.ne']
  by_cases h : p.m = 0
  · rw [if_pos h, if_pos (hm.mpr h)]
  · rw [if_neg h, if_neg (fun g => h (hm.mp g))]
    simp only [Ptl.part, sqrt_scale a ha, ← mul_sub, div_scale a ha]

theorem charge3_part (a : ℝ) (ha : 0 < a) (p : Ptl) : charge3 (p.part a) = a * charge3 p := by
  unfold charge3; simp only [Ptl.part, sqrt_scale a ha, div_scale a ha]; ring
theorem curX_part (a : ℝ) (ha : 0 < a) (p : Ptl) : curX (p.part a) = a * curX p := by
  unfold curX; rw [charge3_part a ha]; simp only [Ptl.part, sqrt_scale a ha, div_scale a ha]; ring
theorem curY_part (a : ℝ) (ha : 0 < a) (p : Ptl) : curY (p.part a) = a * curY p := by
  unfold curY; rw [charge3_part a ha]; simp only [Ptl.part, sqrt_scale a ha, div_scale a ha]; ring
theorem curZ_part (a : ℝ) (ha : 0 < a) (p : Ptl) : curZ (p.part a) = a * curZ p := by
  unfold curZ; rw [charge3_part a ha]; simp only [Ptl.part, sqrt_scale a ha, div_scale a ha]; ring
theorem shape_part (N : ℤ) (h a : ℝ) (p : Ptl) (i j : ℤ) : shape N h (p.part a) i j = shape N h p i j := rfl

/-- C52: charge and current on the grid do not change. -/
theorem depositSort_split (N : ℤ) (h : ℝ) (l l' : List Ptl) (hs : IsSplit Ptl.part l l') : depositSort N h l' = depositSort N h l := by
  have e : ∀ c d : Cur, (∀ i j, c.ro i j = d.ro i j ∧ c.jx i j = d.jx i j ∧ c.jy i j = d.jy i j ∧ c.jz i j = d.jz i j) → c = d := by
    rintro ⟨a, b, c, d⟩ ⟨a', b', c', d'⟩ h
    simp only at h
    simp only [Cur.mk.injEq]
    refine ⟨?_, ?_, ?_, ?_⟩ <;> funext i j
    exacts [(h i j).1, (h i j).2.1, (h i j).2.2.1, (h i j).2.2.2]
  apply e
  intro i j
  obtain ⟨h1, h2, h3, h4⟩ := depositSort_shape N h l i j
  obtain ⟨g1, g2, g3, g4⟩ := depositSort_shape N h l' i j
  rw [h1, h2, h3, h4, g1, g2, g3, g4]
  refine ⟨?_, ?_, ?_, ?_⟩ <;> congr 1 <;> apply hs.sum
  · intro a p ha; rw [charge3_part a ha, shape_part]; ring
  · intro a p ha; rw [curX_part a ha, shape_part]; ring
  · intro a p ha; rw [curY_part a ha, shape_part]; ring
  · intro a p ha; rw [curZ_part a ha, shape_part]; ring

/-! ### A step and a run -/

def partPair (a : ℝ) (t : Ptl × Ptl) : Ptl × Ptl := (t.1.part a, t.2.part a)

/-- Two estimates of a sort, each together with the particles of the previous layer, where one is a splitting of the other. -/
structure PairSplit (a b a' b' : List Ptl) : Prop where
  len : a.length = b.length
  len' : a'.length = b'.length
  split : IsSplit partPair (a.zip b) (a'.zip b')

theorem PairSplit.snd {a b a' b' : List Ptl} (h : PairSplit a b a' b') : IsSplit Ptl.part b b' := by
  have := h.split.map (part' := Ptl.part) Prod.snd (fun _ _ _ => rfl)
  rwa [List.map_snd_zip (by rw [h.len]), List.map_snd_zip (by rw [h.len'])] at this

theorem PairSplit.push (c : MCfg) (F : Fields3) {a b a' b' : List Ptl} (h : PairSplit a b a' b') : PairSplit a (moveSort c F a b) a' (moveSort c F a' b') := by
  refine ⟨?_, ?_, ?_⟩
  · unfold moveSort; rw [List.length_zipWith, ← h.len, min_self]
  · unfold moveSort; rw [List.length_zipWith, ← h.len', min_self]
  · rw [zip_moveSort, zip_moveSort]
    apply h.split.map
    intro s t hs
    simp only [partPair, moveOne_part c F s hs]

theorem PairSplit.free (dxi : ℝ) {a a' : List Ptl} (h : IsSplit Ptl.part a a') : PairSplit a (a.map (moveFree dxi)) a' (a'.map (moveFree dxi)) := by
  refine ⟨by simp, by simp, ?_⟩
  have e : ∀ l : List Ptl, l.zip (l.map (moveFree dxi)) = l.map fun p => (p, moveFree dxi p) := by
    intro l
    induction l with
    | nil => rfl
    | cons p l ih => simp [ih]
  rw [e, e]
  apply h.map
  intro s p hs
  simp only [partPair, moveFree_part dxi s hs]

/-- Both sorts. -/
structure PairSplit2 (w w' : W3) (full full' : List Ptl × Option (List Ptl)) : Prop where
  el : PairSplit w.el full.1 w'.el full'.1
  ions : (w.ions = none ∧ full.2 = none ∧ w'.ions = none ∧ full'.2 = none) ∨ ∃ a b a' b', w.ions = some a ∧ full.2 = some b ∧ w'.ions = some a' ∧ full'.2 = some b' ∧ PairSplit a b a' b'

theorem PairSplit2.free (c : SCfg) {w w' : W3} (h : SplitWorld w w') : PairSplit2 w w' (freeSorts c w) (freeSorts c w') := by
  refine ⟨PairSplit.free _ h.el, ?_⟩
  have := h.ions
  unfold freeSorts
  cases h1 : w.ions with
  | none =>
    cases h2 : w'.ions with
    | none => left; simp
    | some b => rw [h1, h2] at this; cases this
  | some a =>
    cases h2 : w'.ions with
    | none => rw [h1, h2] at this; cases this
    | some b =>
      rw [h1, h2] at this
      cases this with
      | some hab => right; exact ⟨a, _, b, _, rfl, rfl, rfl, rfl, PairSplit.free _ hab⟩

theorem PairSplit2.push (c : SCfg) (F : Fields3) {w w' : W3} {full full' : List Ptl × Option (List Ptl)} (h : PairSplit2 w w' full full') : PairSplit2 w w' (pushSorts c F w full) (pushSorts c F w' full') := by
  refine ⟨h.el.push c.m F, ?_⟩
  rcases h.ions with ⟨h1, h2, h3, h4⟩ | ⟨a, b, a', b', h1, h2, h3, h4, hp⟩
  · left; unfold pushSorts; rw [h1, h2, h3, h4]; exact ⟨rfl, rfl, rfl, rfl⟩
  · right
    refine ⟨a, _, a', _, h1, ?_, h3, ?_, hp.push c.m F⟩
    · unfold pushSorts; rw [h1, h2]
    · unfold pushSorts; rw [h3, h4]

theorem PairSplit2.rhoj (c : SCfg) {w w' : W3} {full full' : List Ptl × Option (List Ptl)} (h : PairSplit2 w w' full full') : rhojSorts c full' = rhojSorts c full := by
  unfold rhojSorts computeRhoj
  rw [depositSort_split _ _ _ _ h.el.snd]
  rcases h.ions with ⟨h1, h2, h3, h4⟩ | ⟨a, b, a', b', h1, h2, h3, h4, hp⟩
  · rw [h2, h4]
  · rw [h2, h4]; simp only; rw [depositSort_split _ _ _ _ hp.snd]

/-- C52: one step (without declustering) gives the same fields and currents, and the split particles of the new layer. -/
theorem step_split (c : SCfg) (hd : c.decl = none) (w w' : W3) (bF bP : ℤ → ℤ → ℝ) (h : SplitWorld w w') : SplitWorld (stepDxi c w bF bP) (stepDxi c w' bF bP) := by
  have q0 := PairSplit2.free c h
  have q1 := q0.push c w.F
  have e1 := q1.rhoj c
  have q2 := q1.push c (computeFields c.f w.F w.F bF bP w.cur (rhojSorts c (pushSorts c w.F w (freeSorts c w)))).2
  have e2 := q2.rhoj c
  have pr : (predictor c w' bF bP).2 = (predictor c w bF bP).2 ∧ PairSplit2 w w' (predictor c w bF bP).1 (predictor c w' bF bP).1 := by
    unfold predictor
    simp only
    rw [h.F, h.cur, e1]
    exact ⟨by rw [e2], q2⟩
  have q3 := pr.2.push c (predictor c w bF bP).2.2
  have e3 := q3.rhoj c
  unfold stepDxi
  rw [hd]
  simp only
  rw [pr.1]
  refine ⟨q3.el.snd, ?_, rfl, e3⟩
  rcases q3.ions with ⟨h1, h2, h3, h4⟩ | ⟨a, b, a', b', h1, h2, h3, h4, hp⟩
  · simp only; rw [h2, h4]; exact Option.Rel.none
  · simp only; rw [h2, h4]; exact Option.Rel.some hp.snd

/-- C52: splitting the macroparticles of a plasma changes no field and no current in any layer of a run, whatever the beam; the particles of the last layer are the split ones. -/
theorem run_split (c : SCfg) (hd : c.decl = none) (w w' : W3) (bP : ℤ → ℤ → ℝ) (bs : List (ℤ → ℤ → ℝ)) (h : SplitWorld w w') :
    SplitWorld (runLayers c w bP bs) (runLayers c w' bP bs) ∧ (runLayers c w' bP bs).F = (runLayers c w bP bs).F ∧ (runLayers c w' bP bs).cur = (runLayers c w bP bs).cur := by
  have key : SplitWorld (runLayers c w bP bs) (runLayers c w' bP bs) := by
    induction bs generalizing w w' bP with
    | nil => exact h
    | cons b bs ih => rw [runLayers, runLayers]; exact ih _ _ b (step_split c hd w w' b bP h)
  exact ⟨key, key.F, key.cur⟩

end Plasma3D
end Lcode
