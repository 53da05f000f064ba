import Verif.Plasma3D.Weights

/-!
Model of lcode/plasma3d/move.py (CPU branch): field interpolation and the particle pusher. Property C25.
-/

namespace Lcode.Plasma3D

/-! ### Model -/

/-- `fields` of the 3D solver, initialization.py:389-390. -/
structure Fields3 where
  Ex : ℤ → ℤ → ℝ
  Ey : ℤ → ℤ → ℝ
  Ez : ℤ → ℤ → ℝ
  Bx : ℤ → ℤ → ℝ
  By : ℤ → ℤ → ℝ
  Bz : ℤ → ℤ → ℝ
  Phi : ℤ → ℤ → ℝ

/-- The constants of get_plasma_particles_mover, move.py:316-321: xi-step, transverse-step, window-width-steps, bound-padding-steps. -/
structure MCfg where
  dxi : ℝ
  h : ℝ
  N : ℤ
  pad : ℤ

/-- `boundary = grid_step_size * (grid_steps / 2 - bound_padding_steps)`, move.py:321. -/
noncomputable def MCfg.boundary (c : MCfg) : ℝ := c.h * (c.N / 2 - c.pad)

structure Vec3 where
  x : ℝ
  y : ℝ
  z : ℝ

/-- What _correct_boundary_particles returns: x, y, x_offt, y_offt, (px, py, pz). -/
structure Corr where
  x : ℝ
  y : ℝ
  xo : ℝ
  yo : ℝ
  p : Vec3

/-- The four `if`s of _correct_boundary_particles, move.py:33-48, one at a time. -/
noncomputable def reflRight (b x0 : ℝ) (c : Corr) : Corr := if c.x > b then { c with x := 2 * b - c.x, xo := 2 * b - c.x - x0, p := ⟨0, 0, 0⟩ } else c
noncomputable def reflLeft (b x0 : ℝ) (c : Corr) : Corr := if c.x < -b then { c with x := -2 * b - c.x, xo := -2 * b - c.x - x0, p := ⟨0, 0, 0⟩ } else c
noncomputable def reflTop (b y0 : ℝ) (c : Corr) : Corr := if c.y > b then { c with y := 2 * b - c.y, yo := 2 * b - c.y - y0, p := ⟨0, 0, 0⟩ } else c
noncomputable def reflBottom (b y0 : ℝ) (c : Corr) : Corr := if c.y < -b then { c with y := -2 * b - c.y, yo := -2 * b - c.y - y0, p := ⟨0, 0, 0⟩ } else c

/-- _correct_boundary_particles, move.py:29-49. -/
noncomputable def correctBoundary (x0 y0 xo yo : ℝ) (p : Vec3) (b : ℝ) : Corr :=
  reflBottom b y0 (reflTop b y0 (reflLeft b x0 (reflRight b x0 ⟨x0 + xo, y0 + yo, xo, yo, p⟩)))

/-- The momentum increment of one force evaluation with momentum `p`, move.py:110-115 and 119-124. -/
noncomputable def kick3 (q m dxi : ℝ) (E B : Vec3) (p : Vec3) : Vec3 :=
  let gm := Real.sqrt (m ^ 2 + p.z ^ 2 + p.x ^ 2 + p.y ^ 2)
  let vx := p.x / gm
  let vy := p.y / gm
  let vz := p.z / gm
  let f := q * dxi / (1 - p.z / gm)
  ⟨f * (E.x + vy * B.z - vz * B.y), f * (E.y - vx * B.z + vz * B.x), f * (E.z + vx * B.y - vy * B.x)⟩

/-- `opx + dpx / 2` and so on, move.py:116 and 125. -/
noncomputable def addHalf (p d : Vec3) : Vec3 := ⟨p.x + d.x / 2, p.y + d.y / 2, p.z + d.z / 2⟩

/-- The fields at a position, move.py:90-107. -/
noncomputable def fieldE (c : MCfg) (F : Fields3) (x y : ℝ) : Vec3 :=
  ⟨interpolate c.N (x / c.h + 1 / 2) (y / c.h + 1 / 2) F.Ex, interpolate c.N (x / c.h + 1 / 2) (y / c.h + 1 / 2) F.Ey, interpolate c.N (x / c.h + 1 / 2) (y / c.h + 1 / 2) F.Ez⟩
noncomputable def fieldB (c : MCfg) (F : Fields3) (x y : ℝ) : Vec3 :=
  ⟨interpolate c.N (x / c.h + 1 / 2) (y / c.h + 1 / 2) F.Bx, interpolate c.N (x / c.h + 1 / 2) (y / c.h + 1 / 2) F.By, interpolate c.N (x / c.h + 1 / 2) (y / c.h + 1 / 2) F.Bz⟩

/-- The end of the loop body of move_smart_kernel_numba, move.py:127-148: `op` is the old momentum, `mid` the momentum after the second force evaluation with increment `d`. -/
noncomputable def finish3 (c : MCfg) (prev full : Ptl) (op mid d : Vec3) : Ptl :=
  let b := c.boundary
  let gm := Real.sqrt (full.m ^ 2 + mid.z ^ 2 + mid.x ^ 2 + mid.y ^ 2)
  let xo := prev.x + mid.x / (gm - mid.z) * c.dxi
  let yo := prev.y + mid.y / (gm - mid.z) * c.dxi
  let r := correctBoundary prev.x0 prev.y0 xo yo ⟨op.x + d.x, op.y + d.y, op.z + d.z⟩ b
  if prev.x0 + r.xo ≥ b ∨ prev.x0 + r.xo ≤ -b ∨ prev.y0 + r.yo ≥ b ∨ prev.y0 + r.yo ≤ -b then
    { full with x := 0, y := 0, px := 0, py := 0, pz := 0, q := 0 }
  else { full with x := r.xo, y := r.yo, px := r.p.x, py := r.p.y, pz := r.p.z }

/-- The corrected half-step position and the momentum of the first force evaluation, move.py:79-88. -/
noncomputable def half3 (c : MCfg) (prev full : Ptl) : Corr :=
  correctBoundary prev.x0 prev.y0 ((prev.x + full.x) / 2) ((prev.y + full.y) / 2) ⟨prev.px, prev.py, prev.pz⟩ c.boundary

/-- One pass of the loop of move_smart_kernel_numba, move.py:74-148. `prev` gives x_init, y_init and the previous offsets and momenta, `full` the charge, mass and the current estimate; the result is the new `full`. -/
noncomputable def moveOne (c : MCfg) (F : Fields3) (prev full : Ptl) : Ptl :=
  if full.q = 0 then full
  else
    let op : Vec3 := ⟨prev.px, prev.py, prev.pz⟩
    let hs := half3 c prev full
    let E := fieldE c F hs.x hs.y
    let B := fieldB c F hs.x hs.y
    let p1 := addHalf op (kick3 full.q full.m c.dxi E B hs.p)
    let d := kick3 full.q full.m c.dxi E B p1
    finish3 c prev full op (addHalf op d) d

/-- move_particles_smart for one sort, move.py:351-381 (the particles do not influence each other, so the parallel loop is a map). -/
noncomputable def moveSort (c : MCfg) (F : Fields3) (prev full : List Ptl) : List Ptl := List.zipWith (moveOne c F) prev full

/-- move_estimate_wo_fields_numba, move.py:159-165. -/
noncomputable def moveFree (dxi : ℝ) (p : Ptl) : Ptl :=
  if p.m = 0 then p
  else
    let gm := Real.sqrt (p.m ^ 2 + p.pz ^ 2 + p.px ^ 2 + p.py ^ 2)
    { p with x := p.x + p.px / (gm - p.pz) * dxi, y := p.y + p.py / (gm - p.pz) * dxi }

/-! ### Specification -/

/-- Switched off: no charge, no momentum, back at the initial place. -/
def Off (p : Ptl) : Prop := p.q = 0 ∧ p.x = 0 ∧ p.y = 0 ∧ p.px = 0 ∧ p.py = 0 ∧ p.pz = 0

/-- Strictly inside the reflection boundary. -/
def StrictlyInside (b : ℝ) (p : Ptl) : Prop := |p.X| < b ∧ |p.Y| < b

noncomputable def Vec3.energy (m : ℝ) (p : Vec3) : ℝ := Real.sqrt (m ^ 2 + p.x ^ 2 + p.y ^ 2 + p.z ^ 2)

/-- Change of momentum over the path `dxi` of the co-moving coordinate by the Lorentz force `q (E + v × B)`, with `v = p / sqrt(m² + p²)` and `dt = dxi / (1 - v_z)`. -/
noncomputable def lorentz3 (q m dxi : ℝ) (E B p : Vec3) : Vec3 :=
  let e := p.energy m
  let dt := dxi / (1 - p.z / e)
  ⟨dt * q * (E.x + (p.y / e * B.z - p.z / e * B.y)), dt * q * (E.y + (p.z / e * B.x - p.x / e * B.z)), dt * q * (E.z + (p.x / e * B.y - p.y / e * B.x))⟩

/-! ### C25 -/

theorem sqrt_comm (m x y z : ℝ) : Real.sqrt (m ^ 2 + z ^ 2 + x ^ 2 + y ^ 2) = Real.sqrt (m ^ 2 + x ^ 2 + y ^ 2 + z ^ 2) := by congr 1; ring

theorem kick3_lorentz (q m dxi : ℝ) (E B p : Vec3) : kick3 q m dxi E B p = lorentz3 q m dxi E B p := by
  unfold kick3 lorentz3 Vec3.energy
  rw [sqrt_comm]
  simp only [Vec3.mk.injEq]
  refine ⟨?_, ?_, ?_⟩ <;> ring

theorem finish3_cases (c : MCfg) (prev full : Ptl) (op mid d : Vec3) :
    Off (finish3 c prev full op mid d) ∨
    ((finish3 c prev full op mid d).q = full.q ∧ |prev.x0 + (finish3 c prev full op mid d).x| < c.boundary ∧ |prev.y0 + (finish3 c prev full op mid d).y| < c.boundary) := by
  unfold finish3
  simp only
  split_ifs with hc
  · left; exact ⟨rfl, rfl, rfl, rfl, rfl, rfl⟩
  · right
    push Not at hc
    obtain ⟨h1, h2, h3, h4⟩ := hc
    exact ⟨rfl, abs_lt.mpr ⟨h2, h1⟩, abs_lt.mpr ⟨h4, h3⟩⟩

theorem finish3_static (c : MCfg) (prev full : Ptl) (op mid d : Vec3) :
    (finish3 c prev full op mid d).x0 = full.x0 ∧ (finish3 c prev full op mid d).y0 = full.y0 ∧ (finish3 c prev full op mid d).m = full.m := by
  unfold finish3
  simp only
  split_ifs <;> exact ⟨rfl, rfl, rfl⟩

/-- C25: after a push every particle is switched off, or keeps its charge and is strictly inside the reflection boundary; a particle that was already off before the push is left alone. Initial place and mass never change. -/
theorem moveOne_boundary (c : MCfg) (F : Fields3) (prev full : Ptl) (h0 : prev.x0 = full.x0 ∧ prev.y0 = full.y0) :
    ((full.q = 0 ∧ moveOne c F prev full = full) ∨
     (full.q ≠ 0 ∧ (Off (moveOne c F prev full) ∨ ((moveOne c F prev full).q = full.q ∧ StrictlyInside c.boundary (moveOne c F prev full))))) ∧
    (moveOne c F prev full).x0 = full.x0 ∧ (moveOne c F prev full).y0 = full.y0 ∧ (moveOne c F prev full).m = full.m := by
  by_cases hq : full.q = 0
  · unfold moveOne
    rw [if_pos hq]
    exact ⟨Or.inl ⟨hq, rfl⟩, rfl, rfl, rfl⟩
  · have hs := finish3_static c prev full
    unfold moveOne
    rw [if_neg hq]
    simp only
    refine ⟨Or.inr ⟨hq, ?_⟩, hs _ _ _⟩
    obtain ⟨hx, hy, -⟩ := hs ⟨prev.px, prev.py, prev.pz⟩ (addHalf ⟨prev.px, prev.py, prev.pz⟩ (kick3 full.q full.m c.dxi (fieldE c F (half3 c prev full).x (half3 c prev full).y) (fieldB c F (half3 c prev full).x (half3 c prev full).y) (addHalf ⟨prev.px, prev.py, prev.pz⟩ (kick3 full.q full.m c.dxi (fieldE c F (half3 c prev full).x (half3 c prev full).y) (fieldB c F (half3 c prev full).x (half3 c prev full).y) (half3 c prev full).p)))) (kick3 full.q full.m c.dxi (fieldE c F (half3 c prev full).x (half3 c prev full).y) (fieldB c F (half3 c prev full).x (half3 c prev full).y) (addHalf ⟨prev.px, prev.py, prev.pz⟩ (kick3 full.q full.m c.dxi (fieldE c F (half3 c prev full).x (half3 c prev full).y) (fieldB c F (half3 c prev full).x (half3 c prev full).y) (half3 c prev full).p)))
    rcases finish3_cases c prev full _ _ _ with h | ⟨h1, h2, h3⟩
    · exact Or.inl h
    · refine Or.inr ⟨h1, ?_, ?_⟩
      · unfold Ptl.X; rw [hx, ← h0.1]; exact h2
      · unfold Ptl.Y; rw [hy, ← h0.2]; exact h3

/-- C25, finding: a particle switched off in one of the trial passes of a step stays off in the later passes of the same step, whatever the better fields are. -/
theorem switched_off_stays (c : MCfg) (F G : Fields3) (prev full : Ptl) (h : Off (moveOne c F prev full)) : moveOne c G prev (moveOne c F prev full) = moveOne c F prev full := by
  generalize moveOne c F prev full = f at h
  unfold moveOne
  rw [if_pos h.1]

/-- Reflection leaves positions inside the boundary alone. -/
theorem correctBoundary_inside (x0 y0 xo yo : ℝ) (p : Vec3) (b : ℝ) (hx : |x0 + xo| ≤ b) (hy : |y0 + yo| ≤ b) :
    correctBoundary x0 y0 xo yo p b = ⟨x0 + xo, y0 + yo, xo, yo, p⟩ := by
  rw [abs_le] at hx hy
  unfold correctBoundary
  have e1 : reflRight b x0 ⟨x0 + xo, y0 + yo, xo, yo, p⟩ = ⟨x0 + xo, y0 + yo, xo, yo, p⟩ := if_neg (not_lt.mpr hx.2)
  have e2 : reflLeft b x0 ⟨x0 + xo, y0 + yo, xo, yo, p⟩ = ⟨x0 + xo, y0 + yo, xo, yo, p⟩ := if_neg (not_lt.mpr (by simp only; linarith))
  have e3 : reflTop b y0 ⟨x0 + xo, y0 + yo, xo, yo, p⟩ = ⟨x0 + xo, y0 + yo, xo, yo, p⟩ := if_neg (not_lt.mpr hy.2)
  have e4 : reflBottom b y0 ⟨x0 + xo, y0 + yo, xo, yo, p⟩ = ⟨x0 + xo, y0 + yo, xo, yo, p⟩ := if_neg (not_lt.mpr (by simp only; linarith))
  rw [e1, e2, e3, e4]

/-- The position that comes out of the reflection. -/
noncomputable def mirror (b x : ℝ) : ℝ := if x > b then (if 2 * b - x < -b then x - 4 * b else 2 * b - x) else if x < -b then -2 * b - x else x

theorem correctBoundary_mirror (x0 y0 xo yo : ℝ) (p : Vec3) (b : ℝ) :
    (correctBoundary x0 y0 xo yo p b).x = mirror b (x0 + xo) ∧ (correctBoundary x0 y0 xo yo p b).y = mirror b (y0 + yo) ∧
    x0 + (correctBoundary x0 y0 xo yo p b).xo = mirror b (x0 + xo) ∧ y0 + (correctBoundary x0 y0 xo yo p b).yo = mirror b (y0 + yo) ∧
    ((correctBoundary x0 y0 xo yo p b).p = p ∨ (correctBoundary x0 y0 xo yo p b).p = ⟨0, 0, 0⟩) := by
  have hx : ∀ c : Corr, x0 + c.xo = c.x → (reflLeft b x0 (reflRight b x0 c)).x = mirror b c.x ∧ x0 + (reflLeft b x0 (reflRight b x0 c)).xo = mirror b c.x ∧
      (reflLeft b x0 (reflRight b x0 c)).y = c.y ∧ (reflLeft b x0 (reflRight b x0 c)).yo = c.yo ∧
      ((reflLeft b x0 (reflRight b x0 c)).p = c.p ∨ (reflLeft b x0 (reflRight b x0 c)).p = ⟨0, 0, 0⟩) := by
    intro c hc
    unfold reflLeft reflRight mirror
    by_cases h1 : c.x > b
    · simp only [if_pos h1]
      by_cases h2 : 2 * b - c.x < -b
      · simp only [if_pos h2]
        refine ⟨by ring, by ring, trivial, trivial, Or.inr trivial⟩
      · simp only [if_neg h2]
        refine ⟨trivial, by ring, trivial, trivial, Or.inr trivial⟩
    · simp only [if_neg h1]
      by_cases h2 : c.x < -b
      · simp only [if_pos h2]
        refine ⟨trivial, by ring, trivial, trivial, Or.inr trivial⟩
      · simp only [if_neg h2]
        exact ⟨trivial, hc, trivial, trivial, Or.inl trivial⟩
  have hy : ∀ c : Corr, y0 + c.yo = c.y → (reflBottom b y0 (reflTop b y0 c)).y = mirror b c.y ∧ y0 + (reflBottom b y0 (reflTop b y0 c)).yo = mirror b c.y ∧
      (reflBottom b y0 (reflTop b y0 c)).x = c.x ∧ (reflBottom b y0 (reflTop b y0 c)).xo = c.xo ∧
      ((reflBottom b y0 (reflTop b y0 c)).p = c.p ∨ (reflBottom b y0 (reflTop b y0 c)).p = ⟨0, 0, 0⟩) := by
    intro c hc
    unfold reflBottom reflTop mirror
    by_cases h1 : c.y > b
    · simp only [if_pos h1]
      by_cases h2 : 2 * b - c.y < -b
      · simp only [if_pos h2]
        refine ⟨by ring, by ring, trivial, trivial, Or.inr trivial⟩
      · simp only [if_neg h2]
        refine ⟨trivial, by ring, trivial, trivial, Or.inr trivial⟩
    · simp only [if_neg h1]
      by_cases h2 : c.y < -b
      · simp only [if_pos h2]
        refine ⟨trivial, by ring, trivial, trivial, Or.inr trivial⟩
      · simp only [if_neg h2]
        exact ⟨trivial, hc, trivial, trivial, Or.inl trivial⟩
  obtain ⟨a1, a2, a3, a4, a5⟩ := hx ⟨x0 + xo, y0 + yo, xo, yo, p⟩ rfl
  obtain ⟨b1, b2, b3, b4, b5⟩ := hy (reflLeft b x0 (reflRight b x0 ⟨x0 + xo, y0 + yo, xo, yo, p⟩)) (by rw [a3, a4])
  unfold correctBoundary
  refine ⟨by rw [b3, a1], by rw [b1, a3], by rw [b4, a2], by rw [b2, a3], ?_⟩
  rcases b5 with h | h
  · rcases a5 with h' | h'
    · left; rw [h, h']
    · right; rw [h, h']
  · right; exact h

/-- C25: reflection brings a position back inside the boundary exactly when it is between three boundaries on the left and five on the right. -/
theorem mirror_inside (b x : ℝ) (hb : 0 < b) : |mirror b x| ≤ b ↔ -3 * b ≤ x ∧ x ≤ 5 * b := by
  unfold mirror
  rw [abs_le]
  split_ifs with h1 h2 h3
  · constructor
    · rintro ⟨-, h⟩; constructor <;> linarith
    · rintro ⟨-, h⟩; constructor <;> linarith
  · constructor
    · rintro ⟨-, -⟩; constructor <;> linarith
    · rintro ⟨-, -⟩; constructor <;> linarith
  · constructor
    · rintro ⟨-, h⟩; constructor <;> linarith
    · rintro ⟨h, -⟩; constructor <;> linarith
  · constructor
    · rintro ⟨-, -⟩; constructor <;> linarith
    · rintro ⟨-, -⟩; constructor <;> linarith

/-- The nodes read by the interpolation at (x, y), move.py:102. -/
noncomputable def readNodes (c : MCfg) (x y : ℝ) : List (ℤ × ℤ) := (stencil c.N 1 (x / c.h + 1 / 2) (y / c.h + 1 / 2)).map fun t => (t.1, t.2.1)

/-- C25: with the padding that the initialization accepts and an estimate of the new position that is at most five boundaries from the axis, every node read by the pusher exists. -/
theorem push_reads_inside (c : MCfg) (hN : c.N % 2 = 1) (hp : 2 < c.pad) (hh : 0 < c.h) (hb : 0 < c.boundary) (prev full : Ptl)
    (hprev : StrictlyInside c.boundary prev) (h0 : prev.x0 = full.x0 ∧ prev.y0 = full.y0) (hfull : |full.X| ≤ 5 * c.boundary ∧ |full.Y| ≤ 5 * c.boundary) :
    ∀ t ∈ readNodes c (half3 c prev full).x (half3 c prev full).y, 0 ≤ t.1 ∧ t.1 < c.N ∧ 0 ≤ t.2 ∧ t.2 < c.N := by
  obtain ⟨hx, hy, -⟩ := correctBoundary_mirror prev.x0 prev.y0 ((prev.x + full.x) / 2) ((prev.y + full.y) / 2) ⟨prev.px, prev.py, prev.pz⟩ c.boundary
  have half : ∀ p f p0 f0 : ℝ, |p0 + p| < c.boundary → p0 = f0 → |f0 + f| ≤ 5 * c.boundary → |mirror c.boundary (p0 + (p + f) / 2)| ≤ c.boundary := by
    intro p f p0 f0 h1 h2 h3
    rw [mirror_inside _ _ hb]
    rw [abs_lt] at h1
    rw [abs_le] at h3
    subst h2
    constructor <;> linarith
  have bx := half _ _ _ _ hprev.1 h0.1 hfull.1
  have by' := half _ _ _ _ hprev.2 h0.2 hfull.2
  rw [← hx] at bx
  rw [← hy] at by'
  change |(half3 c prev full).x| ≤ _ at bx
  change |(half3 c prev full).y| ≤ _ at by'
  have lt : ∀ Z, |Z| ≤ c.boundary → |Z / c.h| < (c.N : ℝ) / 2 - ((c.pad - 1 : ℤ) : ℝ) := by
    intro Z hZ
    rw [abs_div, abs_of_pos hh, div_lt_iff₀ hh]
    unfold MCfg.boundary at hZ
    push_cast
    nlinarith
  intro t ht
  simp only [readNodes, List.mem_map] at ht
  obtain ⟨t', ht', rfl⟩ := ht
  have := stencil_inside c.N (c.pad - 1) hN 1 _ _ (lt _ bx) (lt _ by') t' ht'
  simp only
  omega

/-- C25, finding: the mirror is applied once per side, so an estimate far to the left makes the pusher read beyond the arrays. -/
theorem push_reads_outside : ∃ (c : MCfg) (prev full : Ptl), c.N % 2 = 1 ∧ 2 < c.pad ∧ StrictlyInside c.boundary prev ∧ prev.x0 = full.x0 ∧ prev.y0 = full.y0 ∧ full.q ≠ 0 ∧
    ∃ t ∈ readNodes c (half3 c prev full).x (half3 c prev full).y, c.N ≤ t.1 := by
  refine ⟨⟨1, 1, 21, 3⟩, ⟨0, 0, 0, 0, 0, 0, 0, -1, 1⟩, ⟨0, 0, -60, 0, 0, 0, 0, -1, 1⟩, by norm_num, by norm_num, ?_, rfl, rfl, by norm_num, ?_⟩
  · norm_num [StrictlyInside, Ptl.X, Ptl.Y, MCfg.boundary]
  · obtain ⟨hx, hy, -⟩ := correctBoundary_mirror 0 0 (((0 : ℝ) + -60) / 2) (((0 : ℝ) + 0) / 2) ⟨0, 0, 0⟩ (MCfg.boundary ⟨1, 1, 21, 3⟩)
    unfold half3
    simp only
    rw [hx, hy]
    have e1 : mirror (MCfg.boundary ⟨1, 1, 21, 3⟩) (0 + (((0 : ℝ) + -60) / 2)) = 15 := by norm_num [mirror, MCfg.boundary]
    have e2 : mirror (MCfg.boundary ⟨1, 1, 21, 3⟩) (0 + (((0 : ℝ) + 0) / 2)) = 0 := by norm_num [mirror, MCfg.boundary]
    rw [e1, e2]
    have f1 : cellOf 21 ((15 : ℝ) / 1 + 1 / 2) = 25 := by
      unfold cellOf
      have : ⌊((15 : ℝ) / 1 + 1 / 2)⌋ = 15 := by rw [Int.floor_eq_iff]; norm_num
      rw [this]; norm_num
    refine ⟨(cellOf 21 ((15 : ℝ) / 1 + 1 / 2) + 0, cellOf 21 ((0 : ℝ) / 1 + 1 / 2) + 0), ?_, ?_⟩
    · simp only [readNodes, List.mem_map, stencil, List.mem_flatMap]
      exact ⟨_, ⟨0, by simp [places], 0, by simp [places], rfl⟩, rfl⟩
    · rw [f1]; norm_num

/-- C25: in the second and third pass of a step, where the estimate comes from an earlier push, the half-step position is the midpoint and nothing is reflected before the force is evaluated. -/
theorem half3_inside (c : MCfg) (prev full : Ptl) (h0 : prev.x0 = full.x0 ∧ prev.y0 = full.y0) (hp : StrictlyInside c.boundary prev) (hf : StrictlyInside c.boundary full) :
    half3 c prev full = ⟨(prev.X + full.X) / 2, (prev.Y + full.Y) / 2, (prev.x + full.x) / 2, (prev.y + full.y) / 2, ⟨prev.px, prev.py, prev.pz⟩⟩ := by
  unfold StrictlyInside Ptl.X Ptl.Y at *
  rw [abs_lt, abs_lt] at hp hf
  unfold half3
  rw [correctBoundary_inside]
  · rw [Corr.mk.injEq, h0.1, h0.2]; refine ⟨?_, ?_, rfl, rfl, rfl⟩ <;> ring
  · rw [abs_le, h0.1]; rw [h0.1] at hp; constructor <;> linarith [hp.1.1, hp.1.2, hf.1.1, hf.1.2]
  · rw [abs_le, h0.2]; rw [h0.2] at hp; constructor <;> linarith [hp.2.1, hp.2.2, hf.2.1, hf.2.2]

/-- The push of a particle whose half step and whose new position are inside. -/
theorem finish3_inside (c : MCfg) (prev full : Ptl) (op mid d : Vec3)
    (hx : |prev.x0 + (prev.x + mid.x / (mid.energy full.m - mid.z) * c.dxi)| < c.boundary)
    (hy : |prev.y0 + (prev.y + mid.y / (mid.energy full.m - mid.z) * c.dxi)| < c.boundary) :
    finish3 c prev full op mid d =
      { full with x := prev.x + mid.x / (mid.energy full.m - mid.z) * c.dxi, y := prev.y + mid.y / (mid.energy full.m - mid.z) * c.dxi,
                  px := op.x + d.x, py := op.y + d.y, pz := op.z + d.z } := by
  unfold finish3
  simp only
  rw [sqrt_comm]
  unfold Vec3.energy at *
  rw [correctBoundary_inside _ _ _ _ _ _ hx.le hy.le]
  rw [abs_lt] at hx hy
  rw [if_neg]
  push Not
  exact ⟨by linarith [hx.2], by linarith [hx.1], by linarith [hy.2], by linarith [hy.1]⟩

/-- Where the end of a push puts the particle and its momentum. -/
theorem finish3_spec (c : MCfg) (prev full : Ptl) (op mid d : Vec3) (h0 : prev.x0 = full.x0 ∧ prev.y0 = full.y0) (xe ye : ℝ)
    (hxe : xe = prev.X + mid.x / (mid.energy full.m - mid.z) * c.dxi) (hye : ye = prev.Y + mid.y / (mid.energy full.m - mid.z) * c.dxi) :
    ((|mirror c.boundary xe| ≥ c.boundary ∨ |mirror c.boundary ye| ≥ c.boundary) → Off (finish3 c prev full op mid d)) ∧
    ((|mirror c.boundary xe| < c.boundary ∧ |mirror c.boundary ye| < c.boundary) →
      (finish3 c prev full op mid d).q = full.q ∧ (finish3 c prev full op mid d).X = mirror c.boundary xe ∧ (finish3 c prev full op mid d).Y = mirror c.boundary ye ∧
      ((|xe| ≤ c.boundary ∧ |ye| ≤ c.boundary) → (finish3 c prev full op mid d).px = op.x + d.x ∧ (finish3 c prev full op mid d).py = op.y + d.y ∧ (finish3 c prev full op mid d).pz = op.z + d.z) ∧
      ((|xe| > c.boundary ∨ |ye| > c.boundary) → (finish3 c prev full op mid d).px = 0 ∧ (finish3 c prev full op mid d).py = 0 ∧ (finish3 c prev full op mid d).pz = 0)) := by
  have hX : prev.x0 + (prev.x + mid.x / (mid.energy full.m - mid.z) * c.dxi) = xe := by rw [hxe]; unfold Ptl.X; ring
  have hY : prev.y0 + (prev.y + mid.y / (mid.energy full.m - mid.z) * c.dxi) = ye := by rw [hye]; unfold Ptl.Y; ring
  unfold finish3
  simp only
  rw [sqrt_comm]
  change _ ∧ _
  unfold Vec3.energy at hX hY
  set gm := Real.sqrt (full.m ^ 2 + mid.x ^ 2 + mid.y ^ 2 + mid.z ^ 2)
  set xo := prev.x + mid.x / (gm - mid.z) * c.dxi
  set yo := prev.y + mid.y / (gm - mid.z) * c.dxi
  set pv : Vec3 := ⟨op.x + d.x, op.y + d.y, op.z + d.z⟩ with hpv
  obtain ⟨-, -, h3, h4, -⟩ := correctBoundary_mirror prev.x0 prev.y0 xo yo pv c.boundary
  rw [hX] at h3
  rw [hY] at h4
  constructor
  · intro hb
    rw [if_pos]
    · exact ⟨rfl, rfl, rfl, rfl, rfl, rfl⟩
    · rw [h3, h4]
      rcases hb with h | h <;> rw [ge_iff_le, le_abs] at h <;> rcases h with h | h
      · exact Or.inl h
      · exact Or.inr (Or.inl (by linarith))
      · exact Or.inr (Or.inr (Or.inl h))
      · exact Or.inr (Or.inr (Or.inr (by linarith)))
  · rintro ⟨hb1, hb2⟩
    rw [if_neg (by rw [h3, h4]; rw [abs_lt] at hb1 hb2; push Not; exact ⟨hb1.2, hb1.1, hb2.2, hb2.1⟩)]
    refine ⟨rfl, ?_, ?_, ?_, ?_⟩
    · unfold Ptl.X; simp only; rw [← h0.1, h3]
    · unfold Ptl.Y; simp only; rw [← h0.2, h4]
    · rintro ⟨hi1, hi2⟩
      rw [correctBoundary_inside _ _ _ _ _ _ (by rw [hX]; exact hi1) (by rw [hY]; exact hi2)]
      exact ⟨rfl, rfl, rfl⟩
    · intro hbig
      have : (correctBoundary prev.x0 prev.y0 xo yo pv c.boundary).p = ⟨0, 0, 0⟩ := by
        unfold correctBoundary
        have zl : ∀ r : Corr, r.p = ⟨0, 0, 0⟩ → (reflBottom c.boundary prev.y0 (reflTop c.boundary prev.y0 r)).p = ⟨0, 0, 0⟩ := by
          intro r hr; unfold reflBottom reflTop; split_ifs <;> first | rfl | exact hr
        have zx : (prev.x0 + xo > c.boundary ∨ prev.x0 + xo < -c.boundary) →
            (reflLeft c.boundary prev.x0 (reflRight c.boundary prev.x0 ⟨prev.x0 + xo, prev.y0 + yo, xo, yo, pv⟩)).p = ⟨0, 0, 0⟩ := by
          intro hh
          by_cases h1 : prev.x0 + xo > c.boundary
          · unfold reflRight reflLeft; rw [if_pos h1]; split_ifs <;> rfl
          · have h2 : prev.x0 + xo < -c.boundary := hh.resolve_left h1
            unfold reflRight reflLeft; rw [if_neg h1, if_pos h2]
        have yk : (reflLeft c.boundary prev.x0 (reflRight c.boundary prev.x0 ⟨prev.x0 + xo, prev.y0 + yo, xo, yo, pv⟩)).y = prev.y0 + yo := by
          unfold reflLeft reflRight; split_ifs <;> rfl
        have zy : ∀ r : Corr, (r.y > c.boundary ∨ r.y < -c.boundary) → (reflBottom c.boundary prev.y0 (reflTop c.boundary prev.y0 r)).p = ⟨0, 0, 0⟩ := by
          intro r hh
          by_cases h1 : r.y > c.boundary
          · unfold reflTop reflBottom; rw [if_pos h1]; split_ifs <;> rfl
          · have h2 : r.y < -c.boundary := hh.resolve_left h1
            unfold reflTop reflBottom; rw [if_neg h1, if_pos h2]
        rw [← hX, ← hY] at hbig
        rcases hbig with hb | hb <;> rw [gt_iff_lt, lt_abs] at hb
        · apply zl; apply zx
          rcases hb with h | h
          · exact Or.inl h
          · exact Or.inr (by linarith)
        · apply zy; rw [yk]
          rcases hb with h | h
          · exact Or.inl h
          · exact Or.inr (by linarith)
      rw [this]
      exact ⟨rfl, rfl, rfl⟩

/-- C25: the equation of motion. From an estimate inside the boundary, a push computes the momentum change `dp` as the Lorentz force, in the fields interpolated at the midpoint of the old position and the estimate, on a particle with the old momentum plus half the same force at the old momentum, over the co-moving path `dxi`; the position (xe, ye) advances with the velocity of the mean of the old and the new momentum. If (xe, ye) is inside, that is the result; beyond the boundary it is mirrored and the momentum is zeroed; and if the mirrored position is not strictly inside either, the particle is switched off. -/
theorem moveOne_spec (c : MCfg) (F : Fields3) (prev full : Ptl) (h0 : prev.x0 = full.x0 ∧ prev.y0 = full.y0) (hq : full.q ≠ 0)
    (hp : StrictlyInside c.boundary prev) (hf : StrictlyInside c.boundary full)
    (E B p0 dp mean : Vec3) (hE : E = fieldE c F ((prev.X + full.X) / 2) ((prev.Y + full.Y) / 2)) (hB : B = fieldB c F ((prev.X + full.X) / 2) ((prev.Y + full.Y) / 2))
    (hp0 : p0 = ⟨prev.px, prev.py, prev.pz⟩)
    (hdp : dp = lorentz3 full.q full.m c.dxi E B (addHalf p0 (lorentz3 full.q full.m c.dxi E B p0)))
    (hmean : mean = ⟨p0.x + dp.x / 2, p0.y + dp.y / 2, p0.z + dp.z / 2⟩) (xe ye : ℝ)
    (hxe : xe = prev.X + mean.x / (mean.energy full.m - mean.z) * c.dxi) (hye : ye = prev.Y + mean.y / (mean.energy full.m - mean.z) * c.dxi) :
    ((|mirror c.boundary xe| ≥ c.boundary ∨ |mirror c.boundary ye| ≥ c.boundary) → Off (moveOne c F prev full)) ∧
    ((|mirror c.boundary xe| < c.boundary ∧ |mirror c.boundary ye| < c.boundary) →
      (moveOne c F prev full).q = full.q ∧ (moveOne c F prev full).X = mirror c.boundary xe ∧ (moveOne c F prev full).Y = mirror c.boundary ye ∧
      ((|xe| ≤ c.boundary ∧ |ye| ≤ c.boundary) → (moveOne c F prev full).px = p0.x + dp.x ∧ (moveOne c F prev full).py = p0.y + dp.y ∧ (moveOne c F prev full).pz = p0.z + dp.z) ∧
      ((|xe| > c.boundary ∨ |ye| > c.boundary) → (moveOne c F prev full).px = 0 ∧ (moveOne c F prev full).py = 0 ∧ (moveOne c F prev full).pz = 0)) := by
  have e : moveOne c F prev full = finish3 c prev full p0 mean dp := by
    unfold moveOne
    rw [if_neg hq, half3_inside c prev full h0 hp hf]
    simp only [kick3_lorentz]
    rw [← hE, ← hB, ← hp0, ← hdp, hmean]
    rfl
  rw [e]
  exact finish3_spec c prev full p0 mean dp h0 xe ye hxe hye

/-- C25: inside the boundary the mirror does nothing. -/
theorem mirror_id (b x : ℝ) (hx : |x| ≤ b) : mirror b x = x := by
  rw [abs_le] at hx
  unfold mirror
  rw [if_neg (by linarith), if_neg (by linarith)]

/-- C25: a particle at rest in vanishing fields stays where it is. -/
theorem moveOne_rest (c : MCfg) (F : Fields3) (p : Ptl) (hp : StrictlyInside c.boundary p) (hrest : p.px = 0 ∧ p.py = 0 ∧ p.pz = 0)
    (hF : ∀ i j, F.Ex i j = 0 ∧ F.Ey i j = 0 ∧ F.Ez i j = 0 ∧ F.Bx i j = 0 ∧ F.By i j = 0 ∧ F.Bz i j = 0) :
    moveOne c F p p = p := by
  by_cases hq : p.q = 0
  · unfold moveOne; rw [if_pos hq]
  have z : ∀ (G : ℤ → ℤ → ℝ), (∀ i j, G i j = 0) → ∀ x y, interpolate c.N x y G = 0 := by
    intro G hG x y
    unfold interpolate
    simp only [hG, zero_mul, add_zero]
    generalize stencil c.N 1 x y = l
    induction l with
    | nil => rfl
    | cons a l ih => rw [List.foldl_cons]; exact ih
  have hE : ∀ x y, fieldE c F x y = ⟨0, 0, 0⟩ := by
    intro x y; unfold fieldE; rw [z _ fun i j => (hF i j).1, z _ fun i j => (hF i j).2.1, z _ fun i j => (hF i j).2.2.1]
  have hB : ∀ x y, fieldB c F x y = ⟨0, 0, 0⟩ := by
    intro x y; unfold fieldB; rw [z _ fun i j => (hF i j).2.2.2.1, z _ fun i j => (hF i j).2.2.2.2.1, z _ fun i j => (hF i j).2.2.2.2.2]
  have hk : ∀ p' : Vec3, kick3 p.q p.m c.dxi ⟨0, 0, 0⟩ ⟨0, 0, 0⟩ p' = ⟨0, 0, 0⟩ := by intro p'; simp [kick3]
  unfold moveOne
  rw [if_neg hq]
  simp only [hE, hB, hk]
  have ha : addHalf ⟨p.px, p.py, p.pz⟩ ⟨0, 0, 0⟩ = ⟨p.px, p.py, p.pz⟩ := by simp [addHalf]
  rw [ha, finish3_inside]
  · obtain ⟨h1, h2, h3⟩ := hrest
    cases p; simp_all
  · simp only [hrest.1, zero_div, zero_mul, add_zero]; exact hp.1
  · simp only [hrest.2.1, zero_div, zero_mul, add_zero]; exact hp.2

/-- C25: without fields the momentum is conserved and the particle moves in a straight line; the field-free estimate and the push agree. -/
theorem moveOne_free (c : MCfg) (F : Fields3) (p full : Ptl) (h0 : p.x0 = full.x0 ∧ p.y0 = full.y0) (hm : full.m = p.m) (hm0 : p.m ≠ 0) (hq : full.q = p.q) (hq0 : p.q ≠ 0)
    (hp : StrictlyInside c.boundary p) (hf : StrictlyInside c.boundary full) (hnew : StrictlyInside c.boundary (moveFree c.dxi p))
    (hF : ∀ i j, F.Ex i j = 0 ∧ F.Ey i j = 0 ∧ F.Ez i j = 0 ∧ F.Bx i j = 0 ∧ F.By i j = 0 ∧ F.Bz i j = 0) :
    moveOne c F p full = moveFree c.dxi p := by
  have z : ∀ (G : ℤ → ℤ → ℝ), (∀ i j, G i j = 0) → ∀ x y, interpolate c.N x y G = 0 := by
    intro G hG x y
    unfold interpolate
    simp only [hG, zero_mul, add_zero]
    generalize stencil c.N 1 x y = l
    induction l with
    | nil => rfl
    | cons a l ih => rw [List.foldl_cons]; exact ih
  have hE : ∀ x y, fieldE c F x y = ⟨0, 0, 0⟩ := by
    intro x y; unfold fieldE; rw [z _ fun i j => (hF i j).1, z _ fun i j => (hF i j).2.1, z _ fun i j => (hF i j).2.2.1]
  have hB : ∀ x y, fieldB c F x y = ⟨0, 0, 0⟩ := by
    intro x y; unfold fieldB; rw [z _ fun i j => (hF i j).2.2.2.1, z _ fun i j => (hF i j).2.2.2.2.1, z _ fun i j => (hF i j).2.2.2.2.2]
  have hk : ∀ p' : Vec3, kick3 full.q full.m c.dxi ⟨0, 0, 0⟩ ⟨0, 0, 0⟩ p' = ⟨0, 0, 0⟩ := by intro p'; simp [kick3]
  have ha : addHalf ⟨p.px, p.py, p.pz⟩ ⟨0, 0, 0⟩ = ⟨p.px, p.py, p.pz⟩ := by simp [addHalf]
  unfold moveFree at hnew ⊢
  rw [if_neg hm0] at hnew ⊢
  simp only at hnew ⊢
  rw [sqrt_comm] at hnew ⊢
  unfold moveOne
  rw [if_neg (by rw [hq]; exact hq0), half3_inside c p full h0 hp hf]
  simp only [hE, hB, hk]
  rw [ha, finish3_inside]
  · cases p; cases full; simp only [Vec3.energy, add_zero] at *; simp_all
  · unfold Vec3.energy; rw [hm]; exact hnew.1
  · unfold Vec3.energy; rw [hm]; exact hnew.2

/-- Non-vacuity: a moving particle in a default-like window that is inside before and after the free step. -/
example : StrictlyInside (MCfg.boundary ⟨1 / 100, 1 / 10, 101, 10⟩) (moveFree (1 / 100) ⟨1, -2, 1 / 7, 3 / 7, 3, 4, 0, -1, 12⟩) ∧
    StrictlyInside (MCfg.boundary ⟨1 / 100, 1 / 10, 101, 10⟩) ⟨1, -2, 1 / 7, 3 / 7, 3, 4, 0, -1, 12⟩ := by
  have : Real.sqrt ((12 : ℝ) ^ 2 + 0 ^ 2 + 3 ^ 2 + 4 ^ 2) = 13 := by rw [show ((12 : ℝ) ^ 2 + 0 ^ 2 + 3 ^ 2 + 4 ^ 2) = 13 ^ 2 by norm_num]; exact Real.sqrt_sq (by norm_num)
  unfold moveFree
  norm_num [StrictlyInside, Ptl.X, Ptl.Y, MCfg.boundary, abs_lt] at this ⊢
  rw [this]; norm_num

end Lcode.Plasma3D
