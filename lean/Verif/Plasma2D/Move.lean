import Verif.Plasma2D.Uniform
import Mathlib.Analysis.SpecialFunctions.Trigonometric.Basic

/-!
Model of lcode/plasma/move.py, one push, and property C19. Floats are real numbers, so the `isfinite` tests (move.py:81, 121, 157) are always passed.
-/

namespace Lcode.Plasma2D

open Finset

/-! ### Model -/

/-- _interpolate_fields, move.py:8-35, for one even array (E_z, B_z): `n` is the array size, `jc` the cell, `l` the offset. -/
noncomputable def interpEven (n : ℕ) (jc : ℕ) (l : ℝ) (F : ℕ → ℝ) : ℝ :=
  let a1 := (l - 1 / 2) * (1 / 2 * (l - 1 / 2))
  let a2 := 3 / 4 - l ^ 2
  let a3 := (l + 1 / 2) * (1 / 2 * (l + 1 / 2))
  if jc ≠ n - 1 ∧ jc ≠ 0 ∧ n ≤ jc then 0 else
  let jm := if jc ≠ n - 1 ∧ jc = 0 then jc + 1 else jc - 1
  let jp := if jc = n - 1 then jc - 1 else jc + 1
  a1 * F jm + a2 * F jc + a3 * F jp

/-- _interpolate_fields, move.py:8-35, for one odd array (E_r, E_f, B_f). -/
noncomputable def interpOdd (n : ℕ) (jc : ℕ) (l : ℝ) (F : ℕ → ℝ) : ℝ :=
  let a1 := (l - 1 / 2) * (1 / 2 * (l - 1 / 2))
  let a2 := 3 / 4 - l ^ 2
  let a3 := (l + 1 / 2) * (1 / 2 * (l + 1 / 2))
  if jc ≠ n - 1 ∧ jc ≠ 0 ∧ n ≤ jc then 0 else
  let jm := if jc ≠ n - 1 ∧ jc = 0 then jc + 1 else jc - 1
  let jp := if jc = n - 1 then jc - 1 else jc + 1
  if jc = 0 then (a3 - a1) * F jm + a2 * F jc else a1 * F jm + a2 * F jc + a3 * F jp

/-- _interpolate_noisereductor, move.py:39-55. -/
noncomputable def interpNoise (n : ℕ) (amp : ℕ → ℝ) (jc : ℕ) (l h : ℝ) : ℝ :=
  if n ≤ jc then 0
  else if jc = 0 ∨ amp jc = 0 then 0
  else amp jc * h * ((Real.pi * Real.sin (Real.pi * l) + Real.cos (Real.pi * l) / jc) / (Real.pi ^ 2 + 1 / (jc : ℝ) ^ 2))

/-- The mutable part of a plasma particle. -/
structure PState where
  r : ℝ
  pr : ℝ
  pf : ℝ
  pz : ℝ
  q : ℝ

/-- Result of _move_one_particle: state, path, age. -/
structure MoveResult where
  s : PState
  path : ℝ
  age : ℝ

/-- What a push sees of its surroundings: grid size, fields (with the external field already added to B_z), noise amplitude, radial step, window radius. -/
structure Env where
  n : ℕ
  F : Flds
  noise : ℕ → ℝ
  h : ℝ
  R : ℝ

/-- The state of a particle thrown away, move.py:82, 100, 122, 159. -/
noncomputable def discarded (R : ℝ) : PState := ⟨R / 2, 0, 0, 0, 0⟩

/-- The end of _move_one_particle, move.py:138-165: `(xN, dy)` is the new position in the starting frame, `(pxN, pyN, pzN)` the new momentum. -/
noncomputable def moveFinish (e : Env) (r rPred rHalf xN dy pxN pyN pzN q age : ℝ) : MoveResult :=
  let rN := Real.sqrt (xN ^ 2 + dy ^ 2)
  let path := max (max |r - rN| |r - rPred|) |rN - rPred|
  let prN := if rN ≠ 0 then (pxN * xN + pyN * dy) / rN else pxN
  let pfN := if rN ≠ 0 then (pyN * xN - pxN * dy) / rN else 0
  -- move.py:150-155; the first branch is dead because a square root is not negative
  let rP : ℝ × ℝ × ℝ × ℝ :=
    if rN < 0 then (-rN, -prN, pfN, pzN)
    else if rN > e.R then (2 * e.R - rN, 0, 0, 0)
    else (rN, prN, pfN, pzN)
  if rP.1 > e.R ∨ rP.1 < 0 then ⟨discarded e.R, 0, 0⟩
  else if rHalf < 0 ∨ rHalf > e.R then ⟨discarded e.R, path, age⟩
  else ⟨⟨rP.1, rP.2.1, rP.2.2.1, rP.2.2.2, q⟩, path, age⟩

/-- The part of _move_one_particle after the half-step position is accepted, move.py:102-165:
`r` is the starting radius, `(px, py, pz, gm, dl)` are p_xo, p_yo, p_zo, gammam, dl_t. -/
noncomputable def moveKick (e : Env) (r rPred rHalf px py pz gm dl q m dxi : ℝ) : MoveResult :=
  let jc := ⌊rHalf / e.h + 1 / 2⌋₊
  let l := rHalf / e.h - jc
  let ex := interpOdd e.n jc l e.F.Er + interpNoise e.n e.noise jc l e.h
  let ey := interpOdd e.n jc l e.F.Ef
  let ez := interpEven e.n jc l e.F.Ez
  let bY := interpOdd e.n jc l e.F.Bf
  let bz := interpEven e.n jc l e.F.Bz
  let dpx := q * dl * (gm * ex + py * bz - pz * bY)
  let dpy := q * dl * (gm * ey - pz * ey - px * bz)
  let dpz := q * dl * (gm * ez + px * bY + py * ey)
  let px1 := px + dpx / 2
  let py1 := py + dpy / 2
  let pz1 := pz + dpz / 2
  let gm1 := Real.sqrt (m ^ 2 + px1 ^ 2 + py1 ^ 2 + pz1 ^ 2)
  if gm1 = pz1 then ⟨discarded e.R, 0, 0⟩ else
  let dl1 := dxi / (gm1 - pz1)
  let dpx := q * dl1 * (gm1 * ex + py1 * bz - pz1 * bY)
  let dpy := q * dl1 * (gm1 * ey - pz1 * ey - px1 * bz)
  let dpz := q * dl1 * (gm1 * ez + px1 * bY + py1 * ey)
  let dx := (px + dpx / 2) * dl1
  let dy := (py + dpy / 2) * dl1
  moveFinish e r rPred rHalf (r + dx) dy (px + dpx) (py + dpy) (pz + dpz) q (gm1 * dl1)

/-- _move_one_particle, move.py:59-165. -/
noncomputable def moveOne (e : Env) (m : ℝ) (s : PState) (dxi : ℝ) : MoveResult :=
  let gm := Real.sqrt (m ^ 2 + s.pr ^ 2 + s.pf ^ 2 + s.pz ^ 2)
  if gm = s.pz then ⟨discarded e.R, 0, 0⟩ else
  let dl := dxi / (gm - s.pz)
  let rPred := s.r + s.pr * dl / 2
  if rPred < 0 then
    if -rPred < 0 ∨ -rPred > e.R then ⟨discarded e.R, |s.r - rPred|, gm * dl⟩
    else moveKick e s.r rPred (-rPred) s.pr s.pf s.pz gm dl s.q m dxi
  else if rPred > e.R then
    if 2 * e.R - rPred < 0 ∨ 2 * e.R - rPred > e.R then ⟨discarded e.R, |s.r - rPred|, m * (dxi / m)⟩
    else moveKick e s.r rPred (2 * e.R - rPred) 0 0 0 m (dxi / m) s.q m dxi
  else moveKick e s.r rPred rPred s.pr s.pf s.pz gm dl s.q m dxi

/-! ### Interpolation: the same shape as the deposition -/

theorem sum_field_list (M : ℕ) (F : ℕ → ℝ) (L : List (ℤ × ℝ × ℝ)) (w : ℤ × ℝ × ℝ → ℝ) (hL : ∀ t ∈ L, 0 ≤ t.1 ∧ t.1 ≤ M) :
    ∑ i ∈ range (M + 1), F i * (L.map fun t => if (i : ℤ) = t.1 then w t else 0).sum = (L.map fun t => F t.1.toNat * w t).sum := by
  induction L with
  | nil => simp
  | cons t L ih =>
    simp only [List.map_cons, List.sum_cons, mul_add, sum_add_distrib]
    rw [ih (fun t ht => hL t (List.mem_cons_of_mem _ ht))]
    congr 1
    obtain ⟨h1, h2⟩ := hL t List.mem_cons_self
    rw [sum_eq_single t.1.toNat]
    · rw [if_pos (by omega)]
    · intro j _ hj
      rw [if_neg (by omega), mul_zero]
    · intro h; rw [mem_range] at h; omega

/-- C19 (fields seen by the particle): the interpolated value is the sum over the grid of field times the deposition shape:
symmetric for the longitudinal, antisymmetric for the transverse components. -/
theorem interp_shape (M : ℕ) (hM : 1 ≤ M) (x : ℝ) (hx0 : 0 ≤ x) (hx1 : x < M + 1 / 2) (F : ℕ → ℝ) :
    interpEven (M + 1) ⌊x + 1 / 2⌋₊ (x - ⌊x + 1 / 2⌋₊) F = ∑ i ∈ range (M + 1), F i * shape M 1 i x ∧
    interpOdd (M + 1) ⌊x + 1 / 2⌋₊ (x - ⌊x + 1 / 2⌋₊) F = ∑ i ∈ range (M + 1), F i * shape M (-1) i x := by
  have hM' : (1 : ℤ) ≤ M := by exact_mod_cast hM
  have hx1' : x < ((M : ℤ) : ℝ) + 1 / 2 := by rw [Int.cast_natCast]; exact hx1
  have hd := fun i : ℤ => deposit_shape (M : ℤ) hM' x 1 hx0 hx1' (fun _ => 0) i
  unfold depositEven depositOdd at hd
  simp only [one_mul] at hd
  simp only [foldl_addAt (K := ℝ) (fun t => t.2.1), foldl_addAt (K := ℝ) (fun t => t.2.2), zero_add] at hd
  have hb := writes_in_grid (M : ℤ) hM' x hx0 hx1'
  simp only [← (hd _).1, ← (hd _).2]
  rw [sum_field_list M F _ (fun t => t.2.1) hb, sum_field_list M F _ (fun t => t.2.2) hb]
  have hfl : ⌊x + 1 / 2⌋ = ((⌊x + 1 / 2⌋₊ : ℕ) : ℤ) := (Int.natCast_floor_eq_floor (by linarith)).symm
  have hcM : ⌊x + 1 / 2⌋₊ ≤ M := by
    have : ⌊x + 1 / 2⌋₊ < M + 1 := by
      rw [Nat.floor_lt (by linarith)]; push_cast; linarith
    omega
  unfold contributions
  simp only [hfl]
  generalize ⌊x + 1 / 2⌋₊ = c at hcM
  rw [Int.cast_natCast]
  generalize x - (c : ℝ) = l
  unfold interpEven interpOdd weightQuadratic
  have hcc : c = 0 ∨ (1 ≤ c ∧ c < M) ∨ c = M ∧ 1 ≤ c := by omega
  rcases hcc with h0 | ⟨h0, h0'⟩ | ⟨h0, h0'⟩
  · simp (disch := omega) only [if_pos, if_neg, List.map_cons, List.map_nil, List.sum_cons, List.sum_nil, List.cons_append, List.nil_append]
    rw [show ((c : ℤ) + 0).toNat = c by omega, show ((c : ℤ) + 1).toNat = c + 1 by omega, show (1 : ℤ).toNat = c + 1 by omega]
    simp only [if_true]
    constructor <;> ring
  · simp (disch := omega) only [if_pos, if_neg, List.map_cons, List.map_nil, List.sum_cons, List.sum_nil, List.nil_append]
    rw [show ((c : ℤ) + -1).toNat = c - 1 by omega, show ((c : ℤ) + 0).toNat = c by omega, show ((c : ℤ) + 1).toNat = c + 1 by omega]
    simp only [if_true]
    constructor <;> ring
  · subst h0
    have hn : ¬ (c : ℤ) = 0 := by omega
    have hn' : ¬ c = 0 := by omega
    simp (disch := omega) only [if_pos, if_neg, List.map_cons, List.map_nil, List.sum_cons, List.sum_nil, List.nil_append, and_true]
    rw [show ((c : ℤ) + -1).toNat = c - 1 by omega, show ((c : ℤ) + 0).toNat = c by omega]
    rw [show ((c : ℤ) + 1 - 2).toNat = c - 1 by omega]
    simp only [if_true]
    constructor <;> ring

/-! ### C19 -/

theorem finish_in_window (e : Env) (hR : 0 < e.R) (r rPred rHalf xN dy pxN pyN pzN q age : ℝ) :
    let s' := (moveFinish e r rPred rHalf xN dy pxN pyN pzN q age).s
    (0 ≤ s'.r ∧ s'.r ≤ e.R) ∧ (s'.q = q ∨ s' = discarded e.R) := by
  have hdis : (0 ≤ (discarded e.R).r ∧ (discarded e.R).r ≤ e.R) := by
    unfold discarded; constructor <;> simp only <;> linarith
  unfold moveFinish
  simp only
  generalize (if Real.sqrt (xN ^ 2 + dy ^ 2) < 0 then _ else _ : ℝ × ℝ × ℝ × ℝ) = rP
  by_cases h : rP.1 > e.R ∨ rP.1 < 0
  · rw [if_pos h]; exact ⟨hdis, Or.inr rfl⟩
  · rw [if_neg h]
    rw [not_or, not_lt, not_lt] at h
    by_cases h2 : rHalf < 0 ∨ rHalf > e.R
    · rw [if_pos h2]; exact ⟨hdis, Or.inr rfl⟩
    · rw [if_neg h2]; exact ⟨⟨h.2, h.1⟩, Or.inl rfl⟩

theorem kick_in_window (e : Env) (hR : 0 < e.R) (r rPred rHalf px py pz gm dl q m dxi : ℝ) :
    let s' := (moveKick e r rPred rHalf px py pz gm dl q m dxi).s
    (0 ≤ s'.r ∧ s'.r ≤ e.R) ∧ (s'.q = q ∨ s' = discarded e.R) := by
  have hdis : (0 ≤ (discarded e.R).r ∧ (discarded e.R).r ≤ e.R) := by
    unfold discarded; constructor <;> simp only <;> linarith
  unfold moveKick
  simp only
  split_ifs
  · exact ⟨hdis, Or.inr rfl⟩
  · exact finish_in_window e hR _ _ _ _ _ _ _ _ _ _

/-- C19. Whatever the particle, the fields and the step are: after a push the radius lies in [0, R], and the particle either keeps its charge
or is thrown away as a whole (no charge, no momentum). -/
theorem push_in_window (e : Env) (hR : 0 < e.R) (m : ℝ) (s : PState) (dxi : ℝ) :
    let s' := (moveOne e m s dxi).s
    (0 ≤ s'.r ∧ s'.r ≤ e.R) ∧ (s'.q = s.q ∨ s' = discarded e.R) := by
  have hdis : (0 ≤ (discarded e.R).r ∧ (discarded e.R).r ≤ e.R) := by
    unfold discarded; constructor <;> simp only <;> linarith
  unfold moveOne
  simp only
  split_ifs <;> first
    | exact ⟨hdis, Or.inr rfl⟩
    | exact kick_in_window e hR _ _ _ _ _ _ _ _ _ _ _

/-! ### Specification of the push -/

/-- Vectors (x, y, z) in the frame whose x axis points to the starting position. -/
@[ext] structure Vec where
  x : ℝ
  y : ℝ
  z : ℝ

/-- `a + t b` -/
noncomputable def Vec.axpy (a : Vec) (t : ℝ) (b : Vec) : Vec := ⟨a.x + t * b.x, a.y + t * b.y, a.z + t * b.z⟩

noncomputable def Vec.cross (a b : Vec) : Vec := ⟨a.y * b.z - a.z * b.y, a.z * b.x - a.x * b.z, a.x * b.y - a.y * b.x⟩

/-- `gamma m` of a momentum -/
noncomputable def Vec.energy (m : ℝ) (p : Vec) : ℝ := Real.sqrt (m ^ 2 + p.x ^ 2 + p.y ^ 2 + p.z ^ 2)

/-- Lorentz force times `gamma m`: `q (gamma m E + p × B)`. -/
noncomputable def lorentz (m q : ℝ) (E B p : Vec) : Vec := Vec.axpy ⟨0, 0, 0⟩ q (Vec.axpy (p.cross B) (p.energy m) E)

/-- Time-like step of a particle for a step `dxi` in the co-moving coordinate. -/
noncomputable def timeStep (m dxi : ℝ) (p : Vec) : ℝ := dxi / (p.energy m - p.z)

/-- Half-step momentum. -/
noncomputable def midMomentum (m q dxi : ℝ) (E B p : Vec) : Vec := p.axpy (timeStep m dxi p / 2) (lorentz m q E B p)

/-- Full-step momentum: the force and the time step are those of the half-step momentum. -/
noncomputable def newMomentum (m q dxi : ℝ) (E B p : Vec) : Vec :=
  p.axpy (timeStep m dxi (midMomentum m q dxi E B p)) (lorentz m q E B (midMomentum m q dxi E B p))

/-- New position: the mean of old and new momentum acting for the half-step time step. -/
noncomputable def newPosition (m q dxi : ℝ) (E B p : Vec) (r : ℝ) : Vec :=
  Vec.axpy ⟨r, 0, 0⟩ (timeStep m dxi (midMomentum m q dxi E B p)) (Vec.axpy ⟨0, 0, 0⟩ (1 / 2) (p.axpy 1 (newMomentum m q dxi E B p)))

/-- Fields at normalised radius `x`: shape-weighted sums over the grid plus the noise correction of E_x; the radial magnetic field of a quasistatic wake is -E_phi. -/
noncomputable def fieldE (e : Env) (M : ℕ) (x : ℝ) : Vec :=
  ⟨∑ i ∈ range (M + 1), e.F.Er i * shape M (-1) i x + interpNoise e.n e.noise ⌊x + 1 / 2⌋₊ (x - ⌊x + 1 / 2⌋₊) e.h,
   ∑ i ∈ range (M + 1), e.F.Ef i * shape M (-1) i x, ∑ i ∈ range (M + 1), e.F.Ez i * shape M 1 i x⟩

noncomputable def fieldB (e : Env) (M : ℕ) (x : ℝ) : Vec :=
  ⟨-∑ i ∈ range (M + 1), e.F.Ef i * shape M (-1) i x, ∑ i ∈ range (M + 1), e.F.Bf i * shape M (-1) i x,
   ∑ i ∈ range (M + 1), e.F.Bz i * shape M 1 i x⟩

theorem energy_gt (m : ℝ) (hm : 0 < m) (p : Vec) : p.z < p.energy m := by
  unfold Vec.energy
  apply Real.lt_sqrt_of_sq_lt
  have : 0 < m ^ 2 := by positivity
  nlinarith [sq_nonneg p.x, sq_nonneg p.y]

/-- The kick of the code is the specified one. -/
theorem kick_eq (e : Env) (M : ℕ) (hM : 1 ≤ M) (hn : e.n = M + 1) (r rPred rHalf : ℝ) (p : Vec) (q m dxi : ℝ) (hm : 0 < m)
    (h0 : 0 ≤ rHalf / e.h) (hx : rHalf / e.h < M + 1 / 2) :
    moveKick e r rPred rHalf p.x p.y p.z (p.energy m) (timeStep m dxi p) q m dxi =
      moveFinish e r rPred rHalf (newPosition m q dxi (fieldE e M (rHalf / e.h)) (fieldB e M (rHalf / e.h)) p r).x
        (newPosition m q dxi (fieldE e M (rHalf / e.h)) (fieldB e M (rHalf / e.h)) p r).y
        (newMomentum m q dxi (fieldE e M (rHalf / e.h)) (fieldB e M (rHalf / e.h)) p).x
        (newMomentum m q dxi (fieldE e M (rHalf / e.h)) (fieldB e M (rHalf / e.h)) p).y
        (newMomentum m q dxi (fieldE e M (rHalf / e.h)) (fieldB e M (rHalf / e.h)) p).z q
        ((midMomentum m q dxi (fieldE e M (rHalf / e.h)) (fieldB e M (rHalf / e.h)) p).energy m *
          timeStep m dxi (midMomentum m q dxi (fieldE e M (rHalf / e.h)) (fieldB e M (rHalf / e.h)) p)) := by
  have i1 := (interp_shape M hM _ h0 hx e.F.Er).2
  have i2 := (interp_shape M hM _ h0 hx e.F.Ef).2
  have i3 := (interp_shape M hM _ h0 hx e.F.Ez).1
  have i4 := (interp_shape M hM _ h0 hx e.F.Bf).2
  have i5 := (interp_shape M hM _ h0 hx e.F.Bz).1
  unfold moveKick
  simp only [hn, i1, i2, i3, i4, i5]
  unfold fieldE fieldB
  simp only [hn]
  generalize ∑ i ∈ range (M + 1), e.F.Er i * shape M (-1) i (rHalf / e.h) + interpNoise (M + 1) e.noise ⌊rHalf / e.h + 1 / 2⌋₊ (rHalf / e.h - ⌊rHalf / e.h + 1 / 2⌋₊) e.h = ex
  generalize ∑ i ∈ range (M + 1), e.F.Ef i * shape M (-1) i (rHalf / e.h) = ey
  generalize ∑ i ∈ range (M + 1), e.F.Ez i * shape M 1 i (rHalf / e.h) = ez
  generalize ∑ i ∈ range (M + 1), e.F.Bf i * shape M (-1) i (rHalf / e.h) = bY
  generalize ∑ i ∈ range (M + 1), e.F.Bz i * shape M 1 i (rHalf / e.h) = bz
  generalize hmid : midMomentum m q dxi ⟨ex, ey, ez⟩ ⟨-ey, bY, bz⟩ p = mid
  have mx : p.x + q * timeStep m dxi p * (p.energy m * ex + p.y * bz - p.z * bY) / 2 = mid.x := by
    rw [← hmid]; simp only [midMomentum, lorentz, Vec.axpy, Vec.cross]; ring
  have my : p.y + q * timeStep m dxi p * (p.energy m * ey - p.z * ey - p.x * bz) / 2 = mid.y := by
    rw [← hmid]; simp only [midMomentum, lorentz, Vec.axpy, Vec.cross]; ring
  have mz : p.z + q * timeStep m dxi p * (p.energy m * ez + p.x * bY + p.y * ey) / 2 = mid.z := by
    rw [← hmid]; simp only [midMomentum, lorentz, Vec.axpy, Vec.cross]; ring
  simp only [mx, my, mz]
  have hE : Real.sqrt (m ^ 2 + mid.x ^ 2 + mid.y ^ 2 + mid.z ^ 2) = mid.energy m := rfl
  rw [hE, if_neg (energy_gt m hm mid).ne', show dxi / (mid.energy m - mid.z) = timeStep m dxi mid from rfl]
  unfold newPosition newMomentum
  rw [hmid]
  simp only [lorentz, Vec.axpy, Vec.cross]
  congr 1 <;> ring

/-- Specification of the end of a push that starts at radius `r` with momentum `p` and sees the fields at radius `rHalf`:
inside the window the particle is where the leapfrog puts it, with its momentum turned into the new radial frame;
beyond the wall (up to one window radius) it is mirrored and stopped; further out it is thrown away.
The path is the largest distance between start, predicted half point and end. -/
def PushOutcome (e : Env) (M : ℕ) (r rPred rHalf : ℝ) (p : Vec) (q m dxi : ℝ) (res : MoveResult) : Prop :=
  let E := fieldE e M (rHalf / e.h)
  let B := fieldB e M (rHalf / e.h)
  let pN := newMomentum m q dxi E B p
  let X := newPosition m q dxi E B p r
  let rN := Real.sqrt (X.x ^ 2 + X.y ^ 2)
  (rN ≤ e.R → res.s.r = rN ∧ res.s.q = q ∧ res.s.pz = pN.z ∧ rN * res.s.pr = X.x * pN.x + X.y * pN.y ∧
    rN * res.s.pf = X.x * pN.y - X.y * pN.x ∧ (rN = 0 → res.s.pr = pN.x ∧ res.s.pf = 0)) ∧
  (e.R < rN → rN ≤ 2 * e.R → res.s = ⟨2 * e.R - rN, 0, 0, 0, q⟩) ∧
  (2 * e.R < rN → res.s = discarded e.R) ∧
  (rN ≤ 2 * e.R → res.path = max (max |r - rN| |r - rPred|) |rN - rPred| ∧
    res.age = (midMomentum m q dxi E B p).energy m * timeStep m dxi (midMomentum m q dxi E B p))

theorem kick_spec (e : Env) (M : ℕ) (hM : 1 ≤ M) (hn : e.n = M + 1) (r rPred rHalf : ℝ) (p : Vec) (q m dxi : ℝ) (hm : 0 < m)
    (h0 : 0 ≤ rHalf) (h1 : rHalf ≤ e.R) (hx : rHalf / e.h < M + 1 / 2) (hh : 0 < e.h) :
    PushOutcome e M r rPred rHalf p q m dxi (moveKick e r rPred rHalf p.x p.y p.z (p.energy m) (timeStep m dxi p) q m dxi) := by
  unfold PushOutcome
  intro E B pN X rN
  have hres : moveKick e r rPred rHalf p.x p.y p.z (p.energy m) (timeStep m dxi p) q m dxi = moveFinish e r rPred rHalf X.x X.y pN.x pN.y pN.z q _ := kick_eq e M hM hn r rPred rHalf p q m dxi hm (by positivity) hx
  rw [hres]
  have hrN0 : 0 ≤ rN := Real.sqrt_nonneg _
  have hRR : 0 ≤ e.R := le_trans h0 h1
  have hhalf : ¬ (rHalf < 0 ∨ rHalf > e.R) := by rw [not_or, not_lt, not_lt]; exact ⟨h0, h1⟩
  unfold moveFinish
  simp only
  change (_ → (if (if rN < 0 then _ else _ : ℝ × ℝ × ℝ × ℝ).1 > e.R ∨ _ then _ else _ : MoveResult).s.r = _ ∧ _) ∧ _
  have hneg : ¬ rN < 0 := not_lt.mpr hrN0
  simp only [show Real.sqrt (X.x ^ 2 + X.y ^ 2) = rN from rfl, if_neg hneg, if_neg hhalf]
  refine ⟨?_, ?_, ?_, ?_⟩
  · intro hle
    have hgt : ¬ rN > e.R := not_lt.mpr hle
    have hc : ¬ (rN > e.R ∨ rN < 0) := by rw [not_or]; exact ⟨hgt, hneg⟩
    simp only [if_neg hgt, if_neg hc]
    refine ⟨trivial, trivial, trivial, ?_, ?_, ?_⟩
    · by_cases hz : rN = 0
      · have hs : X.x ^ 2 + X.y ^ 2 = 0 := by
          have := (Real.sqrt_eq_zero (by positivity)).mp hz; exact this
        have hx0 : X.x = 0 := by nlinarith [sq_nonneg X.x, sq_nonneg X.y]
        have hy0 : X.y = 0 := by nlinarith [sq_nonneg X.x, sq_nonneg X.y]
        rw [hz, hx0, hy0]; simp
      · rw [if_pos hz]; field_simp
    · by_cases hz : rN = 0
      · have hs : X.x ^ 2 + X.y ^ 2 = 0 := by
          have := (Real.sqrt_eq_zero (by positivity)).mp hz; exact this
        have hx0 : X.x = 0 := by nlinarith [sq_nonneg X.x, sq_nonneg X.y]
        have hy0 : X.y = 0 := by nlinarith [sq_nonneg X.x, sq_nonneg X.y]
        rw [hz, hx0, hy0]; simp
      · rw [if_pos hz]; field_simp
    · intro hz
      rw [if_neg (not_not.mpr hz), if_neg (not_not.mpr hz)]
      exact ⟨rfl, rfl⟩
  · intro hgt hle
    have hc : ¬ (2 * e.R - rN > e.R ∨ 2 * e.R - rN < 0) := by
      rw [not_or, not_lt, not_lt]; constructor <;> linarith
    simp only [if_pos hgt, if_neg hc]
  · intro hgt
    have hgt' : e.R < rN := by linarith
    have hc : (2 * e.R - rN > e.R ∨ 2 * e.R - rN < 0) := Or.inr (by linarith)
    simp only [if_pos hgt', if_pos hc]
  · intro hle
    by_cases hgt : rN > e.R
    · have hc : ¬ (2 * e.R - rN > e.R ∨ 2 * e.R - rN < 0) := by
        rw [not_or, not_lt, not_lt]; constructor <;> linarith
      simp only [if_pos hgt, if_neg hc]; exact ⟨trivial, rfl⟩
    · have hc : ¬ (rN > e.R ∨ rN < 0) := by rw [not_or]; exact ⟨hgt, hneg⟩
      simp only [if_neg hgt, if_neg hc]; exact ⟨trivial, rfl⟩

/-- The predicted half-step radius. -/
noncomputable def predicted (m dxi r : ℝ) (p : Vec) : ℝ := r + timeStep m dxi p / 2 * p.x

/-- C19: one push is the relativistic leapfrog step in the interpolated fields. A predicted half point beyond the axis is mirrored;
one beyond the wall is mirrored and the particle starts from rest; one that is outside even after mirroring makes the particle disappear. -/
theorem push_spec (e : Env) (M : ℕ) (hM : 1 ≤ M) (hn : e.n = M + 1) (hh : 0 < e.h) (hR : e.R < (M + 1 / 2) * e.h)
    (m : ℝ) (hm : 0 < m) (s : PState) (dxi : ℝ) :
    let p : Vec := ⟨s.pr, s.pf, s.pz⟩
    let rP := predicted m dxi s.r p
    let res := moveOne e m s dxi
    (-e.R ≤ rP → rP ≤ e.R → PushOutcome e M s.r rP |rP| p s.q m dxi res) ∧
    (e.R < rP → rP ≤ 2 * e.R → PushOutcome e M s.r rP (2 * e.R - rP) ⟨0, 0, 0⟩ s.q m dxi res) ∧
    (rP < -e.R ∨ (0 ≤ e.R ∧ 2 * e.R < rP) → res.s = discarded e.R) := by
  intro p rP res
  have hE : Real.sqrt (m ^ 2 + s.pr ^ 2 + s.pf ^ 2 + s.pz ^ 2) = p.energy m := rfl
  have hlt := energy_gt m hm p
  have hT : dxi / (p.energy m - s.pz) = timeStep m dxi p := rfl
  have hP : s.r + s.pr * timeStep m dxi p / 2 = rP := by
    show _ = s.r + timeStep m dxi p / 2 * s.pr
    ring
  have hx : ∀ x, x ≤ e.R → x / e.h < M + 1 / 2 := by
    intro x hx; rw [div_lt_iff₀ hh]; linarith
  have hres : res = if rP < 0 then
      if -rP < 0 ∨ -rP > e.R then ⟨discarded e.R, |s.r - rP|, p.energy m * timeStep m dxi p⟩
      else moveKick e s.r rP (-rP) s.pr s.pf s.pz (p.energy m) (timeStep m dxi p) s.q m dxi
    else if rP > e.R then
      if 2 * e.R - rP < 0 ∨ 2 * e.R - rP > e.R then ⟨discarded e.R, |s.r - rP|, m * (dxi / m)⟩
      else moveKick e s.r rP (2 * e.R - rP) 0 0 0 m (dxi / m) s.q m dxi
    else moveKick e s.r rP rP s.pr s.pf s.pz (p.energy m) (timeStep m dxi p) s.q m dxi := by
    show moveOne e m s dxi = _
    unfold moveOne
    simp only [hE]
    rw [if_neg (show ¬ p.energy m = s.pz from hlt.ne')]
    simp only [hT, hP]
  refine ⟨?_, ?_, ?_⟩
  · intro h1 h2
    by_cases hn0 : rP < 0
    · rw [hres, if_pos hn0, if_neg (by rw [not_or, not_lt, not_lt]; constructor <;> linarith), abs_of_neg hn0]
      exact kick_spec e M hM hn s.r rP (-rP) p s.q m dxi hm (by linarith) (by linarith) (hx _ (by linarith)) hh
    · rw [hres, if_neg hn0, if_neg (by linarith), abs_of_nonneg (not_lt.mp hn0)]
      exact kick_spec e M hM hn s.r rP rP p s.q m dxi hm (not_lt.mp hn0) h2 (hx _ h2) hh
  · intro h1 h2
    have hn0 : ¬ rP < 0 := by linarith
    rw [hres, if_neg hn0, if_pos h1, if_neg (by rw [not_or, not_lt, not_lt]; constructor <;> linarith)]
    have := kick_spec e M hM hn s.r rP (2 * e.R - rP) ⟨0, 0, 0⟩ s.q m dxi hm (by linarith) (by linarith) (hx _ (by linarith)) hh
    have e1 : (⟨0, 0, 0⟩ : Vec).energy m = m := by
      unfold Vec.energy; simp [Real.sqrt_sq hm.le]
    have e2 : timeStep m dxi ⟨0, 0, 0⟩ = dxi / m := by
      unfold timeStep; rw [e1]; simp
    rw [e1, e2] at this
    exact this
  · intro h
    rcases h with h | ⟨h0, h⟩
    · by_cases hn0 : rP < 0
      · rw [hres, if_pos hn0, if_pos (Or.inr (by linarith))]
      · rw [hres, if_neg hn0, if_pos (by linarith), if_pos]
        by_contra hc
        rw [not_or, not_lt, not_lt] at hc
        linarith
    · rw [hres, if_neg (by linarith), if_pos (by linarith), if_pos (Or.inl (by linarith))]

/-- C19: in an empty space (no fields) a particle that stays in the window moves on a straight line, keeping its longitudinal momentum,
the length of its transverse momentum and its angular momentum. -/
theorem free_push (e : Env) (M : ℕ) (hM : 1 ≤ M) (hn : e.n = M + 1) (hh : 0 < e.h) (hR : e.R < (M + 1 / 2) * e.h)
    (hF : ∀ i ≤ M, e.F.Er i = 0 ∧ e.F.Ef i = 0 ∧ e.F.Ez i = 0 ∧ e.F.Bf i = 0 ∧ e.F.Bz i = 0) (hN : ∀ i, e.noise i = 0)
    (m : ℝ) (hm : 0 < m) (s : PState) (dxi : ℝ) :
    let t := dxi / (Real.sqrt (m ^ 2 + s.pr ^ 2 + s.pf ^ 2 + s.pz ^ 2) - s.pz)
    let rN := Real.sqrt ((s.r + t * s.pr) ^ 2 + (t * s.pf) ^ 2)
    let s' := (moveOne e m s dxi).s
    |s.r + t * s.pr / 2| ≤ e.R → rN ≤ e.R → rN ≠ 0 →
    s'.r = rN ∧ s'.q = s.q ∧ s'.pz = s.pz ∧ s'.r * s'.pf = s.r * s.pf ∧ s'.pr ^ 2 + s'.pf ^ 2 = s.pr ^ 2 + s.pf ^ 2 := by
  intro t rN s' h1 h2 h3
  set p : Vec := ⟨s.pr, s.pf, s.pz⟩ with hp
  have ht : t = timeStep m dxi p := rfl
  have hP : predicted m dxi s.r p = s.r + t * s.pr / 2 := by
    rw [ht]; unfold predicted; ring
  obtain ⟨a, b⟩ := abs_le.mp h1
  have hout := (push_spec e M hM hn hh hR m hm s dxi).1 (by rw [← hp, hP]; exact a) (by rw [← hp, hP]; exact b)
  rw [← hp] at hout
  unfold PushOutcome at hout
  have hzE : fieldE e M (|predicted m dxi s.r p| / e.h) = ⟨0, 0, 0⟩ := by
    unfold fieldE
    rw [sum_eq_zero (fun i hi => by rw [(hF i (by rw [mem_range] at hi; omega)).1, zero_mul]),
      sum_eq_zero (fun i hi => by rw [(hF i (by rw [mem_range] at hi; omega)).2.1, zero_mul]),
      sum_eq_zero (fun i hi => by rw [(hF i (by rw [mem_range] at hi; omega)).2.2.1, zero_mul])]
    have : ∀ jc l, interpNoise e.n e.noise jc l e.h = 0 := by
      intro jc l; unfold interpNoise; simp [hN]
    rw [this]; simp
  have hzB : fieldB e M (|predicted m dxi s.r p| / e.h) = ⟨0, 0, 0⟩ := by
    unfold fieldB
    rw [sum_eq_zero (fun i hi => by rw [(hF i (by rw [mem_range] at hi; omega)).2.1, zero_mul]),
      sum_eq_zero (fun i hi => by rw [(hF i (by rw [mem_range] at hi; omega)).2.2.2.1, zero_mul]),
      sum_eq_zero (fun i hi => by rw [(hF i (by rw [mem_range] at hi; omega)).2.2.2.2, zero_mul])]
    simp
  have hl : ∀ p', lorentz m s.q ⟨0, 0, 0⟩ ⟨0, 0, 0⟩ p' = ⟨0, 0, 0⟩ := by
    intro p'; unfold lorentz Vec.axpy Vec.cross; simp
  have hmid : midMomentum m s.q dxi ⟨0, 0, 0⟩ ⟨0, 0, 0⟩ p = p := by
    unfold midMomentum; rw [hl]; unfold Vec.axpy; simp
  have hnew : newMomentum m s.q dxi ⟨0, 0, 0⟩ ⟨0, 0, 0⟩ p = p := by
    unfold newMomentum; rw [hl]; unfold Vec.axpy; simp
  have hpos : newPosition m s.q dxi ⟨0, 0, 0⟩ ⟨0, 0, 0⟩ p s.r = ⟨s.r + t * s.pr, t * s.pf, t * s.pz⟩ := by
    unfold newPosition; rw [hmid, hnew, ← ht]; unfold Vec.axpy; ext <;> simp only [hp] <;> ring
  simp only [hzE, hzB, hnew, hpos] at hout
  obtain ⟨o1, o2, o3, o4, o5, -⟩ := hout.1 h2
  change s'.r = rN at o1
  change rN * s'.pr = _ at o4
  change rN * s'.pf = _ at o5
  change s'.q = s.q at o2
  change s'.pz = s.pz at o3
  simp only [hp] at o4 o5
  have hsq : rN ^ 2 = (s.r + t * s.pr) ^ 2 + (t * s.pf) ^ 2 := Real.sq_sqrt (by positivity)
  refine ⟨o1, o2, o3, ?_, ?_⟩
  · rw [o1, o5]; ring
  · have h4 : rN ^ 2 ≠ 0 := pow_ne_zero 2 h3
    apply mul_left_cancel₀ h4
    have : rN ^ 2 * (s'.pr ^ 2 + s'.pf ^ 2) = (rN * s'.pr) ^ 2 + (rN * s'.pf) ^ 2 := by ring
    rw [this, o4, o5, hsq]; ring

/-- C19: a particle at rest without electric field stays exactly where it is, whatever the magnetic field. -/
theorem push_at_rest (e : Env) (M : ℕ) (hM : 1 ≤ M) (hn : e.n = M + 1) (hh : 0 < e.h) (hR : e.R < (M + 1 / 2) * e.h)
    (hF : ∀ i ≤ M, e.F.Er i = 0 ∧ e.F.Ef i = 0 ∧ e.F.Ez i = 0) (hN : ∀ i, e.noise i = 0)
    (m : ℝ) (hm : 0 < m) (r q dxi : ℝ) (h0 : 0 ≤ r) (h1 : r ≤ e.R) :
    moveOne e m ⟨r, 0, 0, 0, q⟩ dxi = ⟨⟨r, 0, 0, 0, q⟩, 0, dxi⟩ := by
  have e1 : (⟨0, 0, 0⟩ : Vec).energy m = m := by
    unfold Vec.energy; simp [Real.sqrt_sq hm.le]
  have e2 : timeStep m dxi ⟨0, 0, 0⟩ = dxi / m := by
    unfold timeStep; rw [e1]; simp
  have hP : predicted m dxi r ⟨0, 0, 0⟩ = r := by unfold predicted; simp
  have hout := (push_spec e M hM hn hh hR m hm ⟨r, 0, 0, 0, q⟩ dxi).1 (by simp only; rw [hP]; linarith) (by simp only; rw [hP]; exact h1)
  simp only [hP, abs_of_nonneg h0] at hout
  unfold PushOutcome at hout
  have hzE : fieldE e M (r / e.h) = ⟨0, 0, 0⟩ := by
    unfold fieldE
    rw [sum_eq_zero (fun i hi => by rw [(hF i (by rw [mem_range] at hi; omega)).1, zero_mul]),
      sum_eq_zero (fun i hi => by rw [(hF i (by rw [mem_range] at hi; omega)).2.1, zero_mul]),
      sum_eq_zero (fun i hi => by rw [(hF i (by rw [mem_range] at hi; omega)).2.2, zero_mul])]
    have : ∀ jc l, interpNoise e.n e.noise jc l e.h = 0 := by
      intro jc l; unfold interpNoise; simp [hN]
    rw [this]; simp
  have hl : ∀ B, lorentz m q ⟨0, 0, 0⟩ B ⟨0, 0, 0⟩ = ⟨0, 0, 0⟩ := by
    intro B; unfold lorentz Vec.axpy Vec.cross; simp
  have hmid : ∀ B, midMomentum m q dxi ⟨0, 0, 0⟩ B ⟨0, 0, 0⟩ = ⟨0, 0, 0⟩ := by
    intro B; unfold midMomentum; rw [hl]; unfold Vec.axpy; simp
  have hnew : ∀ B, newMomentum m q dxi ⟨0, 0, 0⟩ B ⟨0, 0, 0⟩ = ⟨0, 0, 0⟩ := by
    intro B; unfold newMomentum; rw [hmid, hl]; unfold Vec.axpy; simp
  have hpos : ∀ B, newPosition m q dxi ⟨0, 0, 0⟩ B ⟨0, 0, 0⟩ r = ⟨r, 0, 0⟩ := by
    intro B; unfold newPosition; rw [hnew]; unfold Vec.axpy; simp
  simp only [hzE, hnew, hpos, hmid, e1, e2] at hout
  have hs : Real.sqrt (r ^ 2 + 0 ^ 2) = r := by simp [Real.sqrt_sq h0]
  rw [hs] at hout
  obtain ⟨o1, -, -, o4⟩ := hout
  obtain ⟨a1, a2, a3, a4, a5, a6⟩ := o1 h1
  obtain ⟨b1, b2⟩ := o4 (by linarith)
  generalize moveOne e m ⟨r, 0, 0, 0, q⟩ dxi = res at *
  obtain ⟨⟨r', pr', pf', pz', q'⟩, path, age⟩ := res
  simp only at a1 a2 a3 a4 a5 a6 b1 b2
  have c1 : pr' = 0 := by
    by_cases hz : r = 0
    · exact (a6 hz).1
    · have : r * pr' = 0 := by rw [a4]; ring
      exact (mul_eq_zero.mp this).resolve_left hz
  have c2 : pf' = 0 := by
    by_cases hz : r = 0
    · exact (a6 hz).2
    · have : r * pf' = 0 := by rw [a5]; ring
      exact (mul_eq_zero.mp this).resolve_left hz
  have c3 : path = 0 := by rw [b1]; simp
  have c4 : age = dxi := by rw [b2]; field_simp
  rw [a1, a2, a3, c1, c2, c3, c4]

/-- Non-vacuity: a grid of five cells with window radius 5, and fields that are not zero. -/
example : ∃ e : Env, e.n = 5 + 1 ∧ 0 < e.h ∧ e.R < ((5 : ℕ) + 1 / 2) * e.h ∧ e.F.Ez 0 ≠ 0 :=
  ⟨⟨6, ⟨fun i => i, 0, fun _ => 1, 0, 0⟩, 0, 1, 5⟩, rfl, by norm_num, by norm_num, by norm_num⟩

end Lcode.Plasma2D
