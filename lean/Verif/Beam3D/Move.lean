import Verif.Beam3D.Deposit
import Verif.Plasma3D.Move
import Verif.Beam2D.Sweep

/-!
Model of lcode/beam3d/move.py (CPU kernel). Properties C32, C33.
-/

namespace Lcode.Beam3D

open Lcode.Plasma3D (stencil interpolate Fields3 nodeOf cell_inside stencil_inside interpolate_affine Vec3 places cellOf localOf weight4)

/-! ### Model -/

/-- `lost_radius`, move.py:285-286 -/
noncomputable def lostRadius (c : BCfg) : ℝ := max (0.9 * (c.h * c.N / 2)) (c.h * c.N / 2 - 1)

/-- not_in_layer, move.py:13-15 -/
def notInLayer (xi xiK1 : ℝ) : Prop := xiK1 > xi

/-- is_lost, move.py:18-20 -/
def isLost (x y rMax : ℝ) : Prop := x ^ 2 + y ^ 2 ≥ rMax ^ 2

/-- sign, move.py:24-26 -/
noncomputable def sign (x : ℝ) : ℝ := if x < 0 then -1 else if x > 0 then 1 else 0

/-- `gamma_m`, move.py:48-49, :103-104 -/
noncomputable def gammaM (qm : ℝ) (p : Vec3) : ℝ := Real.sqrt ((1 / qm) ^ 2 + p.x ^ 2 + p.y ^ 2 + p.z ^ 2)

/-- Interpolation of one field, move.py:77-91: `F0` is the array of layer k, `F1` of layer k + 1. -/
noncomputable def interp3 (N : ℤ) (xh yh xiLoc : ℝ) (F0 F1 : ℤ → ℤ → ℝ) : ℝ :=
  (stencil N 1 xh yh).foldl (fun s t => s + (F0 t.1 t.2.1 * (t.2.2 * weight1 xiLoc 0) + F1 t.1 t.2.1 * (t.2.2 * weight1 xiLoc 1))) 0

/-- The particle in the middle of the step, move.py:48-53. -/
noncomputable def halfPos (r : Row ℝ) : Vec3 :=
  let g := gammaM r.qm ⟨r.px, r.py, r.pz⟩
  ⟨r.x + r.dt / 2 * (r.px / g), r.y + r.dt / 2 * (r.py / g), r.xi + r.dt / 2 * (r.pz / g - 1)⟩

/-- The electric field at the middle of the step, move.py:67-91. `xiK` is the position of layer k. -/
noncomputable def fieldE3 (c : BCfg) (xiK : ℝ) (F0 F1 : Fields3) (w : Vec3) : Vec3 :=
  let xh := w.x / c.h + 1 / 2
  let yh := w.y / c.h + 1 / 2
  let s := (w.z - xiK) / c.dxi
  ⟨interp3 c.N xh yh s F0.Ex F1.Ex, interp3 c.N xh yh s F0.Ey F1.Ey, interp3 c.N xh yh s F0.Ez F1.Ez⟩

/-- The magnetic field at the middle of the step, move.py:67-91. -/
noncomputable def fieldB3 (c : BCfg) (xiK : ℝ) (F0 F1 : Fields3) (w : Vec3) : Vec3 :=
  let xh := w.x / c.h + 1 / 2
  let yh := w.y / c.h + 1 / 2
  let s := (w.z - xiK) / c.dxi
  ⟨interp3 c.N xh yh s F0.Bx F1.Bx, interp3 c.N xh yh s F0.By F1.By, interp3 c.N xh yh s F0.Bz F1.Bz⟩

/-- New momentum at the middle of the step, move.py:94-100. -/
noncomputable def halfMomentum (r : Row ℝ) (E B : Vec3) : Vec3 :=
  let g := gammaM r.qm ⟨r.px, r.py, r.pz⟩
  let vx := r.px / g
  let vy := r.py / g
  let vz := r.pz / g
  ⟨r.px + sign r.qm * r.dt / 2 * (E.x + vy * B.z - vz * B.y),
   r.py + sign r.qm * r.dt / 2 * (E.y + vz * B.x - vx * B.z),
   r.pz + sign r.qm * r.dt / 2 * (E.z + vx * B.y - vy * B.x)⟩

/-- Final coordinates and momenta, move.py:103-112. -/
noncomputable def fullStep (r : Row ℝ) (p : Vec3) : Row ℝ :=
  let g := gammaM r.qm p
  { r with
    x := r.x + r.dt * (p.x / g)
    y := r.y + r.dt * (p.y / g)
    xi := r.xi + r.dt * (p.z / g - 1)
    px := 2 * p.x - r.px
    py := 2 * p.y - r.py
    pz := 2 * p.z - r.pz }

/-- What one turn of the `while` loop does. -/
inductive Turn where
  | fell
  | lost (r : Row ℝ)
  | next (r : Row ℝ)

open Classical in
/-- One turn of the `while` loop, move.py:46-120; `idx` is beam_layer_idx. -/
noncomputable def turn (c : BCfg) (idx : ℤ) (F0 F1 : Fields3) (r : Row ℝ) : Turn :=
  let w := halfPos r
  if notInLayer w.z ((idx + 1) * -c.dxi) then .fell
  else if isLost w.x w.y (lostRadius c) then .lost { r with x := w.x, y := w.y, xi := w.z, id := r.id * -1, remaining := 0 }
  else
    let r' := fullStep r (halfMomentum r (fieldE3 c (idx * -c.dxi) F0 F1 w) (fieldB3 c (idx * -c.dxi) F0 F1 w))
    if isLost r'.x r'.y (lostRadius c) then .lost { r' with id := r'.id * -1, remaining := 0 }
    else .next { r' with remaining := r'.remaining - 1 }

/-- The `while` loop, move.py:46-120, for `n` remaining steps: the row, lost_idxes[k], fell_idxes[k]. -/
noncomputable def pushLoop (c : BCfg) (idx : ℤ) (F0 F1 : Fields3) : ℕ → Row ℝ → Row ℝ × Bool × Bool
  | 0, r => (r, false, false)
  | n + 1, r =>
    match turn c idx F0 F1 r with
    | .fell => (r, false, true)
    | .lost r' => (r', true, false)
    | .next r' => pushLoop c idx F0 F1 n r'

/-- What the kernel says about one particle, move.py:45-127. -/
structure Moved where
  row : Row ℝ
  lost : Bool
  moved : Bool
  fell : Bool

open Classical in
/-- One particle of the kernel, move.py:45-127. -/
noncomputable def pushRow (c : BCfg) (idx : ℤ) (F0 F1 : Fields3) (r : Row ℝ) : Moved :=
  let o := pushLoop c idx F0 F1 r.remaining.toNat r
  let fell := if o.1.remaining = 0 ∧ notInLayer o.1.x ((idx + 1) * -c.dxi) then true else o.2.2
  ⟨o.1, o.2.1, if fell = false ∧ o.2.1 = false then true else false, fell⟩

/-! ### C32: the fields a particle feels -/

theorem interp3_split (N : ℤ) (xh yh s : ℝ) (F0 F1 : ℤ → ℤ → ℝ) :
    interp3 N xh yh s F0 F1 = s * interpolate N xh yh F0 + (1 - s) * interpolate N xh yh F1 := by
  unfold interp3 interpolate
  have : ∀ (l : List (ℤ × ℤ × ℝ)) (u v : ℝ), l.foldl (fun s' t => s' + (F0 t.1 t.2.1 * (t.2.2 * weight1 s 0) + F1 t.1 t.2.1 * (t.2.2 * weight1 s 1))) (s * u + (1 - s) * v) =
      s * l.foldl (fun s t => s + F0 t.1 t.2.1 * t.2.2) u + (1 - s) * l.foldl (fun s t => s + F1 t.1 t.2.1 * t.2.2) v := by
    intro l
    induction l with
    | nil => intro u v; rfl
    | cons t l ih =>
      intro u v
      simp only [List.foldl_cons]
      rw [← ih]
      congr 1
      simp only [weight1, if_true, one_ne_zero, if_false]
      ring
  have h := this (stencil N 1 xh yh) 0 0
  simpa using h

/-- The arrays of a layer at `xi` sample a field that is affine in x, y and xi: `f = k0 + kx x + ky y + kz xi`. -/
def Samples3 (c : BCfg) (xi : ℝ) (k0 kx ky kz : ℝ) (F : ℤ → ℤ → ℝ) : Prop :=
  ∀ i j : ℤ, 0 ≤ i → i < c.N → 0 ≤ j → j < c.N → F i j = k0 + kx * (c.h * nodeOf c.N i) + ky * (c.h * nodeOf c.N j) + kz * xi

/-- C32, what the code computes: for a field that is affine in x, y and xi the value used at a particle is the exact value of the field at the particle's transverse position but ONE XI STEP BEHIND the particle. -/
theorem field_one_step_behind (c : BCfg) (hN : c.N % 2 = 1) (hh : 0 < c.h) (hd : 0 < c.dxi) (xiK x y xi : ℝ) (hx : |x| < c.h * (c.N / 2 - 2)) (hy : |y| < c.h * (c.N / 2 - 2))
    (F0 F1 : ℤ → ℤ → ℝ) (k0 kx ky kz : ℝ) (h0 : Samples3 c xiK k0 kx ky kz F0) (h1 : Samples3 c (xiK - c.dxi) k0 kx ky kz F1) :
    interp3 c.N (x / c.h + 1 / 2) (y / c.h + 1 / 2) ((xi - xiK) / c.dxi) F0 F1 = k0 + kx * x + ky * y + kz * (xi - c.dxi) := by
  have a0 := interpolate_affine c.N 2 hN le_rfl (x / c.h) (y / c.h) (fits_units hh hx) (fits_units hh hy) F0 (k0 + kz * xiK) (kx * c.h) (ky * c.h)
    (fun i j a1 a2 a3 a4 => by rw [h0 i j a1 a2 a3 a4]; ring)
  have a1 := interpolate_affine c.N 2 hN le_rfl (x / c.h) (y / c.h) (fits_units hh hx) (fits_units hh hy) F1 (k0 + kz * (xiK - c.dxi)) (kx * c.h) (ky * c.h)
    (fun i j a1 a2 a3 a4 => by rw [h1 i j a1 a2 a3 a4]; ring)
  rw [interp3_split, a0, a1]
  have hne := hh.ne'
  have hdne := hd.ne'
  field_simp
  ring

/-- C32: the weights of the two layers add up to one, so fields that do not change from one layer to the next are interpolated exactly in the transverse plane. -/
theorem field_uniform_xi (c : BCfg) (xiK x y xi : ℝ) (F : ℤ → ℤ → ℝ) :
    interp3 c.N (x / c.h + 1 / 2) (y / c.h + 1 / 2) ((xi - xiK) / c.dxi) F F = interpolate c.N (x / c.h + 1 / 2) (y / c.h + 1 / 2) F := by
  rw [interp3_split]; ring

/-- C32, refutation of the convex combination: a particle of the layer between `xi_k` and `xi_k - dxi` gets a weight in [-1, 0] for layer k and a weight in [1, 2] for layer k + 1: an extrapolation, not an interpolation. -/
theorem field_weights (c : BCfg) (hd : 0 < c.dxi) (N : ℤ) (xh yh xiK xi : ℝ) (F0 F1 : ℤ → ℤ → ℝ) (h1 : xiK - c.dxi ≤ xi) (h2 : xi ≤ xiK) :
    ∃ w0 w1, interp3 N xh yh ((xi - xiK) / c.dxi) F0 F1 = w0 * interpolate N xh yh F0 + w1 * interpolate N xh yh F1 ∧ w0 + w1 = 1 ∧ -1 ≤ w0 ∧ w0 ≤ 0 ∧ 1 ≤ w1 ∧ w1 ≤ 2 ∧
      w0 = -((xiK - xi) / c.dxi) := by
  refine ⟨(xi - xiK) / c.dxi, 1 - (xi - xiK) / c.dxi, interp3_split _ _ _ _ _ _, by ring, ?_, ?_, ?_, ?_, by ring⟩
  · rw [le_div_iff₀ hd]; linarith
  · rw [div_le_iff₀ hd]; linarith
  · have : (xi - xiK) / c.dxi ≤ 0 := by rw [div_le_iff₀ hd]; linarith
    linarith
  · have : -1 ≤ (xi - xiK) / c.dxi := by rw [le_div_iff₀ hd]; linarith
    linarith

/-- C32, concrete refutation: layer k has field 1 and layer k + 1 field 0; a particle in the middle feels -1/2 instead of 1/2. -/
theorem field_extrapolated : ∃ (c : BCfg) (F0 F1 : ℤ → ℤ → ℝ), c.N % 2 = 1 ∧ 0 < c.h ∧ 0 < c.dxi ∧ (∀ i j, F0 i j = 1) ∧ (∀ i j, F1 i j = 0) ∧
    interp3 c.N (0 / c.h + 1 / 2) (0 / c.h + 1 / 2) ((-c.dxi / 2 - 0) / c.dxi) F0 F1 = -1 / 2 := by
  refine ⟨⟨7, 1, 1⟩, fun _ _ => 1, fun _ _ => 0, by norm_num, by norm_num, by norm_num, fun _ _ => rfl, fun _ _ => rfl, ?_⟩
  have := field_one_step_behind ⟨7, 1, 1⟩ (by norm_num) (by norm_num) (by norm_num) 0 0 0 (-1 / 2) (by norm_num) (by norm_num) (fun _ _ => 1) (fun _ _ => 0) 1 0 0 1
    (fun i j _ _ _ _ => by norm_num) (fun i j _ _ _ _ => by norm_num)
  norm_num at this ⊢
  exact this

/-! ### The pusher -/

/-- Relativistic velocity of a particle with momentum `p`, charge-to-mass ratio `qm`. -/
noncomputable def vel (qm : ℝ) (p : Vec3) : Vec3 := ⟨p.x / Real.sqrt ((1 / qm) ^ 2 + p.x ^ 2 + p.y ^ 2 + p.z ^ 2), p.y / Real.sqrt ((1 / qm) ^ 2 + p.x ^ 2 + p.y ^ 2 + p.z ^ 2), p.z / Real.sqrt ((1 / qm) ^ 2 + p.x ^ 2 + p.y ^ 2 + p.z ^ 2)⟩

/-- C32: a completed substep (kept or lost at its end) is a leapfrog step: the momentum changes by charge sign times `dt` times the Lorentz force of the fields at the half-step position, the position by `dt` times the velocity of the mean momentum (minus the velocity of light along xi); charge, mass and `dt` do not change. -/
theorem push_leapfrog (c : BCfg) (idx : ℤ) (F0 F1 : Fields3) (r r' : Row ℝ) (lostEnd : Bool)
    (h : (lostEnd = false ∧ turn c idx F0 F1 r = .next r') ∨
      (lostEnd = true ∧ turn c idx F0 F1 r = .lost r' ∧ ¬ (lostRadius c ^ 2 ≤ (r.x + r.dt / 2 * (vel r.qm ⟨r.px, r.py, r.pz⟩).x) ^ 2 + (r.y + r.dt / 2 * (vel r.qm ⟨r.px, r.py, r.pz⟩).y) ^ 2))) :
    ∃ w E B m v : Vec3,
      v = vel r.qm ⟨r.px, r.py, r.pz⟩ ∧
      w = ⟨r.x + r.dt / 2 * v.x, r.y + r.dt / 2 * v.y, r.xi + r.dt / 2 * (v.z - 1)⟩ ∧
      E = fieldE3 c (idx * -c.dxi) F0 F1 w ∧ B = fieldB3 c (idx * -c.dxi) F0 F1 w ∧
      r'.px = r.px + SignType.sign r.qm * r.dt * (E.x + (v.y * B.z - v.z * B.y)) ∧
      r'.py = r.py + SignType.sign r.qm * r.dt * (E.y + (v.z * B.x - v.x * B.z)) ∧
      r'.pz = r.pz + SignType.sign r.qm * r.dt * (E.z + (v.x * B.y - v.y * B.x)) ∧
      m = ⟨(r.px + r'.px) / 2, (r.py + r'.py) / 2, (r.pz + r'.pz) / 2⟩ ∧
      r'.x = r.x + r.dt * (vel r.qm m).x ∧ r'.y = r.y + r.dt * (vel r.qm m).y ∧ r'.xi = r.xi + r.dt * ((vel r.qm m).z - 1) ∧
      r'.qm = r.qm ∧ r'.qnorm = r.qnorm ∧ r'.dt = r.dt ∧ r'.id = (if lostEnd then -r.id else r.id) ∧ r'.remaining = (if lostEnd then 0 else r.remaining - 1) := by
  have hs : sign r.qm = SignType.sign r.qm := by
    unfold sign
    rcases lt_trichotomy r.qm 0 with h | h | h
    · simp [h]
    · simp [h]
    · simp [h, not_lt.mpr h.le]
  have hw : halfPos r = ⟨r.x + r.dt / 2 * (vel r.qm ⟨r.px, r.py, r.pz⟩).x, r.y + r.dt / 2 * (vel r.qm ⟨r.px, r.py, r.pz⟩).y, r.xi + r.dt / 2 * ((vel r.qm ⟨r.px, r.py, r.pz⟩).z - 1)⟩ := rfl
  refine ⟨halfPos r, fieldE3 c (idx * -c.dxi) F0 F1 (halfPos r), fieldB3 c (idx * -c.dxi) F0 F1 (halfPos r), ⟨(r.px + r'.px) / 2, (r.py + r'.py) / 2, (r.pz + r'.pz) / 2⟩, vel r.qm ⟨r.px, r.py, r.pz⟩, rfl, hw, rfl, rfl, ?_⟩
  set E := fieldE3 c (idx * -c.dxi) F0 F1 (halfPos r) with hE
  set B := fieldB3 c (idx * -c.dxi) F0 F1 (halfPos r) with hB
  set p := halfMomentum r E B with hp
  have key : ∀ (d : ℤ) (n : ℤ), r' = { fullStep r p with id := d, remaining := n } →
      (r'.px = r.px + SignType.sign r.qm * r.dt * (E.x + ((vel r.qm ⟨r.px, r.py, r.pz⟩).y * B.z - (vel r.qm ⟨r.px, r.py, r.pz⟩).z * B.y)) ∧
      r'.py = r.py + SignType.sign r.qm * r.dt * (E.y + ((vel r.qm ⟨r.px, r.py, r.pz⟩).z * B.x - (vel r.qm ⟨r.px, r.py, r.pz⟩).x * B.z)) ∧
      r'.pz = r.pz + SignType.sign r.qm * r.dt * (E.z + ((vel r.qm ⟨r.px, r.py, r.pz⟩).x * B.y - (vel r.qm ⟨r.px, r.py, r.pz⟩).y * B.x)) ∧
      (⟨(r.px + r'.px) / 2, (r.py + r'.py) / 2, (r.pz + r'.pz) / 2⟩ : Vec3) = ⟨(r.px + r'.px) / 2, (r.py + r'.py) / 2, (r.pz + r'.pz) / 2⟩ ∧
      r'.x = r.x + r.dt * (vel r.qm ⟨(r.px + r'.px) / 2, (r.py + r'.py) / 2, (r.pz + r'.pz) / 2⟩).x ∧
      r'.y = r.y + r.dt * (vel r.qm ⟨(r.px + r'.px) / 2, (r.py + r'.py) / 2, (r.pz + r'.pz) / 2⟩).y ∧
      r'.xi = r.xi + r.dt * ((vel r.qm ⟨(r.px + r'.px) / 2, (r.py + r'.py) / 2, (r.pz + r'.pz) / 2⟩).z - 1) ∧
      r'.qm = r.qm ∧ r'.qnorm = r.qnorm ∧ r'.dt = r.dt) := by
    rintro d n rfl
    have hm : (⟨(r.px + (2 * p.x - r.px)) / 2, (r.py + (2 * p.y - r.py)) / 2, (r.pz + (2 * p.z - r.pz)) / 2⟩ : Vec3) = p := by
      cases hpv : p; simp only [Vec3.mk.injEq]; refine ⟨?_, ?_, ?_⟩ <;> ring
    refine ⟨?_, ?_, ?_, rfl, ?_, ?_, ?_, rfl, rfl, rfl⟩
    · show 2 * p.x - r.px = _
      rw [hp]; simp only [halfMomentum, ← hs, vel, gammaM]; ring
    · show 2 * p.y - r.py = _
      rw [hp]; simp only [halfMomentum, ← hs, vel, gammaM]; ring
    · show 2 * p.z - r.pz = _
      rw [hp]; simp only [halfMomentum, ← hs, vel, gammaM]; ring
    · show r.x + r.dt * (p.x / gammaM r.qm p) = r.x + r.dt * (vel r.qm ⟨(r.px + (2 * p.x - r.px)) / 2, (r.py + (2 * p.y - r.py)) / 2, (r.pz + (2 * p.z - r.pz)) / 2⟩).x
      rw [hm]; rfl
    · show r.y + r.dt * (p.y / gammaM r.qm p) = r.y + r.dt * (vel r.qm ⟨(r.px + (2 * p.x - r.px)) / 2, (r.py + (2 * p.y - r.py)) / 2, (r.pz + (2 * p.z - r.pz)) / 2⟩).y
      rw [hm]; rfl
    · show r.xi + r.dt * (p.z / gammaM r.qm p - 1) = r.xi + r.dt * ((vel r.qm ⟨(r.px + (2 * p.x - r.px)) / 2, (r.py + (2 * p.y - r.py)) / 2, (r.pz + (2 * p.z - r.pz)) / 2⟩).z - 1)
      rw [hm]; rfl
  have ht : turn c idx F0 F1 r = _ := rfl
  unfold turn at h
  simp only [← hE, ← hB, ← hp] at h
  rcases h with ⟨hl, h⟩ | ⟨hl, h, hnl⟩
  · split_ifs at h with h1 h2 h3
    injection h with h
    have := key r.id (r.remaining - 1) h.symm
    refine ⟨this.1, this.2.1, this.2.2.1, rfl, this.2.2.2.2.1, this.2.2.2.2.2.1, this.2.2.2.2.2.2.1, this.2.2.2.2.2.2.2.1, this.2.2.2.2.2.2.2.2.1, this.2.2.2.2.2.2.2.2.2, ?_, ?_⟩
    · rw [← h, hl]; rfl
    · rw [← h, hl]; rfl
  · split_ifs at h with h1 h2 h3
    · exact absurd h2 hnl
    · injection h with h
      have := key (r.id * -1) 0 h.symm
      refine ⟨this.1, this.2.1, this.2.2.1, rfl, this.2.2.2.2.1, this.2.2.2.2.2.1, this.2.2.2.2.2.2.1, this.2.2.2.2.2.2.2.1, this.2.2.2.2.2.2.2.2.1, this.2.2.2.2.2.2.2.2.2, ?_, ?_⟩
      · rw [← h, hl]; simp [fullStep]
      · rw [← h, hl]; rfl

/-! ### C33: where a particle ends -/

/-- `k` completed substeps in a row lead from `r` to `r'`. -/
inductive Chain (c : BCfg) (idx : ℤ) (F0 F1 : Fields3) : ℕ → Row ℝ → Row ℝ → Prop
  | refl (r : Row ℝ) : Chain c idx F0 F1 0 r r
  | step {k : ℕ} {r m r' : Row ℝ} : turn c idx F0 F1 r = .next m → Chain c idx F0 F1 k m r' → Chain c idx F0 F1 (k + 1) r r'

/-- The half-step position of the particle lies behind the layer. -/
def RunsOut (c : BCfg) (idx : ℤ) (r : Row ℝ) : Prop := r.xi + r.dt / 2 * ((vel r.qm ⟨r.px, r.py, r.pz⟩).z - 1) < -(c.dxi * (idx + 1))

theorem turn_fell (c : BCfg) (idx : ℤ) (F0 F1 : Fields3) (r : Row ℝ) : turn c idx F0 F1 r = .fell ↔ RunsOut c idx r := by
  have hiff : notInLayer (halfPos r).z ((idx + 1) * -c.dxi) ↔ RunsOut c idx r := by
    have e : ((idx : ℝ) + 1) * -c.dxi = -(c.dxi * (idx + 1)) := by ring
    rw [e]; exact Iff.rfl
  rw [← hiff]
  unfold turn
  constructor
  · intro h
    simp only at h
    split_ifs at h with h1 h2 h3
    exact h1
  · intro h
    simp only
    rw [if_pos h]

theorem turn_lost (c : BCfg) (idx : ℤ) (F0 F1 : Fields3) (r r' : Row ℝ) (h : turn c idx F0 F1 r = .lost r') :
    r'.remaining = 0 ∧ r'.id = -r.id ∧ lostRadius c ^ 2 ≤ r'.x ^ 2 + r'.y ^ 2 ∧ ¬ RunsOut c idx r ∧ r'.qm = r.qm ∧ r'.qnorm = r.qnorm ∧ r'.dt = r.dt := by
  have hr : ¬ RunsOut c idx r := by rw [← turn_fell c idx F0 F1 r, h]; simp
  unfold turn at h
  simp only at h
  split_ifs at h with h1 h2 h3
  · injection h with h
    subst h
    refine ⟨rfl, ?_, h2, hr, rfl, rfl, rfl⟩
    simp
  · injection h with h
    subst h
    refine ⟨rfl, ?_, h3, hr, rfl, rfl, rfl⟩
    simp [fullStep]

theorem turn_next (c : BCfg) (idx : ℤ) (F0 F1 : Fields3) (r r' : Row ℝ) (h : turn c idx F0 F1 r = .next r') :
    r'.remaining = r.remaining - 1 ∧ r'.id = r.id ∧ r'.x ^ 2 + r'.y ^ 2 < lostRadius c ^ 2 ∧ ¬ RunsOut c idx r ∧ r'.qm = r.qm ∧ r'.qnorm = r.qnorm ∧ r'.dt = r.dt ∧
    (r.x + r.dt / 2 * (vel r.qm ⟨r.px, r.py, r.pz⟩).x) ^ 2 + (r.y + r.dt / 2 * (vel r.qm ⟨r.px, r.py, r.pz⟩).y) ^ 2 < lostRadius c ^ 2 := by
  have hr : ¬ RunsOut c idx r := by rw [← turn_fell c idx F0 F1 r, h]; simp
  unfold turn at h
  simp only at h
  split_ifs at h with h1 h2 h3
  injection h with h
  subst h
  exact ⟨rfl, rfl, not_le.mp h3, hr, rfl, rfl, rfl, not_le.mp h2⟩

/-- The loop, case by case. -/
theorem pushLoop_cases (c : BCfg) (idx : ℤ) (F0 F1 : Fields3) (n : ℕ) (r : Row ℝ) (hn : r.remaining = n) :
    (∃ k m, k < n ∧ Chain c idx F0 F1 k r m ∧ RunsOut c idx m ∧ m.remaining = n - k ∧ pushLoop c idx F0 F1 n r = (m, false, true)) ∨
    (∃ k m r', k < n ∧ Chain c idx F0 F1 k r m ∧ turn c idx F0 F1 m = .lost r' ∧ r'.remaining = 0 ∧ pushLoop c idx F0 F1 n r = (r', true, false)) ∨
    (∃ r', Chain c idx F0 F1 n r r' ∧ r'.remaining = 0 ∧ pushLoop c idx F0 F1 n r = (r', false, false)) := by
  induction n generalizing r with
  | zero => exact Or.inr (Or.inr ⟨r, .refl r, by simpa using hn, rfl⟩)
  | succ n ih =>
    unfold pushLoop
    cases ht : turn c idx F0 F1 r with
    | fell =>
      left
      exact ⟨0, r, by omega, .refl r, (turn_fell c idx F0 F1 r).mp ht, by rw [hn]; push_cast; ring, rfl⟩
    | lost r' =>
      right; left
      exact ⟨0, r, r', by omega, .refl r, ht, (turn_lost c idx F0 F1 r r' ht).1, rfl⟩
    | next m =>
      have hm : m.remaining = n := by rw [(turn_next c idx F0 F1 r m ht).1, hn]; push_cast; ring
      rcases ih m hm with ⟨k, m', hk, hc, h1, h2, h3⟩ | ⟨k, m', r', hk, hc, h1, h2, h3⟩ | ⟨r', hc, h2, h3⟩
      · left
        exact ⟨k + 1, m', by omega, .step ht hc, h1, by rw [h2]; push_cast; ring, h3⟩
      · right; left
        exact ⟨k + 1, m', r', by omega, .step ht hc, h1, h2, h3⟩
      · right; right
        exact ⟨r', .step ht hc, h2, h3⟩

theorem Chain.invariant {c : BCfg} {idx : ℤ} {F0 F1 : Fields3} {k : ℕ} {r r' : Row ℝ} (h : Chain c idx F0 F1 k r r') :
    r'.id = r.id ∧ r'.qm = r.qm ∧ r'.qnorm = r.qnorm ∧ r'.dt = r.dt ∧ r'.remaining = r.remaining - k ∧ (0 < k → r'.x ^ 2 + r'.y ^ 2 < lostRadius c ^ 2) := by
  induction h with
  | refl r => simp
  | @step k r m r' ht hc ih =>
    obtain ⟨h1, h2, h3, -, h4, h5, h6, -⟩ := turn_next c idx F0 F1 r m ht
    obtain ⟨i1, i2, i3, i4, i5, i6⟩ := ih
    refine ⟨by rw [i1, h2], by rw [i2, h4], by rw [i3, h5], by rw [i4, h6], by rw [i5, h1]; push_cast; ring, fun _ => ?_⟩
    by_cases hk : 0 < k
    · exact i6 hk
    · have : k = 0 := by omega
      subst this
      cases hc
      exact h3

/-- C33: what the kernel reports for a particle with `n` substeps to do. There are three possible courses: the particle runs out of the layer after `k < n` substeps, hits the wall, or does all `n` substeps. The first is reported as `fell` only. The second is reported as `lost`, AND ALSO as `fell` when the transverse coordinate x is below the xi of the next layer. The third is reported as finished (`moved`), unless x is below the xi of the next layer: then it is reported as `fell`. -/
theorem push_outcomes (c : BCfg) (idx : ℤ) (F0 F1 : Fields3) (n : ℕ) (r : Row ℝ) (hn : r.remaining = n) :
    let o := pushRow c idx F0 F1 r
    (∃ k, k < n ∧ Chain c idx F0 F1 k r o.row ∧ RunsOut c idx o.row ∧ o.row.remaining = n - k ∧ o.lost = false ∧ o.fell = true ∧ o.moved = false) ∨
    (∃ k m, k < n ∧ Chain c idx F0 F1 k r m ∧ turn c idx F0 F1 m = .lost o.row ∧ o.row.remaining = 0 ∧ o.row.id = -r.id ∧ lostRadius c ^ 2 ≤ o.row.x ^ 2 + o.row.y ^ 2 ∧
      o.lost = true ∧ o.moved = false ∧ (o.fell = true ↔ o.row.x < -(c.dxi * (idx + 1)))) ∨
    (Chain c idx F0 F1 n r o.row ∧ o.row.remaining = 0 ∧ o.lost = false ∧ (o.fell = true ↔ o.row.x < -(c.dxi * (idx + 1))) ∧ (o.moved = true ↔ -(c.dxi * (idx + 1)) ≤ o.row.x)) := by
  intro o
  have e : ((idx : ℝ) + 1) * -c.dxi = -(c.dxi * (idx + 1)) := by ring
  have ho : o = pushRow c idx F0 F1 r := rfl
  unfold pushRow at ho
  rw [hn, Int.toNat_natCast] at ho
  rcases pushLoop_cases c idx F0 F1 n r hn with ⟨k, m, hk, hc, h1, h2, h3⟩ | ⟨k, m, r', hk, hc, h1, h2, h3⟩ | ⟨r', hc, h2, h3⟩
  · left
    rw [h3] at ho
    have hm0 : ¬ (m.remaining = 0) := by rw [h2]; omega
    simp only [hm0, false_and, if_false] at ho
    rw [ho]
    exact ⟨k, hk, hc, h1, h2, rfl, rfl, by simp⟩
  · right; left
    rw [h3] at ho
    simp only [h2, true_and, e, notInLayer] at ho
    rw [ho]
    obtain ⟨-, hid, hl, -⟩ := turn_lost c idx F0 F1 m r' h1
    refine ⟨k, m, hk, hc, h1, h2, by rw [hid, hc.invariant.1], hl, rfl, by simp, ?_⟩
    simp only
    split_ifs with hx
    · simpa using hx
    · simpa using hx
  · right; right
    rw [h3] at ho
    simp only [h2, true_and, e, notInLayer] at ho
    rw [ho]
    refine ⟨hc, h2, rfl, ?_, ?_⟩
    · simp only
      split_ifs with hx
      · simpa using hx
      · simpa using hx
    · simp only
      by_cases hx : -(c.dxi * (idx + 1)) > r'.x
      · simp [hx]
      · simp [hx]
        linarith [not_lt.mp hx]

/-- C33, the part of the claim that holds: every particle is reported in at least one of the three sets, never both as finished and as lost or fell, and in exactly one when it did not hit the wall or its x is not below the xi of the next layer. -/
theorem push_at_least_one (c : BCfg) (idx : ℤ) (F0 F1 : Fields3) (r : Row ℝ) (hr : 0 ≤ r.remaining) :
    let o := pushRow c idx F0 F1 r
    (o.lost = true ∨ o.moved = true ∨ o.fell = true) ∧ ¬ (o.lost = true ∧ o.moved = true) ∧ ¬ (o.fell = true ∧ o.moved = true) ∧
    ((o.lost = true ∧ o.fell = true) ↔ (o.lost = true ∧ o.row.x < -(c.dxi * (idx + 1)))) := by
  intro o
  obtain ⟨n, hn⟩ := Int.eq_ofNat_of_zero_le hr
  have := push_outcomes c idx F0 F1 n r hn
  simp only at this
  have ho : pushRow c idx F0 F1 r = o := rfl
  rw [ho] at this
  rcases this with ⟨k, -, -, -, -, h1, h2, h3⟩ | ⟨k, m, -, -, -, -, -, -, h1, h2, h3⟩ | ⟨-, -, h1, h2, h3⟩
  · simp [h1, h2, h3]
  · simp [h1, h2, h3]
  · simp only [h1, h2, h3]
    refine ⟨?_, by simp, ?_, by simp⟩
    · rcases lt_or_ge o.row.x (-(c.dxi * (idx + 1))) with h | h
      · exact Or.inr (Or.inr h)
      · exact Or.inr (Or.inl h)
    · rintro ⟨a, b⟩; linarith

/-- C33: a particle that has no substeps left stays as it is; it is reported as finished if its x is not below the xi of the next layer, and otherwise handed on to the next layer. -/
theorem push_waiting (c : BCfg) (idx : ℤ) (F0 F1 : Fields3) (r : Row ℝ) (h0 : r.remaining = 0) :
    (pushRow c idx F0 F1 r).row = r ∧ (pushRow c idx F0 F1 r).lost = false ∧
    ((pushRow c idx F0 F1 r).moved = true ↔ -(c.dxi * (idx + 1)) ≤ r.x) ∧ ((pushRow c idx F0 F1 r).fell = true ↔ r.x < -(c.dxi * (idx + 1))) := by
  rcases push_outcomes c idx F0 F1 0 r (by simpa using h0) with ⟨k, hk, -⟩ | ⟨k, m, hk, -⟩ | ⟨hc, -, h1, h2, h3⟩
  · omega
  · omega
  · have hrow : (pushRow c idx F0 F1 r).row = r := by
      generalize (pushRow c idx F0 F1 r).row = r' at hc
      cases hc; rfl
    rw [hrow] at h2 h3
    exact ⟨hrow, h1, h3, h2⟩

/-- Without fields a particle at rest only falls back: a substep changes xi by `-dt`. -/
def restRow (x xi dt : ℝ) (n : ℤ) : Row ℝ := ⟨xi, x, 0, 0, 0, 0, 1, 1, 1, dt, n⟩

theorem halfPos_rest (x xi dt : ℝ) (n : ℤ) : halfPos (restRow x xi dt n) = ⟨x, 0, xi - dt / 2⟩ := by
  simp [halfPos, restRow, gammaM]; ring

/-- C33, refutation: a particle that hits the wall at negative x in the first layers is reported both as lost and as fallen to the next layer, so it stays in the beam (with its identifier negated). -/
theorem push_lost_and_fell : ∃ (c : BCfg) (r : Row ℝ), c.N % 2 = 1 ∧ 0 < c.h ∧ 0 < c.dxi ∧ r.remaining = 1 ∧ InLayer c.dxi 0 r.xi ∧ ∀ F0 F1,
    (pushRow c 0 F0 F1 r).lost = true ∧ (pushRow c 0 F0 F1 r).fell = true ∧ (pushRow c 0 F0 F1 r).row.id = -r.id := by
  refine ⟨⟨11, 1, 1⟩, restRow (-5) (-1 / 10) (1 / 10) 1, by norm_num, by norm_num, by norm_num, rfl, ?_, ?_⟩
  · constructor <;> norm_num [restRow]
  · intro F0 F1
    have hR : lostRadius ⟨11, 1, 1⟩ = 4.95 := by
      unfold lostRadius; norm_num
    have ht : turn ⟨11, 1, 1⟩ 0 F0 F1 (restRow (-5) (-1 / 10) (1 / 10) 1) =
        .lost { restRow (-5) (-1 / 10) (1 / 10) 1 with x := -5, y := 0, xi := -1 / 10 - 1 / 10 / 2, id := -1, remaining := 0 } := by
      unfold turn
      simp only [halfPos_rest, hR, notInLayer, isLost]
      rw [if_neg (by norm_num), if_pos (by norm_num)]
      simp [restRow]
    have hl : pushLoop ⟨11, 1, 1⟩ 0 F0 F1 1 (restRow (-5) (-1 / 10) (1 / 10) 1) =
        ({ restRow (-5) (-1 / 10) (1 / 10) 1 with x := -5, y := 0, xi := -1 / 10 - 1 / 10 / 2, id := -1, remaining := 0 }, true, false) := by
      simp only [pushLoop, ht]
    unfold pushRow
    have e1 : (restRow (-5) (-1 / 10) (1 / 10) 1).remaining.toNat = 1 := rfl
    rw [e1, hl]
    simp only [notInLayer]
    norm_num [restRow]

/-- C33, refutation: a particle that did all its substeps inside the grid and inside the layer is reported as fallen, only because its x is below the xi of the next layer. -/
theorem push_finished_but_fell : ∃ (c : BCfg) (r : Row ℝ), c.N % 2 = 1 ∧ 0 < c.h ∧ 0 < c.dxi ∧ r.remaining = 0 ∧ InLayer c.dxi 0 r.xi ∧ r.x ^ 2 + r.y ^ 2 < lostRadius c ^ 2 ∧ ∀ F0 F1,
    (pushRow c 0 F0 F1 r).fell = true ∧ (pushRow c 0 F0 F1 r).moved = false ∧ (pushRow c 0 F0 F1 r).row = r := by
  refine ⟨⟨11, 1, 1⟩, restRow (-2) (-1 / 10) (1 / 10) 0, by norm_num, by norm_num, by norm_num, rfl, ?_, ?_, ?_⟩
  · constructor <;> norm_num [restRow]
  · have hR : lostRadius ⟨11, 1, 1⟩ = 4.95 := by
      unfold lostRadius; norm_num
    rw [hR]; norm_num [restRow]
  · intro F0 F1
    obtain ⟨h1, h2, h3, h4⟩ := push_waiting ⟨11, 1, 1⟩ 0 F0 F1 (restRow (-2) (-1 / 10) (1 / 10) 0) rfl
    refine ⟨h4.mpr (by norm_num [restRow]), ?_, h1⟩
    rw [Bool.eq_false_iff, ne_eq, h3]
    norm_num [restRow]

/-! ### Causality and bounds -/

theorem vel_z_le (qm : ℝ) (p : Vec3) : (vel qm p).z ≤ 1 := by
  unfold vel
  simp only
  apply div_le_one_of_le₀ _ (Real.sqrt_nonneg _)
  refine le_trans (le_abs_self _) ?_
  rw [← Real.sqrt_sq_eq_abs]
  apply Real.sqrt_le_sqrt
  nlinarith [sq_nonneg (1 / qm), sq_nonneg p.x, sq_nonneg p.y]

theorem turn_xi (c : BCfg) (idx : ℤ) (F0 F1 : Fields3) (r r' : Row ℝ) (hdt : 0 ≤ r.dt) (h : turn c idx F0 F1 r = .next r' ∨ turn c idx F0 F1 r = .lost r') : r'.xi ≤ r.xi := by
  have hv : ∀ p : Vec3, ∀ s : ℝ, 0 ≤ s → r.xi + s * ((vel r.qm p).z - 1) ≤ r.xi := by
    intro p s hs
    have := vel_z_le r.qm p
    nlinarith
  unfold turn at h
  simp only at h
  split_ifs at h with h1 h2 h3
  · rcases h with h | h <;> cases h
  · rcases h with h | h
    · cases h
    · injection h with h; subst h
      exact hv ⟨r.px, r.py, r.pz⟩ (r.dt / 2) (by linarith)
  · rcases h with h | h
    · cases h
    · injection h with h; subst h
      exact hv _ r.dt hdt
  · rcases h with h | h
    · injection h with h; subst h
      exact hv _ r.dt hdt
    · cases h

theorem Chain.xi_le {c : BCfg} {idx : ℤ} {F0 F1 : Fields3} {k : ℕ} {r r' : Row ℝ} (h : Chain c idx F0 F1 k r r') (hdt : 0 ≤ r.dt) : r'.xi ≤ r.xi := by
  induction h with
  | refl r => exact le_rfl
  | @step k r m r' ht hc ih =>
    have h1 := turn_xi c idx F0 F1 r m hdt (Or.inl ht)
    have h2 := ih (by rw [(turn_next c idx F0 F1 r m ht).2.2.2.2.2.2.1]; exact hdt)
    linarith

/-- C33: no particle moves towards the head; charge, charge-to-mass ratio and substep are never changed and the identifier only by its sign. -/
theorem push_causal (c : BCfg) (idx : ℤ) (F0 F1 : Fields3) (r : Row ℝ) (hr : 0 ≤ r.remaining) (hdt : 0 ≤ r.dt) :
    let o := (pushRow c idx F0 F1 r).row
    o.xi ≤ r.xi ∧ o.qm = r.qm ∧ o.qnorm = r.qnorm ∧ o.dt = r.dt ∧ |o.id| = |r.id| := by
  intro o
  obtain ⟨n, hn⟩ := Int.eq_ofNat_of_zero_le hr
  have ho : (pushRow c idx F0 F1 r).row = o := rfl
  rcases push_outcomes c idx F0 F1 n r hn with ⟨k, -, hc, -⟩ | ⟨k, m, -, hc, ht, -⟩ | ⟨hc, -⟩
  · rw [ho] at hc
    obtain ⟨h1, h2, h3, h4, -⟩ := hc.invariant
    exact ⟨hc.xi_le hdt, h2, h3, h4, by rw [h1]⟩
  · rw [ho] at ht
    obtain ⟨h1, h2, h3, h4, -⟩ := hc.invariant
    obtain ⟨-, t2, -, -, t3, t4, t5⟩ := turn_lost c idx F0 F1 m o ht
    refine ⟨(turn_xi c idx F0 F1 m o (by rw [h4]; exact hdt) (Or.inr ht)).trans (hc.xi_le hdt), by rw [t3, h2], by rw [t4, h3], by rw [t5, h4], by rw [t2, h1, abs_neg]⟩
  · rw [ho] at hc
    obtain ⟨h1, h2, h3, h4, -⟩ := hc.invariant
    exact ⟨hc.xi_le hdt, h2, h3, h4, by rw [h1]⟩

/-- C33: every place where a completed substep reads the fields is inside the loss radius, and the grid has all 25 nodes of the stencil there when the loss radius leaves two steps to the edge. -/
theorem push_reads_inside (c : BCfg) (hN : c.N % 2 = 1) (hh : 0 < c.h) (hR : lostRadius c ≤ c.h * (c.N / 2 - 2)) (x y : ℝ) (hl : ¬ isLost x y (lostRadius c)) (hpos : 0 ≤ lostRadius c) :
    ∀ t ∈ stencil c.N 1 (x / c.h + 1 / 2) (y / c.h + 1 / 2), 0 ≤ t.1 ∧ t.1 < c.N ∧ 0 ≤ t.2.1 ∧ t.2.1 < c.N := by
  unfold isLost at hl
  push Not at hl
  have hx : |x| < c.h * (c.N / 2 - 2) := lt_of_lt_of_le (abs_lt_of_sq_lt_sq (by nlinarith [sq_nonneg y]) hpos) hR
  have hy : |y| < c.h * (c.N / 2 - 2) := lt_of_lt_of_le (abs_lt_of_sq_lt_sq (by nlinarith [sq_nonneg x]) hpos) hR
  intro t ht
  have := stencil_inside c.N 2 hN 1 (x / c.h) (y / c.h) (fits_units hh hx) (fits_units hh hy) t ht
  omega

/-- C33: the loss radius leaves two steps when the transverse step is at most 1/2 and the grid has at least 40 steps. -/
theorem lostRadius_fits (c : BCfg) (hh : 0 < c.h) (h2 : c.h ≤ 1 / 2) (h40 : 40 ≤ c.N) : lostRadius c ≤ c.h * (c.N / 2 - 2) ∧ 0 ≤ lostRadius c := by
  have hN : (40 : ℝ) ≤ c.N := by exact_mod_cast h40
  have hp : 0 ≤ c.h * (c.N - 40) := mul_nonneg hh.le (by linarith)
  unfold lostRadius
  constructor
  · apply max_le
    · nlinarith
    · nlinarith
  · apply le_max_of_le_left
    have : 0 ≤ c.h * c.N := by nlinarith
    linarith

/-- C33, refutation for coarse grids: with 11 steps of size 1 a particle that is not lost reads a node outside the grid. -/
theorem push_reads_outside : ∃ (c : BCfg) (x y : ℝ), c.N % 2 = 1 ∧ 0 < c.h ∧ ¬ isLost x y (lostRadius c) ∧ ∃ t ∈ stencil c.N 1 (x / c.h + 1 / 2) (y / c.h + 1 / 2), c.N ≤ t.1 := by
  have hR : lostRadius ⟨11, 1, 1⟩ = 4.95 := by unfold lostRadius; norm_num
  refine ⟨⟨11, 1, 1⟩, 4.9, 0, by norm_num, by norm_num, ?_, ?_⟩
  · rw [hR]; unfold isLost; norm_num
  · have hf : ⌊(4.9 / 1 + 1 / 2 : ℝ)⌋ = 5 := by rw [Int.floor_eq_iff]; norm_num
    have hmem : ∀ kx ∈ places, ∀ ky ∈ places, (cellOf 11 ((4.9 : ℝ) / 1 + 1 / 2) + kx, cellOf 11 ((0 : ℝ) / 1 + 1 / 2) + ky,
        weight4 (localOf ((4.9 : ℝ) / 1 + 1 / 2)) kx / 1 * weight4 (localOf ((0 : ℝ) / 1 + 1 / 2)) ky / 1) ∈ stencil 11 1 ((4.9 : ℝ) / 1 + 1 / 2) (0 / 1 + 1 / 2) := by
      intro kx hkx ky hky
      simp only [stencil, List.mem_flatMap, List.mem_map]
      exact ⟨kx, hkx, ky, hky, rfl⟩
    refine ⟨_, hmem 2 (by simp [places]) 0 (by simp [places]), ?_⟩
    simp only [cellOf, hf]
    norm_num

end Lcode.Beam3D
