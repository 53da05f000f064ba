import Verif.Beam3D.GpuDeposit

/-!
Model of the GPU kernel of lcode/beam3d/move.py:132-276 (Higuera-Cary pusher). Property C48.
The GPU kernel is not a translation of the CPU kernel (move.py:38-127, modelled in Verif/Beam3D/Move.lean): it uses another scheme for the momentum and for the position, and another test at the end of the loop.
-/

namespace Lcode.Beam3D

open Lcode.Plasma3D (stencil places weight4G gpuIdx rawAt gpuIncs gpuIncs_stencil flat_node Vec3 Fields3 SameOn SameFields)

/-! ### Model -/

/-- `copysign(1.0, q_m)`, move.py:163 (there is only one zero among the reals; with `q_m = 0` the kernel divides by zero anyway). -/
noncomputable def copysign1 (qm : ℝ) : ℝ := if qm < 0 then -1 else 1

/-- `gamma_m` of move.py:169-171, :221-222, :256-258. -/
noncomputable def gammaB (qm : ℝ) (p : Vec3) : ℝ := Real.sqrt (1 / qm * (1 / qm) + p.x * p.x + p.y * p.y + p.z * p.z)

/-- Position at half time step, move.py:169-175. -/
noncomputable def halfG (r : Row ℝ) : Vec3 :=
  let g := gammaB r.qm ⟨r.px, r.py, r.pz⟩
  ⟨r.x + r.dt / 2 * (r.px / g), r.y + r.dt / 2 * (r.py / g), r.xi + r.dt / 2 * (r.pz / g - 1)⟩

/-- One field at the particle, move.py:194-216: the 25 places of the stencil, read by their numbers in the two flat arrays. -/
noncomputable def interp3G (N : ℤ) (xh yh xiLoc : ℝ) (F0 F1 : ℤ → ℤ → ℝ) : ℝ :=
  (places.flatMap fun kx => places.map fun ky => (gpuIdx N xh yh kx ky, weight4G (xh - ⌊xh⌋ - 0.5) kx * weight4G (yh - ⌊yh⌋ - 0.5) ky)).foldl
    (fun s t => s + (rawAt N F0 t.1 * (t.2 * weight1G xiLoc 0) + rawAt N F1 t.1 * (t.2 * weight1G xiLoc 1))) 0

/-- The electric field at the half-step position, move.py:194-216; `xiK` is xi_k. -/
noncomputable def fieldEG (c : BCfg) (xiK : ℝ) (F0 F1 : Fields3) (w : Vec3) : Vec3 :=
  let xh := w.x / c.h + 0.5
  let yh := w.y / c.h + 0.5
  let s := (w.z - xiK) / c.dxi
  ⟨interp3G c.N xh yh s F0.Ex F1.Ex, interp3G c.N xh yh s F0.Ey F1.Ey, interp3G c.N xh yh s F0.Ez F1.Ez⟩

/-- The magnetic field at the half-step position, move.py:194-216. -/
noncomputable def fieldBG (c : BCfg) (xiK : ℝ) (F0 F1 : Fields3) (w : Vec3) : Vec3 :=
  let xh := w.x / c.h + 0.5
  let yh := w.y / c.h + 0.5
  let s := (w.z - xiK) / c.dxi
  ⟨interp3G c.N xh yh s F0.Bx F1.Bx, interp3G c.N xh yh s F0.By F1.By, interp3G c.N xh yh s F0.Bz F1.Bz⟩

/-- `px_m`, `py_m`, `pz_m`, move.py:218-220. -/
noncomputable def pMinus (q dt : ℝ) (E p : Vec3) : Vec3 := ⟨p.x + q * dt / 2 * E.x, p.y + q * dt / 2 * E.y, p.z + q * dt / 2 * E.z⟩

/-- `bx`, `by`, `bz`, move.py:218-220. -/
noncomputable def bHalf (q dt : ℝ) (B : Vec3) : Vec3 := ⟨q * dt / 2 * B.x, q * dt / 2 * B.y, q * dt / 2 * B.z⟩

/-- The relativistic factor at half time step, move.py:221-229. -/
noncomputable def gammaBar (qm : ℝ) (p b : Vec3) : ℝ :=
  let g := gammaB qm p
  let bsq := b.x * b.x + b.y * b.y + b.z * b.z
  Real.sqrt ((g * g - bsq + Real.sqrt ((g * g - bsq) * (g * g - bsq) + 4 * bsq + 4 * (b.x * p.x + b.y * p.y + b.z * p.z) * (b.x * p.x + b.y * p.y + b.z * p.z))) / 2)

/-- The rotation, move.py:232-244, without the last term of :240, :242, :244. -/
noncomputable def rotateG (p t : Vec3) : Vec3 :=
  let pl := 1 + t.x * t.x + t.y * t.y + t.z * t.z
  let mi := 1 - t.x * t.x - t.y * t.y - t.z * t.z
  let sx := 2 * t.x / pl
  let sy := 2 * t.y / pl
  let sz := 2 * t.z / pl
  let sp := sx * p.x + sy * p.y + sz * p.z
  ⟨t.x * sp + p.x * mi / pl + p.y * sz - p.z * sy, t.y * sp + p.y * mi / pl + p.z * sx - p.x * sz, t.z * sp + p.z * mi / pl + p.x * sy - p.y * sx⟩

/-- The new momentum, move.py:218-244. -/
noncomputable def kickG (qm dt : ℝ) (E B p : Vec3) : Vec3 :=
  let q := copysign1 qm
  let m := pMinus q dt E p
  let b := bHalf q dt B
  let g := gammaBar qm m b
  let o := rotateG m ⟨b.x / g, b.y / g, b.z / g⟩
  ⟨o.x + q * dt / 2 * E.x, o.y + q * dt / 2 * E.y, o.z + q * dt / 2 * E.z⟩

/-- The new momentum and position, move.py:237-252, when the fields at the half-step position are `E w` and `B w`. -/
noncomputable def substepG (E B : Vec3 → Vec3) (r : Row ℝ) : Row ℝ :=
  let w := halfG r
  let p := kickG r.qm r.dt (E w) (B w) ⟨r.px, r.py, r.pz⟩
  let g := gammaB r.qm p
  { r with
    x := w.x + r.dt / 2 * (p.x / g)
    y := w.y + r.dt / 2 * (p.y / g)
    xi := w.z + r.dt / 2 * (p.z / g - 1)
    px := p.x
    py := p.y
    pz := p.z }

open Classical in
/-- One turn of the `while` loop, move.py:165-262; `idx` is beam_layer_idx. -/
noncomputable def turnG (c : BCfg) (idx : ℤ) (F0 F1 : Fields3) (r : Row ℝ) : Turn :=
  let w := halfG r
  if w.z < (idx + 1) * -c.dxi then .fell
  else if w.x * w.x + w.y * w.y ≥ lostRadius c * lostRadius c then .lost { r with x := w.x, y := w.y, xi := w.z, id := r.id * -1, remaining := 0 }
  else
    let r' := substepG (fieldEG c (idx * -c.dxi) F0 F1) (fieldBG c (idx * -c.dxi) F0 F1) r
    if r'.x * r'.x + r'.y * r'.y ≥ lostRadius c * lostRadius c then .lost { r' with id := r'.id * -1, remaining := 0 }
    else .next { r' with remaining := r'.remaining - 1 }

/-- The `while` loop, move.py:165-263, for `n` remaining steps: the row, lost_idxes[i], fell_idxes[i]. -/
noncomputable def pushLoopG (c : BCfg) (idx : ℤ) (F0 F1 : Fields3) : ℕ → Row ℝ → Row ℝ × Bool × Bool
  | 0, r => (r, false, false)
  | n + 1, r =>
    match turnG c idx F0 F1 r with
    | .fell => (r, false, true)
    | .lost r' => (r', true, false)
    | .next r' => pushLoopG c idx F0 F1 n r'

open Classical in
/-- One particle of the kernel, move.py:159-272. -/
noncomputable def pushRowG (c : BCfg) (idx : ℤ) (F0 F1 : Fields3) (r : Row ℝ) : Moved :=
  let o := pushLoopG c idx F0 F1 r.remaining.toNat r
  let fell := if o.1.remaining = 0 ∧ o.1.xi < (idx + 1) * -c.dxi then true else o.2.2
  ⟨o.1, o.2.1, if fell = false ∧ o.2.1 = false then true else false, fell⟩

/-! ### Specification -/

/-- Scalar product. -/
def dot3 (a b : Vec3) : ℝ := a.x * b.x + a.y * b.y + a.z * b.z

/-- Vector product. -/
def cross3 (a b : Vec3) : Vec3 := ⟨a.y * b.z - a.z * b.y, a.z * b.x - a.x * b.z, a.x * b.y - a.y * b.x⟩

def add3 (a b : Vec3) : Vec3 := ⟨a.x + b.x, a.y + b.y, a.z + b.z⟩

def scale3 (k : ℝ) (a : Vec3) : Vec3 := ⟨k * a.x, k * a.y, k * a.z⟩

/-- Mean of two vectors. -/
noncomputable def mean3 (a b : Vec3) : Vec3 := scale3 (1 / 2) (add3 a b)

/-- Energy of a particle with momentum `p` and charge-to-mass ratio `qm`. -/
noncomputable def energy3 (qm : ℝ) (p : Vec3) : ℝ := Real.sqrt ((1 / qm) ^ 2 + p.x ^ 2 + p.y ^ 2 + p.z ^ 2)

/-- Sign of the charge. -/
noncomputable def chargeSign (qm : ℝ) : ℝ := ((SignType.sign qm : SignType) : ℝ)

/-! ### The momentum -/

theorem ext3 (a b : Vec3) (hx : a.x = b.x) (hy : a.y = b.y) (hz : a.z = b.z) : a = b := by
  cases a; cases b; simp_all

theorem copysign1_eq (qm : ℝ) (h : qm ≠ 0) : copysign1 qm = chargeSign qm := by
  unfold copysign1 chargeSign
  rcases lt_or_gt_of_ne h with h | h
  · simp [h]
  · simp [h, not_lt.mpr h.le]

theorem copysign1_sq (qm : ℝ) : copysign1 qm ^ 2 = 1 := by
  unfold copysign1; split_ifs <;> norm_num

theorem gammaB_eq (qm : ℝ) (p : Vec3) : gammaB qm p = energy3 qm p := by
  unfold gammaB energy3; congr 1; ring

theorem gammaB_sq (qm : ℝ) (p : Vec3) : gammaB qm p * gammaB qm p = (1 / qm) ^ 2 + dot3 p p := by
  unfold gammaB
  rw [Real.mul_self_sqrt (by nlinarith [mul_self_nonneg (1 / qm), mul_self_nonneg p.x, mul_self_nonneg p.y, mul_self_nonneg p.z])]
  unfold dot3; ring

theorem dot3_self_nonneg (a : Vec3) : 0 ≤ dot3 a a := by
  unfold dot3; nlinarith [mul_self_nonneg a.x, mul_self_nonneg a.y, mul_self_nonneg a.z]

/-- The relativistic factor of the middle of the step is the positive root of a quadratic equation in its square. -/
theorem gammaBar_root (qm : ℝ) (hq : qm ≠ 0) (p b : Vec3) :
    0 < gammaBar qm p b ∧ gammaBar qm p b ^ 2 * (gammaBar qm p b ^ 2 - ((1 / qm) ^ 2 + dot3 p p - dot3 b b)) = dot3 b b + dot3 b p ^ 2 := by
  have hg := gammaB_sq qm p
  set A := (1 / qm) ^ 2 + dot3 p p - dot3 b b with hA
  set D := A * A + 4 * dot3 b b + 4 * dot3 b p * dot3 b p with hD
  have hb := dot3_self_nonneg b
  have hp := dot3_self_nonneg p
  have hM : 0 < (1 / qm) ^ 2 := by positivity
  have hDA : A ^ 2 ≤ D := by rw [hD]; nlinarith [sq_nonneg (dot3 b p)]
  have hs : |A| ≤ Real.sqrt D := Real.abs_le_sqrt hDA
  have hpos : 0 < (A + Real.sqrt D) / 2 := by
    rcases lt_or_ge 0 A with h | h
    · have := abs_nonneg A; linarith
    · have hb0 : 0 < dot3 b b := by linarith
      have : |A| < Real.sqrt D := by
        apply Real.lt_sqrt_of_sq_lt
        rw [sq_abs, hD]; nlinarith [sq_nonneg (dot3 b p)]
      have := neg_abs_le A
      linarith
  have e : gammaBar qm p b = Real.sqrt ((A + Real.sqrt D) / 2) := by
    unfold gammaBar
    simp only [hg]
    rfl
  have hsq : gammaBar qm p b ^ 2 = (A + Real.sqrt D) / 2 := by rw [e, Real.sq_sqrt hpos.le]
  refine ⟨by rw [e]; exact Real.sqrt_pos.mpr hpos, ?_⟩
  rw [hsq]
  have hDs : Real.sqrt D * Real.sqrt D = D := Real.mul_self_sqrt (by nlinarith [sq_nonneg A])
  nlinarith

theorem t_pos (t : Vec3) : 0 < 1 + t.x * t.x + t.y * t.y + t.z * t.z := by
  nlinarith [mul_self_nonneg t.x, mul_self_nonneg t.y, mul_self_nonneg t.z]

/-- The rotation solves the implicit equation `p⁺ - p⁻ = (p⁺ + p⁻) × t`. -/
theorem rotateG_implicit (p t : Vec3) : rotateG p t = add3 p (cross3 (add3 (rotateG p t) p) t) := by
  have h := (t_pos t).ne'
  apply ext3 <;> simp only [rotateG, add3, cross3] <;> field_simp <;> ring

/-- The implicit equation has only one solution. -/
theorem implicit_unique (p t u v : Vec3) (hu : u = add3 p (cross3 (add3 u p) t)) (hv : v = add3 p (cross3 (add3 v p) t)) : u = v := by
  have hx := congrArg Vec3.x hu
  have hy := congrArg Vec3.y hu
  have hz := congrArg Vec3.z hu
  have kx := congrArg Vec3.x hv
  have ky := congrArg Vec3.y hv
  have kz := congrArg Vec3.z hv
  simp only [add3, cross3] at hx hy hz kx ky kz
  have h0 : (u.x - v.x) ^ 2 + (u.y - v.y) ^ 2 + (u.z - v.z) ^ 2 = 0 := by
    have ex : u.x - v.x = (u.y - v.y) * t.z - (u.z - v.z) * t.y := by linarith
    have ey : u.y - v.y = (u.z - v.z) * t.x - (u.x - v.x) * t.z := by linarith
    have ez : u.z - v.z = (u.x - v.x) * t.y - (u.y - v.y) * t.x := by linarith
    have : (u.x - v.x) ^ 2 + (u.y - v.y) ^ 2 + (u.z - v.z) ^ 2 =
        (u.x - v.x) * ((u.y - v.y) * t.z - (u.z - v.z) * t.y) + (u.y - v.y) * ((u.z - v.z) * t.x - (u.x - v.x) * t.z) + (u.z - v.z) * ((u.x - v.x) * t.y - (u.y - v.y) * t.x) := by
      rw [← ex, ← ey, ← ez]; ring
    rw [this]; ring
  have s1 := sq_nonneg (u.x - v.x)
  have s2 := sq_nonneg (u.y - v.y)
  have s3 := sq_nonneg (u.z - v.z)
  apply ext3
  · have : (u.x - v.x) ^ 2 = 0 := by linarith
    have := pow_eq_zero_iff (two_ne_zero) |>.mp this
    linarith
  · have : (u.y - v.y) ^ 2 = 0 := by linarith
    have := pow_eq_zero_iff (two_ne_zero) |>.mp this
    linarith
  · have : (u.z - v.z) ^ 2 = 0 := by linarith
    have := pow_eq_zero_iff (two_ne_zero) |>.mp this
    linarith

/-- A rotation keeps lengths and the component along its axis. -/
theorem rotateG_keeps (p t : Vec3) : dot3 (rotateG p t) (rotateG p t) = dot3 p p ∧ dot3 t (rotateG p t) = dot3 t p := by
  have h := rotateG_implicit p t
  have hx := congrArg Vec3.x h
  have hy := congrArg Vec3.y h
  have hz := congrArg Vec3.z h
  simp only [add3, cross3] at hx hy hz
  generalize rotateG p t = u at hx hy hz
  unfold dot3
  constructor
  · have e : (u.x - p.x) * (u.x + p.x) + (u.y - p.y) * (u.y + p.y) + (u.z - p.z) * (u.z + p.z) = 0 := by
      have ex : u.x - p.x = (u.y + p.y) * t.z - (u.z + p.z) * t.y := by linarith
      have ey : u.y - p.y = (u.z + p.z) * t.x - (u.x + p.x) * t.z := by linarith
      have ez : u.z - p.z = (u.x + p.x) * t.y - (u.y + p.y) * t.x := by linarith
      rw [ex, ey, ez]; ring
    linarith
  · have ex : u.x - p.x = (u.y + p.y) * t.z - (u.z + p.z) * t.y := by linarith
    have ey : u.y - p.y = (u.z + p.z) * t.x - (u.x + p.x) * t.z := by linarith
    have ez : u.z - p.z = (u.x + p.x) * t.y - (u.y + p.y) * t.x := by linarith
    have : t.x * (u.x - p.x) + t.y * (u.y - p.y) + t.z * (u.z - p.z) = 0 := by rw [ex, ey, ez]; ring
    linarith

/-- Everything about the new momentum. `g` is the relativistic factor the code uses in the middle of the step. -/
theorem kickG_spec (qm dt : ℝ) (hq : qm ≠ 0) (E B p : Vec3) :
    ∃ g, 0 < g ∧ kickG qm dt E B p = add3 p (scale3 (chargeSign qm * dt) (add3 E (cross3 (scale3 (1 / g) (mean3 p (kickG qm dt E B p))) B))) ∧
      (g ^ 2 - energy3 qm (mean3 p (kickG qm dt E B p)) ^ 2) * (g ^ 2 + dt ^ 2 / 4 * dot3 B B) = (1 - (1 / qm) ^ 2) * (dt ^ 2 / 4 * dot3 B B) ∧
      g = gammaBar qm (pMinus (copysign1 qm) dt E p) (bHalf (copysign1 qm) dt B) := by
  set q := copysign1 qm with hqs
  have hq2 : q ^ 2 = 1 := copysign1_sq qm
  set m := pMinus q dt E p with hm
  set b := bHalf q dt B with hb
  set g := gammaBar qm m b with hg
  set o := rotateG m ⟨b.x / g, b.y / g, b.z / g⟩ with ho
  obtain ⟨gpos, hroot⟩ := gammaBar_root qm hq m b
  rw [← hg] at gpos hroot
  have gne := gpos.ne'
  have hk : kickG qm dt E B p = ⟨o.x + q * dt / 2 * E.x, o.y + q * dt / 2 * E.y, o.z + q * dt / 2 * E.z⟩ := rfl
  have himp := rotateG_implicit m ⟨b.x / g, b.y / g, b.z / g⟩
  rw [← ho] at himp
  have hx := congrArg Vec3.x himp
  have hy := congrArg Vec3.y himp
  have hz := congrArg Vec3.z himp
  obtain ⟨kl, kd⟩ := rotateG_keeps m ⟨b.x / g, b.y / g, b.z / g⟩
  rw [← ho] at kl kd
  simp only [add3, cross3] at hx hy hz
  have hmx : m.x = p.x + q * dt / 2 * E.x := rfl
  have hmy : m.y = p.y + q * dt / 2 * E.y := rfl
  have hmz : m.z = p.z + q * dt / 2 * E.z := rfl
  have hbx : b.x = q * dt / 2 * B.x := rfl
  have hby : b.y = q * dt / 2 * B.y := rfl
  have hbz : b.z = q * dt / 2 * B.z := rfl
  -- the mean of the old and the new momentum is the mean of the momenta before and after the rotation
  have hmean : mean3 p (kickG qm dt E B p) = ⟨(o.x + m.x) / 2, (o.y + m.y) / 2, (o.z + m.z) / 2⟩ := by
    rw [hk]; apply ext3 <;> simp only [mean3, scale3, add3, hmx, hmy, hmz] <;> ring
  have hbb : dt ^ 2 / 4 * dot3 B B = dot3 b b := by
    simp only [dot3, hbx, hby, hbz]
    linear_combination (-(dt ^ 2 / 4 * (B.x * B.x + B.y * B.y + B.z * B.z))) * hq2
  refine ⟨g, gpos, ?_, ?_, rfl⟩
  · rw [hmean, ← copysign1_eq qm hq, ← hqs, hk]
    apply ext3 <;> simp only [scale3, add3, cross3]
    · rw [hx]; simp only [hmx, hby, hbz]; ring
    · rw [hy]; simp only [hmy, hbx, hbz]; ring
    · rw [hz]; simp only [hmz, hbx, hby]; ring
  · rw [hmean, hbb]
    have he : energy3 qm ⟨(o.x + m.x) / 2, (o.y + m.y) / 2, (o.z + m.z) / 2⟩ ^ 2 = (1 / qm) ^ 2 + ((o.x + m.x) / 2) ^ 2 + ((o.y + m.y) / 2) ^ 2 + ((o.z + m.z) / 2) ^ 2 := by
      unfold energy3; rw [Real.sq_sqrt (by positivity)]
    rw [he]
    -- |mean|² (g² + b²) = |m|² g² + (b·m)²
    have hx' : (o.x - m.x) * g = (o.y + m.y) * b.z - (o.z + m.z) * b.y := by
      have : o.x - m.x = ((o.y + m.y) * b.z - (o.z + m.z) * b.y) / g := by linear_combination hx
      rw [this]; field_simp
    have hy' : (o.y - m.y) * g = (o.z + m.z) * b.x - (o.x + m.x) * b.z := by
      have : o.y - m.y = ((o.z + m.z) * b.x - (o.x + m.x) * b.z) / g := by linear_combination hy
      rw [this]; field_simp
    have hz' : (o.z - m.z) * g = (o.x + m.x) * b.y - (o.y + m.y) * b.x := by
      have : o.z - m.z = ((o.x + m.x) * b.y - (o.y + m.y) * b.x) / g := by linear_combination hz
      rw [this]; field_simp
    have hbo : dot3 b o = dot3 b m := by
      simp only [dot3] at kd ⊢
      have := congrArg (· * g) kd
      field_simp at this
      linarith
    simp only [dot3] at kl hbo hroot ⊢
    have key : (((o.x + m.x) / 2) ^ 2 + ((o.y + m.y) / 2) ^ 2 + ((o.z + m.z) / 2) ^ 2) * (g ^ 2 + (b.x * b.x + b.y * b.y + b.z * b.z)) =
        (m.x * m.x + m.y * m.y + m.z * m.z) * g ^ 2 + (b.x * m.x + b.y * m.y + b.z * m.z) ^ 2 := by
      -- |o+m|²|b|² = |(o+m)×b|² + ((o+m)·b)² ; (o+m)×b = (o-m) g ; |o+m|²+|o-m|² = 4|m|²
      have l1 : ((o.x + m.x) ^ 2 + (o.y + m.y) ^ 2 + (o.z + m.z) ^ 2) * (b.x * b.x + b.y * b.y + b.z * b.z) =
          ((o.x - m.x) * g) ^ 2 + ((o.y - m.y) * g) ^ 2 + ((o.z - m.z) * g) ^ 2 + ((o.x + m.x) * b.x + (o.y + m.y) * b.y + (o.z + m.z) * b.z) ^ 2 := by
        rw [hx', hy', hz']; ring
      have l2 : (o.x + m.x) * b.x + (o.y + m.y) * b.y + (o.z + m.z) * b.z = 2 * (b.x * m.x + b.y * m.y + b.z * m.z) := by linarith
      rw [l2] at l1
      have l3 : ((o.x + m.x) ^ 2 + (o.y + m.y) ^ 2 + (o.z + m.z) ^ 2) * g ^ 2 + (((o.x - m.x) * g) ^ 2 + ((o.y - m.y) * g) ^ 2 + ((o.z - m.z) * g) ^ 2) =
          4 * (m.x * m.x + m.y * m.y + m.z * m.z) * g ^ 2 := by
        linear_combination (2 * g ^ 2) * kl
      linear_combination (1 / 4) * l1 + (1 / 4) * l3
    linear_combination hroot - key

theorem energy3_sq (qm : ℝ) (p : Vec3) : energy3 qm p ^ 2 = (1 / qm) ^ 2 + dot3 p p := by
  unfold energy3 dot3; rw [Real.sq_sqrt (by positivity)]; ring

theorem energy3_pos (qm : ℝ) (hq : qm ≠ 0) (p : Vec3) : 0 < energy3 qm p := by
  unfold energy3
  apply Real.sqrt_pos.mpr
  have : 0 < (1 / qm) ^ 2 := by positivity
  nlinarith [sq_nonneg p.x, sq_nonneg p.y, sq_nonneg p.z]

/-- C48, the momentum: for particles with the mass of the unit charge the new momentum is given by the midpoint rule with the relativistic velocity of the mean momentum. For other masses the rule holds only where the magnetic part of it vanishes: when `dt` is zero or the mean momentum is parallel to the magnetic field. -/
theorem gpu_kick_midpoint (qm dt : ℝ) (hq : qm ≠ 0) (E B p p' : Vec3) (hp' : p' = kickG qm dt E B p) :
    p' = add3 p (scale3 (chargeSign qm * dt) (add3 E (cross3 (scale3 (1 / energy3 qm (mean3 p p')) (mean3 p p')) B))) ↔
      (|qm| = 1 ∨ dt = 0 ∨ cross3 (mean3 p p') B = ⟨0, 0, 0⟩) := by
  obtain ⟨g, gpos, hL, hG, -⟩ := kickG_spec qm dt hq E B p
  rw [← hp'] at hL hG
  set m := mean3 p p' with hm
  have epos := energy3_pos qm hq m
  have hs : chargeSign qm ≠ 0 := by
    rw [← copysign1_eq qm hq]
    intro h
    have := copysign1_sq qm
    rw [h] at this; norm_num at this
  have hbb : 0 ≤ dt ^ 2 / 4 * dot3 B B := mul_nonneg (by positivity) (dot3_self_nonneg B)
  have hgpos2 : 0 < g ^ 2 := by positivity
  have hab : |qm| = 1 ↔ 1 - (1 / qm) ^ 2 = 0 := by
    constructor
    · intro h
      have : qm ^ 2 = 1 := by rw [← sq_abs, h]; norm_num
      rw [div_pow, this]; norm_num
    · intro h
      have h2 : qm ^ 2 = 1 := by
        have : (1 / qm) ^ 2 = 1 := by linarith
        field_simp at this
        linarith
      have : |qm| ^ 2 = 1 := by rw [sq_abs, h2]
      nlinarith [abs_nonneg qm]
  constructor
  · intro hR
    by_contra hcon
    push Not at hcon
    obtain ⟨h1, h2, h3⟩ := hcon
    -- the two forces agree, so the two factors agree
    have hne : g ≠ energy3 qm m := by
      intro he
      rw [he] at hG
      have hz : (1 - (1 / qm) ^ 2) * (dt ^ 2 / 4 * dot3 B B) = 0 := by rw [← hG]; ring
      rcases mul_eq_zero.mp hz with h | h
      · exact h1 (hab.mpr h)
      · have hB : dot3 B B = 0 := by
          rcases mul_eq_zero.mp h with h | h
          · exfalso; apply h2; have : dt ^ 2 = 0 := by linarith
            exact pow_eq_zero_iff two_ne_zero |>.mp this
          · exact h
        unfold dot3 at hB
        have b1 : B.x = 0 := by nlinarith [mul_self_nonneg B.x, mul_self_nonneg B.y, mul_self_nonneg B.z]
        have b2 : B.y = 0 := by nlinarith [mul_self_nonneg B.x, mul_self_nonneg B.y, mul_self_nonneg B.z]
        have b3 : B.z = 0 := by nlinarith [mul_self_nonneg B.x, mul_self_nonneg B.y, mul_self_nonneg B.z]
        apply h3
        simp [cross3, b1, b2, b3]
    have hinv : 1 / g - 1 / energy3 qm m ≠ 0 := by
      intro h
      apply hne
      have : 1 / g = 1 / energy3 qm m := by linarith
      field_simp at this
      linarith
    have heq := hL.symm.trans hR
    have ex := congrArg Vec3.x heq
    have ey := congrArg Vec3.y heq
    have ez := congrArg Vec3.z heq
    simp only [add3, scale3, cross3] at ex ey ez
    apply h3
    have hk : chargeSign qm * dt * (1 / g - 1 / energy3 qm m) ≠ 0 := mul_ne_zero (mul_ne_zero hs h2) hinv
    apply ext3 <;> simp only [cross3]
    · apply mul_left_cancel₀ hk; linear_combination ex
    · apply mul_left_cancel₀ hk; linear_combination ey
    · apply mul_left_cancel₀ hk; linear_combination ez
  · rintro (h | h | h)
    · have h0 := hab.mp h
      rw [h0, zero_mul] at hG
      have hz : g ^ 2 - energy3 qm m ^ 2 = 0 := by
        rcases mul_eq_zero.mp hG with h | h
        · exact h
        · linarith
      have : g = energy3 qm m := by nlinarith
      rw [← this]; exact hL
    · rw [hL]
      apply ext3 <;> simp [add3, scale3, h]
    · have hx := congrArg Vec3.x h
      have hy := congrArg Vec3.y h
      have hz := congrArg Vec3.z h
      simp only [cross3] at hx hy hz
      rw [hL]
      apply ext3 <;> simp only [add3, scale3, cross3]
      · linear_combination (chargeSign qm * dt * (1 / g - 1 / energy3 qm m)) * hx
      · linear_combination (chargeSign qm * dt * (1 / g - 1 / energy3 qm m)) * hy
      · linear_combination (chargeSign qm * dt * (1 / g - 1 / energy3 qm m)) * hz

/-- C48, the energy: for any mass the square of the energy changes by exactly twice the work of the electric field on the mean momentum; the magnetic field does no work. -/
theorem gpu_kick_work (qm dt : ℝ) (hq : qm ≠ 0) (E B p p' : Vec3) (hp' : p' = kickG qm dt E B p) :
    energy3 qm p' ^ 2 - energy3 qm p ^ 2 = 2 * (chargeSign qm * dt * dot3 E (mean3 p p')) := by
  obtain ⟨g, gpos, hL, -, -⟩ := kickG_spec qm dt hq E B p
  rw [← hp'] at hL
  rw [energy3_sq, energy3_sq]
  have hx := congrArg Vec3.x hL
  have hy := congrArg Vec3.y hL
  have hz := congrArg Vec3.z hL
  simp only [add3, scale3, cross3] at hx hy hz
  have : dot3 p' p' - dot3 p p = 2 * ((p'.x - p.x) * (mean3 p p').x + (p'.y - p.y) * (mean3 p p').y + (p'.z - p.z) * (mean3 p p').z) := by
    simp only [mean3, scale3, add3, dot3]; ring
  have ex : p'.x - p.x = chargeSign qm * dt * (E.x + (1 / g * (mean3 p p').y * B.z - 1 / g * (mean3 p p').z * B.y)) := by linarith
  have ey : p'.y - p.y = chargeSign qm * dt * (E.y + (1 / g * (mean3 p p').z * B.x - 1 / g * (mean3 p p').x * B.z)) := by linarith
  have ez : p'.z - p.z = chargeSign qm * dt * (E.z + (1 / g * (mean3 p p').x * B.y - 1 / g * (mean3 p p').y * B.x)) := by linarith
  have h2 : dot3 p' p' - dot3 p p = 2 * (chargeSign qm * dt * dot3 E (mean3 p p')) := by
    rw [this, ex, ey, ez]; unfold dot3; ring
  linarith

/-- C48: in a purely magnetic field the energy does not change at all. -/
theorem gpu_magnetic_energy (qm dt : ℝ) (hq : qm ≠ 0) (B p : Vec3) : energy3 qm (kickG qm dt ⟨0, 0, 0⟩ B p) = energy3 qm p := by
  have h := gpu_kick_work qm dt hq ⟨0, 0, 0⟩ B p _ rfl
  have h0 : ∀ v : Vec3, dot3 ⟨0, 0, 0⟩ v = 0 := by intro v; simp [dot3]
  rw [h0] at h
  have e1 := energy3_pos qm hq p
  have e2 := energy3_pos qm hq (kickG qm dt ⟨0, 0, 0⟩ B p)
  nlinarith

/-- C48: without a magnetic field the momentum changes by the charge sign times `dt` times the electric field, as on the CPU. -/
theorem gpu_electric (qm dt : ℝ) (hq : qm ≠ 0) (E p : Vec3) : kickG qm dt E ⟨0, 0, 0⟩ p = add3 p (scale3 (chargeSign qm * dt) E) := by
  obtain ⟨g, -, hL, -, -⟩ := kickG_spec qm dt hq E ⟨0, 0, 0⟩ p
  rw [hL]
  apply ext3 <;> simp [add3, scale3, cross3]

/-- The step backwards: the same fields and the opposite `dt` undo the change of the momentum, for any mass. -/
theorem gpu_kick_reversible (qm dt : ℝ) (hq : qm ≠ 0) (E B p : Vec3) : kickG qm (-dt) E B (kickG qm dt E B p) = p := by
  set q := copysign1 qm with hqs
  set m := pMinus q dt E p with hm
  set b := bHalf q dt B with hb
  set g := gammaBar qm m b with hg
  set t : Vec3 := ⟨b.x / g, b.y / g, b.z / g⟩ with ht
  set o := rotateG m t with ho
  have hk : kickG qm dt E B p = ⟨o.x + q * dt / 2 * E.x, o.y + q * dt / 2 * E.y, o.z + q * dt / 2 * E.z⟩ := rfl
  obtain ⟨gpos, -⟩ := gammaBar_root qm hq m b
  rw [← hg] at gpos
  have gne := gpos.ne'
  have hm' : pMinus q (-dt) E (kickG qm dt E B p) = o := by
    rw [hk]; apply ext3 <;> simp only [pMinus] <;> ring
  have hb' : bHalf q (-dt) B = ⟨-b.x, -b.y, -b.z⟩ := by
    apply ext3 <;> simp only [bHalf, hb] <;> ring
  obtain ⟨kl, kd⟩ := rotateG_keeps m t
  rw [← ho] at kl kd
  have hbo : b.x * o.x + b.y * o.y + b.z * o.z = b.x * m.x + b.y * m.y + b.z * m.z := by
    simp only [dot3, ht] at kd
    have := congrArg (· * g) kd
    field_simp at this
    linarith
  have hg' : gammaBar qm o ⟨-b.x, -b.y, -b.z⟩ = g := by
    have h1 : gammaB qm o * gammaB qm o = gammaB qm m * gammaB qm m := by rw [gammaB_sq, gammaB_sq, kl]
    have h2 : -b.x * o.x + -b.y * o.y + -b.z * o.z = -(b.x * m.x + b.y * m.y + b.z * m.z) := by linarith
    have h3 : -b.x * -b.x + -b.y * -b.y + -b.z * -b.z = b.x * b.x + b.y * b.y + b.z * b.z := by ring
    rw [hg]
    unfold gammaBar
    have h4 : ∀ s : ℝ, 4 * -s * -s = 4 * s * s := fun s => by ring
    simp only [h1, h2, h3, h4]
  have hrot : rotateG o ⟨-b.x / g, -b.y / g, -b.z / g⟩ = m := by
    refine implicit_unique o ⟨-b.x / g, -b.y / g, -b.z / g⟩ _ _ (rotateG_implicit _ _) ?_
    have himp := rotateG_implicit m t
    rw [← ho] at himp
    have hx := congrArg Vec3.x himp
    have hy := congrArg Vec3.y himp
    have hz := congrArg Vec3.z himp
    simp only [add3, cross3, ht] at hx hy hz
    apply ext3 <;> simp only [add3, cross3]
    · linear_combination -hx
    · linear_combination -hy
    · linear_combination -hz
  have : kickG qm (-dt) E B (kickG qm dt E B p) =
      ⟨(rotateG o ⟨-b.x / g, -b.y / g, -b.z / g⟩).x + q * (-dt) / 2 * E.x, (rotateG o ⟨-b.x / g, -b.y / g, -b.z / g⟩).y + q * (-dt) / 2 * E.y,
        (rotateG o ⟨-b.x / g, -b.y / g, -b.z / g⟩).z + q * (-dt) / 2 * E.z⟩ := by
    generalize kickG qm dt E B p = p' at hm'
    unfold kickG
    simp only [← hqs, hm', hb', hg']
  rw [this, hrot]
  apply ext3 <;> simp only [hm, pMinus] <;> ring

/-- C48: a whole substep is reversible. Run with the opposite `dt`, through the same fields, it brings the particle back exactly to where it was, with the momentum it had. -/
theorem gpu_substep_reversible (E B : Vec3 → Vec3) (r : Row ℝ) (hq : r.qm ≠ 0) : substepG E B { substepG E B r with dt := -r.dt } = { r with dt := -r.dt } := by
  set w := halfG r with hw
  set p := kickG r.qm r.dt (E w) (B w) ⟨r.px, r.py, r.pz⟩ with hp
  set g := gammaB r.qm p with hg
  have hs : ({ substepG E B r with dt := -r.dt } : Row ℝ) =
      { r with x := w.x + r.dt / 2 * (p.x / g), y := w.y + r.dt / 2 * (p.y / g), xi := w.z + r.dt / 2 * (p.z / g - 1), px := p.x, py := p.y, pz := p.z, dt := -r.dt } := rfl
  rw [hs]
  have hw' : halfG { r with x := w.x + r.dt / 2 * (p.x / g), y := w.y + r.dt / 2 * (p.y / g), xi := w.z + r.dt / 2 * (p.z / g - 1), px := p.x, py := p.y, pz := p.z, dt := -r.dt } = w := by
    have eg : gammaB r.qm ⟨p.x, p.y, p.z⟩ = g := rfl
    apply ext3 <;> simp only [halfG, eg] <;> ring
  have hk : kickG r.qm (-r.dt) (E w) (B w) ⟨p.x, p.y, p.z⟩ = ⟨r.px, r.py, r.pz⟩ := by
    have : (⟨p.x, p.y, p.z⟩ : Vec3) = p := rfl
    rw [this, hp]; exact gpu_kick_reversible _ _ hq _ _ _
  conv_lhs => unfold substepG
  simp only [hw', hk]
  rw [hw]
  simp only [halfG]
  cases r
  simp only [Row.mk.injEq, and_true, true_and]
  refine ⟨?_, ?_, ?_⟩ <;> ring

/-- C48: a particle of unit mass on which the Lorentz force vanishes keeps its momentum, whatever the step. -/
theorem gpu_force_free (qm dt : ℝ) (hq : |qm| = 1) (E B p : Vec3) (hE : add3 E (cross3 (scale3 (1 / energy3 qm p) p) B) = ⟨0, 0, 0⟩) : kickG qm dt E B p = p := by
  have hq0 : qm ≠ 0 := by rintro rfl; norm_num at hq
  have hM : (1 / qm) ^ 2 = 1 := by rw [div_pow, ← sq_abs qm, hq]; norm_num
  set γ := energy3 qm p with hγ
  have γpos : 0 < γ := energy3_pos qm hq0 p
  have γsq : γ ^ 2 = 1 + dot3 p p := by rw [hγ, energy3_sq, hM]
  set q := copysign1 qm with hqs
  set m := pMinus q dt E p with hm
  set b := bHalf q dt B with hb
  set g := gammaBar qm m b with hg
  obtain ⟨gpos, hroot⟩ := gammaBar_root qm hq0 m b
  rw [← hg] at gpos hroot
  have hx := congrArg Vec3.x hE
  have hy := congrArg Vec3.y hE
  have hz := congrArg Vec3.z hE
  simp only [add3, scale3, cross3] at hx hy hz
  have γne := γpos.ne'
  -- m - p = e with γ e = b × p
  have ex : γ * (m.x - p.x) = b.y * p.z - b.z * p.y := by
    have : E.x = -(1 / γ * p.y * B.z - 1 / γ * p.z * B.y) := by linarith
    simp only [hm, hb, pMinus, bHalf, this]; field_simp; ring
  have ey : γ * (m.y - p.y) = b.z * p.x - b.x * p.z := by
    have : E.y = -(1 / γ * p.z * B.x - 1 / γ * p.x * B.z) := by linarith
    simp only [hm, hb, pMinus, bHalf, this]; field_simp; ring
  have ez : γ * (m.z - p.z) = b.x * p.y - b.y * p.x := by
    have : E.z = -(1 / γ * p.x * B.y - 1 / γ * p.y * B.x) := by linarith
    simp only [hm, hb, pMinus, bHalf, this]; field_simp; ring
  have hbm : dot3 b m = dot3 b p := by
    apply mul_left_cancel₀ γne
    simp only [dot3]
    linear_combination b.x * ex + b.y * ey + b.z * ez
  have hpe : p.x * (m.x - p.x) + p.y * (m.y - p.y) + p.z * (m.z - p.z) = 0 := by
    apply mul_left_cancel₀ γne
    linear_combination p.x * ex + p.y * ey + p.z * ez
  have hee : γ ^ 2 * ((m.x - p.x) ^ 2 + (m.y - p.y) ^ 2 + (m.z - p.z) ^ 2) = dot3 b b * dot3 p p - dot3 b p ^ 2 := by
    have : γ ^ 2 * ((m.x - p.x) ^ 2 + (m.y - p.y) ^ 2 + (m.z - p.z) ^ 2) = (γ * (m.x - p.x)) ^ 2 + (γ * (m.y - p.y)) ^ 2 + (γ * (m.z - p.z)) ^ 2 := by ring
    rw [this, ex, ey, ez]; simp only [dot3]; ring
  have hmm : dot3 m m = dot3 p p + ((m.x - p.x) ^ 2 + (m.y - p.y) ^ 2 + (m.z - p.z) ^ 2) := by
    simp only [dot3]; linear_combination 2 * hpe
  -- γ² is a root of the same quadratic
  have hroot2 : γ ^ 2 * (γ ^ 2 - ((1 / qm) ^ 2 + dot3 m m - dot3 b b)) = dot3 b b + dot3 b m ^ 2 := by
    rw [hM, hmm, hbm]
    linear_combination (γ ^ 2 + dot3 b b) * γsq - hee
  have hge : g = γ := by
    set S := (1 / qm) ^ 2 + dot3 m m - dot3 b b with hS
    have hc : 0 ≤ dot3 b b + dot3 b m ^ 2 := add_nonneg (dot3_self_nonneg b) (sq_nonneg _)
    have hprod : (g ^ 2 - γ ^ 2) * (g ^ 2 + γ ^ 2 - S) = 0 := by linear_combination hroot - hroot2
    have hg2 : 0 < g ^ 2 := by positivity
    have hγ2 : 0 < γ ^ 2 := by positivity
    rcases mul_eq_zero.mp hprod with h | h
    · exact (sq_eq_sq₀ gpos.le γpos.le).mp (by linarith)
    · exfalso
      have h5 : γ ^ 2 - S = -g ^ 2 := by linarith
      rw [h5] at hroot2
      have := mul_pos hγ2 hg2
      linarith
  have hrot : rotateG m ⟨b.x / g, b.y / g, b.z / g⟩ = ⟨2 * p.x - m.x, 2 * p.y - m.y, 2 * p.z - m.z⟩ := by
    refine implicit_unique m ⟨b.x / g, b.y / g, b.z / g⟩ _ _ (rotateG_implicit _ _) ?_
    rw [hge]
    apply ext3 <;> simp only [add3, cross3] <;> apply mul_left_cancel₀ γne <;> field_simp
    · linear_combination (-2) * ex
    · linear_combination (-2) * ey
    · linear_combination (-2) * ez
  have : kickG qm dt E B p = ⟨(rotateG m ⟨b.x / g, b.y / g, b.z / g⟩).x + q * dt / 2 * E.x, (rotateG m ⟨b.x / g, b.y / g, b.z / g⟩).y + q * dt / 2 * E.y,
        (rotateG m ⟨b.x / g, b.y / g, b.z / g⟩).z + q * dt / 2 * E.z⟩ := rfl
  rw [this, hrot]
  apply ext3 <;> simp only [hm, pMinus] <;> ring

/-- C48: the assumption of `gpu_force_free` can be met with a moving particle and fields that do not vanish. -/
theorem gpu_force_free_case : ∃ E B p : Vec3, E ≠ ⟨0, 0, 0⟩ ∧ p.z ≠ 0 ∧ add3 E (cross3 (scale3 (1 / energy3 1 p) p) B) = ⟨0, 0, 0⟩ := by
  have he : energy3 1 ⟨0, 0, 3 / 4⟩ = 5 / 4 := by
    unfold energy3
    rw [show (1 / 1 : ℝ) ^ 2 + 0 ^ 2 + 0 ^ 2 + (3 / 4) ^ 2 = (5 / 4) ^ 2 by norm_num, Real.sqrt_sq (by norm_num)]
  refine ⟨⟨3 / 5, 0, 0⟩, ⟨0, 1, 0⟩, ⟨0, 0, 3 / 4⟩, ?_, by norm_num, ?_⟩
  · intro h; have := congrArg Vec3.x h; norm_num at this
  · rw [he]; apply ext3 <;> simp [add3, cross3, scale3] <;> norm_num

/-- C48, refutation of the midpoint rule for other masses: a particle twice as heavy as the unit mass, in a magnetic field across its motion. -/
theorem gpu_wrong_mass : ∃ qm dt : ℝ, ∃ E B p p' : Vec3, qm ≠ 0 ∧ p' = kickG qm dt E B p ∧
    p' ≠ add3 p (scale3 (chargeSign qm * dt) (add3 E (cross3 (scale3 (1 / energy3 qm (mean3 p p')) (mean3 p p')) B))) := by
  refine ⟨1 / 2, 1, ⟨0, 0, 0⟩, ⟨0, 1, 0⟩, ⟨0, 0, 1⟩, _, by norm_num, rfl, ?_⟩
  intro h
  have hq : (1 / 2 : ℝ) ≠ 0 := by norm_num
  rcases (gpu_kick_midpoint (1 / 2) 1 hq ⟨0, 0, 0⟩ ⟨0, 1, 0⟩ ⟨0, 0, 1⟩ _ rfl).mp h with h | h | h
  · rw [abs_of_pos (by norm_num)] at h; norm_num at h
  · norm_num at h
  · have e := gpu_magnetic_energy (1 / 2) 1 hq ⟨0, 1, 0⟩ ⟨0, 0, 1⟩
    obtain ⟨g, gpos, hL, -, -⟩ := kickG_spec (1 / 2) 1 hq ⟨0, 0, 0⟩ ⟨0, 1, 0⟩ ⟨0, 0, 1⟩
    have c1 := congrArg Vec3.x h
    have c3 := congrArg Vec3.z h
    have l1 := congrArg Vec3.x hL
    have l3 := congrArg Vec3.z hL
    simp only [cross3, mean3, scale3, add3] at c1 c3 l1 l3
    -- the mean momentum has no z component, but then the new momentum is the opposite of the old one
    generalize (kickG (1 / 2) 1 ⟨0, 0, 0⟩ ⟨0, 1, 0⟩ ⟨0, 0, 1⟩).x = px at *
    generalize (kickG (1 / 2) 1 ⟨0, 0, 0⟩ ⟨0, 1, 0⟩ ⟨0, 0, 1⟩).z = pz at *
    have hz : pz = -1 := by linarith
    have hx : px = 0 := by linarith
    rw [hx, hz] at l3
    norm_num at l3

/-! ### The CPU kernel, for comparison -/

/-- C48, the CPU kernel: in a purely magnetic field every substep ADDS energy, `dt` squared times the square of the magnetic force. -/
theorem cpu_magnetic_energy (r : Row ℝ) (hq : r.qm ≠ 0) (B : Vec3) :
    energy3 r.qm ⟨(fullStep r (halfMomentum r ⟨0, 0, 0⟩ B)).px, (fullStep r (halfMomentum r ⟨0, 0, 0⟩ B)).py, (fullStep r (halfMomentum r ⟨0, 0, 0⟩ B)).pz⟩ ^ 2 =
      energy3 r.qm ⟨r.px, r.py, r.pz⟩ ^ 2 + r.dt ^ 2 * dot3 (cross3 (vel r.qm ⟨r.px, r.py, r.pz⟩) B) (cross3 (vel r.qm ⟨r.px, r.py, r.pz⟩) B) := by
  have hs : sign r.qm ^ 2 = 1 := by
    unfold sign
    rcases lt_or_gt_of_ne hq with h | h
    · simp [h]
    · simp [h, not_lt.mpr h.le]
  rw [energy3_sq, energy3_sq]
  have hp := energy3_pos r.qm hq ⟨r.px, r.py, r.pz⟩
  have hg : gammaM r.qm ⟨r.px, r.py, r.pz⟩ = energy3 r.qm ⟨r.px, r.py, r.pz⟩ := rfl
  have hv : vel r.qm ⟨r.px, r.py, r.pz⟩ = ⟨r.px / energy3 r.qm ⟨r.px, r.py, r.pz⟩, r.py / energy3 r.qm ⟨r.px, r.py, r.pz⟩, r.pz / energy3 r.qm ⟨r.px, r.py, r.pz⟩⟩ := rfl
  simp only [fullStep, halfMomentum, hg, hv, dot3, cross3]
  generalize energy3 r.qm ⟨r.px, r.py, r.pz⟩ = g at hp
  generalize sign r.qm = q at hs
  have ha : r.px = g * (r.px / g) := by field_simp
  have hb : r.py = g * (r.py / g) := by field_simp
  have hc : r.pz = g * (r.pz / g) := by field_simp
  generalize r.px / g = a at *
  generalize r.py / g = b at *
  generalize r.pz / g = c at *
  linear_combination (r.dt ^ 2 * ((b * B.z - c * B.y) ^ 2 + (c * B.x - a * B.z) ^ 2 + (a * B.y - b * B.x) ^ 2)) * hs +
    2 * q * r.dt * (b * B.z - c * B.y) * ha + 2 * q * r.dt * (c * B.x - a * B.z) * hb + 2 * q * r.dt * (a * B.y - b * B.x) * hc

/-- C48, the CPU kernel is not reversible: in a uniform magnetic field that bends the trajectory, a substep forward and one back leave the particle with more energy than it had. -/
theorem cpu_not_reversible (r : Row ℝ) (hq : r.qm ≠ 0) (hdt : r.dt ≠ 0) (B : Vec3) (hB : cross3 (vel r.qm ⟨r.px, r.py, r.pz⟩) B ≠ ⟨0, 0, 0⟩) (r1 r2 : Row ℝ)
    (h1 : r1 = { fullStep r (halfMomentum r ⟨0, 0, 0⟩ B) with dt := -r.dt }) (h2 : r2 = fullStep r1 (halfMomentum r1 ⟨0, 0, 0⟩ B)) :
    energy3 r.qm ⟨r.px, r.py, r.pz⟩ ^ 2 < energy3 r.qm ⟨r2.px, r2.py, r2.pz⟩ ^ 2 := by
  have e1 := cpu_magnetic_energy r hq B
  have hq1 : r1.qm = r.qm := by rw [h1]; rfl
  have e2 := cpu_magnetic_energy r1 (by rw [hq1]; exact hq) B
  rw [← h2, hq1] at e2
  have em : (⟨(fullStep r (halfMomentum r ⟨0, 0, 0⟩ B)).px, (fullStep r (halfMomentum r ⟨0, 0, 0⟩ B)).py, (fullStep r (halfMomentum r ⟨0, 0, 0⟩ B)).pz⟩ : Vec3) = ⟨r1.px, r1.py, r1.pz⟩ := by rw [h1]
  rw [em] at e1
  have p1 : 0 ≤ r1.dt ^ 2 * dot3 (cross3 (vel r.qm ⟨r1.px, r1.py, r1.pz⟩) B) (cross3 (vel r.qm ⟨r1.px, r1.py, r1.pz⟩) B) := mul_nonneg (sq_nonneg _) (dot3_self_nonneg _)
  have p2 : 0 < r.dt ^ 2 * dot3 (cross3 (vel r.qm ⟨r.px, r.py, r.pz⟩) B) (cross3 (vel r.qm ⟨r.px, r.py, r.pz⟩) B) := by
    apply mul_pos (by positivity)
    rcases (dot3_self_nonneg (cross3 (vel r.qm ⟨r.px, r.py, r.pz⟩) B)).lt_or_eq with h | h
    · exact h
    · exfalso
      apply hB
      unfold dot3 at h
      generalize cross3 (vel r.qm ⟨r.px, r.py, r.pz⟩) B = v at h
      apply ext3 <;> nlinarith [mul_self_nonneg v.x, mul_self_nonneg v.y, mul_self_nonneg v.z]
  linarith

/-- C48, the CPU kernel keeps the momentum of a particle of any mass on which the Lorentz force vanishes. -/
theorem cpu_force_free (r : Row ℝ) (E B : Vec3) (hE : add3 E (cross3 (vel r.qm ⟨r.px, r.py, r.pz⟩) B) = ⟨0, 0, 0⟩) :
    (fullStep r (halfMomentum r E B)).px = r.px ∧ (fullStep r (halfMomentum r E B)).py = r.py ∧ (fullStep r (halfMomentum r E B)).pz = r.pz := by
  have hx := congrArg Vec3.x hE
  have hy := congrArg Vec3.y hE
  have hz := congrArg Vec3.z hE
  have hv : vel r.qm ⟨r.px, r.py, r.pz⟩ = ⟨r.px / gammaM r.qm ⟨r.px, r.py, r.pz⟩, r.py / gammaM r.qm ⟨r.px, r.py, r.pz⟩, r.pz / gammaM r.qm ⟨r.px, r.py, r.pz⟩⟩ := rfl
  simp only [hv, add3, cross3] at hx hy hz
  simp only [fullStep, halfMomentum]
  refine ⟨?_, ?_, ?_⟩
  · linear_combination (sign r.qm * r.dt) * hx
  · linear_combination (sign r.qm * r.dt) * hy
  · linear_combination (sign r.qm * r.dt) * hz

/-! ### The fields -/

/-- C48: where the grid has all nodes of the stencil, the GPU reads the fields the CPU reads. -/
theorem interp3G_same (N : ℤ) (xh yh s : ℝ) (F0 F1 : ℤ → ℤ → ℝ) (hin : ∀ t ∈ stencil N 1 xh yh, 0 ≤ t.1 ∧ t.1 < N ∧ 0 ≤ t.2.1 ∧ t.2.1 < N) : interp3G N xh yh s F0 F1 = interp3 N xh yh s F0 F1 := by
  have e : (places.flatMap fun kx => places.map fun ky => (gpuIdx N xh yh kx ky, weight4G (xh - ⌊xh⌋ - 0.5) kx * weight4G (yh - ⌊yh⌋ - 0.5) ky)) =
      (stencil N 1 xh yh).map fun t => (t.2.1 + N * t.1, t.2.2) := by
    have h := gpuIncs_stencil N 1 xh yh 1
    unfold gpuIncs at h
    have e2 : (places.flatMap fun kx => places.map fun ky => (gpuIdx N xh yh kx ky, weight4G (xh - ⌊xh⌋ - 0.5) kx * weight4G (yh - ⌊yh⌋ - 0.5) ky)) =
        places.flatMap fun kx => places.map fun ky => (gpuIdx N xh yh kx ky, 1 * (weight4G (xh - ⌊xh⌋ - 0.5) kx / 1 * weight4G (yh - ⌊yh⌋ - 0.5) ky / 1)) := by
      refine List.flatMap_congr fun kx _ => List.map_congr_left fun ky _ => ?_
      simp
    rw [e2, h]
    refine List.map_congr_left fun t _ => ?_
    simp
  unfold interp3G interp3
  rw [e]
  have : ∀ (l : List (ℤ × ℤ × ℝ)) (u : ℝ), (∀ t ∈ l, 0 ≤ t.1 ∧ t.1 < N ∧ 0 ≤ t.2.1 ∧ t.2.1 < N) →
      (l.map fun t => (t.2.1 + N * t.1, t.2.2)).foldl (fun s' t => s' + (rawAt N F0 t.1 * (t.2 * weight1G s 0) + rawAt N F1 t.1 * (t.2 * weight1G s 1))) u =
      l.foldl (fun s' t => s' + (F0 t.1 t.2.1 * (t.2.2 * weight1 s 0) + F1 t.1 t.2.1 * (t.2.2 * weight1 s 1))) u := by
    intro l
    induction l with
    | nil => intro u _; rfl
    | cons t l ih =>
      intro u ht
      rw [List.map_cons, List.foldl_cons, List.foldl_cons, ih _ (fun t h => ht t (List.mem_cons_of_mem _ h))]
      obtain ⟨-, -, a3, a4⟩ := ht t List.mem_cons_self
      obtain ⟨e1, e2⟩ := flat_node N t.1 t.2.1 a3 a4
      have w0 : weight1G s 0 = weight1 s 0 := by simp [weight1G, weight1]
      have w1 : weight1G s 1 = weight1 s 1 := by simp [weight1G, weight1]
      simp only [rawAt, e1, e2, w0, w1]
  exact this _ _ hin

theorem fieldG_same (c : BCfg) (hN : c.N % 2 = 1) (hh : 0 < c.h) (hR : lostRadius c ≤ c.h * (c.N / 2 - 2)) (hpos : 0 ≤ lostRadius c) (xiK : ℝ) (F0 F1 : Fields3) (w : Vec3)
    (hw : w.x ^ 2 + w.y ^ 2 < lostRadius c ^ 2) : fieldEG c xiK F0 F1 w = fieldE3 c xiK F0 F1 w ∧ fieldBG c xiK F0 F1 w = fieldB3 c xiK F0 F1 w := by
  have h := push_reads_inside c hN hh hR w.x w.y (by unfold isLost; push Not; exact hw) hpos
  have e : (0.5 : ℝ) = 1 / 2 := by norm_num
  constructor <;> simp only [fieldEG, fieldBG, fieldE3, fieldB3, e] <;> rw [interp3G_same _ _ _ _ _ _ h, interp3G_same _ _ _ _ _ _ h, interp3G_same _ _ _ _ _ _ h]

/-! ### One substep -/

theorem halfG_eq (r : Row ℝ) : halfG r = ⟨r.x + r.dt / 2 * (vel r.qm ⟨r.px, r.py, r.pz⟩).x, r.y + r.dt / 2 * (vel r.qm ⟨r.px, r.py, r.pz⟩).y, r.xi + r.dt / 2 * ((vel r.qm ⟨r.px, r.py, r.pz⟩).z - 1)⟩ := by
  simp only [halfG, gammaB_eq]; rfl

/-- C48: a completed substep of the GPU kernel (kept or lost at its end). Position: half a step with the velocity of the old momentum, half a step with that of the new one. Momentum: charge sign times `dt` times the Lorentz force of the fields at the half-step position, with the mean momentum divided by a positive factor `g` as velocity; for unit mass `g` is the energy of the mean momentum. Identifier, charge, charge-to-mass ratio and `dt` do not change. -/
theorem gpu_push_step (c : BCfg) (hN : c.N % 2 = 1) (hh : 0 < c.h) (hR : lostRadius c ≤ c.h * (c.N / 2 - 2)) (hpos : 0 ≤ lostRadius c) (idx : ℤ) (F0 F1 : Fields3) (r r' : Row ℝ) (hq : r.qm ≠ 0) (lostEnd : Bool)
    (h : (lostEnd = false ∧ turnG c idx F0 F1 r = .next r') ∨
      (lostEnd = true ∧ turnG c idx F0 F1 r = .lost r' ∧ ¬ (lostRadius c ^ 2 ≤ (r.x + r.dt / 2 * (vel r.qm ⟨r.px, r.py, r.pz⟩).x) ^ 2 + (r.y + r.dt / 2 * (vel r.qm ⟨r.px, r.py, r.pz⟩).y) ^ 2))) :
    ∃ w E B m v v' : Vec3, ∃ g : ℝ,
      v = vel r.qm ⟨r.px, r.py, r.pz⟩ ∧ v' = vel r.qm ⟨r'.px, r'.py, r'.pz⟩ ∧
      w = ⟨r.x + r.dt / 2 * v.x, r.y + r.dt / 2 * v.y, r.xi + r.dt / 2 * (v.z - 1)⟩ ∧
      E = fieldE3 c (idx * -c.dxi) F0 F1 w ∧ B = fieldB3 c (idx * -c.dxi) F0 F1 w ∧
      m = ⟨(r.px + r'.px) / 2, (r.py + r'.py) / 2, (r.pz + r'.pz) / 2⟩ ∧ 0 < g ∧
      r'.px = r.px + SignType.sign r.qm * r.dt * (E.x + (m.y / g * B.z - m.z / g * B.y)) ∧
      r'.py = r.py + SignType.sign r.qm * r.dt * (E.y + (m.z / g * B.x - m.x / g * B.z)) ∧
      r'.pz = r.pz + SignType.sign r.qm * r.dt * (E.z + (m.x / g * B.y - m.y / g * B.x)) ∧
      (|r.qm| = 1 → g = Real.sqrt (1 + m.x ^ 2 + m.y ^ 2 + m.z ^ 2)) ∧
      (g ^ 2 - ((1 / r.qm) ^ 2 + m.x ^ 2 + m.y ^ 2 + m.z ^ 2)) * (g ^ 2 + (r.dt / 2) ^ 2 * (B.x ^ 2 + B.y ^ 2 + B.z ^ 2)) = (1 - (1 / r.qm) ^ 2) * ((r.dt / 2) ^ 2 * (B.x ^ 2 + B.y ^ 2 + B.z ^ 2)) ∧
      r'.x = r.x + r.dt * ((v.x + v'.x) / 2) ∧ r'.y = r.y + r.dt * ((v.y + v'.y) / 2) ∧ r'.xi = r.xi + r.dt * ((v.z + v'.z) / 2 - 1) ∧
      r'.qm = r.qm ∧ r'.qnorm = r.qnorm ∧ r'.dt = r.dt ∧ r'.id = (if lostEnd then -r.id else r.id) ∧ r'.remaining = (if lostEnd then 0 else r.remaining - 1) := by
  set w := halfG r with hw
  set E' := fieldEG c (idx * -c.dxi) F0 F1 with hE'
  set B' := fieldBG c (idx * -c.dxi) F0 F1 with hB'
  have hin : w.x ^ 2 + w.y ^ 2 < lostRadius c ^ 2 := by
    by_contra hcon
    push Not at hcon
    have hc2 : w.x * w.x + w.y * w.y ≥ lostRadius c * lostRadius c := by nlinarith
    rcases h with ⟨-, h⟩ | ⟨-, -, h⟩
    · unfold turnG at h
      simp only [← hw] at h
      rw [if_pos hc2] at h
      split_ifs at h
    · apply h; rw [hw, halfG_eq] at hcon; exact hcon
  obtain ⟨fe, fb⟩ := fieldG_same c hN hh hR hpos (idx * -c.dxi) F0 F1 w hin
  rw [← hE'] at fe
  rw [← hB'] at fb
  have hr' : r' = { substepG E' B' r with id := if lostEnd then -r.id else r.id, remaining := if lostEnd then 0 else r.remaining - 1 } := by
    have hc2 : ¬ (w.x * w.x + w.y * w.y ≥ lostRadius c * lostRadius c) := by push Not; nlinarith
    rcases h with ⟨hl, h⟩ | ⟨hl, h, -⟩
    · unfold turnG at h
      simp only [← hw, ← hE', ← hB'] at h
      rw [if_neg hc2] at h
      split_ifs at h with h1 h2
      injection h with h
      rw [← h, hl]; rfl
    · unfold turnG at h
      simp only [← hw, ← hE', ← hB'] at h
      rw [if_neg hc2] at h
      split_ifs at h with h1 h2
      injection h with h
      rw [← h, hl]
      simp [substepG]
  set p' := kickG r.qm r.dt (E' w) (B' w) ⟨r.px, r.py, r.pz⟩ with hp'
  have hpx : r'.px = p'.x := by rw [hr']; rfl
  have hpy : r'.py = p'.y := by rw [hr']; rfl
  have hpz : r'.pz = p'.z := by rw [hr']; rfl
  have hpp : (⟨r'.px, r'.py, r'.pz⟩ : Vec3) = p' := by rw [hpx, hpy, hpz]
  obtain ⟨g, gpos, hL, hG, -⟩ := kickG_spec r.qm r.dt hq (E' w) (B' w) ⟨r.px, r.py, r.pz⟩
  rw [← hp', fe, fb] at hL
  rw [← hp', fb] at hG
  have hmean : mean3 ⟨r.px, r.py, r.pz⟩ p' = ⟨(r.px + r'.px) / 2, (r.py + r'.py) / 2, (r.pz + r'.pz) / 2⟩ := by
    rw [hpx, hpy, hpz]
    apply ext3 <;> simp only [mean3, scale3, add3] <;> ring
  rw [hmean] at hL hG
  have hww := halfG_eq r
  rw [← hw] at hww
  have hG2 : (g ^ 2 - ((1 / r.qm) ^ 2 + ((r.px + r'.px) / 2) ^ 2 + ((r.py + r'.py) / 2) ^ 2 + ((r.pz + r'.pz) / 2) ^ 2)) * (g ^ 2 + (r.dt / 2) ^ 2 * ((fieldB3 c (idx * -c.dxi) F0 F1 w).x ^ 2 + (fieldB3 c (idx * -c.dxi) F0 F1 w).y ^ 2 + (fieldB3 c (idx * -c.dxi) F0 F1 w).z ^ 2)) =
      (1 - (1 / r.qm) ^ 2) * ((r.dt / 2) ^ 2 * ((fieldB3 c (idx * -c.dxi) F0 F1 w).x ^ 2 + (fieldB3 c (idx * -c.dxi) F0 F1 w).y ^ 2 + (fieldB3 c (idx * -c.dxi) F0 F1 w).z ^ 2)) := by
    rw [energy3_sq] at hG
    unfold dot3 at hG
    simp only at hG
    linear_combination hG
  have ex := congrArg Vec3.x hL
  have ey := congrArg Vec3.y hL
  have ez := congrArg Vec3.z hL
  simp only [add3, scale3, cross3, chargeSign] at ex ey ez
  have hvel : vel r.qm p' = ⟨p'.x / gammaB r.qm p', p'.y / gammaB r.qm p', p'.z / gammaB r.qm p'⟩ := by rw [gammaB_eq]; rfl
  refine ⟨w, fieldE3 c (idx * -c.dxi) F0 F1 w, fieldB3 c (idx * -c.dxi) F0 F1 w, ⟨(r.px + r'.px) / 2, (r.py + r'.py) / 2, (r.pz + r'.pz) / 2⟩, vel r.qm ⟨r.px, r.py, r.pz⟩, vel r.qm ⟨r'.px, r'.py, r'.pz⟩, g,
    rfl, rfl, hww, rfl, rfl, rfl, gpos, ?_, ?_, ?_, ?_, hG2, ?_, ?_, ?_, ?_, ?_, ?_, ?_, ?_⟩
  · rw [hpx, hpy, hpz] at *; rw [ex]; ring
  · rw [hpx, hpy, hpz] at *; rw [ey]; ring
  · rw [hpx, hpy, hpz] at *; rw [ez]; ring
  · intro h1
    have hM : (1 / r.qm) ^ 2 = 1 := by rw [div_pow, ← sq_abs r.qm, h1]; norm_num
    simp only [hM] at hG2
    rw [sub_self, zero_mul] at hG2
    symm
    rw [Real.sqrt_eq_iff_mul_self_eq (by positivity) gpos.le]
    rcases mul_eq_zero.mp hG2 with h | h
    · simp only; linarith
    · exfalso
      have : 0 < g ^ 2 := by positivity
      have h5 : 0 ≤ (r.dt / 2) ^ 2 * ((fieldB3 c (idx * -c.dxi) F0 F1 w).x ^ 2 + (fieldB3 c (idx * -c.dxi) F0 F1 w).y ^ 2 + (fieldB3 c (idx * -c.dxi) F0 F1 w).z ^ 2) := by positivity
      linarith
  · have : r'.x = w.x + r.dt / 2 * (p'.x / gammaB r.qm p') := by rw [hr']; rfl
    rw [this, hpp, hvel, hww]; ring
  · have : r'.y = w.y + r.dt / 2 * (p'.y / gammaB r.qm p') := by rw [hr']; rfl
    rw [this, hpp, hvel, hww]; ring
  · have : r'.xi = w.z + r.dt / 2 * (p'.z / gammaB r.qm p' - 1) := by rw [hr']; rfl
    rw [this, hpp, hvel, hww]; ring
  · rw [hr']; rfl
  · rw [hr']; rfl
  · rw [hr']; rfl
  · rw [hr']
  · rw [hr']

end Lcode.Beam3D
