import Verif.Fp.Deposit3D
import Verif.Fp.PlasmaQuiet
import Verif.Fp.Index3D

/-!
C74: the whole 3D plasma solver in doubles (lcode/plasma3d: move.py, weights.py, rhoj.py, fields.py, noise_filter.py, solver.py; CPU branch).

Overflow, underflow and the sign of zero are not modelled. `x ** 2` is `x * x` (numba). numba raises ZeroDivisionError where the model's `x / 0` is 0.
The fast transforms (scipy.fftpack, numpy.fft) and `mean` are arguments.
-/

namespace Lcode.Fp

open Lcode.Plasma3D (places)

/-! ### Model: one push -/

/-- A macroparticle of the 3D plasma: x_init, y_init, x_offt, y_offt, px, py, pz, q, m. -/
structure P3F where
  x0 : ℚ
  y0 : ℚ
  x : ℚ
  y : ℚ
  px : ℚ
  py : ℚ
  pz : ℚ
  q : ℚ
  m : ℚ

/-- A two-dimensional array. -/
abbrev Arr := ℤ → ℤ → ℚ

/-- Field arrays, initialization.py:389-390. -/
structure Fld3F where
  Ex : Arr
  Ey : Arr
  Ez : Arr
  Bx : Arr
  By : Arr
  Bz : Arr
  Phi : Arr

/-- xi-step, transverse-step, window-width-steps and bound-padding-steps, move.py:317-320. -/
structure M3F where
  dxi : ℚ
  h : ℚ
  N : ℤ
  pad : ℤ

/-- boundary, move.py:321 -/
def M3F.b (c : M3F) : ℚ := boundaryF c.N c.pad c.h

structure V3F where
  x : ℚ
  y : ℚ
  z : ℚ

/-- x, y, x_offt, y_offt and the momentum, as returned by _correct_boundary_particles. -/
structure Corr3F where
  x : ℚ
  y : ℚ
  xo : ℚ
  yo : ℚ
  p : V3F

/-- The four `if`s of _correct_boundary_particles in doubles, move.py:33-48. -/
def reflRightF (b x0 : ℚ) (c : Corr3F) : Corr3F := if c.x > b then { c with x := fl (fl (2 * b) - c.x), xo := fl (fl (fl (2 * b) - c.x) - x0), p := ⟨0, 0, 0⟩ } else c
def reflLeftF (b x0 : ℚ) (c : Corr3F) : Corr3F := if c.x < -b then { c with x := fl (fl (-2 * b) - c.x), xo := fl (fl (fl (-2 * b) - c.x) - x0), p := ⟨0, 0, 0⟩ } else c
def reflTopF (b y0 : ℚ) (c : Corr3F) : Corr3F := if c.y > b then { c with y := fl (fl (2 * b) - c.y), yo := fl (fl (fl (2 * b) - c.y) - y0), p := ⟨0, 0, 0⟩ } else c
def reflBottomF (b y0 : ℚ) (c : Corr3F) : Corr3F := if c.y < -b then { c with y := fl (fl (-2 * b) - c.y), yo := fl (fl (fl (-2 * b) - c.y) - y0), p := ⟨0, 0, 0⟩ } else c

/-- _correct_boundary_particles in doubles, move.py:28-49. -/
def correct3F (x0 y0 xo yo : ℚ) (p : V3F) (b : ℚ) : Corr3F :=
  reflBottomF b y0 (reflTopF b y0 (reflLeftF b x0 (reflRightF b x0 ⟨fl (x0 + xo), fl (y0 + yo), xo, yo, p⟩)))

/-- The interpolation of one field to a position in doubles, move.py:90-107. -/
def interp3F (c : M3F) (x y : ℚ) (F : Arr) : ℚ :=
  let xh := halfCellF c.h x
  let yh := halfCellF c.h y
  sumF 0 (places.flatMap fun kx => places.map fun ky => fl (F (⌊xh⌋ + c.N / 2 + kx) (⌊yh⌋ + c.N / 2 + ky) * fl (weight4F (localF xh) kx * weight4F (localF yh) ky)))

/-- The momentum increment of one force evaluation in doubles, move.py:110-115 and 119-124. -/
def kick3F (q m dxi : ℚ) (E B p : V3F) : V3F :=
  let gm := gammaF m p.z p.x p.y
  let vx := fl (p.x / gm)
  let vy := fl (p.y / gm)
  let vz := fl (p.z / gm)
  let f := fl (fl (q * dxi) / fl (1 - fl (p.z / gm)))
  ⟨fl (f * fl (fl (E.x + fl (vy * B.z)) - fl (vz * B.y))), fl (f * fl (fl (E.y - fl (vx * B.z)) + fl (vz * B.x))), fl (f * fl (fl (E.z + fl (vx * B.y)) - fl (vy * B.x)))⟩

/-- `opx + dpx / 2` and so on in doubles, move.py:116 and 125. -/
def addHalfF (p d : V3F) : V3F := ⟨fl (p.x + fl (d.x / 2)), fl (p.y + fl (d.y / 2)), fl (p.z + fl (d.z / 2))⟩

/-- The end of the loop body of move_smart_kernel_numba in doubles, move.py:127-148. -/
def finish3F (c : M3F) (prev full : P3F) (op mid d : V3F) : P3F :=
  let gm := gammaF full.m mid.z mid.x mid.y
  let xo := fl (prev.x + fl (fl (mid.x / fl (gm - mid.z)) * c.dxi))
  let yo := fl (prev.y + fl (fl (mid.y / fl (gm - mid.z)) * c.dxi))
  let r := correct3F prev.x0 prev.y0 xo yo ⟨fl (op.x + d.x), fl (op.y + d.y), fl (op.z + d.z)⟩ c.b
  if fl (prev.x0 + r.xo) ≥ c.b ∨ fl (prev.x0 + r.xo) ≤ -c.b ∨ fl (prev.y0 + r.yo) ≥ c.b ∨ fl (prev.y0 + r.yo) ≤ -c.b then
    { full with x := 0, y := 0, px := 0, py := 0, pz := 0, q := 0 }
  else { full with x := r.xo, y := r.yo, px := r.p.x, py := r.p.y, pz := r.p.z }

/-- The corrected half-step position and momentum in doubles, move.py:79-88. -/
def half3F (c : M3F) (prev full : P3F) : Corr3F :=
  correct3F prev.x0 prev.y0 (fl (fl (prev.x + full.x) / 2)) (fl (fl (prev.y + full.y) / 2)) ⟨prev.px, prev.py, prev.pz⟩ c.b

/-- One pass of the loop of move_smart_kernel_numba in doubles, move.py:74-148. -/
def moveOne3F (c : M3F) (F : Fld3F) (prev full : P3F) : P3F :=
  if full.q = 0 then full
  else
    let op : V3F := ⟨prev.px, prev.py, prev.pz⟩
    let hs := half3F c prev full
    let E : V3F := ⟨interp3F c hs.x hs.y F.Ex, interp3F c hs.x hs.y F.Ey, interp3F c hs.x hs.y F.Ez⟩
    let B : V3F := ⟨interp3F c hs.x hs.y F.Bx, interp3F c hs.x hs.y F.By, interp3F c hs.x hs.y F.Bz⟩
    let p1 := addHalfF op (kick3F full.q full.m c.dxi E B hs.p)
    let d := kick3F full.q full.m c.dxi E B p1
    finish3F c prev full op (addHalfF op d) d

/-- move_particles_smart for one sort, move.py:351-381. -/
def moveSort3F (c : M3F) (F : Fld3F) (prev full : List P3F) : List P3F := List.zipWith (moveOne3F c F) prev full

/-- move_estimate_wo_fields_numba in doubles, move.py:159-165. -/
def moveFree3F (dxi : ℚ) (p : P3F) : P3F :=
  if p.m = 0 then p
  else
    let gm := gammaF p.m p.pz p.px p.py
    { p with x := fl (p.x + fl (fl (p.px / fl (gm - p.pz)) * dxi)), y := fl (p.y + fl (fl (p.py / fl (gm - p.pz)) * dxi)) }

/-! ### Model: currents -/

/-- One sort of the density and current arrays. -/
structure Cur3F where
  ro : Arr
  jx : Arr
  jy : Arr
  jz : Arr

/-- `gamma_m` in doubles, weights.py:48. -/
def gamma3F (p : P3F) : ℚ := gammaF p.m p.px p.py p.pz

/-- `dro` in doubles, weights.py:49. -/
def dro3F (p : P3F) : ℚ := fl (p.q / fl (1 - fl (p.pz / gamma3F p)))

/-- What one particle adds to the array of a quantity carried in the amount `amount p`, in doubles, weights.py:45-69 and 276-279. -/
def incsP3F (N : ℤ) (h : ℚ) (amount : P3F → ℚ) (p : P3F) : List ((ℤ × ℤ) × ℚ) :=
  let xh := halfCellF h (fl (p.x0 + p.x))
  let yh := halfCellF h (fl (p.y0 + p.y))
  if p.q = 0 then []
  else places.flatMap fun kx => places.map fun ky =>
    ((⌊xh⌋ + N / 2 + kx, ⌊yh⌋ + N / 2 + ky), fl (amount p * fl (fl (fl (weight4F (localF xh) kx / h) * weight4F (localF yh) ky) / h)))

/-- deposit_plasma_numba in doubles for one array. -/
def depositP3F (N : ℤ) (h : ℚ) (amount : P3F → ℚ) (ps : List P3F) : Arr := fun i j => addAtF (fun _ => 0) (ps.flatMap (incsP3F N h amount)) (i, j)

/-- deposit_plasma_numba in doubles, weights.py:35-69. -/
def sortCur3F (N : ℤ) (h : ℚ) (ps : List P3F) : Cur3F :=
  ⟨depositP3F N h dro3F ps, depositP3F N h (fun p => fl (p.px * fl (dro3F p / gamma3F p))) ps,
   depositP3F N h (fun p => fl (p.py * fl (dro3F p / gamma3F p))) ps, depositP3F N h (fun p => fl (p.pz * fl (dro3F p / gamma3F p))) ps⟩

def zeroArr : Arr := fun _ _ => 0

/-- compute_rhoj in doubles, rhoj.py:11-22: mobile ions, or the background `roInit`. -/
def rhoj3F (N : ℤ) (h : ℚ) (roInit : Arr) (el : List P3F) (ions : Option (List P3F)) : Cur3F × Cur3F :=
  (sortCur3F N h el, match ions with | some l => sortCur3F N h l | none => ⟨roInit, zeroArr, zeroArr, zeroArr⟩)

/-! ### Model: fields -/

/-- What is left to libraries: `dst2d(dirichlet_matrix * dst2d(·))` padded (fields.py:127-139), `mix2d(mix_mat * mix2d(·[1:-1])[1:-1])` (fields.py:217-228), `dct2d(neumann_matrix * dct2d(·))` (fields.py:251-262), `mean` (:264), the smoothing of the noise filter (noise_filter.py:140-141). -/
structure LibF where
  dir : Arr → Arr
  mix : Arr → Arr
  neu : Arr → Arr
  mean : Arr → ℚ
  smooth : Arr → Arr

/-- Constants of the field solver: nodes minus one, steps, subtraction coefficient, fields.py:269-272. -/
structure F3F where
  L : ℕ
  h : ℚ
  dxi : ℚ
  κ : ℚ

/-- Elementwise operations in doubles. -/
def addA (a b : Arr) : Arr := fun i j => fl (a i j + b i j)
def subA (a b : Arr) : Arr := fun i j => fl (a i j - b i j)
def scaleA (k : ℚ) (a : Arr) : Arr := fun i j => fl (k * a i j)
def divA (a : Arr) (k : ℚ) : Arr := fun i j => fl (a i j / k)
def negA (a : Arr) : Arr := fun i j => -a i j
def trA (a : Arr) : Arr := fun i j => a j i

/-- Differences over two cells inside, zero on the perimeter. -/
def diffX (L : ℕ) (a : Arr) : Arr := fun i j => if (1 ≤ i ∧ i < L) ∧ (1 ≤ j ∧ j < L) then fl (a (i + 1) j - a (i - 1) j) else 0
def diffY (L : ℕ) (a : Arr) : Arr := fun i j => if (1 ≤ i ∧ i < L) ∧ (1 ≤ j ∧ j < L) then fl (a i (j + 1) - a i (j - 1)) else 0

/-- calculate_Ez in doubles, fields.py:114-139. -/
def calcEzF (t : LibF) (c : F3F) (cur : Cur3F) : Arr := t.dir (divA (negA (addA (diffX c.L cur.jx) (diffY c.L cur.jy))) (fl (c.h * 2)))

/-- calculate_Phi in doubles, fields.py:142-159. -/
def calcPhiF (t : LibF) (cur : Cur3F) : Arr := t.dir (subA cur.ro cur.jz)

/-- `(full + beam_full + prev + beam_prev) / 2` in doubles, fields.py:194-197. -/
def halfArr (full prev bFull bPrev : Arr) : Arr := divA (addA (addA (addA full bFull) prev) bPrev) 2

/-- calculate_Ex_Ey_Bx_By in doubles, fields.py:176-230, one definition per component. -/
def calcExF (t : LibF) (c : F3F) (F : Fld3F) (bFull bPrev : Arr) (full prev : Cur3F) : Arr :=
  trA (t.mix (trA (negA (subA (subA (divA (diffX c.L (halfArr full.ro prev.ro bFull bPrev)) (fl (c.h * 2))) (divA (subA prev.jx full.jx) c.dxi)) (scaleA c.κ F.Ex)))))
def calcEyF (t : LibF) (c : F3F) (F : Fld3F) (bFull bPrev : Arr) (full prev : Cur3F) : Arr :=
  t.mix (negA (subA (subA (divA (diffY c.L (halfArr full.ro prev.ro bFull bPrev)) (fl (c.h * 2))) (divA (subA prev.jy full.jy) c.dxi)) (scaleA c.κ F.Ey)))
def calcBxF (t : LibF) (c : F3F) (F : Fld3F) (bFull bPrev : Arr) (full prev : Cur3F) : Arr :=
  t.mix (addA (subA (divA (diffY c.L (halfArr full.jz prev.jz bFull bPrev)) (fl (c.h * 2))) (divA (subA prev.jy full.jy) c.dxi)) (scaleA c.κ F.Bx))
def calcByF (t : LibF) (c : F3F) (F : Fld3F) (bFull bPrev : Arr) (full prev : Cur3F) : Arr :=
  trA (t.mix (trA (negA (subA (subA (divA (diffX c.L (halfArr full.jz prev.jz bFull bPrev)) (fl (c.h * 2))) (divA (subA prev.jx full.jx) c.dxi)) (scaleA c.κ F.By)))))

/-- calculate_Bz in doubles, fields.py:233-266. -/
def calcBzF (t : LibF) (c : F3F) (cur : Cur3F) : Arr :=
  let v := t.neu (divA (negA (subA (diffY c.L cur.jx) (diffX c.L cur.jy))) (fl (c.h * 2)))
  fun i j => fl (v i j - t.mean v)

/-- The sum over the sorts in doubles, fields.py:282-292. -/
def total3F (c : Cur3F × Cur3F) : Cur3F := ⟨addA c.1.ro c.2.ro, addA c.1.jx c.2.jx, addA c.1.jy c.2.jy, addA c.1.jz c.2.jz⟩

/-- compute_fields in doubles, fields.py:276-322: (fields_full, fields_half). -/
def fields3F (t : LibF) (c : F3F) (F Fprev : Fld3F) (bFull bPrev : Arr) (curPrev curFull : Cur3F × Cur3F) : Fld3F × Fld3F :=
  let full := total3F curFull
  let prev := total3F curPrev
  let ex := calcExF t c F bFull bPrev full prev
  let ey := calcEyF t c F bFull bPrev full prev
  let bx := calcBxF t c F bFull bPrev full prev
  let by' := calcByF t c F bFull bPrev full prev
  let ez := calcEzF t c full
  let bz := calcBzF t c full
  let phi := calcPhiF t full
  (⟨subA (scaleA 2 ex) Fprev.Ex, subA (scaleA 2 ey) Fprev.Ey, ez, subA (scaleA 2 bx) Fprev.Bx, subA (scaleA 2 by') Fprev.By, bz, phi⟩,
   ⟨ex, ey, divA (addA ez Fprev.Ez) 2, bx, by', divA (addA bz Fprev.Bz) 2, phi⟩)

/-! ### Model: the noise filter -/

/-- The constants of get_noise_filter, noise_filter.py:85-90, and the number of particles in a row. -/
structure NC3F where
  n : ℕ
  dxi : ℚ
  coef : ℚ
  damp : ℚ
  lim : ℚ

/-- One row of calculate_inhomogeneity_numba in doubles, noise_filter.py:57-73. -/
def inhomRowF (n : ℤ) (d : ℤ → ℚ) (j : ℤ) : ℚ :=
  if j = 0 then (if d 0 ≠ 0 ∧ d 1 ≠ 0 ∧ d 2 ≠ 0 then fl (fl (d 0 - fl (2 * d 1)) + d 2) else 0)
  else if j = n - 1 then (if d (n - 1) ≠ 0 ∧ d (n - 2) ≠ 0 ∧ d (n - 3) ≠ 0 then fl (fl (d (n - 1) - fl (2 * d (n - 2))) + d (n - 3)) else 0)
  else if d j ≠ 0 ∧ d (j - 1) ≠ 0 ∧ d (j + 1) ≠ 0 then fl (d j - fl (fl (d (j - 1) + d (j + 1)) / 2)) else 0

/-- dx_inhom in doubles, noise_filter.py:123-124. -/
def inhomF (n : ℤ) (d : Arr) : Arr := fun i j => fl (fl (inhomRowF n (fun j => d i j) j + inhomRowF n (fun i => d i j) i) / 2)

/-- dx_chaotic in doubles, noise_filter.py:164-165. -/
def chaoticF (t : LibF) (n : ℤ) (d : Arr) : Arr := subA (inhomF n d) (t.smooth (inhomF n d))

/-- d_limit in doubles, noise_filter.py:174-176. -/
def dLimitF (c : NC3F) (chx chy : Arr) : Arr := fun i j =>
  let d := fl (fl (chx i j * chx i j) + fl (chy i j * chy i j))
  if d < fl (c.lim * c.lim) then fl (1 - fl (d / fl (c.lim * c.lim))) else 0

/-- The kick along one axis in doubles, noise_filter.py:214-216. -/
def kickAxisF (n : ℤ) (s : ℚ) (f p : ℤ → ℚ) : ℤ → ℚ :=
  let p1 : ℤ → ℚ := fun i => if 1 ≤ i ∧ i < n - 1 then fl (p i + fl (fl (s * f i) / 2)) else p i
  let p2 : ℤ → ℚ := fun i => if 2 ≤ i then fl (p1 i - fl (fl (s * f (i - 1)) / 4)) else p1 i
  fun i => if i < n - 2 then fl (p2 i - fl (fl (s * f (i + 1)) / 4)) else p2 i

/-- The new px (or py) in doubles, noise_filter.py:179-180 and 214-220 (222-228). -/
def kickedF (c : NC3F) (lim ch chPrev p : Arr) : Arr :=
  let f : Arr := fun i j => fl (fl (-c.coef * ch i j) * lim i j)
  let p1 : Arr := fun i j => kickAxisF c.n c.dxi (fun i => f i j) (fun i => p i j) i
  let p2 : Arr := fun i j => kickAxisF c.n c.dxi (fun j => f i j) (fun j => p1 i j) j
  fun i j => fl (p2 i j - fl (fl (fl (c.dxi * c.damp) * lim i j) * fl (ch i j - chPrev i j)))

/-- Entry (i, j) of a particle array stored row by row. -/
def entryF (n : ℕ) (ps : List P3F) (g : P3F → ℚ) : Arr := fun i j => match ps[(i * n + j).toNat]? with | some p => g p | none => 0

/-- noise_filter in doubles, noise_filter.py:102-238: electrons and chaotic displacements. -/
def filter3F (t : LibF) (c : NC3F) (el : List P3F) (chx chy : Arr) : List P3F × Arr × Arr :=
  let nx := chaoticF t c.n (entryF c.n el P3F.x)
  let ny := chaoticF t c.n (entryF c.n el P3F.y)
  let lim := dLimitF c nx ny
  let px := kickedF c lim nx chx (entryF c.n el P3F.px)
  let py := kickedF c lim ny chy (entryF c.n el P3F.py)
  (el.mapIdx fun k p => { p with px := px ((k / c.n : ℕ) : ℤ) ((k % c.n : ℕ) : ℤ), py := py ((k / c.n : ℕ) : ℤ) ((k % c.n : ℕ) : ℤ) }, nx, ny)

/-! ### Model: the solver -/

/-- All parameters of the solver. -/
structure S3F where
  m : M3F
  κ : ℚ
  roInit : Arr
  decl : Option NC3F
  lib : LibF

/-- fields.py:269-272 -/
def S3F.f (c : S3F) : F3F := ⟨(c.m.N - 1).toNat, c.m.h, c.m.dxi, c.κ⟩

/-- What step_dxi hands from layer to layer. -/
structure W3F where
  el : List P3F
  ions : Option (List P3F)
  chx : Arr
  chy : Arr
  F : Fld3F
  cur : Cur3F × Cur3F

/-- Particles of both sorts. -/
abbrev Sorts3F := List P3F × Option (List P3F)

/-- One push of both sorts, solver.py:34, 49, 64. -/
def pushSorts3F (c : S3F) (F : Fld3F) (w : W3F) (full : Sorts3F) : Sorts3F :=
  (moveSort3F c.m F w.el full.1, match w.ions, full.2 with | some a, some b => some (moveSort3F c.m F a b) | _, _ => none)

/-- compute_rhoj, solver.py:40, 55, 74. -/
def rhojSorts3F (c : S3F) (full : Sorts3F) : Cur3F × Cur3F := rhoj3F c.m.N c.m.h c.roInit full.1 full.2

/-- move_particles_wo_fields, solver.py:29. -/
def freeSorts3F (c : S3F) (w : W3F) : Sorts3F := (w.el.map (moveFree3F c.m.dxi), w.ions.map fun l => l.map (moveFree3F c.m.dxi))

/-- solver.py:29-62: second estimate of the particles, (fields_full, fields_half). -/
def predict3F (c : S3F) (w : W3F) (bFull bPrev : Arr) : Sorts3F × (Fld3F × Fld3F) :=
  let p1 := pushSorts3F c w.F w (freeSorts3F c w)
  let h1 := (fields3F c.lib c.f w.F w.F bFull bPrev w.cur (rhojSorts3F c p1)).2
  let p2 := pushSorts3F c h1 w p1
  (p2, fields3F c.lib c.f h1 w.F bFull bPrev w.cur (rhojSorts3F c p2))

/-- step_dxi in doubles, solver.py:25-78. -/
def stepDxi3F (c : S3F) (w : W3F) (bFull bPrev : Arr) : W3F :=
  let a := predict3F c w bFull bPrev
  let p3 := pushSorts3F c a.2.2 w a.1
  match c.decl with
  | none => ⟨p3.1, p3.2, w.chx, w.chy, a.2.1, rhojSorts3F c p3⟩
  | some d =>
    let r := filter3F c.lib d p3.1 w.chx w.chy
    ⟨r.1, p3.2, r.2.1, r.2.2, a.2.1, rhojSorts3F c (r.1, p3.2)⟩

/-- The plasma part of the xi-loop, push_solver.py:255-300. -/
def layers3W (c : S3F) (w : W3F) (bPrev : Arr) : List Arr → W3F
  | [] => w
  | b :: bs => layers3W c (stepDxi3F c w b bPrev) b bs

/-- `ro_initial` in doubles, initialization.py:353-356. -/
def roInitial3F (N : ℤ) (h : ℚ) (el : List P3F) : Arr := negA (depositP3F N h dro3F el)

/-- The mobile ions in doubles, initialization.py:395-406. -/
def ions3F (ionMass : ℚ) (el : List P3F) : List P3F := el.map fun p => { p with q := -p.q, m := fl (ionMass * p.m) }

/-- The state init_plasma returns, initialization.py:386-408: no fields, zero currents. -/
def init3F (el : List P3F) (ions : Option (List P3F)) : W3F :=
  ⟨el, ions, zeroArr, zeroArr, ⟨zeroArr, zeroArr, zeroArr, zeroArr, zeroArr, zeroArr, zeroArr⟩, (⟨zeroArr, zeroArr, zeroArr, zeroArr⟩, ⟨zeroArr, zeroArr, zeroArr, zeroArr⟩)⟩

/-- make_plasma_grid in doubles, initialization.py:91-104, for a whole fineness; `n` is `steps // 2`. -/
def grid3F (n f : ℕ) (h : ℚ) : List ℚ :=
  let ps := fl (h / f)
  if f % 2 = 1 then
    let right := (List.range (n * f)).map fun k : ℕ => fl (k * ps)
    (right.tail.reverse.map fun x => -x) ++ right
  else
    let right := (List.range (n * f)).map fun k : ℕ => fl ((1 / 2 + (k : ℚ)) * ps)
    (right.reverse.map fun x => -x) ++ right

/-- make_plasma_single in doubles, initialization.py:107-135; `coef` stands for the density profile, which multiplies charge and mass. -/
def plasma3F (n f : ℕ) (h : ℚ) (coef : ℚ → ℚ → ℚ) : List P3F :=
  let g := grid3F n f h
  g.flatMap fun x => g.map fun y => ⟨x, y, 0, 0, 0, 0, 0, fl (fl (fl (-1 / ((f : ℚ) * f)) * fl (h * h)) * coef x y), fl (fl (fl (1 / ((f : ℚ) * f)) * fl (h * h)) * coef x y)⟩

end Lcode.Fp
