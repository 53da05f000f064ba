import Verif.Fp.Sqrt
import Verif.Fp.SubLoop
import Verif.Fp.FieldSolve
import Verif.Fp.Index

/-!
C72: the whole 2D plasma solver in doubles (lcode/plasma/move.py, rhoj.py, fields.py, solver.py), and the plasma at rest.

Overflow, underflow and the sign of zero are not modelled; the `isfinite` tests (move.py:82, 120, 156) are always passed. `x ** 2` is `x * x` (numba).
The trigonometric functions of the noise reductor (move.py:48-54) are an argument.
-/

namespace Lcode.Fp

open Lcode.Py

/-! ### Model: one push -/

/-- The mutable part of a plasma particle. -/
structure PSF where
  r : ℚ
  pr : ℚ
  pf : ℚ
  pz : ℚ
  q : ℚ

/-- Field arrays. -/
structure FldsF where
  Er : ℕ → ℚ
  Ef : ℕ → ℚ
  Ez : ℕ → ℚ
  Bf : ℕ → ℚ
  Bz : ℕ → ℚ

/-- What a push sees: array size, fields (external field already added), noise amplitude, noise function of cell and offset (move.py:50-53), radial step, window radius. -/
structure EnvF where
  n : ℕ
  F : FldsF
  noise : ℕ → ℚ
  noiseFn : ℕ → ℚ → ℚ
  h : ℚ
  R : ℚ

/-- The weights `a_1`, `a_2`, `a_3` in doubles, move.py:11-15. -/
def a1F (l : ℚ) : ℚ := fl (fl (l - 1 / 2) * fl (1 / 2 * fl (l - 1 / 2)))
def a2F (l : ℚ) : ℚ := fl (3 / 4 - fl (l * l))
def a3F (l : ℚ) : ℚ := fl (fl (l + 1 / 2) * fl (1 / 2 * fl (l + 1 / 2)))

/-- The neighbours `jm`, `jp`, move.py:17-25. -/
def jmOf (n jc : ℕ) : ℕ := if jc ≠ n - 1 ∧ jc = 0 then jc + 1 else jc - 1
def jpOf (n jc : ℕ) : ℕ := if jc = n - 1 then jc - 1 else jc + 1

/-- Three-point interpolation in doubles, move.py:30-34. -/
def threeF (n jc : ℕ) (l : ℚ) (F : ℕ → ℚ) : ℚ := fl (fl (fl (a1F l * F (jmOf n jc)) + fl (a2F l * F jc)) + fl (a3F l * F (jpOf n jc)))

/-- _interpolate_fields in doubles for E_z, B_z, move.py:8-35. -/
def interpEvenF (n jc : ℕ) (l : ℚ) (F : ℕ → ℚ) : ℚ := if jc ≠ n - 1 ∧ jc ≠ 0 ∧ n ≤ jc then 0 else threeF n jc l F

/-- _interpolate_fields in doubles for E_r, E_f, B_f, move.py:8-35. -/
def interpOddF (n jc : ℕ) (l : ℚ) (F : ℕ → ℚ) : ℚ :=
  if jc ≠ n - 1 ∧ jc ≠ 0 ∧ n ≤ jc then 0
  else if jc = 0 then fl (fl (fl (a3F l - a1F l) * F (jmOf n jc)) + fl (a2F l * F jc)) else threeF n jc l F

/-- _interpolate_noisereductor in doubles, move.py:39-55. -/
def interpNoiseF (e : EnvF) (jc : ℕ) (l : ℚ) : ℚ := if e.n ≤ jc ∨ jc = 0 ∨ e.noise jc = 0 then 0 else fl (fl (e.noise jc * e.h) * e.noiseFn jc l)

/-- `sqrt(m ** 2 + p_x ** 2 + p_y ** 2 + p_z ** 2)` in doubles, move.py:81, 119, rhoj.py:34. -/
def gammaF (m px py pz : ℚ) : ℚ := sqrtF (fl (fl (fl (fl (m * m) + fl (px * px)) + fl (py * py)) + fl (pz * pz)))

/-- The three components of the kick in doubles, move.py:110-112 and 125-127. -/
def kickXF (q dl gm ex py bz pz bY : ℚ) : ℚ := fl (fl (q * dl) * fl (fl (fl (gm * ex) + fl (py * bz)) - fl (pz * bY)))
def kickYF (q dl gm ey pz px bz : ℚ) : ℚ := fl (fl (q * dl) * fl (fl (fl (gm * ey) - fl (pz * ey)) - fl (px * bz)))
def kickZF (q dl gm ez px bY py ey : ℚ) : ℚ := fl (fl (q * dl) * fl (fl (fl (gm * ez) + fl (px * bY)) + fl (py * ey)))

/-- A particle thrown away, move.py:82, 100, 120, 158, 162. -/
def discardedF (R : ℚ) : PSF := ⟨fl (R / 2), 0, 0, 0, 0⟩

/-- Particles that reach the wall come back with no momentum, move.py:147-154: position and momenta. -/
def wallF (R rN prN pfN pzN : ℚ) : ℚ × ℚ × ℚ × ℚ :=
  if rN < 0 then (-rN, -prN, pfN, pzN) else if rN > R then (fl (fl (2 * R) - rN), 0, 0, 0) else (rN, prN, pfN, pzN)

/-- The end of _move_one_particle in doubles, move.py:138-165. -/
def moveFinishF (e : EnvF) (r rPred rHalf xN dy pxN pyN pzN q age : ℚ) : PushF PSF :=
  let rN := sqrtF (fl (fl (xN * xN) + fl (dy * dy)))
  let path := max (max |fl (r - rN)| |fl (r - rPred)|) |fl (rN - rPred)|
  let prN := if rN ≠ 0 then fl (fl (fl (pxN * xN) + fl (pyN * dy)) / rN) else pxN
  let pfN := if rN ≠ 0 then fl (fl (fl (pyN * xN) - fl (pxN * dy)) / rN) else 0
  let rP := wallF e.R rN prN pfN pzN
  if rP.1 > e.R ∨ rP.1 < 0 then ⟨discardedF e.R, 0, 0⟩
  else if rHalf < 0 ∨ rHalf > e.R then ⟨discardedF e.R, path, age⟩
  else ⟨⟨rP.1, rP.2.1, rP.2.2.1, rP.2.2.2, q⟩, path, age⟩

/-- _move_one_particle in doubles after the half-step position is accepted, move.py:102-165. -/
def moveKickF (e : EnvF) (r rPred rHalf px py pz gm dl q m dxi : ℚ) : PushF PSF :=
  let jc := ⌊fl (fl (rHalf / e.h) + 1 / 2)⌋₊
  let l := fl (fl (rHalf / e.h) - jc)
  let ex := fl (interpOddF e.n jc l e.F.Er + interpNoiseF e jc l)
  let ey := interpOddF e.n jc l e.F.Ef
  let ez := interpEvenF e.n jc l e.F.Ez
  let bY := interpOddF e.n jc l e.F.Bf
  let bz := interpEvenF e.n jc l e.F.Bz
  let px1 := fl (px + fl (kickXF q dl gm ex py bz pz bY / 2))
  let py1 := fl (py + fl (kickYF q dl gm ey pz px bz / 2))
  let pz1 := fl (pz + fl (kickZF q dl gm ez px bY py ey / 2))
  let gm1 := gammaF m px1 py1 pz1
  if gm1 = pz1 then ⟨discardedF e.R, 0, 0⟩ else
  let dl1 := fl (dxi / fl (gm1 - pz1))
  let dpx := kickXF q dl1 gm1 ex py1 bz pz1 bY
  let dpy := kickYF q dl1 gm1 ey pz1 px1 bz
  let dpz := kickZF q dl1 gm1 ez px1 bY py1 ey
  let dx := fl (fl (px + fl (dpx / 2)) * dl1)
  let dy := fl (fl (py + fl (dpy / 2)) * dl1)
  moveFinishF e r rPred rHalf (fl (r + dx)) dy (fl (px + dpx)) (fl (py + dpy)) (fl (pz + dpz)) q (fl (gm1 * dl1))

/-- _move_one_particle in doubles, move.py:59-165. -/
def moveOneF (e : EnvF) (m : ℚ) (s : PSF) (dxi : ℚ) : PushF PSF :=
  let gm := gammaF m s.pr s.pf s.pz
  if gm = s.pz then ⟨discardedF e.R, 0, 0⟩ else
  let dl := fl (dxi / fl (gm - s.pz))
  let rPred := fl (s.r + fl (fl (s.pr * dl) / 2))
  if rPred < 0 then
    if -rPred < 0 ∨ -rPred > e.R then ⟨discardedF e.R, |fl (s.r - rPred)|, fl (gm * dl)⟩
    else moveKickF e s.r rPred (-rPred) s.pr s.pf s.pz gm dl s.q m dxi
  else if rPred > e.R then
    let rH := fl (fl (2 * e.R) - rPred)
    if rH < 0 ∨ rH > e.R then ⟨discardedF e.R, |fl (s.r - rPred)|, fl (m * fl (dxi / m))⟩
    else moveKickF e s.r rPred rH 0 0 0 m (fl (dxi / m)) s.q m dxi
  else moveKickF e s.r rPred rPred s.pr s.pf s.pz gm dl s.q m dxi

/-! ### Model: currents -/

/-- A plasma particle. -/
structure PPF where
  r : ℚ
  pr : ℚ
  pf : ℚ
  pz : ℚ
  q : ℚ
  m : ℚ
  age : ℚ

/-- weight_quadratic in doubles, rhoj.py:12-23. -/
def weight2F (l : ℚ) (place : ℤ) : ℚ :=
  if place = -1 then fl (fl (fl (l - 1 / 2) * fl (l - 1 / 2)) / 2)
  else if place = 0 then fl (3 / 4 - fl (l * l))
  else fl (fl (fl (l + 1 / 2) * fl (l + 1 / 2)) / 2)

/-- The cells touched by a particle at normalised radius `x`, rhoj.py:44-71: cell, weight, sign of the odd quantities. -/
def contribF (n : ℤ) (x : ℚ) : List (ℤ × ℚ × ℚ) :=
  let ci := ⌊fl (x + 1 / 2)⌋
  let l := fl (x - ci)
  (if ci = 0 then [(1, weight2F l (-1), -1)] else []) ++
  (if ci = 0 then [0, 1] else [-1, 0, 1]).map fun place : ℤ => ((if ci = n - 1 ∧ place = 1 then n - 2 else ci + place), weight2F l place, 1)

/-- `q / (gamma_mass - p_z)` in doubles, rhoj.py:37. -/
def chargeF (p : PPF) : ℚ := fl (p.q / fl (gammaF p.m p.pr p.pf p.pz - p.pz))

/-- The accumulated array of an even (`even`) or odd quantity carried in the amount `amount p`, rhoj.py:32-71. -/
def accumulateF (h : ℚ) (n : ℤ) (even : Bool) (amount : PPF → ℚ) (ps : List PPF) : ℤ → ℚ :=
  addAtF (fun _ => 0) (ps.flatMap fun p => (contribF n (fl (p.r / h))).map fun t : ℤ × ℚ × ℚ => (t.1, (if even then 1 else t.2.2) * fl (amount p * t.2.1)))

/-- np.pi -/
def piF : ℚ := 884279719003555 / 2 ^ 48

/-- _cell_volume in doubles, rhoj.py:84-93; `n` is n_cells. -/
def cellVolumeF (h : ℚ) (ppc n : ℕ) (k : ℕ) : ℚ :=
  let cpp := fl (1 / (ppc : ℚ))
  let v := fl (fl (fl (2 * piF) * fl (h * h)) * k)
  if k = n - 1 then fl (fl (piF * fl (h * h)) * fl ((n : ℚ) - 45 / 32))
  else if k = 0 then fl (fl (piF * fl (h * h)) * fl (fl (13 + fl (2 * fl (cpp * cpp))) / 32))
  else if k = 1 then fl (v * fl (fl (193 + fl (2 * fl (cpp * cpp))) / 192))
  else v

/-- One row of the densities. -/
structure CurF where
  rho : ℕ → ℚ
  jr : ℕ → ℚ
  jf : ℕ → ℚ
  jz : ℕ → ℚ

/-- One sort in compute_rhoj in doubles, rhoj.py:74-80 (boundary values) and 109-121. -/
def rhojRowF (h : ℚ) (ppc n : ℕ) (ps : List PPF) : CurF where
  rho i := fl (accumulateF h n true (fun p => fl (chargeF p * gammaF p.m p.pr p.pf p.pz)) ps i / cellVolumeF h ppc n i)
  jr i := fl ((if i = 0 ∨ i = n - 1 then 0 else accumulateF h n false (fun p => fl (chargeF p * p.pr)) ps i) / cellVolumeF h ppc n i)
  jf i := fl ((if i = 0 ∨ i = n - 1 then 0 else accumulateF h n false (fun p => fl (chargeF p * p.pf)) ps i) / cellVolumeF h ppc n i)
  jz i := fl ((if i = n - 1 then 0 else accumulateF h n true (fun p => fl (chargeF p * p.pz)) ps i) / cellVolumeF h ppc n i)

/-- Mobile ions, or a fixed background density. -/
inductive IonsF where
  | mobile (ps : List PPF)
  | background (ni : ℕ → ℚ)

/-- The two rows of the density arrays. -/
structure CursF where
  el : CurF
  ion : CurF

/-- compute_rhoj in doubles, rhoj.py:104-126. -/
def computeRhojF (h : ℚ) (ppc n : ℕ) (el : List PPF) (ions : IonsF) : CursF :=
  ⟨rhojRowF h ppc n el, match ions with
    | .mobile ps => rhojRowF h ppc n ps
    | .background ni => ⟨ni, fun _ => 0, fun _ => 0, fun _ => 0⟩⟩

/-! ### Model: fields -/

/-- `np.sum(·, axis=0)` of two rows in doubles. -/
def sum2F (a b : ℕ → ℚ) (i : ℕ) : ℚ := fl (a i + b i)

/-- _compute_e_r_previous_factor in doubles, fields.py:184-197. -/
def prevFactorF (rho jr jf jz : ℕ → ℚ) (i : ℕ) : ℚ :=
  let ed := fl (rho i - 1)
  let inv := fl (1 - fl (fl (fl (fl (jr i * jr i) + fl (jf i * jf i)) + fl (jz i * jz i)) / fl (ed * ed)))
  let f := if ed > -fl (1 / 10) then 0 else if inv ≤ 0 then 0 else fl (fl (3 * fl (fl (1 / sqrtF inv) - 1)) - 5)
  fl ((if f < 0 then 0 else f) + 1)

/-- The mean of two arrays in doubles, fields.py:225-229 and 255-259. -/
def avgF (a b : ℕ → ℚ) (i : ℕ) : ℚ := fl (fl (a i + b i) / 2)

/-- The mean of two sets of fields. -/
def FldsF.avg (F G : FldsF) : FldsF := ⟨avgF F.Er G.Er, avgF F.Ef G.Ef, avgF F.Ez G.Ez, avgF F.Bf G.Bf, avgF F.Bz G.Bz⟩

/-- compute_fields in doubles, fields.py:203-267: new fields and average fields. `M` is the number of cells. -/
def computeFieldsF (h : ℚ) (M : ℕ) (F Fprev : FldsF) (rhoBeam : ℕ → ℚ) (prev cur : CursF) (dxi : ℚ) : FldsF × FldsF :=
  let A := F.avg Fprev
  let pf := prevFactorF cur.el.rho cur.el.jr cur.el.jf cur.el.jz
  let total := fun i => fl (sum2F cur.el.rho cur.ion.rho i + rhoBeam i)
  let Er := computeErF total (sum2F cur.el.jr cur.ion.jr) (sum2F prev.el.jr prev.ion.jr) A.Er pf h dxi M
  let Ef := computeEfF (sum2F cur.el.jf cur.ion.jf) (sum2F prev.el.jf prev.ion.jf) A.Ef (fun _ => 1) h dxi M
  let Ez := computeEzF (sum2F cur.el.jr cur.ion.jr) h M
  let Bf := computeBfF (sum2F cur.el.rho cur.ion.rho) (sum2F cur.el.jz cur.ion.jz) Er h
  let Bz := computeBzF (sum2F cur.el.jf cur.ion.jf) h M
  let N : FldsF := ⟨Er, Ef, Ez, Bf, Bz⟩
  (N, N.avg Fprev)

/-! ### Model: the solver -/

/-- The options of the solver; `noiseFn` see `EnvF`. -/
structure CfgF where
  h : ℚ
  R : ℚ
  ppc : ℕ
  B0 : ℚ
  sens : ℚ
  depth : ℕ
  corrector : ℕ
  decl : Bool
  noiseFn : ℕ → ℚ → ℚ

/-- n_cells - 1, rhoj.py:99 -/
def CfgF.M (c : CfgF) : ℕ := (pyInt (fl (c.R / c.h))).toNat

/-- noise_amplitude in doubles, solver.py:11-19; `n` is the array size. -/
def noiseAmplitudeF (n : ℕ) (cur : CursF) (enabled : Bool) (i : ℕ) : ℚ :=
  let inner : ℕ → ℚ := fun i => fl (fl (2 * fl (cur.el.rho i - cur.ion.rho i)) +
    fl (fl (fl (cur.ion.rho (i + 1) + cur.ion.rho (i - 1)) - cur.el.rho (i + 1)) - cur.el.rho (i - 1)))
  if !enabled then 0
  else if i = 0 then 0
  else if i = n - 1 then (if n - 2 = 0 then 0 else fl (-inner (n - 2) / 4))
  else fl (inner i / 4)

/-- The plasma state handed from layer to layer. -/
structure WorldF where
  el : List PPF
  ions : IonsF
  F : FldsF
  cur : CursF

/-- One particle moved through a step, move.py:176-213. -/
def movePartF (e : EnvF) (step : ℚ) (p : PPF) : PPF :=
  let st := moveSubsteppedF (moveOneF e p.m) (fun s => decide (s.q = 0)) e.h step ⟨p.r, p.pr, p.pf, p.pz, p.q⟩ p.age
  ⟨st.s.r, st.s.pr, st.s.pf, st.s.pz, st.s.q, p.m, st.age⟩

/-- What the push of a layer sees, move.py:222-233: the external field is added to B_z. -/
def CfgF.env (c : CfgF) (F : FldsF) (noise : ℕ → ℚ) : EnvF := ⟨c.M + 1, { F with Bz := fun i => fl (F.Bz i + c.B0) }, noise, c.noiseFn, c.h, c.R⟩

/-- move_particles for the ions. -/
def moveIonsF (e : EnvF) (step : ℚ) : IonsF → IonsF
  | .mobile ps => .mobile (ps.map (movePartF e step))
  | .background ni => .background ni

/-- The predictor, solver.py:56-62. -/
def predictF (c : CfgF) (w : WorldF) (step : ℚ) : WorldF :=
  let e := c.env w.F (noiseAmplitudeF (c.M + 1) w.cur c.decl)
  let el := w.el.map (movePartF e step)
  let ions := moveIonsF e step w.ions
  ⟨el, ions, w.F, computeRhojF c.h c.ppc (c.M + 1) el ions⟩

/-- solver.py:63-64. -/
def needRefineF (c : CfgF) (w : WorldF) (step : ℚ) : Bool :=
  let cur := (predictF c w step).cur
  (List.range (c.M + 1)).any fun i => decide (|fl (step * cur.el.jz i)| > c.sens) || decide (|fl (step * cur.ion.jz i)| > c.sens)

/-- One turn of the corrector loop, solver.py:74-85. -/
def correctF (c : CfgF) (rhoBeam : ℕ → ℚ) (w : WorldF) (step : ℚ) (t : WorldF) : WorldF :=
  let r := computeFieldsF c.h c.M t.F w.F rhoBeam w.cur t.cur step
  let e := c.env r.2 (noiseAmplitudeF (c.M + 1) t.cur c.decl)
  let el := w.el.map (movePartF e step)
  let ions := moveIonsF e step w.ions
  ⟨el, ions, r.1, computeRhojF c.h c.ppc (c.M + 1) el ions⟩

/-- A substep, solver.py:56-85. -/
def advanceF (c : CfgF) (rhoBeam : ℕ → ℚ) (w : WorldF) (step : ℚ) : WorldF := (correctF c rhoBeam w step)^[c.corrector] (predictF c w step)

/-- step_dxi in doubles, solver.py:38-98, with trapped-path-limit = 0. -/
def stepDxiF (c : CfgF) (rhoBeam : ℕ → ℚ) (L : ℚ) (w : WorldF) : ConfF WorldF :=
  (turnF (needRefineF c) (advanceF c rhoBeam) c.depth)^[Plasma2D.turns c.depth] (startLayerF w L)

/-- The plasma after the layers with the given beam charge densities, push_solvers/push_solver.py. -/
def layersWF (c : CfgF) (L : ℚ) : List (ℕ → ℚ) → WorldF → Option WorldF
  | [], w => some w
  | rho :: rest, w => match stepDxiF c rho L w with
    | .done w' => layersWF c L rest w'
    | .go _ => none

/-- The electrons of init_plasma in doubles, initialization.py:9-16, 27-43; `coef` is the density profile at a position. -/
def initElectronsF (c : CfgF) (coef : ℚ → ℚ) : List PPF :=
  let pos := (List.range (c.M * c.ppc)).map fun i => placeF c.R c.h c.ppc i
  let d := fl (pos.getD 1 0 - pos.getD 0 0)
  (pos.map fun r =>
    let w := fl (fl (fl (2 * piF) * d) * r)
    PPF.mk r 0 0 0 (fl (-w * coef r)) (fl (w * coef r)) 0).filter fun p => p.q ≠ 0

/-- init_plasma in doubles with a background of ions, initialization.py:52-73. -/
def initWorldF (c : CfgF) (coef : ℚ → ℚ) : WorldF :=
  let el := initElectronsF c coef
  let ne := (computeRhojF c.h c.ppc (c.M + 1) el (.background fun _ => 0)).el.rho
  let z : ℕ → ℚ := fun _ => 0
  ⟨el, .background (fun i => -ne i), ⟨z, z, z, z, z⟩, ⟨⟨ne, z, z, z⟩, ⟨fun i => -ne i, z, z, z⟩⟩⟩

/-- init_plasma in doubles with mobile ions, initialization.py:74-90. -/
def initMobileF (c : CfgF) (coef : ℚ → ℚ) (ionMass : ℕ) : WorldF :=
  let el := initElectronsF c coef
  let z : ℕ → ℚ := fun _ => 0
  ⟨el, .mobile (el.map fun p => PPF.mk p.r 0 0 0 (-p.q) (fl (ionMass * -p.q)) 0), ⟨z, z, z, z, z⟩, ⟨⟨z, z, z, z⟩, ⟨z, z, z, z⟩⟩⟩

end Lcode.Fp
