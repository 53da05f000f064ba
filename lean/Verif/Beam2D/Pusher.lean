import Verif.Beam2D.Data
import Mathlib.Analysis.SpecialFunctions.Pow.Real
import Mathlib.Tactic.FieldSimp

/-!
Model of lcode/beam/beam_calculate.py (substepping and the particle pusher) and lcode/beam/weights.py.
Floats are real numbers; `np.sqrt` is `Real.sqrt`. Field arrays are functions of
the node index; that the indices used lie inside the arrays is a separate theorem.
-/

namespace Lcode.Beam2D

/-- The loop `while dt > max_dt: dt /= 2` (beam_calculate.py:35-37) run for at most `fuel`
iterations; `none` means it is still running. -/
def halvingLoop {K : Type*} [Field K] [LinearOrder K] (maxDt : K) : ℕ → K → Option K
  | 0, dt => if dt > maxDt then none else some dt
  | fuel + 1, dt => if dt > maxDt then halvingLoop maxDt fuel (dt / 2) else some dt

/-- beam_calculate.py:33-34: the step limit set by the particle's energy. -/
noncomputable def maxSubstep (qm pz energy : ℝ) : ℝ :=
  Real.sqrt (Real.sqrt (1 / qm ^ 2 + pz ^ 2) / energy)

/-- beam_calculate.py:14-37 run with a given fuel. -/
noncomputable def beamSubsteppingStep (fuel : ℕ) (qm pz energy : ℝ) : Option ℝ :=
  halvingLoop (maxSubstep qm pz energy) fuel 1

/-- init_substepping for one particle with `dt == 0` (beam_calculate.py:282-287) given the
fraction `f` returned by beam_substepping_step: the substep and the number of substeps
(`(1/dt).astype(int)` truncates). -/
noncomputable def substepsOf (f timeStep : ℝ) : ℝ × ℤ := (f * timeStep, Lcode.Py.pyInt (1 / f))

/-- A three-component vector. -/
structure V3 where
  x : ℝ
  y : ℝ
  z : ℝ

/-- beam_calculate.py:41-49 -/
def V3.cross (a b : V3) : V3 :=
  ⟨a.y * b.z - a.z * b.y, a.z * b.x - a.x * b.z, a.x * b.y - a.y * b.x⟩

def V3.add (a b : V3) : V3 := ⟨a.x + b.x, a.y + b.y, a.z + b.z⟩
def V3.smul (c : ℝ) (a : V3) : V3 := ⟨c * a.x, c * a.y, c * a.z⟩
/-- `np.sum(v ** 2)` -/
def V3.sq (a : V3) : ℝ := a.x ^ 2 + a.y ^ 2 + a.z ^ 2

/-- weights.py:11-23: returns `j` and `(a00, a01, a10, a11)`. -/
noncomputable def beamParticleWeights (r xi xiEnd rStep xiStep : ℝ) : ℤ × ℝ × ℝ × ℝ × ℝ :=
  let j := ⌊r / rStep⌋
  let dxi := -(xiEnd - xi) / xiStep
  let dr := r / rStep - j
  let a0xi := dxi
  let a1xi := 1 - dxi
  let a0r := 1 - dr
  let a1r := dr
  (j, a0xi * a0r, a0xi * a1r, a1xi * a0r, a1xi * a1r)

/-- weights.py:49-53 -/
def interpolateParticle (v0 v1 : ℤ → ℝ) (w : ℤ × ℝ × ℝ × ℝ × ℝ) : ℝ :=
  w.2.1 * v0 (w.1 + 0) + w.2.2.1 * v0 (w.1 + 1) + w.2.2.2.1 * v1 (w.1 + 0) + w.2.2.2.2 * v1 (w.1 + 1)

/-- The field arrays of one plasma layer as used by the pusher. -/
structure Fields where
  Er : ℤ → ℝ
  Ef : ℤ → ℝ
  Ez : ℤ → ℝ
  Bf : ℤ → ℝ
  Bz : ℤ → ℝ

/-- weights.py:57-69: `f1` is layer k+1 (`*_k_1`), `f0` layer k. -/
noncomputable def particleFields (rv : V3) (f1 f0 : Fields) (xiK1 rStep xiStep : ℝ) : V3 × V3 :=
  let r := Real.sqrt (rv.x ^ 2 + rv.y ^ 2)
  let w := beamParticleWeights r rv.z xiK1 rStep xiStep
  let ex := interpolateParticle f0.Er f1.Er w
  let ey := interpolateParticle f0.Ef f1.Ef w
  let ez := interpolateParticle f0.Ez f1.Ez w
  let bx := -ey
  let bf := interpolateParticle f0.Bf f1.Bf w
  let bz := interpolateParticle f0.Bz f1.Bz w
  (⟨ex, ey, ez⟩, ⟨bx, bf, bz⟩)

/-- Configuration captured by configure_beam_pusher, beam_calculate.py:112-116. -/
structure PushCfg where
  rStep : ℝ
  xiStep : ℝ
  maxRadius : ℝ
  magneticField : ℝ

/-- beam_calculate.py:115 -/
noncomputable def PushCfg.lostBoundary (c : PushCfg) : ℝ :=
  max (0.9 * c.maxRadius) (c.maxRadius - 1)

/-- beam_calculate.py:58-59 -/
def isLost (rv : V3) (rMax : ℝ) : Prop := rv.x ^ 2 + rv.y ^ 2 ≥ rMax ^ 2

/-- beam_calculate.py:53-54 -/
def inLayer (rv : V3) (xiK1 : ℝ) : Prop := xiK1 ≤ rv.z

/-- beam_calculate.py:63-74 (division by `r = 0` is 0 in Lean; Python gives inf/nan). -/
noncomputable def beamToVec (p : Particle ℝ) : V3 × V3 :=
  (⟨p.pr, p.M / p.r, p.pz⟩, ⟨p.r, 0, p.xi⟩)

/-- beam_calculate.py:78-95. The `lost` argument is the caller's local variable of that name,
which is never set to True (beam_calculate.py:194), so the sign flip of the id at :94-95 is dead code. -/
noncomputable def vecToBeam (p : Particle ℝ) (rv pv : V3) (lost : Bool) (magneticField : ℝ) :
    Particle ℝ :=
  let r := Real.sqrt (rv.x ^ 2 + rv.y ^ 2)
  { p with
    r := r
    xi := rv.z
    pr := (rv.x * pv.x + rv.y * pv.y) / r
    pz := pv.z
    M := if magneticField ≠ 0 then rv.x * pv.y - rv.y * pv.x else p.M
    id := if lost then -|p.id| else p.id }

open Classical in
/-- One turn of the `while steps > 0` loop, beam_calculate.py:197-254. `inl` is `break` (with the
lost flag), `inr` continues with the updated particle. -/
noncomputable def pushTurn (c : PushCfg) (xiEnd : ℝ) (f1 f0 : Fields) (dt : ℝ) (p : Particle ℝ) :
    (Particle ℝ × Bool) ⊕ (Particle ℝ × Bool) :=
  let (pv, rv) := beamToVec p
  let gm := Real.sqrt ((1 / p.qm) ^ 2 + pv.sq)
  let rvHalf := rv.add (V3.smul (dt / 2 / gm) pv)
  let rvHalf : V3 := ⟨rvHalf.x, rvHalf.y, rvHalf.z - dt / 2⟩
  if ¬ inLayer rvHalf xiEnd then .inl (p, false)
  else if isLost rvHalf c.lostBoundary then .inl (vecToBeam p rv pv false c.magneticField, true)
  else
    let (ev, bv) := particleFields rvHalf f1 f0 xiEnd c.rStep c.xiStep
    let bv : V3 := ⟨bv.x, bv.y, bv.z + c.magneticField⟩
    let pvHalf := pv.add (V3.smul (dt / 2 * SignType.sign p.qm)
      (ev.add ((V3.smul (1 / gm) pv).cross bv)))
    let gm := Real.sqrt ((1 / p.qm) ^ 2 + pvHalf.sq)
    let rv := rv.add (V3.smul (dt / gm) pvHalf)
    let rv : V3 := ⟨rv.x, rv.y, rv.z - dt⟩
    let pv := (V3.smul 2 pvHalf).add (V3.smul (-1) pv)
    .inr (vecToBeam p rv pv false c.magneticField, decide (isLost rv c.lostBoundary))

/-- The `while steps > 0` loop for one particle, beam_calculate.py:197-254: returns the particle,
the remaining steps and whether it was marked lost. -/
noncomputable def pushLoop (c : PushCfg) (xiEnd : ℝ) (f1 f0 : Fields) (dt : ℝ) :
    ℕ → Particle ℝ → Particle ℝ × ℕ × Bool
  | 0, p => (p, 0, false)
  | n + 1, p =>
    match pushTurn c xiEnd f1 f0 dt p with
    | .inl (p', lost) => (p', n + 1, lost)
    | .inr (p', lost) => if lost then (p', n, true) else pushLoop c xiEnd f1 f0 dt n p'

/-- push_particles for one row (beam_calculate.py:191-254), `xi_end = xi_i * -xi_step`. A row that
is already marked lost stays so. -/
noncomputable def pushRow (c : PushCfg) (xiI : ℕ) (f1 f0 : Fields) (t : Row ℝ) : Row ℝ :=
  if t.2.2.1 > 0 then
    let r := pushLoop c (xiI * -c.xiStep) f1 f0 t.2.1 t.2.2.1.toNat t.1
    (r.1, t.2.1, (r.2.1 : ℤ), t.2.2.2 || r.2.2)
  else t

end Lcode.Beam2D

namespace Lcode.Beam2D

/-- weights.py:6-8: `out[idx[i]] += value[i]` for all i. An array of length `n` is a function on
indices; writing outside `0..n-1` is excluded by hypothesis in the theorems. -/
noncomputable def addAt (out : ℤ → ℝ) (l : List (ℤ × ℝ)) : ℤ → ℝ :=
  l.foldl (fun o iv => Function.update o iv.1 (o iv.1 + iv.2)) out

/-- weights.py:41-45 on the particles of one layer (with get_layer_weights, :27-37). -/
noncomputable def depositParticles (ps : List (Particle ℝ)) (out0 out1 : ℤ → ℝ)
    (xiEnd rStep xiStep : ℝ) : (ℤ → ℝ) × (ℤ → ℝ) :=
  let ws := ps.map (fun p => (p.qnorm, beamParticleWeights p.r p.xi xiEnd rStep xiStep))
  let out0 := addAt out0 (ws.map (fun t => (t.2.1 + 0, t.2.2.1 * t.1)))
  let out0 := addAt out0 (ws.map (fun t => (t.2.1 + 1, t.2.2.2.1 * t.1)))
  let out1 := addAt out1 (ws.map (fun t => (t.2.1 + 0, t.2.2.2.2.1 * t.1)))
  let out1 := addAt out1 (ws.map (fun t => (t.2.1 + 1, t.2.2.2.2.2 * t.1)))
  (out0, out1)

/-- BeamCalculator2D.layout_beam_layer, beam_calculate.py:381-413: `rhoLayout` is the partial density left by
the previous layer; returns the density of this layer and the partial density for the next one. -/
noncomputable def layoutBeamLayer (rStep xiStep : ℝ) (rhoLayout : ℤ → ℝ) (ps : List (Particle ℝ))
    (xiI : ℕ) : (ℤ → ℝ) × (ℤ → ℝ) :=
  let xiEnd := ((xiI : ℝ) + 1) * -xiStep
  let r := depositParticles ps rhoLayout (fun _ => 0) xiEnd rStep xiStep
  let cur := fun i => r.1 i / rStep ^ 2
  let cur := fun i => if i = 0 then cur i * 6 else cur i
  let cur := fun i => if i ≥ 1 then cur i / (i : ℝ) else cur i
  (cur, r.2)

/-- The densities laid out over consecutive layers `i, i+1, ...` of one time step, and the partial
density left over at the end. -/
noncomputable def layoutSweep (rStep xiStep : ℝ) :
    (ℤ → ℝ) → ℕ → List (List (Particle ℝ)) → List (ℤ → ℝ) × (ℤ → ℝ)
  | rho, _, [] => ([], rho)
  | rho, i, ps :: rest =>
    let r := layoutBeamLayer rStep xiStep rho ps i
    let s := layoutSweep rStep xiStep r.2 (i + 1) rest
    (r.1 :: s.1, s.2)

end Lcode.Beam2D
