import Verif.Beam3D.Data
import Mathlib.Analysis.SpecialFunctions.Log.Basic
import Mathlib.Analysis.SpecialFunctions.Trigonometric.Basic

/-!
Model of lcode/alt_beam_generator: beam_generator.py, beam_shape.py, beam_segment_shape.py, xishape.py, rshape.py, eshape.py. Property C35.

Real arithmetic. The random generator is an arbitrary state machine: `random_sample` and the standard normal deviates are its primitives; `RandomState.uniform(lo, hi)` is `lo + (hi - lo) * random_sample` and `normal(mu, sigma)` is `mu + sigma * gauss`, raising for `sigma < 0`, as in numpy. `none` is an exception.
-/

namespace Lcode.Gen

/-! ### Random numbers -/

/-- The primitives of numpy's RandomState with state `S`. -/
structure Rng (S : Type) where
  sample : S → ℕ → List ℝ × S
  gauss : S → ℕ → List ℝ × S
  randint : S → ℕ → ℕ × S

/-- What numpy documents: `size` numbers, `random_sample` in [0, 1), `randint(0, n)` in [0, n). -/
structure Rng.Valid {S : Type} (g : Rng S) : Prop where
  sample_length : ∀ s n, (g.sample s n).1.length = n
  sample_range : ∀ s n, ∀ u ∈ (g.sample s n).1, 0 ≤ u ∧ u < 1
  gauss_length : ∀ s n, (g.gauss s n).1.length = n
  randint_range : ∀ s n, 0 < n → (g.randint s n).1 < n

variable {S : Type}

/-- RandomState.uniform(lo, hi, size) -/
def uniform (g : Rng S) (s : S) (lo hi : ℝ) (n : ℕ) : List ℝ × S :=
  ((g.sample s n).1.map fun u => lo + (hi - lo) * u, (g.sample s n).2)

open Classical in
/-- RandomState.normal(mu, sigma, size) -/
noncomputable def normal (g : Rng S) (s : S) (mu sigma : ℝ) (n : ℕ) : Option (List ℝ × S) :=
  if sigma < 0 then none else some ((g.gauss s n).1.map fun v => mu + sigma * v, (g.gauss s n).2)

/-! ### Shapes -/

/-- xishape.py:37-50 -/
noncomputable def xiShape : String → Option (ℝ → ℝ → ℝ)
  | "cos" => some fun d l => 0.5 * (1 - Real.cos (2 * Real.pi * d / l))
  | "c" => some fun d l => 0.5 * (1 - Real.cos (2 * Real.pi * d / l))
  | "t" => some fun d l => d / l
  | "T" => some fun d l => 1 - d / l
  | "l" => some fun _ _ => 1
  | "half-cos" => some fun d l => 0.5 * (1 - Real.cos (Real.pi * d / l))
  | "h" => some fun d l => 0.5 * (1 - Real.cos (Real.pi * d / l))
  | "b" => some fun d l => 0.5 * (1 + Real.cos (Real.pi * d / l))
  | "gaussian" => some fun d l => 0.5 * Real.exp (-18 * (d / l) ^ 2)
  | "g" => some fun d l => 0.5 * Real.exp (-18 * (d / l) ^ 2)
  | _ => none

/-- The registered energy shapes, eshape.py:37-54. -/
inductive EKind where
  | mono
  | uniform
  | linear
  | gaussian
  | multi (n : ℕ)
  deriving DecidableEq

/-- Names of the energy shapes, eshape.py:37-54. -/
def eShape : String → Option EKind
  | "monoenergetic" => some .mono
  | "m" => some .mono
  | "uniform" => some .uniform
  | "u" => some .uniform
  | "linear" => some .linear
  | "l" => some .linear
  | "gaussian" => some .gaussian
  | "g" => some .gaussian
  | "2" => some (.multi 2)
  | "3" => some (.multi 3)
  | "4" => some (.multi 4)
  | "5" => some (.multi 5)
  | "6" => some (.multi 6)
  | "7" => some (.multi 7)
  | "8" => some (.multi 8)
  | "9" => some (.multi 9)
  | _ => none

/-- Names of the radial shapes, rshape.py:79: only the Gaussian. -/
def rShapeOk : String → Bool
  | "gaussian" => true
  | "g" => true
  | _ => false

/-- The functions of eshape.py:37-50: energies of the `n` particles of a layer. -/
noncomputable def eValues (k : EKind) (g : Rng S) (s : S) (energy espread d l : ℝ) (n : ℕ) : Option (List ℝ × S) :=
  match k with
  | .mono => some (List.replicate n energy, s)
  | .uniform => some (uniform g s energy espread n)
  | .linear => some (List.replicate n (energy * d / l + espread * (1 - d / l)), s)
  | .gaussian => normal g s energy espread n
  | .multi m => some (List.replicate n (espread + (g.randint s m).1 * (energy - espread) / ((m : ℝ) - 1)), (g.randint s m).2)

/-- `r_b` of gauss2d / `r` of gauss3d, rshape.py:61-62, :69-70. -/
noncomputable def radiusOf (radius rMax u : ℝ) : ℝ :=
  let a := 1 - Real.exp (-rMax ^ 2 / (2 * radius ^ 2))
  radius * Real.sqrt (-2 * Real.log (1 - u * a))

/-- Transverse phase space in 2D: r, p_r, M. -/
structure Tr2 where
  r : ℝ
  pr : ℝ
  M : ℝ

/-- Transverse phase space in 3D. -/
structure Tr3 where
  x : ℝ
  y : ℝ
  px : ℝ
  py : ℝ

/-- gauss2d, rshape.py:60-66 -/
noncomputable def gauss2d (g : Rng S) (s : S) (radius sigma rMax : ℝ) (n : ℕ) : Option (List Tr2 × S) := do
  let u := g.sample s n
  let r := u.1.map (radiusOf radius rMax)
  let pr ← normal g u.2 0 sigma n
  let pf ← normal g pr.2 0 sigma n
  let M := List.zipWith (· * ·) r pf.1
  pure (List.zipWith (fun a t => ⟨a, t.1, t.2⟩) r (pr.1.zip M), pf.2)

/-- gauss3d, rshape.py:68-76 -/
noncomputable def gauss3d (g : Rng S) (s : S) (radius sigma rMax : ℝ) (n : ℕ) (xshift yshift : ℝ) : Option (List Tr3 × S) := do
  let u := g.sample s n
  let r := u.1.map (radiusOf radius rMax)
  let phi := uniform g u.2 0 (2 * Real.pi) n
  let x := List.zipWith (fun a p => a * Real.cos p + xshift) r phi.1
  let y := List.zipWith (fun a p => a * Real.sin p + yshift) r phi.1
  let px ← normal g phi.2 0 sigma n
  let py ← normal g px.2 0 sigma n
  pure (List.zipWith (fun a t => ⟨a, t.1, t.2.1, t.2.2⟩) x (y.zip (px.1.zip py.1)), py.2)

/-! ### Segments -/

/-- BeamSegmentShape, beam_segment_shape.py:5-21 -/
structure Segment where
  length : ℝ
  ampl : ℝ
  xishape : ℝ → ℝ → ℝ
  radius : ℝ
  energy : ℝ
  xshift : ℝ
  yshift : ℝ
  angspread : ℝ
  angshape : ℝ → ℝ → ℝ
  espread : ℝ
  eshape : EKind
  massCharge : ℝ

/-- initial_sigma_impulse, beam_segment_shape.py:30-32 -/
def Segment.sigma (p : Segment) (d : ℝ) : ℝ := p.angspread * p.energy * p.angshape d p.length

/-- get_r_values2d, beam_segment_shape.py:35-39 (the shifts are not used by gauss2d) -/
noncomputable def Segment.trans2 (p : Segment) (g : Rng S) (s : S) (d rMax : ℝ) (n : ℕ) : Option (List Tr2 × S) := gauss2d g s p.radius (p.sigma d) rMax n

/-- get_r_values3d, beam_segment_shape.py:42-46 -/
noncomputable def Segment.trans3 (p : Segment) (g : Rng S) (s : S) (d rMax : ℝ) (n : ℕ) : Option (List Tr3 × S) := gauss3d g s p.radius (p.sigma d) rMax n p.xshift p.yshift

/-- get_pz, beam_segment_shape.py:48-51 -/
noncomputable def Segment.pz (p : Segment) (g : Rng S) (s : S) (d : ℝ) (n : ℕ) : Option (List ℝ × S) := eValues p.eshape g s p.energy p.espread d p.length n

open Classical in
/-- initial_current, beam_segment_shape.py:53-62, in a beam of current `I` -/
noncomputable def Segment.initialCurrent (p : Segment) (I d : ℝ) : ℝ :=
  if d < 0 ∨ d > p.length then 0 else p.ampl * I * p.xishape d p.length

open Classical in
/-- get_segment, beam_shape.py:25-31; the loop over the segments with running `segment_start`. -/
noncomputable def getSegment : List Segment → ℝ → ℝ → Option (Segment × ℝ)
  | [], _, _ => none
  | p :: ps, start, xi => if 0 < start - xi ∧ start - xi < p.length then some (p, start) else getSegment ps (start - p.length) xi

/-- total_length, beam_shape.py:33-35 -/
def totalLength (segs : List Segment) : ℝ := segs.foldl (fun x p => x + p.length) 0

/-- initial_current, beam_shape.py:37-42 -/
noncomputable def initialCurrent (segs : List Segment) (I xi : ℝ) : ℝ :=
  match getSegment segs 0 xi with
  | none => 0
  | some (p, start) => p.initialCurrent I (start - xi)

/-! ### The particle array -/

/-- One row of particle_dtype2d / particle_dtype3d, beam_generator.py:11-17, with the transverse part `T`. -/
structure GRow (T : Type) where
  xi : ℝ
  tr : T
  pz : ℝ
  qm : ℝ
  qnorm : ℝ
  id : ℤ

/-- BeamShape (beam_shape.py:5-15) and the numbers generate_beam_array takes from the configuration. -/
structure Shape where
  current : ℝ
  perLayer : ℝ
  segs : List Segment
  dxi : ℝ
  rMax : ℝ

/-- Length of `np.arange(-xi_step_p / 2, -total_length, -xi_step_p)`, beam_generator.py:21. -/
noncomputable def layersNumber (b : Shape) : ℕ := ⌈(-totalLength b.segs - -b.dxi / 2) / -b.dxi⌉.toNat

/-- `rigid_beam_current`, beam_generator.py:20-25: the current of layer `k`. -/
noncomputable def layerCurrent (b : Shape) (k : ℕ) : ℝ := initialCurrent b.segs b.current (-b.dxi / 2 + k * -b.dxi)

/-- `particles_in_layers[k]`, beam_generator.py:109-110 -/
noncomputable def layerCount (b : Shape) (k : ℕ) : ℕ := (Lcode.Py.pyInt (b.perLayer * |layerCurrent b k / b.current|)).toNat

/-- `elem_charge`, beam_generator.py:108 -/
noncomputable def elemCharge (b : Shape) : ℝ := |2 * b.current / b.perLayer|

open Classical in
/-- One turn of the loop, beam_generator.py:119-158. `tv` is get_r_values2d or get_r_values3d. Identifiers are written by position later. -/
noncomputable def genLayer {T : Type} (tv : Segment → Rng S → S → ℝ → ℝ → ℕ → Option (List T × S)) (b : Shape) (g : Rng S) (s : S) (k : ℕ) : Option (List (GRow T) × S) := do
  let layerXi := -b.dxi * k
  let mid := layerXi - b.dxi / 2
  let seg ← getSegment b.segs 0 mid
  let d := seg.2 - mid
  let n := layerCount b k
  let qm := 1 / seg.1.massCharge * (if layerCurrent b k > 0 then 1 else -1)
  let qnorm := elemCharge b * (if b.current ≥ 0 then 1 else -1)
  let xi := uniform g s (layerXi - b.dxi) layerXi n
  let tr ← tv seg.1 g xi.2 d b.rMax n
  let pz ← seg.1.pz g tr.2 d n
  pure (List.zipWith (fun z t => ⟨z, t.1, t.2, qm, qnorm, 0⟩) xi.1 (tr.1.zip pz.1), pz.2)

/-- The loop over the layers `k, ..., k + n - 1`, beam_generator.py:119. The slices `start_idx:end_idx` follow one another without gaps, so the array is the concatenation of the layers. -/
noncomputable def genLoop {T : Type} (tv : Segment → Rng S → S → ℝ → ℝ → ℕ → Option (List T × S)) (b : Shape) (g : Rng S) : S → ℕ → ℕ → Option (List (List (GRow T)))
  | _, _, 0 => some []
  | s, k, n + 1 => do
    let l ← genLayer tv b g s k
    let rest ← genLoop tv b g l.2 (k + 1) n
    pure (l.1 :: rest)

/-- generate_beam_array, beam_generator.py:105-161. -/
noncomputable def generateArray {T : Type} (tv : Segment → Rng S → S → ℝ → ℝ → ℕ → Option (List T × S)) (b : Shape) (g : Rng S) (s : S) (argsort : List ℝ → List ℕ) : Option (List (GRow T)) := do
  let layers ← genLoop tv b g s 0 (layersNumber b)
  let beam := layers.flatten.mapIdx fun i r => { r with id := (i : ℤ) + 1 }
  pure (Lcode.Beam2D.gather beam (argsort (beam.map fun r => -r.xi)))

/-- The row of the 2D beam array. -/
def GRow.to2 (r : GRow Tr2) : Lcode.Beam2D.Particle ℝ := ⟨r.xi, r.tr.r, r.pz, r.tr.pr, r.tr.M, r.qm, r.qnorm, r.id⟩

/-- The row of the 3D beam array; `dt` and `remaining` are not part of it. -/
def GRow.to3 (r : GRow Tr3) : Lcode.Beam3D.Row ℝ := ⟨r.xi, r.tr.x, r.tr.y, r.tr.px, r.tr.py, r.pz, r.qm, r.qnorm, r.id, 0, 0⟩

/-! ### Parameters -/

/-- A value in a parameter dictionary. -/
inductive PVal where
  | num (x : ℝ)
  | str (s : String)

/-- A value of the user's beam_parameters: a number or string, or a dictionary. -/
inductive TopVal where
  | scalar (v : PVal)
  | dict (d : List (String × PVal))

abbrev Params := String → Option PVal

/-- `d1[key] = value` -/
def setKey {α : Type} (p : String → Option α) (k : String) (v : α) : String → Option α := fun k' => if k' = k then some v else p k'

/-- The loops beam_generator.py:61-63, :69-71: every key of a user dictionary overrides. -/
def override (p : Params) (d : List (String × PVal)) : Params := d.foldl (fun p kv => setKey p kv.1 kv.2) p

/-- def_beam_segment_params, beam_generator.py:40-45 -/
noncomputable def defaultSegment : Params
  | "length" => some (.num 5.01)
  | "ampl" => some (.num 1)
  | "xishape" => some (.str "cos")
  | "radius" => some (.num 1)
  | "energy" => some (.num 1000)
  | "xshift" => some (.num 0)
  | "yshift" => some (.num 0)
  | "rshape" => some (.str "g")
  | "angspread" => some (.num 1e-5)
  | "angshape" => some (.str "l")
  | "espread" => some (.num 0)
  | "eshape" => some (.str "m")
  | "mass_charge_ratio" => some (.num 1)
  | _ => none

def numOf (p : Params) (k : String) : Option ℝ :=
  match p k with
  | some (.num x) => some x
  | _ => none

def strOf (p : Params) (k : String) : Option String :=
  match p k with
  | some (.str x) => some x
  | _ => none

/-- BeamSegmentShape.__init__, beam_segment_shape.py:6-21. A number where a name is expected, or the other way round, and an unknown name raise (there or at the first use). -/
noncomputable def mkSegment (p : Params) : Option Segment := do
  let length ← numOf p "length"
  let ampl ← numOf p "ampl"
  let xishape ← (strOf p "xishape").bind xiShape
  let radius ← numOf p "radius"
  let energy ← numOf p "energy"
  let xshift ← numOf p "xshift"
  let yshift ← numOf p "yshift"
  let rshape ← strOf p "rshape"
  let angspread ← numOf p "angspread"
  let angshape ← (strOf p "angshape").bind xiShape
  let espread ← numOf p "espread"
  let eshape ← (strOf p "eshape").bind eShape
  let massCharge ← numOf p "mass_charge_ratio"
  if rShapeOk rshape then
    pure { length := length, ampl := ampl, xishape := xishape, radius := radius, energy := energy, xshift := xshift, yshift := yshift
           angspread := angspread, angshape := angshape, espread := espread, eshape := eshape, massCharge := massCharge }
  else none

/-- The keys of beam_shape_params, beam_generator.py:37-39 -/
def shapeKeys : List String := ["current", "particles_in_layer", "rng_seed"]

/-- One turn of the second loop, beam_generator.py:56-82: the defaults so far and the segments so far. -/
noncomputable def segmentTurn (st : Params × List Segment) (kv : String × TopVal) : Option (Params × List Segment) :=
  match kv.2 with
  | .dict d =>
    if kv.1 = "default" then some (override st.1 d, st.2)
    else (mkSegment (override st.1 d)).map fun p => (st.1, st.2 ++ [p])
  | .scalar _ => if kv.1 ∈ shapeKeys then some st else none

/-- The second loop, beam_generator.py:56-82. -/
noncomputable def segmentLoop (st : Params × List Segment) (user : List (String × TopVal)) : Option (Params × List Segment) :=
  user.foldlM segmentTurn st

/-- beam_generator.py:47-91: the segments of the beam. -/
noncomputable def segmentsOf (user : Option (List (String × TopVal))) : Option (List Segment) :=
  match user with
  | none => (mkSegment defaultSegment).map fun p => [p]
  | some u => (segmentLoop (defaultSegment, []) u).bind fun st =>
      if st.2.length = 0 then (mkSegment st.1).map fun p => [p] else some st.2

/-- The shape parameters, beam_generator.py:37-39, :48-51. -/
noncomputable def shapeParams (user : List (String × TopVal)) : String → Option TopVal :=
  user.foldl (fun p kv => if kv.1 ∈ shapeKeys then setKey p kv.1 kv.2 else p)
    fun k => if k = "current" then some (.scalar (.num 0.05)) else if k = "particles_in_layer" then some (.scalar (.num 2000)) else if k = "rng_seed" then some (.scalar (.num 1)) else none

def topNum : Option TopVal → Option ℝ
  | some (.scalar (.num x)) => some x
  | _ => none

/-- generate_beam, beam_generator.py:28-93, with BeamShape.__init__ (beam_shape.py:8-12: the current times 2 pi in 3D) and the radius limit beam_generator.py:99-102. `piLit` is the literal 3.1415926535897932. -/
noncomputable def makeShape (threeD : Bool) (dxi width piLit : ℝ) (user : Option (List (String × TopVal))) : Option Shape := do
  let segs ← segmentsOf user
  let sp := shapeParams (user.getD [])
  let current ← topNum (sp "current")
  let perLayer ← topNum (sp "particles_in_layer")
  let w := if threeD then width / 2 else width
  pure { current := if threeD then current * (2 * piLit) else current, perLayer := perLayer, segs := segs, dxi := dxi, rMax := max (0.9 * w) (w - 1) }

end Lcode.Gen
