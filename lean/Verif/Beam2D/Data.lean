import Verif.Py
import Mathlib.Data.List.Basic
import Mathlib.Data.List.Sort

/-!
Model of lcode/beam/data.py (BeamParticles), lcode/beam/beam_io.py (MemoryBeamSource,
MemoryBeamDrain) and the splitting part of lcode/beam/beam_calculate.py.

numpy arrays are lists; a numpy structured array of particles is a list of `Particle`.
`np.argsort` (unstable quicksort) is an arbitrary function satisfying `IsArgsort`.
-/

namespace Lcode.Beam2D

/-- One row of `particle_dtype`, data.py:4-6. -/
structure Particle (K : Type*) where
  xi : K
  r : K
  pz : K
  pr : K
  M : K
  qm : K
  qnorm : K
  id : ℤ
  deriving DecidableEq

/-- Class BeamParticles, data.py:9-29: the particle array and the parallel arrays `dt`,
`remaining_steps`, `lost`. The per-attribute views (`xi`, `r`, ...) are columns of `particles`. -/
structure Beam (K : Type*) where
  particles : List (Particle K)
  dt : List K
  remaining : List ℤ
  lost : List Bool

/-- Everything known about one beam particle: a row across all the parallel arrays. -/
abbrev Row (K : Type*) := Particle K × K × ℤ × Bool

namespace Beam

variable {K : Type*}

/-- The rows of a beam slice: what the parallel arrays say about each particle. -/
def rows (b : Beam K) : List (Row K) :=
  b.particles.zip (b.dt.zip (b.remaining.zip b.lost))

/-- All parallel arrays have the same length. -/
def WF (b : Beam K) : Prop :=
  b.dt.length = b.particles.length ∧ b.remaining.length = b.particles.length ∧
    b.lost.length = b.particles.length

/-- numpy fancy indexing `a[idx]` with a list of indices. -/
def _root_.Lcode.Beam2D.gather {α : Type*} (l : List α) (idx : List ℕ) : List α :=
  idx.filterMap (fun i => l[i]?)

/-- numpy basic slicing `a[begin:end]` for non-negative bounds. -/
def _root_.Lcode.Beam2D.slice {α : Type*} (l : List α) (b e : ℕ) : List α :=
  (l.take e).drop b

/-- data.py:9-29 with a given particle array: fresh `dt = 0`, `remaining_steps = 1`, `lost = False`. -/
def fresh [Zero K] (ps : List (Particle K)) : Beam K :=
  { particles := ps
    dt := ps.map (fun _ => 0)
    remaining := ps.map (fun _ => 1)
    lost := ps.map (fun _ => false) }

/-- data.py:38-44 -/
def getSubslice (b : Beam K) (begin' end' : ℕ) : Beam K :=
  { particles := slice b.particles begin' end'
    dt := slice b.dt begin' end'
    remaining := slice b.remaining begin' end'
    lost := slice b.lost begin' end' }

/-- data.py:46-65 -/
def concat (a b : Beam K) : Beam K :=
  { particles := a.particles ++ b.particles
    dt := a.dt ++ b.dt
    remaining := a.remaining ++ b.remaining
    lost := a.lost ++ b.lost }

/-- data.py:67-87 (in-place append; the caller uses the returned `self`). -/
def append (a b : Beam K) : Beam K :=
  { particles := a.particles ++ b.particles
    dt := a.dt ++ b.dt
    remaining := a.remaining ++ b.remaining
    lost := a.lost ++ b.lost }

/-- Reordering of all parallel arrays by one index array (data.py:95-107,
beam_calculate.py:470-474, :481-485). -/
def reorder (b : Beam K) (idx : List ℕ) : Beam K :=
  { particles := gather b.particles idx
    dt := gather b.dt idx
    remaining := gather b.remaining idx
    lost := gather b.lost idx }

end Beam

/-- What `np.argsort` guarantees: a permutation of the indices that sorts the keys. -/
def IsArgsort {κ : Type*} (le : κ → κ → Prop) (f : List κ → List ℕ) : Prop :=
  ∀ keys, (f keys).Perm (List.range keys.length) ∧ (gather keys (f keys)).Pairwise le

/-- Order of numpy booleans: False < True. -/
def boolLe (a b : Bool) : Prop := a = true → b = true

/-- data.py:93-107: `np.argsort(-self.xi)` and reordering of every array. -/
def Beam.sort {K : Type*} [Neg K] (argsort : List K → List ℕ) (b : Beam K) : Beam K :=
  b.reorder (argsort (b.particles.map (fun p => -p.xi)))

/-- beam_calculate.py:451-489. `argsort` is numpy's argsort on booleans. -/
def splitBeamSlice {K : Type*} [LinearOrder K] (argsort : List Bool → List ℕ)
    (b : Beam K) (xiEnd : K) : Beam K × Beam K × Beam K :=
  let size := b.particles.length
  let b := b.reorder (argsort b.lost).reverse
  let lostCount := b.lost.count true
  let lostSlice := b.getSubslice 0 lostCount
  let b := b.getSubslice lostCount size
  let size := b.particles.length
  let movingMask := List.zipWith (fun (n : ℤ) (p : Particle K) => decide (n > 0) || decide (p.xi < xiEnd))
    b.remaining b.particles
  let stableCount := movingMask.length - movingMask.count true
  let b := b.reorder (argsort movingMask)
  let stableSlice := b.getSubslice 0 stableCount
  let movingSlice := b.getSubslice stableCount size
  (lostSlice, stableSlice, movingSlice)

section source
variable {K : Type*} [Field K] [LinearOrder K] [IsStrictOrderedRing K]

/-- The loop of `find_sub_slice`, beam_io.py:70-77, over the remaining coordinates
`xi[i], xi[i+1], ...`; returns `end` and `flag`. -/
def findEnd (xiMax xiMin : K) (start : ℕ) : List K → ℕ → ℕ × Bool
  | [], i => (i, false)
  | x :: xs, i =>
    if x - xiMin < 0 then (i, false)
    else if x - xiMax > 0 then (start, true)
    else findEnd xiMax xiMin start xs (i + 1)

/-- beam_io.py:66-79: returns `start`, `end`, the new `used_count` and `flag`. -/
def findSubSlice (xi : List K) (used : ℕ) (xiMax xiMin : K) : ℕ × ℕ × ℕ × Bool :=
  let r := findEnd xiMax xiMin used (xi.drop used) used
  (used, r.1, used + (r.1 - used), r.2)

/-- Class MemoryBeamSource, beam_io.py:82-96. `xi` is the view taken when
the array was sorted; it still contains the stub after the stub row was removed from
`particles` (the code does not refresh the view). -/
structure Source (K : Type*) where
  particles : List (Particle K)
  xi : List K
  used : ℕ

/-- beam_io.py:83-96 -/
def Source.init (argsort : List K → List ℕ) (b : Beam K) : Source K :=
  if b.particles = [] then ⟨[], [], 0⟩
  else
    let b := b.sort argsort
    let xi := b.particles.map Particle.xi
    let ps := match xi.getLast? with
      | some x => if x + 100000 < 1 then b.particles.dropLast else b.particles
      | none => b.particles
    ⟨ps, xi, 0⟩

/-- beam_io.py:99-107 (the assert `xi_min < xi_max` is a hypothesis of the theorems);
the slice handed out has fresh `dt`, `remaining_steps`, `lost`. -/
def Source.getBeamSlice (s : Source K) (xiMax xiMin : K) : Beam K × Source K :=
  let (start, end', used, _) := findSubSlice s.xi s.used xiMax xiMin
  (Beam.fresh (slice s.particles start end'), { s with used := used })

/-- push_solver.py:174-177: layer `i` of the sweep. -/
def Source.getBeamLayer (s : Source K) (h : K) (i : ℕ) : Beam K × Source K :=
  s.getBeamSlice (i * -h) ((i + 1) * -h)

/-- The layers `i, i+1, ..., i+n-1` a time step asks for, in order. -/
def Source.layers (h : K) : Source K → ℕ → ℕ → List (Beam K) × Source K
  | s, _, 0 => ([], s)
  | s, i, n + 1 =>
    let (b, s') := s.getBeamLayer h i
    let (bs, s'') := Source.layers h s' (i + 1) n
    (b :: bs, s'')
end source

/-- MemoryBeamDrain, beam_io.py:110-126: buffers of slices. -/
structure Drain (K : Type*) where
  buffer : List (Beam K)
  bufferLost : List (Beam K)

/-- beam_io.py:118-121 -/
def Drain.push {K : Type*} (d : Drain K) (b : Beam K) : Drain K :=
  if b.particles.length > 0 then { d with buffer := d.buffer ++ [b] } else d

/-- beam_io.py:128-129 -/
def Drain.beamSlice {K : Type*} (d : Drain K) : List (Particle K) :=
  (d.buffer.map Beam.particles).flatten

end Lcode.Beam2D
