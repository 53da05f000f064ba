import Verif.Mpi.Model

/-!
Specification of a run, without processes and messages: what layers each time step receives.
-/

namespace Lcode.Mpi

variable {K P : Type} (W : World K P)

/-- State of a time step before layer `j`, if layer `i` received is `inp i`. -/
def stAt (st : W.St) (inp : ℕ → List P) : ℕ → W.St
  | 0 => st
  | j + 1 => (W.layer (stAt st inp j) j (inp j)).1

/-- Slice that finishes moving in iteration `j`. -/
def outAt (st : W.St) (inp : ℕ → List P) (j : ℕ) : List P :=
  (W.layer (stAt W st inp j) j (inp j)).2

/-- A beam source after `j` layers, and layer `j` it hands out. -/
def srcAt (s : W.Src) : ℕ → W.Src
  | 0 => s
  | j + 1 => (W.pullSrc (srcAt s j) j).2

def srcLayer (s : W.Src) (j : ℕ) : List P := (W.pullSrc (srcAt W s j) j).1

variable [Field K]

/-- Physical time of global time step `g`. -/
def timeOf (dt : K) (g : ℕ) : K := dt * (g + 1)

/-- Slices finished in time step `g` if it receives the layers `inp`. -/
def finished (dt : K) (g : ℕ) (inp : ℕ → List P) : ℕ → List P :=
  outAt W (W.init (timeOf dt g)) inp

/-- All particles finished in a time step with layers `0..N`. -/
def allFinished (N : ℕ) (dt : K) (g : ℕ) (inp : ℕ → List P) : List P :=
  ((List.range (N + 1)).map (finished W dt g inp)).flatten

/-- Sequential run: time step `g+1` takes its layers from a source made of everything that time step `g` finished. -/
def seqLayers (N : ℕ) (dt : K) (b0 : List P) : ℕ → ℕ → List P
  | 0 => srcLayer W (W.mkSrc b0)
  | g + 1 => srcLayer W (W.mkSrc (allFinished W N dt g (seqLayers N dt b0 g)))

/-- Run as a pipeline of `size` stages: within a round, layer `j` of time step `g+1` is the slice finished in iteration `j+1` of time step
`g`; between rounds the beam is collected. -/
def pipeLayers (size N : ℕ) (dt : K) (b0 : List P) : ℕ → ℕ → List P
  | 0 => srcLayer W (W.mkSrc b0)
  | g + 1 =>
    let prev := pipeLayers size N dt b0 g
    if (g + 1) % size = 0 then srcLayer W (W.mkSrc (allFinished W N dt g prev))
    else fun j => if j < N then finished W dt g prev (j + 1) else []

/-- Whether time step `g` hands over its slices one by one. -/
def hands (size steps g : ℕ) : Bool := g + 1 != steps && g % size != size - 1

/-- Beam visible at the end of time step `g` (a process that hands slices over drops those of iteration 0). -/
def shown (size steps N : ℕ) (dt : K) (b0 : List P) (g : ℕ) : List P :=
  ((List.range (N + 1)).map fun j =>
    if hands size steps g && j == 0 then [] else finished W dt g (pipeLayers W size N dt b0 g) j).flatten

/-- What time step `g` of a pipelined run shows. -/
def entryOf (size steps N : ℕ) (dt : K) (b0 : List P) (g : ℕ) : Entry K P :=
  ⟨timeOf dt g, (List.range (N + 1)).map (pipeLayers W size N dt b0 g), shown W size steps N dt b0 g⟩

theorem pipe_one_eq_seq (N : ℕ) (dt : K) (b0 : List P) (g : ℕ) :
    pipeLayers W 1 N dt b0 g = seqLayers W N dt b0 g := by
  induction g with
  | zero => rfl
  | succ g ih => simp [pipeLayers, seqLayers, ih, Nat.mod_one]

end Lcode.Mpi
