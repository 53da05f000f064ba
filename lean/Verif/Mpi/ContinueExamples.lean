import Verif.Mpi.Continue
import Verif.Mpi.CausalityExamples

/-! C46: concrete runs that meet the hypotheses. -/

namespace Lcode.Mpi

section Two
open Lcode.Beam2D

/-- A state stored in layer 1 of time step 0, continued with a beam behind layer 1, through three time steps of 100 layers. -/
example (b : List (Particle ℝ)) (hb : ∀ p ∈ b, p.xi < -2) :
    contBeam (world2D recordEnv fun _ => []) 100 (resume2D (stAt (world2D recordEnv fun _ => []) ((world2D recordEnv fun _ => []).init (timeOf 1 0)) (seqLayers (world2D recordEnv fun _ => []) 100 1 b 0) 2).plasma) 2 b 3 =
      seqBeam (world2D recordEnv fun _ => []) 100 1 b 3 :=
  (continued_run_2D recordEnv demoArgsort_correct npArgsort_correct (by norm_num [recordEnv]) (by norm_num [recordEnv]) [] 100 2 (by norm_num) 1 b
    (fun p hp => by have := hb p hp; norm_num [recordEnv]; linarith) _ 0 rfl 3).1

/-- The stored layer is 1: the state is stored at xi = -1, so the continuation starts in layer 2. -/
example : startLayer (-1 : ℚ) 1 = 2 := startLayer_stored 1 (-1) (by norm_num) 1 (by norm_num)

/-- A coordinate that is the rounded sum of steps still selects the next layer. -/
example : startLayer (-(3 / 10 + 1 / 10 ^ 9) : ℚ) (1 / 10) = 4 := startLayer_stored (1 / 10) _ (by norm_num) 3 (by norm_num [abs_lt])

/-- The probe in layer 0 makes a continuation from layer 1 lose the charge of layer 1 too. -/
example (s : ℝ) (g : ℕ) : contBeam (world2D axisEnv fun _ => 0) 100 (resume2D s) 1 [probe (-1 / 2) 0, behindCharge] (g + 1) = [] :=
  (continuation_loses_beam_2D axisEnv (fun _ => 0) demoArgsort_correct npArgsort_correct (by norm_num [axisEnv]) 100 1 _
    ⟨probe (-1 / 2) 0, by simp, by norm_num [probe, axisEnv]⟩ s g).2

end Two

section Three
open Lcode.Beam3D
open Lcode.Beam2D (npArgsort npArgsort_correct)

example (b : List (Row ℝ)) (hb : ∀ p ∈ b, p.xi < -2) :
    contBeam (world3D recordWindow npArgsort fun _ => []) 100
      (resume3D (stAt (world3D recordWindow npArgsort fun _ => []) ((world3D recordWindow npArgsort fun _ => []).init (timeOf 1 0)) (seqLayers (world3D recordWindow npArgsort fun _ => []) 100 1 b 0) 2).plasma) 2 b 3 =
      seqBeam (world3D recordWindow npArgsort fun _ => []) 100 1 b 3 :=
  (continued_run_3D recordWindow npArgsort npArgsort_correct (by norm_num [recordWindow]) (by norm_num [recordWindow]) [] 100 2 (by norm_num) 1 b
    (fun p hp => by have := hb p hp; norm_num [recordWindow]; linarith) _ 0 rfl 3).1

/-- The condition of `continuation_displaced_3D` is met by a beam with one particle in each of the layers 0 and 1, continued from layer 1. -/
example : ∀ p ∈ contLayer (restWorld npArgsort) ((restWorld npArgsort).mkSrc [rest (-1 / 2), rest (-3 / 2)]) 1 0, -1 ≤ p.xi := by
  have h := (continuation_displaced_3D emptyWindow npArgsort npArgsort_correct (fun _ => ()) 1 [rest (-1 / 2), rest (-3 / 2)] ?_).2
  · intro p hp
    have := h p hp
    simpa [emptyWindow] using this
  · have ed : emptyWindow.cfg.dxi = 1 := rfl
    have a : decide (InLayer (1 : ℝ) 1 (rest (-1 / 2)).xi) = false := by
      rw [decide_eq_false_iff_not]; intro h; have := h.2; norm_num [restRow] at this
    have b : decide (-((1 : ℕ) * (1 : ℝ)) ≤ (rest (-1 / 2)).xi) = true := by
      rw [decide_eq_true_eq]; norm_num [restRow]
    rw [ed]
    simp only [List.countP_cons, List.countP_nil, a, b]
    split_ifs <;> simp_all

end Three
end Lcode.Mpi
