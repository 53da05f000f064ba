import Verif.Gen.Tail
import Verif.Gen.Cases
import Verif.Mpi.CausalityExamples

/-!
Concrete beams for C64.
-/

namespace Lcode.Gen

open Lcode.Beam2D (IsArgsort gather npArgsort npArgsort_correct)

/-- The first segment of the two-segment beam alone. -/
noncomputable def firstSegment : Shape := { twoSegments with segs := [flat 2 1] }

theorem firstSegment_extend : firstSegment.extend [flat 1 (-1 / 2)] = twoSegments := rfl

theorem firstSegment_valid : firstSegment.Valid where
  current := twoSegments_valid.current
  perLayer := twoSegments_valid.perLayer
  dxi := twoSegments_valid.dxi
  rMax := twoSegments_valid.rMax
  length := fun p hp => twoSegments_valid.length p (by simp only [firstSegment, List.mem_singleton] at hp; simp [twoSegments, hp])
  radius := fun p hp => twoSegments_valid.radius p (by simp only [firstSegment, List.mem_singleton] at hp; simp [twoSegments, hp])
  levels := fun p hp => twoSegments_valid.levels p (by simp only [firstSegment, List.mem_singleton] at hp; simp [twoSegments, hp])

theorem firstSegment_generated_2d : ∃ beam, generateArray Segment.trans2 firstSegment midRng () npArgsort = some beam := by
  have h := generator_raises_iff Segment.trans2 midRng (fun p s d r n => trans2_isSome midRng p s d r n) firstSegment () npArgsort firstSegment_valid.dxi firstSegment_valid.length (by
    intro p hp d _ _
    simp only [firstSegment, List.mem_singleton] at hp
    subst hp; exact flat_noRaise _ _ _)
  cases hb : generateArray Segment.trans2 firstSegment midRng () npArgsort with
  | some beam => exact ⟨beam, rfl⟩
  | none =>
    exfalso
    obtain ⟨k, j, h0, h1, h2⟩ := h.mp hb
    simp only [firstSegment, List.length_cons, List.length_nil] at h1
    omega

theorem twoSegments_generated_2d : ∃ beam, generateArray Segment.trans2 twoSegments midRng () npArgsort = some beam := by
  have h := generator_raises_iff Segment.trans2 midRng (fun p s d r n => trans2_isSome midRng p s d r n) twoSegments () npArgsort twoSegments_valid.dxi twoSegments_valid.length (by
    intro p hp d _ _
    simp only [twoSegments, List.mem_cons, List.not_mem_nil, or_false] at hp
    rcases hp with rfl | rfl <;> exact flat_noRaise _ _ _)
  cases hb : generateArray Segment.trans2 twoSegments midRng () npArgsort with
  | some beam => exact ⟨beam, rfl⟩
  | none =>
    exfalso
    obtain ⟨k, j, h0, h1, h2⟩ := h.mp hb
    have hj : j = 1 := by simp only [twoSegments, List.length_cons, List.length_nil] at h1; omega
    subst hj
    rw [twoSegments_heads.2.1] at h2
    simp only [twoSegments, mul_one] at h2
    have h3 : (2 : ℝ) * k + 1 = 4 := by linarith
    have h4 : 2 * k + 1 = 4 := by exact_mod_cast h3
    omega

/-- The hypotheses of C64 are met: two generated beams, the longer with a tail of opposite sign, in windows of 4 and 6 layers, drifting; the first layer of the second time step is the same in both. The shorter beam is not empty there: both layers hold four particles. -/
theorem longer_driver_case : ∃ beam beam', generateArray Segment.trans2 firstSegment midRng () npArgsort = some beam ∧ generateArray Segment.trans2 twoSegments midRng () npArgsort = some beam' ∧
    (beam.filter fun r => decide (Lcode.Beam3D.InLayer 1 1 r.xi)).length = 4 ∧
    (Lcode.Mpi.seqLayers (Lcode.Mpi.world2D Lcode.Mpi.driftEnv fun _ => ()) 3 1 (beam.map GRow.to2) 1 0).Perm (Lcode.Mpi.seqLayers (Lcode.Mpi.world2D Lcode.Mpi.driftEnv fun _ => ()) 5 1 (beam'.map GRow.to2) 1 0) := by
  obtain ⟨beam, h⟩ := firstSegment_generated_2d
  obtain ⟨beam', h'⟩ := twoSegments_generated_2d
  refine ⟨beam, beam', h, h', ?_, ?_⟩
  · obtain ⟨-, -, -, hl, -⟩ := generated_2d firstSegment firstSegment_valid midRng midRng_valid npArgsort npArgsort_correct () beam h
    have h1 := hl 1 (by norm_num [firstSegment, twoSegments, totalLength, flat])
    have hc : layerCount firstSegment 1 = 4 := by
      rw [← twoSegments_count.1]
      have hg : getSegment firstSegment.segs 0 (-firstSegment.dxi / 2 + (1 : ℕ) * -firstSegment.dxi) = some (flat 2 1, 0) := by norm_num [firstSegment, getSegment, twoSegments, flat]
      have hg' : getSegment twoSegments.segs 0 (-twoSegments.dxi / 2 + (1 : ℕ) * -twoSegments.dxi) = some (flat 2 1, 0) := by norm_num [getSegment, twoSegments, flat]
      unfold layerCount layerCurrent initialCurrent
      rw [hg, hg']; rfl
    have := h1.count
    rw [hc] at this
    exact this
  · obtain ⟨-, -, hin, -⟩ := generated_2d firstSegment firstSegment_valid midRng midRng_valid npArgsort npArgsort_correct () beam h
    obtain ⟨-, -, hin', -⟩ := generated_2d twoSegments twoSegments_valid midRng midRng_valid npArgsort npArgsort_correct () beam' h'
    have hx : (0 : ℝ) < Lcode.Mpi.driftEnv.cfg.xiStep := by norm_num [Lcode.Mpi.driftEnv]
    have hno : ∀ (n : ℕ) (l : List (GRow Tr2)), n ≤ 5 → (∀ r ∈ l, r.xi < 0) → Lcode.Mpi.NoOvertaking Lcode.Mpi.driftEnv (fun _ => ()) n 1 (l.map GRow.to2) := by
      intro n l hn hl
      refine Lcode.Mpi.noOvertaking_of_noRush Lcode.Mpi.driftEnv _ Lcode.Beam2D.demoArgsort_correct npArgsort_correct hx (by norm_num [Lcode.Mpi.driftEnv]) n ?_ 1 _ ?_ Lcode.Mpi.drift_noRush
      · have : (n : ℝ) ≤ 5 := by exact_mod_cast hn
        have e : Lcode.Mpi.driftEnv.cfg.xiStep = 1 := rfl
        rw [e]; linarith
      · intro p hp
        obtain ⟨r, hr, rfl⟩ := List.mem_map.mp hp
        exact (hl r hr).le
    exact (longer_driver_2D Lcode.Mpi.driftEnv (fun _ => ()) Lcode.Beam2D.demoArgsort_correct npArgsort_correct firstSegment [flat 1 (-1 / 2)] firstSegment_valid twoSegments_valid rfl midRng midRng_valid npArgsort npArgsort_correct () beam beam' h h' 3 5 (by omega)
      (by norm_num [firstSegment, twoSegments]) 1 (hno 3 beam (by omega) fun r hr => by obtain ⟨k, -, h2⟩ := hin r hr; exact inLayer_neg firstSegment_valid.dxi h2)
      (hno 5 beam' (by omega) fun r hr => by obtain ⟨k, -, h2⟩ := hin' r hr; exact inLayer_neg twoSegments_valid.dxi h2) 1 0 (by omega) (by norm_num [firstSegment, twoSegments, totalLength, flat])).1

end Lcode.Gen

namespace Lcode.Mpi
open Lcode.Beam3D
open Lcode.Beam2D (IsArgsort npArgsort npArgsort_correct)

/-- Non-vacuity of C64 in 3D: a plasma that remembers every density it has seen, charged particles with x far above xi, windows of 8 and of 101 layers; the fourth layer of the fifth time step. -/
example (b : List (Row ℝ)) (h1 : ∀ p ∈ b, p.xi < 0 ∧ strip p = p) (h2 : ∀ p ∈ b, p.qm ≠ 0 ∧ 1 ≤ p.x - p.xi) :
    (stAt (world3D recordWindow npArgsort fun _ => []) ((world3D recordWindow npArgsort fun _ => []).init (timeOf 1 4)) (seqLayers (world3D recordWindow npArgsort fun _ => []) 7 1 b 4) 4).plasma =
      (stAt (world3D recordWindow npArgsort fun _ => []) ((world3D recordWindow npArgsort fun _ => []).init (timeOf 1 4)) (seqLayers (world3D recordWindow npArgsort fun _ => []) 100 1 b 4) 4).plasma := by
  refine (window_length_narrow_3D recordWindow npArgsort npArgsort_correct (by norm_num [recordWindow]) (by norm_num [recordWindow]) (by norm_num [recordWindow]) record_noRush3 (fun _ => []) 7 100 (by omega) 1 b b h1 h1 4 3 (by omega) ?_ fun i _ => List.Perm.refl _).2
  intro p hp
  refine ⟨(h2 p hp).1, le_trans ?_ (h2 p hp).2⟩
  norm_num [recordWindow]

end Lcode.Mpi
