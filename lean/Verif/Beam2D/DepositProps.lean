import Verif.Beam2D.PusherProps
import Mathlib.Algebra.BigOperators.Intervals
import Mathlib.Algebra.BigOperators.Fin

/-!
Property C08 for whole layers and whole time steps: charge deposited by a 2D beam.
-/

namespace Lcode.Beam2D

open Finset

/-- Sum of an array of length `n`. -/
noncomputable def total (n : ℕ) (f : ℤ → ℝ) : ℝ := ∑ i ∈ range n, f i

/-- The "volume" attached to a radial node (in units where a ring at node `i` has
volume `i h²` and the axis node `h²/6`). -/
noncomputable def nodeVolume (h : ℝ) (i : ℕ) : ℝ := if i = 0 then h ^ 2 / 6 else i * h ^ 2

theorem total_update (n : ℕ) (f : ℤ → ℝ) (i : ℤ) (v : ℝ) (h0 : 0 ≤ i) (h1 : i < n) :
    total n (Function.update f i (f i + v)) = total n f + v := by
  unfold total
  obtain ⟨k, rfl⟩ := Int.eq_ofNat_of_zero_le h0
  have hk : k ∈ range n := by rw [mem_range]; exact_mod_cast h1
  rw [← Finset.add_sum_erase _ _ hk, ← Finset.add_sum_erase (range n) (fun i : ℕ => f i) hk]
  have : ∑ x ∈ (range n).erase k, Function.update f (k : ℤ) (f k + v) (x : ℤ) =
      ∑ x ∈ (range n).erase k, f x := by
    apply Finset.sum_congr rfl
    intro x hx
    rw [Function.update_of_ne]
    have := Finset.ne_of_mem_erase hx
    exact_mod_cast this
  rw [this]
  simp
  ring

theorem total_addAt (n : ℕ) (l : List (ℤ × ℝ)) (f : ℤ → ℝ)
    (h : ∀ iv ∈ l, 0 ≤ iv.1 ∧ iv.1 < n) :
    total n (addAt f l) = total n f + (l.map Prod.snd).sum := by
  unfold addAt
  induction l generalizing f with
  | nil => simp
  | cons a l ih =>
    rw [List.foldl_cons, ih _ (fun iv hiv => h iv (by simp [hiv])),
      total_update n f a.1 a.2 (h a (by simp)).1 (h a (by simp)).2]
    simp; ring

/-- A particle that can be deposited: inside the layer and inside the radial grid of `n` nodes. -/
def Depositable (n : ℕ) (rStep xiStep : ℝ) (xiI : ℕ) (p : Particle ℝ) : Prop :=
  0 ≤ p.r ∧ p.r < ((n : ℝ) - 1) * rStep ∧
    -(((xiI : ℝ) + 1) * xiStep) ≤ p.xi ∧ p.xi ≤ -((xiI : ℝ) * xiStep)

theorem node_in_grid (n : ℕ) (r rStep : ℝ) (hr : 0 ≤ r) (hs : 0 < rStep)
    (h : r < ((n : ℝ) - 1) * rStep) : 0 ≤ ⌊r / rStep⌋ ∧ ⌊r / rStep⌋ + 1 < n := by
  refine ⟨Int.floor_nonneg.mpr (by positivity), ?_⟩
  have : ⌊r / rStep⌋ < (n : ℤ) - 1 := by
    rw [Int.floor_lt]
    push_cast
    rwa [div_lt_iff₀ hs]
  omega

/-- C08, one layer: what the layer's density represents plus what is handed on to the next layer is
the partial charge inherited plus the charge of every particle of the layer. All array accesses are in range. -/
theorem layout_conserves (n : ℕ) (rStep xiStep : ℝ) (hr : 0 < rStep) (hx : 0 < xiStep)
    (rho : ℤ → ℝ) (ps : List (Particle ℝ)) (xiI : ℕ)
    (hps : ∀ p ∈ ps, Depositable n rStep xiStep xiI p) :
    let out := layoutBeamLayer rStep xiStep rho ps xiI
    ∑ i ∈ range n, nodeVolume rStep i * out.1 i + total n out.2 =
      total n rho + (ps.map Particle.qnorm).sum := by
  intro out
  set xiEnd := ((xiI : ℝ) + 1) * -xiStep with hxe
  have hcur : ∀ i ∈ range n, nodeVolume rStep i * out.1 (i : ℕ) =
      (depositParticles ps rho (fun _ => 0) xiEnd rStep xiStep).1 (i : ℕ) := by
    intro i _
    show nodeVolume rStep i * (layoutBeamLayer rStep xiStep rho ps xiI).1 (i : ℕ) = _
    unfold layoutBeamLayer nodeVolume
    simp only [← hxe]
    by_cases hi : i = 0
    · subst hi; simp; field_simp
    · have h1 : ((i : ℤ) ≥ 1) := by omega
      have h2 : ¬ ((i : ℤ) = 0) := by omega
      have h3 : (i : ℝ) ≠ 0 := by exact_mod_cast hi
      simp only [hi, h1, h2, if_true, if_false]
      push_cast
      field_simp
  rw [Finset.sum_congr rfl hcur]
  have hnext : out.2 = (depositParticles ps rho (fun _ => 0) xiEnd rStep xiStep).2 := rfl
  rw [hnext]
  have hin : ∀ p ∈ ps, 0 ≤ ⌊p.r / rStep⌋ ∧ ⌊p.r / rStep⌋ + 1 < n :=
    fun p hp => node_in_grid n p.r rStep (hps p hp).1 hr (hps p hp).2.1
  change total n (depositParticles ps rho (fun _ => 0) xiEnd rStep xiStep).1 +
    total n (depositParticles ps rho (fun _ => 0) xiEnd rStep xiStep).2 = _
  unfold depositParticles
  simp only
  rw [total_addAt, total_addAt, total_addAt, total_addAt]
  · have hz : total n (fun _ => 0) = 0 := by simp [total]
    rw [hz]
    have key : ∀ l : List (Particle ℝ),
        (l.map (fun p => (beamParticleWeights p.r p.xi xiEnd rStep xiStep).2.1 * p.qnorm)).sum +
        (l.map (fun p => (beamParticleWeights p.r p.xi xiEnd rStep xiStep).2.2.1 * p.qnorm)).sum +
        (l.map (fun p => (beamParticleWeights p.r p.xi xiEnd rStep xiStep).2.2.2.1 * p.qnorm)).sum +
        (l.map (fun p => (beamParticleWeights p.r p.xi xiEnd rStep xiStep).2.2.2.2 * p.qnorm)).sum
        = (l.map Particle.qnorm).sum := by
      intro l
      induction l with
      | nil => simp
      | cons a l ih =>
        simp only [List.map_cons, List.sum_cons, ← ih]
        unfold beamParticleWeights
        ring
    have := key ps
    simp only [List.map_map, Function.comp_def]
    linarith
  all_goals
    intro iv hiv
    simp only [List.map_map, List.mem_map, Function.comp_def] at hiv
    obtain ⟨p, hp, rfl⟩ := hiv
    have := hin p hp
    simp only [beamParticleWeights]
    omega

/-- C08, one time step: summed over all layers of a sweep, the charge represented on the grid plus
the partial density left after the last layer equals the total charge of the beam particles laid out. -/
theorem sweep_conserves_charge (n : ℕ) (rStep xiStep : ℝ) (hr : 0 < rStep) (hx : 0 < xiStep)
    (layers : List (List (Particle ℝ))) (rho : ℤ → ℝ) (i₀ : ℕ)
    (hps : ∀ k (hk : k < layers.length), ∀ p ∈ layers[k], Depositable n rStep xiStep (i₀ + k) p) :
    let out := layoutSweep rStep xiStep rho i₀ layers
    (out.1.map (fun d => ∑ i ∈ range n, nodeVolume rStep i * d i)).sum + total n out.2 =
      total n rho + (layers.flatten.map Particle.qnorm).sum := by
  induction layers generalizing rho i₀ with
  | nil => simp [layoutSweep]
  | cons ps rest ih =>
    intro out
    have h1 := layout_conserves n rStep xiStep hr hx rho ps i₀
      (fun p hp => by simpa using hps 0 (by simp) p (by simpa using hp))
    have h2 := ih (layoutBeamLayer rStep xiStep rho ps i₀).2 (i₀ + 1) (fun k hk p hp => by
      have := hps (k + 1) (by simpa using hk) p (by simpa using hp)
      rwa [show i₀ + (k + 1) = i₀ + 1 + k by omega] at this)
    simp only at h1 h2
    have ho : out.2 =
        (layoutSweep rStep xiStep (layoutBeamLayer rStep xiStep rho ps i₀).2 (i₀ + 1) rest).2 := rfl
    rw [ho]
    show (((layoutBeamLayer rStep xiStep rho ps i₀).1 :: _).map _).sum + total n _ = _
    simp only [List.map_cons, List.sum_cons, List.flatten_cons, List.map_append, List.sum_append]
    linarith

/-- Two particles of charge 1 and 2 in a two-layer window satisfy the hypotheses. -/
example : ∀ k (hk : k < [[(⟨-1/2, 1/2, 0, 0, 0, 1, 1, 1⟩ : Particle ℝ)],
      [⟨-3/2, 5/4, 0, 0, 0, 1, 2, 2⟩]].length),
    ∀ p ∈ [[(⟨-1/2, 1/2, 0, 0, 0, 1, 1, 1⟩ : Particle ℝ)], [⟨-3/2, 5/4, 0, 0, 0, 1, 2, 2⟩]][k],
      Depositable 4 1 1 (0 + k) p := by
  intro k hk p hp
  match k with
  | 0 => simp at hp; subst hp; unfold Depositable; norm_num
  | 1 => simp at hp; subst hp; unfold Depositable; norm_num

end Lcode.Beam2D
