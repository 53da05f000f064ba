import Verif.Beam3D.GpuPusher
import Mathlib.Data.List.GetD

/-!
The time step of the beam with the GPU kernel of lcode/beam3d/move.py:132-276 (lcode/beam3d/beam_calculator.py, lcode/push_solvers/push_solver.py). Property C48.
-/

namespace Lcode.Beam3D

open Lcode.Beam2D (substepFraction IsArgsort)
open Lcode.Plasma3D (Fields3 Vec3)

variable {σ : Type}

/-! ### Model -/

/-- move_beam_layer, beam_calculator.py:116-134, with the GPU kernel; returns lost, moved, fell. The substep kernel of the GPU (beam_calculator.py:29-47) computes the same substeps as the CPU (`gpu_substeps_same`, C47). -/
noncomputable def moveBeamLayerG (env : Env3 σ) (b : Beam ℝ) (fellSize : ℕ) (plIdx : ℕ) (F0 F1 : Fields3) : Beam ℝ × Beam ℝ × Beam ℝ :=
  if b.id.length ≠ 0 then
    let b := startMovingLayer env.timeStep env.energy b fellSize
    let res := b.rows.map (pushRowG env.cfg ((plIdx : ℤ) - 1) F0 F1)
    let b := Beam.ofRows (res.map Moved.row)
    (b.getLayer (res.map Moved.lost), b.getLayer (res.map Moved.moved), b.getLayer (res.map Moved.fell))
  else
    let no := b.id.map fun _ => false
    (b.getLayer no, b.getLayer no, b.getLayer no)

/-- One iteration of the xi loop, push_solver.py:236-261, on the GPU. The density laid out is that of the CPU (C47). -/
noncomputable def sweepStepG (env : Env3 σ) (s : SweepState σ) (xiI : ℕ) : SweepState σ :=
  let src := getBeamLayerToLayout env.cfg.dxi s.source xiI
  let rho := layoutBeamLayer env.cfg s.rhoLayout src.1.rows xiI
  let plasma := env.plasma s.plasma rho.1 s.rhoPrev
  let mv := moveBeamLayerG env s.toMove s.fellSize xiI (env.fields s.plasma) (env.fields plasma)
  { plasma := plasma
    rhoLayout := rho.2
    rhoPrev := rho.1
    toMove := src.1.append mv.2.2
    fellSize := mv.2.2.id.length
    source := src.2
    drain := drainPush s.drain mv.2.1
    lostLog := s.lostLog ++ mv.1.rows
    sourced := s.sourced ++ [src.1.rows] }

/-- step_dt, push_solver.py:236, on the GPU. -/
noncomputable def stepDtG (env : Env3 σ) (plasma : σ) (source : Beam ℝ) (xiSteps : ℕ) : SweepState σ :=
  (List.range (xiSteps + 1)).foldl (sweepStepG env) (sweepInit plasma source)

/-! ### Specification -/

/-- `k` completed substeps of the GPU kernel in one layer lead from `r` to `r'`. -/
inductive ChainG (c : BCfg) (idx : ℤ) (F0 F1 : Fields3) : ℕ → Row ℝ → Row ℝ → Prop
  | refl (r : Row ℝ) : ChainG c idx F0 F1 0 r r
  | step {k : ℕ} {r m r' : Row ℝ} : turnG c idx F0 F1 r = .next m → ChainG c idx F0 F1 k m r' → ChainG c idx F0 F1 (k + 1) r r'

/-- `j` completed substeps, in any layers and with any fields, lead from `r` to `r'`. -/
inductive HistG (c : BCfg) : ℕ → Row ℝ → Row ℝ → Prop
  | refl (r : Row ℝ) : HistG c 0 r r
  | chain {j k : ℕ} {r m r' : Row ℝ} (idx : ℤ) (F0 F1 : Fields3) : HistG c j r m → ChainG c idx F0 F1 k m r' → HistG c (j + k) r r'

/-- The particle `r` is `src` in the course of its time step: it was given `n` substeps whose lengths add up to the time step, and has done `j` of them. -/
def UnderwayG (env : Env3 σ) (src r : Row ℝ) (n j : ℕ) : Prop :=
  ∃ start : Row ℝ, start = { src with dt := start.dt, remaining := n } ∧ n * start.dt = env.timeStep ∧ (∃ k : ℕ, n = 2 ^ k) ∧ HistG env.cfg j start r ∧ j ≤ n ∧ r.remaining = (n : ℤ) - j

/-- The particle `r` is `src` after it hit the wall during its time step. -/
def WallHitG (env : Env3 σ) (src r : Row ℝ) : Prop :=
  ∃ n j m, UnderwayG env src m n j ∧ j < n ∧ r.remaining = 0 ∧ r.id = -src.id ∧ lostRadius env.cfg ^ 2 ≤ r.x ^ 2 + r.y ^ 2

/-! ### One particle in one layer -/

theorem turnG_fell (c : BCfg) (idx : ℤ) (F0 F1 : Fields3) (r : Row ℝ) : turnG c idx F0 F1 r = .fell ↔ RunsOut c idx r := by
  have hiff : (halfG r).z < ((idx : ℝ) + 1) * -c.dxi ↔ RunsOut c idx r := by
    have e : ((idx : ℝ) + 1) * -c.dxi = -(c.dxi * (idx + 1)) := by ring
    rw [e, halfG_eq]; exact Iff.rfl
  rw [← hiff]
  unfold turnG
  constructor
  · intro h
    simp only at h
    split_ifs at h with h1 h2 h3
    exact h1
  · intro h
    simp only
    rw [if_pos h]

theorem vel_bound (qm : ℝ) (p : Vec3) : p.z / gammaB qm p ≤ 1 := by
  rw [gammaB_eq]; exact vel_z_le qm p

theorem turnG_lost (c : BCfg) (idx : ℤ) (F0 F1 : Fields3) (r r' : Row ℝ) (h : turnG c idx F0 F1 r = .lost r') :
    r'.remaining = 0 ∧ r'.id = -r.id ∧ lostRadius c ^ 2 ≤ r'.x ^ 2 + r'.y ^ 2 ∧ ¬ RunsOut c idx r ∧ r'.qm = r.qm ∧ r'.qnorm = r.qnorm ∧ r'.dt = r.dt ∧
    (0 ≤ r.dt → r'.xi ≤ r.xi + r.dt / 2 * ((vel r.qm ⟨r.px, r.py, r.pz⟩).z - 1)) := by
  have hr : ¬ RunsOut c idx r := by rw [← turnG_fell c idx F0 F1 r, h]; simp
  have hz : (halfG r).z = r.xi + r.dt / 2 * ((vel r.qm ⟨r.px, r.py, r.pz⟩).z - 1) := by rw [halfG_eq]
  unfold turnG at h
  simp only at h
  split_ifs at h with h1 h2 h3
  · injection h with h
    subst h
    refine ⟨rfl, by simp, ?_, hr, rfl, rfl, rfl, fun _ => hz.le⟩
    simp only; nlinarith
  · injection h with h
    subst h
    refine ⟨rfl, by simp [substepG], ?_, hr, rfl, rfl, rfl, fun hdt => ?_⟩
    · simp only; nlinarith
    · rw [← hz]
      simp only [substepG]
      have := vel_bound r.qm (kickG r.qm r.dt (fieldEG c (idx * -c.dxi) F0 F1 (halfG r)) (fieldBG c (idx * -c.dxi) F0 F1 (halfG r)) ⟨r.px, r.py, r.pz⟩)
      nlinarith

theorem turnG_next (c : BCfg) (idx : ℤ) (F0 F1 : Fields3) (r r' : Row ℝ) (h : turnG c idx F0 F1 r = .next r') :
    r'.remaining = r.remaining - 1 ∧ r'.id = r.id ∧ r'.x ^ 2 + r'.y ^ 2 < lostRadius c ^ 2 ∧ ¬ RunsOut c idx r ∧ r'.qm = r.qm ∧ r'.qnorm = r.qnorm ∧ r'.dt = r.dt ∧
    (r.x + r.dt / 2 * (vel r.qm ⟨r.px, r.py, r.pz⟩).x) ^ 2 + (r.y + r.dt / 2 * (vel r.qm ⟨r.px, r.py, r.pz⟩).y) ^ 2 < lostRadius c ^ 2 ∧
    (0 ≤ r.dt → r'.xi ≤ r.xi + r.dt / 2 * ((vel r.qm ⟨r.px, r.py, r.pz⟩).z - 1)) := by
  have hr : ¬ RunsOut c idx r := by rw [← turnG_fell c idx F0 F1 r, h]; simp
  have hz : (halfG r).z = r.xi + r.dt / 2 * ((vel r.qm ⟨r.px, r.py, r.pz⟩).z - 1) := by rw [halfG_eq]
  have hxy : (halfG r).x ^ 2 + (halfG r).y ^ 2 = (r.x + r.dt / 2 * (vel r.qm ⟨r.px, r.py, r.pz⟩).x) ^ 2 + (r.y + r.dt / 2 * (vel r.qm ⟨r.px, r.py, r.pz⟩).y) ^ 2 := by rw [halfG_eq]
  unfold turnG at h
  simp only at h
  split_ifs at h with h1 h2 h3
  injection h with h
  subst h
  refine ⟨rfl, rfl, ?_, hr, rfl, rfl, rfl, ?_, fun hdt => ?_⟩
  · simp only; nlinarith
  · rw [← hxy]; nlinarith
  · rw [← hz]
    simp only [substepG]
    have := vel_bound r.qm (kickG r.qm r.dt (fieldEG c (idx * -c.dxi) F0 F1 (halfG r)) (fieldBG c (idx * -c.dxi) F0 F1 (halfG r)) ⟨r.px, r.py, r.pz⟩)
    nlinarith

theorem pushLoopG_cases (c : BCfg) (idx : ℤ) (F0 F1 : Fields3) (n : ℕ) (r : Row ℝ) (hn : r.remaining = n) :
    (∃ k m, k < n ∧ ChainG c idx F0 F1 k r m ∧ RunsOut c idx m ∧ m.remaining = n - k ∧ pushLoopG c idx F0 F1 n r = (m, false, true)) ∨
    (∃ k m r', k < n ∧ ChainG c idx F0 F1 k r m ∧ turnG c idx F0 F1 m = .lost r' ∧ r'.remaining = 0 ∧ pushLoopG c idx F0 F1 n r = (r', true, false)) ∨
    (∃ r', ChainG c idx F0 F1 n r r' ∧ r'.remaining = 0 ∧ pushLoopG c idx F0 F1 n r = (r', false, false)) := by
  induction n generalizing r with
  | zero => exact Or.inr (Or.inr ⟨r, .refl r, by simpa using hn, rfl⟩)
  | succ n ih =>
    unfold pushLoopG
    cases ht : turnG c idx F0 F1 r with
    | fell =>
      left
      exact ⟨0, r, by omega, .refl r, (turnG_fell c idx F0 F1 r).mp ht, by rw [hn]; push_cast; ring, rfl⟩
    | lost r' =>
      right; left
      exact ⟨0, r, r', by omega, .refl r, ht, (turnG_lost c idx F0 F1 r r' ht).1, rfl⟩
    | next m =>
      have hm : m.remaining = n := by rw [(turnG_next c idx F0 F1 r m ht).1, hn]; push_cast; ring
      rcases ih m hm with ⟨k, m', hk, hc, h1, h2, h3⟩ | ⟨k, m', r', hk, hc, h1, h2, h3⟩ | ⟨r', hc, h2, h3⟩
      · left
        exact ⟨k + 1, m', by omega, .step ht hc, h1, by rw [h2]; push_cast; ring, h3⟩
      · right; left
        exact ⟨k + 1, m', r', by omega, .step ht hc, h1, h2, h3⟩
      · right; right
        exact ⟨r', .step ht hc, h2, h3⟩

theorem ChainG.invariant {c : BCfg} {idx : ℤ} {F0 F1 : Fields3} {k : ℕ} {r r' : Row ℝ} (h : ChainG c idx F0 F1 k r r') :
    r'.id = r.id ∧ r'.qm = r.qm ∧ r'.qnorm = r.qnorm ∧ r'.dt = r.dt ∧ r'.remaining = r.remaining - k ∧ (0 < k → r'.x ^ 2 + r'.y ^ 2 < lostRadius c ^ 2) ∧
    (0 ≤ r.dt → r'.xi ≤ r.xi ∧ (0 < k → r'.xi ≤ r.xi + r.dt / 2 * ((vel r.qm ⟨r.px, r.py, r.pz⟩).z - 1))) := by
  induction h with
  | refl r => simp
  | @step k r m r' ht hc ih =>
    obtain ⟨h1, h2, h3, -, h4, h5, h6, -, h7⟩ := turnG_next c idx F0 F1 r m ht
    obtain ⟨i1, i2, i3, i4, i5, i6, i7⟩ := ih
    refine ⟨by rw [i1, h2], by rw [i2, h4], by rw [i3, h5], by rw [i4, h6], by rw [i5, h1]; push_cast; ring, fun _ => ?_, fun hdt => ?_⟩
    · by_cases hk : 0 < k
      · exact i6 hk
      · have : k = 0 := by omega
        subst this
        cases hc
        exact h3
    · have a := (i7 (by rw [h6]; exact hdt)).1
      have b := h7 hdt
      have := vel_z_le r.qm ⟨r.px, r.py, r.pz⟩
      refine ⟨?_, fun _ => a.trans b⟩
      nlinarith

/-- C48: what the GPU kernel reports for a particle with `n` substeps to do: it runs out of the layer after `k < n` substeps, hits the wall, or does all `n` substeps. The first is reported as `fell` only. The second is reported as `lost`, and also as `fell` when its xi is below the layer. The third is reported as finished (`moved`) if its xi is not below the layer, and as `fell` otherwise. -/
theorem gpu_push_outcomes (c : BCfg) (idx : ℤ) (F0 F1 : Fields3) (n : ℕ) (r : Row ℝ) (hn : r.remaining = n) :
    let o := pushRowG c idx F0 F1 r
    (∃ k, k < n ∧ ChainG c idx F0 F1 k r o.row ∧ RunsOut c idx o.row ∧ o.row.remaining = n - k ∧ o.lost = false ∧ o.fell = true ∧ o.moved = false) ∨
    (∃ k m, k < n ∧ ChainG c idx F0 F1 k r m ∧ turnG c idx F0 F1 m = .lost o.row ∧ o.row.remaining = 0 ∧ o.row.id = -r.id ∧ lostRadius c ^ 2 ≤ o.row.x ^ 2 + o.row.y ^ 2 ∧
      o.lost = true ∧ o.moved = false ∧ (o.fell = true ↔ o.row.xi < -(c.dxi * (idx + 1)))) ∨
    (ChainG c idx F0 F1 n r o.row ∧ o.row.remaining = 0 ∧ o.lost = false ∧ (o.fell = true ↔ o.row.xi < -(c.dxi * (idx + 1))) ∧ (o.moved = true ↔ -(c.dxi * (idx + 1)) ≤ o.row.xi)) := by
  intro o
  have e : ((idx : ℝ) + 1) * -c.dxi = -(c.dxi * (idx + 1)) := by ring
  have ho : o = pushRowG c idx F0 F1 r := rfl
  unfold pushRowG at ho
  rw [hn, Int.toNat_natCast] at ho
  rcases pushLoopG_cases c idx F0 F1 n r hn with ⟨k, m, hk, hc, h1, h2, h3⟩ | ⟨k, m, r', hk, hc, h1, h2, h3⟩ | ⟨r', hc, h2, h3⟩
  · left
    rw [h3] at ho
    have hm0 : ¬ (m.remaining = 0) := by rw [h2]; omega
    simp only [hm0, false_and, if_false] at ho
    rw [ho]
    exact ⟨k, hk, hc, h1, h2, rfl, rfl, by simp⟩
  · right; left
    rw [h3] at ho
    simp only [h2, true_and, e] at ho
    rw [ho]
    obtain ⟨-, hid, hl, -⟩ := turnG_lost c idx F0 F1 m r' h1
    refine ⟨k, m, hk, hc, h1, h2, by rw [hid, hc.invariant.1], hl, rfl, by simp, ?_⟩
    simp only
    split_ifs with hx
    · simpa using hx
    · simpa using hx
  · right; right
    rw [h3] at ho
    simp only [h2, true_and, e] at ho
    rw [ho]
    refine ⟨hc, h2, rfl, ?_, ?_⟩
    · simp only
      split_ifs with hx
      · simpa using hx
      · simpa using hx
    · simp only
      by_cases hx : r'.xi < -(c.dxi * (idx + 1))
      · simp [hx]
      · simp [hx]
        linarith [not_lt.mp hx]

/-- C48: a particle that did not hit the wall is reported in exactly one of the sets finished and fell; nobody is reported finished and lost, or finished and fell. -/
theorem gpu_push_at_least_one (c : BCfg) (idx : ℤ) (F0 F1 : Fields3) (r : Row ℝ) (hr : 0 ≤ r.remaining) :
    let o := pushRowG c idx F0 F1 r
    (o.lost = true ∨ o.moved = true ∨ o.fell = true) ∧ ¬ (o.lost = true ∧ o.moved = true) ∧ ¬ (o.fell = true ∧ o.moved = true) ∧
    ((o.lost = true ∧ o.fell = true) ↔ (o.lost = true ∧ o.row.xi < -(c.dxi * (idx + 1)))) := by
  intro o
  obtain ⟨n, hn⟩ := Int.eq_ofNat_of_zero_le hr
  have := gpu_push_outcomes c idx F0 F1 n r hn
  simp only at this
  have ho : pushRowG c idx F0 F1 r = o := rfl
  rw [ho] at this
  rcases this with ⟨k, -, -, -, -, h1, h2, h3⟩ | ⟨k, m, -, -, -, -, -, -, h1, h2, h3⟩ | ⟨-, -, h1, h2, h3⟩
  · simp [h1, h2, h3]
  · simp [h1, h2, h3]
  · simp only [h1, h2, h3]
    refine ⟨?_, by simp, ?_, by simp⟩
    · rcases lt_or_ge o.row.xi (-(c.dxi * (idx + 1))) with h | h
      · exact Or.inr (Or.inr h)
      · exact Or.inr (Or.inl h)
    · rintro ⟨a, b⟩; linarith

/-- What brings a particle into layer `idx`: its xi is below the head of the layer, or it would run out of the layer before. -/
def Entered (c : BCfg) (idx : ℤ) (r : Row ℝ) : Prop := r.xi < -(c.dxi * idx) ∨ (0 < r.remaining ∧ RunsOut c (idx - 1) r)

/-- C48: a particle that entered layer `idx` and is reported finished there lies in that layer, and one that is handed on enters the next layer. -/
theorem gpu_push_layer (c : BCfg) (idx : ℤ) (F0 F1 : Fields3) (r : Row ℝ) (hr : 0 ≤ r.remaining) (hdt : 0 ≤ r.dt) (he : Entered c idx r) :
    ((pushRowG c idx F0 F1 r).moved = true → -(c.dxi * (idx + 1)) ≤ (pushRowG c idx F0 F1 r).row.xi ∧ (pushRowG c idx F0 F1 r).row.xi < -(c.dxi * idx)) ∧
    ((pushRowG c idx F0 F1 r).fell = true → Entered c (idx + 1) (pushRowG c idx F0 F1 r).row) := by
  obtain ⟨n, hn⟩ := Int.eq_ofNat_of_zero_le hr
  have e1 : ((idx + 1 : ℤ) : ℝ) = (idx : ℝ) + 1 := by push_cast; ring
  have e2 : ((idx - 1 : ℤ) : ℝ) + 1 = (idx : ℝ) := by push_cast; ring
  rcases gpu_push_outcomes c idx F0 F1 n r hn with ⟨k, hk, hc, hR, h0, a1, a2, a3⟩ | ⟨k, m, hk, hc, ht, h0, -, -, a1, a2, a3⟩ | ⟨hc, h0, a1, a2, a3⟩
  · refine ⟨by rw [a3]; simp, fun _ => Or.inr ⟨by rw [h0]; omega, ?_⟩⟩
    rw [show idx + 1 - 1 = idx by ring]; exact hR
  · refine ⟨by rw [a2]; simp, fun hf => Or.inl ?_⟩
    rw [e1]; exact a3.mp hf
  · refine ⟨fun hm => ⟨a3.mp hm, ?_⟩, fun hf => Or.inl ?_⟩
    · obtain ⟨-, -, -, -, -, -, i7⟩ := hc.invariant
      obtain ⟨j1, j2⟩ := i7 hdt
      rcases he with h | ⟨h, hR⟩
      · linarith
      · have := j2 (by omega)
        unfold RunsOut at hR
        rw [e2] at hR
        linarith
    · rw [e1]; exact a2.mp hf

/-- C48: no particle moves towards the head; charge, charge-to-mass ratio and substep are never changed and the identifier only by its sign. -/
theorem gpu_push_causal (c : BCfg) (idx : ℤ) (F0 F1 : Fields3) (r : Row ℝ) (hr : 0 ≤ r.remaining) :
    let o := (pushRowG c idx F0 F1 r).row
    (0 ≤ r.dt → o.xi ≤ r.xi) ∧ o.qm = r.qm ∧ o.qnorm = r.qnorm ∧ o.dt = r.dt ∧ |o.id| = |r.id| ∧ 0 ≤ o.remaining ∧ o.remaining ≤ r.remaining := by
  intro o
  obtain ⟨n, hn⟩ := Int.eq_ofNat_of_zero_le hr
  have ho : (pushRowG c idx F0 F1 r).row = o := rfl
  rcases gpu_push_outcomes c idx F0 F1 n r hn with ⟨k, hk, hc, -, h0, -⟩ | ⟨k, m, -, hc, ht, h0, -⟩ | ⟨hc, h0, -⟩
  · rw [ho] at hc h0
    obtain ⟨h1, h2, h3, h4, -, -, h5⟩ := hc.invariant
    exact ⟨fun hdt => (h5 hdt).1, h2, h3, h4, by rw [h1], by rw [h0]; omega, by rw [h0, hn]; omega⟩
  · rw [ho] at ht h0
    obtain ⟨h1, h2, h3, h4, -, -, h5⟩ := hc.invariant
    obtain ⟨-, t2, -, -, t3, t4, t5, t6⟩ := turnG_lost c idx F0 F1 m o ht
    refine ⟨fun hdt => ?_, by rw [t3, h2], by rw [t4, h3], by rw [t5, h4], by rw [t2, h1, abs_neg], by rw [h0], by rw [h0]; exact hr⟩
    have a := t6 (by rw [h4]; exact hdt)
    have b := (h5 hdt).1
    have := vel_z_le m.qm ⟨m.px, m.py, m.pz⟩
    have h4' : 0 ≤ m.dt := by rw [h4]; exact hdt
    nlinarith
  · rw [ho] at hc h0
    obtain ⟨h1, h2, h3, h4, -, -, h5⟩ := hc.invariant
    exact ⟨fun hdt => (h5 hdt).1, h2, h3, h4, by rw [h1], by rw [h0], by rw [h0]; exact hr⟩

/-! ### The sweep, row by row -/

theorem moveBeamLayerG_rows (env : Env3 σ) (fresh fell : List (Row ℝ)) (xiI : ℕ) (F0 F1 : Fields3) :
    let res := (fresh.map (initRow env.timeStep env.energy) ++ fell).map (pushRowG env.cfg ((xiI : ℤ) - 1) F0 F1)
    moveBeamLayerG env (Beam.ofRows (fresh ++ fell)) fell.length xiI F0 F1 =
      (Beam.ofRows ((res.filter Moved.lost).map Moved.row), Beam.ofRows ((res.filter Moved.moved).map Moved.row), Beam.ofRows ((res.filter Moved.fell).map Moved.row)) := by
  intro res
  unfold moveBeamLayerG
  by_cases h0 : (Beam.ofRows (fresh ++ fell)).id.length ≠ 0
  · rw [if_pos h0, startMoving_ofRows]
    simp only [rows_ofRows, getLayer_ofRows, mask_map, mask_eq_filter]
    rfl
  · rw [if_neg h0]
    have : fresh ++ fell = [] := by simpa [Beam.ofRows] using h0
    obtain ⟨rfl, rfl⟩ := List.append_eq_nil_iff.mp this
    simp [res, Beam.ofRows, Beam.getLayer, mask]

/-- What the kernel says about the particles of the layer that is moved in iteration `xiI`. -/
noncomputable def resultsG (env : Env3 σ) (s : SweepState σ) (xiI : ℕ) (fresh fell : List (Row ℝ)) : List Moved :=
  (fresh.map (initRow env.timeStep env.energy) ++ fell).map (pushRowG env.cfg ((xiI : ℤ) - 1) (env.fields s.plasma) (env.fields (sweepStepG env s xiI).plasma))

theorem sweepStepG_rows (env : Env3 σ) (s : SweepState σ) (xiI : ℕ) (fresh fell src drain : List (Row ℝ)) (h : RowsOf s fresh fell src drain) :
    RowsOf (sweepStepG env s xiI) (src.take (inLayer env.cfg.dxi xiI src)) (((resultsG env s xiI fresh fell).filter Moved.fell).map Moved.row)
      (src.drop (inLayer env.cfg.dxi xiI src)) (drain ++ ((resultsG env s xiI fresh fell).filter Moved.moved).map Moved.row) ∧
    (sweepStepG env s xiI).lostLog = s.lostLog ++ ((resultsG env s xiI fresh fell).filter Moved.lost).map Moved.row ∧
    (sweepStepG env s xiI).sourced = s.sourced ++ [src.take (inLayer env.cfg.dxi xiI src)] := by
  obtain ⟨h1, h2, h3, h4⟩ := h
  have hsrc : getBeamLayerToLayout env.cfg.dxi s.source xiI = (Beam.ofRows (src.take (inLayer env.cfg.dxi xiI src)), Beam.ofRows (src.drop (inLayer env.cfg.dxi xiI src))) := by
    rw [h3, getBeamLayer_ofRows]
  have hmv : moveBeamLayerG env s.toMove s.fellSize xiI (env.fields s.plasma) (env.fields (sweepStepG env s xiI).plasma) =
      (Beam.ofRows (((resultsG env s xiI fresh fell).filter Moved.lost).map Moved.row), Beam.ofRows (((resultsG env s xiI fresh fell).filter Moved.moved).map Moved.row),
        Beam.ofRows (((resultsG env s xiI fresh fell).filter Moved.fell).map Moved.row)) := by
    rw [h1, h2]; exact moveBeamLayerG_rows env fresh fell xiI _ _
  have hl : ∀ t : List (Row ℝ), (Beam.ofRows t).id.length = t.length := fun t => by simp [Beam.ofRows]
  refine ⟨⟨?_, ?_, ?_, ?_⟩, ?_, ?_⟩
  · show (getBeamLayerToLayout env.cfg.dxi s.source xiI).1.append (moveBeamLayerG env s.toMove s.fellSize xiI (env.fields s.plasma) (env.fields (sweepStepG env s xiI).plasma)).2.2 = _
    rw [hsrc, hmv, append_ofRows]
  · show (moveBeamLayerG env s.toMove s.fellSize xiI (env.fields s.plasma) (env.fields (sweepStepG env s xiI).plasma)).2.2.id.length = _
    rw [hmv, hl]
  · show (getBeamLayerToLayout env.cfg.dxi s.source xiI).2 = _
    rw [hsrc]
  · show drainPush s.drain (moveBeamLayerG env s.toMove s.fellSize xiI (env.fields s.plasma) (env.fields (sweepStepG env s xiI).plasma)).2.1 = _
    rw [hmv, h4]
    unfold drainPush
    rw [hl, append_ofRows]
    by_cases h0 : (((resultsG env s xiI fresh fell).filter Moved.moved).map Moved.row).length > 0
    · exact if_pos h0
    · have : ((resultsG env s xiI fresh fell).filter Moved.moved).map Moved.row = [] := List.length_eq_zero_iff.mp (by omega)
      rw [this, List.append_nil]
      simp
  · show s.lostLog ++ (moveBeamLayerG env s.toMove s.fellSize xiI (env.fields s.plasma) (env.fields (sweepStepG env s xiI).plasma)).1.rows = _
    rw [hmv, rows_ofRows]
  · show s.sourced ++ [(getBeamLayerToLayout env.cfg.dxi s.source xiI).1.rows] = _
    rw [hsrc, rows_ofRows]

/-! ### The course of a particle -/

theorem HistG.invariant {c : BCfg} {j : ℕ} {r r' : Row ℝ} (h : HistG c j r r') : r'.id = r.id ∧ r'.qm = r.qm ∧ r'.qnorm = r.qnorm ∧ r'.dt = r.dt ∧ r'.remaining = r.remaining - j := by
  induction h with
  | refl r => simp
  | chain idx F0 F1 h hc ih =>
    obtain ⟨h1, h2, h3, h4, h5⟩ := ih
    obtain ⟨i1, i2, i3, i4, i5, -⟩ := hc.invariant
    exact ⟨by rw [i1, h1], by rw [i2, h2], by rw [i3, h3], by rw [i4, h4], by rw [i5, h5]; push_cast; ring⟩

theorem underwayG_init (env : Env3 σ) (he : 0 < env.energy) (src : Row ℝ) (hq : src.qm ≠ 0) :
    ∃ n, UnderwayG env src (initRow env.timeStep env.energy src) n 0 := by
  obtain ⟨n, start, h1, h2, h3, h4, h5, h6⟩ := underway_init env he src hq
  refine ⟨n, initRow env.timeStep env.energy src, ?_, ?_, h3, .refl _, h5, h6⟩
  · obtain ⟨-, -, -, a4, a5⟩ := h4.invariant
    have hs : start.remaining = n := by rw [h1]
    have : (initRow env.timeStep env.energy src).remaining = n := by rw [a5, hs]; simp
    rw [← this]; rfl
  · obtain ⟨-, -, -, a4, -⟩ := h4.invariant
    rw [a4]; exact h2

theorem UnderwayG.dt_nonneg {env : Env3 σ} (hts : 0 ≤ env.timeStep) {src r : Row ℝ} {n j : ℕ} (h : UnderwayG env src r n j) : 0 ≤ r.dt ∧ 0 ≤ r.remaining := by
  obtain ⟨start, h1, h2, ⟨k, hk⟩, h4, h5, h6⟩ := h
  have hn : (0 : ℝ) < n := by rw [hk]; positivity
  have : start.dt = env.timeStep / n := by field_simp; linarith
  refine ⟨?_, by rw [h6]; omega⟩
  rw [h4.invariant.2.2.2.1, this]
  exact div_nonneg hts hn.le

theorem gpu_push_underway (env : Env3 σ) (idx : ℤ) (F0 F1 : Fields3) (src r : Row ℝ) (n j : ℕ) (h : UnderwayG env src r n j) :
    let o := pushRowG env.cfg idx F0 F1 r
    ((∃ j', UnderwayG env src o.row n j' ∧ o.lost = false) ∨ (WallHitG env src o.row ∧ o.lost = true)) ∧ (o.moved = true → UnderwayG env src o.row n n) := by
  intro o
  obtain ⟨start, h1, h2, h3, h4, h5, h6⟩ := h
  have hr : r.remaining = ((n - j : ℕ) : ℤ) := by rw [h6]; omega
  have ho : pushRowG env.cfg idx F0 F1 r = o := rfl
  have := gpu_push_outcomes env.cfg idx F0 F1 (n - j) r hr
  simp only [ho] at this
  have hU : ∀ k, k ≤ n - j → ChainG env.cfg idx F0 F1 k r o.row → UnderwayG env src o.row n (j + k) := by
    intro k hk hc
    refine ⟨start, h1, h2, h3, .chain idx F0 F1 h4 hc, by omega, ?_⟩
    rw [hc.invariant.2.2.2.2.1, h6]; push_cast; ring
  rcases this with ⟨k, hk, hc, -, -, a1, a2, a3⟩ | ⟨k, m, hk, hc, ht, a0, a1, a2, a3, a4, a5⟩ | ⟨hc, a0, a1, a2, a3⟩
  · refine ⟨Or.inl ⟨j + k, hU k (by omega) hc, a1⟩, ?_⟩
    rw [a3]; simp
  · refine ⟨Or.inr ⟨⟨n, j + k, m, ⟨start, h1, h2, h3, .chain idx F0 F1 h4 hc, by omega, ?_⟩, by omega, a0, ?_, a2⟩, a3⟩, ?_⟩
    · rw [hc.invariant.2.2.2.2.1, h6]; push_cast; ring
    · have hsrc : start.id = src.id := by rw [h1]
      rw [a1, h4.invariant.1, hsrc]
    · rw [a4]; simp
  · have hn := hU (n - j) le_rfl hc
    rw [show j + (n - j) = n by omega] at hn
    exact ⟨Or.inl ⟨n, hn, a1⟩, fun _ => hn⟩

/-- A particle that has no substeps left stays as it is; it is reported as finished when its xi is not below the layer. -/
theorem gpu_push_waiting (c : BCfg) (idx : ℤ) (F0 F1 : Fields3) (r : Row ℝ) (h0 : r.remaining = 0) :
    (pushRowG c idx F0 F1 r).row = r ∧ (pushRowG c idx F0 F1 r).lost = false ∧
    ((pushRowG c idx F0 F1 r).moved = true ↔ -(c.dxi * (idx + 1)) ≤ r.xi) ∧ ((pushRowG c idx F0 F1 r).fell = true ↔ r.xi < -(c.dxi * (idx + 1))) := by
  rcases gpu_push_outcomes c idx F0 F1 0 r (by simpa using h0) with ⟨k, hk, -⟩ | ⟨k, m, hk, -⟩ | ⟨hc, -, h1, h2, h3⟩
  · omega
  · omega
  · have hrow : (pushRowG c idx F0 F1 r).row = r := by
      generalize (pushRowG c idx F0 F1 r).row = r' at hc
      cases hc; rfl
    rw [hrow] at h2 h3
    exact ⟨hrow, h1, h3, h2⟩

/-! ### Invariant -/

/-- A particle of the moving layer: some sourced particle on its way, or one that hit the wall. -/
def TracesG (env : Env3 σ) (all : List (Row ℝ)) (r : Row ℝ) : Prop := ∃ src ∈ all, (∃ n j, UnderwayG env src r n j) ∨ WallHitG env src r

structure InvG (env : Env3 σ) (m : ℕ) (s : SweepState σ) (fresh fell src : List (Row ℝ)) (chunks : List (List (Row ℝ))) (gone back : List (Row ℝ)) : Prop where
  rows : RowsOf s fresh fell src chunks.flatten
  freshSourced : ∀ r ∈ fresh, r ∈ s.sourced.flatten
  freshLayer : ∀ r ∈ fresh, r.xi < -(env.cfg.dxi * ((m : ℤ) - 1 : ℤ))
  fellTraces : ∀ r ∈ fell, TracesG env s.sourced.flatten r
  fellEntered : ∀ r ∈ fell, Entered env.cfg ((m : ℤ) - 1) r
  fellDt : ∀ r ∈ fell, 0 ≤ r.dt ∧ 0 ≤ r.remaining
  drainFinished : ∀ r ∈ chunks.flatten, ∃ src ∈ s.sourced.flatten, (∃ n, UnderwayG env src r n n) ∨ WallHitG env src r
  drainLayer : chunks.length = m - 1 ∧ ∀ i, ∀ r ∈ chunks.getD i [], InLayer env.cfg.dxi i r.xi
  log : s.lostLog.Perm (gone ++ back)
  goneHit : ∀ r ∈ gone ++ back, ∃ src ∈ s.sourced.flatten, WallHitG env src r
  count : (s.sourced.flatten.map tag).Perm ((chunks.flatten ++ (fresh ++ fell) ++ gone).map tag)
  start : m ≤ 1 → fell = [] ∧ (m = 0 → fresh = [])

theorem pushRowG_tag (c : BCfg) (idx : ℤ) (F0 F1 : Fields3) (r : Row ℝ) (hr : 0 ≤ r.remaining) : tag (pushRowG c idx F0 F1 r).row = tag r := by
  obtain ⟨-, h2, h3, -, h5, -⟩ := gpu_push_causal c idx F0 F1 r hr
  simp only [tag, h2, h3, h5]

theorem invG_step (env : Env3 σ) (he : 0 < env.energy) (hts : 0 ≤ env.timeStep) (m : ℕ) (s : SweepState σ) (fresh fell src : List (Row ℝ)) (chunks : List (List (Row ℝ))) (gone back : List (Row ℝ))
    (hqf : ∀ r ∈ fresh, r.qm ≠ 0) (hsort : ∀ r ∈ src.take (inLayer env.cfg.dxi m src), r.xi < -(env.cfg.dxi * m)) (h : InvG env m s fresh fell src chunks gone back) :
    ∃ chunks' gone' back', InvG env (m + 1) (sweepStepG env s m) (src.take (inLayer env.cfg.dxi m src)) (((resultsG env s m fresh fell).filter Moved.fell).map Moved.row)
      (src.drop (inLayer env.cfg.dxi m src)) chunks' gone' back' := by
  obtain ⟨hr, hlog, hsourced⟩ := sweepStepG_rows env s m fresh fell src chunks.flatten h.rows
  set res := resultsG env s m fresh fell with hres
  have hsub : ∀ r, r ∈ s.sourced.flatten → r ∈ (sweepStepG env s m).sourced.flatten := by
    intro r hr'
    rw [hsourced]; simp only [List.flatten_append, List.mem_append]; exact Or.inl hr'
  have hmoving : ∀ r ∈ fresh.map (initRow env.timeStep env.energy) ++ fell, TracesG env s.sourced.flatten r ∧ Entered env.cfg ((m : ℤ) - 1) r ∧ 0 ≤ r.dt ∧ 0 ≤ r.remaining := by
    intro r hr'
    rcases List.mem_append.mp hr' with h1 | h1
    · obtain ⟨r0, hr0, rfl⟩ := List.mem_map.mp h1
      obtain ⟨n, hn⟩ := underwayG_init env he r0 (hqf r0 hr0)
      exact ⟨⟨r0, h.freshSourced r0 hr0, Or.inl ⟨n, 0, hn⟩⟩, Or.inl (h.freshLayer r0 hr0), hn.dt_nonneg hts⟩
    · exact ⟨h.fellTraces r h1, h.fellEntered r h1, h.fellDt r h1⟩
  have hout : ∀ o ∈ res, ∃ r ∈ fresh.map (initRow env.timeStep env.energy) ++ fell, o = pushRowG env.cfg ((m : ℤ) - 1) (env.fields s.plasma) (env.fields (sweepStepG env s m).plasma) r := by
    intro o ho
    obtain ⟨r, hr', rfl⟩ := List.mem_map.mp ho
    exact ⟨r, hr', rfl⟩
  have htr : ∀ o ∈ res, TracesG env s.sourced.flatten o.row ∧ 0 ≤ o.row.dt ∧ 0 ≤ o.row.remaining := by
    intro o ho
    obtain ⟨r, hr', rfl⟩ := hout o ho
    obtain ⟨⟨sr, hsr, hh⟩, -, hdt, hrem⟩ := hmoving r hr'
    obtain ⟨-, -, -, c4, -, c6, -⟩ := gpu_push_causal env.cfg ((m : ℤ) - 1) (env.fields s.plasma) (env.fields (sweepStepG env s m).plasma) r hrem
    refine ⟨?_, by rw [c4]; exact hdt, c6⟩
    rcases hh with ⟨n, j, hU⟩ | hW
    · rcases (gpu_push_underway env ((m : ℤ) - 1) _ _ sr r n j hU).1 with ⟨j', hj, -⟩ | ⟨hW, -⟩
      · exact ⟨sr, hsr, Or.inl ⟨n, j', hj⟩⟩
      · exact ⟨sr, hsr, Or.inr hW⟩
    · have h0 : r.remaining = 0 := by obtain ⟨n, j, m', -, -, h0, -⟩ := hW; exact h0
      rw [(gpu_push_waiting env.cfg ((m : ℤ) - 1) _ _ r h0).1]
      exact ⟨sr, hsr, Or.inr hW⟩
  have hfin : ∀ o ∈ res, o.moved = true → (∃ src ∈ s.sourced.flatten, (∃ n, UnderwayG env src o.row n n) ∨ WallHitG env src o.row) ∧
      -(env.cfg.dxi * m) ≤ o.row.xi ∧ o.row.xi < -(env.cfg.dxi * ((m : ℤ) - 1 : ℤ)) := by
    intro o ho hm
    obtain ⟨r, hr', rfl⟩ := hout o ho
    obtain ⟨⟨sr, hsr, hh⟩, hent, hdt, hrem⟩ := hmoving r hr'
    have hlay := (gpu_push_layer env.cfg ((m : ℤ) - 1) (env.fields s.plasma) (env.fields (sweepStepG env s m).plasma) r hrem hdt hent).1 hm
    have e : (((m : ℤ) - 1 : ℤ) : ℝ) + 1 = m := by push_cast; ring
    rw [e] at hlay
    refine ⟨?_, hlay⟩
    rcases hh with ⟨n, j, hU⟩ | hW
    · exact ⟨sr, hsr, Or.inl ⟨n, (gpu_push_underway env ((m : ℤ) - 1) _ _ sr r n j hU).2 hm⟩⟩
    · have h0 : r.remaining = 0 := by obtain ⟨n, j, m', -, -, h0, -⟩ := hW; exact h0
      rw [(gpu_push_waiting env.cfg ((m : ℤ) - 1) _ _ r h0).1]
      exact ⟨sr, hsr, Or.inr hW⟩
  have hlost : ∀ o ∈ res, o.lost = true → ∃ sr ∈ s.sourced.flatten, WallHitG env sr o.row := by
    intro o ho hl
    obtain ⟨r, hr', rfl⟩ := hout o ho
    obtain ⟨⟨sr, hsr, hh⟩, -⟩ := hmoving r hr'
    rcases hh with ⟨n, j, hU⟩ | hW
    · rcases (gpu_push_underway env ((m : ℤ) - 1) _ _ sr r n j hU).1 with ⟨j', -, hf⟩ | ⟨hW, -⟩
      · rw [hl] at hf; exact absurd hf (by simp)
      · exact ⟨sr, hsr, hW⟩
    · have h0 : r.remaining = 0 := by obtain ⟨n, j, m', -, -, h0, -⟩ := hW; exact h0
      have := (gpu_push_waiting env.cfg ((m : ℤ) - 1) (env.fields s.plasma) (env.fields (sweepStepG env s m).plasma) r h0).2.1
      rw [hl] at this; exact absurd this (by simp)
  have h3 : ∀ o ∈ res, (o.lost = true ∨ o.moved = true ∨ o.fell = true) ∧ ¬ (o.lost = true ∧ o.moved = true) ∧ ¬ (o.fell = true ∧ o.moved = true) := by
    intro o ho
    obtain ⟨r, hr', rfl⟩ := hout o ho
    obtain ⟨a, b, d, -⟩ := gpu_push_at_least_one env.cfg ((m : ℤ) - 1) (env.fields s.plasma) (env.fields (sweepStepG env s m).plasma) r (hmoving r hr').2.2.2
    exact ⟨a, b, d⟩
  have hperm := split_results res (fun o ho => (h3 o ho).1) (fun o ho => (h3 o ho).2.1) (fun o ho => (h3 o ho).2.2)
  set g := (res.filter fun o => o.lost && !o.fell).map Moved.row with hg
  set k := (res.filter fun o => o.lost && o.fell).map Moved.row with hk
  set mv := (res.filter Moved.moved).map Moved.row with hmv
  have hlk : ((res.filter Moved.lost).map Moved.row).Perm (g ++ k) := by
    rw [hg, hk, ← List.map_append]
    apply List.Perm.map
    have e1 : (res.filter fun o => o.lost && !o.fell) = (res.filter Moved.lost).filter (fun o => !o.fell) := by
      rw [List.filter_filter]; congr 1; funext o; rw [Bool.and_comm]
    have e2 : (res.filter fun o => o.lost && o.fell) = (res.filter Moved.lost).filter (fun o => !(!o.fell)) := by
      rw [List.filter_filter]; congr 1; funext o; simp [Bool.and_comm]
    rw [e1, e2]
    exact (List.filter_append_perm _ _).symm
  have htag : (res.map Moved.row).map tag = (fresh ++ fell).map tag := by
    rw [hres, resultsG, List.map_map, List.map_map]
    have : ∀ l : List (Row ℝ), (∀ r ∈ l, 0 ≤ r.remaining) →
        l.map ((tag ∘ Moved.row) ∘ pushRowG env.cfg ((m : ℤ) - 1) (env.fields s.plasma) (env.fields (sweepStepG env s m).plasma)) = l.map tag := by
      intro l hl
      apply List.map_congr_left
      intro r hr'
      exact pushRowG_tag _ _ _ _ r (hl r hr')
    rw [this _ (fun r hr' => (hmoving r hr').2.2.2), List.map_append, List.map_append, List.map_map]
    rfl
  -- in the first iteration nothing is moved
  have hfirst : m = 0 → res = [] := by
    intro h0
    obtain ⟨h1, h2⟩ := h.start (by omega)
    rw [hres, resultsG, h1, h2 h0]; rfl
  obtain ⟨chunks', hch, hlen, hlay⟩ : ∃ chunks' : List (List (Row ℝ)), chunks'.flatten = chunks.flatten ++ mv ∧ chunks'.length = m ∧ ∀ i, ∀ r ∈ chunks'.getD i [], InLayer env.cfg.dxi i r.xi := by
    by_cases h0 : m = 0
    · refine ⟨chunks, ?_, by rw [h.drainLayer.1, h0], h.drainLayer.2⟩
      rw [hmv, hfirst h0]; simp
    · refine ⟨chunks ++ [mv], by simp, by rw [List.length_append, h.drainLayer.1]; simp; omega, ?_⟩
      intro i r hr'
      rcases lt_trichotomy i chunks.length with hi | hi | hi
      · rw [List.getD_append _ _ _ _ hi] at hr'
        exact h.drainLayer.2 i r hr'
      · rw [List.getD_append_right _ _ _ _ hi.ge, hi] at hr'
        simp only [Nat.sub_self, List.getD_cons_zero] at hr'
        obtain ⟨o, ho, rfl⟩ := List.mem_map.mp hr'
        obtain ⟨-, h5, h6⟩ := hfin o (List.mem_filter.mp ho).1 (List.mem_filter.mp ho).2
        have hi' : (i : ℝ) = m - 1 := by
          have hi2 : i + 1 = m := by rw [hi, h.drainLayer.1]; omega
          have hi3 : (i : ℝ) + 1 = m := by exact_mod_cast hi2
          linarith
        push_cast at h6
        unfold InLayer
        rw [hi']
        refine ⟨?_, h6⟩
        simpa using h5
      · rw [List.getD_eq_default _ _ (by simp; omega)] at hr'
        simp at hr'
  refine ⟨chunks', gone ++ g, back ++ k, by rw [hch]; exact hr, ?_, ?_, ?_, ?_, ?_, ?_, ⟨by rw [hlen]; omega, hlay⟩, ?_, ?_, ?_, ?_⟩
  · intro r hr'
    rw [hsourced]; simp [hr']
  · intro r hr'
    have := hsort r hr'
    push_cast
    simpa using this
  · intro r hr'
    obtain ⟨o, ho, rfl⟩ := List.mem_map.mp hr'
    obtain ⟨sr, hsr, hh⟩ := (htr o (List.mem_filter.mp ho).1).1
    exact ⟨sr, hsub sr hsr, hh⟩
  · intro r hr'
    obtain ⟨o, ho, rfl⟩ := List.mem_map.mp hr'
    obtain ⟨ho1, ho2⟩ := List.mem_filter.mp ho
    obtain ⟨r0, hr0, rfl⟩ := hout o ho1
    obtain ⟨-, hent, hdt, hrem⟩ := hmoving r0 hr0
    have := (gpu_push_layer env.cfg ((m : ℤ) - 1) (env.fields s.plasma) (env.fields (sweepStepG env s m).plasma) r0 hrem hdt hent).2 ho2
    have e : (m : ℤ) - 1 + 1 = ((m + 1 : ℕ) : ℤ) - 1 := by push_cast; ring
    rw [e] at this
    exact this
  · intro r hr'
    obtain ⟨o, ho, rfl⟩ := List.mem_map.mp hr'
    exact (htr o (List.mem_filter.mp ho).1).2
  · intro r hr'
    rw [hch] at hr'
    rcases List.mem_append.mp hr' with h1 | h1
    · obtain ⟨sr, hsr, hh⟩ := h.drainFinished r h1
      exact ⟨sr, hsub sr hsr, hh⟩
    · obtain ⟨o, ho, rfl⟩ := List.mem_map.mp h1
      obtain ⟨sr, hsr, hh⟩ := (hfin o (List.mem_filter.mp ho).1 (List.mem_filter.mp ho).2).1
      exact ⟨sr, hsub sr hsr, hh⟩
  · rw [hlog]
    refine (List.Perm.append h.log hlk).trans ?_
    rw [← Multiset.coe_eq_coe]; simp only [← Multiset.coe_add]; abel
  · intro r hr'
    have : r ∈ gone ++ back ∨ r ∈ g ++ k := by
      simp only [List.mem_append] at hr' ⊢; tauto
    rcases this with h1 | h1
    · obtain ⟨sr, hsr, hh⟩ := h.goneHit r h1
      exact ⟨sr, hsub sr hsr, hh⟩
    · have h2 := hlk.mem_iff.mpr h1
      obtain ⟨o, ho, rfl⟩ := List.mem_map.mp h2
      obtain ⟨sr, hsr, hh⟩ := hlost o (List.mem_filter.mp ho).1 (List.mem_filter.mp ho).2
      exact ⟨sr, hsub sr hsr, hh⟩
  · rw [hsourced, hch]
    have hp2 := ((hperm.map Moved.row).map tag)
    rw [htag] at hp2
    have hc := h.count
    simp only [List.map_append, List.flatten_append, List.flatten_cons, List.flatten_nil, List.append_nil] at hp2 hc ⊢
    rw [hg, hmv]
    generalize List.map tag (List.map Moved.row (res.filter Moved.moved)) = A at hp2 ⊢
    generalize List.map tag (List.map Moved.row (res.filter Moved.fell)) = B at hp2 ⊢
    generalize List.map tag (List.map Moved.row (res.filter fun o => o.lost && !o.fell)) = C at hp2 ⊢
    rw [← Multiset.coe_eq_coe] at hp2 hc ⊢
    simp only [← Multiset.coe_add] at hp2 hc ⊢
    rw [hc]
    have : ∀ D E F G T : Multiset (ℤ × ℝ × ℝ), E + F = A + B + C → D + (E + F) + G + T = D + A + (T + B) + (G + C) := by
      intro D E F G T hh
      rw [hh]; abel
    exact this _ _ _ _ _ hp2
  · intro hm
    have h0 : m = 0 := by omega
    refine ⟨by rw [hfirst h0]; simp, by omega⟩

/-! ### A time step -/

theorem source_cut (h : ℝ) (m : ℕ) (S : List (Row ℝ)) (hS : S.Pairwise fun p q => q.xi ≤ p.xi) (hlt : ∀ r ∈ S, r.xi < -(h * m)) :
    (∀ r ∈ S.take (inLayer h m S), InLayer h m r.xi) ∧ (∀ r ∈ S.drop (inLayer h m S), r.xi < -(h * (m + 1 : ℕ))) := by
  have hc : inLayer h m S = S.countP fun r => decide (-(h * (m + 1)) ≤ r.xi) := by
    unfold inLayer
    apply List.countP_congr
    intro r hr
    simp [decide_inLayer, hlt r hr]
  obtain ⟨h1, h2⟩ := Lcode.Beam2D.take_countP_of_first (fun r : Row ℝ => decide (-(h * (m + 1)) ≤ r.xi)) S
    (hS.imp (by intro a b hab hb; simp only [decide_eq_true_eq] at hb ⊢; linarith))
  rw [hc]
  constructor
  · intro r hr
    have hr2 := hr
    rw [h1] at hr
    have := (List.mem_filter.mp hr).2
    simp only [decide_eq_true_eq] at this
    exact ⟨this, hlt r (List.mem_of_mem_take hr2)⟩
  · intro r hr
    rw [h2] at hr
    have := (List.mem_filter.mp hr).2
    simp only [Bool.not_eq_true', decide_eq_false_iff_not, not_le] at this
    push_cast; exact this

theorem invG_run (env : Env3 σ) (he : 0 < env.energy) (hts : 0 ≤ env.timeStep) (plasma : σ) (b : List (Row ℝ)) (hq : ∀ r ∈ b, r.qm ≠ 0)
    (hS : b.Pairwise fun p q => q.xi ≤ p.xi) (hneg : ∀ r ∈ b, r.xi < 0) (m : ℕ) :
    ∃ fresh fell src chunks gone back, InvG env m ((List.range m).foldl (sweepStepG env) (sweepInit plasma (Beam.ofRows b))) fresh fell src chunks gone back ∧
      (∀ r ∈ fresh, r ∈ b) ∧ (∀ r ∈ src, r ∈ b) ∧ src.Pairwise (fun p q => q.xi ≤ p.xi) ∧ (∀ r ∈ src, r.xi < -(env.cfg.dxi * m)) ∧ (∀ r ∈ fresh, InLayer env.cfg.dxi (m - 1) r.xi) ∧
      ((List.range m).foldl (sweepStepG env) (sweepInit plasma (Beam.ofRows b))).sourced.flatten ++ src = b := by
  induction m with
  | zero =>
    refine ⟨[], [], b, [], [], [], ⟨⟨rfl, rfl, rfl, rfl⟩, ?_, ?_, ?_, ?_, ?_, ?_, ?_, ?_, ?_, ?_, ?_⟩, ?_, fun r h => h, hS, ?_, ?_, ?_⟩ <;> simp [sweepInit]
    exact hneg
  | succ m ih =>
    obtain ⟨fresh, fell, src, chunks, gone, back, hI, hf, hs, hsS, hslt, hfl, hall⟩ := ih
    rw [List.range_succ, List.foldl_append]
    obtain ⟨c1, c2⟩ := source_cut env.cfg.dxi m src hsS hslt
    obtain ⟨chunks', gone', back', h'⟩ := invG_step env he hts m _ fresh fell src chunks gone back (fun r h => hq r (hf r h)) (fun r h => (c1 r h).2) hI
    refine ⟨_, _, _, chunks', gone', back', h', fun r h => hs r (List.mem_of_mem_take h), fun r h => hs r (List.mem_of_mem_drop h), hsS.sublist (List.drop_sublist _ _), c2, c1, ?_⟩
    have := (sweepStepG_rows env _ m fresh fell src chunks.flatten hI.rows).2.2
    simp only [List.foldl_cons, List.foldl_nil]
    rw [this]
    simp only [List.flatten_append, List.flatten_cons, List.flatten_nil, List.append_nil, List.append_assoc, List.take_append_drop]
    exact hall

/-- C48: the books of a time step on the GPU, whatever the plasma does, for a beam behind the head of the window.
The new beam is delivered layer by layer: it consists of `xiSteps` blocks, block `i` holding particles whose xi lies in layer `i`. Every particle of it is a particle of the old beam that did all its substeps, which together make up the time step, or one that hit the wall and was taken back.
The particles of the old beam in the first `xiSteps + 1` layers are, with their identifiers up to sign, charges and masses, exactly those of the new beam, those that hit the wall and were not taken back, and those that are left over; what is left over is the content of layer `xiSteps` of the old beam, never moved, and particles that left the window: their xi is behind its `xiSteps` layers, or will be at the middle of the next substep. -/
theorem gpu_step_books (env : Env3 σ) (he : 0 < env.energy) (hts : 0 ≤ env.timeStep) (hd : 0 < env.cfg.dxi) (plasma : σ) (argsort : List ℝ → List ℕ) (hs : IsArgsort (· ≤ ·) argsort) (b : Beam ℝ) (k : ℕ) (hb : b.WF k)
    (hq : ∀ r ∈ b.rows, r.qm ≠ 0) (hneg : ∀ r ∈ b.rows, r.xi < 0) (xiSteps : ℕ) :
    let s := stepDtG env plasma (sourceInit argsort b) xiSteps
    ∃ (blocks : List (List (Row ℝ))) (last out gone back : List (Row ℝ)),
      s.drain = Beam.ofRows blocks.flatten ∧ blocks.length = xiSteps ∧ (∀ i, ∀ r ∈ blocks.getD i [], InLayer env.cfg.dxi i r.xi) ∧
      (∀ r ∈ blocks.flatten, ∃ src ∈ b.rows, (∃ n, UnderwayG env src r n n) ∨ WallHitG env src r) ∧
      s.lostLog.Perm (gone ++ back) ∧ (∀ r ∈ gone ++ back, ∃ src ∈ b.rows, WallHitG env src r) ∧
      s.toMove.rows = last ++ out ∧ (∀ r ∈ last, r ∈ b.rows ∧ InLayer env.cfg.dxi xiSteps r.xi) ∧ (∀ r ∈ out, Entered env.cfg xiSteps r) ∧
      (∀ r ∈ out, ∃ src ∈ b.rows, (∃ n j, UnderwayG env src r n j) ∨ WallHitG env src r) ∧
      ((b.rows.filter fun r => decide (-(env.cfg.dxi * (xiSteps + 1)) ≤ r.xi)).map tag).Perm ((blocks.flatten ++ (last ++ out) ++ gone).map tag) := by
  intro s
  obtain ⟨hp, hS, hw⟩ := source_sorted argsort hs b k hb
  have hneg' : ∀ r ∈ (sourceInit argsort b).rows, r.xi < 0 := fun r hr => hneg r (hp.mem_iff.mp hr)
  have hq' : ∀ r ∈ (sourceInit argsort b).rows, r.qm ≠ 0 := fun r hr => hq r (hp.mem_iff.mp hr)
  obtain ⟨fresh, fell, src, chunks, gone, back, hI, hf, hsr, -, hslt, hfl, hall⟩ := invG_run env he hts plasma _ hq' hS hneg' (xiSteps + 1)
  have hs' : s = (List.range (xiSteps + 1)).foldl (sweepStepG env) (sweepInit plasma (Beam.ofRows (sourceInit argsort b).rows)) := by rw [ofRows_rows hw]; rfl
  rw [← hs'] at hI hall
  have hsrc : ∀ r ∈ s.sourced.flatten, r ∈ b.rows := by
    intro r hr
    apply hp.mem_iff.mp
    rw [← hall]; exact List.mem_append_left _ hr
  have hfs : ∀ r ∈ s.sourced.flatten, -(env.cfg.dxi * (xiSteps + 1)) ≤ r.xi := by
    have : ∀ m, ∀ r ∈ ((List.range m).foldl (sweepStepG env) (sweepInit plasma (Beam.ofRows (sourceInit argsort b).rows))).sourced.flatten, -(env.cfg.dxi * m) ≤ r.xi := by
      intro m
      induction m with
      | zero => simp [sweepInit]
      | succ m ih =>
        intro r hr
        obtain ⟨fresh, fell, src, chunks, gone, back, hI, -, -, hsS, hslt, -, -⟩ := invG_run env he hts plasma _ hq' hS hneg' m
        rw [List.range_succ, List.foldl_append] at hr
        simp only [List.foldl_cons, List.foldl_nil] at hr
        rw [(sweepStepG_rows env _ m fresh fell src chunks.flatten hI.rows).2.2] at hr
        simp only [List.flatten_append, List.flatten_cons, List.flatten_nil, List.append_nil, List.mem_append] at hr
        rcases hr with hr | hr
        · have := ih r hr
          push_cast; nlinarith
        · have := ((source_cut env.cfg.dxi m src hsS hslt).1 r hr).1
          push_cast; exact this
    intro r hr
    rw [hs'] at hr
    have := this (xiSteps + 1) r hr
    push_cast at this; exact this
  have hcut : s.sourced.flatten = (sourceInit argsort b).rows.filter fun r => decide (-(env.cfg.dxi * (xiSteps + 1)) ≤ r.xi) := by
    rw [← hall, List.filter_append]
    rw [List.filter_eq_self.mpr (fun r hr => by simpa using hfs r hr), List.filter_eq_nil_iff.mpr, List.append_nil]
    intro r hr
    have := hslt r hr
    push_cast at this
    simpa using this
  refine ⟨chunks, fresh, fell, gone, back, hI.rows.drain, by simpa using hI.drainLayer.1, hI.drainLayer.2, ?_, hI.log, ?_, by rw [hI.rows.toMove, rows_ofRows], ?_, ?_, ?_, ?_⟩
  · intro r hr
    obtain ⟨src, h1, h2⟩ := hI.drainFinished r hr
    exact ⟨src, hsrc src h1, h2⟩
  · intro r hr
    obtain ⟨src, h1, h2⟩ := hI.goneHit r hr
    exact ⟨src, hsrc src h1, h2⟩
  · intro r hr
    exact ⟨hp.mem_iff.mp (hf r hr), by simpa using hfl r hr⟩
  · intro r hr
    have := hI.fellEntered r hr
    rwa [show (((xiSteps + 1 : ℕ) : ℤ) - 1) = (xiSteps : ℤ) by push_cast; ring] at this
  · intro r hr
    obtain ⟨src, h1, h2⟩ := hI.fellTraces r hr
    exact ⟨src, hsrc src h1, h2⟩
  · have := hI.count
    rw [hcut] at this
    exact (((hp.filter _).map tag).symm).trans this

/-! ### Any number of time steps -/

/-- Single-process run on the GPU, simulation.py:247-264, as `runDt`. -/
noncomputable def runDtG (env : Env3 σ) (plasmaAt : ℕ → σ) (argsort : List ℝ → List ℕ) (xiSteps : ℕ) (b : Beam ℝ) : ℕ → Beam ℝ
  | 0 => b
  | t + 1 => (stepDtG env (plasmaAt t) (sourceInit argsort (runDtG env plasmaAt argsort xiSteps b t)) xiSteps).drain

/-- C48: in any number of time steps on the GPU, whatever the plasma does, no beam particle is created or duplicated, and from the first time step on every particle of the beam lies inside the window of `xiSteps` layers. -/
theorem gpu_run_no_duplication (env : Env3 σ) (he : 0 < env.energy) (hts : 0 ≤ env.timeStep) (hd : 0 < env.cfg.dxi) (plasmaAt : ℕ → σ) (argsort : List ℝ → List ℕ) (hs : IsArgsort (· ≤ ·) argsort) (xiSteps : ℕ)
    (b : Beam ℝ) (k : ℕ) (hb : b.WF k) (hq : ∀ r ∈ b.rows, r.qm ≠ 0) (hneg : ∀ r ∈ b.rows, r.xi < 0) (T : ℕ) :
    ((runDtG env plasmaAt argsort xiSteps b T).rows.map tag).Subperm (b.rows.map tag) ∧ (∃ n, (runDtG env plasmaAt argsort xiSteps b T).WF n) ∧
    (∀ r ∈ (runDtG env plasmaAt argsort xiSteps b T).rows, r.xi < 0 ∧ (0 < T → -(env.cfg.dxi * xiSteps) ≤ r.xi)) := by
  induction T with
  | zero => exact ⟨List.Subperm.refl _, ⟨k, hb⟩, fun r hr => ⟨hneg r hr, fun h => absurd h (lt_irrefl _)⟩⟩
  | succ T ih =>
    obtain ⟨ih, ⟨n, hn⟩, hin⟩ := ih
    have hq' : ∀ r ∈ (runDtG env plasmaAt argsort xiSteps b T).rows, r.qm ≠ 0 := by
      intro r hr
      have := ih.subset (List.mem_map_of_mem hr)
      obtain ⟨r0, hr0, e⟩ := List.mem_map.mp this
      have e' : r0.qm = r.qm := by
        have := congrArg (fun t => t.2.1) e
        exact this
      rw [← e']; exact hq r0 hr0
    obtain ⟨blocks, last, out, gone, back, h1, h2, h3, -, -, -, -, -, -, -, h4⟩ := gpu_step_books env he hts hd (plasmaAt T) argsort hs _ n hn hq' (fun r hr => (hin r hr).1) xiSteps
    have hrun : runDtG env plasmaAt argsort xiSteps b (T + 1) = Beam.ofRows blocks.flatten := h1
    rw [hrun, rows_ofRows]
    refine ⟨?_, ⟨_, wf_ofRows _⟩, ?_⟩
    · have a1 : (blocks.flatten.map tag).Subperm (((runDtG env plasmaAt argsort xiSteps b T).rows.filter fun r => decide (-(env.cfg.dxi * (xiSteps + 1)) ≤ r.xi)).map tag) := by
        refine List.Subperm.trans ?_ h4.symm.subperm
        simp only [List.map_append, List.append_assoc]
        exact (List.sublist_append_left _ _).subperm
      exact (a1.trans ((List.filter_sublist).map tag).subperm).trans ih
    · intro r hr
      obtain ⟨blk, hblk, hr⟩ := List.mem_flatten.mp hr
      obtain ⟨i, hi, rfl⟩ := List.mem_iff_getElem.mp hblk
      have hl := h3 i r (by rw [List.getD_eq_getElem _ _ hi]; exact hr)
      have hi' : (i : ℝ) + 1 ≤ xiSteps := by exact_mod_cast (by omega : i + 1 ≤ xiSteps)
      have hi0 : (0 : ℝ) ≤ i := by positivity
      refine ⟨?_, fun _ => ?_⟩
      · have := hl.2; nlinarith
      · have := hl.1; nlinarith

/-! ### Cases -/

theorem kickG_free (qm dt : ℝ) (hq : qm ≠ 0) (p : Vec3) : kickG qm dt ⟨0, 0, 0⟩ ⟨0, 0, 0⟩ p = p := by
  rw [gpu_electric qm dt hq]; apply ext3 <;> simp [add3, scale3]

theorem interp3G_zero (N : ℤ) (xh yh s : ℝ) : interp3G N xh yh s 0 0 = 0 := by
  unfold interp3G
  have : ∀ l : List (ℤ × ℝ), l.foldl (fun s' t => s' + (Lcode.Plasma3D.rawAt N 0 t.1 * (t.2 * weight1G s 0) + Lcode.Plasma3D.rawAt N 0 t.1 * (t.2 * weight1G s 1))) 0 = 0 := by
    intro l
    induction l with
    | nil => rfl
    | cons t l ih => simp only [List.foldl_cons, Lcode.Plasma3D.rawAt, Pi.zero_apply, zero_mul, add_zero]; simpa using ih
  exact this _

/-- C48: without fields a substep of the GPU kernel is free motion with the velocity of the particle. -/
theorem gpu_free (c : BCfg) (xiK : ℝ) (r : Row ℝ) (hq : r.qm ≠ 0) :
    substepG (fieldEG c xiK noFields noFields) (fieldBG c xiK noFields noFields) r =
      { r with x := r.x + r.dt * (vel r.qm ⟨r.px, r.py, r.pz⟩).x, y := r.y + r.dt * (vel r.qm ⟨r.px, r.py, r.pz⟩).y, xi := r.xi + r.dt * ((vel r.qm ⟨r.px, r.py, r.pz⟩).z - 1) } := by
  have e1 : ∀ w, fieldEG c xiK noFields noFields w = ⟨0, 0, 0⟩ := by
    intro w; simp only [fieldEG, noFields, interp3G_zero]
  have e2 : ∀ w, fieldBG c xiK noFields noFields w = ⟨0, 0, 0⟩ := by
    intro w; simp only [fieldBG, noFields, interp3G_zero]
  have hv : vel r.qm ⟨r.px, r.py, r.pz⟩ = ⟨r.px / gammaB r.qm ⟨r.px, r.py, r.pz⟩, r.py / gammaB r.qm ⟨r.px, r.py, r.pz⟩, r.pz / gammaB r.qm ⟨r.px, r.py, r.pz⟩⟩ := by rw [gammaB_eq]; rfl
  unfold substepG
  simp only [e1, e2, kickG_free _ _ hq, hv, halfG]
  congr 1 <;> ring

/-- C48, refutation: a particle that flies out of the grid and out of its layer in the same substep is reported both as lost and as fallen, so it stays in the beam with its identifier negated; the next layer reports it as finished. -/
theorem gpu_push_lost_and_fell : ∃ (c : BCfg) (r : Row ℝ), c.N % 2 = 1 ∧ 0 < c.h ∧ 0 < c.dxi ∧ r.remaining = 1 ∧ InLayer c.dxi 0 r.xi ∧ r.x ^ 2 + r.y ^ 2 < lostRadius c ^ 2 ∧
    ∃ o, pushRowG c 0 noFields noFields r = ⟨o, true, false, true⟩ ∧ o.id = -r.id ∧ pushRowG c 1 noFields noFields o = ⟨o, false, true, false⟩ := by
  have hR : lostRadius ⟨11, 1, 1⟩ = 4.95 := by unfold lostRadius; norm_num
  have hg : Real.sqrt ((1 / 1 : ℝ) ^ 2 + (3 / 4) ^ 2 + 0 ^ 2 + 0 ^ 2) = 5 / 4 := by
    rw [show (1 / 1 : ℝ) ^ 2 + (3 / 4) ^ 2 + 0 ^ 2 + 0 ^ 2 = (5 / 4) ^ 2 by norm_num, Real.sqrt_sq (by norm_num)]
  have hv : vel 1 ⟨3 / 4, 0, 0⟩ = ⟨3 / 5, 0, 0⟩ := by
    unfold vel; simp only [hg]; apply ext3 <;> norm_num
  refine ⟨⟨11, 1, 1⟩, ⟨-3 / 10, 9 / 2, 0, 3 / 4, 0, 0, 1, 1, 1, 1, 1⟩, by norm_num, by norm_num, by norm_num, rfl, ?_, ?_, ⟨-13 / 10, 51 / 10, 0, 3 / 4, 0, 0, 1, 1, -1, 1, 0⟩, ?_, rfl, ?_⟩
  · constructor <;> norm_num
  · rw [hR]; norm_num
  · have ht : turnG ⟨11, 1, 1⟩ 0 noFields noFields ⟨-3 / 10, 9 / 2, 0, 3 / 4, 0, 0, 1, 1, 1, 1, 1⟩ = .lost ⟨-13 / 10, 51 / 10, 0, 3 / 4, 0, 0, 1, 1, -1, 1, 0⟩ := by
      unfold turnG
      simp only [halfG_eq, hv, hR, gpu_free ⟨11, 1, 1⟩ _ ⟨-3 / 10, 9 / 2, 0, 3 / 4, 0, 0, 1, 1, 1, 1, 1⟩ one_ne_zero]
      norm_num
    unfold pushRowG
    have e1 : (⟨-3 / 10, 9 / 2, 0, 3 / 4, 0, 0, 1, 1, 1, 1, 1⟩ : Row ℝ).remaining.toNat = 1 := rfl
    rw [e1]
    simp only [pushLoopG, ht]
    norm_num
  · unfold pushRowG
    have e1 : (⟨-13 / 10, 51 / 10, 0, 3 / 4, 0, 0, 1, 1, -1, 1, 0⟩ : Row ℝ).remaining.toNat = 0 := rfl
    rw [e1]
    simp only [pushLoopG]
    norm_num

/-- C48: the particle that vanishes on the CPU (`step_drops_particle`: at rest, well inside the grid, in the first of three layers, without fields, at x = -4) is in the new beam of the GPU; the same holds for any x inside the grid. -/
theorem gpu_step_keeps_particle (x : ℝ) (hx : x ^ 2 < 24) :
    let s := stepDtG emptyWindow () (Beam.ofRows [restRow x (-1 / 2) 0 0]) 3
    s.drain.rows = [restRow x (-6 / 10) (1 / 10) 0] ∧ s.lostLog = [] ∧ s.toMove.rows = [] := by
  have hrun : stepDtG emptyWindow () (Beam.ofRows [restRow x (-1 / 2) 0 0]) 3 =
      sweepStepG emptyWindow (sweepStepG emptyWindow (sweepStepG emptyWindow (sweepStepG emptyWindow (sweepInit () (Beam.ofRows [restRow x (-1 / 2) 0 0])) 0) 1) 2) 3 := by
    have hr : List.range (3 + 1) = [0, 1, 2, 3] := rfl
    simp only [stepDtG, hr, List.foldl_cons, List.foldl_nil]
  rw [hrun]
  have hin : InLayer emptyWindow.cfg.dxi 0 (restRow x (-1 / 2) 0 0).xi := by
    constructor <;> norm_num [restRow, emptyWindow]
  have hn : inLayer emptyWindow.cfg.dxi 0 [restRow x (-1 / 2) 0 0] = 1 := by
    simp only [inLayer, List.countP_cons, List.countP_nil, hin, decide_true, if_true]
  obtain ⟨h1, h1l, -⟩ := sweepStepG_rows emptyWindow (sweepInit () (Beam.ofRows [restRow x (-1 / 2) 0 0])) 0 [] [] [restRow x (-1 / 2) 0 0] [] ⟨rfl, rfl, rfl, rfl⟩
  rw [hn] at h1
  have hr0 : resultsG emptyWindow (sweepInit () (Beam.ofRows [restRow x (-1 / 2) 0 0])) 0 [] [] = [] := rfl
  rw [hr0] at h1 h1l
  simp only [List.take_succ_cons, List.take_zero, List.filter_nil, List.map_nil, List.drop_succ_cons, List.drop_zero, List.append_nil] at h1 h1l
  generalize sweepStepG emptyWindow (sweepInit () (Beam.ofRows [restRow x (-1 / 2) 0 0])) 0 = s1 at h1 h1l
  have hl0 : s1.lostLog = [] := h1l
  obtain ⟨h2, h2l, -⟩ := sweepStepG_rows emptyWindow s1 1 [restRow x (-1 / 2) 0 0] [] [] [] h1
  have hv : vel 1 ⟨0, 0, 0⟩ = ⟨0, 0, 0⟩ := by unfold vel; simp
  have ht : turnG emptyWindow.cfg 0 noFields noFields (restRow x (-1 / 2) (1 / 10) 1) = .next (restRow x (-6 / 10) (1 / 10) 0) := by
    unfold turnG
    have hh : halfG (restRow x (-1 / 2) (1 / 10) 1) = ⟨x, 0, -1 / 2 - 1 / 10 / 2⟩ := by
      rw [halfG_eq]; simp only [restRow, hv]; apply ext3 <;> simp; ring
    have hf : ∀ xiK, substepG (fieldEG emptyWindow.cfg xiK noFields noFields) (fieldBG emptyWindow.cfg xiK noFields noFields) (restRow x (-1 / 2) (1 / 10) 1) = restRow x (-6 / 10) (1 / 10) 1 := by
      intro xiK
      rw [gpu_free _ _ _ (by simp [restRow])]
      simp only [restRow, hv]
      norm_num
    simp only [hh, hf, lostRadius_emptyWindow]
    have ed : emptyWindow.cfg.dxi = 1 := rfl
    rw [ed, if_neg (by norm_num), if_neg (by norm_num; nlinarith), if_neg (by norm_num [restRow]; nlinarith)]
    simp [restRow]
  have hpush : pushRowG emptyWindow.cfg 0 noFields noFields (restRow x (-1 / 2) (1 / 10) 1) = ⟨restRow x (-6 / 10) (1 / 10) 0, false, true, false⟩ := by
    unfold pushRowG
    have e1 : (restRow x (-1 / 2) (1 / 10) 1).remaining.toNat = 1 := rfl
    have ed : emptyWindow.cfg.dxi = 1 := rfl
    rw [e1]
    simp only [pushLoopG, ht, ed]
    norm_num [restRow]
  have hres : resultsG emptyWindow s1 1 [restRow x (-1 / 2) 0 0] [] = [⟨restRow x (-6 / 10) (1 / 10) 0, false, true, false⟩] := by
    rw [← hpush]
    unfold resultsG
    simp only [List.map_cons, List.map_nil, List.append_nil, initRow_rest]
    rfl
  rw [hres] at h2 h2l
  simp only [List.filter_cons, if_true, List.filter_nil, List.map_cons, List.map_nil, List.append_nil, List.take_nil, List.drop_nil, Bool.false_eq_true, if_false, hl0, List.nil_append] at h2 h2l
  have idle : ∀ (s : SweepState Unit) (m : ℕ) (D : List (Row ℝ)), RowsOf s [] [] [] D → s.lostLog = [] → RowsOf (sweepStepG emptyWindow s m) [] [] [] D ∧ (sweepStepG emptyWindow s m).lostLog = [] := by
    intro s m D h hl
    obtain ⟨a, b, -⟩ := sweepStepG_rows emptyWindow s m [] [] [] D h
    refine ⟨by simpa [resultsG] using a, ?_⟩
    rw [b, hl]; simp [resultsG]
  obtain ⟨h3, h3l⟩ := idle _ 2 _ h2 h2l
  obtain ⟨h4, h4l⟩ := idle _ 3 _ h3 h3l
  refine ⟨by rw [h4.drain, rows_ofRows], h4l, by rw [h4.toMove, rows_ofRows]; rfl⟩

end Lcode.Beam3D
