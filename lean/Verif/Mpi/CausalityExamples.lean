import Verif.Mpi.Causality
import Verif.Mpi.Causality3D
import Verif.Beam2D.Strong

/-!
C45: the bound of `causality_2D` cannot be improved, and concrete runs that meet the hypotheses of the theorems.
-/

namespace Lcode.Mpi
section Sharp
open Lcode.Beam2D

/-- A plasma whose only field is an Ez equal to the beam density on the axis. -/
noncomputable def axisEnv : Env2D ℝ where
  cfg := ⟨1, 1, 10, 0⟩
  timeStep := 1
  energy := 0
  argsortB := demoArgsort
  argsortF := npArgsort
  plasma _ rho _ := rho 0
  fields s := ⟨fun _ => 0, fun _ => 0, fun _ => s, fun _ => 0, fun _ => 0⟩

/-- A particle at rest without charge, in layer 0. -/
noncomputable def probe (xi pz : ℝ) : Particle ℝ := ⟨xi, 1, pz, 0, 0, 1, 0, 1⟩

/-- A charge on the axis, in layer 1. -/
noncomputable def behindCharge : Particle ℝ := ⟨-3 / 2, 0, 0, 0, 0, 1, 1 / 2, 2⟩

theorem probe_turn (e e0 v : ℝ) (hv : e / 2 / Real.sqrt (1 + (e / 2) ^ 2) = v) :
    pushTurn axisEnv.cfg (-1) (axisEnv.fields e) (axisEnv.fields e0) 1 (probe (-1 / 2) 0) = .inr (probe (-3 / 2 + v) e, false) := by
  have hl : axisEnv.cfg.lostBoundary = 9 := by unfold PushCfg.lostBoundary axisEnv; norm_num
  have h1 : axisEnv.cfg.rStep = 1 := rfl
  have h2 : axisEnv.cfg.xiStep = 1 := rfl
  have h3 : axisEnv.cfg.magneticField = 0 := rfl
  have hf : particleFields ⟨1, 0, -1⟩ (axisEnv.fields e) (axisEnv.fields e0) (-1) 1 1 = (⟨0, 0, e⟩, ⟨0, 0, 0⟩) := by
    unfold particleFields interpolateParticle beamParticleWeights axisEnv
    norm_num
  unfold pushTurn
  simp only [beamToVec, probe, V3.add, V3.smul, V3.sq, inLayer, isLost, hl, h1, h2, h3]
  norm_num
  rw [hf]
  simp only [vecToBeam, V3.cross]
  norm_num
  refine ⟨?_, by ring⟩
  rw [← hv, show 1 / 2 * e = e / 2 by ring]
  ring

/-- `move_beam_layer` on rows. -/
theorem move_rows_perm {σ : Type} (env : Env2D σ) (hs : IsArgsort boolLe env.argsortB) (b : Beam ℝ) (hb : b.WF) (i : ℕ) (f0 f1 : Fields) :
    (moveBeamLayer env b i f0 f1).2.1.rows.Perm ((b.rows.map fun t => pushRow env.cfg i f1 f0 (initRow env.timeStep env.energy t)).filter
      fun t => !t.2.2.2 && decide (t.2.2.1 ≤ 0) && decide (i * -env.cfg.xiStep ≤ t.1.xi)) ∧
    (moveBeamLayer env b i f0 f1).2.2.rows.Perm ((b.rows.map fun t => pushRow env.cfg i f1 f0 (initRow env.timeStep env.energy t)).filter
      fun t => !t.2.2.2 && (decide (0 < t.2.2.1) || decide (t.1.xi < i * -env.cfg.xiStep))) ∧
    (moveBeamLayer env b i f0 f1).2.1.WF ∧ (moveBeamLayer env b i f0 f1).2.2.WF := by
  have push : ∃ c : Beam ℝ, c.WF ∧
      c.rows = b.rows.map (fun t => pushRow env.cfg i f1 f0 (initRow env.timeStep env.energy t)) ∧
      moveBeamLayer env b i f0 f1 = splitBeamSlice env.argsortB c (i * -env.cfg.xiStep) := by
    by_cases h0 : b.particles.length = 0
    · refine ⟨b, hb, ?_, by unfold moveBeamLayer; simp only [h0, if_true]⟩
      have : b.rows = [] := List.length_eq_zero_iff.1 (by rw [rows_length hb, h0])
      rw [this]; rfl
    · exact ⟨_, wf_mapRows _ b, rows_mapRows _ b, by unfold moveBeamLayer; simp only [h0, if_false]⟩
  obtain ⟨c, hc, hcr, e⟩ := push
  obtain ⟨-, h2, h3, -, w2, w3⟩ := split_rows env.argsortB hs c hc (i * -env.cfg.xiStep)
  rw [e, ← hcr]
  exact ⟨h2, h3, w2, w3⟩

/-- What iteration 1 finishes, for a beam whose layer 0 is the probe: the probe pushed in the field of layer 1. -/
theorem probe_finished (dt : ℝ) (g : ℕ) (inp : ℕ → List (Particle ℝ)) (h0 : inp 0 = [probe (-1 / 2) 0]) (e v : ℝ)
    (he : 6 * ((inp 1).map fun p => p.qnorm * hat p.r * (p.xi + 2)).sum = e) (hv : e / 2 / Real.sqrt (1 + (e / 2) ^ 2) = v) :
    finished (world2D axisEnv fun _ => 0) dt g inp 1 = if 1 / 2 ≤ v then [probe (-3 / 2 + v) e] else [] := by
  set W := world2D axisEnv fun _ => 0 with hW
  have hw : (⟨[], [], [], []⟩ : Beam ℝ).WF := ⟨rfl, rfl, rfl⟩
  -- the state before iteration 1
  obtain ⟨pl, rl, rp, tm, hst, hrl, htm, hwf⟩ : ∃ pl rl rp tm, stAt W (W.init (timeOf dt g)) inp 1 = (⟨pl, rl, rp, tm⟩ : St2D ℝ) ∧ rl 0 = 0 ∧ tm.rows = [(probe (-1 / 2) 0, 0, 1, false)] ∧ tm.WF := by
    have e : stAt W (W.init (timeOf dt g)) inp 1 = (layer2D axisEnv ⟨0, fun _ => 0, fun _ => 0, ⟨[], [], [], []⟩⟩ 0 (inp 0)).1 := rfl
    rw [e]
    obtain ⟨-, m2, -, w3⟩ := move_rows_perm axisEnv demoArgsort_correct ⟨[], [], [], []⟩ hw 0 (axisEnv.fields 0)
      (axisEnv.fields (axisEnv.plasma 0 (layoutBeamLayer 1 1 (fun _ => 0) (inp 0) 0).1 (fun _ => 0)))
    have hnil : (moveBeamLayer axisEnv ⟨[], [], [], []⟩ 0 (axisEnv.fields 0)
      (axisEnv.fields (axisEnv.plasma 0 (layoutBeamLayer 1 1 (fun _ => 0) (inp 0) 0).1 (fun _ => 0)))).2.2.rows = [] := m2.eq_nil
    have ap := append_rows (Beam.fresh (inp 0)) _ (wf_fresh (inp 0)) w3
    refine ⟨_, _, _, _, rfl, ?_, ?_, ap.2⟩
    · show (layoutBeamLayer 1 1 (fun _ => 0) (inp 0) 0).2 0 = 0
      unfold layoutBeamLayer
      simp only
      rw [(deposit_pointwise _ _ _ _ _ _ _).2, h0]
      simp [probe]
    · refine ap.1.trans ?_
      rw [hnil, rows_fresh, h0]
      rfl
  have hpl : (axisEnv.plasma pl (layoutBeamLayer 1 1 rl (inp 1) 1).1 rp) = e := by
    show (layoutBeamLayer 1 1 rl (inp 1) 1).1 0 = e
    unfold layoutBeamLayer
    simp only
    rw [(deposit_pointwise _ _ _ _ _ _ _).1, hrl, ← he]
    norm_num
    rw [mul_comm]
  have hfin : finished W dt g inp 1 = (moveBeamLayer axisEnv tm 1 (axisEnv.fields pl) (axisEnv.fields e)).2.1.particles := by
    have e1 : finished W dt g inp 1 = (layer2D axisEnv (stAt W (W.init (timeOf dt g)) inp 1) 1 (inp 1)).2 := rfl
    rw [e1, hst, ← hpl]
    rfl
  obtain ⟨m1, -, w2, -⟩ := move_rows_perm axisEnv demoArgsort_correct tm hwf 1 (axisEnv.fields pl) (axisEnv.fields e)
  have hpush : pushRow axisEnv.cfg 1 (axisEnv.fields e) (axisEnv.fields pl) (initRow axisEnv.timeStep axisEnv.energy (probe (-1 / 2) 0, 0, 1, false)) = (probe (-3 / 2 + v) e, 1, 0, false) := by
    have hi : initRow axisEnv.timeStep axisEnv.energy (probe (-1 / 2) 0, 0, 1, false) = (probe (-1 / 2) 0, 1, 1, false) := by
      unfold initRow axisEnv; simp
    have ed : axisEnv.cfg.xiStep = 1 := rfl
    rw [hi]
    unfold pushRow
    simp only [ed, Int.toNat_one, Nat.cast_one, one_mul, pushLoop, probe_turn e pl v hv]
    simp
  rw [htm] at m1
  simp only [List.map_cons, List.map_nil, hpush] at m1
  have ed : axisEnv.cfg.xiStep = 1 := rfl
  rw [hfin, ← rows_particles w2]
  by_cases h : 1 / 2 ≤ v
  · rw [if_pos h]
    have hd : (decide (((1 : ℕ) : ℝ) * -axisEnv.cfg.xiStep ≤ (probe (-3 / 2 + v) e).xi)) = true := by
      rw [decide_eq_true_eq, ed]; simp only [probe]; push_cast; linarith
    rw [List.filter_cons, if_pos (by simp only [hd]; rfl)] at m1
    rw [List.perm_singleton.mp m1]
    rfl
  · rw [if_neg h]
    have hd : (decide (((1 : ℕ) : ℝ) * -axisEnv.cfg.xiStep ≤ (probe (-3 / 2 + v) e).xi)) = false := by
      rw [decide_eq_false_iff_not, ed]; simp only [probe]; push_cast; push Not at h ⊢; linarith
    rw [List.filter_cons, if_neg (by simp only [hd]; simp)] at m1
    rw [m1.eq_nil]
    rfl

/-- C45, the bound cannot be improved: the two beams have the same particles in layer 0, yet after one time step layer 0 is empty in one run and holds the probe in the other. The charge in layer 1
acts on the probe AHEAD of it, because a particle is pushed by the field interpolated between the two layers around it. -/
theorem one_layer_per_step_2D :
    seqLayers (world2D axisEnv fun _ => 0) 1 1 [probe (-1 / 2) 0] 0 0 = seqLayers (world2D axisEnv fun _ => 0) 1 1 [probe (-1 / 2) 0, behindCharge] 0 0 ∧
    seqLayers (world2D axisEnv fun _ => 0) 1 1 [probe (-1 / 2) 0] 1 0 = [] ∧
    seqLayers (world2D axisEnv fun _ => 0) 1 1 [probe (-1 / 2) 0, behindCharge] 1 0 = [probe (-9 / 10) (3 / 2)] := by
  set W := world2D axisEnv fun _ => 0 with hW
  have hx : (0 : ℝ) < axisEnv.cfg.xiStep := by norm_num [axisEnv]
  have ed : axisEnv.cfg.xiStep = 1 := rfl
  have hlim : (((1 : ℕ) : ℝ) + 1) * axisEnv.cfg.xiStep ≤ 99999 := by norm_num [axisEnv]
  have src := fun b hb j hj => source2D axisEnv (fun _ => 0) npArgsort_correct hx 1 hlim b hb j hj
  rw [ed] at src
  have d00 : decide (InLayer (1 : ℝ) 0 (probe (-1 / 2) 0).xi) = true := by
    rw [decide_eq_true_eq]; constructor
    · norm_num [probe]
    · right; rfl
  have d01 : decide (InLayer (1 : ℝ) 1 (probe (-1 / 2) 0).xi) = false := by
    rw [decide_eq_false_iff_not]; intro h; rcases h.2 with h | h
    · norm_num [probe] at h
    · simp at h
  have d10 : decide (InLayer (1 : ℝ) 0 behindCharge.xi) = false := by
    rw [decide_eq_false_iff_not]; intro h; have := h.1; norm_num [behindCharge] at this
  have d11 : decide (InLayer (1 : ℝ) 1 behindCharge.xi) = true := by
    rw [decide_eq_true_eq]; constructor
    · norm_num [behindCharge]
    · left; norm_num [behindCharge]
  have a0 : seqLayers W 1 1 [probe (-1 / 2) 0] 0 0 = [probe (-1 / 2) 0] := by
    have := src [probe (-1 / 2) 0] (by simp [probe]; norm_num) 0 (by norm_num)
    rw [List.filter_cons, if_pos d00] at this
    exact List.perm_singleton.mp this
  have a1 : seqLayers W 1 1 [probe (-1 / 2) 0] 0 1 = [] := by
    have := src [probe (-1 / 2) 0] (by simp [probe]; norm_num) 1 (by norm_num)
    rw [List.filter_cons, if_neg (by rw [d01]; simp)] at this
    exact this.eq_nil
  have b0 : seqLayers W 1 1 [probe (-1 / 2) 0, behindCharge] 0 0 = [probe (-1 / 2) 0] := by
    have := src [probe (-1 / 2) 0, behindCharge] (by intro p hp; simp at hp; rcases hp with rfl | rfl <;> norm_num [probe, behindCharge]) 0 (by norm_num)
    rw [List.filter_cons, if_pos d00, List.filter_cons, if_neg (by rw [d10]; simp)] at this
    exact List.perm_singleton.mp this
  have b1 : seqLayers W 1 1 [probe (-1 / 2) 0, behindCharge] 0 1 = [behindCharge] := by
    have := src [probe (-1 / 2) 0, behindCharge] (by intro p hp; simp at hp; rcases hp with rfl | rfl <;> norm_num [probe, behindCharge]) 1 (by norm_num)
    rw [List.filter_cons, if_neg (by rw [d01]; simp), List.filter_cons, if_pos d11] at this
    exact List.perm_singleton.mp this
  have all : ∀ inp, allFinished W 1 1 0 inp = finished W 1 0 inp 1 := by
    intro inp
    unfold allFinished
    have hr : List.range (1 + 1) = [0, 1] := rfl
    rw [hr]
    simp only [List.map_cons, List.map_nil, List.flatten_cons, List.flatten_nil, List.append_nil]
    rw [nothing_finishes_first axisEnv demoArgsort_correct (fun _ => 0) 1 0 inp, List.nil_append]
  refine ⟨by rw [a0, b0], ?_, ?_⟩
  · have e : seqLayers W 1 1 [probe (-1 / 2) 0] 1 = srcLayer W (W.mkSrc (allFinished W 1 1 0 (seqLayers W 1 1 [probe (-1 / 2) 0] 0))) := rfl
    rw [e, all, probe_finished 1 0 _ a0 0 0 (by rw [a1]; simp) (by simp), if_neg (by norm_num)]
    exact (src [] (by simp) 0 (by norm_num)).eq_nil
  · have e : seqLayers W 1 1 [probe (-1 / 2) 0, behindCharge] 1 = srcLayer W (W.mkSrc (allFinished W 1 1 0 (seqLayers W 1 1 [probe (-1 / 2) 0, behindCharge] 0))) := rfl
    have hsq : Real.sqrt (1 + (3 / 2 / 2 : ℝ) ^ 2) = 5 / 4 := by
      rw [Real.sqrt_eq_iff_mul_self_eq (by positivity) (by norm_num)]; norm_num
    have hh : hat 0 = 1 := by unfold hat; simp
    rw [e, all, probe_finished 1 0 _ b0 (3 / 2) (3 / 5) (by rw [b1]; norm_num [behindCharge, hh]) (by rw [hsq]; norm_num), if_pos (by norm_num)]
    have hx2 : (-3 / 2 + 3 / 5 : ℝ) = -9 / 10 := by norm_num
    rw [hx2]
    have d : decide (InLayer (1 : ℝ) 0 (probe (-9 / 10) (3 / 2)).xi) = true := by
      rw [decide_eq_true_eq]; constructor
      · norm_num [probe]
      · right; rfl
    have := src [probe (-9 / 10) (3 / 2)] (by simp [probe]; norm_num) 0 (by norm_num)
    rw [List.filter_cons, if_pos d] at this
    exact List.perm_singleton.mp this

end Sharp

/-! ### Concrete runs that meet the hypotheses -/

section Examples2
open Lcode.Beam2D

/-- A passive plasma that remembers every density it has seen, and no fields. -/
noncomputable def recordEnv : Env2D (List (ℤ → ℝ)) where
  cfg := ⟨1, 1, 10, 0⟩
  timeStep := 1
  energy := 0
  argsortB := demoArgsort
  argsortF := npArgsort
  plasma s rho _ := s ++ [rho]
  fields _ := ⟨fun _ => 0, fun _ => 0, fun _ => 0, fun _ => 0, fun _ => 0⟩

theorem record_noRush : NoRush recordEnv := by
  intro xiEnd s s' dt p p' l hdt h
  exact drift_noRush xiEnd () () dt p p' l hdt h

/-- Non-vacuity of C45 in 2D: a beam whose particles in the layers 0 .. 7 are `front`, followed by any two tails; in time step 4 the densities recorded in the layers 0 .. 3 agree. -/
example (front tail tail' : List (Particle ℝ)) (h1 : ∀ p ∈ front, p.xi ≤ 0) (h2 : ∀ p ∈ tail, p.xi < -8) (h3 : ∀ p ∈ tail', p.xi < -8) :
    (stAt (world2D recordEnv fun _ => []) ((world2D recordEnv fun _ => []).init (timeOf 1 4)) (seqLayers (world2D recordEnv fun _ => []) 100 1 (front ++ tail) 4) 4).plasma =
      (stAt (world2D recordEnv fun _ => []) ((world2D recordEnv fun _ => []).init (timeOf 1 4)) (seqLayers (world2D recordEnv fun _ => []) 100 1 (tail' ++ front) 4) 4).plasma := by
  have hx : (0 : ℝ) < recordEnv.cfg.xiStep := by norm_num [recordEnv]
  have hl : (((100 : ℕ) : ℝ) + 1) * recordEnv.cfg.xiStep ≤ 99999 := by norm_num [recordEnv]
  have ed : recordEnv.cfg.xiStep = 1 := rfl
  have b1 : ∀ p ∈ front ++ tail, p.xi ≤ 0 := by
    intro p hp; rcases List.mem_append.mp hp with h | h
    · exact h1 p h
    · linarith [h2 p h]
  have b2 : ∀ p ∈ tail' ++ front, p.xi ≤ 0 := by
    intro p hp; rcases List.mem_append.mp hp with h | h
    · linarith [h3 p h]
    · exact h1 p h
  have out : ∀ (t : List (Particle ℝ)) (i : ℕ), i ≤ 7 → (∀ p ∈ t, p.xi < -8) → t.filter (fun p => decide (InLayer (1 : ℝ) i p.xi)) = [] := by
    intro t i hi ht
    rw [List.filter_eq_nil_iff]
    intro p hp h
    rw [decide_eq_true_eq] at h
    have hi' : (i : ℝ) ≤ 7 := by exact_mod_cast hi
    linarith [h.1, ht p hp]
  have no := fun b hb => noOvertaking_of_noRush recordEnv (fun _ => []) demoArgsort_correct npArgsort_correct hx (by norm_num [recordEnv]) 100 hl 1 b hb record_noRush
  refine (causality_2D recordEnv (fun _ => []) demoArgsort_correct npArgsort_correct hx 100 hl 1 (front ++ tail) (tail' ++ front) b1 b2 (no _ b1) (no _ b2) 4 3 (by norm_num) ?_).2.1
  intro i hi _
  rw [ed, List.filter_append, List.filter_append, out tail i hi h2, out tail' i hi h3, List.append_nil, List.nil_append]

end Examples2

section Examples3
open Lcode.Beam3D
open Lcode.Beam2D (IsArgsort npArgsort npArgsort_correct)

/-- A passive plasma that remembers every density it has seen, and no fields. -/
noncomputable def recordWindow : Env3 (List (ℤ → ℤ → ℝ)) := ⟨⟨11, 1, 1⟩, 1 / 10, 1, fun s rho _ => s ++ [rho], fun _ => noFields⟩

theorem record_noRush3 : NoRush3 recordWindow := by
  intro idx s s' r r' hdt h
  have e : ∀ w, fieldE3 recordWindow.cfg (idx * -recordWindow.cfg.dxi) (recordWindow.fields s) (recordWindow.fields s') w = ⟨0, 0, 0⟩ := by
    intro w; unfold fieldE3; simp only [show recordWindow.fields s = noFields from rfl, show recordWindow.fields s' = noFields from rfl, noFields, interp3_zero]
  have b : ∀ w, fieldB3 recordWindow.cfg (idx * -recordWindow.cfg.dxi) (recordWindow.fields s) (recordWindow.fields s') w = ⟨0, 0, 0⟩ := by
    intro w; unfold fieldB3; simp only [show recordWindow.fields s = noFields from rfl, show recordWindow.fields s' = noFields from rfl, noFields, interp3_zero]
  have hm : halfMomentum r ⟨0, 0, 0⟩ ⟨0, 0, 0⟩ = ⟨r.px, r.py, r.pz⟩ := by
    unfold halfMomentum; simp
  have hz : r.xi + r.dt * ((vel r.qm ⟨r.px, r.py, r.pz⟩).z - 1) ≤ r.xi + r.dt / 2 * ((vel r.qm ⟨r.px, r.py, r.pz⟩).z - 1) := by
    have := vel_z_le r.qm ⟨r.px, r.py, r.pz⟩
    nlinarith
  unfold turn at h
  simp only [e, b, hm] at h
  split_ifs at h with h1 h2 h3
  · rcases h with h | h <;> cases h
  · rcases h with h | h
    · cases h
    · injection h with h; subst h; exact le_rfl
  · rcases h with h | h
    · cases h
    · injection h with h; subst h; exact hz
  · rcases h with h | h
    · injection h with h; subst h; exact hz
    · cases h

/-- Non-vacuity of C45 in 3D. -/
example (front tail tail' : List (Row ℝ)) (h1 : ∀ p ∈ front, p.xi < 0 ∧ strip p = p) (h2 : ∀ p ∈ tail, p.xi < -8 ∧ strip p = p) (h3 : ∀ p ∈ tail', p.xi < -8 ∧ strip p = p) :
    (stAt (world3D recordWindow npArgsort fun _ => []) ((world3D recordWindow npArgsort fun _ => []).init (timeOf 1 4)) (seqLayers (world3D recordWindow npArgsort fun _ => []) 100 1 (front ++ tail) 4) 4).plasma =
      (stAt (world3D recordWindow npArgsort fun _ => []) ((world3D recordWindow npArgsort fun _ => []).init (timeOf 1 4)) (seqLayers (world3D recordWindow npArgsort fun _ => []) 100 1 (tail' ++ front) 4) 4).plasma := by
  have hx : (0 : ℝ) < recordWindow.cfg.dxi := by norm_num [recordWindow]
  have ed : recordWindow.cfg.dxi = 1 := rfl
  have b1 : ∀ p ∈ front ++ tail, p.xi < 0 ∧ strip p = p := by
    intro p hp; rcases List.mem_append.mp hp with h | h
    · exact h1 p h
    · exact ⟨by linarith [(h2 p h).1], (h2 p h).2⟩
  have b2 : ∀ p ∈ tail' ++ front, p.xi < 0 ∧ strip p = p := by
    intro p hp; rcases List.mem_append.mp hp with h | h
    · exact ⟨by linarith [(h3 p h).1], (h3 p h).2⟩
    · exact h1 p h
  have out : ∀ (t : List (Row ℝ)) (i : ℕ), i ≤ 7 → (∀ p ∈ t, p.xi < -8 ∧ strip p = p) → t.filter (fun p => decide (InLayer (1 : ℝ) i p.xi)) = [] := by
    intro t i hi ht
    rw [List.filter_eq_nil_iff]
    intro p hp h
    rw [decide_eq_true_eq] at h
    have hi' : (i : ℝ) ≤ 7 := by exact_mod_cast hi
    linarith [h.1, (ht p hp).1]
  refine (causality_3D recordWindow npArgsort npArgsort_correct hx (by norm_num [recordWindow]) record_noRush3 (fun _ => []) 100 1 (front ++ tail) (tail' ++ front) b1 b2 4 3 (by norm_num) ?_).2.1
  intro i hi _
  rw [ed, List.filter_append, List.filter_append, out tail i hi h2, out tail' i hi h3, List.append_nil, List.nil_append]

end Examples3
end Lcode.Mpi
