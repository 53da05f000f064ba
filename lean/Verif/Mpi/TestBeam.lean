import Verif.Mpi.Whole

/-!
Property C53, first part: beam particles without charge (test particles) influence nothing; whatever plasma solver.
-/

namespace Lcode.Mpi

/-! ### Specification -/

/-- `l'` is `l` with particles without charge (`q` is the charge) put in anywhere. -/
def WithTest {P : Type} (q : P → ℝ) (l l' : List P) : Prop := ∃ t : List P, (∀ p ∈ t, q p = 0) ∧ l'.Perm (l ++ t)

section Lists
variable {P : Type} {q : P → ℝ}

theorem WithTest.nil : WithTest q [] [] := ⟨[], by simp, by simp⟩

theorem WithTest.append {a a' b b' : List P} (h : WithTest q a a') (h' : WithTest q b b') : WithTest q (a ++ b) (a' ++ b') := by
  obtain ⟨t, h1, h2⟩ := h
  obtain ⟨u, k1, k2⟩ := h'
  refine ⟨t ++ u, ?_, ?_⟩
  · intro p hp
    rcases List.mem_append.1 hp with hp | hp
    · exact h1 p hp
    · exact k1 p hp
  · refine (h2.append k2).trans ?_
    rw [List.append_assoc, List.append_assoc]
    refine List.Perm.append_left a ?_
    rw [← List.append_assoc, ← List.append_assoc]
    exact List.perm_append_comm.append_right u

theorem WithTest.perm {a a' b b' : List P} (h : WithTest q a a') (h1 : a.Perm b) (h2 : a'.Perm b') : WithTest q b b' := by
  obtain ⟨t, k1, k2⟩ := h
  exact ⟨t, k1, h2.symm.trans (k2.trans (h1.append_right t))⟩

theorem WithTest.map {P' : Type} {q' : P' → ℝ} {a a' : List P} (h : WithTest q a a') (f : P → P') (hf : ∀ p, q p = 0 → q' (f p) = 0) : WithTest q' (a.map f) (a'.map f) := by
  obtain ⟨t, k1, k2⟩ := h
  refine ⟨t.map f, ?_, ?_⟩
  · intro p hp
    obtain ⟨p', hp', rfl⟩ := List.mem_map.1 hp
    exact hf p' (k1 p' hp')
  · rw [← List.map_append]; exact k2.map f

theorem WithTest.filter {a a' : List P} (h : WithTest q a a') (f : P → Bool) : WithTest q (a.filter f) (a'.filter f) := by
  obtain ⟨t, k1, k2⟩ := h
  refine ⟨t.filter f, fun p hp => k1 p (List.mem_filter.1 hp).1, ?_⟩
  rw [← List.filter_append]; exact k2.filter f

theorem WithTest.sum {a a' : List P} (h : WithTest q a a') (f : P → ℝ) (hf : ∀ p, q p = 0 → f p = 0) : (a'.map f).sum = (a.map f).sum := by
  obtain ⟨t, k1, k2⟩ := h
  rw [(k2.map f).sum_eq, List.map_append, List.sum_append]
  have : (t.map f).sum = 0 := by
    apply List.sum_eq_zero
    intro x hx
    obtain ⟨p, hp, rfl⟩ := List.mem_map.1 hx
    exact hf p (k1 p hp)
  rw [this, add_zero]

theorem WithTest.mem {a a' : List P} (h : WithTest q a a') : ∀ p ∈ a, p ∈ a' := by
  obtain ⟨t, k1, k2⟩ := h
  intro p hp
  exact k2.mem_iff.2 (List.mem_append_left _ hp)

/-- The particles with charge are the same. -/
theorem WithTest.charged {a a' : List P} (h : WithTest q a a') : (a'.filter fun p => decide (q p ≠ 0)).Perm (a.filter fun p => decide (q p ≠ 0)) := by
  obtain ⟨t, k1, k2⟩ := h
  refine (k2.filter _).trans ?_
  rw [List.filter_append]
  have : t.filter (fun p => decide (q p ≠ 0)) = [] := by
    rw [List.filter_eq_nil_iff]
    intro p hp
    simp [k1 p hp]
  rw [this, List.append_nil]

end Lists

/-! ### 2D -/

section TwoD
open Lcode.Beam2D
variable {σ : Type}

/-- The charge of a row. -/
def rowQ (t : Lcode.Beam2D.Row ℝ) : ℝ := t.1.qnorm

theorem layout_test (rStep xiStep : ℝ) (rho : ℤ → ℝ) (l l' : List (Particle ℝ)) (i : ℕ) (h : WithTest Particle.qnorm l l') : layoutBeamLayer rStep xiStep rho l i = layoutBeamLayer rStep xiStep rho l' i := by
  have hd : ∀ o0 o1 e, depositParticles l o0 o1 e rStep xiStep = depositParticles l' o0 o1 e rStep xiStep := by
    intro o0 o1 e
    refine Prod.ext ?_ ?_
    · funext k
      rw [(deposit_pointwise l o0 o1 e rStep xiStep k).1, (deposit_pointwise l' o0 o1 e rStep xiStep k).1, h.sum _ (fun p hp => by rw [hp]; ring)]
    · funext k
      rw [(deposit_pointwise l o0 o1 e rStep xiStep k).2, (deposit_pointwise l' o0 o1 e rStep xiStep k).2, h.sum _ (fun p hp => by rw [hp]; ring)]
  unfold layoutBeamLayer
  simp only [hd]

theorem pushRow_qnorm (c : PushCfg) (i : ℕ) (f1 f0 : Fields) (t : Lcode.Beam2D.Row ℝ) : (pushRow c i f1 f0 t).1.qnorm = t.1.qnorm := by
  have turn : ∀ xiEnd dt p p' l, pushTurn c xiEnd f1 f0 dt p = .inl (p', l) ∨ pushTurn c xiEnd f1 f0 dt p = .inr (p', l) → p'.qnorm = p.qnorm := by
    intro xiEnd dt p p' l h
    rcases pushTurn_cases c xiEnd f1 f0 dt p with ⟨-, h'⟩ | ⟨-, -, u, h', -, -, -, -, a, -⟩ | ⟨-, -, u, v, h', -, -, -, -, -, -, a, -⟩
    · rw [h'] at h; rcases h with h | h <;> simp at h; rw [h.1]
    · rw [h'] at h; rcases h with h | h <;> simp at h; rw [← h.1]; exact a
    · rw [h'] at h; rcases h with h | h <;> simp at h; rw [← h.1]; exact a
  have loop : ∀ xiEnd dt n p, (pushLoop c xiEnd f1 f0 dt n p).1.qnorm = p.qnorm := by
    intro xiEnd dt n
    induction n with
    | zero => intro p; rfl
    | succ n ih =>
      intro p
      rw [pushLoop]
      rcases h : pushTurn c xiEnd f1 f0 dt p with ⟨p', l⟩ | ⟨p', l⟩
      · exact turn _ _ _ _ _ (Or.inl h)
      · cases l
        · simp only [Bool.false_eq_true, if_false]
          rw [ih]; exact turn _ _ _ _ _ (Or.inr h)
        · exact turn _ _ _ _ _ (Or.inr h)
  unfold pushRow
  split_ifs
  · exact loop _ _ _ _
  · rfl

theorem initRow_qnorm (ts en : ℝ) (t : Lcode.Beam2D.Row ℝ) : (initRow ts en t).1.qnorm = t.1.qnorm := by
  unfold initRow
  split_ifs <;> rfl

/-- States of two layer loops: the same plasma, the same densities, the same beam up to test particles. -/
def TestSt2D (s s' : St2D σ) : Prop :=
  s.plasma = s'.plasma ∧ s.rhoLayout = s'.rhoLayout ∧ s.rhoPrev = s'.rhoPrev ∧ WithTest rowQ s.toMove.rows s'.toMove.rows ∧ s.toMove.WF ∧ s'.toMove.WF

theorem move_test (env : Env2D σ) (hs : IsArgsort boolLe env.argsortB) (b b' : Beam ℝ) (hb : b.WF) (hb' : b'.WF) (h : WithTest rowQ b.rows b'.rows) (i : ℕ) (f0 f1 : Fields) :
    WithTest rowQ (moveBeamLayer env b i f0 f1).2.1.rows (moveBeamLayer env b' i f0 f1).2.1.rows ∧ WithTest rowQ (moveBeamLayer env b i f0 f1).2.2.rows (moveBeamLayer env b' i f0 f1).2.2.rows ∧
      (moveBeamLayer env b i f0 f1).2.1.WF ∧ (moveBeamLayer env b' i f0 f1).2.1.WF ∧ (moveBeamLayer env b i f0 f1).2.2.WF ∧ (moveBeamLayer env b' i f0 f1).2.2.WF := by
  have push : ∀ b : Beam ℝ, b.WF → ∃ c : Beam ℝ, c.WF ∧
      c.rows = b.rows.map (fun t => pushRow env.cfg i f1 f0 (initRow env.timeStep env.energy t)) ∧
      moveBeamLayer env b i f0 f1 = splitBeamSlice env.argsortB c (i * -env.cfg.xiStep) := by
    intro b hb
    by_cases h0 : b.particles.length = 0
    · refine ⟨b, hb, ?_, by unfold moveBeamLayer; simp only [h0, if_true]⟩
      have : b.rows = [] := List.length_eq_zero_iff.1 (by rw [rows_length hb, h0])
      rw [this]; rfl
    · exact ⟨_, wf_mapRows _ b, rows_mapRows _ b, by unfold moveBeamLayer; simp only [h0, if_false]⟩
  obtain ⟨c, hc, hcr, e⟩ := push b hb
  obtain ⟨c', hc', hcr', e'⟩ := push b' hb'
  have hcc : WithTest rowQ c.rows c'.rows := by
    rw [hcr, hcr']
    refine h.map _ fun t ht => ?_
    show (pushRow _ _ _ _ _).1.qnorm = 0
    rw [pushRow_qnorm, initRow_qnorm]; exact ht
  obtain ⟨-, h2, h3, -, w2, w3⟩ := split_rows env.argsortB hs c hc (i * -env.cfg.xiStep)
  obtain ⟨-, h2', h3', -, w2', w3'⟩ := split_rows env.argsortB hs c' hc' (i * -env.cfg.xiStep)
  rw [e, e']
  exact ⟨(hcc.filter _).perm h2.symm h2'.symm, (hcc.filter _).perm h3.symm h3'.symm, w2, w2', w3, w3'⟩

theorem layer2D_test (env : Env2D σ) (hs : IsArgsort boolLe env.argsortB) (s s' : St2D σ) (j : ℕ) (l l' : List (Particle ℝ))
    (h : TestSt2D s s') (hl : WithTest Particle.qnorm l l') : TestSt2D (layer2D env s j l).1 (layer2D env s' j l').1 ∧ WithTest Particle.qnorm (layer2D env s j l).2 (layer2D env s' j l').2 := by
  obtain ⟨h1, h2, h3, h4, h5, h6⟩ := h
  have hlay := layout_test env.cfg.rStep env.cfg.xiStep s'.rhoLayout l l' j hl
  have hfr : (Beam.fresh l : Beam ℝ).particles = l := rfl
  have hfr' : (Beam.fresh l' : Beam ℝ).particles = l' := rfl
  unfold layer2D
  simp only [hfr, hfr', h1, h2, h3, hlay]
  obtain ⟨m1, m2, w1, w1', w2, w2'⟩ := move_test env hs s.toMove s'.toMove h5 h6 h4 j
    (env.fields s'.plasma) (env.fields (env.plasma s'.plasma (layoutBeamLayer env.cfg.rStep env.cfg.xiStep s'.rhoLayout l' j).1 s'.rhoPrev))
  refine ⟨⟨rfl, rfl, rfl, ?_, ?_, ?_⟩, ?_⟩
  · rw [(append_rows _ _ (wf_fresh l) w2).1, (append_rows _ _ (wf_fresh l') w2').1, rows_fresh, rows_fresh]
    exact (hl.map (q' := rowQ) (fun p => ((p, 0, 1, false) : Lcode.Beam2D.Row ℝ)) fun p hp => hp).append m2
  · exact (append_rows _ _ (wf_fresh l) w2).2
  · exact (append_rows _ _ (wf_fresh l') w2').2
  · rw [← rows_particles w1, ← rows_particles w1']
    exact m1.map _ fun t ht => ht

/-- What is finished in a 2D run is not ahead of the window head. -/
theorem allFinished_nonpos (env : Env2D σ) (hs : IsArgsort boolLe env.argsortB) (hf : IsArgsort (· ≤ ·) env.argsortF) (hx : 0 < env.cfg.xiStep) (hts : 0 ≤ env.timeStep) (plasma0 : ℝ → σ)
    (N : ℕ) (dt : ℝ) (b : List (Particle ℝ)) (g : ℕ) : ∀ p ∈ allFinished (world2D env plasma0) N dt g (seqLayers (world2D env plasma0) N dt b g), p.xi ≤ 0 := by
  intro p hp
  obtain ⟨j, -, hp⟩ := mem_allFinished hp
  exact finished_nonpos env hs hts plasma0 dt g _ (fun i => seqLayers_nonpos env plasma0 hf hx N dt b g i) j p hp

/-- C53 in 2D: particles without charge, put into the beam behind the window head, change no plasma state, no field and no beam density in any layer of any time step, and the beam after every time step is the
beam of the run without them, with particles without charge added. Nothing is required of the plasma, of the other particles' motion or of the number of test particles. -/
theorem test_particles_2D (env : Env2D σ) (plasma0 : ℝ → σ) (hs : IsArgsort boolLe env.argsortB) (hf : IsArgsort (· ≤ ·) env.argsortF) (hx : 0 < env.cfg.xiStep) (hts : 0 ≤ env.timeStep)
    (N : ℕ) (hlim : ((N : ℝ) + 1) * env.cfg.xiStep ≤ 99999) (dt : ℝ) (b b' : List (Particle ℝ)) (hb : WithTest Particle.qnorm b b') (hneg : ∀ p ∈ b', p.xi ≤ 0) (g : ℕ) :
    (∀ j, j ≤ N → WithTest Particle.qnorm (seqLayers (world2D env plasma0) N dt b g j) (seqLayers (world2D env plasma0) N dt b' g j)) ∧
    (∀ j, j ≤ N + 1 →
      (stAt (world2D env plasma0) ((world2D env plasma0).init (timeOf dt g)) (seqLayers (world2D env plasma0) N dt b g) j).plasma =
        (stAt (world2D env plasma0) ((world2D env plasma0).init (timeOf dt g)) (seqLayers (world2D env plasma0) N dt b' g) j).plasma ∧
      (stAt (world2D env plasma0) ((world2D env plasma0).init (timeOf dt g)) (seqLayers (world2D env plasma0) N dt b g) j).rhoPrev =
        (stAt (world2D env plasma0) ((world2D env plasma0).init (timeOf dt g)) (seqLayers (world2D env plasma0) N dt b' g) j).rhoPrev) ∧
    WithTest Particle.qnorm (allFinished (world2D env plasma0) N dt g (seqLayers (world2D env plasma0) N dt b g)) (allFinished (world2D env plasma0) N dt g (seqLayers (world2D env plasma0) N dt b' g)) := by
  obtain ⟨h1, h2, h3⟩ := run_rel (W := world2D env plasma0) (W' := world2D env plasma0) (LR := WithTest Particle.qnorm) (SR := TestSt2D) N dt WithTest.nil (fun _ _ _ _ h h' => h.append h') (fun _ b' => ∀ p ∈ b', p.xi ≤ 0)
    (fun b b' h ho j hj => (h.filter (fun p => decide (InLayer env.cfg.xiStep j p.xi))).perm (source2D env plasma0 hf hx N hlim b (fun p hp => ho p (h.mem p hp)) j hj).symm (source2D env plasma0 hf hx N hlim b' ho j hj).symm)
    (fun t => ⟨rfl, rfl, rfl, WithTest.nil, ⟨rfl, rfl, rfl⟩, ⟨rfl, rfl, rfl⟩⟩)
    (fun s s' j l l' h hl => layer2D_test env hs s s' j l l' h hl) b b' hb hneg (fun g => allFinished_nonpos env hs hf hx hts plasma0 N dt b' g) g
  exact ⟨h1, fun j hj => ⟨(h2 j hj).1, (h2 j hj).2.2.1⟩, h3⟩

/-- The condition on the place of the test particles is needed: one particle without charge ahead of the window head, put into any beam, stops the whole beam: no layer of any time step receives any particle. -/
theorem test_particle_ahead_2D (env : Env2D σ) (plasma0 : ℝ → σ) (hs : IsArgsort boolLe env.argsortB) (hf : IsArgsort (· ≤ ·) env.argsortF) (hx : 0 < env.cfg.xiStep) (hts : 0 ≤ env.timeStep) (N : ℕ) (dt : ℝ)
    (b : List (Particle ℝ)) (p : Particle ℝ) (hp : 0 < p.xi) (g j : ℕ) : seqLayers (world2D env plasma0) N dt (p :: b) g j = [] := by
  have h0 : ∀ j, seqLayers (world2D env plasma0) N dt (p :: b) 0 j = [] := blocked2D env plasma0 hf hx (p :: b) ⟨p, List.mem_cons_self, hp⟩
  induction g generalizing j with
  | zero => exact h0 j
  | succ g ih =>
    have hfin : allFinished (world2D env plasma0) N dt g (seqLayers (world2D env plasma0) N dt (p :: b) g) = [] := by
      rw [List.eq_nil_iff_forall_not_mem]
      intro q hq
      obtain ⟨i, -, hq⟩ := mem_allFinished hq
      exact finished_down (fun _ => False) (fun _ _ _ h => h) env hs hts plasma0 dt g _ (fun k r hr => by rw [ih k] at hr; simp at hr) i q hq
    rw [List.eq_nil_iff_forall_not_mem]
    intro q hq
    have := mem_srcLayer env plasma0 hf _ j q hq
    rw [hfin] at this
    simp at this

end TwoD

/-! ### 3D -/

section ThreeD
open Lcode.Beam3D
open Lcode.Beam2D (IsArgsort)
open Lcode.Plasma3D (Fields3)
variable {σ : Type}

theorem layout_test_3D (c : BCfg) (rho : Grid) (l l' : List (Row ℝ)) (i : ℕ) (h : WithTest Row.qnorm l l') : layoutBeamLayer c rho l i = layoutBeamLayer c rho l' i := by
  have hd : ∀ o0 o1, depositBeam c i l o0 o1 = depositBeam c i l' o0 o1 := by
    intro o0 o1
    refine Prod.ext ?_ ?_
    · funext a b
      rw [(depositBeam_shape c i l o0 o1 a b).1, (depositBeam_shape c i l' o0 o1 a b).1, h.sum _ (fun p hp => by rw [hp]; ring)]
    · funext a b
      rw [(depositBeam_shape c i l o0 o1 a b).2, (depositBeam_shape c i l' o0 o1 a b).2, h.sum _ (fun p hp => by rw [hp]; ring)]
  have e : ∀ m : List (Row ℝ), (if m.length ≠ 0 then depositBeam c i m rho (fun _ _ => 0) else (rho, fun _ _ => 0)) = depositBeam c i m rho (fun _ _ => 0) := by
    intro m
    rcases m with _ | ⟨r, m⟩
    · rfl
    · rw [if_pos (by simp)]
  unfold layoutBeamLayer
  simp only [e]
  rw [hd]

theorem pushRow_qnorm_3D (c : BCfg) (idx : ℤ) (F0 F1 : Fields3) (r : Row ℝ) : (pushRow c idx F0 F1 r).row.qnorm = r.qnorm := by
  have loop : ∀ n r, (pushLoop c idx F0 F1 n r).1.qnorm = r.qnorm := by
    intro n
    induction n with
    | zero => intro r; rfl
    | succ n ih =>
      intro r
      rw [pushLoop]
      rcases h : turn c idx F0 F1 r with _ | r' | r'
      · rfl
      · exact (turn_lost c idx F0 F1 r r' h).2.2.2.2.2.1
      · simp only
        rw [ih]; exact (turn_next c idx F0 F1 r r' h).2.2.2.2.2.1
  exact loop _ _

/-- States of two layer loops: the same plasma, the same densities, the same beam up to test particles. -/
def TestSt3D (s s' : St3D σ) : Prop :=
  s.plasma = s'.plasma ∧ s.rhoLayout = s'.rhoLayout ∧ s.rhoPrev = s'.rhoPrev ∧
    ∃ fresh fell fresh' fell', s.toMove = Beam.ofRows (fresh ++ fell) ∧ s.fellSize = fell.length ∧
      s'.toMove = Beam.ofRows (fresh' ++ fell') ∧ s'.fellSize = fell'.length ∧ WithTest Row.qnorm fresh fresh' ∧ WithTest Row.qnorm fell fell'

theorem layer3D_test (env : Env3 σ) (s s' : St3D σ) (j : ℕ) (l l' : List (Row ℝ)) (h : TestSt3D s s') (hl : WithTest Row.qnorm l l') :
    TestSt3D (layer3D env s j l).1 (layer3D env s' j l').1 ∧ WithTest Row.qnorm (layer3D env s j l).2 (layer3D env s' j l').2 := by
  obtain ⟨h1, h2, h3, fresh, fell, fresh', fell', a1, a2, b1, b2, p1, p2⟩ := h
  have hlay : layoutBeamLayer env.cfg s.rhoLayout l j = layoutBeamLayer env.cfg s'.rhoLayout l' j := by
    rw [h2]; exact layout_test_3D env.cfg _ l l' j hl
  have hpl : plasma3D env s j l = plasma3D env s' j l' := by
    unfold plasma3D; rw [hlay, h3, h1]
  have e1 := layer3D_rows env s fresh fell a1 a2 j l
  have e2 := layer3D_rows env s' fresh' fell' b1 b2 j l'
  simp only [hpl, h1] at e1
  have hres : ∀ q : Moved → Bool, WithTest Row.qnorm
      (((moved3D env j (env.fields s'.plasma) (env.fields (plasma3D env s' j l')) fresh fell).filter q).map Moved.row)
      (((moved3D env j (env.fields s'.plasma) (env.fields (plasma3D env s' j l')) fresh' fell').filter q).map Moved.row) := by
    intro q
    have hm : WithTest (fun m : Moved => m.row.qnorm) (moved3D env j (env.fields s'.plasma) (env.fields (plasma3D env s' j l')) fresh fell)
        (moved3D env j (env.fields s'.plasma) (env.fields (plasma3D env s' j l')) fresh' fell') :=
      ((p1.map (q' := Row.qnorm) (initRow env.timeStep env.energy) fun p hp => hp).append p2).map (q' := fun m : Moved => m.row.qnorm)
        (pushRow env.cfg ((j : ℤ) - 1) (env.fields s'.plasma) (env.fields (plasma3D env s' j l'))) fun p hp => (pushRow_qnorm_3D _ _ _ _ p).trans hp
    exact (hm.filter q).map _ fun m hm => hm
  simp only at e2
  rw [e1, e2, hlay]
  refine ⟨⟨rfl, rfl, rfl, l.map strip, _, l'.map strip, _, rfl, rfl, rfl, rfl, hl.map _ fun p hp => hp, hres _⟩, ?_⟩
  exact (hres _).map _ fun p hp => hp

/-- C53 in 3D: particles without charge, put into a beam behind the window head, change no plasma state, no field and no beam density in any layer of any time step, and the beam after every time step is the
beam of the run without them, with particles without charge added. -/
theorem test_particles_3D (env : Env3 σ) (argsort : List ℝ → List ℕ) (plasma0 : ℝ → σ) (hs : IsArgsort (· ≤ ·) argsort) (hd : 0 < env.cfg.dxi) (hts : 0 ≤ env.timeStep)
    (N : ℕ) (dt : ℝ) (b b' : List (Row ℝ)) (hb : WithTest Row.qnorm b b') (hneg : ∀ p ∈ b', p.xi < 0) (g : ℕ) :
    (∀ j, j ≤ N → WithTest Row.qnorm (seqLayers (world3D env argsort plasma0) N dt b g j) (seqLayers (world3D env argsort plasma0) N dt b' g j)) ∧
    (∀ j, j ≤ N + 1 →
      (stAt (world3D env argsort plasma0) ((world3D env argsort plasma0).init (timeOf dt g)) (seqLayers (world3D env argsort plasma0) N dt b g) j).plasma =
        (stAt (world3D env argsort plasma0) ((world3D env argsort plasma0).init (timeOf dt g)) (seqLayers (world3D env argsort plasma0) N dt b' g) j).plasma ∧
      (stAt (world3D env argsort plasma0) ((world3D env argsort plasma0).init (timeOf dt g)) (seqLayers (world3D env argsort plasma0) N dt b g) j).rhoPrev =
        (stAt (world3D env argsort plasma0) ((world3D env argsort plasma0).init (timeOf dt g)) (seqLayers (world3D env argsort plasma0) N dt b' g) j).rhoPrev) ∧
    WithTest Row.qnorm (allFinished (world3D env argsort plasma0) N dt g (seqLayers (world3D env argsort plasma0) N dt b g))
      (allFinished (world3D env argsort plasma0) N dt g (seqLayers (world3D env argsort plasma0) N dt b' g)) := by
  have hnegb : ∀ p ∈ b, p.xi < 0 := fun p hp => hneg p (hb.mem p hp)
  obtain ⟨h1, h2, h3⟩ := run_rel (W := world3D env argsort plasma0) (W' := world3D env argsort plasma0) (LR := WithTest Row.qnorm) (SR := TestSt3D) N dt WithTest.nil (fun _ _ _ _ h h' => h.append h')
    (fun b b' => ∀ p ∈ b', p.xi < 0)
    (fun b b' h ho j _ => ((h.filter (fun p => decide (InLayer env.cfg.dxi j p.xi))).map strip fun p hp => hp).perm (source3D env argsort hs hd plasma0 b (fun p hp => ho p (h.mem p hp)) j).symm
      (source3D env argsort hs hd plasma0 b' ho j).symm)
    (fun t => ⟨rfl, rfl, rfl, [], [], [], [], rfl, rfl, rfl, rfl, WithTest.nil, WithTest.nil⟩)
    (fun s s' j l l' h hl => layer3D_test env s s' j l l' h hl) b b' hb hneg
    (fun g => finished_behind_3D env argsort hs hd hts plasma0 N dt b' hneg g) g
  exact ⟨h1, fun j hj => ⟨(h2 j hj).1, (h2 j hj).2.2.1⟩, h3⟩

end ThreeD

/-- Non-vacuity: a beam of one charged particle and the same beam with two test particles around it, both behind the window entrance. -/
example : WithTest Beam3D.Row.qnorm [⟨-1, 0, 0, 0, 0, 100, 1, 3, 1, 0, 0⟩] [⟨-2, 0, 1, 0, 0, 100, 1, 0, 2, 0, 0⟩, ⟨-1, 0, 0, 0, 0, 100, 1, 3, 1, 0, 0⟩, (⟨-1 / 2, 0, 1, 0, 0, 100, 1, 0, 3, 0, 0⟩ : Beam3D.Row ℝ)] := by
  refine ⟨[⟨-2, 0, 1, 0, 0, 100, 1, 0, 2, 0, 0⟩, ⟨-1 / 2, 0, 1, 0, 0, 100, 1, 0, 3, 0, 0⟩], ?_, ?_⟩
  · intro p hp; simp at hp; rcases hp with rfl | rfl <;> rfl
  · exact List.Perm.swap _ _ _

end Lcode.Mpi
