import Verif.Mpi.Props
import Verif.Beam2D.SweepProps

/-!
The parallel run of a 2D simulation: the general theorems on parallel runs (Verif.Mpi.Props) applied to the model of the 2D beam
source and of the 2D layer loop (Verif.Beam2D), with an arbitrary plasma solver.
-/

namespace Lcode.Mpi

open Lcode.Beam2D

variable {σ : Type}

/-- Variables of the 2D layer loop (push_solver.py:89-96). -/
structure St2D (σ : Type) where
  plasma : σ
  rhoLayout : ℤ → ℝ
  rhoPrev : ℤ → ℝ
  toMove : Beam ℝ

/-- One iteration of the layer loop for the layer received, push_solver.py:98-129 (see `sweepStep`). -/
noncomputable def layer2D (env : Env2D σ) (s : St2D σ) (xiI : ℕ) (ps : List (Particle ℝ)) :
    St2D σ × List (Particle ℝ) :=
  let layer := Beam.fresh ps
  let rho := layoutBeamLayer env.cfg.rStep env.cfg.xiStep s.rhoLayout layer.particles xiI
  let plasma := env.plasma s.plasma rho.1 s.rhoPrev
  let r := moveBeamLayer env s.toMove xiI (env.fields s.plasma) (env.fields plasma)
  (⟨plasma, rho.2, rho.1, layer.append r.2.2⟩, r.2.1.particles)

/-- A 2D simulation as a world for the parallel run; `plasma0` is the initial plasma state at a physical time. -/
noncomputable def world2D (env : Env2D σ) (plasma0 : ℝ → σ) : World ℝ (Particle ℝ) where
  Src := Source ℝ
  St := St2D σ
  mkSrc b := Source.init env.argsortF (Beam.fresh b)
  pullSrc s j := ((s.getBeamLayer env.cfg.xiStep j).1.particles, (s.getBeamLayer env.cfg.xiStep j).2)
  init time := ⟨plasma0 time, fun _ => 0, fun _ => 0, ⟨[], [], [], []⟩⟩
  layer := layer2D env

theorem drain_push_slice (d : Drain ℝ) (b : Beam ℝ) : (d.push b).beamSlice = d.beamSlice ++ b.particles := by
  unfold Drain.push Drain.beamSlice
  split
  · simp
  · rename_i h
    have : b.particles = [] := List.length_eq_zero_iff.1 (by omega)
    rw [this]; simp

/-- The world is the model of `step_dt` of Verif.Beam2D.Sweep, cut at the interface to source and drain: the beam drained by `stepDt` is what the world finishes. -/
theorem world2D_is_stepDt (env : Env2D σ) (plasma0 : ℝ → σ) (dt : ℝ) (g : ℕ) (src : Source ℝ) (N : ℕ) :
    let W := world2D env plasma0
    (stepDt env (plasma0 (timeOf dt g)) src ⟨[], []⟩ N).drain.beamSlice =
      allFinished W N dt g (srcLayer W src) := by
  intro W
  have key : ∀ n, ∀ s, s = (List.range n).foldl (sweepStep env)
        (sweepInit (plasma0 (timeOf dt g)) src ⟨[], []⟩) →
      stAt W (W.init (timeOf dt g)) (srcLayer W src) n = ⟨s.plasma, s.rhoLayout, s.rhoPrev, s.toMove⟩ ∧
      srcAt W src n = s.source ∧
      s.drain.beamSlice = ((List.range n).map (finished W dt g (srcLayer W src))).flatten := by
    intro n
    induction n with
    | zero => rintro s rfl; exact ⟨rfl, rfl, rfl⟩
    | succ n ih =>
      rintro s' rfl
      obtain ⟨h1, h2, h3⟩ := ih _ rfl
      rw [List.range_succ, List.foldl_append, List.foldl_cons, List.foldl_nil]
      set s := (List.range n).foldl (sweepStep env) (sweepInit (plasma0 (timeOf dt g)) src ⟨[], []⟩) with hs
      have hl : Beam.fresh (srcLayer W src n) = (s.source.getBeamLayer env.cfg.xiStep n).1 := by
        unfold srcLayer
        rw [h2]; rfl
      have hout : W.layer (stAt W (W.init (timeOf dt g)) (srcLayer W src) n) n (srcLayer W src n) =
          layer2D env ⟨s.plasma, s.rhoLayout, s.rhoPrev, s.toMove⟩ n (srcLayer W src n) := by
        rw [h1]; rfl
      refine ⟨?_, ?_, ?_⟩
      · show (W.layer (stAt W _ _ n) n _).1 = _
        rw [hout]
        unfold layer2D
        simp only [hl]
        rfl
      · show (W.pullSrc (srcAt W src n) n).2 = _
        rw [h2]; rfl
      · rw [List.map_append, List.flatten_append, ← h3]
        have hd : (sweepStep env s n).drain.beamSlice = s.drain.beamSlice ++ finished W dt g (srcLayer W src) n := by
          unfold finished outAt
          rw [hout]
          unfold layer2D
          simp only [hl]
          exact drain_push_slice _ _
        rw [hd]; simp
  have := (key (N + 1) _ rfl).2.2
  exact this

/-! ### The 2D source -/

theorem inLayer_disjoint (h : ℝ) (hh : 0 < h) (i j : ℕ) (x : ℝ) (h1 : InLayer h i x) (h2 : InLayer h j x) :
    i = j := by
  unfold InLayer at h1 h2
  have key : ∀ i j : ℕ, -(((i : ℝ) + 1) * h) ≤ x → (x < -((j : ℝ) * h) ∨ j = 0) → j ≤ i := by
    intro i j ha hb
    rcases hb with hb | hb
    · have : (j : ℝ) * h < ((i : ℝ) + 1) * h := by linarith
      have : (j : ℝ) < (i : ℝ) + 1 := lt_of_mul_lt_mul_right this hh.le
      have : j < i + 1 := by exact_mod_cast this
      omega
    · omega
  have a := key i j h1.1 h2.2
  have b := key j i h2.1 h1.2
  omega

theorem srcInv_at (env : Env2D σ) (plasma0 : ℝ → σ) (hf : IsArgsort (· ≤ ·) env.argsortF)
    (hx : 0 < env.cfg.xiStep) (N : ℕ) (hlim : ((N : ℝ) + 1) * env.cfg.xiStep ≤ 99999)
    (b : List (Particle ℝ)) (hb : ∀ p ∈ b, p.xi ≤ 0) :
    ∃ S : List (Particle ℝ), S.Perm b ∧ S.Pairwise (fun p q => q.xi ≤ p.xi) ∧ ∀ j, j ≤ N + 1 →
      SrcInv S env.cfg.xiStep (srcAt (world2D env plasma0) ((world2D env plasma0).mkSrc b) j) j := by
  obtain ⟨S, h1, h2, h3⟩ := init_inv env.argsortF hf (Beam.fresh b) (wf_fresh b) hb env.cfg.xiStep
  refine ⟨S, h1, h2, ?_⟩
  intro j
  induction j with
  | zero => intro _; exact h3
  | succ j ih =>
    intro hj
    refine (getBeamLayer_step S h2 env.cfg.xiStep hx _ j (ih (by omega)) ?_).2
    have : (j : ℝ) ≤ N := by exact_mod_cast (by omega : j ≤ N)
    nlinarith

theorem source2D (env : Env2D σ) (plasma0 : ℝ → σ) (hf : IsArgsort (· ≤ ·) env.argsortF)
    (hx : 0 < env.cfg.xiStep) (N : ℕ) (hlim : ((N : ℝ) + 1) * env.cfg.xiStep ≤ 99999)
    (b : List (Particle ℝ)) (hb : ∀ p ∈ b, p.xi ≤ 0) (j : ℕ) (hj : j ≤ N) :
    (srcLayer (world2D env plasma0) ((world2D env plasma0).mkSrc b) j).Perm
      (b.filter fun p => decide (InLayer env.cfg.xiStep j p.xi)) := by
  obtain ⟨S, h1, h2, h3⟩ := srcInv_at env plasma0 hf hx N hlim b hb
  have hjl : ((j : ℝ) + 1) * env.cfg.xiStep ≤ 99999 := by
    have : (j : ℝ) ≤ N := by exact_mod_cast hj
    nlinarith
  have := (getBeamLayer_step S h2 env.cfg.xiStep hx _ j (h3 j (by omega)) hjl).1
  have e : srcLayer (world2D env plasma0) ((world2D env plasma0).mkSrc b) j =
      S.filter (fun p => decide (InLayer env.cfg.xiStep j p.xi)) := by
    show ((srcAt (world2D env plasma0) _ j).getBeamLayer env.cfg.xiStep j).1.particles = _
    rw [this]; rfl
  rw [e]
  exact h1.filter _

/-! ### Order of particles does not matter -/

theorem addAt_perm (out : ℤ → ℝ) (l l' : List (ℤ × ℝ)) (h : l.Perm l') : addAt out l = addAt out l' := by
  unfold addAt
  induction h generalizing out with
  | nil => rfl
  | cons x _ ih => exact ih _
  | swap a b l =>
    simp only [List.foldl_cons]
    congr 1
    funext i
    by_cases h1 : a.1 = b.1
    · simp only [h1, Function.update_self, Function.update_idem]
      by_cases hi : i = b.1
      · subst hi; simp only [Function.update_self]; ring
      · simp [Function.update_of_ne hi]
    · have h2 : b.1 ≠ a.1 := fun h => h1 h.symm
      rw [Function.update_of_ne h1, Function.update_of_ne h2]
      by_cases hi : i = a.1
      · subst hi; simp [Function.update_of_ne h1]
      · by_cases hj : i = b.1
        · subst hj; simp [Function.update_of_ne h2]
        · simp [Function.update_of_ne hi, Function.update_of_ne hj]
  | trans _ _ ih1 ih2 => exact (ih1 _).trans (ih2 _)

theorem layout_perm (rStep xiStep : ℝ) (rho : ℤ → ℝ) (l l' : List (Particle ℝ)) (i : ℕ) (h : l.Perm l') :
    layoutBeamLayer rStep xiStep rho l i = layoutBeamLayer rStep xiStep rho l' i := by
  have hd : ∀ o0 o1 e, depositParticles l o0 o1 e rStep xiStep = depositParticles l' o0 o1 e rStep xiStep := by
    intro o0 o1 e
    unfold depositParticles
    simp only
    have hw : (l.map fun p => (p.qnorm, beamParticleWeights p.r p.xi e rStep xiStep)).Perm
        (l'.map fun p => (p.qnorm, beamParticleWeights p.r p.xi e rStep xiStep)) := h.map _
    rw [addAt_perm o0 _ _ (hw.map _), addAt_perm _ _ _ (hw.map _), addAt_perm o1 _ _ (hw.map _),
      addAt_perm _ _ _ (hw.map _)]
  unfold layoutBeamLayer
  simp only [hd]

theorem move_perm (env : Env2D σ) (hs : IsArgsort boolLe env.argsortB) (b b' : Beam ℝ) (hb : b.WF) (hb' : b'.WF)
    (h : b.rows.Perm b'.rows) (i : ℕ) (f0 f1 : Fields) :
    let r := moveBeamLayer env b i f0 f1
    let r' := moveBeamLayer env b' i f0 f1
    r.2.1.rows.Perm r'.2.1.rows ∧ r.2.2.rows.Perm r'.2.2.rows ∧
      r.2.1.WF ∧ r'.2.1.WF ∧ r.2.2.WF ∧ r'.2.2.WF := by
  intro r r'
  -- the pushed beam
  have push : ∀ b : Beam ℝ, b.WF → ∃ c : Beam ℝ, c.WF ∧
      c.rows = b.rows.map (fun t => pushRow env.cfg i f1 f0 (initRow env.timeStep env.energy t)) ∧
      moveBeamLayer env b i f0 f1 = splitBeamSlice env.argsortB c (i * -env.cfg.xiStep) := by
    intro b hb
    by_cases h0 : b.particles.length = 0
    · refine ⟨b, hb, ?_, by unfold moveBeamLayer; simp only [h0, if_true]⟩
      have : b.rows = [] := List.length_eq_zero_iff.1 (by rw [rows_length hb, h0])
      rw [this]; rfl
    · exact ⟨_, wf_mapRows _ b, rows_mapRows _ b, by unfold moveBeamLayer; simp only [h0, if_false]⟩
  obtain ⟨c, hc, hcr, e⟩ := push b hb
  obtain ⟨c', hc', hcr', e'⟩ := push b' hb'
  have hcc : c.rows.Perm c'.rows := by rw [hcr, hcr']; exact h.map _
  obtain ⟨-, h2, h3, -, w2, w3⟩ := split_rows env.argsortB hs c hc (i * -env.cfg.xiStep)
  obtain ⟨-, h2', h3', -, w2', w3'⟩ := split_rows env.argsortB hs c' hc' (i * -env.cfg.xiStep)
  show (moveBeamLayer env b i f0 f1).2.1.rows.Perm (moveBeamLayer env b' i f0 f1).2.1.rows ∧
    (moveBeamLayer env b i f0 f1).2.2.rows.Perm (moveBeamLayer env b' i f0 f1).2.2.rows ∧
      (moveBeamLayer env b i f0 f1).2.1.WF ∧ (moveBeamLayer env b' i f0 f1).2.1.WF ∧
      (moveBeamLayer env b i f0 f1).2.2.WF ∧ (moveBeamLayer env b' i f0 f1).2.2.WF
  rw [e, e']
  exact ⟨h2.trans ((hcc.filter _).trans h2'.symm), h3.trans ((hcc.filter _).trans h3'.symm), w2, w2', w3, w3'⟩

/-- States of the 2D layer loop that differ only in the order of the particles still to be moved. -/
def Good (s s' : St2D σ) : Prop :=
  s.plasma = s'.plasma ∧ s.rhoLayout = s'.rhoLayout ∧ s.rhoPrev = s'.rhoPrev ∧
    s.toMove.rows.Perm s'.toMove.rows ∧ s.toMove.WF ∧ s'.toMove.WF

theorem layer2D_perm (env : Env2D σ) (hs : IsArgsort boolLe env.argsortB) (s s' : St2D σ) (j : ℕ)
    (l l' : List (Particle ℝ)) (h : Good s s') (hl : l.Perm l') :
    Good (layer2D env s j l).1 (layer2D env s' j l').1 ∧
      (layer2D env s j l).2.Perm (layer2D env s' j l').2 := by
  obtain ⟨h1, h2, h3, h4, h5, h6⟩ := h
  have hlay := layout_perm env.cfg.rStep env.cfg.xiStep s'.rhoLayout l l' j hl
  have hfr : (Beam.fresh l : Beam ℝ).particles = l := rfl
  have hfr' : (Beam.fresh l' : Beam ℝ).particles = l' := rfl
  unfold layer2D
  simp only [hfr, hfr', h1, h2, h3, hlay]
  set pl := env.plasma s'.plasma (layoutBeamLayer env.cfg.rStep env.cfg.xiStep s'.rhoLayout l' j).1 s'.rhoPrev
  obtain ⟨m1, m2, w1, w1', w2, w2'⟩ := move_perm env hs s.toMove s'.toMove h5 h6 h4 j
    (env.fields s'.plasma) (env.fields pl)
  refine ⟨⟨rfl, rfl, rfl, ?_, ?_, ?_⟩, ?_⟩
  · rw [(append_rows _ _ (wf_fresh l) w2).1, (append_rows _ _ (wf_fresh l') w2').1, rows_fresh, rows_fresh]
    exact (hl.map _).append m2
  · exact (append_rows _ _ (wf_fresh l) w2).2
  · exact (append_rows _ _ (wf_fresh l') w2').2
  · rw [← rows_particles w1, ← rows_particles w1']
    exact m1.map _

theorem faithful2D (env : Env2D σ) (plasma0 : ℝ → σ) (hs : IsArgsort boolLe env.argsortB)
    (hf : IsArgsort (· ≤ ·) env.argsortF) (hx : 0 < env.cfg.xiStep) (N : ℕ)
    (hlim : ((N : ℝ) + 1) * env.cfg.xiStep ≤ 99999) :
    Faithful (world2D env plasma0) N (fun j p => decide (InLayer env.cfg.xiStep j p.xi)) (fun p => p.xi ≤ 0) Good where
  disjoint i j p h1 h2 := inLayer_disjoint _ hx i j p.xi (of_decide_eq_true h1) (of_decide_eq_true h2)
  source b hb j hj := source2D env plasma0 hf hx N hlim b hb j hj
  init _ := ⟨rfl, rfl, rfl, List.Perm.refl _, ⟨rfl, rfl, rfl⟩, ⟨rfl, rfl, rfl⟩⟩
  layer s s' j l l' h hl := layer2D_perm env hs s s' j l l' h hl

/-- The beam waiting to be moved is well-formed, and empty before layer 0. -/
theorem stAt_wf (env : Env2D σ) (hs : IsArgsort boolLe env.argsortB) (plasma0 : ℝ → σ) (time : ℝ)
    (inp : ℕ → List (Particle ℝ)) (j : ℕ) :
    (stAt (world2D env plasma0) ((world2D env plasma0).init time) inp j).toMove.WF := by
  induction j with
  | zero => exact ⟨rfl, rfl, rfl⟩
  | succ j ih =>
    show (layer2D env _ j (inp j)).1.toMove.WF
    exact (append_rows _ _ (wf_fresh _) (moveBeamLayer_conserves env hs _ ih j _ _).2.2.2).2

theorem nothing_finishes_first (env : Env2D σ) (hs : IsArgsort boolLe env.argsortB) (plasma0 : ℝ → σ) (dt : ℝ)
    (g : ℕ) (inp : ℕ → List (Particle ℝ)) : finished (world2D env plasma0) dt g inp 0 = [] := by
  unfold finished outAt
  show (layer2D env ⟨_, _, _, ⟨[], [], [], []⟩⟩ 0 (inp 0)).2 = []
  unfold layer2D
  simp only
  generalize (env.fields (env.plasma _ _ _)) = f1
  have hw : (⟨[], [], [], []⟩ : Beam ℝ).WF := ⟨rfl, rfl, rfl⟩
  obtain ⟨hm, w1, w2, w3⟩ := moveBeamLayer_conserves env hs ⟨[], [], [], []⟩ hw 0
    (env.fields (plasma0 (timeOf dt g))) f1
  have hl := hm.length_eq
  simp only [List.length_append] at hl
  have h0 : (rowIds (moveBeamLayer env ⟨[], [], [], []⟩ 0 (env.fields (plasma0 (timeOf dt g))) f1).2.1.rows).length = 0 := by
    have : (rowIds (Beam.rows (⟨[], [], [], []⟩ : Beam ℝ))).length = 0 := rfl
    omega
  rw [← List.length_eq_zero_iff, ← rows_length w2]
  simpa [rowIds] using h0

/-- No particle that finishes moving in iteration `j` is ahead of the layer just processed (it would have overtaken the co-moving frame within the step:
the pusher lets it happen only to a particle that the half-step test sent to the next layer and that is then strongly accelerated). -/
def NoOvertaking (env : Env2D σ) (plasma0 : ℝ → σ) (N : ℕ) (dt : ℝ) (b0 : List (Particle ℝ)) : Prop :=
  ∀ g j, 1 ≤ j → j ≤ N → ∀ p ∈ finished (world2D env plasma0) dt g (seqLayers (world2D env plasma0) N dt b0 g) j,
    p.xi ≤ 0 ∧ (p.xi < -(((j - 1 : ℕ) : ℝ) * env.cfg.xiStep) ∨ j = 1)

theorem causal2D (env : Env2D σ) (plasma0 : ℝ → σ) (hs : IsArgsort boolLe env.argsortB) (N : ℕ) (dt : ℝ)
    (b0 : List (Particle ℝ)) (hno : NoOvertaking env plasma0 N dt b0) (T : ℕ) :
    Causal (world2D env plasma0) N dt b0 T (fun j p => decide (InLayer env.cfg.xiStep j p.xi)) (fun p => p.xi ≤ 0) := by
  intro g _ j hj p hp
  have hj1 : 1 ≤ j := by
    by_contra h
    have : j = 0 := by omega
    subst this
    rw [nothing_finishes_first env hs] at hp
    simp at hp
  obtain ⟨h1, h2⟩ := hno g j hj1 hj p hp
  refine ⟨h1, hj1, ?_⟩
  rw [decide_eq_true_eq]
  unfold InLayer
  have hcast : (((j - 1 : ℕ) : ℝ) + 1) = j := by
    rw [Nat.cast_sub hj1]; simp
  refine ⟨?_, ?_⟩
  · rw [hcast]
    have hw := stAt_wf env hs plasma0 (timeOf dt g) (seqLayers (world2D env plasma0) N dt b0 g) j
    unfold finished outAt at hp
    set st := stAt (world2D env plasma0) ((world2D env plasma0).init (timeOf dt g))
      (seqLayers (world2D env plasma0) N dt b0 g) j with hst
    set fa := env.fields st.plasma
    set fb := env.fields (layer2D env st j (seqLayers (world2D env plasma0) N dt b0 g j)).1.plasma
    have hp' : p ∈ (moveBeamLayer env st.toMove j fa fb).2.1.particles := hp
    rw [← rows_particles (moveBeamLayer_conserves env hs st.toMove hw j fa fb).2.2.1, List.mem_map] at hp'
    obtain ⟨t, ht, rfl⟩ := hp'
    have := (drained_finished env hs st.toMove hw j _ _ t ht).2.1
    linarith
  · rcases h2 with h2 | h2
    · exact Or.inl h2
    · right; omega

/-- C12 for 2D simulations: with any plasma solver, any number of processes and any schedule, when the parallel run ends every time step shows the
physical time, the layers and the final beam of the single-process run, up to the order of particles within a layer. -/
theorem parallel_equals_sequential_2D (env : Env2D σ) (plasma0 : ℝ → σ) (hs : IsArgsort boolLe env.argsortB)
    (hf : IsArgsort (· ≤ ·) env.argsortF) (hx : 0 < env.cfg.xiStep) (N : ℕ)
    (hlim : ((N : ℝ) + 1) * env.cfg.xiStep ≤ 99999) (size steps : ℕ) (dt : ℝ) (b0 : List (Particle ℝ))
    (hno : NoOvertaking env plasma0 N dt b0) (k : ℕ)
    (n : Net (List (Particle ℝ)) (List (Entry ℝ (Particle ℝ))))
    (hn : Steps size k (start (world2D env plasma0) size steps N dt b0) n)
    (hend : ∀ n', ¬ Step size n n') (r : ℕ) (hr : r < size) :
    ∃ log : List (Entry ℝ (Particle ℝ)), n.procs r = .done log ∧
      ∀ g, g < steps → g % size = r → ∃ e, log[g / size]? = some e ∧ e.time = dt * ((g : ℝ) + 1) ∧
        List.Forall₂ List.Perm e.layers
          ((List.range (N + 1)).map (seqLayers (world2D env plasma0) N dt b0 g)) ∧
        e.drained.Perm (allFinished (world2D env plasma0) N dt g (seqLayers (world2D env plasma0) N dt b0 g)) :=
  parallel_equals_sequential (faithful2D env plasma0 hs hf hx N hlim) size steps dt b0
    (causal2D env plasma0 hs N dt b0 hno steps) k n hn hend r hr

/-! ### Sources are exhausted after a time step (used by C13) -/

theorem findEnd_below (xiMax xiMin : ℝ) (start : ℕ) (l : List ℝ) (i : ℕ) (h : ∀ x ∈ l, x < xiMin) :
    findEnd xiMax xiMin start l i = (i, false) := by
  cases l with
  | nil => rfl
  | cons x l =>
    unfold findEnd
    have := h x (by simp)
    rw [if_pos (by linarith)]

theorem exhausts_behind (env : Env2D σ) (plasma0 : ℝ → σ) (hf : IsArgsort (· ≤ ·) env.argsortF)
    (hx : 0 < env.cfg.xiStep) (N : ℕ) (hlim : ((N : ℝ) + 1) * env.cfg.xiStep ≤ 99999) (b : List (Particle ℝ))
    (hb : ∀ p ∈ b, p.xi ≤ 0) (j : ℕ) (hj : j ≤ N) :
    srcLayer (world2D env plasma0) (srcAt (world2D env plasma0) ((world2D env plasma0).mkSrc b) (N + 1)) j = [] := by
  obtain ⟨S, h1, h2, h3⟩ := srcInv_at env plasma0 hf hx N hlim b hb
  have hI := h3 (N + 1) le_rfl
  set s := srcAt (world2D env plasma0) ((world2D env plasma0).mkSrc b) (N + 1) with hs
  have hstep : ∀ j, j ≤ N → Source.getBeamLayer s env.cfg.xiStep j = (Beam.fresh [], s) := by
    intro j hj
    unfold Source.getBeamLayer Source.getBeamSlice findSubSlice
    rw [findEnd_below]
    · simp only [Nat.sub_self, Nat.add_zero]
      have : slice s.particles s.used s.used = [] := by
        unfold slice; rw [List.drop_eq_nil_iff]; simp
      rw [this]
      rfl
    · intro x hxm
      rw [hI.xi, ← List.map_drop, List.mem_map] at hxm
      obtain ⟨p, hp, rfl⟩ := hxm
      rcases hI.after p hp with h | h
      · have : (j : ℝ) ≤ N := by exact_mod_cast hj
        push_cast at h
        nlinarith
      · omega
  have hat : ∀ j, j ≤ N + 1 → srcAt (world2D env plasma0) s j = s := by
    intro j
    induction j with
    | zero => intro _; rfl
    | succ j ih =>
      intro hj
      show (Source.getBeamLayer (srcAt (world2D env plasma0) s j) env.cfg.xiStep j).2 = s
      rw [ih (by omega), hstep j (by omega)]
  show (Source.getBeamLayer (srcAt (world2D env plasma0) s j) env.cfg.xiStep j).1.particles = []
  rw [hat j (by omega), hstep j hj]
  rfl

/-- The 2D source hands out nothing after a sweep over the window, whatever beam it was made from. -/
theorem exhausts2D (env : Env2D σ) (plasma0 : ℝ → σ) (hf : IsArgsort (· ≤ ·) env.argsortF)
    (hx : 0 < env.cfg.xiStep) (N : ℕ) (hlim : ((N : ℝ) + 1) * env.cfg.xiStep ≤ 99999) :
    Exhausts (world2D env plasma0) N := by
  intro b j hj
  by_cases hb : ∀ p ∈ b, p.xi ≤ 0
  · exact exhausts_behind env plasma0 hf hx N hlim b hb j hj
  · -- a particle ahead of the window blocks the source
    push Not at hb
    obtain ⟨p, hp, hpx⟩ := hb
    obtain ⟨h1, h2, h3⟩ := sort_rows env.argsortF hf (Beam.fresh b) (wf_fresh b)
    have hperm : ((Beam.fresh b).sort env.argsortF).particles.Perm b := by
      have := h1.map (fun t => t.1)
      rwa [rows_particles h2, rows_particles (wf_fresh b)] at this
    have hne : b ≠ [] := fun h => by rw [h] at hp; simp at hp
    set S := ((Beam.fresh b).sort env.argsortF).particles with hS
    have hmem : p ∈ S := hperm.mem_iff.2 hp
    obtain ⟨x, xs, hxs⟩ := List.exists_cons_of_ne_nil (List.ne_nil_of_mem hmem)
    have hx0 : 0 < x.xi := by
      rw [hxs] at h3 hmem
      rcases List.mem_cons.1 hmem with h | h
      · rw [← h]; exact hpx
      · exact lt_of_lt_of_le hpx ((List.pairwise_cons.1 h3).1 p h)
    set s0 := (world2D env plasma0).mkSrc b with hs0
    have hs0x : s0.xi = x.xi :: xs.map Particle.xi := by
      show (Source.init env.argsortF (Beam.fresh b)).xi = _
      unfold Source.init
      rw [if_neg (by exact hne)]
      show S.map Particle.xi = _
      rw [hxs]; rfl
    have hs0u : s0.used = 0 := by
      show (Source.init env.argsortF (Beam.fresh b)).used = _
      unfold Source.init
      split <;> rfl
    have hstep : ∀ j, Source.getBeamLayer s0 env.cfg.xiStep j = (Beam.fresh [], s0) := by
      intro j
      have hb := source_blocked_by_head s0 env.cfg.xiStep hx x.xi (xs.map Particle.xi)
        (by rw [hs0u, hs0x]; rfl) hx0 j 1
      simp only [Source.layers, List.replicate_one, List.cons.injEq, and_true] at hb
      exact Prod.ext hb.1 hb.2
    have hat : ∀ j, srcAt (world2D env plasma0) s0 j = s0 := by
      intro j
      induction j with
      | zero => rfl
      | succ j ih =>
        show (Source.getBeamLayer (srcAt (world2D env plasma0) s0 j) env.cfg.xiStep j).2 = s0
        rw [ih, hstep j]
    rw [hat]
    show (Source.getBeamLayer (srcAt (world2D env plasma0) s0 j) env.cfg.xiStep j).1.particles = []
    rw [hat, hstep]
    rfl

/-- C13 for 2D simulations: the first time step of a second call gets no beam. -/
theorem second_call_starts_empty_2D (env : Env2D σ) (plasma0 : ℝ → σ) (hf : IsArgsort (· ≤ ·) env.argsortF)
    (hx : 0 < env.cfg.xiStep) (N : ℕ) (hlim : ((N : ℝ) + 1) * env.cfg.xiStep ≤ 99999)
    (dt : ℝ) (b0 : List (Particle ℝ)) (a b : ℕ) (ha : 0 < a)
    (tr1 tr2 : List (Ev (List (Particle ℝ)))) (s1 s2 : Sim (world2D env plasma0))
    (log1 log2 : List (Entry ℝ (Particle ℝ)))
    (h1 : Follows (Sim.step (world2D env plasma0) 1 0 N dt ⟨b0, none⟩ a) tr1 (s1, log1))
    (h2 : Follows (Sim.step (world2D env plasma0) 1 0 N dt s1 b) tr2 (s2, log2)) :
    ∃ e rest, log2 = e :: rest ∧ e.layers = List.replicate (N + 1) [] :=
  second_call_starts_empty _ N (exhausts2D env plasma0 hf hx N hlim) dt b0 a b ha tr1 tr2 s1 s2 log1 log2 h1 h2

end Lcode.Mpi
