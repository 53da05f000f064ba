import Verif.Mpi.World2D

/-!
When does a 2D beam not overtake the layer just processed? A sufficient condition on the pusher, and a concrete run that meets all hypotheses of C12.
-/

namespace Lcode.Mpi

open Lcode.Beam2D

variable {σ : Type}

/-- No turn of the pusher carries a particle ahead of its own half-step point (the point that decides whether it is still in the
layer): particles are not accelerated from one side of it to the other within a substep. -/
def NoRush (env : Env2D σ) : Prop :=
  ∀ (xiEnd : ℝ) (s s' : σ) (dt : ℝ) (p p' : Particle ℝ) (l : Bool), 0 ≤ dt →
    pushTurn env.cfg xiEnd (env.fields s) (env.fields s') dt p = .inr (p', l) → p'.xi ≤ (halfPosition dt p).z

theorem half_zero (p : Particle ℝ) : (halfPosition 0 p).z = p.xi := by
  simp [halfPosition]

theorem pushLoop_facts (c : PushCfg) (xiEnd : ℝ) (f1 f0 : Fields) (dt : ℝ) (n : ℕ) (p : Particle ℝ)
    (hr : ∀ p p' l, pushTurn c xiEnd f1 f0 dt p = .inr (p', l) → p'.xi ≤ (halfPosition dt p).z)
    (hdt : 0 ≤ dt) :
    let out := pushLoop c xiEnd f1 f0 dt n p
    (0 < out.2.1 → out.2.2 = false → (halfPosition dt out.1).z < xiEnd) ∧
    (0 < n → out.2.1 = 0 → out.1.xi ≤ (halfPosition dt p).z) := by
  induction n generalizing p with
  | zero => simp [pushLoop]
  | succ n ih =>
    intro out
    rcases pushTurn_cases c xiEnd f1 f0 dt p with ⟨hz, h⟩ | ⟨_, _, p', h, -⟩ | ⟨_, _, p', lost, h, -⟩
    · have : out = (p, n + 1, false) := by show pushLoop _ _ _ _ _ _ _ = _; simp [pushLoop, h]
      rw [this]; simp only; exact ⟨fun _ _ => not_le.1 hz, by omega⟩
    · have : out = (p', n + 1, true) := by show pushLoop _ _ _ _ _ _ _ = _; simp [pushLoop, h]
      rw [this]; simp
    · cases lost with
      | true =>
        have : out = (p', n, true) := by show pushLoop _ _ _ _ _ _ _ = _; simp [pushLoop, h]
        rw [this]; simp only; exact ⟨by simp, fun _ _ => hr p p' true h⟩
      | false =>
        have : out = pushLoop c xiEnd f1 f0 dt n p' := by
          show pushLoop _ _ _ _ _ _ _ = _; simp [pushLoop, h]
        rw [this]
        refine ⟨(ih p').1, fun _ _ => ?_⟩
        exact (push_causal c xiEnd f1 f0 dt hdt n p').1.trans (hr p p' false h)

theorem substepFraction_nonneg (qm pz e : ℝ) : 0 ≤ substepFraction qm pz e := by
  unfold substepFraction
  split_ifs with h
  · obtain ⟨fuel, hf⟩ := h.choose_spec
    obtain ⟨k, -, hk, -⟩ := halvingLoop_spec _ _ _ _ hf
    rw [hk]; positivity
  · exact le_rfl

/-- What is known of a row waiting to be moved in iteration `j`. -/
def Waiting (h : ℝ) (j : ℕ) (t : Row ℝ) : Prop :=
  0 ≤ t.2.1 ∧ t.1.xi ≤ 0 ∧
    ((t.1.xi < -(((j : ℝ) - 1) * h) ∨ j = 1) ∨
      (t.2.1 ≠ 0 ∧ 0 < t.2.2.1 ∧ (halfPosition t.2.1 t.1).z < -(((j : ℝ) - 1) * h)))

theorem initRow_facts (ts e : ℝ) (hts : 0 ≤ ts) (t : Row ℝ) (h : 0 ≤ t.2.1) :
    0 ≤ (initRow ts e t).2.1 ∧ (initRow ts e t).1 = t.1 ∧ (t.2.1 ≠ 0 → initRow ts e t = t) := by
  unfold initRow
  split_ifs with h1 h2
  · exact ⟨hts, rfl, fun h => absurd h1 h⟩
  · refine ⟨?_, rfl, fun h => absurd h1 h⟩
    simp only [substepsOf]
    exact mul_nonneg (substepFraction_nonneg _ _ _) hts
  · exact ⟨h, rfl, fun _ => rfl⟩

/-- One row through iteration `j`. -/
theorem row_step (env : Env2D σ) (hr : NoRush env) (hts : 0 ≤ env.timeStep) (j : ℕ) (s s' : σ) (t : Row ℝ)
    (hw : Waiting env.cfg.xiStep j t) :
    let t' := pushRow env.cfg j (env.fields s) (env.fields s') (initRow env.timeStep env.energy t)
    t'.1.xi ≤ 0 ∧ 0 ≤ t'.2.1 ∧
    (t'.2.2.1 ≤ 0 → t'.1.xi < -(((j : ℝ) - 1) * env.cfg.xiStep) ∨ j = 1) ∧
    (t'.2.2.2 = false → 0 < t'.2.2.1 → (halfPosition t'.2.1 t'.1).z < j * -env.cfg.xiStep) := by
  obtain ⟨w1, w2, w3⟩ := hw
  obtain ⟨i1, i2, i3⟩ := initRow_facts env.timeStep env.energy hts t w1
  set u := initRow env.timeStep env.energy t with hu
  intro t'
  by_cases h0 : u.2.2.1 > 0
  · obtain ⟨n, hn⟩ : ∃ n : ℕ, u.2.2.1.toNat = n + 1 := ⟨u.2.2.1.toNat - 1, by omega⟩
    set out := pushLoop env.cfg (j * -env.cfg.xiStep) (env.fields s) (env.fields s') u.2.1 u.2.2.1.toNat u.1
      with hout
    have ht' : t' = (out.1, u.2.1, (out.2.1 : ℤ), u.2.2.2 || out.2.2) := by
      show pushRow _ _ _ _ _ = _
      unfold pushRow; rw [if_pos h0]
    have hc := push_causal env.cfg (j * -env.cfg.xiStep) (env.fields s) (env.fields s') u.2.1 i1 u.2.2.1.toNat u.1
    have hf := pushLoop_facts env.cfg (j * -env.cfg.xiStep) (env.fields s) (env.fields s') u.2.1 u.2.2.1.toNat u.1
      (fun p p' l h => hr _ s s' _ p p' l i1 h) i1
    rw [← hout] at hc hf
    rw [ht']
    refine ⟨hc.1.trans (by rw [i2]; exact w2), i1, ?_, ?_⟩
    · intro hz
      simp only at hz ⊢
      rcases w3 with (h | h) | ⟨h1, h2, h3⟩
      · left
        have := hc.1
        rw [i2] at this
        linarith
      · exact Or.inr h
      · left
        have := hf.2 (by omega) (by omega)
        rw [i3 h1] at this
        linarith
    · intro hl hz
      simp only [Bool.or_eq_false_iff] at hl
      have hz' : (0:ℤ) < (out.2.1:ℤ) := hz
      exact hf.1 (by exact_mod_cast hz') hl.2
  · have ht' : t' = u := by
      show pushRow _ _ _ _ _ = _
      unfold pushRow; rw [if_neg h0]
    rw [ht']
    refine ⟨by rw [i2]; exact w2, i1, ?_, fun _ h => absurd h h0⟩
    intro _
    rcases w3 with h | ⟨h1, h2, -⟩
    · rw [i2]; exact h
    · rw [i3 h1] at h0; exact absurd h2 h0

theorem waiting_next (h : ℝ) (j : ℕ) (t' : Row ℝ) (h1 : t'.1.xi ≤ 0) (h2 : 0 ≤ t'.2.1)
    (h3 : t'.2.2.2 = false → 0 < t'.2.2.1 → (halfPosition t'.2.1 t'.1).z < j * -h)
    (hl : t'.2.2.2 = false) (hf : 0 < t'.2.2.1 ∨ t'.1.xi < j * -h) : Waiting h (j + 1) t' := by
  refine ⟨h2, h1, ?_⟩
  have e : -((((j + 1 : ℕ) : ℝ) - 1) * h) = j * -h := by push_cast; ring
  rw [e]
  by_cases hx : t'.1.xi < j * -h
  · exact Or.inl (Or.inl hx)
  · have hpos : 0 < t'.2.2.1 := hf.resolve_right hx
    have hz := h3 hl hpos
    refine Or.inr ⟨?_, hpos, hz⟩
    intro h0
    rw [h0, half_zero] at hz
    exact hx hz

/-- All rows through `move_beam_layer`. -/
theorem move_rows (env : Env2D σ) (hs : IsArgsort boolLe env.argsortB) (hr : NoRush env) (hts : 0 ≤ env.timeStep)
    (b : Beam ℝ) (hb : b.WF) (j : ℕ) (s s' : σ) (hw : ∀ t ∈ b.rows, Waiting env.cfg.xiStep j t) :
    let r := moveBeamLayer env b j (env.fields s') (env.fields s)
    (∀ t ∈ r.2.1.rows, t.1.xi ≤ 0 ∧ (t.1.xi < -(((j : ℝ) - 1) * env.cfg.xiStep) ∨ j = 1)) ∧
    (∀ t ∈ r.2.2.rows, Waiting env.cfg.xiStep (j + 1) t) := by
  simp only [moveBeamLayer]
  set b' := if b.particles.length = 0 then b
    else b.mapRows (fun t => pushRow env.cfg j (env.fields s) (env.fields s') (initRow env.timeStep env.energy t)) with hb'
  have hwf' : b'.WF := by
    rw [hb']; split_ifs
    · exact hb
    · exact wf_mapRows _ _
  have hrows : ∀ t' ∈ b'.rows, ∃ t, t ∈ b.rows ∧
      t' = pushRow env.cfg j (env.fields s) (env.fields s') (initRow env.timeStep env.energy t) := by
    intro t' ht'
    rw [hb'] at ht'
    split_ifs at ht' with h0
    · have : b.rows = [] := List.length_eq_zero_iff.1 (by rw [rows_length hb, h0])
      rw [this] at ht'; simp at ht'
    · rw [rows_mapRows, List.mem_map] at ht'
      obtain ⟨t, ht, rfl⟩ := ht'
      exact ⟨t, ht, rfl⟩
  obtain ⟨-, h2, h3, -, -, -⟩ := split_rows env.argsortB hs b' hwf' (j * -env.cfg.xiStep)
  constructor
  · intro t ht
    have hm := h2.mem_iff.mp ht
    simp only [List.mem_filter, Bool.and_eq_true, decide_eq_true_eq, Bool.not_eq_eq_eq_not, Bool.not_true] at hm
    obtain ⟨t0, ht0, rfl⟩ := hrows t hm.1
    have := row_step env hr hts j s s' t0 (hw t0 ht0)
    exact ⟨this.1, this.2.2.1 hm.2.1.2⟩
  · intro t ht
    have hm := h3.mem_iff.mp ht
    simp only [List.mem_filter, Bool.and_eq_true, Bool.or_eq_true, decide_eq_true_eq, Bool.not_eq_eq_eq_not,
      Bool.not_true] at hm
    obtain ⟨t0, ht0, rfl⟩ := hrows t hm.1
    have := row_step env hr hts j s s' t0 (hw t0 ht0)
    exact waiting_next _ j _ this.1 this.2.1 this.2.2.2 hm.2.1 hm.2.2

/-- A time step whose layers lie where they should: everything that finishes lies behind the head of the layer just processed. -/
theorem finished_behind (env : Env2D σ) (hs : IsArgsort boolLe env.argsortB) (hr : NoRush env)
    (hts : 0 ≤ env.timeStep) (plasma0 : ℝ → σ) (dt : ℝ) (g N : ℕ) (inp : ℕ → List (Particle ℝ))
    (hin : ∀ j, j ≤ N → ∀ p ∈ inp j, p.xi ≤ 0 ∧ InLayer env.cfg.xiStep j p.xi) (j : ℕ) (hj : j ≤ N)
    (p : Particle ℝ) (hp : p ∈ finished (world2D env plasma0) dt g inp j) :
    p.xi ≤ 0 ∧ (p.xi < -(((j : ℝ) - 1) * env.cfg.xiStep) ∨ j = 1) := by
  have hinv : ∀ j, j ≤ N → ∀ t ∈ (stAt (world2D env plasma0) ((world2D env plasma0).init (timeOf dt g)) inp j).toMove.rows,
      Waiting env.cfg.xiStep j t := by
    intro j
    induction j with
    | zero => intro _ t ht; simp [stAt, world2D, Beam.rows] at ht
    | succ j ih =>
      intro hj t ht
      have hwf := stAt_wf env hs plasma0 (timeOf dt g) inp j
      set st := stAt (world2D env plasma0) ((world2D env plasma0).init (timeOf dt g)) inp j with hst
      have hmr := move_rows env hs hr hts st.toMove hwf j (layer2D env st j (inp j)).1.plasma st.plasma
        (ih (by omega))
      have hwf2 := (moveBeamLayer_conserves env hs st.toMove hwf j (env.fields st.plasma)
        (env.fields (layer2D env st j (inp j)).1.plasma)).2.2.2
      have ht' : t ∈ ((Beam.fresh (inp j)).append (moveBeamLayer env st.toMove j (env.fields st.plasma)
        (env.fields (layer2D env st j (inp j)).1.plasma)).2.2).rows := ht
      rw [(append_rows _ _ (wf_fresh _) hwf2).1, List.mem_append] at ht'
      rcases ht' with h | h
      · rw [rows_fresh, List.mem_map] at h
        obtain ⟨q, hq, rfl⟩ := h
        obtain ⟨h1, h2⟩ := hin j (by omega) q hq
        refine ⟨le_rfl, h1, Or.inl ?_⟩
        rcases h2.2 with h3 | h3
        · left
          push_cast
          rw [add_sub_cancel_right]
          exact h3
        · right; omega
      · exact hmr.2 t h
  have hwf := stAt_wf env hs plasma0 (timeOf dt g) inp j
  set st := stAt (world2D env plasma0) ((world2D env plasma0).init (timeOf dt g)) inp j with hst
  have hmr := move_rows env hs hr hts st.toMove hwf j (layer2D env st j (inp j)).1.plasma st.plasma (hinv j hj)
  have hw2 := (moveBeamLayer_conserves env hs st.toMove hwf j (env.fields st.plasma)
        (env.fields (layer2D env st j (inp j)).1.plasma)).2.2.1
  have hp' : p ∈ (moveBeamLayer env st.toMove j (env.fields st.plasma)
        (env.fields (layer2D env st j (inp j)).1.plasma)).2.1.particles := hp
  rw [← rows_particles hw2, List.mem_map] at hp'
  obtain ⟨t, ht, rfl⟩ := hp'
  exact hmr.1 t ht

/-- If no turn of the pusher carries a particle ahead of its half-step point, then no beam behind the window head ever overtakes. -/
theorem noOvertaking_of_noRush (env : Env2D σ) (plasma0 : ℝ → σ) (hs : IsArgsort boolLe env.argsortB)
    (hf : IsArgsort (· ≤ ·) env.argsortF) (hx : 0 < env.cfg.xiStep) (hts : 0 ≤ env.timeStep) (N : ℕ)
    (hlim : ((N : ℝ) + 1) * env.cfg.xiStep ≤ 99999) (dt : ℝ) (b0 : List (Particle ℝ))
    (hb : ∀ p ∈ b0, p.xi ≤ 0) (hr : NoRush env) : NoOvertaking env plasma0 N dt b0 := by
  have hlay : ∀ g j, j ≤ N → ∀ p ∈ seqLayers (world2D env plasma0) N dt b0 g j,
      p.xi ≤ 0 ∧ InLayer env.cfg.xiStep j p.xi := by
    intro g
    induction g with
    | zero =>
      intro j hj p hp
      have := (source2D env plasma0 hf hx N hlim b0 hb j hj).mem_iff.1 hp
      rw [List.mem_filter, decide_eq_true_eq] at this
      exact ⟨hb p this.1, this.2⟩
    | succ g ih =>
      intro j hj p hp
      have hall : ∀ p ∈ allFinished (world2D env plasma0) N dt g (seqLayers (world2D env plasma0) N dt b0 g), p.xi ≤ 0 := by
        intro q hq
        unfold allFinished at hq
        rw [List.mem_flatten] at hq
        obtain ⟨l, hl, hq⟩ := hq
        rw [List.mem_map] at hl
        obtain ⟨i, hi, rfl⟩ := hl
        rw [List.mem_range] at hi
        exact (finished_behind env hs hr hts plasma0 dt g N _ ih i (by omega) q hq).1
      have := (source2D env plasma0 hf hx N hlim _ hall j hj).mem_iff.1 hp
      rw [List.mem_filter, decide_eq_true_eq] at this
      exact ⟨hall p this.1, this.2⟩
  intro g j hj1 hj p hp
  have := finished_behind env hs hr hts plasma0 dt g N _ (hlay g) j hj p hp
  refine ⟨this.1, ?_⟩
  rw [Nat.cast_sub hj1, Nat.cast_one]
  exact this.2

/-! ### Example: beams drifting without fields -/

/-- Free drift: the hypotheses of C12 hold for every beam behind the window head. -/
noncomputable def driftEnv : Env2D Unit where
  cfg := ⟨1, 1, 10, 0⟩
  timeStep := 1
  energy := 0
  argsortB := demoArgsort
  argsortF := npArgsort
  plasma _ _ _ := ()
  fields _ := ⟨fun _ => 0, fun _ => 0, fun _ => 0, fun _ => 0, fun _ => 0⟩

theorem drift_noRush : NoRush driftEnv := by
  intro xiEnd s s' dt p p' l hdt h
  have hz : ∀ rv, particleFields rv (driftEnv.fields s) (driftEnv.fields s') xiEnd driftEnv.cfg.rStep driftEnv.cfg.xiStep
      = (⟨0, 0, 0⟩, ⟨0, 0, 0⟩) := by
    intro rv
    simp [particleFields, driftEnv, interpolateParticle]
  unfold pushTurn at h
  simp only [beamToVec, hz, V3.add, V3.smul, inLayer, isLost, zero_add] at h
  rw [ite_eq_iff] at h
  rcases h with ⟨-, h⟩ | ⟨-, h⟩
  · simp at h
  rw [ite_eq_iff] at h
  rcases h with ⟨-, h⟩ | ⟨-, h⟩
  · simp at h
  simp only [Sum.inr.injEq, Prod.mk.injEq] at h
  rw [← h.1]
  have hd := drift_nonpos (dt / 2) _ p.pz (by linarith) (z_le_gamma (1 / p.qm) ⟨p.pr, p.M / p.r, p.pz⟩)
  simp only [vecToBeam, halfPosition, V3.add, V3.smul, V3.cross, V3.sq, driftEnv] at hd ⊢
  simp only [mul_zero, add_zero, sub_zero, zero_mul]
  set gm := Real.sqrt ((1 / p.qm) ^ 2 + (p.pr ^ 2 + (p.M / p.r) ^ 2 + p.pz ^ 2))
  have e : dt / gm * p.pz - dt = 2 * (dt / 2 / gm * p.pz - dt / 2) := by ring
  linarith

/-- Non-vacuity of C12 in 2D: for freely drifting beams that start behind the window head, every parallel run that
ends shows what the single-process run shows. No hypothesis about the solver is left. -/
example (size steps k : ℕ) (b0 : List (Particle ℝ)) (hb : ∀ p ∈ b0, p.xi ≤ 0)
    (n : Net (List (Particle ℝ)) (List (Entry ℝ (Particle ℝ))))
    (hn : Steps size k (start (world2D driftEnv fun _ => ()) size steps 1000 2 b0) n)
    (hend : ∀ n', ¬ Step size n n') (r : ℕ) (hr : r < size) :
    ∃ log : List (Entry ℝ (Particle ℝ)), n.procs r = .done log ∧
      ∀ g, g < steps → g % size = r → ∃ e, log[g / size]? = some e ∧ e.time = 2 * ((g : ℝ) + 1) ∧
        List.Forall₂ List.Perm e.layers
          ((List.range (1000 + 1)).map (seqLayers (world2D driftEnv fun _ => ()) 1000 2 b0 g)) ∧
        e.drained.Perm (allFinished (world2D driftEnv fun _ => ()) 1000 2 g
          (seqLayers (world2D driftEnv fun _ => ()) 1000 2 b0 g)) := by
  have hx : (0 : ℝ) < driftEnv.cfg.xiStep := by norm_num [driftEnv]
  have hl : (((1000 : ℕ) : ℝ) + 1) * driftEnv.cfg.xiStep ≤ 99999 := by norm_num [driftEnv]
  exact parallel_equals_sequential_2D driftEnv _ demoArgsort_correct npArgsort_correct hx 1000 hl size steps 2 b0
    (noOvertaking_of_noRush driftEnv _ demoArgsort_correct npArgsort_correct hx (by norm_num [driftEnv]) 1000 hl 2 b0 hb
      drift_noRush) k n hn hend r hr

end Lcode.Mpi
