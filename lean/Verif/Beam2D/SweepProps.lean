import Verif.Beam2D.Sweep

/-!
Property C07: beam particles are conserved over a 2D time step.
-/

namespace Lcode.Beam2D

variable {σ : Type}

/-- Identifiers of a list of rows / particles. -/
def rowIds (l : List (Row ℝ)) : List ℤ := l.map (fun t => t.1.id)
def ids (l : List (Particle ℝ)) : List ℤ := l.map Particle.id

theorem rows_mapRows {K : Type*} (f : Row K → Row K) (b : Beam K) :
    (b.mapRows f).rows = b.rows.map f := by
  have : ∀ l : List (Row K), (l.map (fun t => t.1)).zip ((l.map (fun t => t.2.1)).zip
      ((l.map (fun t => t.2.2.1)).zip (l.map (fun t => t.2.2.2)))) = l := by
    intro l
    induction l with
    | nil => rfl
    | cons a l ih => simp at ih ⊢; exact ih
  exact this _

theorem wf_mapRows {K : Type*} (f : Row K → Row K) (b : Beam K) : (b.mapRows f).WF := by
  simp [Beam.WF, Beam.mapRows]

theorem pushRow_id (c : PushCfg) (i : ℕ) (f1 f0 : Fields) (t : Row ℝ) :
    (pushRow c i f1 f0 t).1.id = t.1.id := by
  unfold pushRow
  split_ifs
  · simp only
    -- the identity is kept whatever the sign of dt
    generalize t.2.2.1.toNat = n
    generalize t.1 = p
    generalize (i : ℝ) * -c.xiStep = xe
    induction n generalizing p with
    | zero => rfl
    | succ n ih =>
      rcases pushTurn_cases c xe f1 f0 t.2.1 p with ⟨_, h⟩ | ⟨_, _, p', h, _, _, a, _⟩ |
        ⟨_, _, p', lost, h, _, _, _, _, a, _⟩
      · simp [pushLoop, h]
      · simp [pushLoop, h, a]
      · cases lost with
        | true => simp [pushLoop, h, a]
        | false => simp only [pushLoop, h]; exact (ih p').trans a
  · rfl

theorem initRow_fst (ts e : ℝ) (t : Row ℝ) : (initRow ts e t).1 = t.1 := by
  unfold initRow
  split_ifs <;> rfl

theorem moveBeamLayer_conserves (env : Env2D σ) (hs : IsArgsort boolLe env.argsortB)
    (b : Beam ℝ) (hb : b.WF) (xiI : ℕ) (prev cur : Fields) :
    let r := moveBeamLayer env b xiI prev cur
    (rowIds r.1.rows ++ rowIds r.2.1.rows ++ rowIds r.2.2.rows).Perm (rowIds b.rows) ∧
      r.1.WF ∧ r.2.1.WF ∧ r.2.2.WF := by
  simp only [moveBeamLayer]
  set b' := if b.particles.length = 0 then b
    else b.mapRows (fun t => pushRow env.cfg xiI cur prev (initRow env.timeStep env.energy t)) with hb'
  have hwf' : b'.WF := by
    rw [hb']; split_ifs
    · exact hb
    · exact wf_mapRows _ _
  have hids : rowIds b'.rows = rowIds b.rows := by
    rw [hb']; split_ifs
    · rfl
    · rw [rows_mapRows]
      simp only [rowIds, List.map_map]
      apply List.map_congr_left
      intro t _
      simp [pushRow_id, initRow_fst]
  have hperm := split_conserves env.argsortB hs b' hwf' (xiI * -env.cfg.xiStep)
  have hspl := split_rows env.argsortB hs b' hwf' (xiI * -env.cfg.xiStep)
  refine ⟨?_, hspl.2.2.2.1, hspl.2.2.2.2.1, hspl.2.2.2.2.2⟩
  have := hperm.map (fun t : Row ℝ => t.1.id)
  rw [List.map_append, List.map_append] at this
  rw [← hids]
  exact this

theorem rowIds_eq_ids {b : Beam ℝ} (hb : b.WF) : rowIds b.rows = ids b.particles := by
  unfold rowIds ids
  rw [← rows_particles hb, List.map_map]; rfl

theorem drain_push_ids (d : Drain ℝ) (b : Beam ℝ) :
    ids (d.push b).beamSlice = ids d.beamSlice ++ ids b.particles := by
  unfold Drain.push Drain.beamSlice ids
  split_ifs with h
  · simp
  · have : b.particles = [] := by
      cases hp : b.particles with
      | nil => rfl
      | cons a l => rw [hp] at h; simp at h
    simp [this]

/-- Loop invariant of the sweep. -/
structure SweepInv (d₀ : Drain ℝ) (s : SweepState σ) : Prop where
  wf : s.toMove.WF
  cons : (ids s.drain.beamSlice ++ rowIds s.lostLog ++ rowIds s.toMove.rows).Perm
    (ids d₀.beamSlice ++ ids ((s.sourced.map Beam.particles).flatten))

theorem getBeamLayer_wf (s : Source ℝ) (h : ℝ) (i : ℕ) : (s.getBeamLayer h i).1.WF :=
  wf_fresh _

theorem sweepStep_inv (env : Env2D σ) (hs : IsArgsort boolLe env.argsortB) (d₀ : Drain ℝ)
    (s : SweepState σ) (h : SweepInv d₀ s) (xiI : ℕ) : SweepInv d₀ (sweepStep env s xiI) := by
  have hl := getBeamLayer_wf s.source env.cfg.xiStep xiI
  set layer := (s.source.getBeamLayer env.cfg.xiStep xiI).1 with hlayer
  set pl := env.plasma s.plasma (layoutBeamLayer env.cfg.rStep env.cfg.xiStep s.rhoLayout
    layer.particles xiI).1 s.rhoPrev with hpl
  obtain ⟨hm, w1, w2, w3⟩ := moveBeamLayer_conserves env hs s.toMove h.wf xiI
    (env.fields s.plasma) (env.fields pl)
  set r := moveBeamLayer env s.toMove xiI (env.fields s.plasma) (env.fields pl) with hr
  have e1 : (sweepStep env s xiI).toMove = layer.append r.2.2 := rfl
  have e2 : (sweepStep env s xiI).drain = s.drain.push r.2.1 := rfl
  have e3 : (sweepStep env s xiI).lostLog = s.lostLog ++ r.1.rows := rfl
  have e4 : (sweepStep env s xiI).sourced = s.sourced ++ [layer] := rfl
  refine ⟨?_, ?_⟩
  · rw [e1]; exact wf_concat hl w3
  · rw [e1, e2, e3, e4, drain_push_ids, (append_rows layer r.2.2 hl w3).1]
    have hlr : rowIds (layer.rows ++ r.2.2.rows) = ids layer.particles ++ rowIds r.2.2.rows := by
      rw [← rowIds_eq_ids hl]; simp [rowIds]
    have hll : rowIds (s.lostLog ++ r.1.rows) = rowIds s.lostLog ++ rowIds r.1.rows := by
      simp [rowIds]
    have hss : ids (((s.sourced ++ [layer]).map Beam.particles).flatten) =
        ids ((s.sourced.map Beam.particles).flatten) ++ ids layer.particles := by
      simp [ids]
    rw [hlr, hll, hss, ← rowIds_eq_ids w2, ← List.append_assoc (ids d₀.beamSlice)]
    have hc := h.cons
    -- rearrange as multisets
    rw [← Multiset.coe_eq_coe] at hc hm ⊢
    simp only [← Multiset.coe_add] at hc hm ⊢
    rw [← hc, ← hm]
    abel

theorem foldl_inv (env : Env2D σ) (hs : IsArgsort boolLe env.argsortB) (d₀ : Drain ℝ)
    (l : List ℕ) (s : SweepState σ) (h : SweepInv d₀ s) :
    SweepInv d₀ (l.foldl (sweepStep env) s) := by
  induction l generalizing s with
  | nil => exact h
  | cons i l ih => exact ih _ (sweepStep_inv env hs d₀ s h i)

theorem sourced_eq_layers (env : Env2D σ) (n i : ℕ) (s : SweepState σ) :
    ((List.range' i n).foldl (sweepStep env) s).sourced =
      s.sourced ++ (Source.layers env.cfg.xiStep s.source i n).1 := by
  induction n generalizing i s with
  | zero => simp [Source.layers]
  | succ n ih =>
    rw [List.range'_succ, List.foldl_cons, ih]
    simp only [Source.layers]
    have e1 : (sweepStep env s i).sourced =
      s.sourced ++ [(s.source.getBeamLayer env.cfg.xiStep i).1] := rfl
    have e2 : (sweepStep env s i).source = (s.source.getBeamLayer env.cfg.xiStep i).2 := rfl
    rw [e1, e2]; simp

/-- C07: in a 2D time step, whatever the plasma does and whatever the fields are, the particles
taken from the source are (by identity, with multiplicity) exactly those written to the drain,
those lost, and those still waiting to be moved when the loop ends. -/
theorem particles_conserved (env : Env2D σ) (hs : IsArgsort boolLe env.argsortB) (plasma : σ)
    (source : Source ℝ) (xiSteps : ℕ) :
    let out := stepDt env plasma source ⟨[], []⟩ xiSteps
    (ids out.drain.beamSlice ++ rowIds out.lostLog ++ ids out.toMove.particles).Perm
      (ids (((Source.layers env.cfg.xiStep source 0 (xiSteps + 1)).1.map Beam.particles).flatten)) := by
  intro out
  have hinit : SweepInv (⟨[], []⟩ : Drain ℝ) (sweepInit plasma source ⟨[], []⟩) :=
    ⟨⟨rfl, rfl, rfl⟩, by simp [sweepInit, Drain.beamSlice, ids, rowIds, Beam.rows]⟩
  have h := foldl_inv env hs ⟨[], []⟩ (List.range (xiSteps + 1)) _ hinit
  have hsrc := sourced_eq_layers env (xiSteps + 1) 0 (sweepInit plasma source ⟨[], []⟩)
  rw [← List.range_eq_range'] at hsrc
  have hc := h.cons
  rw [hsrc, rowIds_eq_ids h.wf] at hc
  have hnil : (sweepInit plasma source ⟨[], []⟩).sourced = [] := rfl
  have hnil2 : ids (⟨[], []⟩ : Drain ℝ).beamSlice = [] := rfl
  rw [hnil, hnil2, List.nil_append, List.nil_append] at hc
  exact hc

/-- C07, whole program step: with a beam source freshly built from a beam lying behind the window head,
every particle of the window `[-(xiSteps+1) dxi, 0]` is accounted for exactly once. -/
theorem window_accounted (env : Env2D σ) (hs : IsArgsort boolLe env.argsortB)
    (hf : IsArgsort (· ≤ ·) env.argsortF) (plasma : σ) (b : Beam ℝ) (hb : b.WF)
    (hhead : ∀ p ∈ b.particles, p.xi ≤ 0) (hx : 0 < env.cfg.xiStep) (xiSteps : ℕ)
    (hlim : (xiSteps + 1 : ℕ) * env.cfg.xiStep ≤ 99999) :
    let out := stepDt env plasma (Source.init env.argsortF b) ⟨[], []⟩ xiSteps
    (ids out.drain.beamSlice ++ rowIds out.lostLog ++ ids out.toMove.particles).Perm
      (ids (b.particles.filter (fun p => decide (-(((xiSteps + 1 : ℕ) : ℝ) * env.cfg.xiStep) ≤ p.xi)))) := by
  intro out
  refine (particles_conserved env hs plasma (Source.init env.argsortF b) xiSteps).trans ?_
  exact (source_delivers_once env.argsortF hf b hb hhead env.cfg.xiStep hx (xiSteps + 1)
    (by omega) hlim).map _

/-- What a particle written to the drain satisfies: it has no substeps left. -/
theorem drained_finished (env : Env2D σ) (hs : IsArgsort boolLe env.argsortB)
    (b : Beam ℝ) (hb : b.WF) (xiI : ℕ) (prev cur : Fields) (t : Row ℝ)
    (ht : t ∈ (moveBeamLayer env b xiI prev cur).2.1.rows) :
    t.2.2.1 ≤ 0 ∧ xiI * -env.cfg.xiStep ≤ t.1.xi ∧ t.2.2.2 = false := by
  unfold moveBeamLayer at ht
  simp only at ht
  set b' := if b.particles.length = 0 then b
    else b.mapRows (fun t => pushRow env.cfg xiI cur prev (initRow env.timeStep env.energy t)) with hb'
  have hwf' : b'.WF := by
    rw [hb']; split_ifs
    · exact hb
    · exact wf_mapRows _ _
  obtain ⟨-, h2, -⟩ := split_rows env.argsortB hs b' hwf' (xiI * -env.cfg.xiStep)
  have := h2.mem_iff.mp ht
  simp only [List.mem_filter, Bool.and_eq_true, decide_eq_true_eq, Bool.not_eq_eq_eq_not,
    Bool.not_true] at this
  exact ⟨this.2.1.2, this.2.2, this.2.1.1⟩

/-- Finding (C07): the last layer taken from the source is never moved, hence never drained: its
particles are still in `toMove` when the loop ends and are silently dropped. -/
theorem last_layer_dropped (env : Env2D σ) (plasma : σ) (source : Source ℝ) (xiSteps : ℕ) :
    ∃ rest, (stepDt env plasma source ⟨[], []⟩ xiSteps).toMove.particles =
      ((Source.layers env.cfg.xiStep source 0 (xiSteps + 1)).1.getLast?.map Beam.particles).getD [] ++ rest := by
  unfold stepDt
  rw [List.range_succ, List.foldl_append]
  simp only [List.foldl_cons, List.foldl_nil]
  set s := (List.range xiSteps).foldl (sweepStep env) (sweepInit plasma source ⟨[], []⟩) with hs
  have hsrc := sourced_eq_layers env (xiSteps + 1) 0 (sweepInit plasma source ⟨[], []⟩)
  rw [← List.range_eq_range', List.range_succ, List.foldl_append] at hsrc
  simp only [List.foldl_cons, List.foldl_nil, ← hs] at hsrc
  have e4 : (sweepStep env s xiSteps).sourced =
    s.sourced ++ [(s.source.getBeamLayer env.cfg.xiStep xiSteps).1] := rfl
  rw [e4] at hsrc
  have hnil : (sweepInit plasma source ⟨[], []⟩).sourced = [] := rfl
  have hsrc0 : (sweepInit plasma source ⟨[], []⟩).source = source := rfl
  rw [hnil, List.nil_append, hsrc0] at hsrc
  rw [← hsrc]
  simp only [List.getLast?_append, List.getLast?_singleton, Option.some_or, Option.map_some,
    Option.getD_some]
  exact ⟨_, rfl⟩

/-- The hypotheses are satisfiable: correct argsorts exist, and so does an environment. -/
noncomputable example : Env2D Unit where
  cfg := ⟨1/20, 1/20, 5, 0⟩
  timeStep := 25
  energy := 2
  argsortB := demoArgsort
  argsortF := npArgsort
  plasma := fun _ _ _ => ()
  fields := fun _ => ⟨0, 0, 0, 0, 0⟩

example : IsArgsort boolLe demoArgsort ∧ IsArgsort (· ≤ ·) (npArgsort (κ := ℝ)) :=
  ⟨demoArgsort_correct, npArgsort_correct⟩

end Lcode.Beam2D
