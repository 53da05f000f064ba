import Verif.Split
import Verif.Mpi.Causality
import Verif.Beam2D.Strong

/-!
Property C52, 2D beam and the whole 2D simulation: replacing beam particles by parts.
-/

namespace Lcode.Beam2D

/-! ### Specification -/

/-- The fraction `a` of a beam macroparticle: its charge scaled, everything else the same. -/
noncomputable def Particle.part (a : ℝ) (p : Particle ℝ) : Particle ℝ := { p with qnorm := a * p.qnorm }

/-- A beam particle without its name. -/
def Particle.anon (p : Particle ℝ) : Particle ℝ := { p with id := 0 }

/-- `b'` is the beam `b` with every macroparticle replaced by parts (whatever the parts are called), and reordered. -/
def SplitBeam (b b' : List (Particle ℝ)) : Prop := IsSplit Particle.part (b.map Particle.anon) (b'.map Particle.anon)

/-! ### Motion -/

/-- A relabelling of particles that the pusher does not see. -/
structure Unseen (g : Particle ℝ → Particle ℝ) : Prop where
  xi : ∀ p, (g p).xi = p.xi
  r : ∀ p, (g p).r = p.r
  pz : ∀ p, (g p).pz = p.pz
  pr : ∀ p, (g p).pr = p.pr
  M : ∀ p, (g p).M = p.M
  qm : ∀ p, (g p).qm = p.qm
  back : ∀ p rv pv m, vecToBeam (g p) rv pv false m = g (vecToBeam p rv pv false m)

theorem unseen_part (a : ℝ) : Unseen (Particle.part a) := ⟨fun _ => rfl, fun _ => rfl, fun _ => rfl, fun _ => rfl, fun _ => rfl, fun _ => rfl, fun _ _ _ _ => rfl⟩

theorem unseen_anon : Unseen Particle.anon := ⟨fun _ => rfl, fun _ => rfl, fun _ => rfl, fun _ => rfl, fun _ => rfl, fun _ => rfl, fun _ _ _ _ => rfl⟩

open Classical in
/-- `pushTurn` with the particle only as the thing returned. -/
noncomputable def turnOf (c : PushCfg) (xiEnd : ℝ) (f1 f0 : Fields) (dt : ℝ) (v : V3 × V3) (qm : ℝ) (p : Particle ℝ) (back : V3 → V3 → Particle ℝ) : (Particle ℝ × Bool) ⊕ (Particle ℝ × Bool) :=
  let (pv, rv) := v
  let gm := Real.sqrt ((1 / qm) ^ 2 + pv.sq)
  let rvHalf := rv.add (V3.smul (dt / 2 / gm) pv)
  let rvHalf : V3 := ⟨rvHalf.x, rvHalf.y, rvHalf.z - dt / 2⟩
  if ¬ inLayer rvHalf xiEnd then .inl (p, false)
  else if isLost rvHalf c.lostBoundary then .inl (back rv pv, true)
  else
    let (ev, bv) := particleFields rvHalf f1 f0 xiEnd c.rStep c.xiStep
    let bv : V3 := ⟨bv.x, bv.y, bv.z + c.magneticField⟩
    let pvHalf := pv.add (V3.smul (dt / 2 * SignType.sign qm)
      (ev.add ((V3.smul (1 / gm) pv).cross bv)))
    let gm := Real.sqrt ((1 / qm) ^ 2 + pvHalf.sq)
    let rv := rv.add (V3.smul (dt / gm) pvHalf)
    let rv : V3 := ⟨rv.x, rv.y, rv.z - dt⟩
    let pv := (V3.smul 2 pvHalf).add (V3.smul (-1) pv)
    .inr (back rv pv, decide (isLost rv c.lostBoundary))

theorem pushTurn_turnOf (c : PushCfg) (xiEnd : ℝ) (f1 f0 : Fields) (dt : ℝ) (p : Particle ℝ) :
    pushTurn c xiEnd f1 f0 dt p = turnOf c xiEnd f1 f0 dt (beamToVec p) p.qm p fun rv pv => vecToBeam p rv pv false c.magneticField := rfl

theorem turnOf_map (g : Particle ℝ → Particle ℝ) (c : PushCfg) (xiEnd : ℝ) (f1 f0 : Fields) (dt : ℝ) (v : V3 × V3) (qm : ℝ) (p : Particle ℝ) (back : V3 → V3 → Particle ℝ) :
    turnOf c xiEnd f1 f0 dt v qm (g p) (fun rv pv => g (back rv pv)) = Sum.map (Prod.map g id) (Prod.map g id) (turnOf c xiEnd f1 f0 dt v qm p back) := by
  unfold turnOf
  simp only
  split_ifs <;> rfl

theorem pushTurn_unseen {g : Particle ℝ → Particle ℝ} (hg : Unseen g) (c : PushCfg) (xiEnd : ℝ) (f1 f0 : Fields) (dt : ℝ) (p : Particle ℝ) :
    pushTurn c xiEnd f1 f0 dt (g p) = Sum.map (Prod.map g id) (Prod.map g id) (pushTurn c xiEnd f1 f0 dt p) := by
  have hv : beamToVec (g p) = beamToVec p := by unfold beamToVec; rw [hg.pr, hg.M, hg.r, hg.pz, hg.xi]
  rw [pushTurn_turnOf, pushTurn_turnOf, hv, hg.qm, ← turnOf_map]
  congr 1
  funext rv pv
  exact hg.back p rv pv _

theorem pushLoop_unseen {g : Particle ℝ → Particle ℝ} (hg : Unseen g) (c : PushCfg) (xiEnd : ℝ) (f1 f0 : Fields) (dt : ℝ) (n : ℕ) (p : Particle ℝ) :
    pushLoop c xiEnd f1 f0 dt n (g p) = (g (pushLoop c xiEnd f1 f0 dt n p).1, (pushLoop c xiEnd f1 f0 dt n p).2) := by
  induction n generalizing p with
  | zero => rfl
  | succ n ih =>
    simp only [pushLoop, pushTurn_unseen hg]
    rcases pushTurn c xiEnd f1 f0 dt p with ⟨p', l⟩ | ⟨p', l⟩
    · rfl
    · simp only [Sum.map_inr, Prod.map_apply, id]
      cases l
      · simpa using ih p'
      · rfl

/-- A relabelling of the particle of a row. -/
def onRow (g : Particle ℝ → Particle ℝ) (t : Row ℝ) : Row ℝ := (g t.1, t.2)

theorem pushRow_unseen {g : Particle ℝ → Particle ℝ} (hg : Unseen g) (c : PushCfg) (i : ℕ) (f1 f0 : Fields) (t : Row ℝ) :
    pushRow c i f1 f0 (onRow g t) = onRow g (pushRow c i f1 f0 t) := by
  unfold pushRow onRow
  simp only [pushLoop_unseen hg]
  split_ifs <;> rfl

theorem initRow_unseen {g : Particle ℝ → Particle ℝ} (hg : Unseen g) (ts en : ℝ) (t : Row ℝ) : initRow ts en (onRow g t) = onRow g (initRow ts en t) := by
  unfold initRow onRow
  simp only [hg.qm, hg.pz]
  split_ifs <;> rfl

/-- A split of rows, whatever the names. -/
def SplitRows (l l' : List (Row ℝ)) : Prop := IsSplit (fun a => onRow (Particle.part a)) (l.map (onRow Particle.anon)) (l'.map (onRow Particle.anon))

theorem SplitRows.map {l l' : List (Row ℝ)} (h : SplitRows l l') (f : Row ℝ → Row ℝ) (hf : ∀ g, Unseen g → ∀ t, f (onRow g t) = onRow g (f t)) : SplitRows (l.map f) (l'.map f) := by
  have e : ∀ m : List (Row ℝ), (m.map f).map (onRow Particle.anon) = (m.map (onRow Particle.anon)).map f := by
    intro m
    rw [List.map_map, List.map_map]
    exact List.map_congr_left fun t _ => (hf _ unseen_anon t).symm
  unfold SplitRows
  rw [e l, e l']
  exact IsSplit.map h f fun a t _ => hf _ (unseen_part a) t

theorem SplitRows.filter {l l' : List (Row ℝ)} (h : SplitRows l l') (q : Row ℝ → Bool) (hq : ∀ g, Unseen g → ∀ t, q (onRow g t) = q t) : SplitRows (l.filter q) (l'.filter q) := by
  have e : ∀ m : List (Row ℝ), (m.filter q).map (onRow Particle.anon) = (m.map (onRow Particle.anon)).filter q := by
    intro m
    rw [List.filter_map]
    congr 1
    apply List.filter_congr
    intro t _
    exact (hq _ unseen_anon t).symm
  unfold SplitRows
  rw [e l, e l']
  exact IsSplit.filter h q fun a t _ => hq _ (unseen_part a) t

theorem SplitRows.perm {l l' m m' : List (Row ℝ)} (h : SplitRows l l') (h1 : l.Perm m) (h2 : l'.Perm m') : SplitRows m m' :=
  IsSplit.perm h (h1.map _) (h2.map _)

theorem SplitRows.append {l l' m m' : List (Row ℝ)} (h : SplitRows l l') (h' : SplitRows m m') : SplitRows (l ++ m) (l' ++ m') := by
  unfold SplitRows
  rw [List.map_append, List.map_append]
  exact IsSplit.append h h'

theorem SplitBeam.perm {l l' m m' : List (Particle ℝ)} (h : SplitBeam l l') (h1 : l.Perm m) (h2 : l'.Perm m') : SplitBeam m m' :=
  IsSplit.perm h (h1.map _) (h2.map _)

theorem SplitBeam.append {l l' m m' : List (Particle ℝ)} (h : SplitBeam l l') (h' : SplitBeam m m') : SplitBeam (l ++ m) (l' ++ m') := by
  unfold SplitBeam
  rw [List.map_append, List.map_append]
  exact IsSplit.append h h'

theorem SplitBeam.nil : SplitBeam [] [] := IsSplit.nil

theorem SplitBeam.filter {l l' : List (Particle ℝ)} (h : SplitBeam l l') (q : Particle ℝ → Bool) (hq : ∀ g, Unseen g → ∀ t, q (g t) = q t) : SplitBeam (l.filter q) (l'.filter q) := by
  have e : ∀ m : List (Particle ℝ), (m.filter q).map Particle.anon = (m.map Particle.anon).filter q := by
    intro m
    rw [List.filter_map]
    congr 1
    apply List.filter_congr
    intro t _
    exact (hq _ unseen_anon t).symm
  unfold SplitBeam
  rw [e l, e l']
  exact IsSplit.filter h q fun a t _ => hq _ (unseen_part a) t

theorem SplitRows.particles {l l' : List (Row ℝ)} (h : SplitRows l l') : SplitBeam (l.map fun t => t.1) (l'.map fun t => t.1) := by
  have e : ∀ m : List (Row ℝ), (m.map fun t => t.1).map Particle.anon = (m.map (onRow Particle.anon)).map fun t => t.1 := by
    intro m
    rw [List.map_map, List.map_map]; rfl
  unfold SplitBeam
  rw [e l, e l']
  exact IsSplit.map h (fun t => t.1) fun a t _ => rfl

theorem SplitBeam.fresh {l l' : List (Particle ℝ)} (h : SplitBeam l l') : SplitRows (l.map fun p => (p, 0, 1, false)) (l'.map fun p => (p, 0, 1, false)) := by
  have e : ∀ m : List (Particle ℝ), (m.map fun p => ((p, 0, 1, false) : Row ℝ)).map (onRow Particle.anon) = (m.map Particle.anon).map fun p => (p, 0, 1, false) := by
    intro m
    rw [List.map_map, List.map_map]; rfl
  unfold SplitRows
  rw [e l, e l']
  exact IsSplit.map h (fun p => (p, 0, 1, false)) fun a t _ => rfl

theorem SplitBeam.mem {l l' : List (Particle ℝ)} (hll : SplitBeam l l') (Q : ℝ → Prop) : (∃ p ∈ l, Q p.xi) ↔ ∃ p ∈ l', Q p.xi := by
  obtain ⟨gs, h1, h2, h3⟩ := hll
  constructor
  · rintro ⟨p, hp, hq⟩
    have : p.anon ∈ gs.map Prod.fst := h1.mem_iff.mpr (List.mem_map_of_mem (f := Particle.anon) hp)
    obtain ⟨g, hg, he⟩ := List.mem_map.mp this
    obtain ⟨a, ha⟩ : ∃ a, a ∈ g.2 := by
      rcases hl : g.2 with _ | ⟨a, t⟩
      · have := (h3 g hg).2; rw [hl] at this; simp at this
      · exact ⟨a, by simp⟩
    have : g.1.part a ∈ l'.map Particle.anon := h2.mem_iff.mp (List.mem_flatMap.mpr ⟨g, hg, List.mem_map.mpr ⟨a, ha, rfl⟩⟩)
    obtain ⟨p', hp', he'⟩ := List.mem_map.mp this
    refine ⟨p', hp', ?_⟩
    have e1 : p'.xi = g.1.xi := (congrArg Particle.xi he' :)
    rw [e1, he]; exact hq
  · rintro ⟨p, hp, hq⟩
    have := (h2.mem_iff (a := p.anon)).mpr (List.mem_map_of_mem hp)
    obtain ⟨g, hg, he⟩ := List.mem_flatMap.mp this
    obtain ⟨a, ha, he⟩ := List.mem_map.mp he
    have := h1.mem_iff.mp (List.mem_map_of_mem (f := Prod.fst) hg)
    obtain ⟨p', hp', he'⟩ := List.mem_map.mp this
    refine ⟨p', hp', ?_⟩
    have e1 : p'.xi = g.1.xi := (congrArg Particle.xi he' :)
    have e2 : g.1.xi = p.xi := (congrArg Particle.xi he :)
    rw [e1, e2]; exact hq

/-! ### Charge density -/

theorem SplitBeam.sum {l l' : List (Particle ℝ)} (h : SplitBeam l l') (f : Particle ℝ → ℝ) (h1 : ∀ p, f p.anon = f p) (h2 : ∀ a p, f (p.part a) = a * f p) : (l'.map f).sum = (l.map f).sum := by
  have e : ∀ m : List (Particle ℝ), (m.map f).sum = ((m.map Particle.anon).map f).sum := by
    intro m
    rw [List.map_map]
    congr 1
    exact List.map_congr_left fun p _ => (h1 p).symm
  rw [e l, e l']
  exact IsSplit.sum h f fun a p _ => h2 a p

theorem layout_split (rStep xiStep : ℝ) (rho : ℤ → ℝ) (l l' : List (Particle ℝ)) (i : ℕ) (h : SplitBeam l l') : layoutBeamLayer rStep xiStep rho l i = layoutBeamLayer rStep xiStep rho l' i := by
  have hd : ∀ o0 o1 e, depositParticles l o0 o1 e rStep xiStep = depositParticles l' o0 o1 e rStep xiStep := by
    intro o0 o1 e
    refine Prod.ext ?_ ?_
    · funext k
      rw [(deposit_pointwise l o0 o1 e rStep xiStep k).1, (deposit_pointwise l' o0 o1 e rStep xiStep k).1, h.sum _ (fun _ => rfl) (fun a p => by simp only [Particle.part]; ring)]
    · funext k
      rw [(deposit_pointwise l o0 o1 e rStep xiStep k).2, (deposit_pointwise l' o0 o1 e rStep xiStep k).2, h.sum _ (fun _ => rfl) (fun a p => by simp only [Particle.part]; ring)]
  unfold layoutBeamLayer
  simp only [hd]

end Lcode.Beam2D

namespace Lcode.Mpi

open Lcode.Beam2D

/-! ### Runs that stay related -/

section Rel
variable {P : Type} {W W' : World ℝ P} {LR : List P → List P → Prop} {SR : W.St → W'.St → Prop}

theorem rel_flatten (hnil : LR [] []) (happ : ∀ a a' b b', LR a a' → LR b b' → LR (a ++ b) (a' ++ b')) (f f' : ℕ → List P) (l : List ℕ) (h : ∀ i ∈ l, LR (f i) (f' i)) :
    LR (l.map f).flatten (l.map f').flatten := by
  induction l with
  | nil => exact hnil
  | cons i l ih =>
    simp only [List.map_cons, List.flatten_cons]
    exact happ _ _ _ _ (h i List.mem_cons_self) (ih fun j hj => h j (List.mem_cons_of_mem _ hj))

/-- Two worlds whose sources, initial states and layers respect a relation of particle lists have related runs. -/
theorem run_rel (N : ℕ) (dt : ℝ) (hnil : LR [] []) (happ : ∀ a a' b b', LR a a' → LR b b' → LR (a ++ b) (a' ++ b')) (ok : List P → List P → Prop)
    (hsrc : ∀ b b', LR b b' → ok b b' → ∀ j, j ≤ N → LR (srcLayer W (W.mkSrc b) j) (srcLayer W' (W'.mkSrc b') j))
    (hinit : ∀ t, SR (W.init t) (W'.init t))
    (hlayer : ∀ s s' j l l', SR s s' → LR l l' → SR (W.layer s j l).1 (W'.layer s' j l').1 ∧ LR (W.layer s j l).2 (W'.layer s' j l').2)
    (b b' : List P) (hb : LR b b') (hok : ok b b')
    (hoks : ∀ g, ok (allFinished W N dt g (seqLayers W N dt b g)) (allFinished W' N dt g (seqLayers W' N dt b' g))) (g : ℕ) :
    (∀ j, j ≤ N → LR (seqLayers W N dt b g j) (seqLayers W' N dt b' g j)) ∧
    (∀ j, j ≤ N + 1 → SR (stAt W (W.init (timeOf dt g)) (seqLayers W N dt b g) j) (stAt W' (W'.init (timeOf dt g)) (seqLayers W' N dt b' g) j)) ∧
    LR (allFinished W N dt g (seqLayers W N dt b g)) (allFinished W' N dt g (seqLayers W' N dt b' g)) := by
  have key : ∀ g, (∀ j, j ≤ N → LR (seqLayers W N dt b g j) (seqLayers W' N dt b' g j)) →
      (∀ j, j ≤ N + 1 → SR (stAt W (W.init (timeOf dt g)) (seqLayers W N dt b g) j) (stAt W' (W'.init (timeOf dt g)) (seqLayers W' N dt b' g) j)) ∧
      LR (allFinished W N dt g (seqLayers W N dt b g)) (allFinished W' N dt g (seqLayers W' N dt b' g)) := by
    intro g hl
    have hst : ∀ j, j ≤ N + 1 → SR (stAt W (W.init (timeOf dt g)) (seqLayers W N dt b g) j) (stAt W' (W'.init (timeOf dt g)) (seqLayers W' N dt b' g) j) := by
      intro j
      induction j with
      | zero => intro _; exact hinit _
      | succ j ih => intro hj; exact (hlayer _ _ j _ _ (ih (by omega)) (hl j (by omega))).1
    refine ⟨hst, ?_⟩
    apply rel_flatten hnil happ
    intro j hj
    rw [List.mem_range] at hj
    exact (hlayer _ _ j _ _ (hst j (by omega)) (hl j (by omega))).2
  induction g with
  | zero =>
    have h0 : ∀ j, j ≤ N → LR (seqLayers W N dt b 0 j) (seqLayers W' N dt b' 0 j) := fun j hj => hsrc b b' hb hok j hj
    exact ⟨h0, key 0 h0⟩
  | succ g ih =>
    have h0 : ∀ j, j ≤ N → LR (seqLayers W N dt b (g + 1) j) (seqLayers W' N dt b' (g + 1) j) := fun j hj => hsrc _ _ ih.2.2 (hoks g) j hj
    exact ⟨h0, key _ h0⟩

end Rel

/-! ### The whole 2D simulation -/

section TwoD
variable {σ : Type}

/-- What a relation of plasma states needs: the plasma solver keeps it, and related states have the same fields. -/
structure PlasmaRel2D (env : Env2D σ) (R : σ → σ → Prop) : Prop where
  step : ∀ s s' rho prev, R s s' → R (env.plasma s rho prev) (env.plasma s' rho prev)
  fields : ∀ s s', R s s' → env.fields s = env.fields s'

/-- States of two layer loops: related plasmas, the same densities, the same beam up to splitting. -/
def SplitSt2D (R : σ → σ → Prop) (s s' : St2D σ) : Prop :=
  R s.plasma s'.plasma ∧ s.rhoLayout = s'.rhoLayout ∧ s.rhoPrev = s'.rhoPrev ∧ SplitRows s.toMove.rows s'.toMove.rows ∧ s.toMove.WF ∧ s'.toMove.WF

theorem move_split (env : Env2D σ) (hs : IsArgsort boolLe env.argsortB) (b b' : Beam ℝ) (hb : b.WF) (hb' : b'.WF) (h : SplitRows b.rows b'.rows) (i : ℕ) (f0 f1 : Fields) :
    SplitRows (moveBeamLayer env b i f0 f1).2.1.rows (moveBeamLayer env b' i f0 f1).2.1.rows ∧ SplitRows (moveBeamLayer env b i f0 f1).2.2.rows (moveBeamLayer env b' i f0 f1).2.2.rows ∧
      (moveBeamLayer env b i f0 f1).2.1.WF ∧ (moveBeamLayer env b' i f0 f1).2.1.WF ∧ (moveBeamLayer env b i f0 f1).2.2.WF ∧ (moveBeamLayer env b' i f0 f1).2.2.WF := by
  have push : ∀ b : Beam ℝ, b.WF → ∃ c : Beam ℝ, c.WF ∧
      c.rows = b.rows.map (fun t => pushRow env.cfg i f1 f0 (initRow env.timeStep env.energy t)) ∧
      moveBeamLayer env b i f0 f1 = splitBeamSlice env.argsortB c (i * -env.cfg.xiStep) := by
    intro b hb
    by_cases h0 : b.particles.length = 0
    · refine ⟨b, hb, ?_, by unfold moveBeamLayer; simp only [h0, if_true]⟩
      have : b.rows = [] := List.length_eq_zero_iff.1 (by rw [rows_length hb, h0])
      rw [this]; rfl
    · exact ⟨_, wf_mapRows _ b, rows_mapRows _ b, by unfold moveBeamLayer; simp only [h0, if_false]⟩
  obtain ⟨c, hc, hcr, e⟩ := push b hb
  obtain ⟨c', hc', hcr', e'⟩ := push b' hb'
  have hcc : SplitRows c.rows c'.rows := by
    rw [hcr, hcr']
    refine h.map _ fun g hg t => ?_
    rw [initRow_unseen hg, pushRow_unseen hg]
  obtain ⟨-, h2, h3, -, w2, w3⟩ := split_rows env.argsortB hs c hc (i * -env.cfg.xiStep)
  obtain ⟨-, h2', h3', -, w2', w3'⟩ := split_rows env.argsortB hs c' hc' (i * -env.cfg.xiStep)
  rw [e, e']
  refine ⟨?_, ?_, w2, w2', w3, w3'⟩
  · refine SplitRows.perm (hcc.filter _ fun g hg t => ?_) h2.symm h2'.symm
    have e : (onRow g t).1.xi = t.1.xi := hg.xi t.1
    rw [e]; rfl
  · refine SplitRows.perm (hcc.filter _ fun g hg t => ?_) h3.symm h3'.symm
    have e : (onRow g t).1.xi = t.1.xi := hg.xi t.1
    rw [e]; rfl

theorem layer2D_split (env : Env2D σ) (hs : IsArgsort boolLe env.argsortB) {R : σ → σ → Prop} (hR : PlasmaRel2D env R) (s s' : St2D σ) (j : ℕ) (l l' : List (Particle ℝ))
    (h : SplitSt2D R s s') (hl : SplitBeam l l') : SplitSt2D R (layer2D env s j l).1 (layer2D env s' j l').1 ∧ SplitBeam (layer2D env s j l).2 (layer2D env s' j l').2 := by
  obtain ⟨h1, h2, h3, h4, h5, h6⟩ := h
  have hlay := layout_split env.cfg.rStep env.cfg.xiStep s'.rhoLayout l l' j hl
  have hfr : (Beam.fresh l : Beam ℝ).particles = l := rfl
  have hfr' : (Beam.fresh l' : Beam ℝ).particles = l' := rfl
  unfold layer2D
  simp only [hfr, hfr', h2, h3, hlay]
  have hp := hR.step _ _ (layoutBeamLayer env.cfg.rStep env.cfg.xiStep s'.rhoLayout l' j).1 s'.rhoPrev h1
  rw [hR.fields _ _ h1, hR.fields _ _ hp]
  obtain ⟨m1, m2, w1, w1', w2, w2'⟩ := move_split env hs s.toMove s'.toMove h5 h6 h4 j
    (env.fields s'.plasma) (env.fields (env.plasma s'.plasma (layoutBeamLayer env.cfg.rStep env.cfg.xiStep s'.rhoLayout l' j).1 s'.rhoPrev))
  refine ⟨⟨hp, rfl, rfl, ?_, ?_, ?_⟩, ?_⟩
  · rw [(append_rows _ _ (wf_fresh l) w2).1, (append_rows _ _ (wf_fresh l') w2').1, rows_fresh, rows_fresh]
    exact hl.fresh.append m2
  · exact (append_rows _ _ (wf_fresh l) w2).2
  · exact (append_rows _ _ (wf_fresh l') w2').2
  · rw [← rows_particles w1, ← rows_particles w1']
    exact m1.particles

theorem source_split_2D (env : Env2D σ) (plasma0 plasma0' : ℝ → σ) (hf : IsArgsort (· ≤ ·) env.argsortF) (hx : 0 < env.cfg.xiStep) (N : ℕ) (hlim : ((N : ℝ) + 1) * env.cfg.xiStep ≤ 99999)
    (b b' : List (Particle ℝ)) (h : SplitBeam b b') (j : ℕ) (hj : j ≤ N) :
    SplitBeam (srcLayer (world2D env plasma0) ((world2D env plasma0).mkSrc b) j) (srcLayer (world2D env plasma0') ((world2D env plasma0').mkSrc b') j) := by
  by_cases hb : ∃ q ∈ b, 0 < q.xi
  · have hb' : ∃ q ∈ b', 0 < q.xi := (h.mem fun x => 0 < x).mp hb
    rw [blocked2D env plasma0 hf hx b hb j, blocked2D env plasma0' hf hx b' hb' j]
    exact SplitBeam.nil
  · have hb' : ¬ ∃ q ∈ b', 0 < q.xi := fun h' => hb ((h.mem fun x => 0 < x).mpr h')
    push Not at hb hb'
    refine SplitBeam.perm (h.filter (fun p => decide (InLayer env.cfg.xiStep j p.xi)) fun g hg t => by simp only [hg.xi]) (source2D env plasma0 hf hx N hlim b hb j hj).symm (source2D env plasma0' hf hx N hlim b' hb' j hj).symm

/-- C52, whole 2D simulation: a beam whose macroparticles are replaced by parts (and a plasma replaced by a related one) gives, in every time step, the same beam density and the same fields in every layer, and
layer by layer and after every time step the same beam, split. Nothing is required of the beam. -/
theorem split_run_2D (env : Env2D σ) (plasma0 plasma0' : ℝ → σ) {R : σ → σ → Prop} (hR : PlasmaRel2D env R) (h0 : ∀ t, R (plasma0 t) (plasma0' t))
    (hs : IsArgsort boolLe env.argsortB) (hf : IsArgsort (· ≤ ·) env.argsortF) (hx : 0 < env.cfg.xiStep) (N : ℕ) (hlim : ((N : ℝ) + 1) * env.cfg.xiStep ≤ 99999) (dt : ℝ)
    (b b' : List (Particle ℝ)) (hb : SplitBeam b b') (g : ℕ) :
    (∀ j, j ≤ N → SplitBeam (seqLayers (world2D env plasma0) N dt b g j) (seqLayers (world2D env plasma0') N dt b' g j)) ∧
    (∀ j, j ≤ N + 1 →
      R (stAt (world2D env plasma0) ((world2D env plasma0).init (timeOf dt g)) (seqLayers (world2D env plasma0) N dt b g) j).plasma
        (stAt (world2D env plasma0') ((world2D env plasma0').init (timeOf dt g)) (seqLayers (world2D env plasma0') N dt b' g) j).plasma ∧
      env.fields (stAt (world2D env plasma0) ((world2D env plasma0).init (timeOf dt g)) (seqLayers (world2D env plasma0) N dt b g) j).plasma =
        env.fields (stAt (world2D env plasma0') ((world2D env plasma0').init (timeOf dt g)) (seqLayers (world2D env plasma0') N dt b' g) j).plasma ∧
      (stAt (world2D env plasma0) ((world2D env plasma0).init (timeOf dt g)) (seqLayers (world2D env plasma0) N dt b g) j).rhoPrev =
        (stAt (world2D env plasma0') ((world2D env plasma0').init (timeOf dt g)) (seqLayers (world2D env plasma0') N dt b' g) j).rhoPrev) ∧
    SplitBeam (allFinished (world2D env plasma0) N dt g (seqLayers (world2D env plasma0) N dt b g)) (allFinished (world2D env plasma0') N dt g (seqLayers (world2D env plasma0') N dt b' g)) := by
  obtain ⟨h1, h2, h3⟩ := run_rel (W := world2D env plasma0) (W' := world2D env plasma0') (LR := SplitBeam) (SR := SplitSt2D R) N dt SplitBeam.nil (fun _ _ _ _ h h' => h.append h') (fun _ _ => True)
    (fun b b' h _ j hj => source_split_2D env plasma0 plasma0' hf hx N hlim b b' h j hj)
    (fun t => ⟨h0 t, rfl, rfl, IsSplit.nil, ⟨rfl, rfl, rfl⟩, ⟨rfl, rfl, rfl⟩⟩)
    (fun s s' j l l' h hl => layer2D_split env hs hR s s' j l l' h hl) b b' hb trivial (fun _ => trivial) g
  exact ⟨h1, fun j hj => ⟨(h2 j hj).1, hR.fields _ _ (h2 j hj).1, (h2 j hj).2.2.1⟩, h3⟩

end TwoD

end Lcode.Mpi
