import Verif.Mpi.Whole
import Verif.Plasma2D.Chiral

/-!
Property C56: the sense of rotation does not matter in a complete 2D simulation; and what does not rotate never starts to.
-/

namespace Lcode.Beam2D

/-! ### Specification -/

/-- The particle that turns the other way round the axis. -/
def Particle.rev (p : Particle ℝ) : Particle ℝ := { p with M := -p.M }

/-- E_f and B_z change sign, E_r, E_z and B_f do not. -/
def Fields.rev (F : Fields) : Fields := { F with Ef := fun i => -F.Ef i, Bz := fun i => -F.Bz i }

/-- The external magnetic field points the other way. -/
def PushCfg.rev (c : PushCfg) : PushCfg := { c with magneticField := -c.magneticField }

/-! ### Motion -/

def V3.flip (v : V3) : V3 := ⟨v.x, -v.y, v.z⟩

theorem beamToVec_rev (p : Particle ℝ) : beamToVec p.rev = ((beamToVec p).1.flip, (beamToVec p).2.flip) := by
  unfold beamToVec Particle.rev V3.flip
  simp only [neg_div, neg_zero]

theorem vecToBeam_rev (p : Particle ℝ) (rv pv : V3) (B : ℝ) : vecToBeam p.rev rv.flip pv.flip false (-B) = (vecToBeam p rv pv false B).rev := by
  unfold vecToBeam Particle.rev V3.flip
  simp only [neg_sq, neg_mul_neg, ne_eq, neg_eq_zero]
  congr 1
  split_ifs <;> ring

theorem interpolateParticle_neg (v0 v1 : ℤ → ℝ) (w : ℤ × ℝ × ℝ × ℝ × ℝ) : interpolateParticle (fun i => -v0 i) (fun i => -v1 i) w = -interpolateParticle v0 v1 w := by
  unfold interpolateParticle; ring

theorem particleFields_rev (rv : V3) (f1 f0 : Fields) (x h d : ℝ) :
    particleFields rv.flip f1.rev f0.rev x h d = ((particleFields rv f1 f0 x h d).1.flip, ⟨-(particleFields rv f1 f0 x h d).2.x, (particleFields rv f1 f0 x h d).2.y, -(particleFields rv f1 f0 x h d).2.z⟩) := by
  unfold particleFields Fields.rev V3.flip
  simp only [neg_sq, interpolateParticle_neg]

theorem sq_flip (v : V3) : v.flip.sq = v.sq := by unfold V3.sq V3.flip; simp only [neg_sq]

theorem isLost_flip (v : V3) (R : ℝ) : isLost v.flip R ↔ isLost v R := by unfold isLost V3.flip; simp only [neg_sq]

theorem kick_flip (k g : ℝ) (pv ev bv : V3) :
    pv.flip.add (V3.smul k (ev.flip.add ((V3.smul g pv.flip).cross ⟨-bv.x, bv.y, -bv.z⟩))) = (pv.add (V3.smul k (ev.add ((V3.smul g pv).cross bv)))).flip := by
  unfold V3.add V3.smul V3.cross V3.flip
  simp only [V3.mk.injEq]
  refine ⟨?_, ?_, ?_⟩ <;> ring

theorem drift_flip (k s : ℝ) (rv pv : V3) : (⟨(rv.flip.add (V3.smul k pv.flip)).x, (rv.flip.add (V3.smul k pv.flip)).y, (rv.flip.add (V3.smul k pv.flip)).z - s⟩ : V3) =
    V3.flip ⟨(rv.add (V3.smul k pv)).x, (rv.add (V3.smul k pv)).y, (rv.add (V3.smul k pv)).z - s⟩ := by
  unfold V3.add V3.smul V3.flip
  simp only [V3.mk.injEq, true_and, and_true]
  ring

theorem reflect_flip (a b : V3) : (V3.smul 2 a.flip).add (V3.smul (-1) b.flip) = ((V3.smul 2 a).add (V3.smul (-1) b)).flip := by
  unfold V3.add V3.smul V3.flip
  simp only [V3.mk.injEq, true_and, and_true]
  ring

theorem pushTurn_rev (c : PushCfg) (xiEnd : ℝ) (f1 f0 : Fields) (dt : ℝ) (p : Particle ℝ) :
    pushTurn c.rev xiEnd f1.rev f0.rev dt p.rev = Sum.map (Prod.map Particle.rev id) (Prod.map Particle.rev id) (pushTurn c xiEnd f1 f0 dt p) := by
  unfold pushTurn
  rw [beamToVec_rev]
  generalize beamToVec p = v
  obtain ⟨pv, rv⟩ := v
  dsimp only
  rw [show p.rev.qm = p.qm from rfl, show c.rev.lostBoundary = c.lostBoundary from rfl, show c.rev.rStep = c.rStep from rfl, show c.rev.xiStep = c.xiStep from rfl,
    show c.rev.magneticField = -c.magneticField from rfl, sq_flip, drift_flip, particleFields_rev, vecToBeam_rev]
  generalize Real.sqrt ((1 / p.qm) ^ 2 + pv.sq) = gm
  generalize (⟨(rv.add (V3.smul (dt / 2 / gm) pv)).x, (rv.add (V3.smul (dt / 2 / gm) pv)).y, (rv.add (V3.smul (dt / 2 / gm) pv)).z - dt / 2⟩ : V3) = w
  rw [show inLayer w.flip xiEnd = inLayer w xiEnd from rfl, show isLost w.flip c.lostBoundary = isLost w c.lostBoundary from propext (isLost_flip _ _)]
  generalize particleFields w f1 f0 xiEnd c.rStep c.xiStep = fb
  obtain ⟨ev, bv⟩ := fb
  dsimp only
  rw [show (⟨-bv.x, bv.y, -bv.z + -c.magneticField⟩ : V3) = ⟨-(⟨bv.x, bv.y, bv.z + c.magneticField⟩ : V3).x, (⟨bv.x, bv.y, bv.z + c.magneticField⟩ : V3).y, -(⟨bv.x, bv.y, bv.z + c.magneticField⟩ : V3).z⟩ by simp only; congr 1; ring]
  rw [kick_flip]
  generalize pv.add (V3.smul (dt / 2 * SignType.sign p.qm) (ev.add ((V3.smul (1 / gm) pv).cross ⟨bv.x, bv.y, bv.z + c.magneticField⟩))) = ph
  rw [sq_flip, drift_flip, reflect_flip, vecToBeam_rev]
  rw [show ∀ v : V3, isLost v.flip c.lostBoundary = isLost v c.lostBoundary from fun v => propext (isLost_flip _ _)]
  split_ifs <;> rfl

theorem pushLoop_rev (c : PushCfg) (xiEnd : ℝ) (f1 f0 : Fields) (dt : ℝ) (n : ℕ) (p : Particle ℝ) :
    pushLoop c.rev xiEnd f1.rev f0.rev dt n p.rev = ((pushLoop c xiEnd f1 f0 dt n p).1.rev, (pushLoop c xiEnd f1 f0 dt n p).2) := by
  induction n generalizing p with
  | zero => rfl
  | succ n ih =>
    simp only [pushLoop, pushTurn_rev]
    rcases pushTurn c xiEnd f1 f0 dt p with ⟨p', l⟩ | ⟨p', l⟩
    · rfl
    · simp only [Sum.map_inr, Prod.map_apply, id]
      cases l
      · simpa using ih p'
      · rfl

theorem pushRow_rev (c : PushCfg) (i : ℕ) (f1 f0 : Fields) (t : Row ℝ) : pushRow c.rev i f1.rev f0.rev (onRow Particle.rev t) = onRow Particle.rev (pushRow c i f1 f0 t) := by
  unfold pushRow onRow
  simp only [show c.rev.xiStep = c.xiStep from rfl, pushLoop_rev]
  split_ifs <;> rfl

theorem initRow_rev (ts en : ℝ) (t : Row ℝ) : initRow ts en (onRow Particle.rev t) = onRow Particle.rev (initRow ts en t) := by
  unfold initRow onRow
  simp only [show t.1.rev.qm = t.1.qm from rfl, show t.1.rev.pz = t.1.pz from rfl]
  split_ifs <;> rfl

theorem layout_rev (rStep xiStep : ℝ) (rho : ℤ → ℝ) (l : List (Particle ℝ)) (i : ℕ) : layoutBeamLayer rStep xiStep rho (l.map Particle.rev) i = layoutBeamLayer rStep xiStep rho l i := by
  unfold layoutBeamLayer depositParticles
  simp only [List.map_map, Function.comp_def]
  rfl

theorem layout_permP (rStep xiStep : ℝ) (rho : ℤ → ℝ) (l l' : List (Particle ℝ)) (i : ℕ) (h : l.Perm l') : layoutBeamLayer rStep xiStep rho l i = layoutBeamLayer rStep xiStep rho l' i := by
  have hd : ∀ o0 o1 e, depositParticles l o0 o1 e rStep xiStep = depositParticles l' o0 o1 e rStep xiStep := by
    intro o0 o1 e
    refine Prod.ext ?_ ?_
    · funext k
      rw [(deposit_pointwise l o0 o1 e rStep xiStep k).1, (deposit_pointwise l' o0 o1 e rStep xiStep k).1, (h.map _).sum_eq]
    · funext k
      rw [(deposit_pointwise l o0 o1 e rStep xiStep k).2, (deposit_pointwise l' o0 o1 e rStep xiStep k).2, (h.map _).sum_eq]
  unfold layoutBeamLayer
  simp only [hd]

end Lcode.Beam2D

namespace Lcode.Mpi

open Lcode.Beam2D

/-- States of two layer loops that are mirror images of each other. -/
def RevSt2D (s s' : St2D Plasma2D.World) : Prop :=
  s'.plasma = s.plasma.rev ∧ s'.rhoLayout = s.rhoLayout ∧ s'.rhoPrev = s.rhoPrev ∧ s'.toMove.rows.Perm (s.toMove.rows.map (onRow Particle.rev)) ∧ s.toMove.WF ∧ s'.toMove.WF

theorem plasmaStep2_rev (c : Plasma2D.SolverCfg) (xiStep : ℝ) (w : Plasma2D.World) (rho : ℤ → ℝ) : plasmaStep2 c.rev xiStep w.rev rho = (plasmaStep2 c xiStep w rho).rev := by
  have h := plasmaStep2_done c.rev xiStep w.rev rho
  rw [Plasma2D.stepDxi_rev, plasmaStep2_done] at h
  exact (Plasma2D.Conf.done.inj h).symm

theorem move_rev (c : Plasma2D.SolverCfg) (xiStep timeStep energy : ℝ) (argsortB : List Bool → List ℕ) (argsortF : List ℝ → List ℕ) (hs : IsArgsort boolLe argsortB) (b b' : Beam ℝ) (hb : b.WF) (hb' : b'.WF)
    (h : b'.rows.Perm (b.rows.map (onRow Particle.rev))) (i : ℕ) (f0 f1 : Fields) (env env' : Env2D Plasma2D.World) (he : env = sim2 c xiStep timeStep energy argsortB argsortF) (he' : env' = sim2 c.rev xiStep timeStep energy argsortB argsortF) :
    (moveBeamLayer env' b' i f0.rev f1.rev).2.1.rows.Perm ((moveBeamLayer env b i f0 f1).2.1.rows.map (onRow Particle.rev)) ∧
    (moveBeamLayer env' b' i f0.rev f1.rev).2.2.rows.Perm ((moveBeamLayer env b i f0 f1).2.2.rows.map (onRow Particle.rev)) ∧
      (moveBeamLayer env b i f0 f1).2.1.WF ∧ (moveBeamLayer env' b' i f0.rev f1.rev).2.1.WF ∧ (moveBeamLayer env b i f0 f1).2.2.WF ∧ (moveBeamLayer env' b' i f0.rev f1.rev).2.2.WF := by
  have push : ∀ (env : Env2D Plasma2D.World) (f0 f1 : Fields) (b : Beam ℝ), b.WF → ∃ c : Beam ℝ, c.WF ∧
      c.rows = b.rows.map (fun t => pushRow env.cfg i f1 f0 (initRow env.timeStep env.energy t)) ∧
      moveBeamLayer env b i f0 f1 = splitBeamSlice env.argsortB c (i * -env.cfg.xiStep) := by
    intro env f0 f1 b hb
    by_cases h0 : b.particles.length = 0
    · refine ⟨b, hb, ?_, by unfold moveBeamLayer; simp only [h0, if_true]⟩
      have : b.rows = [] := List.length_eq_zero_iff.1 (by rw [rows_length hb, h0])
      rw [this]; rfl
    · exact ⟨_, wf_mapRows _ b, rows_mapRows _ b, by unfold moveBeamLayer; simp only [h0, if_false]⟩
  obtain ⟨k, hk, hkr, e⟩ := push env f0 f1 b hb
  obtain ⟨k', hk', hkr', e'⟩ := push env' f0.rev f1.rev b' hb'
  have hcfg : env'.cfg = env.cfg.rev := by rw [he, he']; rfl
  have hts : env'.timeStep = env.timeStep := by rw [he, he']; rfl
  have hen : env'.energy = env.energy := by rw [he, he']; rfl
  have ha : env.argsortB = argsortB := by rw [he]; rfl
  have ha' : env'.argsortB = argsortB := by rw [he']; rfl
  have hcc : k'.rows.Perm (k.rows.map (onRow Particle.rev)) := by
    rw [hkr, hkr', hcfg, hts, hen]
    refine (h.map _).trans (List.Perm.of_eq ?_)
    rw [List.map_map, List.map_map]
    apply List.map_congr_left
    intro t _
    simp only [Function.comp, initRow_rev, pushRow_rev]
  obtain ⟨-, h2, h3, -, w2, w3⟩ := split_rows argsortB hs k hk (i * -env.cfg.xiStep)
  obtain ⟨-, h2', h3', -, w2', w3'⟩ := split_rows argsortB hs k' hk' (i * -env.cfg.xiStep)
  have hxi : env'.cfg.xiStep = env.cfg.xiStep := by rw [hcfg]; rfl
  rw [e, e', ha, ha', hxi]
  have fl : ∀ q : Row ℝ → Bool, (∀ t, q (onRow Particle.rev t) = q t) → (k'.rows.filter q).Perm ((k.rows.filter q).map (onRow Particle.rev)) := by
    intro q hq
    refine (hcc.filter q).trans (List.Perm.of_eq ?_)
    rw [List.filter_map]
    congr 2
    exact funext hq
  refine ⟨?_, ?_, w2, w2', w3, w3'⟩
  · exact h2'.trans ((fl _ fun t => rfl).trans (h2.symm.map _))
  · exact h3'.trans ((fl _ fun t => rfl).trans (h3.symm.map _))

theorem layer2D_rev (c : Plasma2D.SolverCfg) (xiStep timeStep energy : ℝ) (argsortB : List Bool → List ℕ) (argsortF : List ℝ → List ℕ) (hs : IsArgsort boolLe argsortB) (s s' : St2D Plasma2D.World) (j : ℕ) (l l' : List (Particle ℝ))
    (h : RevSt2D s s') (hl : l'.Perm (l.map Particle.rev)) :
    RevSt2D (layer2D (sim2 c xiStep timeStep energy argsortB argsortF) s j l).1 (layer2D (sim2 c.rev xiStep timeStep energy argsortB argsortF) s' j l').1 ∧
    (layer2D (sim2 c.rev xiStep timeStep energy argsortB argsortF) s' j l').2.Perm ((layer2D (sim2 c xiStep timeStep energy argsortB argsortF) s j l).2.map Particle.rev) := by
  obtain ⟨h1, h2, h3, h4, h5, h6⟩ := h
  set env := sim2 c xiStep timeStep energy argsortB argsortF with he
  set env' := sim2 c.rev xiStep timeStep energy argsortB argsortF with he'
  have hlay : layoutBeamLayer env'.cfg.rStep env'.cfg.xiStep s'.rhoLayout l' j = layoutBeamLayer env.cfg.rStep env.cfg.xiStep s.rhoLayout l j := by
    rw [layout_permP _ _ _ _ _ _ hl, layout_rev, h2]; rfl
  have hfr : (Beam.fresh l : Beam ℝ).particles = l := rfl
  have hfr' : (Beam.fresh l' : Beam ℝ).particles = l' := rfl
  unfold layer2D
  simp only [hfr, hfr', hlay, h3, h1]
  generalize layoutBeamLayer env.cfg.rStep env.cfg.xiStep s.rhoLayout l j = rho
  have hp : env'.plasma s.plasma.rev rho.1 s.rhoPrev = (env.plasma s.plasma rho.1 s.rhoPrev).rev := plasmaStep2_rev c xiStep s.plasma rho.1
  have hf : ∀ w : Plasma2D.World, env'.fields w.rev = (env.fields w).rev := fun w => rfl
  rw [hp, hf, hf]
  obtain ⟨m1, m2, w1, w1', w2, w2'⟩ := move_rev c xiStep timeStep energy argsortB argsortF hs s.toMove s'.toMove h5 h6 h4 j (env.fields s.plasma) (env.fields (env.plasma s.plasma rho.1 s.rhoPrev)) env env' he he'
  refine ⟨⟨rfl, rfl, rfl, ?_, ?_, ?_⟩, ?_⟩
  · rw [(append_rows _ _ (wf_fresh l) w2).1, (append_rows _ _ (wf_fresh l') w2').1, rows_fresh, rows_fresh, List.map_append]
    refine List.Perm.append ?_ m2
    refine (hl.map _).trans (List.Perm.of_eq ?_)
    rw [List.map_map, List.map_map]; rfl
  · exact (append_rows _ _ (wf_fresh l) w2).2
  · exact (append_rows _ _ (wf_fresh l') w2').2
  · rw [← rows_particles w1, ← rows_particles w1']
    refine (m1.map _).trans (List.Perm.of_eq ?_)
    rw [List.map_map, List.map_map]; rfl

theorem source_rev {σ : Type} (env env' : Env2D σ) (hxi : env'.cfg.xiStep = env.cfg.xiStep) (plasma0 plasma0' : ℝ → σ) (hf : IsArgsort (· ≤ ·) env.argsortF) (hf' : IsArgsort (· ≤ ·) env'.argsortF) (hx : 0 < env.cfg.xiStep) (N : ℕ) (hlim : ((N : ℝ) + 1) * env.cfg.xiStep ≤ 99999)
    (b b' : List (Particle ℝ)) (h : b'.Perm (b.map Particle.rev)) (j : ℕ) (hj : j ≤ N) :
    (srcLayer (world2D env' plasma0') ((world2D env' plasma0').mkSrc b') j).Perm ((srcLayer (world2D env plasma0) ((world2D env plasma0).mkSrc b) j).map Particle.rev) := by
  have mem : ∀ Q : ℝ → Prop, (∃ q ∈ b, Q q.xi) ↔ ∃ q ∈ b', Q q.xi := by
    intro Q
    constructor
    · rintro ⟨q, hq, h1⟩; exact ⟨q.rev, h.mem_iff.mpr (List.mem_map_of_mem hq), h1⟩
    · rintro ⟨q, hq, h1⟩
      obtain ⟨p, hp, rfl⟩ := List.mem_map.mp (h.mem_iff.mp hq)
      exact ⟨p, hp, h1⟩
  by_cases hb : ∃ q ∈ b, 0 < q.xi
  · have hb' : ∃ q ∈ b', 0 < q.xi := (mem fun x => 0 < x).mp hb
    rw [blocked2D env plasma0 hf hx b hb j, blocked2D env' plasma0' hf' (by rw [hxi]; exact hx) b' hb' j]
    exact .nil
  · have hb' : ¬ ∃ q ∈ b', 0 < q.xi := fun h' => hb ((mem fun x => 0 < x).mpr h')
    push Not at hb hb'
    have s1 := source2D env plasma0 hf hx N hlim b hb j hj
    have s2 := source2D env' plasma0' hf' (by rw [hxi]; exact hx) N (by rw [hxi]; exact hlim) b' hb' j hj
    rw [hxi] at s2
    refine s2.trans (((h.filter _).trans (List.Perm.of_eq ?_)).trans (s1.symm.map _))
    rw [List.filter_map]
    rfl

/-! ### Specification of the run -/

/-- The state in front of layer `j` of the time step `g` of the complete 2D simulation that starts with the beam `b` and in every time step with the plasma `w`. -/
noncomputable def simState2 (c : Plasma2D.SolverCfg) (xiStep timeStep energy : ℝ) (argsortB : List Bool → List ℕ) (argsortF : List ℝ → List ℕ) (N : ℕ) (dt : ℝ) (w : Plasma2D.World) (b : List (Particle ℝ)) (g j : ℕ) : St2D Plasma2D.World :=
  stAt (world2D (sim2 c xiStep timeStep energy argsortB argsortF) fun _ => w) ((world2D (sim2 c xiStep timeStep energy argsortB argsortF) fun _ => w).init (timeOf dt g))
    (seqLayers (world2D (sim2 c xiStep timeStep energy argsortB argsortF) fun _ => w) N dt b g) j

/-- The beam layer `j` of its time step `g`. -/
noncomputable def simLayer2 (c : Plasma2D.SolverCfg) (xiStep timeStep energy : ℝ) (argsortB : List Bool → List ℕ) (argsortF : List ℝ → List ℕ) (N : ℕ) (dt : ℝ) (w : Plasma2D.World) (b : List (Particle ℝ)) (g j : ℕ) : List (Particle ℝ) :=
  seqLayers (world2D (sim2 c xiStep timeStep energy argsortB argsortF) fun _ => w) N dt b g j

/-- The beam after its time step `g`. -/
noncomputable def simBeam2 (c : Plasma2D.SolverCfg) (xiStep timeStep energy : ℝ) (argsortB : List Bool → List ℕ) (argsortF : List ℝ → List ℕ) (N : ℕ) (dt : ℝ) (w : Plasma2D.World) (b : List (Particle ℝ)) (g : ℕ) : List (Particle ℝ) :=
  allFinished (world2D (sim2 c xiStep timeStep energy argsortB argsortF) fun _ => w) N dt g (seqLayers (world2D (sim2 c xiStep timeStep energy argsortB argsortF) fun _ => w) N dt b g)

/-! ### C56 -/

/-- C56: turn round the angular momentum of every beam particle, the azimuthal momentum of every plasma particle, E_f, B_z and the azimuthal currents of the initial plasma, and the external magnetic field.
Then the simulation computes, in every layer of every time step, the same beam density, the plasma, fields and currents turned round in the same way, and (up to the order of storage) the beam turned round in the same way. -/
theorem rotation_reversed_2D (c : Plasma2D.SolverCfg) (xiStep timeStep energy : ℝ) (argsortB : List Bool → List ℕ) (argsortF : List ℝ → List ℕ)
    (hs : IsArgsort boolLe argsortB) (hf : IsArgsort (· ≤ ·) argsortF) (hx : 0 < xiStep) (N : ℕ) (hlim : ((N : ℝ) + 1) * xiStep ≤ 99999) (dt : ℝ) (w : Plasma2D.World) (b : List (Particle ℝ)) (g : ℕ) :
    (∀ j, j ≤ N → (simLayer2 c.rev xiStep timeStep energy argsortB argsortF N dt w.rev (b.map Particle.rev) g j).Perm ((simLayer2 c xiStep timeStep energy argsortB argsortF N dt w b g j).map Particle.rev)) ∧
    (∀ j, j ≤ N + 1 →
      (simState2 c.rev xiStep timeStep energy argsortB argsortF N dt w.rev (b.map Particle.rev) g j).plasma = (simState2 c xiStep timeStep energy argsortB argsortF N dt w b g j).plasma.rev ∧
      (simState2 c.rev xiStep timeStep energy argsortB argsortF N dt w.rev (b.map Particle.rev) g j).rhoPrev = (simState2 c xiStep timeStep energy argsortB argsortF N dt w b g j).rhoPrev) ∧
    (simBeam2 c.rev xiStep timeStep energy argsortB argsortF N dt w.rev (b.map Particle.rev) g).Perm ((simBeam2 c xiStep timeStep energy argsortB argsortF N dt w b g).map Particle.rev) := by
  have hsrc : ∀ b b' : List (Particle ℝ), b'.Perm (b.map Particle.rev) → True → ∀ j, j ≤ N →
      (srcLayer (world2D (sim2 c.rev xiStep timeStep energy argsortB argsortF) fun _ => w.rev) ((world2D (sim2 c.rev xiStep timeStep energy argsortB argsortF) fun _ => w.rev).mkSrc b') j).Perm
        ((srcLayer (world2D (sim2 c xiStep timeStep energy argsortB argsortF) fun _ => w) ((world2D (sim2 c xiStep timeStep energy argsortB argsortF) fun _ => w).mkSrc b) j).map Particle.rev) :=
    fun b b' h _ j hj => source_rev (sim2 c xiStep timeStep energy argsortB argsortF) (sim2 c.rev xiStep timeStep energy argsortB argsortF) rfl _ _ hf hf hx N hlim b b' h j hj
  have hinit : ∀ t, RevSt2D ((world2D (sim2 c xiStep timeStep energy argsortB argsortF) fun _ => w).init t) ((world2D (sim2 c.rev xiStep timeStep energy argsortB argsortF) fun _ => w.rev).init t) := by
    intro t
    exact ⟨rfl, rfl, rfl, List.Perm.nil, ⟨rfl, rfl, rfl⟩, ⟨rfl, rfl, rfl⟩⟩
  have h := run_rel (W := world2D (sim2 c xiStep timeStep energy argsortB argsortF) fun _ => w) (W' := world2D (sim2 c.rev xiStep timeStep energy argsortB argsortF) fun _ => w.rev)
    (LR := fun l l' => l'.Perm (l.map Particle.rev)) (SR := RevSt2D) N dt List.Perm.nil (fun a a' b b' h h' => by rw [List.map_append]; exact h.append h') (fun _ _ => True)
    hsrc hinit (fun s s' j l l' h hl => layer2D_rev c xiStep timeStep energy argsortB argsortF hs s s' j l l' h hl) b (b.map Particle.rev) (.refl _) trivial (fun _ => trivial) g
  exact ⟨h.1, fun j hj => ⟨(h.2.1 j hj).1, (h.2.1 j hj).2.2.1⟩, h.2.2⟩

theorem map_self_iff {α : Type} {f : α → α} {l : List α} : l.map f = l ↔ ∀ a ∈ l, f a = a := by
  induction l with
  | nil => simp
  | cons a l ih => simp [ih]

/-- A plasma that does not rotate. -/
structure NoRotation (w : Plasma2D.World) : Prop where
  el : ∀ p ∈ w.el, p.pf = 0
  ions : ∀ ps, w.ions = .mobile ps → ∀ p ∈ ps, p.pf = 0
  Ef : ∀ i, w.F.Ef i = 0
  Bz : ∀ i, w.F.Bz i = 0
  jf : ∀ i, w.cur.el.jf i = 0
  jfIons : ∀ s ∈ w.cur.ions, ∀ i, s.jf i = 0

theorem noRotation_iff (w : Plasma2D.World) : NoRotation w ↔ w.rev = w := by
  have z : ∀ x : ℝ, -x = x ↔ x = 0 := fun x => ⟨fun h => by linarith, fun h => by rw [h, neg_zero]⟩
  have lp : ∀ l : List Plasma2D.PPart, l.map Plasma2D.PPart.rev = l ↔ ∀ p ∈ l, p.pf = 0 := by
    intro l
    rw [map_self_iff]
    refine forall₂_congr fun p _ => ⟨fun h => (z _).mp (congrArg Plasma2D.PPart.pf h), fun h => ?_⟩
    unfold Plasma2D.PPart.rev
    rw [h, neg_zero]
    conv_rhs => rw [show p = ⟨p.r, p.pr, p.pf, p.pz, p.q, p.m, p.age⟩ from rfl, h]
  have lc : ∀ c : Plasma2D.Cur, c.rev = c ↔ ∀ i, c.jf i = 0 := by
    intro c
    constructor
    · intro h i; exact (z _).mp (congrFun (congrArg Plasma2D.Cur.jf h) i)
    · intro h
      unfold Plasma2D.Cur.rev
      conv_rhs => rw [show c = ⟨c.rho, c.jr, c.jf, c.jz⟩ from rfl]
      congr 1
      funext i
      rw [h, neg_zero]
  constructor
  · intro h
    obtain ⟨el, ions, F, cur⟩ := w
    unfold Plasma2D.World.rev
    congr 1
    · exact (lp _).mpr h.el
    · cases ions with
      | mobile ps => exact congrArg _ ((lp ps).mpr (h.ions ps rfl))
      | background ni => rfl
    · unfold Plasma2D.Flds.rev
      conv_rhs => rw [show F = ⟨F.Er, F.Ef, F.Ez, F.Bf, F.Bz⟩ from rfl]
      congr 1
      · funext i; exact (z _).mpr (h.Ef i)
      · funext i; exact (z _).mpr (h.Bz i)
    · unfold Plasma2D.Currents.rev
      conv_rhs => rw [show cur = ⟨cur.el, cur.ions⟩ from rfl]
      congr 1
      · exact (lc _).mpr h.jf
      · exact map_self_iff.mpr fun s hs => (lc s).mpr (h.jfIons s hs)
  · intro h
    refine ⟨(lp _).mp (congrArg Plasma2D.World.el h), ?_, fun i => (z _).mp (congrFun (congrArg (fun w : Plasma2D.World => w.F.Ef) h) i), fun i => (z _).mp (congrFun (congrArg (fun w : Plasma2D.World => w.F.Bz) h) i),
      (lc _).mp (congrArg (fun w : Plasma2D.World => w.cur.el) h), ?_⟩
    · intro ps hps
      have := congrArg Plasma2D.World.ions h
      simp only [Plasma2D.World.rev, hps, Plasma2D.Ions.rev, Plasma2D.Ions.mobile.injEq] at this
      exact (lp ps).mp this
    · intro s hs
      exact (lc s).mp (map_self_iff.mp (congrArg (fun w : Plasma2D.World => w.cur.ions) h) s hs)

/-- C56: without an external magnetic field, a plasma that does not rotate and a beam without angular momentum never start to rotate: in every layer of every time step the plasma has no azimuthal momentum, no azimuthal current, no E_f and no B_z. -/
theorem no_rotation_2D (c : Plasma2D.SolverCfg) (hB : c.B0 = 0) (xiStep timeStep energy : ℝ) (argsortB : List Bool → List ℕ) (argsortF : List ℝ → List ℕ)
    (hs : IsArgsort boolLe argsortB) (hf : IsArgsort (· ≤ ·) argsortF) (hx : 0 < xiStep) (N : ℕ) (hlim : ((N : ℝ) + 1) * xiStep ≤ 99999) (dt : ℝ) (w : Plasma2D.World) (hw : NoRotation w)
    (b : List (Particle ℝ)) (hb : ∀ p ∈ b, p.M = 0) (g j : ℕ) (hj : j ≤ N + 1) : NoRotation (simState2 c xiStep timeStep energy argsortB argsortF N dt w b g j).plasma := by
  have h := ((rotation_reversed_2D c xiStep timeStep energy argsortB argsortF hs hf hx N hlim dt w b g).2.1 j hj).1
  have e1 : c.rev = c := by
    unfold Plasma2D.SolverCfg.rev
    rw [hB, neg_zero]
    conv_rhs => rw [show c = ⟨c.h, c.R, c.ppc, c.B0, c.sens, c.depth, c.corrector, c.decl⟩ from rfl, hB]
  have e2 : b.map Particle.rev = b := by
    rw [map_self_iff]
    intro p hp
    unfold Particle.rev
    rw [hb p hp, neg_zero]
    conv_rhs => rw [show p = ⟨p.xi, p.r, p.pz, p.pr, p.M, p.qm, p.qnorm, p.id⟩ from rfl, hb p hp]
  rw [e1, e2, (noRotation_iff w).mp hw] at h
  exact (noRotation_iff _).mpr h.symm

/-- The plasma made by the initialization does not rotate, for every density profile and ion model. -/
theorem initial_noRotation (c : Plasma2D.SolverCfg) (coef : ℝ → ℝ) (ionMass : Option ℝ) : NoRotation (Plasma2D.initWorld c coef ionMass) := by
  have hel : ∀ p ∈ Plasma2D.initElectrons c.R c.h c.ppc coef 0, p.pf = 0 := by
    intro p hp
    obtain ⟨k, -, rfl⟩ := List.mem_map.mp (List.mem_filter.mp (show p ∈ List.filter _ (List.map _ _) from hp)).1
    rfl
  cases ionMass with
  | some m =>
    refine ⟨hel, ?_, fun _ => rfl, fun _ => rfl, fun _ => rfl, ?_⟩
    · rintro ps ⟨⟩ p hp
      unfold Plasma2D.initIons at hp
      obtain ⟨k, hk, rfl⟩ := List.mem_map.mp hp
      first | rfl | exact hel k hk
    · intro s hs i
      rw [List.mem_singleton.mp hs]; rfl
  | none =>
    refine ⟨hel, ?_, fun _ => rfl, fun _ => rfl, fun _ => rfl, ?_⟩
    · intro ps h; cases h
    · intro s hs i
      rw [List.mem_singleton.mp hs]; rfl

theorem rev_self_iff (p : Particle ℝ) : p.rev = p ↔ p.M = 0 := by
  constructor
  · intro h
    have : -p.M = p.M := congrArg Particle.M h
    linarith
  · intro h
    unfold Particle.rev
    rw [h, neg_zero]
    conv_rhs => rw [show p = ⟨p.xi, p.r, p.pz, p.pr, p.M, p.qm, p.qnorm, p.id⟩ from rfl, h]

/-- The beam kernel keeps a zero angular momentum, in fields without rotation and without an external field. -/
theorem pushRow_noM (c : PushCfg) (hc : c.rev = c) (i : ℕ) (f1 f0 : Fields) (h1 : f1.rev = f1) (h0 : f0.rev = f0) (ts en : ℝ) (t : Row ℝ) (ht : t.1.M = 0) : (pushRow c i f1 f0 (initRow ts en t)).1.M = 0 := by
  have h := pushRow_rev c i f1 f0 (initRow ts en t)
  have e : onRow Particle.rev t = t := Prod.ext ((rev_self_iff t.1).mpr ht) rfl
  rw [hc, h1, h0, ← initRow_rev, e] at h
  exact (rev_self_iff _).mp (congrArg Prod.fst h).symm

theorem move_noM (env : Env2D Plasma2D.World) (hs : IsArgsort boolLe env.argsortB) (hc : env.cfg.rev = env.cfg) (b : Beam ℝ) (hb : b.WF) (h : ∀ t ∈ b.rows, t.1.M = 0) (i : ℕ) (f0 f1 : Fields) (h0 : f0.rev = f0) (h1 : f1.rev = f1) :
    (∀ t ∈ (moveBeamLayer env b i f0 f1).2.1.rows, t.1.M = 0) ∧ (∀ t ∈ (moveBeamLayer env b i f0 f1).2.2.rows, t.1.M = 0) ∧ (moveBeamLayer env b i f0 f1).2.1.WF ∧ (moveBeamLayer env b i f0 f1).2.2.WF := by
  have push : ∃ c : Beam ℝ, c.WF ∧ (∀ t ∈ c.rows, t.1.M = 0) ∧ moveBeamLayer env b i f0 f1 = splitBeamSlice env.argsortB c (i * -env.cfg.xiStep) := by
    by_cases hl : b.particles.length = 0
    · exact ⟨b, hb, h, by unfold moveBeamLayer; simp only [hl, if_true]⟩
    · refine ⟨b.mapRows fun t => pushRow env.cfg i f1 f0 (initRow env.timeStep env.energy t), wf_mapRows _ b, ?_, by unfold moveBeamLayer; simp only [hl, if_false]⟩
      intro t ht
      rw [rows_mapRows] at ht
      obtain ⟨u, hu, rfl⟩ := List.mem_map.mp ht
      exact pushRow_noM _ hc i f1 f0 h1 h0 _ _ u (h u hu)
  obtain ⟨k, hk, hkr, e⟩ := push
  obtain ⟨-, h2, h3, -, w2, w3⟩ := split_rows env.argsortB hs k hk (i * -env.cfg.xiStep)
  rw [e]
  exact ⟨fun t ht => hkr t (List.mem_filter.mp (h2.mem_iff.mp ht)).1, fun t ht => hkr t (List.mem_filter.mp (h3.mem_iff.mp ht)).1, w2, w3⟩

/-- C56: under the same conditions no beam particle ever gains angular momentum. -/
theorem no_rotation_beam_2D (c : Plasma2D.SolverCfg) (hB : c.B0 = 0) (xiStep timeStep energy : ℝ) (argsortB : List Bool → List ℕ) (argsortF : List ℝ → List ℕ)
    (hs : IsArgsort boolLe argsortB) (hf : IsArgsort (· ≤ ·) argsortF) (hx : 0 < xiStep) (N : ℕ) (hlim : ((N : ℝ) + 1) * xiStep ≤ 99999) (dt : ℝ) (w : Plasma2D.World) (hw : NoRotation w)
    (b : List (Particle ℝ)) (hb : ∀ p ∈ b, p.M = 0) (g : ℕ) :
    (∀ j, j ≤ N → ∀ p ∈ simLayer2 c xiStep timeStep energy argsortB argsortF N dt w b g j, p.M = 0) ∧ (∀ p ∈ simBeam2 c xiStep timeStep energy argsortB argsortF N dt w b g, p.M = 0) := by
  have hc : c.rev = c := by
    unfold Plasma2D.SolverCfg.rev
    rw [hB, neg_zero]
    conv_rhs => rw [show c = ⟨c.h, c.R, c.ppc, c.B0, c.sens, c.depth, c.corrector, c.decl⟩ from rfl, hB]
  have hcfg : (sim2 c xiStep timeStep energy argsortB argsortF).cfg.rev = (sim2 c xiStep timeStep energy argsortB argsortF).cfg := by
    have : (sim2 c.rev xiStep timeStep energy argsortB argsortF).cfg = (sim2 c xiStep timeStep energy argsortB argsortF).cfg.rev := rfl
    rw [← this, hc]
  have hsrc : ∀ b b' : List (Particle ℝ), (∀ p ∈ b, p.M = 0) → True → ∀ j, j ≤ N →
      ∀ p ∈ srcLayer (world2D (sim2 c xiStep timeStep energy argsortB argsortF) fun _ => w) ((world2D (sim2 c xiStep timeStep energy argsortB argsortF) fun _ => w).mkSrc b) j, p.M = 0 := by
    intro b _ hb _ j hj p hp
    by_cases hpos : ∃ q ∈ b, 0 < q.xi
    · rw [blocked2D _ _ hf hx b hpos j] at hp; simp at hp
    · push Not at hpos
      exact hb p (List.mem_filter.mp ((source2D (sim2 c xiStep timeStep energy argsortB argsortF) _ hf hx N hlim b hpos j hj).mem_iff.mp hp)).1
  have hlayer : ∀ (s s' : St2D Plasma2D.World) (j : ℕ) (l l' : List (Particle ℝ)), (s.plasma.rev = s.plasma ∧ (∀ t ∈ s.toMove.rows, t.1.M = 0) ∧ s.toMove.WF) → (∀ p ∈ l, p.M = 0) →
      (((layer2D (sim2 c xiStep timeStep energy argsortB argsortF) s j l).1.plasma.rev = (layer2D (sim2 c xiStep timeStep energy argsortB argsortF) s j l).1.plasma ∧
        (∀ t ∈ (layer2D (sim2 c xiStep timeStep energy argsortB argsortF) s j l).1.toMove.rows, t.1.M = 0) ∧ (layer2D (sim2 c xiStep timeStep energy argsortB argsortF) s j l).1.toMove.WF)) ∧
      ∀ p ∈ (layer2D (sim2 c xiStep timeStep energy argsortB argsortF) s j l).2, p.M = 0 := by
    intro s _ j l _ ⟨hp, hm, hwf⟩ hl
    set env := sim2 c xiStep timeStep energy argsortB argsortF with he
    unfold layer2D
    simp only
    generalize layoutBeamLayer env.cfg.rStep env.cfg.xiStep s.rhoLayout (Beam.fresh l).particles j = rho
    have hpl : (env.plasma s.plasma rho.1 s.rhoPrev).rev = env.plasma s.plasma rho.1 s.rhoPrev := by
      have := plasmaStep2_rev c xiStep s.plasma rho.1
      rw [hc, hp] at this
      exact this.symm
    have hfd : ∀ v : Plasma2D.World, v.rev = v → (env.fields v).rev = env.fields v := fun v hv => (show (env.fields v).rev = env.fields v.rev from rfl).trans (by rw [hv])
    obtain ⟨m1, m2, w1, w2⟩ := move_noM env hs hcfg s.toMove hwf hm j (env.fields s.plasma) (env.fields (env.plasma s.plasma rho.1 s.rhoPrev)) (hfd _ hp) (hfd _ hpl)
    refine ⟨⟨hpl, ?_, (append_rows _ _ (wf_fresh l) w2).2⟩, ?_⟩
    · intro t ht
      rw [(append_rows _ _ (wf_fresh l) w2).1, rows_fresh] at ht
      rcases List.mem_append.mp ht with ht | ht
      · obtain ⟨p, hpl, rfl⟩ := List.mem_map.mp ht
        exact hl p hpl
      · exact m2 t ht
    · intro p hp'
      rw [← rows_particles w1] at hp'
      obtain ⟨t, ht, rfl⟩ := List.mem_map.mp hp'
      exact m1 t ht
  have hinit : ∀ t, ((world2D (sim2 c xiStep timeStep energy argsortB argsortF) fun _ => w).init t).plasma.rev = ((world2D (sim2 c xiStep timeStep energy argsortB argsortF) fun _ => w).init t).plasma ∧
      (∀ u ∈ ((world2D (sim2 c xiStep timeStep energy argsortB argsortF) fun _ => w).init t).toMove.rows, u.1.M = 0) ∧ ((world2D (sim2 c xiStep timeStep energy argsortB argsortF) fun _ => w).init t).toMove.WF := by
    intro t
    refine ⟨(noRotation_iff w).mp hw, ?_, ⟨rfl, rfl, rfl⟩⟩
    intro u hu
    simp [world2D, Beam.rows, Beam.fresh] at hu
  have h := run_rel (W := world2D (sim2 c xiStep timeStep energy argsortB argsortF) fun _ => w) (W' := world2D (sim2 c xiStep timeStep energy argsortB argsortF) fun _ => w)
    (LR := fun l _ => ∀ p ∈ l, p.M = 0) (SR := fun s _ => s.plasma.rev = s.plasma ∧ (∀ t ∈ s.toMove.rows, t.1.M = 0) ∧ s.toMove.WF) N dt (by simp)
    (fun a _ b _ h h' p hp => (List.mem_append.mp hp).elim (h p) (h' p)) (fun _ _ => True) hsrc hinit hlayer b b hb trivial (fun _ => trivial) g
  exact ⟨h.1, h.2.2⟩

/-- A case of `no_rotation_2D`: mobile ions, a beam of two particles, a hundred layers. -/
example (argsortB : List Bool → List ℕ) (hs : IsArgsort boolLe argsortB) (argsortF : List ℝ → List ℕ) (hf : IsArgsort (· ≤ ·) argsortF) (j : ℕ) (hj : j ≤ 101) :
    NoRotation (simState2 ⟨1 / 10, 5, 4, 0, 1 / 5, 3, 2, true⟩ (1 / 10) 10 1 argsortB argsortF 100 10 (Plasma2D.initWorld ⟨1 / 10, 5, 4, 0, 1 / 5, 3, 2, true⟩ (fun _ => 1) (some 1836)) [⟨-1, 1, 1000, 1, 0, 1, 1 / 10, 1⟩, ⟨-2, 2, 1000, 0, 0, -1, 1 / 10, 2⟩] 7 j).plasma :=
  no_rotation_2D _ rfl _ _ _ _ _ hs hf (by norm_num) 100 (by norm_num) _ _ (initial_noRotation _ _ _) _ (by simp) 7 j hj

end Lcode.Mpi
