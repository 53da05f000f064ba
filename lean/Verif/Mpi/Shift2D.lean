import Verif.Plasma2D.Alike
import Verif.Mpi.FreeBeam2D

/-!
Property C60: moving the whole beam back by a whole number of layers, in a window longer by as many layers, moves the whole result back by as many layers (2D).
-/

namespace Lcode.Beam2D

/-! ### Specification -/

/-- The particle moved back by `d` along the window. -/
def Particle.shift (d : ℝ) (p : Particle ℝ) : Particle ℝ := { p with xi := p.xi - d }

/-! ### Motion -/

/-- Two sets of fields with the same values at the nodes `0..n`. -/
def AgreeTo (n : ℤ) (f g : Fields) : Prop := ∀ i, 0 ≤ i → i ≤ n → f.Er i = g.Er i ∧ f.Ef i = g.Ef i ∧ f.Ez i = g.Ez i ∧ f.Bf i = g.Bf i ∧ f.Bz i = g.Bz i

/-- The nodes around every point where a particle is pushed are nodes of the grid. -/
def NodesIn (c : PushCfg) (n : ℤ) : Prop := ∀ r, 0 ≤ r → r < c.lostBoundary → 0 ≤ ⌊r / c.rStep⌋ ∧ ⌊r / c.rStep⌋ + 1 ≤ n

theorem particleFields_shift (d x y z : ℝ) (f1 f0 f1' f0' : Fields) (e h s : ℝ) (n : ℤ) (h1 : AgreeTo n f1 f1') (h0 : AgreeTo n f0 f0') (hlo : 0 ≤ ⌊Real.sqrt (x ^ 2 + y ^ 2) / h⌋) (hhi : ⌊Real.sqrt (x ^ 2 + y ^ 2) / h⌋ + 1 ≤ n) :
    particleFields ⟨x, y, z - d⟩ f1' f0' (e - d) h s = particleFields ⟨x, y, z⟩ f1 f0 e h s := by
  unfold particleFields interpolateParticle beamParticleWeights
  dsimp only
  generalize ⌊Real.sqrt (x ^ 2 + y ^ 2) / h⌋ = k at *
  rw [show e - d - (z - d) = e - z by ring]
  obtain ⟨a1, a2, a3, a4, a5⟩ := h1 k (by omega) (by omega)
  obtain ⟨b1, b2, b3, b4, b5⟩ := h1 (k + 1) (by omega) (by omega)
  obtain ⟨c1, c2, c3, c4, c5⟩ := h0 k (by omega) (by omega)
  obtain ⟨d1, d2, d3, d4, d5⟩ := h0 (k + 1) (by omega) (by omega)
  simp only [a1, a2, a3, a4, a5, b1, b2, b3, b4, b5, c1, c2, c3, c4, c5, d1, d2, d3, d4, d5, add_zero]

theorem isLost_shift (x y z z' R : ℝ) : isLost ⟨x, y, z⟩ R ↔ isLost ⟨x, y, z'⟩ R := Iff.rfl

theorem vecToBeam_shift (d : ℝ) (p : Particle ℝ) (x y z : ℝ) (pv : V3) (m : ℝ) : vecToBeam (p.shift d) ⟨x, y, z - d⟩ pv false m = (vecToBeam p ⟨x, y, z⟩ pv false m).shift d := rfl

theorem turnOf_shift (c : PushCfg) (d : ℝ) (n : ℤ) (hn : NodesIn c n) (hlb : 0 < c.lostBoundary) (e : ℝ) (f1 f0 f1' f0' : Fields) (h1 : AgreeTo n f1 f1') (h0 : AgreeTo n f0 f0') (dt : ℝ) (pv : V3) (x0 y0 z0 qm : ℝ) (p : Particle ℝ)
    (back back' : V3 → V3 → Particle ℝ) (hb : ∀ x y z pv, back' ⟨x, y, z - d⟩ pv = (back ⟨x, y, z⟩ pv).shift d) :
    turnOf c (e - d) f1' f0' dt (pv, ⟨x0, y0, z0 - d⟩) qm (p.shift d) back' = Sum.map (Prod.map (Particle.shift d) id) (Prod.map (Particle.shift d) id) (turnOf c e f1 f0 dt (pv, ⟨x0, y0, z0⟩) qm p back) := by
  unfold turnOf
  dsimp only [V3.add, V3.smul]
  generalize Real.sqrt ((1 / qm) ^ 2 + V3.sq pv) = g
  generalize dt / 2 / g = w
  have ez : z0 - d + w * pv.z - dt / 2 = z0 + w * pv.z - dt / 2 - d := by ring
  have hin : inLayer ⟨x0 + w * pv.x, y0 + w * pv.y, z0 - d + w * pv.z - dt / 2⟩ (e - d) ↔ inLayer ⟨x0 + w * pv.x, y0 + w * pv.y, z0 + w * pv.z - dt / 2⟩ e := by
    unfold inLayer; dsimp only; rw [ez]; exact sub_le_sub_iff_right d
  by_cases c1 : inLayer ⟨x0 + w * pv.x, y0 + w * pv.y, z0 + w * pv.z - dt / 2⟩ e
  · rw [if_neg (not_not.mpr c1), if_neg (not_not.mpr (hin.mpr c1))]
    by_cases c2 : isLost ⟨x0 + w * pv.x, y0 + w * pv.y, z0 + w * pv.z - dt / 2⟩ c.lostBoundary
    · rw [if_pos c2, if_pos ((isLost_shift _ _ _ _ _).mp c2), hb]; rfl
    · rw [if_neg c2, if_neg (fun h => c2 ((isLost_shift _ _ _ _ _).mp h)), ez]
      have hr : Real.sqrt ((x0 + w * pv.x) ^ 2 + (y0 + w * pv.y) ^ 2) < c.lostBoundary := by
        unfold isLost at c2
        rw [Real.sqrt_lt' hlb]
        exact lt_of_not_ge c2
      obtain ⟨n1, n2⟩ := hn _ (Real.sqrt_nonneg _) hr
      rw [particleFields_shift d _ _ _ f1 f0 f1' f0' e c.rStep c.xiStep n h1 h0 n1 n2]
      generalize (particleFields ⟨x0 + w * pv.x, y0 + w * pv.y, z0 + w * pv.z - dt / 2⟩ f1 f0 e c.rStep c.xiStep) = EB
      simp only [Sum.map_inr, Prod.map_apply, id]
      rw [← hb]
      generalize V3.sq _ = g2
      have e2 : ∀ a : ℝ, z0 - d + a - dt = z0 + a - dt - d := fun a => by ring
      simp only [e2]
      rfl
  · rw [if_pos c1, if_pos (fun h => c1 (hin.mp h))]; rfl

theorem pushTurn_shift (c : PushCfg) (d : ℝ) (n : ℤ) (hn : NodesIn c n) (hlb : 0 < c.lostBoundary) (e : ℝ) (f1 f0 f1' f0' : Fields) (h1 : AgreeTo n f1 f1') (h0 : AgreeTo n f0 f0') (dt : ℝ) (p : Particle ℝ) :
    pushTurn c (e - d) f1' f0' dt (p.shift d) = Sum.map (Prod.map (Particle.shift d) id) (Prod.map (Particle.shift d) id) (pushTurn c e f1 f0 dt p) := by
  rw [pushTurn_turnOf, pushTurn_turnOf]
  exact turnOf_shift c d n hn hlb e f1 f0 f1' f0' h1 h0 dt ⟨p.pr, p.M / p.r, p.pz⟩ p.r 0 p.xi p.qm p _ _ fun _ _ _ _ => rfl

theorem pushLoop_shift (c : PushCfg) (d : ℝ) (n : ℤ) (hn : NodesIn c n) (hlb : 0 < c.lostBoundary) (e : ℝ) (f1 f0 f1' f0' : Fields) (h1 : AgreeTo n f1 f1') (h0 : AgreeTo n f0 f0') (dt : ℝ) (m : ℕ) (p : Particle ℝ) :
    pushLoop c (e - d) f1' f0' dt m (p.shift d) = ((pushLoop c e f1 f0 dt m p).1.shift d, (pushLoop c e f1 f0 dt m p).2) := by
  induction m generalizing p with
  | zero => rfl
  | succ m ih =>
    simp only [pushLoop, pushTurn_shift c d n hn hlb e f1 f0 f1' f0' h1 h0]
    rcases pushTurn c e f1 f0 dt p with ⟨p', l⟩ | ⟨p', l⟩
    · rfl
    · simp only [Sum.map_inr, Prod.map_apply, id]
      cases l
      · simpa using ih p'
      · rfl

theorem pushRow_shift (c : PushCfg) (k : ℕ) (n : ℤ) (hn : NodesIn c n) (hlb : 0 < c.lostBoundary) (i : ℕ) (f1 f0 f1' f0' : Fields) (h1 : AgreeTo n f1 f1') (h0 : AgreeTo n f0 f0') (t : Row ℝ) :
    pushRow c (i + k) f1' f0' (onRow (Particle.shift (k * c.xiStep)) t) = onRow (Particle.shift (k * c.xiStep)) (pushRow c i f1 f0 t) := by
  unfold pushRow onRow
  have e : ((i + k : ℕ) : ℝ) * -c.xiStep = (i : ℝ) * -c.xiStep - k * c.xiStep := by push_cast; ring
  simp only [e, pushLoop_shift c _ n hn hlb _ f1 f0 f1' f0' h1 h0]
  split_ifs <;> rfl

theorem initRow_shift (d ts en : ℝ) (t : Row ℝ) : initRow ts en (onRow (Particle.shift d) t) = onRow (Particle.shift d) (initRow ts en t) := by
  unfold initRow onRow
  have q1 : (t.1.shift d).qm = t.1.qm := rfl
  have q2 : (t.1.shift d).pz = t.1.pz := rfl
  simp only [q1, q2]
  split_ifs <;> rfl

/-! ### Charge density -/

theorem layout_shift (rStep xiStep : ℝ) (rho : ℤ → ℝ) (k : ℕ) (l l' : List (Particle ℝ)) (i : ℕ) (h : (l.map (Particle.shift (k * xiStep))).Perm l') :
    layoutBeamLayer rStep xiStep rho l i = layoutBeamLayer rStep xiStep rho l' (i + k) := by
  rw [← Lcode.Mpi.layout_perm rStep xiStep rho _ _ (i + k) h]
  have hd : ∀ o0 o1 e, depositParticles (l.map (Particle.shift (k * xiStep))) o0 o1 (e - k * xiStep) rStep xiStep = depositParticles l o0 o1 e rStep xiStep := by
    intro o0 o1 e
    have q : ∀ p : Particle ℝ, (p.shift (k * xiStep)).xi - (e - k * xiStep) = p.xi - e := fun p => by simp only [Particle.shift]; ring
    have q2 : ∀ p : Particle ℝ, (p.shift (k * xiStep)).qnorm = p.qnorm := fun p => rfl
    have q3 : ∀ p : Particle ℝ, (p.shift (k * xiStep)).r = p.r := fun p => rfl
    refine Prod.ext ?_ ?_
    · funext j
      rw [(deposit_pointwise _ o0 o1 _ rStep xiStep j).1, (deposit_pointwise l o0 o1 e rStep xiStep j).1]
      simp only [List.map_map, Function.comp_def, q, q2, q3]
    · funext j
      rw [(deposit_pointwise _ o0 o1 _ rStep xiStep j).2, (deposit_pointwise l o0 o1 e rStep xiStep j).2]
      simp only [List.map_map, Function.comp_def, q, q2, q3]
  have e : (((i + k : ℕ) : ℝ) + 1) * -xiStep = ((i : ℝ) + 1) * -xiStep - k * xiStep := by push_cast; ring
  unfold layoutBeamLayer
  simp only [e, hd]

end Lcode.Beam2D

namespace Lcode.Mpi

open Lcode.Beam2D

/-! ### Runs whose layers are shifted -/

section Rel
variable {P : Type} {W : World ℝ P} {LR : List P → List P → Prop} {SR : W.St → W.St → Prop} {Idle : W.St → Prop}

/-- A world in which the first `k` layers of the second run are empty and do nothing, and the layer `j + k` of the second run does to related data what layer `j` of the first run does. -/
theorem run_shift (N k : ℕ) (dt : ℝ) (hnil : LR [] []) (happ : ∀ a a' b b', LR a a' → LR b b' → LR (a ++ b) (a' ++ b')) (ok : List P → Prop)
    (hsrc0 : ∀ b b', LR b b' → ok b → ∀ j, j < k → srcLayer W (W.mkSrc b') j = [])
    (hsrc : ∀ b b', LR b b' → ok b → ∀ j, j ≤ N → LR (srcLayer W (W.mkSrc b) j) (srcLayer W (W.mkSrc b') (j + k)))
    (hidle : ∀ t, Idle (W.init t)) (hstep : ∀ s j, Idle s → Idle (W.layer s j []).1 ∧ (W.layer s j []).2 = []) (hinit : ∀ t s, Idle s → SR (W.init t) s)
    (hlayer : ∀ s s' j l l', SR s s' → LR l l' → SR (W.layer s j l).1 (W.layer s' (j + k) l').1 ∧ LR (W.layer s j l).2 (W.layer s' (j + k) l').2)
    (b b' : List P) (hb : LR b b') (hok : ok b) (hoks : ∀ g, ok (allFinished W N dt g (seqLayers W N dt b g))) (g : ℕ) :
    (∀ j, j < k → seqLayers W (N + k) dt b' g j = []) ∧
    (∀ j, j ≤ N → LR (seqLayers W N dt b g j) (seqLayers W (N + k) dt b' g (j + k))) ∧
    (∀ j, j ≤ k → Idle (stAt W (W.init (timeOf dt g)) (seqLayers W (N + k) dt b' g) j)) ∧
    (∀ j, j ≤ N + 1 → SR (stAt W (W.init (timeOf dt g)) (seqLayers W N dt b g) j) (stAt W (W.init (timeOf dt g)) (seqLayers W (N + k) dt b' g) (j + k))) ∧
    LR (allFinished W N dt g (seqLayers W N dt b g)) (allFinished W (N + k) dt g (seqLayers W (N + k) dt b' g)) := by
  have key : ∀ g, (∀ j, j < k → seqLayers W (N + k) dt b' g j = []) → (∀ j, j ≤ N → LR (seqLayers W N dt b g j) (seqLayers W (N + k) dt b' g (j + k))) →
      (∀ j, j ≤ k → Idle (stAt W (W.init (timeOf dt g)) (seqLayers W (N + k) dt b' g) j)) ∧
      (∀ j, j ≤ N + 1 → SR (stAt W (W.init (timeOf dt g)) (seqLayers W N dt b g) j) (stAt W (W.init (timeOf dt g)) (seqLayers W (N + k) dt b' g) (j + k))) ∧
      LR (allFinished W N dt g (seqLayers W N dt b g)) (allFinished W (N + k) dt g (seqLayers W (N + k) dt b' g)) := by
    intro g h0 hl
    have hid : ∀ j, j ≤ k → Idle (stAt W (W.init (timeOf dt g)) (seqLayers W (N + k) dt b' g) j) := by
      intro j
      induction j with
      | zero => intro _; exact hidle _
      | succ j ih =>
        intro hj
        show Idle (W.layer _ j (seqLayers W (N + k) dt b' g j)).1
        rw [h0 j (by omega)]
        exact (hstep _ j (ih (by omega))).1
    have hst : ∀ j, j ≤ N + 1 → SR (stAt W (W.init (timeOf dt g)) (seqLayers W N dt b g) j) (stAt W (W.init (timeOf dt g)) (seqLayers W (N + k) dt b' g) (j + k)) := by
      intro j
      induction j with
      | zero => intro _; rw [Nat.zero_add]; exact hinit _ _ (hid k le_rfl)
      | succ j ih =>
        intro hj
        rw [show j + 1 + k = (j + k) + 1 by omega]
        exact (hlayer _ _ j _ _ (ih (by omega)) (hl j (by omega))).1
    refine ⟨hid, hst, ?_⟩
    unfold allFinished
    rw [show N + k + 1 = k + (N + 1) by omega, List.range_add (m := N + 1) (n := k), List.map_append, List.flatten_append, List.map_map]
    have he : ((List.range k).map (finished W dt g (seqLayers W (N + k) dt b' g))).flatten = [] := by
      rw [List.flatten_eq_nil_iff]
      intro l hl'
      obtain ⟨j, hj, rfl⟩ := List.mem_map.mp hl'
      rw [List.mem_range] at hj
      show (W.layer _ j (seqLayers W (N + k) dt b' g j)).2 = []
      rw [h0 j hj]
      exact (hstep _ j (hid j hj.le)).2
    rw [he, List.nil_append]
    apply rel_flatten hnil happ
    intro j hj
    rw [List.mem_range] at hj
    have := (hlayer _ _ j _ _ (hst j (by omega)) (hl j (by omega))).2
    show LR (finished W dt g (seqLayers W N dt b g) j) (finished W dt g (seqLayers W (N + k) dt b' g) (k + j))
    rw [show k + j = j + k by omega]
    exact this
  induction g with
  | zero =>
    have h0 : ∀ j, j < k → seqLayers W (N + k) dt b' 0 j = [] := fun j hj => hsrc0 b b' hb hok j hj
    have h1 : ∀ j, j ≤ N → LR (seqLayers W N dt b 0 j) (seqLayers W (N + k) dt b' 0 (j + k)) := fun j hj => hsrc b b' hb hok j hj
    exact ⟨h0, h1, key 0 h0 h1⟩
  | succ g ih =>
    obtain ⟨-, -, -, -, hfin⟩ := ih
    have h0 : ∀ j, j < k → seqLayers W (N + k) dt b' (g + 1) j = [] := fun j hj => hsrc0 _ _ hfin (hoks g) j hj
    have h1 : ∀ j, j ≤ N → LR (seqLayers W N dt b (g + 1) j) (seqLayers W (N + k) dt b' (g + 1) (j + k)) := fun j hj => hsrc _ _ hfin (hoks g) j hj
    exact ⟨h0, h1, key (g + 1) h0 h1⟩

end Rel

/-! ### The 2D simulation -/

section TwoD
variable {σ : Type}

/-- The second list is the first one moved back by `k` layers, in any order. -/
def ShiftedBy (d : ℝ) (l l' : List (Particle ℝ)) : Prop := (l.map (Particle.shift d)).Perm l'

/-- What is needed of the plasma: a relation between states kept by a layer, related states having the same fields at the nodes the pusher reads. -/
structure PlasmaAlike2D (env : Env2D σ) (n : ℤ) (R : σ → σ → Prop) : Prop where
  step : ∀ s s' rho prev, R s s' → R (env.plasma s rho prev) (env.plasma s' rho prev)
  fields : ∀ s s', R s s' → AgreeTo n (env.fields s) (env.fields s')

/-- States of two layer loops: related plasmas, the same densities, the particles being moved shifted. -/
def ShiftSt2D (d : ℝ) (R : σ → σ → Prop) (s s' : St2D σ) : Prop :=
  R s.plasma s'.plasma ∧ s.rhoLayout = s'.rhoLayout ∧ s.rhoPrev = s'.rhoPrev ∧ (s.toMove.rows.map (onRow (Particle.shift d))).Perm s'.toMove.rows ∧ s.toMove.WF ∧ s'.toMove.WF

theorem move_shift (env : Env2D σ) (hs : IsArgsort boolLe env.argsortB) (n : ℤ) (hn : NodesIn env.cfg n) (hlb : 0 < env.cfg.lostBoundary) (k : ℕ) (b b' : Beam ℝ) (hb : b.WF) (hb' : b'.WF)
    (h : (b.rows.map (onRow (Particle.shift (k * env.cfg.xiStep)))).Perm b'.rows) (i : ℕ) (f0 f1 f0' f1' : Fields) (h0 : AgreeTo n f0 f0') (h1 : AgreeTo n f1 f1') :
    ((moveBeamLayer env b i f0 f1).2.1.rows.map (onRow (Particle.shift (k * env.cfg.xiStep)))).Perm (moveBeamLayer env b' (i + k) f0' f1').2.1.rows ∧
      ((moveBeamLayer env b i f0 f1).2.2.rows.map (onRow (Particle.shift (k * env.cfg.xiStep)))).Perm (moveBeamLayer env b' (i + k) f0' f1').2.2.rows ∧
      (moveBeamLayer env b i f0 f1).2.1.WF ∧ (moveBeamLayer env b' (i + k) f0' f1').2.1.WF ∧ (moveBeamLayer env b i f0 f1).2.2.WF ∧ (moveBeamLayer env b' (i + k) f0' f1').2.2.WF := by
  have push : ∀ (b : Beam ℝ) (i : ℕ) (f0 f1 : Fields), b.WF → ∃ c : Beam ℝ, c.WF ∧
      c.rows = b.rows.map (fun t => pushRow env.cfg i f1 f0 (initRow env.timeStep env.energy t)) ∧
      moveBeamLayer env b i f0 f1 = splitBeamSlice env.argsortB c (i * -env.cfg.xiStep) := by
    intro b i f0 f1 hb
    by_cases h0 : b.particles.length = 0
    · refine ⟨b, hb, ?_, by unfold moveBeamLayer; simp only [h0, if_true]⟩
      have : b.rows = [] := List.length_eq_zero_iff.1 (by rw [rows_length hb, h0])
      rw [this]; rfl
    · exact ⟨_, wf_mapRows _ b, rows_mapRows _ b, by unfold moveBeamLayer; simp only [h0, if_false]⟩
  obtain ⟨c, hc, hcr, e⟩ := push b i f0 f1 hb
  obtain ⟨c', hc', hcr', e'⟩ := push b' (i + k) f0' f1' hb'
  have hcc : (c.rows.map (onRow (Particle.shift (k * env.cfg.xiStep)))).Perm c'.rows := by
    rw [hcr, hcr', List.map_map]
    have := h.map (fun t => pushRow env.cfg (i + k) f1' f0' (initRow env.timeStep env.energy t))
    rw [List.map_map] at this
    refine (List.Perm.of_eq (List.map_congr_left fun t _ => ?_)).trans this
    simp only [Function.comp_apply]
    rw [initRow_shift, pushRow_shift env.cfg k n hn hlb i f1 f0 f1' f0' h1 h0]
  obtain ⟨-, h2, h3, -, w2, w3⟩ := split_rows env.argsortB hs c hc (i * -env.cfg.xiStep)
  obtain ⟨-, h2', h3', -, w2', w3'⟩ := split_rows env.argsortB hs c' hc' ((i + k : ℕ) * -env.cfg.xiStep)
  have ee : ((i + k : ℕ) : ℝ) * -env.cfg.xiStep = (i : ℝ) * -env.cfg.xiStep - k * env.cfg.xiStep := by push_cast; ring
  rw [e, e']
  refine ⟨?_, ?_, w2, w2', w3, w3'⟩
  · refine ((h2.map _).trans ?_).trans ((hcc.filter _).trans h2'.symm)
    rw [List.filter_map]
    refine List.Perm.of_eq (congrArg _ (List.filter_congr fun t _ => ?_))
    have e1 : ((i + k : ℕ) : ℝ) * -env.cfg.xiStep ≤ (onRow (Particle.shift (k * env.cfg.xiStep)) t).1.xi ↔ (i : ℝ) * -env.cfg.xiStep ≤ t.1.xi := by
      rw [ee]; exact sub_le_sub_iff_right _
    simp only [Function.comp_apply, e1]
    rfl
  · refine ((h3.map _).trans ?_).trans ((hcc.filter _).trans h3'.symm)
    rw [List.filter_map]
    refine List.Perm.of_eq (congrArg _ (List.filter_congr fun t _ => ?_))
    have e1 : (onRow (Particle.shift (k * env.cfg.xiStep)) t).1.xi < ((i + k : ℕ) : ℝ) * -env.cfg.xiStep ↔ t.1.xi < (i : ℝ) * -env.cfg.xiStep := by
      rw [ee]; exact sub_lt_sub_iff_right _
    simp only [Function.comp_apply, e1]
    rfl

theorem layer2D_shift (env : Env2D σ) (hs : IsArgsort boolLe env.argsortB) (n : ℤ) (hn : NodesIn env.cfg n) (hlb : 0 < env.cfg.lostBoundary) (k : ℕ) {R : σ → σ → Prop} (hR : PlasmaAlike2D env n R) (s s' : St2D σ) (j : ℕ) (l l' : List (Particle ℝ))
    (h : ShiftSt2D (k * env.cfg.xiStep) R s s') (hl : ShiftedBy (k * env.cfg.xiStep) l l') :
    ShiftSt2D (k * env.cfg.xiStep) R (layer2D env s j l).1 (layer2D env s' (j + k) l').1 ∧ ShiftedBy (k * env.cfg.xiStep) (layer2D env s j l).2 (layer2D env s' (j + k) l').2 := by
  obtain ⟨h1, h2, h3, h4, h5, h6⟩ := h
  have hlay := layout_shift env.cfg.rStep env.cfg.xiStep s'.rhoLayout k l l' j hl
  have hfr : (Beam.fresh l : Beam ℝ).particles = l := rfl
  have hfr' : (Beam.fresh l' : Beam ℝ).particles = l' := rfl
  unfold layer2D
  simp only [hfr, hfr', h2, h3, hlay]
  have hp := hR.step _ _ (layoutBeamLayer env.cfg.rStep env.cfg.xiStep s'.rhoLayout l' (j + k)).1 s'.rhoPrev h1
  obtain ⟨m1, m2, w1, w1', w2, w2'⟩ := move_shift env hs n hn hlb k s.toMove s'.toMove h5 h6 h4 j _ _ _ _ (hR.fields _ _ h1) (hR.fields _ _ hp)
  refine ⟨⟨hp, rfl, rfl, ?_, ?_, ?_⟩, ?_⟩
  · rw [(append_rows _ _ (wf_fresh l) w2).1, (append_rows _ _ (wf_fresh l') w2').1, rows_fresh, rows_fresh, List.map_append, List.map_map]
    refine List.Perm.append ?_ m2
    have := hl.map fun p => ((p, 0, 1, false) : Row ℝ)
    rw [List.map_map] at this
    exact this
  · exact (append_rows _ _ (wf_fresh l) w2).2
  · exact (append_rows _ _ (wf_fresh l') w2').2
  · rw [← rows_particles w1, ← rows_particles w1']
    have := m1.map fun t => t.1
    rw [List.map_map] at this
    unfold ShiftedBy
    rw [List.map_map]
    exact this

/-- The layer of a particle moved back by `k` layers. -/
theorem inLayer_shift (h : ℝ) (k j : ℕ) (x : ℝ) (hx : x < 0) : InLayer h (j + k) (x - k * h) ↔ InLayer h j x := by
  unfold InLayer
  push_cast
  constructor
  · rintro ⟨a, b⟩
    refine ⟨by linarith, ?_⟩
    rcases b with b | b
    · left; linarith
    · right; omega
  · rintro ⟨a, b⟩
    refine ⟨by linarith, ?_⟩
    rcases b with b | b
    · left; linarith
    · left
      subst b
      push_cast
      linarith

theorem source_shift_2D (env : Env2D σ) (plasma0 : ℝ → σ) (hf : IsArgsort (· ≤ ·) env.argsortF) (hx : 0 < env.cfg.xiStep) (N k : ℕ) (hlim : (((N + k : ℕ) : ℝ) + 1) * env.cfg.xiStep ≤ 99999)
    (b b' : List (Particle ℝ)) (h : ShiftedBy (k * env.cfg.xiStep) b b') (hneg : ∀ p ∈ b, p.xi < 0) :
    (∀ j, j < k → srcLayer (world2D env plasma0) ((world2D env plasma0).mkSrc b') j = []) ∧
    ∀ j, j ≤ N → ShiftedBy (k * env.cfg.xiStep) (srcLayer (world2D env plasma0) ((world2D env plasma0).mkSrc b) j) (srcLayer (world2D env plasma0) ((world2D env plasma0).mkSrc b') (j + k)) := by
  have hneg' : ∀ p ∈ b', p.xi < -(k * env.cfg.xiStep) := by
    intro p hp
    obtain ⟨q, hq, rfl⟩ := List.mem_map.mp (h.mem_iff.mpr hp)
    have := hneg q hq
    show q.xi - k * env.cfg.xiStep < _
    linarith
  have hk0 : 0 ≤ (k : ℝ) * env.cfg.xiStep := by positivity
  have hle' : ∀ p ∈ b', p.xi ≤ 0 := fun p hp => by have := hneg' p hp; linarith
  have hlimN : ((N : ℝ) + 1) * env.cfg.xiStep ≤ 99999 := by
    push_cast at hlim
    nlinarith
  constructor
  · intro j hj
    have hs := source2D env plasma0 hf hx (N + k) hlim b' hle' j (by omega)
    have : b'.filter (fun p => decide (InLayer env.cfg.xiStep j p.xi)) = [] := by
      rw [List.filter_eq_nil_iff]
      intro p hp
      have h1 := hneg' p hp
      simp only [decide_eq_true_eq]
      rintro ⟨h2, -⟩
      have : (j : ℝ) + 1 ≤ k := by exact_mod_cast hj
      have := mul_le_mul_of_nonneg_right this hx.le
      linarith
    rw [this] at hs
    exact hs.eq_nil
  · intro j hj
    have hs := source2D env plasma0 hf hx N hlimN b (fun p hp => (hneg p hp).le) j hj
    have hs' := source2D env plasma0 hf hx (N + k) hlim b' hle' (j + k) (by omega)
    refine ((hs.map _).trans ?_).trans ((h.filter _).trans hs'.symm)
    rw [List.filter_map]
    refine List.Perm.of_eq (congrArg _ (List.filter_congr fun p hp => ?_))
    have e : InLayer env.cfg.xiStep (j + k) (p.shift (k * env.cfg.xiStep)).xi ↔ InLayer env.cfg.xiStep j p.xi := inLayer_shift _ k j p.xi (hneg p hp)
    simp only [Function.comp_apply, e]

/-- C60, 2D, with any plasma: the whole beam moved back by `k` layers in a window longer by `k` layers. If the plasma is not changed by empty layers, then in every time step the first `k` layers are empty, and layer `j + k` of the
second run has the beam of layer `j` of the first run moved back, the same beam density, and plasma states that are alike; the beam after the time step is the beam of the first run moved back. -/
theorem shift_run_2D (env : Env2D σ) (w0 : σ) (n : ℤ) (hn : NodesIn env.cfg n) (hlb : 0 < env.cfg.lostBoundary) (hts : 0 ≤ env.timeStep) {R : σ → σ → Prop} (hR : PlasmaAlike2D env n R) (h0 : R w0 w0)
    (hempty : ∀ s, R w0 s → R w0 (env.plasma s (fun _ => 0) fun _ => 0))
    (hs : IsArgsort boolLe env.argsortB) (hf : IsArgsort (· ≤ ·) env.argsortF) (hx : 0 < env.cfg.xiStep) (N k : ℕ) (hlim : (((N + k : ℕ) : ℝ) + 1) * env.cfg.xiStep ≤ 99999) (dt : ℝ)
    (b b' : List (Particle ℝ)) (hb : ShiftedBy (k * env.cfg.xiStep) b b') (hneg : ∀ p ∈ b, p.xi < 0) (g : ℕ) :
    (∀ j, j < k → seqLayers (world2D env fun _ => w0) (N + k) dt b' g j = []) ∧
    (∀ j, j ≤ N → ShiftedBy (k * env.cfg.xiStep) (seqLayers (world2D env fun _ => w0) N dt b g j) (seqLayers (world2D env fun _ => w0) (N + k) dt b' g (j + k))) ∧
    (∀ j, j ≤ k → R w0 (stAt (world2D env fun _ => w0) ((world2D env fun _ => w0).init (timeOf dt g)) (seqLayers (world2D env fun _ => w0) (N + k) dt b' g) j).plasma ∧
      (stAt (world2D env fun _ => w0) ((world2D env fun _ => w0).init (timeOf dt g)) (seqLayers (world2D env fun _ => w0) (N + k) dt b' g) j).rhoPrev = fun _ => 0) ∧
    (∀ j, j ≤ N + 1 →
      R (stAt (world2D env fun _ => w0) ((world2D env fun _ => w0).init (timeOf dt g)) (seqLayers (world2D env fun _ => w0) N dt b g) j).plasma
        (stAt (world2D env fun _ => w0) ((world2D env fun _ => w0).init (timeOf dt g)) (seqLayers (world2D env fun _ => w0) (N + k) dt b' g) (j + k)).plasma ∧
      (stAt (world2D env fun _ => w0) ((world2D env fun _ => w0).init (timeOf dt g)) (seqLayers (world2D env fun _ => w0) N dt b g) j).rhoPrev =
        (stAt (world2D env fun _ => w0) ((world2D env fun _ => w0).init (timeOf dt g)) (seqLayers (world2D env fun _ => w0) (N + k) dt b' g) (j + k)).rhoPrev) ∧
    ShiftedBy (k * env.cfg.xiStep) (allFinished (world2D env fun _ => w0) N dt g (seqLayers (world2D env fun _ => w0) N dt b g)) (allFinished (world2D env fun _ => w0) (N + k) dt g (seqLayers (world2D env fun _ => w0) (N + k) dt b' g)) := by
  have hnegs : ∀ g, (∀ j, ∀ p ∈ seqLayers (world2D env fun _ => w0) N dt b g j, p.xi < 0) ∧ ∀ p ∈ allFinished (world2D env fun _ => w0) N dt g (seqLayers (world2D env fun _ => w0) N dt b g), p.xi < 0 := by
    have fin : ∀ g, (∀ j, ∀ p ∈ seqLayers (world2D env fun _ => w0) N dt b g j, p.xi < 0) → ∀ p ∈ allFinished (world2D env fun _ => w0) N dt g (seqLayers (world2D env fun _ => w0) N dt b g), p.xi < 0 := by
      intro g hg p hp
      obtain ⟨j, -, hp⟩ := mem_allFinished hp
      exact finished_down (fun x => x < 0) (fun x y hyx hx => lt_of_le_of_lt hyx hx) env hs hts (fun _ => w0) dt g _ hg j p hp
    intro g
    induction g with
    | zero =>
      have h1 : ∀ j, ∀ p ∈ seqLayers (world2D env fun _ => w0) N dt b 0 j, p.xi < 0 := fun j p hp => hneg p (mem_srcLayer env (fun _ => w0) hf b j p hp)
      exact ⟨h1, fin 0 h1⟩
    | succ g ih =>
      have h1 : ∀ j, ∀ p ∈ seqLayers (world2D env fun _ => w0) N dt b (g + 1) j, p.xi < 0 := fun j p hp => ih.2 p (mem_srcLayer env (fun _ => w0) hf _ j p hp)
      exact ⟨h1, fin _ h1⟩
  have hlay : ∀ j : ℕ, layoutBeamLayer env.cfg.rStep env.cfg.xiStep (fun _ => 0) ([] : List (Particle ℝ)) j = (fun _ => 0, fun _ => 0) := by
    intro j
    have hd : ∀ e, depositParticles [] (fun _ => 0) (fun _ => 0) e env.cfg.rStep env.cfg.xiStep = ((fun _ => 0), fun _ => 0) := by
      intro e
      refine Prod.ext ?_ ?_
      · funext k; rw [(deposit_pointwise [] _ _ _ _ _ k).1]; simp
      · funext k; rw [(deposit_pointwise [] _ _ _ _ _ k).2]; simp
    unfold layoutBeamLayer
    simp only [hd]
    refine Prod.ext ?_ ?_
    · funext k; simp
    · rfl
  obtain ⟨r1, r2, r3, r4, r5⟩ := run_shift (W := world2D env fun _ => w0) (LR := ShiftedBy (k * env.cfg.xiStep)) (SR := ShiftSt2D (k * env.cfg.xiStep) R)
    (Idle := fun s => R w0 s.plasma ∧ s.rhoLayout = (fun _ => 0) ∧ s.rhoPrev = (fun _ => 0) ∧ s.toMove.rows = [] ∧ s.toMove.WF) N k dt (List.Perm.refl _)
    (fun a a' b b' h h' => by unfold ShiftedBy; rw [List.map_append]; exact List.Perm.append h h') (fun b => ∀ p ∈ b, p.xi < 0)
    (fun b b' h ok => (source_shift_2D env (fun _ => w0) hf hx N k hlim b b' h ok).1)
    (fun b b' h ok => (source_shift_2D env (fun _ => w0) hf hx N k hlim b b' h ok).2)
    (fun t => ⟨h0, rfl, rfl, rfl, ⟨rfl, rfl, rfl⟩⟩)
    (fun s j hi => by
      obtain ⟨i1, i2, i3, i4, i5⟩ := hi
      obtain ⟨c1, c2, c3, c4⟩ := moveBeamLayer_conserves env hs s.toMove i5 j (env.fields s.plasma) (env.fields (env.plasma s.plasma (fun _ => 0) fun _ => 0))
      have hl := c1.length_eq
      rw [i4] at hl
      simp only [rowIds, List.length_append, List.length_map, List.length_nil] at hl
      have e2 : (moveBeamLayer env s.toMove j (env.fields s.plasma) (env.fields (env.plasma s.plasma (fun _ => 0) fun _ => 0))).2.1.rows = [] := List.length_eq_zero_iff.mp (by omega)
      have e3 : (moveBeamLayer env s.toMove j (env.fields s.plasma) (env.fields (env.plasma s.plasma (fun _ => 0) fun _ => 0))).2.2.rows = [] := List.length_eq_zero_iff.mp (by omega)
      have hW : (world2D env fun _ => w0).layer s j [] = layer2D env s j [] := rfl
      rw [hW]
      unfold layer2D
      dsimp only
      rw [i2, i3, show (Beam.fresh ([] : List (Particle ℝ))).particles = [] from rfl, hlay j]
      refine ⟨⟨hempty _ i1, rfl, rfl, ?_, (append_rows _ _ (wf_fresh _) c4).2⟩, ?_⟩
      · rw [(append_rows _ _ (wf_fresh _) c4).1, e3, rows_fresh]; rfl
      · rw [← rows_particles c3, e2]; rfl)
    (fun t s hi => ⟨hi.1, hi.2.1.symm, hi.2.2.1.symm, by rw [hi.2.2.2.1]; exact List.Perm.refl _, ⟨rfl, rfl, rfl⟩, hi.2.2.2.2⟩)
    (fun s s' j l l' h hl => layer2D_shift env hs n hn hlb k hR s s' j l l' h hl) b b' hb hneg (fun g => (hnegs g).2) g
  exact ⟨r1, r2, fun j hj => ⟨(r3 j hj).1, (r3 j hj).2.2.1⟩, fun j hj => ⟨(r4 j hj).1, (r4 j hj).2.2.1⟩, r5⟩

end TwoD

/-! ### Complete simulations -/

theorem alike_plasma2 (c : Plasma2D.SolverCfg) (hc : c.Sane) (xiStep timeStep energy : ℝ) (argsortB : List Bool → List ℕ) (argsortF : List ℝ → List ℕ) :
    PlasmaAlike2D (sim2 c xiStep timeStep energy argsortB argsortF) c.M (Plasma2D.Alike c) where
  step s s' rho prev h := by
    have hs := Plasma2D.stepDxi_alike c hc (fun n => rho n) xiStep s s' h
    rw [plasmaStep2_done, plasmaStep2_done] at hs
    cases hs with
    | done hw => exact hw
  fields s s' h i h0 hi := h.fields i.toNat (by omega)

/-- C60 for complete 2D simulations. The plasma is neutral and at rest at first (as the initialization makes it), there may be an external magnetic field, the window is a whole number of cells. The beam `b'` is the beam `b`
moved back by `k` layers, and its window is longer by `k` layers. Then in every time step of the second run the first `k` layers contain no beam, no beam density and no fields, and layer `j + k` contains the beam of layer `j` of
the first run, moved back, with the same beam density, the same fields at all nodes and the same plasma particles; and the beam after the time step is the beam of the first run moved back. -/
theorem shift_simulation_2D (c : Plasma2D.SolverCfg) (hc : c.Sane) (hR : c.R = c.M * c.h) (xiStep : ℝ) (hx : 0 < xiStep) (timeStep energy : ℝ) (hts : 0 ≤ timeStep) (argsortB : List Bool → List ℕ) (argsortF : List ℝ → List ℕ)
    (hs : IsArgsort boolLe argsortB) (hf : IsArgsort (· ≤ ·) argsortF) (N k : ℕ) (hlim : (((N + k : ℕ) : ℝ) + 1) * xiStep ≤ 99999) (dt : ℝ) (w : Plasma2D.World) (hw : Plasma2D.Neutral c w) (hF : w.F.Quiet c.M) (hcur : w.cur.Quiet c.M)
    (b b' : List (Particle ℝ)) (hb : (b.map (Particle.shift (k * xiStep))).Perm b') (hneg : ∀ p ∈ b, p.xi < 0) (g : ℕ) :
    (∀ j, j < k → seqLayers (world2D (sim2 c xiStep timeStep energy argsortB argsortF) fun _ => w) (N + k) dt b' g j = []) ∧
    (∀ j, j ≤ k →
      (stAt (world2D (sim2 c xiStep timeStep energy argsortB argsortF) fun _ => w) ((world2D (sim2 c xiStep timeStep energy argsortB argsortF) fun _ => w).init (timeOf dt g))
        (seqLayers (world2D (sim2 c xiStep timeStep energy argsortB argsortF) fun _ => w) (N + k) dt b' g) j).plasma.F.Quiet c.M ∧
      (stAt (world2D (sim2 c xiStep timeStep energy argsortB argsortF) fun _ => w) ((world2D (sim2 c xiStep timeStep energy argsortB argsortF) fun _ => w).init (timeOf dt g))
        (seqLayers (world2D (sim2 c xiStep timeStep energy argsortB argsortF) fun _ => w) (N + k) dt b' g) j).rhoPrev = fun _ => 0) ∧
    (∀ j, j ≤ N → ((seqLayers (world2D (sim2 c xiStep timeStep energy argsortB argsortF) fun _ => w) N dt b g j).map (Particle.shift (k * xiStep))).Perm
      (seqLayers (world2D (sim2 c xiStep timeStep energy argsortB argsortF) fun _ => w) (N + k) dt b' g (j + k))) ∧
    (∀ j, j ≤ N + 1 →
      Plasma2D.Alike c
        (stAt (world2D (sim2 c xiStep timeStep energy argsortB argsortF) fun _ => w) ((world2D (sim2 c xiStep timeStep energy argsortB argsortF) fun _ => w).init (timeOf dt g))
          (seqLayers (world2D (sim2 c xiStep timeStep energy argsortB argsortF) fun _ => w) N dt b g) j).plasma
        (stAt (world2D (sim2 c xiStep timeStep energy argsortB argsortF) fun _ => w) ((world2D (sim2 c xiStep timeStep energy argsortB argsortF) fun _ => w).init (timeOf dt g))
          (seqLayers (world2D (sim2 c xiStep timeStep energy argsortB argsortF) fun _ => w) (N + k) dt b' g) (j + k)).plasma ∧
      (stAt (world2D (sim2 c xiStep timeStep energy argsortB argsortF) fun _ => w) ((world2D (sim2 c xiStep timeStep energy argsortB argsortF) fun _ => w).init (timeOf dt g))
          (seqLayers (world2D (sim2 c xiStep timeStep energy argsortB argsortF) fun _ => w) N dt b g) j).rhoPrev =
        (stAt (world2D (sim2 c xiStep timeStep energy argsortB argsortF) fun _ => w) ((world2D (sim2 c xiStep timeStep energy argsortB argsortF) fun _ => w).init (timeOf dt g))
          (seqLayers (world2D (sim2 c xiStep timeStep energy argsortB argsortF) fun _ => w) (N + k) dt b' g) (j + k)).rhoPrev) ∧
    ((allFinished (world2D (sim2 c xiStep timeStep energy argsortB argsortF) fun _ => w) N dt g (seqLayers (world2D (sim2 c xiStep timeStep energy argsortB argsortF) fun _ => w) N dt b g)).map (Particle.shift (k * xiStep))).Perm
      (allFinished (world2D (sim2 c xiStep timeStep energy argsortB argsortF) fun _ => w) (N + k) dt g (seqLayers (world2D (sim2 c xiStep timeStep energy argsortB argsortF) fun _ => w) (N + k) dt b' g)) := by
  have hcfg : (sim2 c xiStep timeStep energy argsortB argsortF).cfg = ⟨c.h, xiStep, c.R, c.B0⟩ := rfl
  have hRpos : 0 < c.R := by
    rw [hR]
    have : (1 : ℝ) ≤ c.M := by exact_mod_cast hc.cells
    have := hc.h_pos
    positivity
  have hlb : 0 < (sim2 c xiStep timeStep energy argsortB argsortF).cfg.lostBoundary := by
    rw [hcfg]
    unfold PushCfg.lostBoundary
    exact lt_of_lt_of_le (by dsimp only; linarith) (le_max_left _ _)
  have hn : NodesIn (sim2 c xiStep timeStep energy argsortB argsortF).cfg c.M := by
    intro r h0 hr
    have := nodes_exist_whole_cells (sim2 c xiStep timeStep energy argsortB argsortF).cfg hc.h_pos c.M hR hRpos r h0 hr
    refine ⟨this.1, ?_⟩
    have e : Lcode.Py.pyInt ((sim2 c xiStep timeStep energy argsortB argsortF).cfg.maxRadius / (sim2 c xiStep timeStep energy argsortB argsortF).cfg.rStep) = c.M := by
      show Lcode.Py.pyInt (c.R / c.h) = c.M
      have h1 : c.R / c.h = ((c.M : ℤ) : ℝ) := by
        rw [div_eq_iff hc.h_pos.ne', hR]; push_cast; rfl
      rw [h1, Lcode.Py.pyInt_intCast]
    have := this.2
    rw [e] at this
    omega
  have hA := alike_plasma2 c hc xiStep timeStep energy argsortB argsortF
  have hions : Plasma2D.SameIons w.ions w.ions := by
    cases w.ions <;> simp [Plasma2D.SameIons, Plasma2D.SameParticles]
  have h0 : Plasma2D.Alike c w w := ⟨rfl, hions, fun _ _ => ⟨rfl, rfl, rfl, rfl, rfl⟩, fun _ _ => ⟨rfl, rfl⟩⟩
  have hempty : ∀ s, Plasma2D.Alike c w s → Plasma2D.Alike c w (plasmaStep2 c xiStep s fun _ => 0) := by
    intro s hws
    have h1 := (plasmaStep2_still c hc xiStep hx w w hw ⟨rfl, hions, hF, hcur⟩).alike hF hcur
    exact h1.trans (hA.step w s (fun _ => 0) (fun _ => 0) hws)
  obtain ⟨r1, r2, r3, r4, r5⟩ := shift_run_2D (sim2 c xiStep timeStep energy argsortB argsortF) w c.M hn hlb hts hA h0 hempty hs hf hx N k hlim dt b b' hb hneg g
  refine ⟨r1, fun j hj => ⟨fun i hi => ?_, (r3 j hj).2⟩, r2, r4, r5⟩
  obtain ⟨a1, a2, a3, a4, a5⟩ := hF i hi
  obtain ⟨b1, b2, b3, b4, b5⟩ := (r3 j hj).1.fields i hi
  exact ⟨b1.symm.trans a1, b2.symm.trans a2, b3.symm.trans a3, b4.symm.trans a4, b5.symm.trans a5⟩

/-- Non-vacuity: five cells with mobile ions, two charged particles in the layers 0 and 1, the same two layers further back. -/
example : ∃ (c : Plasma2D.SolverCfg) (w : Plasma2D.World) (b b' : List (Particle ℝ)), c.Sane ∧ c.R = c.M * c.h ∧ Plasma2D.Neutral c w ∧ w.F.Quiet c.M ∧ w.cur.Quiet c.M ∧ w = Plasma2D.initWorld c (fun _ => 1) (some 2) ∧
    (b.map (Particle.shift ((2 : ℕ) * (1 : ℝ)))).Perm b' ∧ (∀ p ∈ b, p.xi < 0 ∧ p.qnorm ≠ 0) ∧ b.length = 2 ∧ b ≠ b' := by
  have hM : (⟨1, 5, 4, 0, 1 / 5, 3, 2, false⟩ : Plasma2D.SolverCfg).M = 5 := by
    unfold Plasma2D.SolverCfg.M Plasma2D.cellCount; norm_num
  have hc : (⟨1, 5, 4, 0, 1 / 5, 3, 2, false⟩ : Plasma2D.SolverCfg).Sane := ⟨by norm_num, by rw [hM]; norm_num, by rw [hM]; norm_num, rfl⟩
  obtain ⟨h1, h2, h3⟩ := Plasma2D.init_neutral ⟨1, 5, 4, 0, 1 / 5, 3, 2, false⟩ hc (fun _ => 1) (fun _ => zero_le_one) (some 2) (by intro m h; simp at h; linarith) (by norm_num) (by rw [hM]; norm_num)
  refine ⟨_, _, [⟨-1 / 2, 1, 0, 100, 3, 1, 1, 1⟩, ⟨-3 / 2, 2, 1, 100, -1, 1, 1, 2⟩], [⟨-7 / 2, 2, 1, 100, -1, 1, 1, 2⟩, ⟨-5 / 2, 1, 0, 100, 3, 1, 1, 1⟩], hc, by rw [hM]; norm_num, h1, h2, h3, rfl, ?_, ?_, rfl, ?_⟩
  · simp only [List.map_cons, List.map_nil, Particle.shift]
    norm_num
    exact List.Perm.swap _ _ _
  · intro p hp; simp at hp; rcases hp with rfl | rfl <;> norm_num
  · intro h; simp at h

end Lcode.Mpi
