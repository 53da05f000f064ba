import Verif.Mpi.MirrorSim3D
import Verif.Plasma3D.Conj

/-!
Property C55: reversing the sign of every charge in a complete 3D simulation reverses all fields, currents and densities and leaves every trajectory as it is.
-/

namespace Lcode.Beam3D

open Lcode.Plasma3D (Fields3 Vec3 neg2)

/-! ### Specification -/

/-- The beam particle with the opposite charge: q_m and q_norm change sign. -/
def Row.conj (r : Row ℝ) : Row ℝ := { r with qm := -r.qm, qnorm := -r.qnorm }

/-! ### Charge density -/

theorem layout_conj (c : BCfg) (rho : Grid) (l : List (Row ℝ)) (i : ℕ) :
    layoutBeamLayer c (neg2 rho) (l.map Row.conj) i = (neg2 (layoutBeamLayer c rho l i).1, neg2 (layoutBeamLayer c rho l i).2) := by
  have sn : ∀ g : Row ℝ → ℝ, (l.map fun p => -g p).sum = -(l.map g).sum := by
    intro g
    induction l with
    | nil => simp
    | cons p ps ih => simp only [List.map_cons, List.sum_cons, ih]; ring
  have hd : depositBeam c i (l.map Row.conj) (neg2 rho) (fun _ _ => 0) = (neg2 (depositBeam c i l rho (fun _ _ => 0)).1, neg2 (depositBeam c i l rho (fun _ _ => 0)).2) := by
    refine Prod.ext ?_ ?_
    · funext a b
      rw [(depositBeam_shape c i _ _ _ a b).1]
      show _ = -(depositBeam c i l rho (fun _ _ => 0)).1 a b
      rw [(depositBeam_shape c i _ _ _ a b).1, List.map_map, neg_add, ← sn]
      congr 2
      apply List.map_congr_left
      intro p _
      show -p.qnorm * _ * shape3 c p a b = -(p.qnorm * _ * shape3 c p a b)
      simp only [Row.conj]
      ring
    · funext a b
      rw [(depositBeam_shape c i _ _ _ a b).2]
      show _ = -(depositBeam c i l rho (fun _ _ => 0)).2 a b
      rw [(depositBeam_shape c i _ _ _ a b).2, List.map_map, neg_add, ← sn]
      simp only [neg_zero]
      congr 2
      apply List.map_congr_left
      intro p _
      show -p.qnorm * _ * shape3 c p a b = -(p.qnorm * _ * shape3 c p a b)
      simp only [Row.conj]
      ring
  have e : ∀ (m : List (Row ℝ)) (rho : Grid), (if m.length ≠ 0 then depositBeam c i m rho (fun _ _ => 0) else (rho, fun _ _ => 0)) = depositBeam c i m rho (fun _ _ => 0) := by
    intro m rho
    rcases m with _ | ⟨r, m⟩
    · rfl
    · rw [if_pos (by simp)]
  unfold layoutBeamLayer
  simp only [e]
  rw [hd]
  refine Prod.ext ?_ ?_
  · funext a b; simp only [neg2]; ring
  · rfl

/-! ### Motion -/

theorem fieldE3_conj (c : BCfg) (xiK : ℝ) (F0 F1 : Fields3) (w : Vec3) : fieldE3 c xiK F0.conj F1.conj w = (fieldE3 c xiK F0 F1 w).neg := by
  unfold fieldE3 Fields3.conj Vec3.neg
  simp only [interp3_neg]

theorem fieldB3_conj (c : BCfg) (xiK : ℝ) (F0 F1 : Fields3) (w : Vec3) : fieldB3 c xiK F0.conj F1.conj w = (fieldB3 c xiK F0 F1 w).neg := by
  unfold fieldB3 Fields3.conj Vec3.neg
  simp only [interp3_neg]

theorem gammaM_conj (qm : ℝ) (p : Vec3) : gammaM (-qm) p = gammaM qm p := by
  unfold gammaM
  congr 4
  rw [div_neg, neg_sq]

theorem sign_conj (x : ℝ) : sign (-x) = -sign x := by
  unfold sign
  rcases lt_trichotomy x 0 with h | h | h
  · simp [h, h.le, not_lt.mpr]
  · simp [h]
  · simp [h, h.le, not_lt.mpr]

theorem halfPos_conj (r : Row ℝ) : halfPos r.conj = halfPos r := by
  have hg := gammaM_conj r.qm ⟨r.px, r.py, r.pz⟩
  unfold halfPos
  dsimp only [Row.conj]
  rw [hg]

theorem halfMomentum_conj (r : Row ℝ) (E B : Vec3) : halfMomentum r.conj E.neg B.neg = halfMomentum r E B := by
  have hg := gammaM_conj r.qm ⟨r.px, r.py, r.pz⟩
  unfold halfMomentum
  dsimp only [Row.conj, Vec3.neg]
  rw [hg, sign_conj, Vec3.mk.injEq]
  refine ⟨?_, ?_, ?_⟩ <;> ring

theorem fullStep_conj (r : Row ℝ) (p : Vec3) : fullStep r.conj p = (fullStep r p).conj := by
  unfold fullStep
  dsimp only
  rw [show r.conj.qm = -r.qm from rfl, gammaM_conj]
  rfl

theorem turn_conj (c : BCfg) (idx : ℤ) (F0 F1 : Fields3) (r : Row ℝ) : turn c idx F0.conj F1.conj r.conj = onTurn Row.conj (turn c idx F0 F1 r) := by
  unfold turn
  rw [halfPos_conj]
  dsimp only
  rw [fieldE3_conj, fieldB3_conj, halfMomentum_conj, fullStep_conj]
  set w := halfPos r
  set r' := fullStep r (halfMomentum r (fieldE3 c (idx * -c.dxi) F0 F1 w) (fieldB3 c (idx * -c.dxi) F0 F1 w))
  rw [show isLost r'.conj.x r'.conj.y (lostRadius c) = isLost r'.x r'.y (lostRadius c) from rfl]
  by_cases h1 : notInLayer w.z ((idx + 1) * -c.dxi)
  · rw [if_pos h1, if_pos h1]; rfl
  rw [if_neg h1, if_neg h1]
  by_cases h2 : isLost w.x w.y (lostRadius c)
  · rw [if_pos h2, if_pos h2]; rfl
  rw [if_neg h2, if_neg h2]
  by_cases h3 : isLost r'.x r'.y (lostRadius c)
  · rw [if_pos h3, if_pos h3]; rfl
  rw [if_neg h3, if_neg h3]
  rfl

theorem pushLoop_conj (c : BCfg) (idx : ℤ) (F0 F1 : Fields3) (n : ℕ) (r : Row ℝ) :
    pushLoop c idx F0.conj F1.conj n r.conj = ((pushLoop c idx F0 F1 n r).1.conj, (pushLoop c idx F0 F1 n r).2) := by
  induction n generalizing r with
  | zero => rfl
  | succ n ih =>
    rw [pushLoop, pushLoop, turn_conj]
    cases turn c idx F0 F1 r with
    | fell => rfl
    | lost r' => rfl
    | next r' => exact ih r'

/-- The kernel moves a particle of opposite charge in the opposite fields along the same path, and puts it on the same pile. -/
theorem pushRow_conj (c : BCfg) (idx : ℤ) (F0 F1 : Fields3) (r : Row ℝ) : pushRow c idx F0.conj F1.conj r.conj = onMoved Row.conj (pushRow c idx F0 F1 r) := by
  unfold pushRow onMoved
  rw [show r.conj.remaining = r.remaining from rfl, pushLoop_conj]
  rfl

theorem initRow_conj (ts energy : ℝ) (r : Row ℝ) : initRow ts energy r.conj = (initRow ts energy r).conj := by
  have h : Lcode.Beam2D.substepFraction (-r.qm) r.pz energy = Lcode.Beam2D.substepFraction r.qm r.pz energy := by
    have hm : Lcode.Beam2D.maxSubstep (-r.qm) r.pz energy = Lcode.Beam2D.maxSubstep r.qm r.pz energy := by unfold Lcode.Beam2D.maxSubstep; rw [neg_sq]
    have hb : ∀ fuel, Lcode.Beam2D.beamSubsteppingStep fuel (-r.qm) r.pz energy = Lcode.Beam2D.beamSubsteppingStep fuel r.qm r.pz energy := by
      intro fuel; unfold Lcode.Beam2D.beamSubsteppingStep; rw [hm]
    classical
    unfold Lcode.Beam2D.substepFraction
    exact congrArg (fun s : ℕ → Option ℝ => if h : ∃ f, ∃ fuel, s fuel = some f then h.choose else 0) (funext hb)
  unfold initRow
  rw [show r.conj.qm = -r.qm from rfl, show r.conj.pz = r.pz from rfl, h]
  rfl

end Lcode.Beam3D

namespace Lcode.Mpi

open Lcode.Beam3D
open Lcode.Plasma3D (SCfg W3 Fields3 neg2)

theorem beamSym_conj (c : SCfg) (timeStep energy : ℝ) :
    BeamSym (sim3 c timeStep energy) (sim3 { c with roInit := neg2 c.roInit } timeStep energy) Row.conj neg2 Fields3.conj W3.conj := by
  refine ⟨rfl, fun _ => rfl, fun _ => rfl, fun r => initRow_conj _ _ r, fun k F0 F1 r => pushRow_conj _ k F0 F1 r, fun rho l i => layout_conj _ rho l i, ?_, fun _ => rfl⟩
  funext i j
  simp [neg2]

/-- C55: with all charges reversed (those of the plasma particles, the ion background and the beam, in q_norm and q_m), a complete 3D simulation gives the same beam with reversed charges in every layer and after every time step, the same plasma positions and momenta with reversed charges,
and opposite fields, currents and densities. It does not matter whether the plasma is declustered. -/
theorem charge_conjugation_3D (c : SCfg) (timeStep energy : ℝ) (argsort : List ℝ → List ℕ) (N : ℕ) (dt : ℝ) (w : W3) (b : List (Row ℝ)) (g : ℕ) (c' : SCfg) (hc' : c' = { c with roInit := neg2 c.roInit }) :
    (∀ j, j ≤ N → simLayer c' timeStep energy argsort N dt w.conj (b.map Row.conj) g j = (simLayer c timeStep energy argsort N dt w b g j).map Row.conj) ∧
    (∀ j, j ≤ N + 1 →
      (simState c' timeStep energy argsort N dt w.conj (b.map Row.conj) g j).plasma = (simState c timeStep energy argsort N dt w b g j).plasma.conj ∧
      (simState c' timeStep energy argsort N dt w.conj (b.map Row.conj) g j).rhoPrev = neg2 (simState c timeStep energy argsort N dt w b g j).rhoPrev) ∧
    simBeam c' timeStep energy argsort N dt w.conj (b.map Row.conj) g = (simBeam c timeStep energy argsort N dt w b g).map Row.conj := by
  subst hc'
  have h := run_sym (beamSym_conj c timeStep energy) argsort (fun _ => w) (fun _ => w.conj) (fun _ => rfl) N dt b g ?_ g le_rfl
  · exact ⟨h.1, fun j hj => ⟨(h.2.1 j hj).1, (h.2.1 j hj).2.2.1⟩, h.2.2⟩
  · intro g j _ _
    refine (Plasma3D.step_conj c _ _ _).trans (congrArg W3.conj ?_)
    exact (simState_next c timeStep energy argsort N dt w b g j).symm

/-- The particles differ from their conjugates only in the sign of the charge: read off the statement, positions and momenta of the beam are the same. -/
theorem charge_conjugation_paths_3D (c : SCfg) (timeStep energy : ℝ) (argsort : List ℝ → List ℕ) (N : ℕ) (dt : ℝ) (w : W3) (b : List (Row ℝ)) (g : ℕ) :
    (simBeam { c with roInit := neg2 c.roInit } timeStep energy argsort N dt w.conj (b.map Row.conj) g).map (fun r => (r.id, r.xi, r.x, r.y, r.px, r.py, r.pz, -r.qm, -r.qnorm)) =
      (simBeam c timeStep energy argsort N dt w b g).map (fun r => (r.id, r.xi, r.x, r.y, r.px, r.py, r.pz, r.qm, r.qnorm)) := by
  rw [(charge_conjugation_3D c timeStep energy argsort N dt w b g _ rfl).2.2, List.map_map]
  apply List.map_congr_left
  intro r _
  simp [Row.conj]

end Lcode.Mpi
