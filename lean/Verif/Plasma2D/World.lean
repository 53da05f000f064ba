import Verif.Plasma2D.Substep
import Verif.Plasma2D.Layer

/-!
The whole 2D plasma solver: noise_amplitude and step_dxi (lcode/plasma/solver.py), get_plasma_particles_mover (lcode/plasma/move.py:216-237),
and the plasma part of the xi loop (lcode/push_solvers/__init__.py). Properties C21 (2D instance) and C42.
-/

namespace Lcode.Plasma2D

open Finset

/-! ### Model -/

/-- The options read by CylindricalPlasmaSolver and its helpers: radial step, window radius, particles per cell, external field,
substepping sensitivity and depth, number of corrector steps, declustering switch. -/
structure SolverCfg where
  h : ℝ
  R : ℝ
  ppc : ℕ
  B0 : ℝ
  sens : ℝ
  depth : ℕ
  corrector : ℕ
  decl : Bool

/-- n_cells - 1 -/
noncomputable def SolverCfg.M (c : SolverCfg) : ℕ := cellCount c.R c.h

/-- Density of the ion row rho[1, :]. -/
def Currents.ionRho (c : Currents) (i : ℕ) : ℝ := (c.ions.map fun s => s.rho i).sum

/-- noise_amplitude, solver.py:11-19; `n` is the array size. Written out for the inner nodes; the last entry is minus the one before it. -/
noncomputable def noiseAmplitude (n : ℕ) (cur : Currents) (enabled : Bool) : ℕ → ℝ :=
  let inner : ℕ → ℝ := fun i =>
    2 * (cur.el.rho i - cur.ionRho i) + (cur.ionRho (i + 1) + cur.ionRho (i - 1) - cur.el.rho (i + 1) - cur.el.rho (i - 1))
  fun i =>
    if !enabled then 0
    else if i = 0 then 0
    else if i = n - 1 then (if n - 2 = 0 then 0 else -inner (n - 2) / 4)
    else inner i / 4

/-- The plasma state handed from layer to layer: particles, fields, currents. -/
structure World where
  el : List PPart
  ions : Ions
  F : Flds
  cur : Currents

/-- One particle moved through a step, move.py:176-213. -/
noncomputable def movePart (e : Env) (step : ℝ) (p : PPart) : PPart :=
  let st := moveSubstepped (moveOne e p.m) e.h step ⟨p.r, p.pr, p.pf, p.pz, p.q⟩ p.age
  ⟨st.s.r, st.s.pr, st.s.pf, st.s.pz, st.s.q, p.m, st.age⟩

/-- move_particles, move.py:222-235: the external field is added to B_z; background ions do not move. -/
noncomputable def moveAll (c : SolverCfg) (F : Flds) (noise : ℕ → ℝ) (step : ℝ) (el : List PPart) (ions : Ions) : List PPart × Ions :=
  let e : Env := ⟨c.M + 1, { F with Bz := fun i => F.Bz i + c.B0 }, noise, c.h, c.R⟩
  (el.map (movePart e step), match ions with
    | .mobile ps => .mobile (ps.map (movePart e step))
    | .background ni => .background ni)

/-- The predictor, solver.py:56-62. -/
noncomputable def predict (c : SolverCfg) (w : World) (step : ℝ) : World :=
  let pr := moveAll c w.F (noiseAmplitude (c.M + 1) w.cur c.decl) step w.el w.ions
  { w with el := pr.1, ions := pr.2, cur := computeRhoj c.h c.ppc (c.M + 1) pr.1 pr.2 }

open Classical in
/-- solver.py:63-64: the largest |xi_step_p * j_z| over all rows and nodes exceeds the sensitivity. -/
noncomputable def needRefine (c : SolverCfg) (w : World) (step : ℝ) : Bool :=
  let cur := (predict c w step).cur
  decide (∃ row ∈ cur.el :: cur.ions, ∃ i ≤ c.M, |step * row.jz i| > c.sens)

/-- One turn of the corrector loop, solver.py:74-85, from `w` (start of the step); `t` holds fields_new, particles_new, currents_new.
In the code `fields_new` and `fields` are the same object in the first turn; `alias_harmless` shows that this makes no difference. -/
noncomputable def correct (c : SolverCfg) (rhoBeam : ℕ → ℝ) (w : World) (step : ℝ) (t : World) : World :=
  let r := computeFields c.h c.M t.F w.F rhoBeam w.cur t.cur step
  let pr := moveAll c r.2.1 (noiseAmplitude (c.M + 1) t.cur c.decl) step w.el w.ions
  ⟨pr.1, pr.2, r.1, computeRhoj c.h c.ppc (c.M + 1) pr.1 pr.2⟩

/-- A substep, solver.py:56-85. -/
noncomputable def advance (c : SolverCfg) (rhoBeam : ℕ → ℝ) (w : World) (step : ℝ) : World :=
  (correct c rhoBeam w step)^[c.corrector] (predict c w step)

/-- step_dxi, solver.py:38-98, with trapped-path-limit = 0. `turns` turns of the loop are enough by `layer_covered`. -/
noncomputable def stepDxi (c : SolverCfg) (rhoBeam : ℕ → ℝ) (L : ℝ) (w : World) : Conf World :=
  (turn (needRefine c) (advance c rhoBeam) c.depth)^[turns c.depth] (startLayer w L)

/-- The plasma after the layers with the given beam charge densities, push_solvers/__init__.py:98-113. -/
noncomputable def layers (c : SolverCfg) (L : ℝ) : List (ℕ → ℝ) → World → Option World
  | [], w => some w
  | rho :: rest, w => match stepDxi c rho L w with
    | .done w' => layers c L rest w'
    | .go _ => none

/-- init_plasma, initialization.py:18-90. With mobile ions the initial currents are zero, with background ions they hold the densities. -/
noncomputable def initWorld (c : SolverCfg) (coef : ℝ → ℝ) (ionMass : Option ℝ) : World :=
  let el := initElectrons c.R c.h c.ppc coef 0
  match ionMass with
  | some m => ⟨el, .mobile (initIons m el), ⟨0, 0, 0, 0, 0⟩, ⟨⟨0, 0, 0, 0⟩, [⟨0, 0, 0, 0⟩]⟩⟩
  | none =>
    let ni := initBackground c.h c.ppc (c.M + 1) el
    ⟨el, .background ni, ⟨0, 0, 0, 0, 0⟩, ⟨⟨fun i => -ni i, 0, 0, 0⟩, [⟨ni, 0, 0, 0⟩]⟩⟩

/-! ### C21, the 2D instance -/

/-- The first turn of the corrector passes the same object as `fields_new` and `fields`; compute_fields overwrites it with its average with itself, which is itself. -/
theorem alias_harmless (F : Flds) : F.avg F = F := by
  unfold Flds.avg avgArr
  simp only [add_self_div_two]

/-- C21: every layer of the 2D plasma is solved, by substeps that add up to the layer. -/
theorem stepDxi_covered (c : SolverCfg) (rhoBeam : ℕ → ℝ) (L : ℝ) (w : World) :
    ∃ xs : List ℝ, stepDxi c rhoBeam L w = .done (xs.foldl (advance c rhoBeam) w) ∧ xs.sum = L ∧ ∀ x ∈ xs, ∃ d ≤ c.depth, x = L / 10 ^ d := by
  obtain ⟨xs, h1, h2, h3, -, -⟩ := layer_covered (needRefine c) (advance c rhoBeam) c.depth w L
  exact ⟨xs, h1 _ le_rfl, h2, h3⟩

/-- C21: the whole xi loop of the plasma ends for every sequence of beam charge densities. -/
theorem layers_total (c : SolverCfg) (L : ℝ) (rhos : List (ℕ → ℝ)) (w : World) : ∃ w', layers c L rhos w = some w' := by
  induction rhos generalizing w with
  | nil => exact ⟨w, rfl⟩
  | cons rho rest ih =>
    obtain ⟨xs, h1, -⟩ := stepDxi_covered c rho L w
    rw [layers, h1]
    exact ih _

/-- C21: with at least one corrector step, the state after a substep consists of: particles moved from the old ones by the mean of the old and the new fields
(plus the external field), new fields that obey the boundary conditions (E_r = E_f = B_f = 0 on the axis, E_f = E_z = 0 at the wall, zero longitudinal magnetic flux),
and the currents of exactly those particles. -/
theorem advance_centred (c : SolverCfg) (rhoBeam : ℕ → ℝ) (w : World) (step : ℝ) (hk : 1 ≤ c.corrector)
    (hh : 0 < c.h) (hM : 1 ≤ c.M) :
    ∃ noise : ℕ → ℝ, ∃ e : Env, e.n = c.M + 1 ∧ e.h = c.h ∧ e.R = c.R ∧ e.noise = noise ∧ (c.decl = false → ∀ i, noise i = 0) ∧
      (∀ i, e.F.Er i = (w.F.Er i + (advance c rhoBeam w step).F.Er i) / 2 ∧ e.F.Ef i = (w.F.Ef i + (advance c rhoBeam w step).F.Ef i) / 2 ∧
        e.F.Ez i = (w.F.Ez i + (advance c rhoBeam w step).F.Ez i) / 2 ∧ e.F.Bf i = (w.F.Bf i + (advance c rhoBeam w step).F.Bf i) / 2 ∧
        e.F.Bz i = (w.F.Bz i + (advance c rhoBeam w step).F.Bz i) / 2 + c.B0) ∧
      (advance c rhoBeam w step).el = w.el.map (movePart e step) ∧
      (∀ ps, w.ions = .mobile ps → (advance c rhoBeam w step).ions = .mobile (ps.map (movePart e step))) ∧
      (∀ ni, w.ions = .background ni → (advance c rhoBeam w step).ions = .background ni) ∧
      (advance c rhoBeam w step).cur = computeRhoj c.h c.ppc (c.M + 1) (advance c rhoBeam w step).el (advance c rhoBeam w step).ions ∧
      (advance c rhoBeam w step).F.Er 0 = 0 ∧ (advance c rhoBeam w step).F.Ef 0 = 0 ∧ (advance c rhoBeam w step).F.Bf 0 = 0 ∧
      (advance c rhoBeam w step).F.Ef c.M = 0 ∧ (advance c rhoBeam w step).F.Ez c.M = 0 ∧
      ∑ i ∈ range c.M, (2 * (i : ℝ) + 1) * (advance c rhoBeam w step).F.Bz i = 0 := by
  have : advance c rhoBeam w step = correct c rhoBeam w step ((correct c rhoBeam w step)^[c.corrector - 1] (predict c w step)) := by
    unfold advance
    rw [← Function.iterate_succ_apply' (correct c rhoBeam w step), show (c.corrector - 1).succ = c.corrector by omega]
  rw [this]
  generalize (correct c rhoBeam w step)^[c.corrector - 1] (predict c w step) = t
  set F := (computeFields c.h c.M t.F w.F rhoBeam w.cur t.cur step).1 with hF
  have hA : (computeFields c.h c.M t.F w.F rhoBeam w.cur t.cur step).2.1 = F.avg w.F := rfl
  refine ⟨noiseAmplitude (c.M + 1) t.cur c.decl, ⟨c.M + 1, { F.avg w.F with Bz := fun i => (F.avg w.F).Bz i + c.B0 },
    noiseAmplitude (c.M + 1) t.cur c.decl, c.h, c.R⟩, rfl, rfl, rfl, rfl, ?_, ?_, rfl, ?_, ?_, rfl, ?_⟩
  · intro h i
    rw [h]; unfold noiseAmplitude; simp
  · intro i
    show (F.Er i + w.F.Er i) / 2 = (w.F.Er i + F.Er i) / 2 ∧ (F.Ef i + w.F.Ef i) / 2 = (w.F.Ef i + F.Ef i) / 2 ∧
      (F.Ez i + w.F.Ez i) / 2 = (w.F.Ez i + F.Ez i) / 2 ∧ (F.Bf i + w.F.Bf i) / 2 = (w.F.Bf i + F.Bf i) / 2 ∧
      (F.Bz i + w.F.Bz i) / 2 + c.B0 = (w.F.Bz i + F.Bz i) / 2 + c.B0
    refine ⟨?_, ?_, ?_, ?_, ?_⟩ <;> ring
  · intro ps h
    unfold correct moveAll
    simp only [h]
    rfl
  · intro ni h
    unfold correct moveAll
    simp only [h]
  · obtain ⟨⟨a1, -⟩, ⟨b1, b2, -⟩, ⟨d1, -⟩, ⟨e1, -⟩, -, g1⟩ := fields_solve_equations c.h hh c.M hM t.F w.F rhoBeam w.cur t.cur step
    exact ⟨a1, b1, e1, b2, d1, g1⟩

/-- C21: the currents handed from layer to layer are always those of the particles handed with them. -/
theorem currents_consistent (c : SolverCfg) (L : ℝ) (rhos : List (ℕ → ℝ)) (w0 : World)
    (h0 : w0.cur = computeRhoj c.h c.ppc (c.M + 1) w0.el w0.ions) (w : World) (hw : layers c L rhos w0 = some w) :
    w.cur = computeRhoj c.h c.ppc (c.M + 1) w.el w.ions := by
  have hadv : ∀ rho w x, (advance c rho w x).cur = computeRhoj c.h c.ppc (c.M + 1) (advance c rho w x).el (advance c rho w x).ions := by
    intro rho w x
    unfold advance
    cases c.corrector with
    | zero => rfl
    | succ k => rw [Function.iterate_succ_apply']; rfl
  induction rhos generalizing w0 with
  | nil => simp only [layers, Option.some.injEq] at hw; rw [← hw]; exact h0
  | cons rho rest ih =>
    obtain ⟨xs, h1, -⟩ := stepDxi_covered c rho L w0
    rw [layers, h1] at hw
    refine ih _ ?_ hw
    rcases List.eq_nil_or_concat xs with h | ⟨ys, y, h⟩
    · rw [h]; exact h0
    · rw [h, List.concat_eq_append, List.foldl_append]
      exact hadv rho _ y

/-! ### C42: a neutral plasma at rest stays at rest -/

/-- The particle without its age. -/
def PPart.still (p : PPart) : PPart := { p with age := 0 }

/-- Two lists of particles that differ at most in the ages. -/
def SameParticles (a b : List PPart) : Prop := a.map PPart.still = b.map PPart.still

def SameIons : Ions → Ions → Prop
  | .mobile a, .mobile b => SameParticles a b
  | .background a, .background b => a = b
  | _, _ => False

/-- Particles at rest in the window, with charge and mass. -/
def AtRest (c : SolverCfg) (ps : List PPart) : Prop :=
  ∀ p ∈ ps, 0 < p.m ∧ p.q ≠ 0 ∧ 0 ≤ p.r ∧ p.r ≤ c.R ∧ p.pr = 0 ∧ p.pf = 0 ∧ p.pz = 0

def IonsAtRest (c : SolverCfg) : Ions → Prop
  | .mobile ps => AtRest c ps
  | .background _ => True

theorem same_mem {a b : List PPart} (h : SameParticles a b) {p : PPart} (hp : p ∈ a) : ∃ p' ∈ b, p'.still = p.still := by
  have : p.still ∈ b.map PPart.still := by
    rw [← show a.map PPart.still = b.map PPart.still from h]
    exact List.mem_map_of_mem hp
  rw [List.mem_map] at this
  obtain ⟨p', h1, h2⟩ := this
  exact ⟨p', h1, h2⟩

theorem AtRest.same {c : SolverCfg} {a b : List PPart} (h : AtRest c b) (hs : SameParticles a b) : AtRest c a := by
  intro p hp
  obtain ⟨p', h1, h2⟩ := same_mem hs hp
  have := h p' h1
  simp only [PPart.still, PPart.mk.injEq] at h2
  obtain ⟨e1, e2, e3, e4, e5, e6, -⟩ := h2
  rw [← e1, ← e2, ← e3, ← e4, ← e5, ← e6]
  tauto

/-- Deposition does not look at the age. -/
theorem depositOne_still (h : ℝ) (n : ℤ) (g : Grid4) (p : PPart) : depositOne h n g p.still = depositOne h n g p := rfl

theorem deposit_still (h : ℝ) (n : ℤ) (ps : List PPart) (g : Grid4) : depositPlasma h n (ps.map PPart.still) g = depositPlasma h n ps g := by
  have : (ps.map PPart.still).foldl (depositOne h n) g = ps.foldl (depositOne h n) g := by
    rw [List.foldl_map]
    rfl
  unfold depositPlasma
  rw [this]

theorem row_same (h : ℝ) (ppc n : ℕ) {a b : List PPart} (hs : SameParticles a b) : rhojRow h ppc n a = rhojRow h ppc n b := by
  unfold rhojRow
  rw [← deposit_still h n a, ← deposit_still h n b, show a.map PPart.still = b.map PPart.still from hs]

theorem rhoj_same (h : ℝ) (ppc n : ℕ) {a b : List PPart} (hs : SameParticles a b) {i j : Ions} (hi : SameIons i j) :
    computeRhoj h ppc n a i = computeRhoj h ppc n b j := by
  unfold computeRhoj
  rw [row_same h ppc n hs]
  cases i <;> cases j <;> simp only [SameIons] at hi
  · simp only [row_same h ppc n hi]
  · rw [hi]

/-- Without electric field, in any external magnetic field, particles at rest stay exactly where they are. -/
theorem move_same (e : Env) (M : ℕ) (hM : 1 ≤ M) (hn : e.n = M + 1) (hh : 0 < e.h) (hR : e.R < (M + 1 / 2) * e.h)
    (hF : ∀ i ≤ M, e.F.Er i = 0 ∧ e.F.Ef i = 0 ∧ e.F.Ez i = 0) (hN : ∀ i, e.noise i = 0) (step : ℝ) (hs : 0 < step)
    (ps : List PPart) (hp : ∀ p ∈ ps, 0 < p.m ∧ p.q ≠ 0 ∧ 0 ≤ p.r ∧ p.r ≤ e.R ∧ p.pr = 0 ∧ p.pf = 0 ∧ p.pz = 0) :
    SameParticles (ps.map (movePart e step)) ps := by
  unfold SameParticles
  rw [List.map_map]
  apply List.map_congr_left
  intro p hp'
  obtain ⟨h1, h2, h3, h4, h5, h6, h7⟩ := hp p hp'
  have hpush := push_at_rest e M hM hn hh hR hF hN p.m h1 p.r p.q step h3 h4
  have h0 : moveOne e p.m ⟨p.r, p.pr, p.pf, p.pz, p.q⟩ step = ⟨⟨p.r, 0, 0, 0, p.q⟩, 0, step⟩ := by
    rw [h5, h6, h7]; exact hpush
  have hsp := single_push (moveOne e p.m) e.h step hs ⟨p.r, p.pr, p.pf, p.pz, p.q⟩ p.age h2 (by rw [h0]; exact hh)
  simp only [Function.comp, movePart, PPart.still]
  rw [hsp.1, h0]
  simp only
  rw [h5, h6, h7]

/-- The window is a whole number of cells up to less than half a cell, the options make sense, declustering is off. -/
structure SolverCfg.Sane (c : SolverCfg) : Prop where
  h_pos : 0 < c.h
  cells : 1 ≤ c.M
  window : c.R < (c.M + 1 / 2) * c.h
  decl : c.decl = false

theorem noise_off (n : ℕ) (cur : Currents) (i : ℕ) : noiseAmplitude n cur false i = 0 := by
  unfold noiseAmplitude; simp

theorem moveAll_same (c : SolverCfg) (hc : c.Sane) (F : Flds) (hF : F.Quiet c.M) (cur : Currents) (step : ℝ) (hs : 0 < step)
    (el : List PPart) (ions : Ions) (h1 : AtRest c el) (h2 : IonsAtRest c ions) :
    SameParticles (moveAll c F (noiseAmplitude (c.M + 1) cur c.decl) step el ions).1 el ∧
    SameIons (moveAll c F (noiseAmplitude (c.M + 1) cur c.decl) step el ions).2 ions := by
  have key : ∀ ps, AtRest c ps → SameParticles (ps.map (movePart ⟨c.M + 1, { F with Bz := fun i => F.Bz i + c.B0 },
      noiseAmplitude (c.M + 1) cur c.decl, c.h, c.R⟩ step)) ps := by
    intro ps hps
    refine move_same ⟨c.M + 1, { F with Bz := fun i => F.Bz i + c.B0 }, noiseAmplitude (c.M + 1) cur c.decl, c.h, c.R⟩
      c.M hc.cells rfl hc.h_pos hc.window ?_ ?_ step hs ps hps
    · intro i hi
      exact ⟨(hF i hi).1, (hF i hi).2.1, (hF i hi).2.2.1⟩
    · intro i
      show noiseAmplitude (c.M + 1) cur c.decl i = 0
      rw [hc.decl]; exact noise_off (c.M + 1) cur i
  refine ⟨key el h1, ?_⟩
  cases ions with
  | mobile ps => exact key ps h2
  | background ni => exact rfl

/-- A state that differs from `w0` at most in the ages of particles, without fields and currents. -/
structure Still (c : SolverCfg) (w0 w : World) : Prop where
  el : SameParticles w.el w0.el
  ions : SameIons w.ions w0.ions
  fields : w.F.Quiet c.M
  cur : w.cur.Quiet c.M

/-- A neutral state at rest. -/
structure Neutral (c : SolverCfg) (w0 : World) : Prop where
  el : AtRest c w0.el
  ions : IonsAtRest c w0.ions
  neutral : (computeRhoj c.h c.ppc (c.M + 1) w0.el w0.ions).Quiet c.M

theorem SameParticles.trans {a b d : List PPart} (h1 : SameParticles a b) (h2 : SameParticles b d) : SameParticles a d := by
  unfold SameParticles at *; rw [h1, h2]

theorem SameIons.trans {a b d : Ions} (h1 : SameIons a b) (h2 : SameIons b d) : SameIons a d := by
  cases a <;> cases b <;> cases d <;> simp only [SameIons] at *
  · exact SameParticles.trans h1 h2
  · rw [h1, h2]

theorem ionsAtRest_same {c : SolverCfg} {a b : Ions} (h : IonsAtRest c b) (hs : SameIons a b) : IonsAtRest c a := by
  cases a <;> cases b <;> simp only [SameIons, IonsAtRest] at *
  exact h.same hs

theorem predict_still (c : SolverCfg) (hc : c.Sane) (w0 w : World) (hw0 : Neutral c w0) (hw : Still c w0 w) (step : ℝ) (hs : 0 < step) :
    Still c w0 (predict c w step) := by
  obtain ⟨h1, h2⟩ := moveAll_same c hc w.F hw.fields w.cur step hs w.el w.ions (hw0.el.same hw.el) (ionsAtRest_same hw0.ions hw.ions)
  refine ⟨h1.trans hw.el, h2.trans hw.ions, hw.fields, ?_⟩
  show (computeRhoj _ _ _ _ _).Quiet _
  rw [rhoj_same _ _ _ (h1.trans hw.el) (h2.trans hw.ions)]
  exact hw0.neutral

theorem correct_still (c : SolverCfg) (hc : c.Sane) (w0 w t : World) (hw0 : Neutral c w0) (hw : Still c w0 w) (ht : Still c w0 t)
    (rhoBeam : ℕ → ℝ) (hb : ∀ i ≤ c.M, rhoBeam i = 0) (step : ℝ) (hs : 0 < step) :
    Still c w0 (correct c rhoBeam w step t) := by
  obtain ⟨q1, q2⟩ := quiet_fields c.h hc.h_pos c.M hc.cells t.F w.F rhoBeam w.cur t.cur step ht.fields hw.fields hw.cur ht.cur hb
  obtain ⟨h1, h2⟩ := moveAll_same c hc _ q2 t.cur step hs w.el w.ions (hw0.el.same hw.el) (ionsAtRest_same hw0.ions hw.ions)
  refine ⟨h1.trans hw.el, h2.trans hw.ions, q1, ?_⟩
  show (computeRhoj _ _ _ _ _).Quiet _
  rw [rhoj_same _ _ _ (h1.trans hw.el) (h2.trans hw.ions)]
  exact hw0.neutral

theorem advance_still (c : SolverCfg) (hc : c.Sane) (w0 w : World) (hw0 : Neutral c w0) (hw : Still c w0 w)
    (rhoBeam : ℕ → ℝ) (hb : ∀ i ≤ c.M, rhoBeam i = 0) (step : ℝ) (hs : 0 < step) :
    Still c w0 (advance c rhoBeam w step) := by
  unfold advance
  generalize c.corrector = k
  induction k with
  | zero => exact predict_still c hc w0 w hw0 hw step hs
  | succ k ih =>
    rw [Function.iterate_succ_apply']
    exact correct_still c hc w0 w _ hw0 hw ih rhoBeam hb step hs

theorem foldl_still (c : SolverCfg) (hc : c.Sane) (w0 : World) (hw0 : Neutral c w0)
    (rhoBeam : ℕ → ℝ) (hb : ∀ i ≤ c.M, rhoBeam i = 0) (xs : List ℝ) (hx : ∀ x ∈ xs, 0 < x) (w : World) (hw : Still c w0 w) :
    Still c w0 (xs.foldl (advance c rhoBeam) w) := by
  induction xs generalizing w with
  | nil => exact hw
  | cons x xs ih =>
    exact ih (fun y hy => hx y (List.mem_cons_of_mem _ hy)) _ (advance_still c hc w0 w hw0 hw rhoBeam hb x (hx x List.mem_cons_self))

/-- C42, for any neutral state at rest: without a beam, any number of layers leaves every particle where it was and at rest, and all fields and currents zero. -/
theorem neutral_stays (c : SolverCfg) (hc : c.Sane) (L : ℝ) (hL : 0 < L) (w0 : World) (hw0 : Neutral c w0)
    (hF : w0.F.Quiet c.M) (hcur : w0.cur.Quiet c.M) (rhos : List (ℕ → ℝ)) (hb : ∀ rho ∈ rhos, ∀ i ≤ c.M, rho i = 0) :
    ∃ w, layers c L rhos w0 = some w ∧ Still c w0 w := by
  have hions : SameIons w0.ions w0.ions := by
    cases w0.ions <;> simp [SameIons, SameParticles]
  have gen : ∀ (rhos : List (ℕ → ℝ)), (∀ rho ∈ rhos, ∀ i ≤ c.M, rho i = 0) → ∀ w, Still c w0 w → ∃ w', layers c L rhos w = some w' ∧ Still c w0 w' := by
    intro rhos
    induction rhos with
    | nil => intro _ w hw; exact ⟨w, rfl, hw⟩
    | cons rho rest ih =>
      intro hb w hw
      obtain ⟨xs, h1, h2, h3⟩ := stepDxi_covered c rho L w
      have hx : ∀ x ∈ xs, 0 < x := by
        intro x hx
        obtain ⟨d, -, e⟩ := h3 x hx
        rw [e]; positivity
      rw [layers, h1]
      exact ih (fun r hr => hb r (List.mem_cons_of_mem _ hr)) _
        (foldl_still c hc w0 hw0 rho (hb rho List.mem_cons_self) xs hx w hw)
  exact gen rhos hb w0 ⟨rfl, hions, hF, hcur⟩

/-- The plasma made by the initialization is neutral and at rest, without fields and currents. -/
theorem init_neutral (c : SolverCfg) (hc : c.Sane) (coef : ℝ → ℝ) (hco : ∀ r, 0 ≤ coef r)
    (ionMass : Option ℝ) (hm : ∀ m, ionMass = some m → 0 < m) (hR : 0 < c.R) (hn : 2 ≤ c.M * c.ppc) :
    Neutral c (initWorld c coef ionMass) ∧ (initWorld c coef ionMass).F.Quiet c.M ∧ (initWorld c coef ionMass).cur.Quiet c.M := by
  have hw : c.R ≤ (cellCount c.R c.h + 1 / 2) * c.h := hc.window.le
  obtain ⟨hrest, hneg⟩ := init_resting c.R c.h hR c.ppc coef hco 0 hn hw
  have hel : AtRest c (initElectrons c.R c.h c.ppc coef 0) := by
    intro p hp
    obtain ⟨k, -, -, h2, h3, -, -, h4, h5, h6, -, h7⟩ := electrons_placed c.R c.h hR c.ppc coef 0 hn p hp
    exact ⟨(hrest p hp).1.1, h7, h2.le, h3.le, h4, h5, h6⟩
  have hzero : (⟨0, 0, 0, 0, 0⟩ : Flds).Quiet c.M := fun i _ => ⟨rfl, rfl, rfl, rfl, rfl⟩
  cases ionMass with
  | some m =>
    have hm' := hm m rfl
    refine ⟨⟨hel, ?_, (initial_quiet c.R c.h hR hc.h_pos c.ppc coef hco 0 m hm' hn hw).1⟩, hzero, ?_⟩
    · intro p hp
      obtain ⟨x, hx, rfl⟩ := List.mem_map.mp hp
      have := hneg x hx
      obtain ⟨-, -, a, b, -⟩ := hel x hx
      refine ⟨mul_pos hm' (by linarith), ?_, a, b, rfl, rfl, rfl⟩
      show -x.q ≠ 0
      linarith
    · intro i _
      simp [initWorld, Currents.sum]
  | none =>
    refine ⟨⟨hel, trivial, (initial_quiet c.R c.h hR hc.h_pos c.ppc coef hco 0 1 one_pos hn hw).2⟩, hzero, ?_⟩
    intro i _
    simp [initWorld, Currents.sum]

/-- C42. For every density profile, ion model, external magnetic field, sensitivity, depth and number of corrector steps:
the plasma made by the initialization, without a beam and with declustering off, is unchanged by any number of layers (up to the age counter), with zero fields. -/
theorem quiet_start (c : SolverCfg) (hc : c.Sane) (L : ℝ) (hL : 0 < L) (coef : ℝ → ℝ) (hco : ∀ r, 0 ≤ coef r)
    (ionMass : Option ℝ) (hm : ∀ m, ionMass = some m → 0 < m) (hR : 0 < c.R) (hn : 2 ≤ c.M * c.ppc)
    (rhos : List (ℕ → ℝ)) (hb : ∀ rho ∈ rhos, ∀ i ≤ c.M, rho i = 0) :
    ∃ w, layers c L rhos (initWorld c coef ionMass) = some w ∧ SameParticles w.el (initWorld c coef ionMass).el ∧
      SameIons w.ions (initWorld c coef ionMass).ions ∧ w.F.Quiet c.M ∧ w.cur.Quiet c.M := by
  have main := init_neutral c hc coef hco ionMass hm hR hn
  obtain ⟨w, h1, h2⟩ := neutral_stays c hc L hL _ main.1 main.2.1 main.2.2 rhos hb
  exact ⟨w, h1, h2.el, h2.ions, h2.fields, h2.cur⟩

/-- Non-vacuity: five cells, four particles per cell, mobile ions. -/
example : ∃ c : SolverCfg, c.Sane ∧ 0 < c.R ∧ 2 ≤ c.M * c.ppc := by
  have hM : (⟨1, 5, 4, 3, 1 / 5, 3, 2, false⟩ : SolverCfg).M = 5 := by
    unfold SolverCfg.M cellCount; norm_num
  refine ⟨⟨1, 5, 4, 3, 1 / 5, 3, 2, false⟩, ⟨by norm_num, by rw [hM]; norm_num, by rw [hM]; norm_num, rfl⟩, by norm_num, by rw [hM]; norm_num⟩

/-! ### Finding: declustering kicks a neutral plasma -/

/-- With declustering on, the "noise" of an exactly neutral plasma is minus half the second difference of its electron density, not zero:
the rows of the two sorts are subtracted where their sum is the charge density. -/
theorem neutral_noise (n : ℕ) (cur : Currents) (hneutral : ∀ i, cur.el.rho i + cur.ionRho i = 0) (i : ℕ) (h1 : 1 ≤ i) (h2 : i < n - 1) :
    noiseAmplitude n cur true i = -(cur.el.rho (i + 1) - 2 * cur.el.rho i + cur.el.rho (i - 1)) / 2 := by
  have e : ∀ j, cur.ionRho j = -cur.el.rho j := fun j => by linarith [hneutral j]
  unfold noiseAmplitude
  simp only [Bool.not_true, Bool.false_eq_true, if_false, if_neg (show ¬ i = 0 by omega), if_neg (show ¬ i = n - 1 by omega), e]
  ring

/-- Finding: even the unperturbed uniform plasma with an even number of particles per cell (exactly neutral, at rest, no fields) gets a non-zero noise amplitude at node M-2. -/
theorem declustering_kicks_quiet_plasma (h : ℝ) (hh : 0 < h) (M ppc : ℕ) (hM : 4 ≤ M) (hp : 1 ≤ ppc) (he : Even ppc) :
    let el := initElectrons (M * h) h ppc (fun _ => 1) 0
    let cur := computeRhoj h ppc (M + 1) el (.background (initBackground h ppc (M + 1) el))
    noiseAmplitude (M + 1) cur true (M - 2) = -(1 + 2 * (1 / (ppc : ℝ)) ^ 2) / (384 * (M - 1)) := by
  intro el cur
  obtain ⟨u1, u2, u3, u4, u5⟩ := uniform_density h hh M ppc hM hp 0
  simp only [if_pos he] at u1 u2 u3 u4 u5
  have hneut : ∀ i, cur.el.rho i + cur.ionRho i = 0 := by
    intro i
    show (rhojRow h ppc (M + 1) el).rho i + ([(⟨initBackground h ppc (M + 1) el, 0, 0, 0⟩ : Cur)].map fun s => s.rho i).sum = 0
    simp only [List.map_cons, List.map_nil, List.sum_cons, List.sum_nil, add_zero]
    show _ + -(rhojRow h ppc (M + 1) el).rho i = 0
    ring
  rw [neutral_noise (M + 1) cur hneut (M - 2) (by omega) (by omega)]
  rw [show M - 2 + 1 = M - 1 by omega, show M - 2 - 1 = M - 3 by omega]
  have r1 : cur.el.rho (M - 1) = -(1 - (1 + 2 * (1 / (ppc : ℝ)) ^ 2 - 3 * 0) / (192 * (M - 1))) := u4
  have r2 : cur.el.rho (M - 2) = -1 := u1 (M - 2) (by omega) (by omega)
  have r3 : cur.el.rho (M - 3) = -1 := by
    rcases Nat.lt_or_ge (M - 3) 2 with h' | h'
    · have : M - 3 = 1 := by omega
      rw [this]
      show (rhojRow h ppc (M + 1) el).rho 1 = -1
      rw [u3]; simp
    · exact u1 (M - 3) h' (by omega)
  rw [r1, r2, r3]
  have : (M : ℝ) - 1 ≠ 0 := by
    have : (4 : ℝ) ≤ M := by exact_mod_cast hM
    intro h0; linarith
  field_simp
  ring

end Lcode.Plasma2D
