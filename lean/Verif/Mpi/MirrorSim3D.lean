import Verif.Mpi.Mirror3D
import Verif.Mpi.Whole
import Verif.Plasma3D.Stream

/-!
Property C54 for complete 3D simulations: the reflection y ↦ -y carries a simulation over into a simulation; a beam and a plasma that are symmetric stay so, in every layer of every time step; the refutation for x.
-/

namespace Lcode.Plasma3D

/-- No particle flies past the upper or lower wall by more than the width of the plasma in any of the pushes of the step: `StepNoLeap` with the axes exchanged. -/
def StepNoLeapY (c : SCfg) (w : W3) (bFull bPrev : ℤ → ℤ → ℝ) : Prop := StepNoLeap { c with roInit := tr c.roInit } w.swap (tr bFull) (tr bPrev)

theorem step_mirrorY (c : SCfg) (hN : c.m.N % 2 = 1) (hN2 : 2 ≤ c.m.N) (hb : 0 ≤ c.m.boundary) (hd : c.decl = none) (w : W3) (bF bP : ℤ → ℤ → ℝ) (hl : StepNoLeapY c w bF bP) :
    stepDxi { c with roInit := my c.f.L c.roInit } (w.mirrorY c.f.L) (my c.f.L bF) (my c.f.L bP) = (stepDxi c w bF bP).mirrorY c.f.L :=
  run_mirrorY c hN hN2 hb hd w bP [bF] ⟨hl, trivial⟩

/-- The plasma that init_plasma creates is symmetric under y ↦ -y too, for every density profile that is. -/
theorem initial_symmetricY (N : ℕ) (hN : N % 2 = 1) (steps : ℤ) (h f ionMass : ℝ) (coef : ℝ → ℝ → ℝ) (hc : ∀ x y, coef x (-y) = coef x y) (mobile : Bool) (el : List Ptl) (hel : el = makePlasmaSingle steps h f coef) :
    SameUpToOrder (W3.mirrorY (N - 1) ⟨el, if mobile then some (mobileIons ionMass el) else none, fun _ _ => 0, fun _ _ => 0, Fields3.zero, (Cur.zero, Cur.zero)⟩)
      ⟨el, if mobile then some (mobileIons ionMass el) else none, fun _ _ => 0, fun _ _ => 0, Fields3.zero, (Cur.zero, Cur.zero)⟩ ∧
    ∀ i j, roInitial N h el i ((N : ℤ) - 1 - j) = roInitial N h el i j := by
  have hperm : (el.map Ptl.mirrorY).Perm el := by
    rw [hel]
    unfold makePlasmaSingle
    simp only
    rw [List.map_flatMap]
    apply List.Perm.flatMap_left
    intro x _
    rw [List.map_map]
    have e : ((makePlasmaGrid steps h f).map (Ptl.mirrorY ∘ fun y => (⟨x, y, 0, 0, 0, 0, 0, -1 / f ^ 2 * h ^ 2 * coef x y, 1 / f ^ 2 * h ^ 2 * coef x y⟩ : Ptl))) =
        ((makePlasmaGrid steps h f).map fun y => -y).map fun y => (⟨x, y, 0, 0, 0, 0, 0, -1 / f ^ 2 * h ^ 2 * coef x y, 1 / f ^ 2 * h ^ 2 * coef x y⟩ : Ptl) := by
      rw [List.map_map]
      apply List.map_congr_left
      intro y _
      simp only [Function.comp, Ptl.mirrorY, neg_zero, hc]
    rw [e]
    apply List.Perm.map
    have := makePlasmaGrid_antisymm steps h f
    conv_rhs => rw [← this]
    exact ((List.reverse_perm _).symm).map _
  have hi : ((mobileIons ionMass el).map Ptl.mirrorY).Perm (mobileIons ionMass el) := by
    unfold mobileIons
    rw [List.map_map]
    have : (Ptl.mirrorY ∘ fun p : Ptl => ({ p with q := -p.q, m := ionMass * p.m } : Ptl)) = (fun p : Ptl => ({ p with q := -p.q, m := ionMass * p.m } : Ptl)) ∘ Ptl.mirrorY := rfl
    rw [this, ← List.map_map]
    exact hperm.map _
  refine ⟨⟨hperm, ?_, ?_, ?_⟩, ?_⟩
  · cases mobile with
    | false => exact Option.Rel.none
    | true => exact Option.Rel.some hi
  · simp only [W3.mirrorY, Fields3.mirrorY, Fields3.zero, Fields3.mk.injEq]
    refine ⟨?_, ?_, ?_, ?_, ?_, ?_, ?_⟩ <;> funext i j <;> simp [neg2, my]
  · have : Cur.mirrorY (N - 1) Cur.zero = Cur.zero := by
      simp only [Cur.mirrorY, Cur.zero, Cur.mk.injEq]
      refine ⟨?_, ?_, ?_, ?_⟩ <;> funext i j <;> simp [neg2, my]
    simp only [W3.mirrorY, this]
  · intro i j
    have d := depositSort_mirror N (by omega) (N - 1) (by omega) h (el.map Ptl.swap)
    rw [depositSort_swap] at d
    have hp2 : ((el.map Ptl.swap).map Ptl.mirror).Perm (el.map Ptl.swap) := by
      have : (el.map Ptl.swap).map Ptl.mirror = (el.map Ptl.mirrorY).map Ptl.swap := by rw [List.map_map, List.map_map]; rfl
      rw [this]
      exact hperm.map _
    rw [depositSort_perm N h _ _ hp2, depositSort_swap] at d
    have := congrFun (congrFun (congrArg Cur.ro d) j) i
    simp only [Cur.mirror, Cur.swap, mx, tr] at this
    unfold roInitial
    rw [this, show ((N - 1 : ℕ) : ℤ) = (N : ℤ) - 1 by omega]

end Lcode.Plasma3D

namespace Lcode.Mpi

open Lcode.Beam3D
open Lcode.Plasma3D (SCfg W3 Fields3 my neg2 StepNoLeapY SameUpToOrder)

/-! ### Specification -/

/-- The state in front of layer `j` of the time step `g` of the complete 3D simulation that starts with the beam `b` and in every time step with the plasma `w`. -/
noncomputable def simState (c : SCfg) (timeStep energy : ℝ) (argsort : List ℝ → List ℕ) (N : ℕ) (dt : ℝ) (w : W3) (b : List (Row ℝ)) (g j : ℕ) : St3D W3 :=
  stAt (world3D (sim3 c timeStep energy) argsort fun _ => w) ((world3D (sim3 c timeStep energy) argsort fun _ => w).init (timeOf dt g)) (seqLayers (world3D (sim3 c timeStep energy) argsort fun _ => w) N dt b g) j

/-- The beam layer `j` of its time step `g`. -/
noncomputable def simLayer (c : SCfg) (timeStep energy : ℝ) (argsort : List ℝ → List ℕ) (N : ℕ) (dt : ℝ) (w : W3) (b : List (Row ℝ)) (g j : ℕ) : List (Row ℝ) :=
  seqLayers (world3D (sim3 c timeStep energy) argsort fun _ => w) N dt b g j

/-- The beam after its time step `g`. -/
noncomputable def simBeam (c : SCfg) (timeStep energy : ℝ) (argsort : List ℝ → List ℕ) (N : ℕ) (dt : ℝ) (w : W3) (b : List (Row ℝ)) (g : ℕ) : List (Row ℝ) :=
  allFinished (world3D (sim3 c timeStep energy) argsort fun _ => w) N dt g (seqLayers (world3D (sim3 c timeStep energy) argsort fun _ => w) N dt b g)

/-- In the layers of the time steps up to `G` no plasma particle leaps across the plasma in the direction y. -/
def SimNoLeapY (c : SCfg) (timeStep energy : ℝ) (argsort : List ℝ → List ℕ) (N : ℕ) (dt : ℝ) (w : W3) (b : List (Row ℝ)) (G : ℕ) : Prop :=
  ∀ g j, g ≤ G → j ≤ N → StepNoLeapY c (simState c timeStep energy argsort N dt w b g j).plasma (simState c timeStep energy argsort N dt w b g (j + 1)).rhoPrev (simState c timeStep energy argsort N dt w b g j).rhoPrev

/-! ### The reflected simulation -/

theorem beamSym_mirrorY (c : SCfg) (hN : c.m.N % 2 = 1) (hN2 : 2 ≤ c.m.N) (timeStep energy : ℝ) :
    BeamSym (sim3 c timeStep energy) (sim3 { c with roInit := my c.f.L c.roInit } timeStep energy) Row.mirrorY (my c.f.L) (Fields3.mirrorY c.f.L) (W3.mirrorY c.f.L) := by
  have hL : (c.f.L : ℤ) = c.m.N - 1 := by unfold SCfg.f; simp only; omega
  exact ⟨rfl, fun _ => rfl, fun _ => rfl, fun _ => rfl, fun k F0 F1 r => pushRow_mirrorY _ hN c.f.L hL k F0 F1 r, fun rho l i => layout_mirrorY _ hN c.f.L hL rho l i, rfl, fun _ => rfl⟩

theorem simState_next (c : SCfg) (timeStep energy : ℝ) (argsort : List ℝ → List ℕ) (N : ℕ) (dt : ℝ) (w : W3) (b : List (Row ℝ)) (g j : ℕ) :
    (simState c timeStep energy argsort N dt w b g (j + 1)).plasma =
      Plasma3D.stepDxi c (simState c timeStep energy argsort N dt w b g j).plasma (simState c timeStep energy argsort N dt w b g (j + 1)).rhoPrev (simState c timeStep energy argsort N dt w b g j).rhoPrev := by
  have e := layer3D_plasma (sim3 c timeStep energy) (simState c timeStep energy argsort N dt w b g j) j (simLayer c timeStep energy argsort N dt w b g j)
  have e1 := e.1
  have e2 := e.2
  unfold plasma3D at e2
  rw [← e1] at e2
  exact e2

/-- C54: if plasma, ion background and beam are reflected at y = 0, so is everything the simulation computes (without declustering, on a grid with an odd number of nodes, as long as no plasma particle leaps across the plasma):
the beam layers, the plasma with its fields, the density of the beam and the beam after each time step. -/
theorem mirror_simulation_3D (c : SCfg) (hN : c.m.N % 2 = 1) (hN2 : 2 ≤ c.m.N) (hb : 0 ≤ c.m.boundary) (hd : c.decl = none) (timeStep energy : ℝ) (argsort : List ℝ → List ℕ) (N : ℕ) (dt : ℝ) (w : W3) (b : List (Row ℝ)) (G : ℕ)
    (hl : SimNoLeapY c timeStep energy argsort N dt w b G) (g : ℕ) (hg : g ≤ G) (c' : SCfg) (hc' : c' = { c with roInit := my c.f.L c.roInit }) :
    (∀ j, j ≤ N → simLayer c' timeStep energy argsort N dt (w.mirrorY c.f.L) (b.map Row.mirrorY) g j = (simLayer c timeStep energy argsort N dt w b g j).map Row.mirrorY) ∧
    (∀ j, j ≤ N + 1 →
      (simState c' timeStep energy argsort N dt (w.mirrorY c.f.L) (b.map Row.mirrorY) g j).plasma = (simState c timeStep energy argsort N dt w b g j).plasma.mirrorY c.f.L ∧
      (simState c' timeStep energy argsort N dt (w.mirrorY c.f.L) (b.map Row.mirrorY) g j).rhoPrev = my c.f.L (simState c timeStep energy argsort N dt w b g j).rhoPrev) ∧
    simBeam c' timeStep energy argsort N dt (w.mirrorY c.f.L) (b.map Row.mirrorY) g = (simBeam c timeStep energy argsort N dt w b g).map Row.mirrorY := by
  subst hc'
  have h := run_sym (beamSym_mirrorY c hN hN2 timeStep energy) argsort (fun _ => w) (fun _ => w.mirrorY c.f.L) (fun _ => rfl) N dt b G ?_ g hg
  · exact ⟨h.1, fun j hj => ⟨(h.2.1 j hj).1, (h.2.1 j hj).2.2.1⟩, h.2.2⟩
  · intro g j hg hj
    refine (Plasma3D.step_mirrorY c hN hN2 hb hd _ _ _ (hl g j hg hj)).trans (congrArg (W3.mirrorY c.f.L) ?_)
    exact (simState_next c timeStep energy argsort N dt w b g j).symm

/-! ### Symmetric simulations -/

/-- The order of the plasma particles, the order of the beam particles and their names do not matter. -/
theorem plasmaRel_order (c : SCfg) (hd : c.decl = none) (timeStep energy : ℝ) : PlasmaRel3D (sim3 c timeStep energy) SameUpToOrder where
  step s s' rho prev h := Plasma3D.step_order c hd s s' rho prev h
  fields _ _ h := h.F

/-- C54: a beam and a plasma that are symmetric under y ↦ -y stay so: in every layer of every time step Ey, Bx and Bz are odd in y (in particular zero on the axis), Ex, Ez, By, the potential and the density of the beam even. -/
theorem symmetric_simulation_3D (c : SCfg) (hN : c.m.N % 2 = 1) (hN2 : 2 ≤ c.m.N) (hb : 0 ≤ c.m.boundary) (hd : c.decl = none) (hx : 0 < c.m.dxi) (timeStep energy : ℝ) (hts : 0 ≤ timeStep)
    (argsort : List ℝ → List ℕ) (hs : Beam2D.IsArgsort (· ≤ ·) argsort) (N : ℕ) (dt : ℝ) (w : W3) (b : List (Row ℝ)) (G : ℕ) (hl : SimNoLeapY c timeStep energy argsort N dt w b G)
    (L : ℤ) (hL : L = c.m.N - 1) (hw : SameUpToOrder (w.mirrorY c.f.L) w) (hr : ∀ i j, c.roInit i (L - j) = c.roInit i j)
    (hsym : ((b.map Row.mirrorY).map Row.anon).Perm (b.map Row.anon)) (hneg : ∀ p ∈ b, p.xi < 0) (g : ℕ) (hg : g ≤ G) (k : ℕ) (hk : k ≤ N + 1)
    (r : St3D W3) (hrun : r = simState c timeStep energy argsort N dt w b g k) :
    (∀ i j, r.plasma.F.Ex i (L - j) = r.plasma.F.Ex i j ∧ r.plasma.F.Ey i (L - j) = -r.plasma.F.Ey i j ∧ r.plasma.F.Ez i (L - j) = r.plasma.F.Ez i j ∧
      r.plasma.F.Bx i (L - j) = -r.plasma.F.Bx i j ∧ r.plasma.F.By i (L - j) = r.plasma.F.By i j ∧ r.plasma.F.Bz i (L - j) = -r.plasma.F.Bz i j ∧ r.plasma.F.Phi i (L - j) = r.plasma.F.Phi i j ∧
      r.rhoPrev i (L - j) = r.rhoPrev i j) ∧
    (∀ i, r.plasma.F.Ey i (c.m.N / 2) = 0 ∧ r.plasma.F.Bx i (c.m.N / 2) = 0 ∧ r.plasma.F.Bz i (c.m.N / 2) = 0) ∧
    (r.plasma.el.map Plasma3D.Ptl.mirrorY).Perm r.plasma.el := by
  have hLN : (c.f.L : ℤ) = L := by rw [hL]; unfold SCfg.f; simp only; omega
  have e1 : c = { c with roInit := my c.f.L c.roInit } := by
    obtain ⟨cm, κ, ro, decl⟩ := c
    simp only [SCfg.mk.injEq, true_and, and_true]
    funext i j
    simp only [my, hLN]
    exact (hr i j).symm
  have m := (mirror_simulation_3D c hN hN2 hb hd timeStep energy argsort N dt w b G hl g hg c e1).2.1 k hk
  have hsplit : SplitBeam (b.map Row.mirrorY) b := IsSplit.of_perm (fun p => by simp [Row.part]) hsym
  have o := (split_run_3D (sim3 c timeStep energy) argsort (fun _ => w.mirrorY c.f.L) (fun _ => w) (plasmaRel_order c hd timeStep energy) (fun _ => hw) hs hx hts N dt (b.map Row.mirrorY) b hsplit
    (fun p hp => by obtain ⟨q, hq, rfl⟩ := List.mem_map.1 hp; exact hneg q hq) hneg g).2.1 k hk
  have o1 : SameUpToOrder (simState c timeStep energy argsort N dt (w.mirrorY c.f.L) (b.map Row.mirrorY) g k).plasma (simState c timeStep energy argsort N dt w b g k).plasma := o.1
  have o2 : (simState c timeStep energy argsort N dt (w.mirrorY c.f.L) (b.map Row.mirrorY) g k).rhoPrev = (simState c timeStep energy argsort N dt w b g k).rhoPrev := o.2.2
  rw [m.1, ← hrun] at o1
  rw [m.2, ← hrun] at o2
  have odd : ∀ (u : ℤ → ℤ → ℝ), neg2 (my c.f.L u) = u → ∀ i j, u i (L - j) = -u i j := by
    intro u hu i j
    have := congrFun (congrFun hu i) j
    simp only [neg2, my, hLN] at this
    linarith
  have even : ∀ (u : ℤ → ℤ → ℝ), my c.f.L u = u → ∀ i j, u i (L - j) = u i j := by
    intro u hu i j
    have := congrFun (congrFun hu i) j
    simp only [my, hLN] at this
    exact this
  have axis : ∀ (u : ℤ → ℤ → ℝ), (∀ i j, u i (L - j) = -u i j) → ∀ i, u i (c.m.N / 2) = 0 := by
    intro u hu i
    have := hu i (c.m.N / 2)
    rw [show L - c.m.N / 2 = c.m.N / 2 by omega] at this
    linarith
  have hF := o1.F
  have f1 : my c.f.L r.plasma.F.Ex = r.plasma.F.Ex := congrArg Fields3.Ex hF
  have f2 : neg2 (my c.f.L r.plasma.F.Ey) = r.plasma.F.Ey := congrArg Fields3.Ey hF
  have f3 : my c.f.L r.plasma.F.Ez = r.plasma.F.Ez := congrArg Fields3.Ez hF
  have f4 : neg2 (my c.f.L r.plasma.F.Bx) = r.plasma.F.Bx := congrArg Fields3.Bx hF
  have f5 : my c.f.L r.plasma.F.By = r.plasma.F.By := congrArg Fields3.By hF
  have f6 : neg2 (my c.f.L r.plasma.F.Bz) = r.plasma.F.Bz := congrArg Fields3.Bz hF
  have f7 : my c.f.L r.plasma.F.Phi = r.plasma.F.Phi := congrArg Fields3.Phi hF
  refine ⟨fun i j => ⟨even _ f1 i j, odd _ f2 i j, even _ f3 i j, odd _ f4 i j, even _ f5 i j, odd _ f6 i j, even _ f7 i j, even _ o2 i j⟩,
    fun i => ⟨axis _ (odd _ f2) i, axis _ (odd _ f4) i, axis _ (odd _ f6) i⟩, o1.el⟩

/-! ### Cases that meet the hypotheses -/

theorem quiet_swap (c : SCfg) (w : W3) (h : Plasma3D.Quiet3 c w) : Plasma3D.Quiet3 { c with roInit := Plasma3D.tr c.roInit } w.swap := by
  have hcz : Plasma3D.Cur.swap Plasma3D.Cur.zero = Plasma3D.Cur.zero := rfl
  refine ⟨?_, ?_, ?_, ?_, h.ch⟩
  · intro p hp
    have : ∃ q ∈ w.all, p = q.swap := by
      unfold Plasma3D.W3.all at hp ⊢
      rcases List.mem_append.mp hp with hp | hp
      · obtain ⟨q, hq, rfl⟩ := List.mem_map.mp hp
        exact ⟨q, List.mem_append_left _ hq, rfl⟩
      · have hp' : p ∈ (w.ions.map fun l => l.map Plasma3D.Ptl.swap).getD [] := hp
        rcases hi : w.ions with _ | l
        · rw [hi] at hp'; simp at hp'
        · rw [hi] at hp'
          simp only [Option.map_some, Option.getD_some] at hp'
          obtain ⟨q, hq, rfl⟩ := List.mem_map.mp hp'
          exact ⟨q, List.mem_append_right _ (by simpa using hq), rfl⟩
    obtain ⟨q, hq, rfl⟩ := this
    obtain ⟨h1, h2, h3, h4, h5, h6⟩ := h.rest q hq
    refine ⟨?_, h3, h2, h5, h4, h6⟩
    rcases h1 with h1 | h1
    · exact Or.inl h1
    · exact Or.inr ⟨h1.2, h1.1⟩
  · have e := Plasma3D.rhojSorts_swap c { c with roInit := Plasma3D.tr c.roInit } rfl rfl (w.el, w.ions)
    have hn := h.neutral
    show Plasma3D.Cur.total (Plasma3D.rhojSorts { c with roInit := Plasma3D.tr c.roInit } (Plasma3D.swapPair (w.el, w.ions))) = Plasma3D.Cur.zero
    rw [e, Plasma3D.total_swap]
    exact (congrArg Plasma3D.Cur.swap hn).trans hcz
  · show Plasma3D.Cur.total (w.cur.1.swap, w.cur.2.swap) = _
    rw [Plasma3D.total_swap, h.cur, hcz]
  · show w.F.swap = _
    rw [h.fields]
    simp only [Fields3.swap, Fields3.zero, Fields3.mk.injEq]
    refine ⟨?_, ?_, ?_, ?_, ?_, ?_, ?_⟩ <;> funext i j <;> simp [neg2, Plasma3D.tr]

/-- A plasma at rest with any beam of uncharged particles meets the hypothesis on leaps, in every time step. -/
theorem quiet_simNoLeapY (c : SCfg) (hd : c.decl = none) (hx : 0 < c.m.dxi) (timeStep energy : ℝ) (hts : 0 ≤ timeStep) (argsort : List ℝ → List ℕ) (hs : Beam2D.IsArgsort (· ≤ ·) argsort)
    (N : ℕ) (dt : ℝ) (w : W3) (hw : Plasma3D.Quiet3 c w) (b : List (Row ℝ)) (hq : ∀ p ∈ b, p.qnorm = 0) (hneg : ∀ p ∈ b, p.xi < 0) (G : ℕ) : SimNoLeapY c timeStep energy argsort N dt w b G := by
  intro g j _ hj
  have q := quiet_run_3D c (by rw [hd]; simp) hx timeStep energy hts argsort hs N dt w hw b hq hneg g
  have a : (simState c timeStep energy argsort N dt w b g j).plasma = if j = 0 then w else { w with cur := Plasma3D.computeRhoj c.m.N c.m.h c.roInit w.el w.ions } := (q j (by omega)).1
  have a1 : (simState c timeStep energy argsort N dt w b g (j + 1)).rhoPrev = fun _ _ => 0 := (q (j + 1) (by omega)).2
  have a2 : (simState c timeStep energy argsort N dt w b g j).rhoPrev = fun _ _ => 0 := (q j (by omega)).2
  have hw' : Plasma3D.Quiet3 c { w with cur := Plasma3D.computeRhoj c.m.N c.m.h c.roInit w.el w.ions } := ⟨hw.rest, hw.neutral, hw.neutral, hw.fields, hw.ch⟩
  rw [a, a1, a2]
  by_cases h0 : j = 0
  · rw [if_pos h0]; exact Plasma3D.quiet_step_noLeap _ _ (quiet_swap c w hw)
  · rw [if_neg h0]; exact Plasma3D.quiet_step_noLeap _ _ (quiet_swap c _ hw')

/-- A case of `symmetric_simulation_3D` and `mirror_simulation_3D`: thirteen nodes with three cells of padding, mobile ions, and a pair of particles above and below the axis that fly apart. -/
example : ∃ (c : SCfg) (w : W3) (b : List (Row ℝ)), c.m.N % 2 = 1 ∧ 2 ≤ c.m.N ∧ 0 ≤ c.m.boundary ∧ c.decl = none ∧ 0 < c.m.dxi ∧ SimNoLeapY c 10 1 Beam2D.npArgsort 20 10 w b 5 ∧
    SameUpToOrder (w.mirrorY c.f.L) w ∧ (∀ i j, c.roInit i (c.m.N - 1 - j) = c.roInit i j) ∧ ((b.map Row.mirrorY).map Row.anon).Perm (b.map Row.anon) ∧ (∀ p ∈ b, p.xi < 0) ∧ b.length = 2 := by
  have hq := Plasma3D.initial_quiet3 13 2 3 (by norm_num) (by norm_num) 1 le_rfl 1 (1 / 2) 1 2 (by norm_num) (fun _ _ => 1) none true _ rfl
  have hsy := Plasma3D.initial_symmetricY 13 (by norm_num) ((13 - 2 * 3 : ℕ) : ℤ) (1 / 2) ((1 : ℕ) : ℝ) 2 (fun _ _ => 1) (fun _ _ => rfl) true _ rfl
  refine ⟨_, _, [⟨-1 / 2, 0, 1, 0, 3, 100, 1, 0, 1, 0, 0⟩, ⟨-1 / 2, 0, -1, 0, -3, 100, 1, 0, 2, 0, 0⟩], ?_, ?_, ?_, ?_, ?_,
    quiet_simNoLeapY _ ?_ ?_ 10 1 (by norm_num) _ Beam2D.npArgsort_correct 20 10 _ hq _ ?_ ?_ 5, ?_, ?_, ?_, ?_, rfl⟩
  · norm_num
  · norm_num
  · norm_num [Plasma3D.MCfg.boundary]
  · rfl
  · norm_num
  · rfl
  · norm_num
  · intro p hp; simp at hp; rcases hp with rfl | rfl <;> rfl
  · intro p hp; simp at hp; rcases hp with rfl | rfl <;> norm_num
  · exact hsy.1
  · exact hsy.2
  · simp only [List.map_cons, List.map_nil, Row.mirrorY, Row.anon, neg_neg]
    exact List.Perm.swap _ _ _
  · intro p hp; simp at hp; rcases hp with rfl | rfl <;> norm_num

/-! ### Left and right -/

/-- C54, refutation for x: in an empty window without fields, which is symmetric in x, a particle at rest at x = 4 is in the beam after a time step, but its mirror image, at x = -4, has vanished. So a beam that is symmetric in x does not stay so. -/
theorem mirrorX_refuted : ∃ r : Row ℝ, r.xi < 0 ∧
    (stepDt emptyWindow () (Beam.ofRows [r]) 3).drain.rows.map Row.mirrorX ≠ (stepDt emptyWindow () (Beam.ofRows [r.mirrorX]) 3).drain.rows ∧
    (stepDt emptyWindow () (Beam.ofRows [r.mirrorX]) 3).drain.rows = [] ∧ (stepDt emptyWindow () (Beam.ofRows [r.mirrorX]) 3).lostLog = [] := by
  have e : (restRow 4 (-1 / 2) 0 0).mirrorX = restRow (-4) (-1 / 2) 0 0 := by
    simp only [Row.mirrorX, restRow, neg_zero]
  have h := step_drops_particle
  refine ⟨restRow 4 (-1 / 2) 0 0, by norm_num [restRow], ?_, ?_, ?_⟩
  · rw [e, h.2, h.1.1]; simp
  · rw [e]; exact h.1.1
  · rw [e]; exact h.1.2.1

end Lcode.Mpi
