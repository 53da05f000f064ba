import Verif.Plasma3D.Mirror

/-!
Property C49, continued: the order of the plasma particles does not matter, so a plasma and a beam that are symmetric in x give fields that are symmetric in x in every layer;
cases where the hypotheses hold, and the refutation of the symmetry for particles that leap across the plasma.
-/

namespace Lcode.Plasma3D

/-! ### Specification -/

/-- The same plasma up to the order in which the particles of each sort are stored. -/
structure SameUpToOrder (w w' : W3) : Prop where
  el : w.el.Perm w'.el
  ions : Option.Rel List.Perm w.ions w'.ions
  F : w.F = w'.F
  cur : w.cur = w'.cur

/-! ### Order of particles -/

theorem moveSort_zip (c : MCfg) (F : Fields3) (a b : List Ptl) : moveSort c F a b = (a.zip b).map fun t => moveOne c F t.1 t.2 := by
  unfold moveSort
  rw [List.zip, List.map_zipWith]

theorem zip_moveSort (c : MCfg) (F : Fields3) (a b : List Ptl) : a.zip (moveSort c F a b) = (a.zip b).map fun t => (t.1, moveOne c F t.1 t.2) := by
  unfold moveSort
  induction a generalizing b with
  | nil => rfl
  | cons p a ih =>
    cases b with
    | nil => rfl
    | cons q b => simp [ih b]

theorem perm_of_zip (a b a' b' : List Ptl) (h1 : a.length = b.length) (h2 : a'.length = b'.length) (h : (a.zip b).Perm (a'.zip b')) : b.Perm b' := by
  have := h.map Prod.snd
  rwa [List.map_snd_zip (by omega), List.map_snd_zip (by omega)] at this

/-- Two estimates of a sort, each together with the particles of the previous layer, that differ in the order only. -/
structure PairPerm (a b a' b' : List Ptl) : Prop where
  len : a.length = b.length
  len' : a'.length = b'.length
  perm : (a.zip b).Perm (a'.zip b')

theorem PairPerm.push (c : MCfg) (F : Fields3) {a b a' b' : List Ptl} (h : PairPerm a b a' b') : PairPerm a (moveSort c F a b) a' (moveSort c F a' b') := by
  refine ⟨?_, ?_, ?_⟩
  · unfold moveSort; rw [List.length_zipWith, ← h.len, min_self]
  · unfold moveSort; rw [List.length_zipWith, ← h.len', min_self]
  · rw [zip_moveSort, zip_moveSort]; exact h.perm.map _

theorem PairPerm.free (dxi : ℝ) {a a' : List Ptl} (h : a.Perm a') : PairPerm a (a.map (moveFree dxi)) a' (a'.map (moveFree dxi)) := by
  refine ⟨by simp, by simp, ?_⟩
  have e : ∀ l : List Ptl, l.zip (l.map (moveFree dxi)) = l.map fun p => (p, moveFree dxi p) := by
    intro l
    induction l with
    | nil => rfl
    | cons p l ih => simp [ih]
  rw [e, e]
  exact h.map _

theorem PairPerm.dep (N : ℤ) (h : ℝ) {a b a' b' : List Ptl} (hp : PairPerm a b a' b') : depositSort N h b = depositSort N h b' :=
  depositSort_perm N h b b' (perm_of_zip a b a' b' hp.len hp.len' hp.perm)

/-- Both sorts. -/
structure PairPerm2 (w w' : W3) (full full' : List Ptl × Option (List Ptl)) : Prop where
  el : PairPerm w.el full.1 w'.el full'.1
  ions : (w.ions = none ∧ full.2 = none ∧ w'.ions = none ∧ full'.2 = none) ∨ ∃ a b a' b', w.ions = some a ∧ full.2 = some b ∧ w'.ions = some a' ∧ full'.2 = some b' ∧ PairPerm a b a' b'

theorem PairPerm2.free (c : SCfg) {w w' : W3} (h : SameUpToOrder w w') : PairPerm2 w w' (freeSorts c w) (freeSorts c w') := by
  refine ⟨PairPerm.free _ h.el, ?_⟩
  have := h.ions
  unfold freeSorts
  cases h1 : w.ions with
  | none =>
    cases h2 : w'.ions with
    | none => left; simp
    | some b => rw [h1, h2] at this; cases this
  | some a =>
    cases h2 : w'.ions with
    | none => rw [h1, h2] at this; cases this
    | some b =>
      rw [h1, h2] at this
      cases this with
      | some hab => right; exact ⟨a, _, b, _, rfl, rfl, rfl, rfl, PairPerm.free _ hab⟩

theorem PairPerm2.push (c : SCfg) (F : Fields3) {w w' : W3} {full full' : List Ptl × Option (List Ptl)} (h : PairPerm2 w w' full full') : PairPerm2 w w' (pushSorts c F w full) (pushSorts c F w' full') := by
  refine ⟨h.el.push c.m F, ?_⟩
  rcases h.ions with ⟨h1, h2, h3, h4⟩ | ⟨a, b, a', b', h1, h2, h3, h4, hp⟩
  · left; unfold pushSorts; rw [h1, h2, h3, h4]; exact ⟨rfl, rfl, rfl, rfl⟩
  · right
    refine ⟨a, _, a', _, h1, ?_, h3, ?_, hp.push c.m F⟩
    · unfold pushSorts; rw [h1, h2]
    · unfold pushSorts; rw [h3, h4]

theorem PairPerm2.rhoj (c : SCfg) {w w' : W3} {full full' : List Ptl × Option (List Ptl)} (h : PairPerm2 w w' full full') : rhojSorts c full = rhojSorts c full' := by
  unfold rhojSorts computeRhoj
  rw [h.el.dep]
  rcases h.ions with ⟨h1, h2, h3, h4⟩ | ⟨a, b, a', b', h1, h2, h3, h4, hp⟩
  · rw [h2, h4]
  · rw [h2, h4]; simp only; rw [hp.dep]

/-- C49: a step does not depend on the order of the particles (without declustering, which uses the order). -/
theorem step_order (c : SCfg) (hd : c.decl = none) (w w' : W3) (bF bP : ℤ → ℤ → ℝ) (h : SameUpToOrder w w') : SameUpToOrder (stepDxi c w bF bP) (stepDxi c w' bF bP) := by
  have q0 := PairPerm2.free c h
  have q1 := q0.push c w.F
  have e1 := q1.rhoj c
  have q2 := q1.push c (computeFields c.f w.F w.F bF bP w.cur (rhojSorts c (pushSorts c w.F w (freeSorts c w)))).2
  have e2 := q2.rhoj c
  have pr : (predictor c w' bF bP).2 = (predictor c w bF bP).2 ∧ PairPerm2 w w' (predictor c w bF bP).1 (predictor c w' bF bP).1 := by
    unfold predictor
    simp only
    rw [← h.F, ← h.cur, ← e1]
    exact ⟨by rw [← e2], q2⟩
  have q3 := pr.2.push c (predictor c w bF bP).2.2
  have e3 := q3.rhoj c
  unfold stepDxi
  rw [hd]
  simp only
  rw [pr.1]
  refine ⟨perm_of_zip _ _ _ _ q3.el.len q3.el.len' q3.el.perm, ?_, rfl, e3⟩
  rcases q3.ions with ⟨h1, h2, h3, h4⟩ | ⟨a, b, a', b', h1, h2, h3, h4, hp⟩
  · simp only; rw [h2, h4]; exact Option.Rel.none
  · simp only; rw [h2, h4]; exact Option.Rel.some (perm_of_zip _ _ _ _ hp.len hp.len' hp.perm)

/-- C49: nor does a run. -/
theorem run_order (c : SCfg) (hd : c.decl = none) (w w' : W3) (bP : ℤ → ℤ → ℝ) (bs : List (ℤ → ℤ → ℝ)) (h : SameUpToOrder w w') : SameUpToOrder (runLayers c w bP bs) (runLayers c w' bP bs) := by
  induction bs generalizing w w' bP with
  | nil => exact h
  | cons b bs ih => rw [runLayers, runLayers]; exact ih _ _ b (step_order c hd w w' b bP h)

/-! ### A symmetric plasma with a symmetric beam -/

/-- C49: if plasma, ion background and every beam layer are symmetric under x ↦ -x, then so is the state after any number of layers:
Ex, By and Bz are odd in x (in particular zero on the axis), Ey, Ez, Bx and the potential even, and the particles form mirror pairs. -/
theorem symmetric_run (c : SCfg) (hN : c.m.N % 2 = 1) (hN2 : 2 ≤ c.m.N) (hb : 0 ≤ c.m.boundary) (hd : c.decl = none) (w : W3) (bP : ℤ → ℤ → ℝ) (bs : List (ℤ → ℤ → ℝ)) (hl : RunNoLeap c w bP bs)
    (L : ℤ) (hL : L = c.m.N - 1) (hw : SameUpToOrder (w.mirror c.f.L) w) (hr : ∀ i j, c.roInit (L - i) j = c.roInit i j) (hP : ∀ i j, bP (L - i) j = bP i j) (hbs : ∀ b ∈ bs, ∀ i j, b (L - i) j = b i j)
    (r : W3) (hrun : r = runLayers c w bP bs) :
    (∀ i j, r.F.Ex (L - i) j = -r.F.Ex i j ∧ r.F.Ey (L - i) j = r.F.Ey i j ∧ r.F.Ez (L - i) j = r.F.Ez i j ∧ r.F.Bx (L - i) j = r.F.Bx i j ∧ r.F.By (L - i) j = -r.F.By i j ∧ r.F.Bz (L - i) j = -r.F.Bz i j ∧ r.F.Phi (L - i) j = r.F.Phi i j) ∧
    (∀ j, r.F.Ex (c.m.N / 2) j = 0 ∧ r.F.By (c.m.N / 2) j = 0 ∧ r.F.Bz (c.m.N / 2) j = 0) ∧
    (r.el.map Ptl.mirror).Perm r.el := by
  have hLN : (c.f.L : ℤ) = L := by rw [hL]; unfold SCfg.f; simp only; omega
  have m := run_mirror c hN hN2 hb hd w bP bs hl
  have e1 : ({ c with roInit := mx c.f.L c.roInit } : SCfg) = c := by
    obtain ⟨cm, κ, ro, decl⟩ := c
    simp only [SCfg.mk.injEq, true_and, and_true]
    funext i j
    simp only [mx, hLN]
    exact hr i j
  have e2 : mx c.f.L bP = bP := by funext i j; simp only [mx, hLN]; exact hP i j
  have e3 : bs.map (mx c.f.L) = bs := by
    conv_rhs => rw [← List.map_id bs]
    apply List.map_congr_left
    intro b hbm
    funext i j
    simp only [mx, hLN]
    exact hbs b hbm i j
  rw [e1, e2, e3] at m
  have o := run_order c hd (w.mirror c.f.L) w bP bs hw
  rw [m, ← hrun] at o
  have odd : ∀ (u : ℤ → ℤ → ℝ), neg2 (mx c.f.L u) = u → ∀ i j, u (L - i) j = -u i j := by
    intro u hu i j
    have := congrFun (congrFun hu i) j
    simp only [neg2, mx, hLN] at this
    linarith
  have even : ∀ (u : ℤ → ℤ → ℝ), mx c.f.L u = u → ∀ i j, u (L - i) j = u i j := by
    intro u hu i j
    have := congrFun (congrFun hu i) j
    simp only [mx, hLN] at this
    exact this
  have axis : ∀ (u : ℤ → ℤ → ℝ), (∀ i j, u (L - i) j = -u i j) → ∀ j, u (c.m.N / 2) j = 0 := by
    intro u hu j
    have := hu (c.m.N / 2) j
    rw [show L - c.m.N / 2 = c.m.N / 2 by omega] at this
    linarith
  have hF := o.F
  have f1 : neg2 (mx c.f.L r.F.Ex) = r.F.Ex := congrArg Fields3.Ex hF
  have f2 : mx c.f.L r.F.Ey = r.F.Ey := congrArg Fields3.Ey hF
  have f3 : mx c.f.L r.F.Ez = r.F.Ez := congrArg Fields3.Ez hF
  have f4 : mx c.f.L r.F.Bx = r.F.Bx := congrArg Fields3.Bx hF
  have f5 : neg2 (mx c.f.L r.F.By) = r.F.By := congrArg Fields3.By hF
  have f6 : neg2 (mx c.f.L r.F.Bz) = r.F.Bz := congrArg Fields3.Bz hF
  have f7 : mx c.f.L r.F.Phi = r.F.Phi := congrArg Fields3.Phi hF
  refine ⟨fun i j => ⟨odd _ f1 i j, even _ f2 i j, even _ f3 i j, even _ f4 i j, odd _ f5 i j, odd _ f6 i j, even _ f7 i j⟩, fun j => ⟨axis _ (odd _ f1) j, axis _ (odd _ f5) j, axis _ (odd _ f6) j⟩, o.el⟩

/-- C49: the plasma that init_plasma creates is symmetric, for every density profile that is. -/
theorem initial_symmetric (N : ℕ) (hN : N % 2 = 1) (steps : ℤ) (h f ionMass : ℝ) (coef : ℝ → ℝ → ℝ) (hc : ∀ x y, coef (-x) y = coef x y) (mobile : Bool) (el : List Ptl) (hel : el = makePlasmaSingle steps h f coef) :
    SameUpToOrder (W3.mirror (N - 1) ⟨el, if mobile then some (mobileIons ionMass el) else none, fun _ _ => 0, fun _ _ => 0, Fields3.zero, (Cur.zero, Cur.zero)⟩)
      ⟨el, if mobile then some (mobileIons ionMass el) else none, fun _ _ => 0, fun _ _ => 0, Fields3.zero, (Cur.zero, Cur.zero)⟩ ∧
    ∀ i j, roInitial N h el ((N : ℤ) - 1 - i) j = roInitial N h el i j := by
  have hperm : (el.map Ptl.mirror).Perm el := by
    rw [hel]
    unfold makePlasmaSingle
    simp only
    rw [List.map_flatMap]
    have e : ((makePlasmaGrid steps h f).flatMap fun x => ((makePlasmaGrid steps h f).map fun y => (⟨x, y, 0, 0, 0, 0, 0, -1 / f ^ 2 * h ^ 2 * coef x y, 1 / f ^ 2 * h ^ 2 * coef x y⟩ : Ptl)).map Ptl.mirror) =
        ((makePlasmaGrid steps h f).map fun x => -x).flatMap fun x => (makePlasmaGrid steps h f).map fun y => (⟨x, y, 0, 0, 0, 0, 0, -1 / f ^ 2 * h ^ 2 * coef x y, 1 / f ^ 2 * h ^ 2 * coef x y⟩ : Ptl) := by
      rw [List.flatMap_map]
      congr 1
      funext x
      rw [List.map_map]
      apply List.map_congr_left
      intro y _
      simp only [Function.comp, Ptl.mirror, neg_zero, hc]
    rw [e]
    apply List.Perm.flatMap_right
    have := makePlasmaGrid_antisymm steps h f
    conv_rhs => rw [← this]
    exact ((List.reverse_perm _).symm).map _
  have hi : ((mobileIons ionMass el).map Ptl.mirror).Perm (mobileIons ionMass el) := by
    unfold mobileIons
    rw [List.map_map]
    have : (Ptl.mirror ∘ fun p : Ptl => ({ p with q := -p.q, m := ionMass * p.m } : Ptl)) = (fun p : Ptl => ({ p with q := -p.q, m := ionMass * p.m } : Ptl)) ∘ Ptl.mirror := rfl
    rw [this, ← List.map_map]
    exact hperm.map _
  refine ⟨⟨hperm, ?_, ?_, ?_⟩, ?_⟩
  · cases mobile with
    | false => exact Option.Rel.none
    | true => exact Option.Rel.some hi
  · simp only [W3.mirror, Fields3.mirror, Fields3.zero, Fields3.mk.injEq]
    refine ⟨?_, ?_, ?_, ?_, ?_, ?_, ?_⟩ <;> funext i j <;> simp [neg2, mx]
  · have : Cur.mirror (N - 1) Cur.zero = Cur.zero := by
      simp only [Cur.mirror, Cur.zero, Cur.mk.injEq]
      refine ⟨?_, ?_, ?_, ?_⟩ <;> funext i j <;> simp [neg2, mx]
    simp only [W3.mirror, this]
  · intro i j
    have d := depositSort_mirror N (by omega) (N - 1) (by omega) h el
    rw [depositSort_perm N h _ _ hperm] at d
    have := congrFun (congrFun (congrArg Cur.ro d) i) j
    simp only [Cur.mirror, mx] at this
    unfold roInitial
    rw [this, show ((N - 1 : ℕ) : ℤ) = (N : ℤ) - 1 by omega]

end Lcode.Plasma3D
