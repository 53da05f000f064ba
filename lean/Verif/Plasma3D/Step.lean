import Verif.Plasma3D.Fields
import Verif.Plasma3D.NoiseFilter
import Verif.Plasma3D.Init

/-!
Model of lcode/plasma3d/solver.py (Plane2d3vPlasmaSolver.step_dxi) and of the plasma part of the xi-loop of push_solvers/push_solver.py:215-300. Property C43.
-/

namespace Lcode.Plasma3D

/-! ### Model -/

/-- All parameters of the solver. `decl` is `some` when declustering-enabled is true; its `n` is the number of particles in a row. -/
structure SCfg where
  m : MCfg
  κ : ℝ
  roInit : ℤ → ℤ → ℝ
  decl : Option NCfg

/-- window-width-steps minus one, transverse-step, xi-step and the subtraction coefficient, as read by get_field_computer, fields.py:269-272. -/
noncomputable def SCfg.f (c : SCfg) : FCfg := ⟨(c.m.N - 1).toNat, c.m.h, c.m.dxi, c.κ⟩

/-- What step_dxi hands from layer to layer: particles of both sorts (no ion list with a background), the chaotic displacements stored with the electrons, fields and currents. -/
structure W3 where
  el : List Ptl
  ions : Option (List Ptl)
  chx : ℤ → ℤ → ℝ
  chy : ℤ → ℤ → ℝ
  F : Fields3
  cur : Cur × Cur

/-- Entry (i, j) of a particle array stored row by row. -/
noncomputable def entry (n : ℕ) (ps : List Ptl) (g : Ptl → ℝ) (i j : ℤ) : ℝ := match ps[(i * n + j).toNat]? with | some p => g p | none => 0

/-- The noise filter applied to the electrons, solver.py:68-72. -/
noncomputable def filterSort (c : NCfg) (el : List Ptl) (chx chy : ℤ → ℤ → ℝ) : List Ptl × (ℤ → ℤ → ℝ) × (ℤ → ℤ → ℝ) :=
  let s := noiseFilter c (entry c.n el Ptl.x) (entry c.n el Ptl.y) ⟨entry c.n el Ptl.px, entry c.n el Ptl.py, chx, chy⟩
  (el.mapIdx fun k p => { p with px := s.px ((k / c.n : ℕ) : ℤ) ((k % c.n : ℕ) : ℤ), py := s.py ((k / c.n : ℕ) : ℤ) ((k % c.n : ℕ) : ℤ) }, s.chx, s.chy)

/-- One push of both sorts, solver.py:34, 49, 64. -/
noncomputable def pushSorts (c : SCfg) (F : Fields3) (w : W3) (full : List Ptl × Option (List Ptl)) : List Ptl × Option (List Ptl) :=
  (moveSort c.m F w.el full.1, match w.ions, full.2 with | some a, some b => some (moveSort c.m F a b) | _, _ => none)

/-- compute_rhoj of both sorts, solver.py:40, 55, 74. -/
noncomputable def rhojSorts (c : SCfg) (full : List Ptl × Option (List Ptl)) : Cur × Cur := computeRhoj c.m.N c.m.h c.roInit full.1 full.2

/-- move_particles_wo_fields, solver.py:29. -/
noncomputable def freeSorts (c : SCfg) (w : W3) : List Ptl × Option (List Ptl) := (w.el.map (moveFree c.m.dxi), w.ions.map fun l => l.map (moveFree c.m.dxi))

/-- The particles and half-step fields after the first two passes, solver.py:29-62: `(second estimate of the particles, (fields_full, fields_half))`. -/
noncomputable def predictor (c : SCfg) (w : W3) (bFull bPrev : ℤ → ℤ → ℝ) : (List Ptl × Option (List Ptl)) × (Fields3 × Fields3) :=
  let p1 := pushSorts c w.F w (freeSorts c w)
  let h1 := (computeFields c.f w.F w.F bFull bPrev w.cur (rhojSorts c p1)).2
  let p2 := pushSorts c h1 w p1
  (p2, computeFields c.f h1 w.F bFull bPrev w.cur (rhojSorts c p2))

/-- step_dxi, solver.py:25-78. -/
noncomputable def stepDxi (c : SCfg) (w : W3) (bFull bPrev : ℤ → ℤ → ℝ) : W3 :=
  let a := predictor c w bFull bPrev
  let p3 := pushSorts c a.2.2 w a.1
  match c.decl with
  | none => ⟨p3.1, p3.2, w.chx, w.chy, a.2.1, rhojSorts c p3⟩
  | some d =>
    let r := filterSort d p3.1 w.chx w.chy
    ⟨r.1, p3.2, r.2.1, r.2.2, a.2.1, rhojSorts c (r.1, p3.2)⟩

/-- The plasma part of the xi-loop, push_solver.py:255-300: the beam density of the layer before is that of the previous turn. -/
noncomputable def runLayers (c : SCfg) (w : W3) (bPrev : ℤ → ℤ → ℝ) : List (ℤ → ℤ → ℝ) → W3
  | [] => w
  | b :: bs => runLayers c (stepDxi c w b bPrev) b bs

/-! ### Specification -/

/-- All particles, of either sort. -/
def W3.all (w : W3) : List Ptl := w.el ++ w.ions.getD []

def Fields3.zero : Fields3 := ⟨fun _ _ => 0, fun _ _ => 0, fun _ _ => 0, fun _ _ => 0, fun _ _ => 0, fun _ _ => 0, fun _ _ => 0⟩

/-! ### C43: a quiet plasma -/

theorem moveFree_rest (dxi : ℝ) (p : Ptl) (h : p.px = 0 ∧ p.py = 0) : moveFree dxi p = p := by
  unfold moveFree
  split
  · rfl
  · cases p
    simp only at h
    simp [h.1, h.2]

theorem moveSort_rest (c : MCfg) (F : Fields3) (l : List Ptl) (hl : ∀ p ∈ l, (p.q = 0 ∨ StrictlyInside c.boundary p) ∧ p.px = 0 ∧ p.py = 0 ∧ p.pz = 0)
    (hF : ∀ i j, F.Ex i j = 0 ∧ F.Ey i j = 0 ∧ F.Ez i j = 0 ∧ F.Bx i j = 0 ∧ F.By i j = 0 ∧ F.Bz i j = 0) : moveSort c F l l = l := by
  unfold moveSort
  induction l with
  | nil => rfl
  | cons p l ih =>
    rw [List.zipWith_cons_cons, ih fun x hx => hl x (List.mem_cons_of_mem _ hx)]
    have := hl p List.mem_cons_self
    congr 1
    rcases this.1 with h | h
    · unfold moveOne; rw [if_pos h]
    · exact moveOne_rest c F p h this.2 hF

theorem mapIdx_id (l : List Ptl) (g : ℕ → Ptl → Ptl) (h : ∀ k (hk : k < l.length), g k l[k] = l[k]) : l.mapIdx g = l := by
  apply List.ext_getElem
  · simp
  · intro k h1 h2
    rw [List.getElem_mapIdx]
    exact h k h2

theorem entry_mem (n : ℕ) (ps : List Ptl) (g : Ptl → ℝ) (v : ℝ) (h0 : v = 0) (h : ∀ p ∈ ps, g p = v) : entry n ps g = fun _ _ => v := by
  funext i j
  unfold entry
  split
  · rename_i p hp; exact h p (List.mem_of_getElem? hp)
  · exact h0.symm

theorem filterSort_rest (d : NCfg) (hl : d.lim ≠ 0) (el : List Ptl) (h : ∀ p ∈ el, p.x = 0 ∧ p.y = 0 ∧ p.px = 0 ∧ p.py = 0) :
    filterSort d el (fun _ _ => 0) (fun _ _ => 0) = (el, (fun _ _ => 0), fun _ _ => 0) := by
  unfold filterSort
  simp only
  rw [entry_mem d.n el Ptl.x 0 rfl fun p hp => (h p hp).1, entry_mem d.n el Ptl.y 0 rfl fun p hp => (h p hp).2.1,
    entry_mem d.n el Ptl.px 0 rfl fun p hp => (h p hp).2.2.1, entry_mem d.n el Ptl.py 0 rfl fun p hp => (h p hp).2.2.2]
  have hA : Affine fun _ _ => (0 : ℝ) := ⟨0, 0, 0, by intro i j; ring⟩
  rw [affine_untouched d hl _ _ hA hA]
  simp only [mul_zero, add_zero]
  rw [mapIdx_id]
  intro k hk
  obtain ⟨-, -, h1, h2⟩ := h _ (List.getElem_mem hk)
  simp only [← h1]
  conv_rhs => rw [show el[k] = { el[k] with px := el[k].px, py := el[k].py } from rfl]
  simp only [h1, h2]

/-- A plasma at rest: every particle is at its initial place without momentum, switched off or strictly inside the boundary; charges and currents of the two sorts cancel at every node; there are no fields, and there is no chaotic displacement. -/
structure Quiet3 (c : SCfg) (w : W3) : Prop where
  rest : ∀ p ∈ w.all, (p.q = 0 ∨ StrictlyInside c.m.boundary p) ∧ p.x = 0 ∧ p.y = 0 ∧ p.px = 0 ∧ p.py = 0 ∧ p.pz = 0
  neutral : Cur.total (computeRhoj c.m.N c.m.h c.roInit w.el w.ions) = Cur.zero
  cur : Cur.total w.cur = Cur.zero
  fields : w.F = Fields3.zero
  ch : w.chx = (fun _ _ => 0) ∧ w.chy = fun _ _ => 0

theorem fields_zero_all (i j : ℤ) : Fields3.zero.Ex i j = 0 ∧ Fields3.zero.Ey i j = 0 ∧ Fields3.zero.Ez i j = 0 ∧ Fields3.zero.Bx i j = 0 ∧ Fields3.zero.By i j = 0 ∧ Fields3.zero.Bz i j = 0 :=
  ⟨rfl, rfl, rfl, rfl, rfl, rfl⟩

/-- C43: without a beam one step leaves a quiet plasma exactly as it is, with or without declustering. -/
theorem quiet_step (c : SCfg) (w : W3) (hq : Quiet3 c w) (hd : ∀ d, c.decl = some d → d.lim ≠ 0) :
    stepDxi c w (fun _ _ => 0) (fun _ _ => 0) = { w with cur := computeRhoj c.m.N c.m.h c.roInit w.el w.ions } := by
  obtain ⟨hrest, hn, hc, hF, hcx, hcy⟩ := hq
  have hel : ∀ p ∈ w.el, (p.q = 0 ∨ StrictlyInside c.m.boundary p) ∧ p.x = 0 ∧ p.y = 0 ∧ p.px = 0 ∧ p.py = 0 ∧ p.pz = 0 :=
    fun p hp => hrest p (List.mem_append_left _ hp)
  have free : freeSorts c w = (w.el, w.ions) := by
    unfold freeSorts
    congr 1
    · conv_rhs => rw [← List.map_id w.el]
      exact List.map_congr_left fun p hp => moveFree_rest _ _ ⟨(hel p hp).2.2.2.1, (hel p hp).2.2.2.2.1⟩
    · cases h : w.ions with
      | none => rfl
      | some l =>
        rw [Option.map_some]
        congr 1
        conv_rhs => rw [← List.map_id l]
        apply List.map_congr_left
        intro p hp
        have := hrest p (List.mem_append_right _ (by rw [h]; exact hp))
        exact moveFree_rest _ _ ⟨this.2.2.2.1, this.2.2.2.2.1⟩
  have push : ∀ G : Fields3, G = Fields3.zero → pushSorts c G w (w.el, w.ions) = (w.el, w.ions) := by
    intro G hG
    unfold pushSorts
    congr 1
    · exact moveSort_rest c.m G w.el (fun p hp => ⟨(hel p hp).1, (hel p hp).2.2.2⟩) (by rw [hG]; exact fields_zero_all)
    · cases h : w.ions with
      | none => rfl
      | some l =>
        simp only
        congr 1
        apply moveSort_rest c.m G l _ (by rw [hG]; exact fields_zero_all)
        intro p hp
        have := hrest p (List.mem_append_right _ (by rw [h]; exact hp))
        exact ⟨this.1, this.2.2.2⟩
  have fz : computeFields c.f w.F w.F (fun _ _ => 0) (fun _ _ => 0) w.cur (rhojSorts c (w.el, w.ions)) = (Fields3.zero, Fields3.zero) := by
    apply zero_fields c.f w.F w.F _ _ _ _ hc hn
    · rw [hF]; intro i j; exact ⟨rfl, rfl, rfl, rfl⟩
    · rw [hF]; exact fields_zero_all
  have pr : predictor c w (fun _ _ => 0) (fun _ _ => 0) = ((w.el, w.ions), (Fields3.zero, Fields3.zero)) := by
    unfold predictor
    simp only [free, push w.F hF, fz, push Fields3.zero rfl]
    rw [hF] at fz ⊢
    rw [fz]
  unfold stepDxi
  simp only [pr, push Fields3.zero rfl]
  cases hdec : c.decl with
  | none => simp only [hF]; rfl
  | some d =>
    simp only [hcx, hcy, filterSort_rest d (hd d hdec) w.el (fun p hp => ⟨(hel p hp).2.1, (hel p hp).2.2.1, (hel p hp).2.2.2.1, (hel p hp).2.2.2.2.1⟩), hF]
    rfl

/-- C43: without a beam a quiet plasma stays exactly as it is over any number of layers; only the currents array is filled in by the first of them. -/
theorem quiet_forever (c : SCfg) (w : W3) (hq : Quiet3 c w) (hd : ∀ d, c.decl = some d → d.lim ≠ 0) (n : ℕ) :
    runLayers c w (fun _ _ => 0) (List.replicate n fun _ _ => 0) = if n = 0 then w else { w with cur := computeRhoj c.m.N c.m.h c.roInit w.el w.ions } := by
  have step := quiet_step c w hq hd
  have hq' : Quiet3 c { w with cur := computeRhoj c.m.N c.m.h c.roInit w.el w.ions } := ⟨hq.rest, hq.neutral, hq.neutral, hq.fields, hq.ch⟩
  have step' := quiet_step c _ hq' hd
  have later : ∀ n, runLayers c { w with cur := computeRhoj c.m.N c.m.h c.roInit w.el w.ions } (fun _ _ => 0) (List.replicate n fun _ _ => 0) = { w with cur := computeRhoj c.m.N c.m.h c.roInit w.el w.ions } := by
    intro n
    induction n with
    | zero => rfl
    | succ n ih => rw [List.replicate_succ, runLayers, step']; exact ih
  cases n with
  | zero => rfl
  | succ n => rw [List.replicate_succ, runLayers, step, later, if_neg (by omega)]

/-- C43: the state that init_plasma builds is quiet, with the ion background and with mobile ions, for every profile. -/
theorem initial_quiet3 (N pad pp : ℕ) (hN : 2 * pp ≤ N) (hpp : pad ≤ pp) (f : ℕ) (hf : 1 ≤ f) (dxi h κ ionMass : ℝ) (hh : 0 < h) (coef : ℝ → ℝ → ℝ) (decl : Option NCfg) (mobile : Bool)
    (el : List Ptl) (hel : el = makePlasmaSingle ((N - 2 * pp : ℕ) : ℤ) h f coef) :
    Quiet3 ⟨⟨dxi, h, N, pad⟩, κ, roInitial N h el, decl⟩
      ⟨el, if mobile then some (mobileIons ionMass el) else none, fun _ _ => 0, fun _ _ => 0, Fields3.zero, (Cur.zero, Cur.zero)⟩ := by
  have r : ∀ p ∈ el, p.x = 0 ∧ p.y = 0 ∧ p.px = 0 ∧ p.py = 0 ∧ p.pz = 0 := by
    intro p hp; rw [hel] at hp; exact (makePlasmaSingle_mem _ _ _ _ p hp).2.2
  have ins : ∀ p ∈ el, StrictlyInside (MCfg.boundary ⟨dxi, h, N, pad⟩) p := by
    intro p hp; rw [hel] at hp; exact initial_inside N pad pp hN hpp f hf dxi h hh coef p hp
  have r0 : ∀ p ∈ el, p.px = 0 ∧ p.py = 0 ∧ p.pz = 0 := fun p hp => (r p hp).2.2
  refine ⟨?_, ?_, ?_, rfl, rfl, rfl⟩
  · intro p hp
    unfold W3.all at hp
    rcases List.mem_append.mp hp with hp | hp
    · exact ⟨Or.inr (ins p hp), r p hp⟩
    · cases mobile with
      | false => simp at hp
      | true =>
        simp only [if_true, Option.getD_some, mobileIons, List.mem_map] at hp
        obtain ⟨a, ha, rfl⟩ := hp
        exact ⟨Or.inr (ins a ha), r a ha⟩
  · unfold Cur.total Cur.zero
    rw [Cur.mk.injEq]
    cases mobile with
    | false =>
      simp only [Bool.false_eq_true, if_false]
      refine ⟨?_, ?_, ?_, ?_⟩ <;> funext i j
      · exact background_neutral N h el i j
      · simp only [computeRhoj, (rest_no_current N h el r0 i j).1, Cur.zero, add_zero]
      · simp only [computeRhoj, (rest_no_current N h el r0 i j).2.1, Cur.zero, add_zero]
      · simp only [computeRhoj, (rest_no_current N h el r0 i j).2.2, Cur.zero, add_zero]
    | true =>
      have r1 : ∀ p ∈ mobileIons ionMass el, p.px = 0 ∧ p.py = 0 ∧ p.pz = 0 := by
        intro p hp
        simp only [mobileIons, List.mem_map] at hp
        obtain ⟨a, ha, rfl⟩ := hp
        exact r0 a ha
      simp only [if_true]
      refine ⟨?_, ?_, ?_, ?_⟩ <;> funext i j
      · exact mobile_neutral N h _ ionMass el r0 i j
      · simp only [computeRhoj, (rest_no_current N h el r0 i j).1, (rest_no_current N h _ r1 i j).1, add_zero]
      · simp only [computeRhoj, (rest_no_current N h el r0 i j).2.1, (rest_no_current N h _ r1 i j).2.1, add_zero]
      · simp only [computeRhoj, (rest_no_current N h el r0 i j).2.2, (rest_no_current N h _ r1 i j).2.2, add_zero]
  · simp [Cur.total, Cur.zero]

/-! ### C43: the boundary over any history -/

/-- Same particle as at the start: initial place and mass kept, and the charge kept or lost. -/
def Kept (p0 p : Ptl) : Prop := p.x0 = p0.x0 ∧ p.y0 = p0.y0 ∧ p.m = p0.m ∧ (p.q = p0.q ∨ p.q = 0)

theorem Kept.trans {a b c : Ptl} (h1 : Kept a b) (h2 : Kept b c) : Kept a c := by
  obtain ⟨a1, a2, a3, a4⟩ := h1
  obtain ⟨b1, b2, b3, b4⟩ := h2
  refine ⟨b1.trans a1, b2.trans a2, b3.trans a3, ?_⟩
  rcases b4 with h | h
  · rcases a4 with g | g
    · exact Or.inl (h.trans g)
    · exact Or.inr (h.trans g)
  · exact Or.inr h

theorem Kept.refl (a : Ptl) : Kept a a := ⟨rfl, rfl, rfl, Or.inl rfl⟩

theorem moveFree_kept (dxi : ℝ) (p : Ptl) : Kept p (moveFree dxi p) ∧ (moveFree dxi p).q = p.q := by
  unfold moveFree; split <;> exact ⟨⟨rfl, rfl, rfl, Or.inl rfl⟩, rfl⟩

theorem moveOne_kept (c : MCfg) (F : Fields3) (p0 prev full : Ptl) (h0 : Kept p0 prev) (h1 : Kept p0 full) :
    Kept p0 (moveOne c F prev full) ∧ ((moveOne c F prev full).q = 0 ∨ StrictlyInside c.boundary (moveOne c F prev full)) := by
  obtain ⟨hb, e1, e2, e3⟩ := moveOne_boundary c F prev full ⟨h0.1.trans h1.1.symm, h0.2.1.trans h1.2.1.symm⟩
  rcases hb with ⟨hq, he⟩ | ⟨-, ho | ⟨hq, hi⟩⟩
  · rw [he]; exact ⟨h1, Or.inl hq⟩
  · exact ⟨⟨e1.trans h1.1, e2.trans h1.2.1, e3.trans h1.2.2.1, Or.inr ho.1⟩, Or.inl ho.1⟩
  · refine ⟨⟨e1.trans h1.1, e2.trans h1.2.1, e3.trans h1.2.2.1, ?_⟩, Or.inr hi⟩
    rw [hq]; exact h1.2.2.2

theorem moveSort_kept (c : MCfg) (F : Fields3) (l0 prev full : List Ptl) (h0 : List.Forall₂ Kept l0 prev) (h1 : List.Forall₂ Kept l0 full) :
    List.Forall₂ Kept l0 (moveSort c F prev full) ∧ ∀ p ∈ moveSort c F prev full, p.q = 0 ∨ StrictlyInside c.boundary p := by
  unfold moveSort
  induction h0 generalizing full with
  | nil => cases h1; exact ⟨List.Forall₂.nil, by simp⟩
  | cons ha _ ih =>
    cases h1 with
    | cons hb ht =>
      obtain ⟨i1, i2⟩ := ih _ ht
      obtain ⟨k1, k2⟩ := moveOne_kept c F _ _ _ ha hb
      rw [List.zipWith_cons_cons]
      refine ⟨List.Forall₂.cons k1 i1, ?_⟩
      intro p hp
      rcases List.mem_cons.mp hp with rfl | hp
      · exact k2
      · exact i2 p hp

theorem map_kept (l0 l : List Ptl) (g : Ptl → Ptl) (hg : ∀ p, Kept p (g p)) (h : List.Forall₂ Kept l0 l) : List.Forall₂ Kept l0 (l.map g) := by
  induction h with
  | nil => exact List.Forall₂.nil
  | cons ha _ ih => exact List.Forall₂.cons (ha.trans (hg _)) ih

theorem mapIdx_kept (l0 l : List Ptl) (g : ℕ → Ptl → Ptl) (hg : ∀ k p, Kept p (g k p)) (h : List.Forall₂ Kept l0 l) : List.Forall₂ Kept l0 (l.mapIdx g) := by
  induction h generalizing g with
  | nil => exact List.Forall₂.nil
  | cons ha _ ih => rw [List.mapIdx_cons]; exact List.Forall₂.cons (ha.trans (hg _ _)) (ih _ fun k p => hg (k + 1) p)

/-- The invariant of the run: the particles are those of the start, and each has lost its charge or is strictly inside the boundary. -/
structure Contained (c : SCfg) (el0 : List Ptl) (ions0 : Option (List Ptl)) (w : W3) : Prop where
  el : List.Forall₂ Kept el0 w.el
  ions : Option.Rel (List.Forall₂ Kept) ions0 w.ions
  inside : ∀ p ∈ w.all, p.q = 0 ∨ StrictlyInside c.m.boundary p

def KeptPair (el0 : List Ptl) (ions0 : Option (List Ptl)) (a : List Ptl × Option (List Ptl)) : Prop := List.Forall₂ Kept el0 a.1 ∧ Option.Rel (List.Forall₂ Kept) ions0 a.2

theorem pushSorts_kept (c : SCfg) (F : Fields3) (el0 : List Ptl) (ions0 : Option (List Ptl)) (w : W3) (full : List Ptl × Option (List Ptl)) (hw : KeptPair el0 ions0 (w.el, w.ions)) (hf : KeptPair el0 ions0 full) :
    KeptPair el0 ions0 (pushSorts c F w full) ∧ (∀ p ∈ (pushSorts c F w full).1, p.q = 0 ∨ StrictlyInside c.m.boundary p) ∧ ∀ l, (pushSorts c F w full).2 = some l → ∀ p ∈ l, p.q = 0 ∨ StrictlyInside c.m.boundary p := by
  obtain ⟨a1, a2⟩ := hw
  obtain ⟨b1, b2⟩ := hf
  obtain ⟨k1, k2⟩ := moveSort_kept c.m F el0 w.el full.1 a1 b1
  simp only at a2
  unfold pushSorts KeptPair
  simp only
  cases hi : w.ions with
  | none =>
    rw [hi] at a2
    cases a2
    exact ⟨⟨k1, Option.Rel.none⟩, k2, by simp⟩
  | some a =>
    rw [hi] at a2
    cases a2 with
    | some ha =>
      rename_i i0
      cases hb : full.2 with
      | none => rw [hb] at b2; cases b2
      | some b =>
        rw [hb] at b2
        cases b2 with
        | some hb' =>
          obtain ⟨m1, m2⟩ := moveSort_kept c.m F i0 a b ha hb'
          exact ⟨⟨k1, Option.Rel.some m1⟩, k2, by rintro l ⟨⟩; exact m2⟩

theorem free_kept (c : SCfg) (el0 : List Ptl) (ions0 : Option (List Ptl)) (w : W3) (hw : KeptPair el0 ions0 (w.el, w.ions)) : KeptPair el0 ions0 (freeSorts c w) := by
  obtain ⟨a1, a2⟩ := hw
  simp only at a1 a2
  unfold freeSorts KeptPair
  refine ⟨map_kept _ _ _ (fun p => (moveFree_kept c.m.dxi p).1) a1, ?_⟩
  cases hi : w.ions with
  | none => rw [hi] at a2; cases a2; exact Option.Rel.none
  | some a =>
    rw [hi] at a2
    cases a2 with
    | some ha => exact Option.Rel.some (map_kept _ _ _ (fun p => (moveFree_kept c.m.dxi p).1) ha)

theorem stepDxi_contained (c : SCfg) (el0 : List Ptl) (ions0 : Option (List Ptl)) (w : W3) (bFull bPrev : ℤ → ℤ → ℝ) (hw : KeptPair el0 ions0 (w.el, w.ions)) : Contained c el0 ions0 (stepDxi c w bFull bPrev) := by
  have k1 : KeptPair el0 ions0 (predictor c w bFull bPrev).1 := by
    unfold predictor
    exact (pushSorts_kept c _ el0 ions0 w _ hw (pushSorts_kept c _ el0 ions0 w _ hw (free_kept c el0 ions0 w hw)).1).1
  obtain ⟨⟨m1, m2⟩, m3, m4⟩ := pushSorts_kept c (predictor c w bFull bPrev).2.2 el0 ions0 w _ hw k1
  unfold stepDxi
  cases hd : c.decl with
  | none =>
    refine ⟨m1, m2, ?_⟩
    intro p hp
    unfold W3.all at hp
    simp only at hp
    rcases List.mem_append.mp hp with hp | hp
    · exact m3 p hp
    · cases hi : (pushSorts c (predictor c w bFull bPrev).2.2 w (predictor c w bFull bPrev).1).2 with
      | none => rw [hi] at hp; simp at hp
      | some l => rw [hi] at hp; exact m4 l hi p hp
  | some d =>
    refine ⟨?_, m2, ?_⟩
    · exact mapIdx_kept _ _ _ (fun k p => ⟨rfl, rfl, rfl, Or.inl rfl⟩) m1
    · intro p hp
      unfold W3.all at hp
      simp only at hp
      rcases List.mem_append.mp hp with hp | hp
      · unfold filterSort at hp
        simp only at hp
        obtain ⟨k, hk, rfl⟩ := List.mem_mapIdx.mp hp
        have := m3 _ (List.getElem_mem hk)
        exact this
      · cases hi : (pushSorts c (predictor c w bFull bPrev).2.2 w (predictor c w bFull bPrev).1).2 with
        | none => rw [hi] at hp; simp at hp
        | some l => rw [hi] at hp; exact m4 l hi p hp

/-- C43: whatever the beam does, at every layer the plasma consists of the particles of the start, in their order, with their mass and initial place; each either has kept its charge and is strictly inside the boundary, or has lost its charge. -/
theorem history_contained (c : SCfg) (w : W3) (hw : ∀ p ∈ w.all, p.q = 0 ∨ StrictlyInside c.m.boundary p) (bPrev : ℤ → ℤ → ℝ) (bs : List (ℤ → ℤ → ℝ)) : Contained c w.el w.ions (runLayers c w bPrev bs) := by
  have h0 : Contained c w.el w.ions w := by
    have rl : ∀ l : List Ptl, List.Forall₂ Kept l l := fun l => by
      induction l with
      | nil => exact List.Forall₂.nil
      | cons a l ih => exact List.Forall₂.cons (Kept.refl a) ih
    refine ⟨rl _, ?_, hw⟩
    cases w.ions with
    | none => exact Option.Rel.none
    | some l => exact Option.Rel.some (rl l)
  have key : ∀ (bs : List (ℤ → ℤ → ℝ)) (v : W3) (bPrev : ℤ → ℤ → ℝ), Contained c w.el w.ions v → Contained c w.el w.ions (runLayers c v bPrev bs) := by
    intro bs
    induction bs with
    | nil => intro v _ hv; exact hv
    | cons b bs ih => intro v bp hv; exact ih _ b (stepDxi_contained c w.el w.ions v b bp ⟨hv.el, hv.ions⟩)
  exact key bs w bPrev h0

/-- C43: so every deposition of a run stays inside the arrays. -/
theorem history_touched (c : SCfg) (hN : c.m.N % 2 = 1) (hp : 2 < c.m.pad) (hh : 0 < c.m.h) (w : W3) (hw : ∀ p ∈ w.all, p.q = 0 ∨ StrictlyInside c.m.boundary p) (bPrev : ℤ → ℤ → ℝ) (bs : List (ℤ → ℤ → ℝ)) :
    ∀ t ∈ touched c.m.N c.m.h (runLayers c w bPrev bs).all, (1 ≤ t.1 ∧ t.1 < c.m.N - 1) ∧ (1 ≤ t.2 ∧ t.2 < c.m.N - 1) := by
  have hc := (history_contained c w hw bPrev bs).inside
  have := touched_inside c.m.N c.m.pad hN c.m.h hh (runLayers c w bPrev bs).all (fun p hp => by
    rcases hc p hp with h | h
    · exact Or.inl h
    · exact Or.inr h)
  intro t ht
  have := this t ht
  omega

/-! ### C43: the scheme of one step -/

/-- C43: one step (declustering off) moves every particle from its place on the previous layer with the mean of the fields of the previous and of the new layer, taken at the middle between the previous
and the estimated place. The transverse part of that mean solves the field equations (transverse_spec) with the plasma currents of the previous layer and of the estimate, and with both beam layers; the new
longitudinal fields and the potential are those of the estimate. The estimate comes from two passes of the same kind: first free motion and the fields of the previous layer, then the mean fields of that
first estimate. The currents handed on are those of the particles handed on. -/
theorem step_scheme (c : SCfg) (hd : c.decl = none) (w : W3) (bFull bPrev : ℤ → ℤ → ℝ) (r : W3) (hr : r = stepDxi c w bFull bPrev) :
    ∃ (e1 e2 : List Ptl × Option (List Ptl)) (H1 H : Fields3),
      (∀ i j, H.Ex i j = (w.F.Ex i j + r.F.Ex i j) / 2 ∧ H.Ey i j = (w.F.Ey i j + r.F.Ey i j) / 2 ∧ H.Ez i j = (w.F.Ez i j + r.F.Ez i j) / 2 ∧
        H.Bx i j = (w.F.Bx i j + r.F.Bx i j) / 2 ∧ H.By i j = (w.F.By i j + r.F.By i j) / 2 ∧ H.Bz i j = (w.F.Bz i j + r.F.Bz i j) / 2) ∧
      r.el = List.zipWith (moveOne c.m H) w.el e2.1 ∧
      (∀ ions, w.ions = some ions → ∃ i2, e2.2 = some i2 ∧ r.ions = some (List.zipWith (moveOne c.m H) ions i2)) ∧ (w.ions = none → r.ions = none) ∧
      r.cur = computeRhoj c.m.N c.m.h c.roInit r.el r.ions ∧
      H.Ex = calcEx c.f H1 bFull bPrev (Cur.total (computeRhoj c.m.N c.m.h c.roInit e2.1 e2.2)) (Cur.total w.cur) ∧
      H.Ey = calcEy c.f H1 bFull bPrev (Cur.total (computeRhoj c.m.N c.m.h c.roInit e2.1 e2.2)) (Cur.total w.cur) ∧
      H.Bx = calcBx c.f H1 bFull bPrev (Cur.total (computeRhoj c.m.N c.m.h c.roInit e2.1 e2.2)) (Cur.total w.cur) ∧
      H.By = calcBy c.f H1 bFull bPrev (Cur.total (computeRhoj c.m.N c.m.h c.roInit e2.1 e2.2)) (Cur.total w.cur) ∧
      r.F.Ez = calcEz c.f.L c.m.h (Cur.total (computeRhoj c.m.N c.m.h c.roInit e2.1 e2.2)) ∧
      r.F.Bz = calcBz c.f.L c.m.h (Cur.total (computeRhoj c.m.N c.m.h c.roInit e2.1 e2.2)) ∧
      r.F.Phi = calcPhi c.f.L c.m.h (Cur.total (computeRhoj c.m.N c.m.h c.roInit e2.1 e2.2)) ∧
      e2.1 = List.zipWith (moveOne c.m H1) w.el e1.1 ∧
      (∀ ions, w.ions = some ions → ∃ i1, e1.2 = some i1 ∧ e2.2 = some (List.zipWith (moveOne c.m H1) ions i1)) ∧
      H1.Ex = calcEx c.f w.F bFull bPrev (Cur.total (computeRhoj c.m.N c.m.h c.roInit e1.1 e1.2)) (Cur.total w.cur) ∧
      H1.Ey = calcEy c.f w.F bFull bPrev (Cur.total (computeRhoj c.m.N c.m.h c.roInit e1.1 e1.2)) (Cur.total w.cur) ∧
      H1.Bx = calcBx c.f w.F bFull bPrev (Cur.total (computeRhoj c.m.N c.m.h c.roInit e1.1 e1.2)) (Cur.total w.cur) ∧
      H1.By = calcBy c.f w.F bFull bPrev (Cur.total (computeRhoj c.m.N c.m.h c.roInit e1.1 e1.2)) (Cur.total w.cur) ∧
      (∀ i j, H1.Ez i j = (w.F.Ez i j + calcEz c.f.L c.m.h (Cur.total (computeRhoj c.m.N c.m.h c.roInit e1.1 e1.2)) i j) / 2) ∧
      (∀ i j, H1.Bz i j = (w.F.Bz i j + calcBz c.f.L c.m.h (Cur.total (computeRhoj c.m.N c.m.h c.roInit e1.1 e1.2)) i j) / 2) ∧
      e1.1 = List.zipWith (moveOne c.m w.F) w.el (w.el.map (moveFree c.m.dxi)) ∧
      (∀ ions, w.ions = some ions → e1.2 = some (List.zipWith (moveOne c.m w.F) ions (ions.map (moveFree c.m.dxi)))) := by
  unfold stepDxi at hr
  simp only [hd] at hr
  set a := predictor c w bFull bPrev with ha
  unfold predictor at ha
  simp only at ha
  set p1 := pushSorts c w.F w (freeSorts c w) with hp1
  set F1 := computeFields c.f w.F w.F bFull bPrev w.cur (rhojSorts c p1) with hF1
  set p2 := pushSorts c F1.2 w p1 with hp2
  have s1 := computeFields_spec c.f w.F w.F bFull bPrev w.cur (rhojSorts c p1) F1.1 F1.2 hF1.symm
  have s2 := computeFields_spec c.f F1.2 w.F bFull bPrev w.cur (rhojSorts c p2) a.2.1 a.2.2 (by rw [ha])
  have a1 : a.1 = p2 := by rw [ha]
  rw [a1] at hr
  subst hr
  refine ⟨p1, p2, F1.2, a.2.2, s2.2.2.2.2.2.2.2, rfl, ?_, ?_, rfl, s2.1, s2.2.1, s2.2.2.1, s2.2.2.2.1, s2.2.2.2.2.1, s2.2.2.2.2.2.1, s2.2.2.2.2.2.2.1, rfl, ?_, s1.1, s1.2.1, s1.2.2.1, s1.2.2.2.1, ?_, ?_, rfl, ?_⟩
  · intro ions hi
    have h1 : p1.2 = some (moveSort c.m w.F ions (ions.map (moveFree c.m.dxi))) := by simp only [hp1, pushSorts, freeSorts, hi, Option.map_some]
    have h2 : p2.2 = some (moveSort c.m F1.2 ions (moveSort c.m w.F ions (ions.map (moveFree c.m.dxi)))) := by simp only [hp2, pushSorts, hi, h1]
    refine ⟨_, h2, ?_⟩
    simp only [pushSorts, hi, h2]; rfl
  · intro hi
    simp only [pushSorts, hi]
  · intro ions hi
    have h1 : p1.2 = some (moveSort c.m w.F ions (ions.map (moveFree c.m.dxi))) := by simp only [hp1, pushSorts, freeSorts, hi, Option.map_some]
    refine ⟨_, h1, ?_⟩
    simp only [hp2, pushSorts, hi, h1]; rfl
  · intro i j; rw [(s1.2.2.2.2.2.2.2 i j).2.2.1, s1.2.2.2.2.1]; rfl
  · intro i j; rw [(s1.2.2.2.2.2.2.2 i j).2.2.2.2.2, s1.2.2.2.2.2.1]; rfl
  · intro ions hi
    simp only [hp1, pushSorts, freeSorts, hi, Option.map_some]; rfl

/-- C43: declustering changes a step only by applying the noise filter to the transverse momenta of the electrons at the end, before the currents are deposited; positions, charges, ions and fields are those of the step without it. -/
theorem step_declustered (c : SCfg) (d : NCfg) (hd : c.decl = some d) (w : W3) (bFull bPrev : ℤ → ℤ → ℝ) (r r0 : W3) (hr : r = stepDxi c w bFull bPrev)
    (hr0 : r0 = stepDxi { c with decl := none } w bFull bPrev) :
    r.F = r0.F ∧ r.ions = r0.ions ∧ r.el.length = r0.el.length ∧
    (∀ (k : ℕ) (h1 : k < r.el.length) (h2 : k < r0.el.length),
      r.el[k].x0 = r0.el[k].x0 ∧ r.el[k].y0 = r0.el[k].y0 ∧ r.el[k].x = r0.el[k].x ∧ r.el[k].y = r0.el[k].y ∧ r.el[k].pz = r0.el[k].pz ∧ r.el[k].q = r0.el[k].q ∧ r.el[k].m = r0.el[k].m) ∧
    (∀ (i j : ℕ) (hj : j < d.n) (h1 : i * d.n + j < r.el.length),
      r.el[i * d.n + j].px = (noiseFilter d (entry d.n r0.el Ptl.x) (entry d.n r0.el Ptl.y) ⟨entry d.n r0.el Ptl.px, entry d.n r0.el Ptl.py, w.chx, w.chy⟩).px i j ∧
      r.el[i * d.n + j].py = (noiseFilter d (entry d.n r0.el Ptl.x) (entry d.n r0.el Ptl.y) ⟨entry d.n r0.el Ptl.px, entry d.n r0.el Ptl.py, w.chx, w.chy⟩).py i j) ∧
    r.chx = chaotic d (entry d.n r0.el Ptl.x) ∧ r.chy = chaotic d (entry d.n r0.el Ptl.y) ∧
    r.cur = computeRhoj c.m.N c.m.h c.roInit r.el r.ions := by
  have e : predictor { c with decl := none } w bFull bPrev = predictor c w bFull bPrev := rfl
  unfold stepDxi at hr hr0
  simp only [hd] at hr
  simp only [e] at hr0
  set a := predictor c w bFull bPrev
  have e3 : pushSorts { c with decl := none } a.2.2 w a.1 = pushSorts c a.2.2 w a.1 := rfl
  rw [e3] at hr0
  set p3 := pushSorts c a.2.2 w a.1
  subst hr hr0
  refine ⟨rfl, rfl, by simp [filterSort], ?_, ?_, rfl, rfl, rfl⟩
  · intro k h1 h2
    simp [filterSort]
  · intro i j hj h1
    have q1 : (i * d.n + j) / d.n = i := by
      rw [Nat.mul_comm, Nat.mul_add_div (by omega), Nat.div_eq_of_lt hj, Nat.add_zero]
    have q2 : (i * d.n + j) % d.n = j := by
      rw [Nat.mul_comm, Nat.mul_add_mod, Nat.mod_eq_of_lt hj]
    simp only [filterSort, List.getElem_mapIdx, q1, q2, and_self]

/-- C43: in a run every layer is computed from the state of the layer before, the beam density of this layer and that of the layer before. -/
theorem run_layer (c : SCfg) (w : W3) (bPrev : ℤ → ℤ → ℝ) (bs : List (ℤ → ℤ → ℝ)) (b : ℤ → ℤ → ℝ) :
    runLayers c w bPrev (bs ++ [b]) = stepDxi c (runLayers c w bPrev bs) b (bs.getLastD bPrev) := by
  induction bs generalizing w bPrev with
  | nil => rfl
  | cons a bs ih =>
    rw [List.cons_append, runLayers, ih, runLayers]
    congr 1
    cases bs <;> rfl

end Lcode.Plasma3D
