import Verif.Fp.PlasmaWorld

/-!
C72, continued: a plasma with a background of ions at rest stays at rest bit by bit (lcode/plasma/solver.py with move.py, rhoj.py, fields.py), in doubles.
-/

namespace Lcode.Fp

open Lcode.Py

/-! ### The push of a particle at rest -/

theorem fl_zero' : fl 0 = 0 := fl_exact ⟨0, 0, by norm_num, by norm_num⟩

theorem gamma_at_rest {m : ℚ} (hm : IsFloat m) (hp : 0 ≤ m) : gammaF m 0 0 0 = m := by
  unfold gammaF
  simp only [mul_zero, fl_zero', add_zero, fl_fl]
  exact sqrtF_square hm hp

theorem three_zero (n jc : ℕ) (l : ℚ) (F : ℕ → ℚ) (hF : ∀ i, F i = 0) : threeF n jc l F = 0 := by
  unfold threeF; simp only [hF, mul_zero, fl_zero', add_zero]

theorem interpEven_zero (n jc : ℕ) (l : ℚ) (F : ℕ → ℚ) (hF : ∀ i, F i = 0) : interpEvenF n jc l F = 0 := by
  unfold interpEvenF; split <;> simp [three_zero n jc l F hF]

theorem interpOdd_zero (n jc : ℕ) (l : ℚ) (F : ℕ → ℚ) (hF : ∀ i, F i = 0) : interpOddF n jc l F = 0 := by
  unfold interpOddF; split
  · rfl
  · split
    · simp only [hF, mul_zero, fl_zero', add_zero]
    · exact three_zero n jc l F hF

theorem interpNoise_zero (e : EnvF) (jc : ℕ) (l : ℚ) (h : ∀ i, e.noise i = 0) : interpNoiseF e jc l = 0 := by
  unfold interpNoiseF; simp [h]

/-- C72: without electric field a particle at rest comes back bit by bit the same from a push, whatever the magnetic field and the step. -/
theorem push_at_rest_doubles (e : EnvF) (hE : ∀ i, e.F.Er i = 0 ∧ e.F.Ef i = 0 ∧ e.F.Ez i = 0) (hN : ∀ i, e.noise i = 0)
    (m : ℚ) (hm : IsFloat m) (hp : 0 < m) (r q : ℚ) (hr : IsFloat r) (h0 : 0 ≤ r) (h1 : r ≤ e.R) (dxi : ℚ) :
    moveOneF e m ⟨r, 0, 0, 0, q⟩ dxi = ⟨⟨r, 0, 0, 0, q⟩, 0, fl (m * fl (dxi / m))⟩ := by
  have hx : ∀ jc l, fl (interpOddF e.n jc l e.F.Er + interpNoiseF e jc l) = 0 := by
    intro jc l
    rw [interpOdd_zero _ _ _ _ fun i => (hE i).1, interpNoise_zero e _ _ hN, add_zero, fl_zero']
  have hy : ∀ jc l, interpOddF e.n jc l e.F.Ef = 0 := fun jc l => interpOdd_zero _ _ _ _ fun i => (hE i).2.1
  have hz : ∀ jc l, interpEvenF e.n jc l e.F.Ez = 0 := fun jc l => interpEven_zero _ _ _ _ fun i => (hE i).2.2
  have hg := gamma_at_rest hm hp.le
  have hs : sqrtF (fl (fl (r * r))) = r := by rw [fl_fl, sqrtF_square hr h0]
  unfold moveOneF
  simp only [hg, if_neg hp.ne', sub_zero, fl_exact hm, zero_mul, fl_zero', zero_div, add_zero, fl_exact hr]
  rw [if_neg (not_lt.mpr h0), if_neg (not_lt.mpr h1)]
  unfold moveKickF
  simp only [hx, hy, hz, kickXF, kickYF, kickZF, mul_zero, zero_mul, fl_zero', add_zero, sub_zero, zero_div, hg, if_neg hp.ne', fl_exact hm, fl_exact hr]
  unfold moveFinishF wallF
  simp only [mul_zero, zero_mul, fl_zero', add_zero, hs, neg_zero, sub_self, sub_zero, zero_div, abs_zero, max_self, ite_self, if_neg (not_lt.mpr h0), gt_iff_lt, if_neg (not_lt.mpr h1), not_lt.mpr h0, not_lt.mpr h1, or_self, if_false]

/-! ### Deposition -/

/-- The particle without its age. -/
def PPF.still (p : PPF) : PPF := { p with age := 0 }

/-- Two lists of particles that agree bit by bit except possibly in the ages. -/
def SameF (a b : List PPF) : Prop := a.map PPF.still = b.map PPF.still

theorem accumulate_still (h : ℚ) (n : ℤ) (even : Bool) (amount : PPF → ℚ) (ha : ∀ p, amount p.still = amount p) (ps : List PPF) :
    accumulateF h n even amount (ps.map PPF.still) = accumulateF h n even amount ps := by
  unfold accumulateF
  rw [List.flatMap_map]
  simp only [ha]
  rfl

theorem row_same_doubles (h : ℚ) (ppc n : ℕ) {a b : List PPF} (hs : SameF a b) : rhojRowF h ppc n a = rhojRowF h ppc n b := by
  have key : ∀ ps, rhojRowF h ppc n (ps.map PPF.still) = rhojRowF h ppc n ps := by
    intro ps
    unfold rhojRowF
    rw [accumulate_still h n true _ (fun p => rfl), accumulate_still h n false _ (fun p => rfl), accumulate_still h n false _ (fun p => rfl), accumulate_still h n true _ (fun p => rfl)]
  rw [← key a, ← key b, show a.map PPF.still = b.map PPF.still from hs]

theorem sumF_zero (l : List ℚ) (h : ∀ x ∈ l, x = 0) : sumF 0 l = 0 := by
  induction l with
  | nil => rfl
  | cons a l ih =>
    have := h a List.mem_cons_self
    unfold sumF at *
    rw [List.foldl_cons, this, add_zero, fl_zero']
    exact ih fun x hx => h x (List.mem_cons_of_mem _ hx)

theorem accumulate_zero (h : ℚ) (n : ℤ) (even : Bool) (amount : PPF → ℚ) (ps : List PPF) (ha : ∀ p ∈ ps, amount p = 0) (i : ℤ) : accumulateF h n even amount ps i = 0 := by
  unfold accumulateF
  rw [addAtF_apply]
  apply sumF_zero
  intro x hx
  unfold atNode at hx
  simp only [List.mem_map, List.mem_filter, List.mem_flatMap] at hx
  obtain ⟨iv, ⟨⟨p, hp, t, -, e⟩, -⟩, rfl⟩ := hx
  rw [← e, ha p hp, zero_mul, fl_zero', mul_zero]

/-- C72: particles at rest carry no current, bit by bit. -/
theorem no_current_doubles (h : ℚ) (ppc n : ℕ) (ps : List PPF) (hp : ∀ p ∈ ps, p.pr = 0 ∧ p.pf = 0 ∧ p.pz = 0) (i : ℕ) :
    (rhojRowF h ppc n ps).jr i = 0 ∧ (rhojRowF h ppc n ps).jf i = 0 ∧ (rhojRowF h ppc n ps).jz i = 0 := by
  unfold rhojRowF
  refine ⟨?_, ?_, ?_⟩
  · simp only [accumulate_zero h n false (fun p => fl (chargeF p * p.pr)) ps (fun p hp' => by rw [(hp p hp').1, mul_zero, fl_zero']), ite_self, zero_div, fl_zero']
  · simp only [accumulate_zero h n false (fun p => fl (chargeF p * p.pf)) ps (fun p hp' => by rw [(hp p hp').2.1, mul_zero, fl_zero']), ite_self, zero_div, fl_zero']
  · simp only [accumulate_zero h n true (fun p => fl (chargeF p * p.pz)) ps (fun p hp' => by rw [(hp p hp').2.2, mul_zero, fl_zero']), ite_self, zero_div, fl_zero']

/-! ### Fields without sources -/

theorem sweep_zero (rhs pf : ℕ → ℚ) (h : ℚ) (hr : ∀ i, rhs i = 0) (k : ℕ) : (sweepFwdF rhs pf h k).2 = 0 := by
  induction k with
  | zero => rfl
  | succ k ih => simp only [sweepFwdF, rowDF, hr, ih, mul_zero, zero_mul, fl_zero', sub_zero, add_zero, neg_zero, zero_div]

theorem solve_zero (rhs pf : ℕ → ℚ) (h : ℚ) (bc : ℚ × ℚ) (nr : ℕ) (hr : ∀ i, rhs i = 0) (i : ℕ) : tridiagonalSolveF rhs pf h bc nr i = 0 := by
  unfold tridiagonalSolveF
  generalize nr - i = k
  induction k with
  | zero => simp only [sweepBackF, hr, sweep_zero rhs pf h hr, mul_zero, fl_zero', sub_zero, add_zero, neg_zero, zero_div]
  | succ k ih => simp only [sweepBackF, ih, sweep_zero rhs pf h hr, mul_zero, zero_mul, fl_zero', sub_zero, add_zero]

theorem term_zero (y : ℕ → ℚ) (dx : ℚ) (hy : ∀ i, y i = 0) (k : ℕ) : termF y dx k = 0 := by
  unfold termF; simp only [hy, add_zero, fl_zero', zero_div, mul_zero]

theorem forward_zero (y : ℕ → ℚ) (dx : ℚ) (hy : ∀ i, y i = 0) (k : ℕ) : cumForwardF y dx k = 0 := by
  rw [forward_sum]
  apply sumF_zero
  intro x hx
  obtain ⟨m, -, rfl⟩ := List.mem_map.mp hx
  exact term_zero y dx hy m

theorem backward_zero (y : ℕ → ℚ) (dx : ℚ) (hy : ∀ i, y i = 0) (last i : ℕ) : cumBackwardF y dx last i = 0 := by
  unfold cumBackwardF
  rw [back_sum]
  apply sumF_zero
  intro x hx
  obtain ⟨m, -, rfl⟩ := List.mem_map.mp hx
  simp only [term_zero y dx hy, neg_zero]

/-- All fields zero. -/
def FldsF.Quiet (F : FldsF) : Prop := ∀ i, F.Er i = 0 ∧ F.Ef i = 0 ∧ F.Ez i = 0 ∧ F.Bf i = 0 ∧ F.Bz i = 0

/-- Electrons and ions cancel and there is no current. -/
def CursF.Quiet (c : CursF) : Prop := ∀ i, c.ion.rho i = -c.el.rho i ∧ c.el.jr i = 0 ∧ c.el.jf i = 0 ∧ c.el.jz i = 0 ∧ c.ion.jr i = 0 ∧ c.ion.jf i = 0 ∧ c.ion.jz i = 0

theorem avg_quiet {F G : FldsF} (hF : F.Quiet) (hG : G.Quiet) : (F.avg G).Quiet := by
  intro i
  obtain ⟨a1, a2, a3, a4, a5⟩ := hF i
  obtain ⟨b1, b2, b3, b4, b5⟩ := hG i
  simp only [FldsF.avg, avgF, a1, a2, a3, a4, a5, b1, b2, b3, b4, b5, add_zero, fl_zero', zero_div, and_self]

/-- C72: without charge, current and beam the new fields are zero bit by bit, at any step. -/
theorem fields_quiet_doubles (h : ℚ) (M : ℕ) (F Fprev : FldsF) (rhoBeam : ℕ → ℚ) (prev cur : CursF) (dxi : ℚ)
    (hF : F.Quiet) (hG : Fprev.Quiet) (hp : prev.Quiet) (hc : cur.Quiet) (hb : ∀ i, rhoBeam i = 0) :
    (computeFieldsF h M F Fprev rhoBeam prev cur dxi).1.Quiet ∧ (computeFieldsF h M F Fprev rhoBeam prev cur dxi).2.Quiet := by
  have s1 : ∀ i, sum2F cur.el.rho cur.ion.rho i = 0 := fun i => by unfold sum2F; rw [(hc i).1, add_neg_cancel, fl_zero']
  have s2 : ∀ i, sum2F cur.el.jr cur.ion.jr i = 0 := fun i => by unfold sum2F; rw [(hc i).2.1, (hc i).2.2.2.2.1, add_zero, fl_zero']
  have s3 : ∀ i, sum2F cur.el.jf cur.ion.jf i = 0 := fun i => by unfold sum2F; rw [(hc i).2.2.1, (hc i).2.2.2.2.2.1, add_zero, fl_zero']
  have s4 : ∀ i, sum2F cur.el.jz cur.ion.jz i = 0 := fun i => by unfold sum2F; rw [(hc i).2.2.2.1, (hc i).2.2.2.2.2.2, add_zero, fl_zero']
  have s5 : ∀ i, sum2F prev.el.jr prev.ion.jr i = 0 := fun i => by unfold sum2F; rw [(hp i).2.1, (hp i).2.2.2.2.1, add_zero, fl_zero']
  have s6 : ∀ i, sum2F prev.el.jf prev.ion.jf i = 0 := fun i => by unfold sum2F; rw [(hp i).2.2.1, (hp i).2.2.2.2.2.1, add_zero, fl_zero']
  have hA := avg_quiet hF hG
  have er : ∀ i, (computeFieldsF h M F Fprev rhoBeam prev cur dxi).1.Er i = 0 := by
    intro i
    refine solve_zero _ _ _ _ _ (fun k => ?_) i
    unfold erRightF
    simp only [s1, s2, s5, hb, (hA _).1, add_zero, sub_zero, fl_zero', zero_div, mul_zero, ite_self]
  have main : (computeFieldsF h M F Fprev rhoBeam prev cur dxi).1.Quiet := by
    intro i
    refine ⟨er i, ?_, ?_, ?_, ?_⟩
    · refine solve_zero _ _ _ _ _ (fun k => ?_) i
      unfold efRightF
      simp only [s3, s6, (hA _).2.1, sub_zero, fl_zero', zero_div, mul_zero, ite_self]
    · exact backward_zero _ _ s2 M i
    · have : ∀ k, (computeFieldsF h M F Fprev rhoBeam prev cur dxi).1.Bf k = computeBfF (sum2F cur.el.rho cur.ion.rho) (sum2F cur.el.jz cur.ion.jz) (computeFieldsF h M F Fprev rhoBeam prev cur dxi).1.Er h k := fun k => rfl
      rw [this]
      unfold computeBfF
      rw [er i, forward_zero _ h (fun k => by rw [s1, s4, sub_zero, fl_zero', mul_zero, fl_zero'])]
      simp only [zero_div, fl_zero', ite_self, sub_zero]
    · have b0 : ∀ k, cumBackwardF (fun k => -sum2F cur.el.jf cur.ion.jf k) h M k = 0 := fun k => backward_zero _ h (fun k => by rw [s3, neg_zero]) M k
      show computeBzF (sum2F cur.el.jf cur.ion.jf) h M i = 0
      unfold computeBzF
      simp only [b0]
      rw [sumF_zero]
      · simp only [zero_div, fl_zero', sub_zero]
      · intro x hx
        obtain ⟨m, -, rfl⟩ := List.mem_map.mp hx
        rw [mul_zero, fl_zero']
  exact ⟨main, avg_quiet main hG⟩

/-! ### Any number of layers -/

/-- Particles at rest in the window; all numbers are doubles. -/
def RestF (R : ℚ) (ps : List PPF) : Prop :=
  ∀ p ∈ ps, IsFloat p.m ∧ 0 < p.m ∧ p.q ≠ 0 ∧ IsFloat p.r ∧ 0 ≤ p.r ∧ p.r ≤ R ∧ p.pr = 0 ∧ p.pf = 0 ∧ p.pz = 0

theorem RestF.same {R : ℚ} {a b : List PPF} (h : RestF R b) (hs : SameF a b) : RestF R a := by
  intro p hp
  have : p.still ∈ b.map PPF.still := by
    rw [← show a.map PPF.still = b.map PPF.still from hs]
    exact List.mem_map_of_mem hp
  obtain ⟨p', h1, h2⟩ := List.mem_map.mp this
  have := h p' h1
  simp only [PPF.still, PPF.mk.injEq] at h2
  obtain ⟨e1, e2, e3, e4, e5, e6, -⟩ := h2
  rw [← e1, ← e2, ← e3, ← e4, ← e5, ← e6]
  exact this

theorem SameF.trans {a b d : List PPF} (h1 : SameF a b) (h2 : SameF b d) : SameF a d := by
  unfold SameF at *; rw [h1, h2]

theorem move_same_doubles (e : EnvF) (hh : 0 < e.h) (hE : ∀ i, e.F.Er i = 0 ∧ e.F.Ef i = 0 ∧ e.F.Ez i = 0) (hN : ∀ i, e.noise i = 0)
    (step : ℚ) (hs : 0 < step) (hf : IsFloat step) (ps : List PPF) (hp : RestF e.R ps) : SameF (ps.map (movePartF e step)) ps := by
  unfold SameF
  rw [List.map_map]
  apply List.map_congr_left
  intro p hp'
  obtain ⟨h1, h2, h3, h4, h5, h6, h7, h8, h9⟩ := hp p hp'
  have h0 : moveOneF e p.m ⟨p.r, p.pr, p.pf, p.pz, p.q⟩ step = ⟨⟨p.r, 0, 0, 0, p.q⟩, 0, fl (p.m * fl (step / p.m))⟩ := by
    rw [h7, h8, h9]; exact push_at_rest_doubles e hE hN p.m h1 h2 p.r p.q h4 h5 h6 step
  have hsp := single_push_doubles (moveOneF e p.m) (fun s => decide (s.q = 0)) e.h step hs hf ⟨p.r, p.pr, p.pf, p.pz, p.q⟩ p.age (by simpa using h3) (by rw [h0]; exact hh)
  simp only [Function.comp, movePartF, PPF.still]
  rw [hsp.1, h0]
  simp only
  rw [h7, h8, h9]

/-- `w` agrees with `w0` bit by bit except possibly in the ages of particles. -/
structure StillF (w0 w : WorldF) : Prop where
  el : SameF w.el w0.el
  ions : w.ions = w0.ions
  fields : w.F.Quiet
  cur : w.cur = w0.cur

/-- A plasma at rest in its background: no fields, the currents are those of its particles, ions cancel electrons. -/
structure NeutralF (c : CfgF) (w0 : WorldF) (ni : ℕ → ℚ) : Prop where
  el : RestF c.R w0.el
  ions : w0.ions = .background ni
  fields : w0.F.Quiet
  cur : w0.cur = computeRhojF c.h c.ppc (c.M + 1) w0.el w0.ions
  ni : ∀ i, ni i = -(rhojRowF c.h c.ppc (c.M + 1) w0.el).rho i

theorem NeutralF.quiet {c : CfgF} {w0 : WorldF} {ni : ℕ → ℚ} (h : NeutralF c w0 ni) : w0.cur.Quiet := by
  intro i
  rw [h.cur, h.ions]
  obtain ⟨a, b, d⟩ := no_current_doubles c.h c.ppc (c.M + 1) w0.el (fun p hp => ⟨(h.el p hp).2.2.2.2.2.2.1, (h.el p hp).2.2.2.2.2.2.2⟩) i
  exact ⟨h.ni i, a, b, d, rfl, rfl, rfl⟩

theorem moved_still (c : CfgF) (hh : 0 < c.h) (w0 : WorldF) (ni : ℕ → ℚ) (h0 : NeutralF c w0 ni) (w : WorldF) (hw : StillF w0 w)
    (F : FldsF) (hF : F.Quiet) (noise : ℕ → ℚ) (hN : ∀ i, noise i = 0) (step : ℚ) (hs : 0 < step) (hf : IsFloat step) :
    SameF (w.el.map (movePartF (c.env F noise) step)) w0.el ∧ moveIonsF (c.env F noise) step w.ions = w0.ions ∧
      computeRhojF c.h c.ppc (c.M + 1) (w.el.map (movePartF (c.env F noise) step)) (moveIonsF (c.env F noise) step w.ions) = w0.cur := by
  have h1 : SameF (w.el.map (movePartF (c.env F noise) step)) w0.el :=
    (move_same_doubles (c.env F noise) hh (fun i => ⟨(hF i).1, (hF i).2.1, (hF i).2.2.1⟩) hN step hs hf w.el (h0.el.same hw.el)).trans hw.el
  have h2 : moveIonsF (c.env F noise) step w.ions = w0.ions := by rw [hw.ions, h0.ions]; rfl
  refine ⟨h1, h2, ?_⟩
  rw [h2, h0.cur, h0.ions]
  unfold computeRhojF
  rw [row_same_doubles c.h c.ppc (c.M + 1) h1]

theorem noise_off_doubles (n : ℕ) (cur : CursF) (i : ℕ) : noiseAmplitudeF n cur false i = 0 := by
  unfold noiseAmplitudeF; simp

theorem advance_still_doubles (c : CfgF) (hh : 0 < c.h) (hd : c.decl = false) (w0 : WorldF) (ni : ℕ → ℚ) (h0 : NeutralF c w0 ni) (w : WorldF) (hw : StillF w0 w)
    (rhoBeam : ℕ → ℚ) (hb : ∀ i, rhoBeam i = 0) (step : ℚ) (hs : 0 < step) (hf : IsFloat step) : StillF w0 (advanceF c rhoBeam w step) := by
  have hN : ∀ cur i, noiseAmplitudeF (c.M + 1) cur c.decl i = 0 := fun cur i => by rw [hd]; exact noise_off_doubles _ cur i
  have hp : StillF w0 (predictF c w step) := by
    obtain ⟨a, b, d⟩ := moved_still c hh w0 ni h0 w hw w.F hw.fields _ (hN w.cur) step hs hf
    exact ⟨a, b, hw.fields, d⟩
  unfold advanceF
  generalize c.corrector = k
  induction k with
  | zero => exact hp
  | succ k ih =>
    rw [Function.iterate_succ_apply']
    generalize (correctF c rhoBeam w step)^[k] (predictF c w step) = t at ih
    have q := fields_quiet_doubles c.h c.M t.F w.F rhoBeam w.cur t.cur step ih.fields hw.fields (by rw [hw.cur]; exact h0.quiet) (by rw [ih.cur]; exact h0.quiet) hb
    obtain ⟨a, b, d⟩ := moved_still c hh w0 ni h0 w hw _ q.2 _ (hN t.cur) step hs hf
    exact ⟨a, b, q.1, d⟩

/-- C72, for any plasma at rest in its background. -/
theorem neutral_stays_doubles (c : CfgF) (hh : 0 < c.h) (hd : c.decl = false) (hm : c.depth ≤ 15) (L : ℚ) (hL : 0 < L) (hf : IsFloat L) (w0 : WorldF) (ni : ℕ → ℚ) (h0 : NeutralF c w0 ni)
    (rhos : List (ℕ → ℚ)) (hb : ∀ rho ∈ rhos, ∀ i, rho i = 0) : ∃ w, layersWF c L rhos w0 = some w ∧ StillF w0 w := by
  have fold : ∀ rho : ℕ → ℚ, (∀ i, rho i = 0) → ∀ xs : List ℚ, (∀ x ∈ xs, 0 < x ∧ IsFloat x) → ∀ w, StillF w0 w → StillF w0 (xs.foldl (advanceF c rho) w) := by
    intro rho hr xs
    induction xs with
    | nil => intro _ w hw; exact hw
    | cons x xs ih =>
      intro hx w hw
      have := hx x List.mem_cons_self
      exact ih (fun y hy => hx y (List.mem_cons_of_mem _ hy)) _ (advance_still_doubles c hh hd w0 ni h0 w hw rho hr x this.1 this.2)
  have gen : ∀ rhos : List (ℕ → ℚ), (∀ rho ∈ rhos, ∀ i, rho i = 0) → ∀ w, StillF w0 w → ∃ w', layersWF c L rhos w = some w' ∧ StillF w0 w' := by
    intro rhos
    induction rhos with
    | nil => intro _ w hw; exact ⟨w, rfl, hw⟩
    | cons rho rest ih =>
      intro hb w hw
      obtain ⟨ys, h1, -, h3, -⟩ := layer_covered_doubles (needRefineF c) (advanceF c rho) c.depth hm w L hL hf
      have h1' : stepDxiF c rho L w = _ := h1 _ le_rfl
      rw [layersWF, h1']
      refine ih (fun r hr => hb r (List.mem_cons_of_mem _ hr)) _ (fold rho (hb rho List.mem_cons_self) _ ?_ w hw)
      intro x hx
      obtain ⟨y, hy, rfl⟩ := List.mem_map.mp hx
      exact ⟨(h3 y hy).2.2.1, (h3 y hy).1⟩
  exact gen rhos hb w0 ⟨rfl, rfl, h0.fields, rfl⟩

/-! ### The initial plasma -/

/-- The initial positions are inside the window. -/
theorem place_in_window {R h : ℚ} (hR : IsFloat R) (hR0 : 0 < R) {k ppc : ℕ} (hk : pyInt (fl (R / h)) = k) (h2 : k * ppc ≤ 2 ^ 52) (i : ℕ) (hi : i < k * ppc) :
    0 ≤ placeF R h ppc i ∧ placeF R h ppc i ≤ R := by
  have hn : (0 : ℚ) < (k * ppc : ℕ) := by exact_mod_cast (by omega : 0 < k * ppc)
  have e : ((pyInt (fl (R / h)) * ppc : ℤ) : ℚ) = (k * ppc : ℕ) := by rw [hk]; push_cast; rfl
  unfold placeF
  rw [e]
  have hi' : ((i : ℕ) : ℚ) + 1 ≤ (k * ppc : ℕ) := by exact_mod_cast (by omega : i + 1 ≤ k * ppc)
  have h2' : ((k * ppc : ℕ) : ℚ) ≤ 2 ^ 52 := by exact_mod_cast h2
  generalize ((k * ppc : ℕ) : ℚ) = n at *
  have hi0 : (0 : ℚ) ≤ i := Nat.cast_nonneg i
  have hq : 0 ≤ R / n := by positivity
  refine ⟨fl_nonneg (mul_nonneg (by linarith) (fl_nonneg hq)), ?_⟩
  conv_rhs => rw [← fl_exact hR]
  apply fl_mono
  have h1 := fl_hi hq
  calc ((i : ℚ) + 1 / 2) * fl (R / n) ≤ (n - 1 / 2) * (R / n * (1 + u)) := mul_le_mul (by linarith) h1 (fl_nonneg hq) (by linarith)
    _ ≤ R := by
      rw [show (n - 1 / 2) * (R / n * (1 + u)) = R * ((n - 1 / 2) * (1 + u) / n) by field_simp]
      have : (n - 1 / 2) * (1 + u) / n ≤ 1 := by
        rw [div_le_one hn]
        unfold u
        linarith
      nlinarith

theorem placeF_mono {R h : ℚ} (hR0 : 0 < R) {k ppc : ℕ} (hk : pyInt (fl (R / h)) = k) (hn : 0 < k * ppc) {i j : ℕ} (hij : i ≤ j) : placeF R h ppc i ≤ placeF R h ppc j := by
  have hn' : (0 : ℚ) < (k * ppc : ℕ) := by exact_mod_cast hn
  have e : ((pyInt (fl (R / h)) * ppc : ℤ) : ℚ) = (k * ppc : ℕ) := by rw [hk]; push_cast; rfl
  unfold placeF
  rw [e]
  apply fl_mono
  have : (i : ℚ) ≤ j := by exact_mod_cast hij
  exact mul_le_mul_of_nonneg_right (by linarith) (fl_nonneg (by positivity))

/-- The electrons of init_plasma are at rest in the window, with positive mass and with charge. -/
theorem init_rest_doubles (c : CfgF) (hR : IsFloat c.R) (hR0 : 0 < c.R) (h1 : 2 ≤ c.M * c.ppc) (h2 : c.M * c.ppc ≤ 2 ^ 52) (coef : ℚ → ℚ) (hco : ∀ r, 0 ≤ coef r) :
    RestF c.R (initElectronsF c coef) := by
  have hk : pyInt (fl (c.R / c.h)) = c.M := by
    unfold CfgF.M at h1 ⊢
    have : 0 < (pyInt (fl (c.R / c.h))).toNat := Nat.pos_of_ne_zero fun h => by rw [h] at h1; omega
    omega
  intro p hp
  unfold initElectronsF at hp
  simp only [List.mem_filter, List.mem_map, List.mem_range, decide_eq_true_eq] at hp
  obtain ⟨⟨r, ⟨i, hi, rfl⟩, rfl⟩, hq⟩ := hp
  obtain ⟨r0, r1⟩ := place_in_window hR hR0 hk h2 i hi
  have g0 : ((List.range (c.M * c.ppc)).map fun i => placeF c.R c.h c.ppc i).getD 0 0 = placeF c.R c.h c.ppc 0 := by
    rw [List.getD_eq_getElem?_getD, List.getElem?_map, List.getElem?_range (by omega)]; rfl
  have g1 : ((List.range (c.M * c.ppc)).map fun i => placeF c.R c.h c.ppc i).getD 1 0 = placeF c.R c.h c.ppc 1 := by
    rw [List.getD_eq_getElem?_getD, List.getElem?_map, List.getElem?_range (by omega)]; rfl
  simp only [g0, g1] at hq ⊢
  have hd : 0 ≤ fl (placeF c.R c.h c.ppc 1 - placeF c.R c.h c.ppc 0) := fl_nonneg (sub_nonneg.mpr (placeF_mono hR0 hk (by omega) (by norm_num)))
  have hpi : 0 ≤ fl (2 * piF) := fl_nonneg (by unfold piF; norm_num)
  generalize fl (placeF c.R c.h c.ppc 1 - placeF c.R c.h c.ppc 0) = d at *
  have hw : 0 ≤ fl (fl (fl (2 * piF) * d) * placeF c.R c.h c.ppc i) := fl_nonneg (mul_nonneg (fl_nonneg (mul_nonneg hpi hd)) r0)
  generalize fl (fl (fl (2 * piF) * d) * placeF c.R c.h c.ppc i) = w at *
  have hx := mul_nonneg hw (hco (placeF c.R c.h c.ppc i))
  refine ⟨isFloat_fl _, ?_, hq, isFloat_fl _, r0, r1, by trivial⟩
  refine lt_of_le_of_ne (fl_nonneg hx) fun h => hq ?_
  rw [neg_mul, fl_neg, ← h, neg_zero]

theorem init_neutral_doubles (c : CfgF) (hR : IsFloat c.R) (hR0 : 0 < c.R) (h1 : 2 ≤ c.M * c.ppc) (h2 : c.M * c.ppc ≤ 2 ^ 52) (coef : ℚ → ℚ) (hco : ∀ r, 0 ≤ coef r) :
    NeutralF c (initWorldF c coef) (fun i => -(rhojRowF c.h c.ppc (c.M + 1) (initElectronsF c coef)).rho i) := by
  have hrest := init_rest_doubles c hR hR0 h1 h2 coef hco
  refine ⟨hrest, rfl, fun i => ⟨rfl, rfl, rfl, rfl, rfl⟩, ?_, fun i => rfl⟩
  have hj := no_current_doubles c.h c.ppc (c.M + 1) (initElectronsF c coef) (fun p hp => ⟨(hrest p hp).2.2.2.2.2.2.1, (hrest p hp).2.2.2.2.2.2.2⟩)
  unfold initWorldF computeRhojF
  simp only
  congr 1
  generalize rhojRowF c.h c.ppc (c.M + 1) (initElectronsF c coef) = row at hj
  obtain ⟨rho, jr, jf, jz⟩ := row
  simp only [CurF.mk.injEq, true_and]
  exact ⟨funext fun i => (hj i).1.symm, funext fun i => (hj i).2.1.symm, funext fun i => (hj i).2.2.symm⟩

/-- C72, main theorem. In doubles: with a background of ions, any density profile, any external magnetic field, any sensitivity and any number of corrector steps, the plasma without a beam
stays as it was initialized through any number of layers: every particle keeps its position, momentum, charge and mass bit by bit, the fields are exactly zero and the densities do not change by a bit. -/
theorem quiet_start_doubles (c : CfgF) (hh : 0 < c.h) (hd : c.decl = false) (hm : c.depth ≤ 15) (hR : IsFloat c.R) (hR0 : 0 < c.R) (h1 : 2 ≤ c.M * c.ppc) (h2 : c.M * c.ppc ≤ 2 ^ 52)
    (coef : ℚ → ℚ) (hco : ∀ r, 0 ≤ coef r) (L : ℚ) (hL : 0 < L) (hf : IsFloat L) (rhos : List (ℕ → ℚ)) (hb : ∀ rho ∈ rhos, ∀ i, rho i = 0) :
    ∃ w, layersWF c L rhos (initWorldF c coef) = some w ∧
      w.el.map (fun p : PPF => (p.r, p.pr, p.pf, p.pz, p.q, p.m)) = (initWorldF c coef).el.map (fun p : PPF => (p.r, p.pr, p.pf, p.pz, p.q, p.m)) ∧
      (∀ p ∈ w.el, p.pr = 0 ∧ p.pf = 0 ∧ p.pz = 0) ∧
      (∀ i, w.F.Er i = 0 ∧ w.F.Ef i = 0 ∧ w.F.Ez i = 0 ∧ w.F.Bf i = 0 ∧ w.F.Bz i = 0) ∧ w.cur = (initWorldF c coef).cur ∧
      ∀ i, w.cur.el.rho i + w.cur.ion.rho i = 0 := by
  obtain ⟨w, e, s⟩ := neutral_stays_doubles c hh hd hm L hL hf _ _ (init_neutral_doubles c hR hR0 h1 h2 coef hco) rhos hb
  have hrest := (init_rest_doubles c hR hR0 h1 h2 coef hco).same s.el
  refine ⟨w, e, ?_, fun p hp => (hrest p hp).2.2.2.2.2.2, s.fields, s.cur, ?_⟩
  · have : ∀ l : List PPF, l.map (fun p : PPF => (p.r, p.pr, p.pf, p.pz, p.q, p.m)) = (l.map PPF.still).map (fun p : PPF => (p.r, p.pr, p.pf, p.pz, p.q, p.m)) := by
      intro l; rw [List.map_map]; rfl
    rw [this w.el, this (initWorldF c coef).el, show w.el.map PPF.still = (initWorldF c coef).el.map PPF.still from s.el]
  · intro i
    rw [s.cur]
    exact add_neg_cancel _

/-! ### Particles stay in the window -/

/-- A double in the window. -/
def InWindow (R r : ℚ) : Prop := IsFloat r ∧ 0 ≤ r ∧ r ≤ R

theorem discarded_in_window {R : ℚ} (hR : IsFloat R) (h0 : 0 ≤ R) : InWindow R (discardedF R).r := by
  simp only [discardedF, fl_half hR]
  exact ⟨isFloat_half hR, by linarith, by linarith⟩

theorem isFloat_neg' {x : ℚ} (hx : IsFloat x) : IsFloat (-x) := by
  obtain ⟨m, e, hm, rfl⟩ := hx
  exact ⟨-m, e, by rwa [abs_neg], by push_cast; ring⟩

theorem finish_in_window (e : EnvF) (hR : IsFloat e.R) (h0 : 0 ≤ e.R) (r rPred rHalf xN dy pxN pyN pzN q age : ℚ) :
    InWindow e.R (moveFinishF e r rPred rHalf xN dy pxN pyN pzN q age).s.r ∧
      ((moveFinishF e r rPred rHalf xN dy pxN pyN pzN q age).s.q = q ∨ (moveFinishF e r rPred rHalf xN dy pxN pyN pzN q age).s.q = 0) := by
  unfold moveFinishF
  simp only
  have hw : ∀ a b c : ℚ, IsFloat (wallF e.R (sqrtF (fl (fl (xN * xN) + fl (dy * dy)))) a b c).1 := by
    intro a b c
    unfold wallF
    split
    · exact isFloat_neg' (isFloat_sqrtF _)
    · split
      · exact isFloat_fl _
      · exact isFloat_sqrtF _
  generalize hp' : wallF _ _ _ _ _ = p
  have hf : IsFloat p.1 := by rw [← hp']; exact hw _ _ _
  split
  · exact ⟨discarded_in_window hR h0, Or.inr rfl⟩
  · rename_i hp
    rw [not_or, not_lt, not_lt] at hp
    split
    · exact ⟨discarded_in_window hR h0, Or.inr rfl⟩
    · exact ⟨⟨hf, hp.2, hp.1⟩, Or.inl rfl⟩

theorem kick_in_window (e : EnvF) (hR : IsFloat e.R) (h0 : 0 ≤ e.R) (r rPred rHalf px py pz gm dl q m dxi : ℚ) :
    InWindow e.R (moveKickF e r rPred rHalf px py pz gm dl q m dxi).s.r ∧
      ((moveKickF e r rPred rHalf px py pz gm dl q m dxi).s.q = q ∨ (moveKickF e r rPred rHalf px py pz gm dl q m dxi).s.q = 0) := by
  unfold moveKickF
  simp only
  split
  · exact ⟨discarded_in_window hR h0, Or.inr rfl⟩
  · exact finish_in_window e hR h0 _ _ _ _ _ _ _ _ _ _

/-- C72: whatever the fields, the noise, the particle and the step, with rounding a push leaves the particle in the window, and either with its charge or with none. -/
theorem push_in_window_doubles (e : EnvF) (hR : IsFloat e.R) (h0 : 0 ≤ e.R) (m : ℚ) (s : PSF) (dxi : ℚ) :
    InWindow e.R (moveOneF e m s dxi).s.r ∧ ((moveOneF e m s dxi).s.q = s.q ∨ (moveOneF e m s dxi).s.q = 0) := by
  have hd : ∀ path age : ℚ, InWindow e.R (PushF.mk (discardedF e.R) path age).s.r ∧
      ((PushF.mk (discardedF e.R) path age).s.q = s.q ∨ (PushF.mk (discardedF e.R) path age).s.q = 0) :=
    fun path age => ⟨discarded_in_window hR h0, Or.inr rfl⟩
  unfold moveOneF
  simp only
  split
  · exact hd _ _
  · split
    · split
      · exact hd _ _
      · exact kick_in_window e hR h0 _ _ _ _ _ _ _ _ _ _ _
    · split
      · split
        · exact hd _ _
        · exact kick_in_window e hR h0 _ _ _ _ _ _ _ _ _ _ _
      · exact kick_in_window e hR h0 _ _ _ _ _ _ _ _ _ _ _

theorem subRun_keeps {S : Type} (mv : S → ℚ → PushF S) (gone : S → Bool) (h step : ℚ) (P : S → Prop) (hP : ∀ s x, P s → P (mv s x).s) (n : ℕ) :
    ∀ st : SubStF S, P st.s → P (subRunF mv gone h step n st).s := by
  induction n with
  | zero => intro st hs; exact hs
  | succ n ih =>
    intro st hs
    rw [subRunF]
    cases hst : subIterF mv gone h step st with
    | none => exact hs
    | some st' =>
      refine ih st' ?_
      unfold subIterF at hst
      split at hst
      · split at hst
        · exact absurd hst (by simp)
        · split at hst
          · simp only [Option.some.injEq] at hst; rw [← hst]; exact hs
          · simp only [Option.some.injEq] at hst; rw [← hst]; exact hP _ _ hs
      · exact absurd hst (by simp)

/-- In the window. -/
def InWinF (R : ℚ) (ps : List PPF) : Prop := ∀ p ∈ ps, InWindow R p.r

def IonsInWinF (R : ℚ) : IonsF → Prop
  | .mobile ps => InWinF R ps
  | .background _ => True

theorem move_in_window (e : EnvF) (hR : IsFloat e.R) (h0 : 0 ≤ e.R) (step : ℚ) (ps : List PPF) (hp : InWinF e.R ps) : InWinF e.R (ps.map (movePartF e step)) := by
  intro p hp'
  obtain ⟨x, hx, rfl⟩ := List.mem_map.mp hp'
  exact subRun_keeps (moveOneF e x.m) _ e.h step (fun s => InWindow e.R s.r) (fun s y _ => (push_in_window_doubles e hR h0 x.m s y).1) _ _ (hp x hx)

theorem moveIons_in_window (e : EnvF) (hR : IsFloat e.R) (h0 : 0 ≤ e.R) (step : ℚ) (i : IonsF) (hp : IonsInWinF e.R i) : IonsInWinF e.R (moveIonsF e step i) := by
  cases i with
  | mobile ps => exact move_in_window e hR h0 step ps hp
  | background ni => trivial

theorem advance_in_window (c : CfgF) (hR : IsFloat c.R) (h0 : 0 ≤ c.R) (rho : ℕ → ℚ) (w : WorldF) (hw : InWinF c.R w.el ∧ IonsInWinF c.R w.ions) (step : ℚ) :
    InWinF c.R (advanceF c rho w step).el ∧ IonsInWinF c.R (advanceF c rho w step).ions := by
  unfold advanceF
  cases c.corrector with
  | zero =>
    generalize hE : c.env w.F (noiseAmplitudeF (c.M + 1) w.cur c.decl) = e
    have hc : e.R = c.R := by rw [← hE]; rfl
    rw [Function.iterate_zero, id_eq]
    unfold predictF
    simp only [hE]
    rw [← hc] at hw hR h0 ⊢
    exact ⟨move_in_window e hR h0 step _ hw.1, moveIons_in_window e hR h0 step _ hw.2⟩
  | succ k =>
    rw [Function.iterate_succ_apply']
    generalize (correctF c rho w step)^[k] (predictF c w step) = t
    unfold correctF
    simp only
    generalize hE : c.env (computeFieldsF c.h c.M t.F w.F rho w.cur t.cur step).2 (noiseAmplitudeF (c.M + 1) t.cur c.decl) = e
    have hc : e.R = c.R := by rw [← hE]; rfl
    rw [← hc] at hw hR h0 ⊢
    exact ⟨move_in_window e hR h0 step _ hw.1, moveIons_in_window e hR h0 step _ hw.2⟩

/-- C72: with rounding, for every beam, every number of layers and all options (refinement depth at most 15): the loop over the layers ends and every plasma particle, electron or mobile ion, is in the window. -/
theorem layers_in_window_doubles (c : CfgF) (hR : IsFloat c.R) (h0 : 0 ≤ c.R) (hm : c.depth ≤ 15) (L : ℚ) (hL : 0 < L) (hf : IsFloat L) (rhos : List (ℕ → ℚ)) (w : WorldF)
    (hw : InWinF c.R w.el ∧ IonsInWinF c.R w.ions) : ∃ w', layersWF c L rhos w = some w' ∧ InWinF c.R w'.el ∧ IonsInWinF c.R w'.ions := by
  induction rhos generalizing w with
  | nil => exact ⟨w, rfl, hw⟩
  | cons rho rest ih =>
    obtain ⟨ys, h1, -⟩ := layer_covered_doubles (needRefineF c) (advanceF c rho) c.depth hm w L hL hf
    have h1' : stepDxiF c rho L w = _ := h1 _ le_rfl
    rw [layersWF, h1']
    apply ih
    generalize ys.map Prod.fst = xs
    clear h1 h1'
    induction xs generalizing w with
    | nil => exact hw
    | cons x xs ihx => exact ihx _ (advance_in_window c hR h0 rho w hw x)

/-! ### Findings and non-vacuity -/

/-- Window 1, cells of a half, one particle per cell. -/
def tinyCfg : CfgF := ⟨1 / 2, 1, 1, 3, 1 / 10, 3, 2, false, fun _ l => l⟩

/-- Finding: with mobile ions (mass 1836) the initial plasma is not neutral in doubles: the charge of an ion is divided by its mass and multiplied by it again (rhoj.py:34-40), which does not give the charge back.
The net charge density on the axis is not zero, so the plasma does not stay at rest bit by bit. -/
theorem mobile_not_neutral :
    (computeRhojF (1 / 2) 1 3 (initMobileF tinyCfg (fun _ => 1) 1836).el (initMobileF tinyCfg (fun _ => 1) 1836).ions).el.rho 0 +
      (computeRhojF (1 / 2) 1 3 (initMobileF tinyCfg (fun _ => 1) 1836).el (initMobileF tinyCfg (fun _ => 1) 1836).ions).ion.rho 0 ≠ 0 := by
  decide +kernel

/-- Non-vacuity: the plasma of this configuration has two electrons, and its density is not zero. -/
example : (initWorldF tinyCfg fun _ => 1).el.length = 2 ∧ (initWorldF tinyCfg fun _ => 1).cur.el.rho 1 < 0 := by decide +kernel

/-- Non-vacuity of the main theorem: seven layers in an external field. -/
example : ∃ w, layersWF tinyCfg (fl (1 / 10)) (List.replicate 7 fun _ => 0) (initWorldF tinyCfg fun _ => 1) = some w ∧ ∀ p ∈ w.el, p.pr = 0 ∧ p.pf = 0 ∧ p.pz = 0 := by
  have hM : tinyCfg.M * tinyCfg.ppc = 2 := by decide +kernel
  obtain ⟨w, h1, -, h2, -⟩ := quiet_start_doubles tinyCfg (by decide +kernel) rfl (by decide +kernel) ⟨1, 0, by norm_num, by norm_num [tinyCfg]⟩ (by decide +kernel) (by omega) (by omega)
    (fun _ => 1) (fun _ => zero_le_one) (fl (1 / 10)) (fl_pos (by norm_num)) (isFloat_fl _) (List.replicate 7 fun _ => 0) (fun rho h i => by rw [List.eq_of_mem_replicate h])
  exact ⟨w, h1, h2⟩

end Lcode.Fp
