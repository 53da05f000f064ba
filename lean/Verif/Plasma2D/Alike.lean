import Verif.Plasma2D.World

/-!
Property C60, the axisymmetric plasma: what a layer gives depends only on the particles without their ages and on the fields and currents at the nodes of the grid.
-/

namespace Lcode.Plasma2D

open Finset

/-! ### Specification -/

/-- Two sets of fields with the same values at the nodes `0..nr`. -/
def Flds.Agree (nr : ℕ) (f g : Flds) : Prop := ∀ i ≤ nr, f.Er i = g.Er i ∧ f.Ef i = g.Ef i ∧ f.Ez i = g.Ez i ∧ f.Bf i = g.Bf i ∧ f.Bz i = g.Bz i

/-- Two plasma states that cannot be told apart on the grid: the same particles up to their ages, the same fields and the same transverse currents at the nodes. -/
structure Alike (c : SolverCfg) (w w' : World) : Prop where
  el : SameParticles w.el w'.el
  ions : SameIons w.ions w'.ions
  fields : Flds.Agree c.M w.F w'.F
  cur : ∀ i ≤ c.M, w.cur.sum Cur.jr i = w'.cur.sum Cur.jr i ∧ w.cur.sum Cur.jf i = w'.cur.sum Cur.jf i

theorem Alike.trans {c : SolverCfg} {a b d : World} (h : Alike c a b) (h' : Alike c b d) : Alike c a d := by
  refine ⟨h.el.trans h'.el, h.ions.trans h'.ions, fun i hi => ?_, fun i hi => ?_⟩
  · obtain ⟨a1, a2, a3, a4, a5⟩ := h.fields i hi
    obtain ⟨b1, b2, b3, b4, b5⟩ := h'.fields i hi
    exact ⟨a1.trans b1, a2.trans b2, a3.trans b3, a4.trans b4, a5.trans b5⟩
  · exact ⟨(h.cur i hi).1.trans (h'.cur i hi).1, (h.cur i hi).2.trans (h'.cur i hi).2⟩

/-! ### One particle -/

theorem interpEven_agree (M : ℕ) (hM : 1 ≤ M) (jc : ℕ) (l : ℝ) (F G : ℕ → ℝ) (h : ∀ i ≤ M, F i = G i) : interpEven (M + 1) jc l F = interpEven (M + 1) jc l G := by
  unfold interpEven
  simp only [Nat.add_sub_cancel]
  by_cases h1 : jc ≠ M ∧ jc ≠ 0 ∧ M + 1 ≤ jc
  · rw [if_pos h1, if_pos h1]
  · rw [if_neg h1, if_neg h1]
    have hj : jc ≤ M := by omega
    have m1 : (if jc ≠ M ∧ jc = 0 then jc + 1 else jc - 1) ≤ M := by split_ifs <;> omega
    have m2 : (if jc = M then jc - 1 else jc + 1) ≤ M := by split_ifs <;> omega
    rw [h _ m1, h _ hj, h _ m2]

theorem interpOdd_agree (M : ℕ) (hM : 1 ≤ M) (jc : ℕ) (l : ℝ) (F G : ℕ → ℝ) (h : ∀ i ≤ M, F i = G i) : interpOdd (M + 1) jc l F = interpOdd (M + 1) jc l G := by
  unfold interpOdd
  simp only [Nat.add_sub_cancel]
  by_cases h1 : jc ≠ M ∧ jc ≠ 0 ∧ M + 1 ≤ jc
  · rw [if_pos h1, if_pos h1]
  · rw [if_neg h1, if_neg h1]
    have hj : jc ≤ M := by omega
    have m1 : (if jc ≠ M ∧ jc = 0 then jc + 1 else jc - 1) ≤ M := by split_ifs <;> omega
    have m2 : (if jc = M then jc - 1 else jc + 1) ≤ M := by split_ifs <;> omega
    rw [h _ m1, h _ hj, h _ m2]

theorem moveOne_agree (M : ℕ) (hM : 1 ≤ M) (F G : Flds) (noise : ℕ → ℝ) (h R : ℝ) (hFG : Flds.Agree M F G) (m : ℝ) (s : PState) (dxi : ℝ) :
    moveOne ⟨M + 1, F, noise, h, R⟩ m s dxi = moveOne ⟨M + 1, G, noise, h, R⟩ m s dxi := by
  have kick : ∀ r rPred rHalf px py pz gm dl q m dxi, moveKick ⟨M + 1, F, noise, h, R⟩ r rPred rHalf px py pz gm dl q m dxi = moveKick ⟨M + 1, G, noise, h, R⟩ r rPred rHalf px py pz gm dl q m dxi := by
    intro r rPred rHalf px py pz gm dl q m dxi
    unfold moveKick
    simp only
    rw [interpOdd_agree M hM _ _ F.Er G.Er fun i hi => (hFG i hi).1, interpOdd_agree M hM _ _ F.Ef G.Ef fun i hi => (hFG i hi).2.1, interpEven_agree M hM _ _ F.Ez G.Ez fun i hi => (hFG i hi).2.2.1,
      interpOdd_agree M hM _ _ F.Bf G.Bf fun i hi => (hFG i hi).2.2.2.1, interpEven_agree M hM _ _ F.Bz G.Bz fun i hi => (hFG i hi).2.2.2.2]
    rfl
  unfold moveOne
  simp only [kick]

/-- The age takes no part in the motion. -/
theorem subRun_age (mv : PState → ℝ → MoveResult) (h step : ℝ) (n : ℕ) (s : PState) (xi cur a a' : ℝ) :
    (subRun mv h step n ⟨s, xi, cur, a⟩).s = (subRun mv h step n ⟨s, xi, cur, a'⟩).s := by
  induction n generalizing s xi cur a a' with
  | zero => rfl
  | succ n ih =>
    unfold subRun subIter
    simp only
    by_cases h1 : xi ≤ 99999 / 100000 * step
    · simp only [if_pos h1]
      by_cases h2 : s.q = 0
      · simp only [if_pos h2]
      · simp only [if_neg h2]
        by_cases h3 : (mv s cur).path ≥ h ∧ cur / step > 1 / 10000
        · simp only [if_pos h3]; exact ih _ _ _ _ _
        · simp only [if_neg h3]; exact ih _ _ _ _ _
    · simp only [if_neg h1]

theorem moveSubstepped_age (mv : PState → ℝ → MoveResult) (h step : ℝ) (s : PState) (a a' : ℝ) : (moveSubstepped mv h step s a).s = (moveSubstepped mv h step s a').s := by
  unfold moveSubstepped
  exact subRun_age mv h step maxTurns s 0 step a a'

/-- A particle without age from its state. -/
def PState.asPart (s : PState) (m : ℝ) : PPart := ⟨s.r, s.pr, s.pf, s.pz, s.q, m, 0⟩

theorem movePart_asPart (e : Env) (step r pr pf pz q m a : ℝ) : (movePart e step ⟨r, pr, pf, pz, q, m, a⟩).still = (moveSubstepped (moveOne e m) e.h step ⟨r, pr, pf, pz, q⟩ a).s.asPart m := rfl

theorem movePart_alike (M : ℕ) (hM : 1 ≤ M) (F G : Flds) (noise : ℕ → ℝ) (h R : ℝ) (hFG : Flds.Agree M F G) (step : ℝ) (p p' : PPart) (hp : p.still = p'.still) :
    (movePart ⟨M + 1, F, noise, h, R⟩ step p).still = (movePart ⟨M + 1, G, noise, h, R⟩ step p').still := by
  obtain ⟨r, pr, pf, pz, q, m, a⟩ := p
  obtain ⟨r', pr', pf', pz', q', m', a'⟩ := p'
  simp only [PPart.still, PPart.mk.injEq] at hp
  obtain ⟨h1, h2, h3, h4, h5, h6, -⟩ := hp
  rw [movePart_asPart, movePart_asPart, moveSubstepped_age _ _ _ _ a 0, moveSubstepped_age _ _ _ _ a' 0, ← h1, ← h2, ← h3, ← h4, ← h5, ← h6]
  have e : moveOne ⟨M + 1, F, noise, h, R⟩ m = moveOne ⟨M + 1, G, noise, h, R⟩ m := by
    funext s x; exact moveOne_agree M hM F G noise h R hFG m s x
  rw [e]

theorem map_alike (M : ℕ) (hM : 1 ≤ M) (F G : Flds) (noise : ℕ → ℝ) (h R : ℝ) (hFG : Flds.Agree M F G) (step : ℝ) (ps ps' : List PPart) (hp : SameParticles ps ps') :
    SameParticles (ps.map (movePart ⟨M + 1, F, noise, h, R⟩ step)) (ps'.map (movePart ⟨M + 1, G, noise, h, R⟩ step)) := by
  induction ps generalizing ps' with
  | nil =>
    cases ps' with
    | nil => simp only [List.map_nil]; exact hp
    | cons p' ps' => simp [SameParticles] at hp
  | cons p ps ih =>
    cases ps' with
    | nil => simp [SameParticles] at hp
    | cons p' ps' =>
      simp only [SameParticles, List.map_cons, List.cons.injEq] at hp ⊢
      exact ⟨movePart_alike M hM F G noise h R hFG step p p' hp.1, ih ps' hp.2⟩

theorem moveAll_alike (c : SolverCfg) (hM : 1 ≤ c.M) (F G : Flds) (noise : ℕ → ℝ) (hFG : Flds.Agree c.M F G) (step : ℝ) (el el' : List PPart) (ions ions' : Ions) (h : SameParticles el el') (hi : SameIons ions ions') :
    SameParticles (moveAll c F noise step el ions).1 (moveAll c G noise step el' ions').1 ∧ SameIons (moveAll c F noise step el ions).2 (moveAll c G noise step el' ions').2 := by
  have hB : Flds.Agree c.M { F with Bz := fun i => F.Bz i + c.B0 } { G with Bz := fun i => G.Bz i + c.B0 } := fun i hi => by
    obtain ⟨a, b, d, e, f⟩ := hFG i hi
    exact ⟨a, b, d, e, by show F.Bz i + c.B0 = G.Bz i + c.B0; rw [f]⟩
  unfold moveAll
  simp only
  refine ⟨map_alike c.M hM _ _ noise c.h c.R hB step el el' h, ?_⟩
  cases ions <;> cases ions' <;> simp only [SameIons] at hi ⊢
  · exact map_alike c.M hM _ _ noise c.h c.R hB step _ _ hi
  · exact hi

/-! ### Fields -/

theorem sweepFwd_agree (rhs rhs' pf : ℕ → ℝ) (h : ℝ) (nr : ℕ) (hr : ∀ i, 1 ≤ i → i ≤ nr → rhs i = rhs' i) (k : ℕ) (hk : k ≤ nr) : sweepFwd rhs pf h k = sweepFwd rhs' pf h k := by
  induction k with
  | zero => rfl
  | succ k ih => unfold sweepFwd; simp only; rw [ih (by omega), hr (k + 1) (by omega) hk]

theorem tridiagonal_agree (rhs rhs' pf : ℕ → ℝ) (h : ℝ) (bc : ℝ × ℝ) (nr : ℕ) (hn : 1 ≤ nr) (hr : ∀ i, 1 ≤ i → i ≤ nr → rhs i = rhs' i) (i : ℕ) : tridiagonalSolve rhs pf h bc nr i = tridiagonalSolve rhs' pf h bc nr i := by
  have : ∀ k, sweepBack rhs pf h bc nr k = sweepBack rhs' pf h bc nr k := by
    intro k
    induction k with
    | zero => unfold sweepBack; rw [sweepFwd_agree rhs rhs' pf h nr hr (nr - 1) (by omega), hr nr hn le_rfl]
    | succ k ih => unfold sweepBack; simp only; rw [ih, sweepFwd_agree rhs rhs' pf h nr hr (nr - (k + 1)) (by omega)]
  exact this _

theorem computeFields_agree (h : ℝ) (nr : ℕ) (hn : 1 ≤ nr) (f f' prev prev' : Flds) (rb : ℕ → ℝ) (cp cp' cur : Currents) (dxi : ℝ) (hf : Flds.Agree nr f f') (hp : Flds.Agree nr prev prev')
    (hc : ∀ i ≤ nr, cp.sum Cur.jr i = cp'.sum Cur.jr i ∧ cp.sum Cur.jf i = cp'.sum Cur.jf i) :
    (computeFields h nr f prev rb cp cur dxi).1 = (computeFields h nr f' prev' rb cp' cur dxi).1 ∧
    Flds.Agree nr (computeFields h nr f prev rb cp cur dxi).2.1 (computeFields h nr f' prev' rb cp' cur dxi).2.1 := by
  have e : (computeFields h nr f prev rb cp cur dxi).1 = (computeFields h nr f' prev' rb cp' cur dxi).1 := by
    have er : ∀ pf rho jr, computeEr rho jr (cp.sum Cur.jr) (f.avg prev).Er pf h dxi nr = computeEr rho jr (cp'.sum Cur.jr) (f'.avg prev').Er pf h dxi nr := by
      intro pf rho jr
      funext i
      refine tridiagonal_agree _ _ pf h _ nr hn (fun i _ hi => ?_) i
      unfold erRight
      have e1 : (f.avg prev).Er i = (f'.avg prev').Er i := by show (_ + _) / 2 = (_ + _) / 2; rw [(hf i hi).1, (hp i hi).1]
      simp only [(hc i hi).1, e1]
    have ef : ∀ pf jf, computeEf jf (cp.sum Cur.jf) (f.avg prev).Ef pf h dxi nr = computeEf jf (cp'.sum Cur.jf) (f'.avg prev').Ef pf h dxi nr := by
      intro pf jf
      funext i
      refine tridiagonal_agree _ _ pf h _ nr hn (fun i _ hi => ?_) i
      unfold efRight
      have e1 : (f.avg prev).Ef i = (f'.avg prev').Ef i := by show (_ + _) / 2 = (_ + _) / 2; rw [(hf i hi).2.1, (hp i hi).2.1]
      simp only [(hc i hi).2, e1]
    unfold computeFields
    simp only [er, ef]
  refine ⟨e, fun i hi => ?_⟩
  have a1 : (computeFields h nr f prev rb cp cur dxi).2.1 = (computeFields h nr f prev rb cp cur dxi).1.avg prev := rfl
  have a2 : (computeFields h nr f' prev' rb cp' cur dxi).2.1 = (computeFields h nr f' prev' rb cp' cur dxi).1.avg prev' := rfl
  rw [a1, a2, e]
  obtain ⟨b1, b2, b3, b4, b5⟩ := hp i hi
  simp only [Flds.avg, avgArr, b1, b2, b3, b4, b5, and_self]

/-! ### A substep, a layer, a run -/

theorem Alike.cur_of_eq {c : SolverCfg} {w w' : World} (h1 : SameParticles w.el w'.el) (h2 : SameIons w.ions w'.ions) (h3 : Flds.Agree c.M w.F w'.F) (h4 : w.cur = w'.cur) : Alike c w w' :=
  ⟨h1, h2, h3, fun i _ => by rw [h4]; exact ⟨rfl, rfl⟩⟩

theorem noise_none (n : ℕ) (cur : Currents) : noiseAmplitude n cur false = fun _ => 0 := funext fun i => noise_off n cur i

theorem predict_alike (c : SolverCfg) (hc : c.Sane) (w w' : World) (step : ℝ) (h : Alike c w w') : Alike c (predict c w step) (predict c w' step) ∧ (predict c w step).cur = (predict c w' step).cur := by
  have m := moveAll_alike c hc.cells w.F w'.F (fun _ => 0) h.fields step w.el w'.el w.ions w'.ions h.el h.ions
  have e : (predict c w step).cur = (predict c w' step).cur := by
    unfold predict
    rw [hc.decl, noise_none, noise_none]
    exact rhoj_same _ _ _ m.1 m.2
  refine ⟨Alike.cur_of_eq ?_ ?_ h.fields e, e⟩
  · unfold predict; rw [hc.decl, noise_none, noise_none]; exact m.1
  · unfold predict; rw [hc.decl, noise_none, noise_none]; exact m.2

theorem correct_alike (c : SolverCfg) (hc : c.Sane) (rb : ℕ → ℝ) (w w' : World) (step : ℝ) (h : Alike c w w') (t t' : World) (ht : Alike c t t') (htc : t.cur = t'.cur) :
    Alike c (correct c rb w step t) (correct c rb w' step t') ∧ (correct c rb w step t).cur = (correct c rb w' step t').cur := by
  obtain ⟨f1, f2⟩ := computeFields_agree c.h c.M hc.cells t.F t'.F w.F w'.F rb w.cur w'.cur t'.cur step ht.fields h.fields h.cur
  have m := moveAll_alike c hc.cells _ _ (fun _ => 0) f2 step w.el w'.el w.ions w'.ions h.el h.ions
  have e : (correct c rb w step t).cur = (correct c rb w' step t').cur := by
    unfold correct
    rw [hc.decl, noise_none, noise_none, htc]
    exact rhoj_same _ _ _ m.1 m.2
  refine ⟨Alike.cur_of_eq ?_ ?_ ?_ e, e⟩
  · unfold correct; rw [hc.decl, noise_none, noise_none, htc]; exact m.1
  · unfold correct; rw [hc.decl, noise_none, noise_none, htc]; exact m.2
  · have : (correct c rb w step t).F = (correct c rb w' step t').F := by
      unfold correct
      rw [htc]
      exact f1
    rw [this]
    exact fun i _ => ⟨rfl, rfl, rfl, rfl, rfl⟩

theorem advance_alike (c : SolverCfg) (hc : c.Sane) (rb : ℕ → ℝ) (w w' : World) (step : ℝ) (h : Alike c w w') : Alike c (advance c rb w step) (advance c rb w' step) := by
  unfold advance
  have : ∀ n t t', Alike c t t' → t.cur = t'.cur → Alike c ((correct c rb w step)^[n] t) ((correct c rb w' step)^[n] t') := by
    intro n
    induction n with
    | zero => intro t t' ht _; exact ht
    | succ n ih =>
      intro t t' ht htc
      rw [Function.iterate_succ_apply, Function.iterate_succ_apply]
      obtain ⟨a, b⟩ := correct_alike c hc rb w w' step h t t' ht htc
      exact ih _ _ a b
  obtain ⟨a, b⟩ := predict_alike c hc w w' step h
  exact this _ _ _ a b

/-- The loop over substeps at the same place, with states alike. -/
inductive AlikeConf (c : SolverCfg) : Conf World → Conf World → Prop
  | done {w w' : World} (h : Alike c w w') : AlikeConf c (.done w) (.done w')
  | go {w w' : World} (h : Alike c w w') (d : ℕ) (st : ℕ → ℤ) (x : ℝ) : AlikeConf c (.go ⟨w, d, st, x⟩) (.go ⟨w', d, st, x⟩)

theorem turn_alike (c : SolverCfg) (hc : c.Sane) (rb : ℕ → ℝ) (k k' : Conf World) (h : AlikeConf c k k') :
    AlikeConf c (turn (needRefine c) (advance c rb) c.depth k) (turn (needRefine c) (advance c rb) c.depth k') := by
  cases h with
  | done hw => exact .done hw
  | go hw d st x =>
    rename_i w w'
    have e : needRefine c w x = needRefine c w' x := by unfold needRefine; rw [(predict_alike c hc w w' x hw).2]
    unfold turn
    simp only
    rw [e]
    by_cases hn : (needRefine c w' x && decide (d < c.depth)) = true
    · rw [if_pos hn, if_pos hn]; exact .go hw _ _ _
    · rw [if_neg hn, if_neg hn]
      unfold afterAccept
      simp only
      by_cases h0 : (popLevels d st x).1 = 0
      · rw [if_pos h0, if_pos h0]; exact .done (advance_alike c hc rb _ _ x hw)
      · rw [if_neg h0, if_neg h0]; exact .go (advance_alike c hc rb _ _ x hw) _ _ _

/-- A layer keeps states alike. -/
theorem stepDxi_alike (c : SolverCfg) (hc : c.Sane) (rb : ℕ → ℝ) (L : ℝ) (w w' : World) (h : Alike c w w') : AlikeConf c (stepDxi c rb L w) (stepDxi c rb L w') := by
  unfold stepDxi
  have : ∀ n k k', AlikeConf c k k' → AlikeConf c ((turn (needRefine c) (advance c rb) c.depth)^[n] k) ((turn (needRefine c) (advance c rb) c.depth)^[n] k') := by
    intro n
    induction n with
    | zero => intro k k' hk; exact hk
    | succ n ih => intro k k' hk; rw [Function.iterate_succ_apply, Function.iterate_succ_apply]; exact ih _ _ (turn_alike c hc rb k k' hk)
  exact this _ _ _ (.go h _ _ _)

/-- A plasma left as it was by empty layers is like the initial plasma. -/
theorem Still.alike {c : SolverCfg} {w0 w : World} (h : Still c w0 w) (hF : w0.F.Quiet c.M) (hcur : w0.cur.Quiet c.M) : Alike c w0 w := by
  refine ⟨h.el.symm, ?_, fun i hi => ?_, fun i hi => ?_⟩
  · have := h.ions
    generalize w.ions = a, w0.ions = b at *
    cases a <;> cases b <;> simp only [SameIons] at *
    · exact this.symm
    · exact this.symm
  · obtain ⟨a1, a2, a3, a4, a5⟩ := hF i hi
    obtain ⟨b1, b2, b3, b4, b5⟩ := h.fields i hi
    exact ⟨a1.trans b1.symm, a2.trans b2.symm, a3.trans b3.symm, a4.trans b4.symm, a5.trans b5.symm⟩
  · exact ⟨(hcur i hi).2.1.trans (h.cur i hi).2.1.symm, (hcur i hi).2.2.1.trans (h.cur i hi).2.2.1.symm⟩

end Lcode.Plasma2D
