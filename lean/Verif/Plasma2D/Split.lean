import Verif.Plasma2D.World
import Verif.Split

/-!
Property C52, the axisymmetric plasma: storage order and splitting of macroparticles do not matter.
-/

namespace Lcode.Plasma2D

/-! ### Specification -/

/-- The part `a` of a macroparticle: the same place and age, the fraction `a` of its charge, mass and momentum (so the same velocity). -/
def PPart.part (a : ℝ) (p : PPart) : PPart := { p with pr := a * p.pr, pf := a * p.pf, pz := a * p.pz, q := a * p.q, m := a * p.m }

/-- The ions are split, or are the same background. -/
inductive SplitIons : Ions → Ions → Prop
  | mobile {ps ps' : List PPart} (h : IsSplit PPart.part ps ps') : SplitIons (.mobile ps) (.mobile ps')
  | background (ni : ℕ → ℝ) : SplitIons (.background ni) (.background ni)

/-- The same plasma with every macroparticle split into parts, in any order. -/
structure SplitWorld (w w' : World) : Prop where
  el : IsSplit PPart.part w.el w'.el
  ions : SplitIons w.ions w'.ions
  F : w'.F = w.F
  cur : w'.cur = w.cur

/-! ### Deposition -/

/-- What one particle at normalised radius `x` with unit amount puts into node `i`. -/
noncomputable def kernelEven (n : ℤ) (x : ℝ) (i : ℤ) : ℝ := ((contributions n x).map fun t => if i = t.1 then t.2.1 else 0).sum
noncomputable def kernelOdd (n : ℤ) (x : ℝ) (i : ℤ) : ℝ := ((contributions n x).map fun t => if i = t.1 then t.2.2 else 0).sum

theorem foldl_addAt_sum (l : List (ℤ × ℝ × ℝ)) (g : ℤ × ℝ × ℝ → ℝ) (v : ℝ) (a : ℤ → ℝ) (i : ℤ) :
    l.foldl (fun a t => addAt a t.1 (v * g t)) a i = a i + v * (l.map fun t => if i = t.1 then g t else 0).sum := by
  induction l generalizing a with
  | nil => simp
  | cons t l ih =>
    rw [List.foldl_cons, ih, List.map_cons, List.sum_cons]
    unfold addAt
    split_ifs <;> ring

theorem depositEven_kernel (n : ℤ) (x v : ℝ) (a : ℤ → ℝ) (i : ℤ) : depositEven n x v a i = a i + v * kernelEven n x i := foldl_addAt_sum _ (fun t => t.2.1) v a i
theorem depositOdd_kernel (n : ℤ) (x v : ℝ) (a : ℤ → ℝ) (i : ℤ) : depositOdd n x v a i = a i + v * kernelOdd n x i := foldl_addAt_sum _ (fun t => t.2.2) v a i

/-- The four amounts of a particle. -/
noncomputable def amounts (h : ℝ) (n : ℤ) (p : PPart) (i : ℤ) : ℝ × ℝ × ℝ × ℝ :=
  (p.q / (gammaM p - p.pz) * gammaM p * kernelEven n (p.r / h) i, p.q / (gammaM p - p.pz) * p.pr * kernelOdd n (p.r / h) i,
   p.q / (gammaM p - p.pz) * p.pf * kernelOdd n (p.r / h) i, p.q / (gammaM p - p.pz) * p.pz * kernelEven n (p.r / h) i)

theorem foldl_amounts (h : ℝ) (n : ℤ) (ps : List PPart) (g : Grid4) (i : ℤ) :
    (ps.foldl (depositOne h n) g).rho i = g.rho i + (ps.map fun p => (amounts h n p i).1).sum ∧
    (ps.foldl (depositOne h n) g).jr i = g.jr i + (ps.map fun p => (amounts h n p i).2.1).sum ∧
    (ps.foldl (depositOne h n) g).jf i = g.jf i + (ps.map fun p => (amounts h n p i).2.2.1).sum ∧
    (ps.foldl (depositOne h n) g).jz i = g.jz i + (ps.map fun p => (amounts h n p i).2.2.2).sum := by
  induction ps generalizing g with
  | nil => simp
  | cons p ps ih =>
    obtain ⟨a, b, c, d⟩ := ih (depositOne h n g p)
    rw [List.foldl_cons, a, b, c, d]
    simp only [List.map_cons, List.sum_cons]
    have e1 : (depositOne h n g p).rho i = g.rho i + (amounts h n p i).1 := by unfold depositOne; simp only [depositEven_kernel]; rfl
    have e2 : (depositOne h n g p).jr i = g.jr i + (amounts h n p i).2.1 := by unfold depositOne; simp only [depositOdd_kernel]; rfl
    have e3 : (depositOne h n g p).jf i = g.jf i + (amounts h n p i).2.2.1 := by unfold depositOne; simp only [depositOdd_kernel]; rfl
    have e4 : (depositOne h n g p).jz i = g.jz i + (amounts h n p i).2.2.2 := by unfold depositOne; simp only [depositEven_kernel]; rfl
    rw [e1, e2, e3, e4]
    exact ⟨add_assoc _ _ _, add_assoc _ _ _, add_assoc _ _ _, add_assoc _ _ _⟩

theorem gammaM_part (a : ℝ) (ha : 0 < a) (p : PPart) : gammaM (p.part a) = a * gammaM p := by
  unfold gammaM; exact sqrt_scale a ha _ _ _ _

theorem amounts_part (h : ℝ) (n : ℤ) (a : ℝ) (ha : 0 < a) (p : PPart) (i : ℤ) :
    amounts h n (p.part a) i = (a * (amounts h n p i).1, a * (amounts h n p i).2.1, a * (amounts h n p i).2.2.1, a * (amounts h n p i).2.2.2) := by
  unfold amounts
  rw [gammaM_part a ha]
  simp only [PPart.part, ← mul_sub, div_scale a ha, Prod.mk.injEq]
  refine ⟨?_, ?_, ?_, ?_⟩ <;> ring

theorem deposit_split (h : ℝ) (n : ℤ) (l l' : List PPart) (hs : IsSplit PPart.part l l') : depositPlasma h n l' ⟨0, 0, 0, 0⟩ = depositPlasma h n l ⟨0, 0, 0, 0⟩ := by
  have e : l'.foldl (depositOne h n) ⟨0, 0, 0, 0⟩ = l.foldl (depositOne h n) ⟨0, 0, 0, 0⟩ := by
    have ext : ∀ c d : Grid4, (∀ i, c.rho i = d.rho i ∧ c.jr i = d.jr i ∧ c.jf i = d.jf i ∧ c.jz i = d.jz i) → c = d := by
      rintro ⟨a, b, c, d⟩ ⟨a', b', c', d'⟩ h
      simp only [Grid4.mk.injEq]
      exact ⟨funext fun i => (h i).1, funext fun i => (h i).2.1, funext fun i => (h i).2.2.1, funext fun i => (h i).2.2.2⟩
    apply ext
    intro i
    obtain ⟨h1, h2, h3, h4⟩ := foldl_amounts h n l ⟨0, 0, 0, 0⟩ i
    obtain ⟨g1, g2, g3, g4⟩ := foldl_amounts h n l' ⟨0, 0, 0, 0⟩ i
    rw [h1, h2, h3, h4, g1, g2, g3, g4]
    refine ⟨?_, ?_, ?_, ?_⟩ <;> congr 1 <;> apply hs.sum <;> intro a p ha <;> rw [amounts_part h n a ha]
  unfold depositPlasma
  rw [e]

/-- C52: charge and current of a sort on the grid do not change. -/
theorem rhojRow_split (h : ℝ) (ppc n : ℕ) (l l' : List PPart) (hs : IsSplit PPart.part l l') : rhojRow h ppc n l' = rhojRow h ppc n l := by
  unfold rhojRow; rw [deposit_split h n l l' hs]

theorem computeRhoj_split (h : ℝ) (ppc n : ℕ) (l l' : List PPart) (ions ions' : Ions) (hs : IsSplit PPart.part l l') (hi : SplitIons ions ions') :
    computeRhoj h ppc n l' ions' = computeRhoj h ppc n l ions := by
  unfold computeRhoj
  rw [rhojRow_split h ppc n l l' hs]
  cases hi with
  | mobile hp => simp only; rw [rhojRow_split h ppc n _ _ hp]
  | background ni => rfl

/-! ### One particle -/

def PState.part (a : ℝ) (s : PState) : PState := { s with pr := a * s.pr, pf := a * s.pf, pz := a * s.pz, q := a * s.q }

def MoveResult.part (a : ℝ) (r : MoveResult) : MoveResult := { r with s := r.s.part a }

theorem discarded_part (a R : ℝ) : (discarded R).part a = discarded R := by simp [discarded, PState.part]

theorem moveFinish_part (e : Env) (a r rPred rHalf xN dy pxN pyN pzN q age : ℝ) :
    moveFinish e r rPred rHalf xN dy (a * pxN) (a * pyN) (a * pzN) (a * q) age = (moveFinish e r rPred rHalf xN dy pxN pyN pzN q age).part a := by
  unfold moveFinish
  simp only
  have e1 : (if Real.sqrt (xN ^ 2 + dy ^ 2) ≠ 0 then (a * pxN * xN + a * pyN * dy) / Real.sqrt (xN ^ 2 + dy ^ 2) else a * pxN) = a * (if Real.sqrt (xN ^ 2 + dy ^ 2) ≠ 0 then (pxN * xN + pyN * dy) / Real.sqrt (xN ^ 2 + dy ^ 2) else pxN) := by
    split_ifs <;> ring
  have e2 : (if Real.sqrt (xN ^ 2 + dy ^ 2) ≠ 0 then (a * pyN * xN - a * pxN * dy) / Real.sqrt (xN ^ 2 + dy ^ 2) else 0) = a * (if Real.sqrt (xN ^ 2 + dy ^ 2) ≠ 0 then (pyN * xN - pxN * dy) / Real.sqrt (xN ^ 2 + dy ^ 2) else 0) := by
    split_ifs <;> ring
  rw [e1, e2]
  generalize (if Real.sqrt (xN ^ 2 + dy ^ 2) ≠ 0 then (pxN * xN + pyN * dy) / Real.sqrt (xN ^ 2 + dy ^ 2) else pxN) = A
  generalize (if Real.sqrt (xN ^ 2 + dy ^ 2) ≠ 0 then (pyN * xN - pxN * dy) / Real.sqrt (xN ^ 2 + dy ^ 2) else 0) = B
  generalize Real.sqrt (xN ^ 2 + dy ^ 2) = rN
  have d : ∀ p g : ℝ, MoveResult.part a ⟨discarded e.R, p, g⟩ = ⟨discarded e.R, p, g⟩ := by intro p g; unfold MoveResult.part; simp only [discarded_part]
  by_cases h1 : rN < 0
  · simp only [if_pos h1]
    by_cases h2 : -rN > e.R ∨ -rN < 0
    · simp only [if_pos h2, d]
    · simp only [if_neg h2]
      by_cases h3 : rHalf < 0 ∨ rHalf > e.R
      · simp only [if_pos h3, d]
      · simp only [if_neg h3, MoveResult.part, PState.part, mul_neg]
  · simp only [if_neg h1]
    by_cases h4 : rN > e.R
    · simp only [if_pos h4]
      by_cases h2 : 2 * e.R - rN > e.R ∨ 2 * e.R - rN < 0
      · simp only [if_pos h2, d]
      · simp only [if_neg h2]
        by_cases h3 : rHalf < 0 ∨ rHalf > e.R
        · simp only [if_pos h3, d]
        · simp only [if_neg h3, MoveResult.part, PState.part, mul_zero]
    · simp only [if_neg h4]
      by_cases h2 : rN > e.R ∨ rN < 0
      · simp only [if_pos h2, d]
      · simp only [if_neg h2]
        by_cases h3 : rHalf < 0 ∨ rHalf > e.R
        · simp only [if_pos h3, d]
        · simp only [if_neg h3, MoveResult.part, PState.part]

theorem moveKick_part (e : Env) (a : ℝ) (ha : 0 < a) (r rPred rHalf px py pz gm dl q m dxi : ℝ) :
    moveKick e r rPred rHalf (a * px) (a * py) (a * pz) (a * gm) (dl / a) (a * q) (a * m) dxi = (moveKick e r rPred rHalf px py pz gm dl q m dxi).part a := by
  have ha' := ha.ne'
  unfold moveKick
  simp only
  generalize interpOdd e.n ⌊rHalf / e.h + 1 / 2⌋₊ (rHalf / e.h - ⌊rHalf / e.h + 1 / 2⌋₊) e.F.Er + interpNoise e.n e.noise ⌊rHalf / e.h + 1 / 2⌋₊ (rHalf / e.h - ⌊rHalf / e.h + 1 / 2⌋₊) e.h = ex
  generalize interpOdd e.n ⌊rHalf / e.h + 1 / 2⌋₊ (rHalf / e.h - ⌊rHalf / e.h + 1 / 2⌋₊) e.F.Ef = ey
  generalize interpEven e.n ⌊rHalf / e.h + 1 / 2⌋₊ (rHalf / e.h - ⌊rHalf / e.h + 1 / 2⌋₊) e.F.Ez = ez
  generalize interpOdd e.n ⌊rHalf / e.h + 1 / 2⌋₊ (rHalf / e.h - ⌊rHalf / e.h + 1 / 2⌋₊) e.F.Bf = bY
  generalize interpEven e.n ⌊rHalf / e.h + 1 / 2⌋₊ (rHalf / e.h - ⌊rHalf / e.h + 1 / 2⌋₊) e.F.Bz = bz
  have x1 : a * px + a * q * (dl / a) * (a * gm * ex + a * py * bz - a * pz * bY) / 2 = a * (px + q * dl * (gm * ex + py * bz - pz * bY) / 2) := by field_simp
  have y1 : a * py + a * q * (dl / a) * (a * gm * ey - a * pz * ey - a * px * bz) / 2 = a * (py + q * dl * (gm * ey - pz * ey - px * bz) / 2) := by field_simp
  have z1 : a * pz + a * q * (dl / a) * (a * gm * ez + a * px * bY + a * py * ey) / 2 = a * (pz + q * dl * (gm * ez + px * bY + py * ey) / 2) := by field_simp
  rw [x1, y1, z1]
  generalize px + q * dl * (gm * ex + py * bz - pz * bY) / 2 = px1
  generalize py + q * dl * (gm * ey - pz * ey - px * bz) / 2 = py1
  generalize pz + q * dl * (gm * ez + px * bY + py * ey) / 2 = pz1
  rw [sqrt_scale a ha]
  generalize Real.sqrt (m ^ 2 + px1 ^ 2 + py1 ^ 2 + pz1 ^ 2) = g1
  have hc : (a * g1 = a * pz1) ↔ g1 = pz1 := mul_right_inj' ha'
  by_cases h : g1 = pz1
  · rw [if_pos h, if_pos (hc.mpr h)]; simp only [MoveResult.part, discarded_part]
  · rw [if_neg h, if_neg (fun g => h (hc.mp g)), ← moveFinish_part, ← mul_sub]
    have dd : dxi / (a * (g1 - pz1)) = dxi / (g1 - pz1) / a := by rw [mul_comm, div_div]
    rw [dd]
    generalize dxi / (g1 - pz1) = dl1
    congr 1 <;> field_simp

theorem moveOne_part (e : Env) (m a : ℝ) (ha : 0 < a) (s : PState) (dxi : ℝ) : moveOne e (a * m) (s.part a) dxi = (moveOne e m s dxi).part a := by
  have ha' := ha.ne'
  unfold moveOne
  simp only [PState.part, sqrt_scale a ha]
  generalize Real.sqrt (m ^ 2 + s.pr ^ 2 + s.pf ^ 2 + s.pz ^ 2) = g
  have hc : (a * g = a * s.pz) ↔ g = s.pz := mul_right_inj' ha'
  have d : ∀ p g : ℝ, MoveResult.part a ⟨discarded e.R, p, g⟩ = ⟨discarded e.R, p, g⟩ := by intro p g; unfold MoveResult.part; simp only [discarded_part]
  by_cases h : g = s.pz
  · rw [if_pos h, if_pos (hc.mpr h), d]
  · rw [if_neg h, if_neg (fun g => h (hc.mp g)), ← mul_sub]
    have dd : dxi / (a * (g - s.pz)) = dxi / (g - s.pz) / a := by rw [mul_comm, div_div]
    have dm : dxi / (a * m) = dxi / m / a := by rw [mul_comm, div_div]
    rw [dd, dm]
    generalize dxi / (g - s.pz) = dl
    have rp : s.r + a * s.pr * (dl / a) / 2 = s.r + s.pr * dl / 2 := by field_simp
    rw [rp]
    have g1 : a * g * (dl / a) = g * dl := by field_simp
    have g2 : a * m * (dxi / m / a) = m * (dxi / m) := by rw [mul_comm a m, mul_assoc, mul_div_cancel₀ _ ha']
    rw [g1, g2]
    have k0 := moveKick_part e a ha s.r (s.r + s.pr * dl / 2) (2 * e.R - (s.r + s.pr * dl / 2)) 0 0 0 m (dxi / m) s.q m dxi
    simp only [mul_zero] at k0
    rw [moveKick_part e a ha, moveKick_part e a ha, k0]
    by_cases h1 : s.r + s.pr * dl / 2 < 0
    · simp only [if_pos h1]
      by_cases h2 : -(s.r + s.pr * dl / 2) < 0 ∨ -(s.r + s.pr * dl / 2) > e.R
      · simp only [if_pos h2, d]
      · simp only [if_neg h2]
    · simp only [if_neg h1]
      by_cases h3 : s.r + s.pr * dl / 2 > e.R
      · simp only [if_pos h3]
        by_cases h2 : 2 * e.R - (s.r + s.pr * dl / 2) < 0 ∨ 2 * e.R - (s.r + s.pr * dl / 2) > e.R
        · simp only [if_pos h2, d]
        · simp only [if_neg h2]
      · simp only [if_neg h3]

def SubSt.part (a : ℝ) (st : SubSt) : SubSt := { st with s := st.s.part a }

theorem subRun_part (mv mv' : PState → ℝ → MoveResult) (a : ℝ) (ha : 0 < a) (hmv : ∀ s x, mv' (s.part a) x = (mv s x).part a) (h step : ℝ) (n : ℕ) (st : SubSt) :
    subRun mv' h step n (st.part a) = (subRun mv h step n st).part a := by
  induction n generalizing st with
  | zero => rfl
  | succ n ih =>
    have it : subIter mv' h step (st.part a) = (subIter mv h step st).map (SubSt.part a) := by
      unfold subIter
      by_cases h1 : st.xi ≤ 99999 / 100000 * step
      · rw [if_pos h1, if_pos (show (st.part a).xi ≤ 99999 / 100000 * step from h1)]
        by_cases h2 : st.s.q = 0
        · rw [if_pos h2, if_pos (show (st.part a).s.q = 0 by simp [SubSt.part, PState.part, h2])]; rfl
        · rw [if_neg h2, if_neg (show ¬ (st.part a).s.q = 0 by simp [SubSt.part, PState.part, h2, ha.ne'])]
          have e : mv' (st.part a).s (st.part a).cur = (mv st.s st.cur).part a := hmv _ _
          simp only [e]
          by_cases h3 : (mv st.s st.cur).path ≥ h ∧ st.cur / step > 1 / 10000
          · rw [if_pos h3, if_pos (show ((mv st.s st.cur).part a).path ≥ h ∧ (st.part a).cur / step > 1 / 10000 from h3)]; rfl
          · rw [if_neg h3, if_neg (show ¬ (((mv st.s st.cur).part a).path ≥ h ∧ (st.part a).cur / step > 1 / 10000) from h3)]; rfl
      · rw [if_neg h1, if_neg (show ¬ (st.part a).xi ≤ 99999 / 100000 * step from h1)]; rfl
    unfold subRun
    rw [it]
    cases subIter mv h step st with
    | none => rfl
    | some st' => exact ih st'

/-- C52: a part of a macroparticle moves exactly as the whole one, with the same substeps and the same age. -/
theorem movePart_part (e : Env) (step a : ℝ) (ha : 0 < a) (p : PPart) : movePart e step (p.part a) = (movePart e step p).part a := by
  have := subRun_part (moveOne e p.m) (moveOne e (a * p.m)) a ha (fun s x => moveOne_part e p.m a ha s x) e.h step maxTurns ⟨⟨p.r, p.pr, p.pf, p.pz, p.q⟩, 0, step, p.age⟩
  unfold movePart moveSubstepped
  simp only
  have e1 : subRun (moveOne e (p.part a).m) e.h step maxTurns ⟨⟨(p.part a).r, (p.part a).pr, (p.part a).pf, (p.part a).pz, (p.part a).q⟩, 0, step, (p.part a).age⟩ =
      (subRun (moveOne e p.m) e.h step maxTurns ⟨⟨p.r, p.pr, p.pf, p.pz, p.q⟩, 0, step, p.age⟩).part a := this
  rw [e1]
  rfl

/-! ### A substep, a layer, a run -/

theorem moveAll_split (c : SolverCfg) (F : Flds) (noise : ℕ → ℝ) (step : ℝ) (el el' : List PPart) (ions ions' : Ions) (h : IsSplit PPart.part el el') (hi : SplitIons ions ions') :
    IsSplit PPart.part (moveAll c F noise step el ions).1 (moveAll c F noise step el' ions').1 ∧ SplitIons (moveAll c F noise step el ions).2 (moveAll c F noise step el' ions').2 := by
  unfold moveAll
  simp only
  refine ⟨h.map _ fun a p ha => movePart_part _ _ a ha p, ?_⟩
  cases hi with
  | mobile hp => exact .mobile (hp.map _ fun a p ha => movePart_part _ _ a ha p)
  | background ni => exact .background ni

theorem predict_split (c : SolverCfg) (w w' : World) (step : ℝ) (h : SplitWorld w w') : SplitWorld (predict c w step) (predict c w' step) := by
  unfold predict
  rw [h.F, h.cur]
  obtain ⟨m1, m2⟩ := moveAll_split c w.F (noiseAmplitude (c.M + 1) w.cur c.decl) step w.el w'.el w.ions w'.ions h.el h.ions
  exact ⟨m1, m2, rfl, computeRhoj_split _ _ _ _ _ _ _ m1 m2⟩

theorem correct_split (c : SolverCfg) (rb : ℕ → ℝ) (w w' : World) (step : ℝ) (h : SplitWorld w w') (t t' : World) (ht : SplitWorld t t') : SplitWorld (correct c rb w step t) (correct c rb w' step t') := by
  unfold correct
  rw [h.F, h.cur, ht.F, ht.cur]
  obtain ⟨m1, m2⟩ := moveAll_split c (computeFields c.h c.M t.F w.F rb w.cur t.cur step).2.1 (noiseAmplitude (c.M + 1) t.cur c.decl) step w.el w'.el w.ions w'.ions h.el h.ions
  exact ⟨m1, m2, rfl, computeRhoj_split _ _ _ _ _ _ _ m1 m2⟩

theorem advance_split (c : SolverCfg) (rb : ℕ → ℝ) (w w' : World) (step : ℝ) (h : SplitWorld w w') : SplitWorld (advance c rb w step) (advance c rb w' step) := by
  unfold advance
  have : ∀ n t t', SplitWorld t t' → SplitWorld ((correct c rb w step)^[n] t) ((correct c rb w' step)^[n] t') := by
    intro n
    induction n with
    | zero => intro t t' ht; exact ht
    | succ n ih => intro t t' ht; rw [Function.iterate_succ_apply, Function.iterate_succ_apply]; exact ih _ _ (correct_split c rb w w' step h t t' ht)
  exact this _ _ _ (predict_split c w w' step h)

theorem needRefine_split (c : SolverCfg) (w w' : World) (step : ℝ) (h : SplitWorld w w') : needRefine c w' step = needRefine c w step := by
  unfold needRefine
  rw [(predict_split c w w' step h).cur]

/-- The loop over substeps: the same place in the loop, with split particles. -/
inductive SplitConf : Conf World → Conf World → Prop
  | done {w w' : World} (h : SplitWorld w w') : SplitConf (.done w) (.done w')
  | go {w w' : World} (h : SplitWorld w w') (d : ℕ) (st : ℕ → ℤ) (x : ℝ) : SplitConf (.go ⟨w, d, st, x⟩) (.go ⟨w', d, st, x⟩)

theorem turn_split (c : SolverCfg) (rb : ℕ → ℝ) (k k' : Conf World) (h : SplitConf k k') :
    SplitConf (turn (needRefine c) (advance c rb) c.depth k) (turn (needRefine c) (advance c rb) c.depth k') := by
  cases h with
  | done hw => exact .done hw
  | go hw d st x =>
    rename_i w w'
    unfold turn
    simp only
    rw [needRefine_split c _ _ x hw]
    by_cases hn : (needRefine c w x && decide (d < c.depth)) = true
    · rw [if_pos hn, if_pos hn]; exact .go hw _ _ _
    · rw [if_neg hn, if_neg hn]
      unfold afterAccept
      simp only
      by_cases h0 : (popLevels d st x).1 = 0
      · rw [if_pos h0, if_pos h0]; exact .done (advance_split c rb _ _ x hw)
      · rw [if_neg h0, if_neg h0]; exact .go (advance_split c rb _ _ x hw) _ _ _

/-- C52: one layer gives the same fields and currents, and the split particles of the new layer; the same substeps are chosen. -/
theorem stepDxi_split (c : SolverCfg) (rb : ℕ → ℝ) (L : ℝ) (w w' : World) (h : SplitWorld w w') : SplitConf (stepDxi c rb L w) (stepDxi c rb L w') := by
  unfold stepDxi
  have : ∀ n k k', SplitConf k k' → SplitConf ((turn (needRefine c) (advance c rb) c.depth)^[n] k) ((turn (needRefine c) (advance c rb) c.depth)^[n] k') := by
    intro n
    induction n with
    | zero => intro k k' hk; exact hk
    | succ n ih => intro k k' hk; rw [Function.iterate_succ_apply, Function.iterate_succ_apply]; exact ih _ _ (turn_split c rb k k' hk)
  exact this _ _ _ (.go h _ _ _)

/-- C52: splitting the macroparticles of the axisymmetric plasma, or storing them in another order, changes no field and no current in any layer of a run, whatever the beam,
with or without declustering and with any substepping; the particles of the last layer are the split ones. -/
theorem layers_split (c : SolverCfg) (L : ℝ) (rhos : List (ℕ → ℝ)) (w w' : World) (h : SplitWorld w w') :
    ∃ v v', layers c L rhos w = some v ∧ layers c L rhos w' = some v' ∧ SplitWorld v v' ∧ v'.F = v.F ∧ v'.cur = v.cur := by
  induction rhos generalizing w w' with
  | nil => exact ⟨w, w', rfl, rfl, h, h.F, h.cur⟩
  | cons rho rest ih =>
    have hs := stepDxi_split c rho L w w' h
    obtain ⟨xs, h1, -⟩ := stepDxi_covered c rho L w
    obtain ⟨xs', h2, -⟩ := stepDxi_covered c rho L w'
    rw [h1, h2] at hs
    cases hs with
    | done hw =>
      obtain ⟨v, v', e1, e2, e3⟩ := ih _ _ hw
      refine ⟨v, v', ?_, ?_, e3⟩
      · rw [layers, h1]; exact e1
      · rw [layers, h2]; exact e2

end Lcode.Plasma2D
