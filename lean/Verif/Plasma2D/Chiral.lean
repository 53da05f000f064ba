import Verif.Plasma2D.Split

/-!
Property C56, axisymmetric plasma: the sense of rotation does not matter. Reversing all azimuthal momenta, fields and currents and the external magnetic field reverses the rotation of everything the solver computes and changes nothing else.
-/

namespace Lcode.Plasma2D

open Finset

/-! ### Specification: the mirror image of a plasma in a plane through the axis -/

/-- The particle that turns the other way. -/
def PPart.rev (p : PPart) : PPart := { p with pf := -p.pf }

def Cur.rev (c : Cur) : Cur := { c with jf := fun i => -c.jf i }

def Currents.rev (c : Currents) : Currents := ⟨c.el.rev, c.ions.map Cur.rev⟩

/-- E_f and B_z change sign, E_r, E_z and B_f do not. -/
def Flds.rev (F : Flds) : Flds := { F with Ef := fun i => -F.Ef i, Bz := fun i => -F.Bz i }

def Ions.rev : Ions → Ions
  | .mobile ps => .mobile (ps.map PPart.rev)
  | .background ni => .background ni

def World.rev (w : World) : World := ⟨w.el.map PPart.rev, w.ions.rev, w.F.rev, w.cur.rev⟩

/-- The external magnetic field points the other way. -/
def SolverCfg.rev (c : SolverCfg) : SolverCfg := { c with B0 := -c.B0 }

/-! ### Deposition -/

theorem gammaM_rev (p : PPart) : gammaM p.rev = gammaM p := by
  unfold gammaM PPart.rev; simp only [neg_sq]

theorem amounts_rev (h : ℝ) (n : ℤ) (p : PPart) (i : ℤ) :
    amounts h n p.rev i = ((amounts h n p i).1, (amounts h n p i).2.1, -(amounts h n p i).2.2.1, (amounts h n p i).2.2.2) := by
  unfold amounts
  rw [gammaM_rev]
  simp only [PPart.rev, Prod.mk.injEq, true_and, and_true]
  ring

theorem depositPlasma_rev (h : ℝ) (n : ℤ) (ps : List PPart) (i : ℤ) :
    (depositPlasma h n (ps.map PPart.rev) ⟨0, 0, 0, 0⟩).rho i = (depositPlasma h n ps ⟨0, 0, 0, 0⟩).rho i ∧
    (depositPlasma h n (ps.map PPart.rev) ⟨0, 0, 0, 0⟩).jr i = (depositPlasma h n ps ⟨0, 0, 0, 0⟩).jr i ∧
    (depositPlasma h n (ps.map PPart.rev) ⟨0, 0, 0, 0⟩).jf i = -(depositPlasma h n ps ⟨0, 0, 0, 0⟩).jf i ∧
    (depositPlasma h n (ps.map PPart.rev) ⟨0, 0, 0, 0⟩).jz i = (depositPlasma h n ps ⟨0, 0, 0, 0⟩).jz i := by
  obtain ⟨h1, h2, h3, h4⟩ := foldl_amounts h n ps ⟨0, 0, 0, 0⟩ i
  obtain ⟨g1, g2, g3, g4⟩ := foldl_amounts h n (ps.map PPart.rev) ⟨0, 0, 0, 0⟩ i
  simp only [List.map_map, Function.comp_def, amounts_rev] at g1 g2 g3 g4
  have sn : ∀ l : List PPart, (l.map fun p => -(amounts h n p i).2.2.1).sum = -(l.map fun p => (amounts h n p i).2.2.1).sum := by
    intro l
    induction l with
    | nil => simp
    | cons p ps ih => simp only [List.map_cons, List.sum_cons, ih]; ring
  unfold depositPlasma
  simp only
  rw [g1, g2, g3, g4, h1, h2, h3, h4, sn]
  refine ⟨rfl, rfl, ?_, rfl⟩
  split_ifs <;> simp

theorem rhojRow_rev (h : ℝ) (ppc n : ℕ) (ps : List PPart) : rhojRow h ppc n (ps.map PPart.rev) = (rhojRow h ppc n ps).rev := by
  unfold rhojRow Cur.rev
  simp only [Cur.mk.injEq]
  refine ⟨?_, ?_, ?_, ?_⟩ <;> funext i
  · rw [(depositPlasma_rev h n ps i).1]
  · rw [(depositPlasma_rev h n ps i).2.1]
  · rw [(depositPlasma_rev h n ps i).2.2.1, neg_div]
  · rw [(depositPlasma_rev h n ps i).2.2.2]

theorem computeRhoj_rev (h : ℝ) (ppc n : ℕ) (el : List PPart) (ions : Ions) : computeRhoj h ppc n (el.map PPart.rev) ions.rev = (computeRhoj h ppc n el ions).rev := by
  unfold computeRhoj Currents.rev
  rw [rhojRow_rev]
  cases ions with
  | mobile ps => simp only [Ions.rev, rhojRow_rev, List.map_cons, List.map_nil]
  | background ni =>
    simp only [Ions.rev, List.map_cons, List.map_nil, Cur.rev]
    congr 3
    funext i
    simp

/-! ### Fields -/

theorem sum_rev (c : Currents) (i : ℕ) : c.rev.sum Cur.rho i = c.sum Cur.rho i ∧ c.rev.sum Cur.jr i = c.sum Cur.jr i ∧ c.rev.sum Cur.jf i = -c.sum Cur.jf i ∧ c.rev.sum Cur.jz i = c.sum Cur.jz i := by
  have sn : ∀ l : List Cur, (l.map fun s => -s.jf i).sum = -(l.map fun s => s.jf i).sum := by
    intro l
    induction l with
    | nil => simp
    | cons p ps ih => simp only [List.map_cons, List.sum_cons, ih]; ring
  unfold Currents.sum Currents.rev
  simp only [List.map_map, Function.comp_def]
  refine ⟨rfl, rfl, ?_, rfl⟩
  show -c.el.jf i + (c.ions.map fun s => -s.jf i).sum = _
  rw [sn]; ring

theorem sweepFwd_neg (rhs pf : ℕ → ℝ) (h : ℝ) (i : ℕ) : sweepFwd (fun i => -rhs i) pf h i = ((sweepFwd rhs pf h i).1, -(sweepFwd rhs pf h i).2) := by
  induction i with
  | zero => simp [sweepFwd]
  | succ i ih =>
    unfold sweepFwd
    rw [ih]
    simp only [Prod.mk.injEq, true_and]
    ring

theorem tridiagonal_neg (rhs pf : ℕ → ℝ) (h : ℝ) (bc : ℝ × ℝ) (nr i : ℕ) : tridiagonalSolve (fun i => -rhs i) pf h bc nr i = -tridiagonalSolve rhs pf h bc nr i := by
  unfold tridiagonalSolve
  generalize nr - i = k
  induction k with
  | zero => unfold sweepBack; rw [sweepFwd_neg]; simp only; rw [← neg_div]; congr 1; ring
  | succ k ih =>
    unfold sweepBack
    rw [sweepFwd_neg, ih]
    simp only
    ring

theorem cumtrapzBackward_neg (y : ℕ → ℝ) (h : ℝ) (last i : ℕ) : cumtrapzBackward (fun i => -y i) h last i = -cumtrapzBackward y h last i := by
  unfold cumtrapzBackward
  generalize last - i = k
  induction k with
  | zero => simp [cumtrapzBackAux]
  | succ k ih => unfold cumtrapzBackAux; rw [ih]; ring

theorem computeEf_rev (jf jfPrev efPrev pf : ℕ → ℝ) (h dxi : ℝ) (nr : ℕ) :
    computeEf (fun i => -jf i) (fun i => -jfPrev i) (fun i => -efPrev i) pf h dxi nr = fun i => -computeEf jf jfPrev efPrev pf h dxi nr i := by
  funext i
  unfold computeEf solveDirichlet
  rw [← tridiagonal_neg]
  congr 1
  funext k
  unfold efRight
  simp only
  split_ifs
  · simp
  · ring

theorem computeBz_rev (jf : ℕ → ℝ) (h : ℝ) (nr : ℕ) : computeBz (fun i => -jf i) h nr = fun i => -computeBz jf h nr i := by
  funext i
  unfold computeBz
  simp only [cumtrapzBackward_neg (fun i => -jf i), mul_neg, Finset.sum_neg_distrib]
  ring

theorem avg_rev (F G : Flds) : F.rev.avg G.rev = (F.avg G).rev := by
  unfold Flds.avg Flds.rev avgArr
  simp only [Flds.mk.injEq, true_and]
  constructor
  · funext i; ring
  · funext i; ring

theorem computeFields_rev (h : ℝ) (nr : ℕ) (F P : Flds) (rb : ℕ → ℝ) (cp c : Currents) (dxi : ℝ) :
    computeFields h nr F.rev P.rev rb cp.rev c.rev dxi = ((computeFields h nr F P rb cp c dxi).1.rev, (computeFields h nr F P rb cp c dxi).2.1.rev, (computeFields h nr F P rb cp c dxi).2.2.rev) := by
  have s1 : ∀ c : Currents, c.rev.sum Cur.rho = c.sum Cur.rho := fun c => funext fun i => (sum_rev c i).1
  have s2 : ∀ c : Currents, c.rev.sum Cur.jr = c.sum Cur.jr := fun c => funext fun i => (sum_rev c i).2.1
  have s3 : ∀ c : Currents, c.rev.sum Cur.jf = fun i => -c.sum Cur.jf i := fun c => funext fun i => (sum_rev c i).2.2.1
  have s4 : ∀ c : Currents, c.rev.sum Cur.jz = c.sum Cur.jz := fun c => funext fun i => (sum_rev c i).2.2.2
  have pf : ∀ i, erPreviousFactor (c.rev.el.rho i) (c.rev.el.jr i) (c.rev.el.jf i) (c.rev.el.jz i) = erPreviousFactor (c.el.rho i) (c.el.jr i) (c.el.jf i) (c.el.jz i) := by
    intro i
    show erPreviousFactor (c.el.rho i) (c.el.jr i) (-c.el.jf i) (c.el.jz i) = _
    unfold erPreviousFactor
    simp only [neg_sq]
  unfold computeFields
  simp only [avg_rev, s1, s2, s3, s4, pf]
  have ef := computeEf_rev (c.sum Cur.jf) (cp.sum Cur.jf) (F.avg P).Ef (fun _ => 1) h dxi nr
  have bz := computeBz_rev (c.sum Cur.jf) h nr
  rw [show (F.avg P).rev.Ef = fun i => -(F.avg P).Ef i from rfl, show (F.avg P).rev.Er = (F.avg P).Er from rfl, ef, bz]
  refine Prod.ext rfl (Prod.ext ?_ rfl)
  dsimp only
  rw [← avg_rev]
  rfl

/-! ### One particle -/

def PState.rev (s : PState) : PState := { s with pf := -s.pf }

def MoveResult.rev (r : MoveResult) : MoveResult := { r with s := r.s.rev }

/-- The surroundings with fields turned round. -/
def Env.rev (e : Env) : Env := { e with F := e.F.rev }

theorem discarded_rev (R : ℝ) : (discarded R).rev = discarded R := by simp [discarded, PState.rev]

theorem moveFinish_rev (e : Env) (r rPred rHalf xN dy pxN pyN pzN q age : ℝ) :
    moveFinish e.rev r rPred rHalf xN (-dy) pxN (-pyN) pzN q age = (moveFinish e r rPred rHalf xN dy pxN pyN pzN q age).rev := by
  unfold moveFinish
  simp only [neg_sq, neg_mul_neg, show e.rev.R = e.R from rfl]
  have e2 : (if Real.sqrt (xN ^ 2 + dy ^ 2) ≠ 0 then (-pyN * xN - pxN * -dy) / Real.sqrt (xN ^ 2 + dy ^ 2) else 0) = -(if Real.sqrt (xN ^ 2 + dy ^ 2) ≠ 0 then (pyN * xN - pxN * dy) / Real.sqrt (xN ^ 2 + dy ^ 2) else 0) := by
    split_ifs
    · ring
    · simp
  rw [e2]
  generalize (if Real.sqrt (xN ^ 2 + dy ^ 2) ≠ 0 then (pxN * xN + pyN * dy) / Real.sqrt (xN ^ 2 + dy ^ 2) else pxN) = A
  generalize (if Real.sqrt (xN ^ 2 + dy ^ 2) ≠ 0 then (pyN * xN - pxN * dy) / Real.sqrt (xN ^ 2 + dy ^ 2) else 0) = B
  generalize Real.sqrt (xN ^ 2 + dy ^ 2) = rN
  have d : ∀ p g : ℝ, MoveResult.rev ⟨discarded e.R, p, g⟩ = ⟨discarded e.R, p, g⟩ := by intro p g; unfold MoveResult.rev; simp only [discarded_rev]
  by_cases h1 : rN < 0
  · simp only [if_pos h1]
    by_cases h2 : -rN > e.R ∨ -rN < 0
    · simp only [if_pos h2, d]
    · simp only [if_neg h2]
      by_cases h3 : rHalf < 0 ∨ rHalf > e.R
      · simp only [if_pos h3, d]
      · simp only [if_neg h3, MoveResult.rev, PState.rev]
  · simp only [if_neg h1]
    by_cases h4 : rN > e.R
    · simp only [if_pos h4]
      by_cases h2 : 2 * e.R - rN > e.R ∨ 2 * e.R - rN < 0
      · simp only [if_pos h2, d]
      · simp only [if_neg h2]
        by_cases h3 : rHalf < 0 ∨ rHalf > e.R
        · simp only [if_pos h3, d]
        · simp only [if_neg h3, MoveResult.rev, PState.rev, neg_zero]
    · simp only [if_neg h4]
      by_cases h2 : rN > e.R ∨ rN < 0
      · simp only [if_pos h2, d]
      · simp only [if_neg h2]
        by_cases h3 : rHalf < 0 ∨ rHalf > e.R
        · simp only [if_pos h3, d]
        · simp only [if_neg h3, MoveResult.rev, PState.rev]

theorem interpEven_neg (n jc : ℕ) (l : ℝ) (F : ℕ → ℝ) : interpEven n jc l (fun i => -F i) = -interpEven n jc l F := by
  unfold interpEven
  simp only
  split_ifs <;> ring

theorem interpOdd_neg (n jc : ℕ) (l : ℝ) (F : ℕ → ℝ) : interpOdd n jc l (fun i => -F i) = -interpOdd n jc l F := by
  unfold interpOdd
  simp only
  split_ifs <;> ring

theorem moveKick_rev (e : Env) (r rPred rHalf px py pz gm dl q m dxi : ℝ) :
    moveKick e.rev r rPred rHalf px (-py) pz gm dl q m dxi = (moveKick e r rPred rHalf px py pz gm dl q m dxi).rev := by
  unfold moveKick
  simp only [show e.rev.R = e.R from rfl, show e.rev.n = e.n from rfl, show e.rev.h = e.h from rfl, show e.rev.noise = e.noise from rfl, show e.rev.F.Er = e.F.Er from rfl,
    show e.rev.F.Ez = e.F.Ez from rfl, show e.rev.F.Bf = e.F.Bf from rfl, show e.rev.F.Ef = fun i => -e.F.Ef i from rfl, show e.rev.F.Bz = fun i => -e.F.Bz i from rfl, interpOdd_neg, interpEven_neg]
  generalize interpOdd e.n ⌊rHalf / e.h + 1 / 2⌋₊ (rHalf / e.h - ⌊rHalf / e.h + 1 / 2⌋₊) e.F.Er + interpNoise e.n e.noise ⌊rHalf / e.h + 1 / 2⌋₊ (rHalf / e.h - ⌊rHalf / e.h + 1 / 2⌋₊) e.h = ex
  generalize interpOdd e.n ⌊rHalf / e.h + 1 / 2⌋₊ (rHalf / e.h - ⌊rHalf / e.h + 1 / 2⌋₊) e.F.Ef = ey
  generalize interpEven e.n ⌊rHalf / e.h + 1 / 2⌋₊ (rHalf / e.h - ⌊rHalf / e.h + 1 / 2⌋₊) e.F.Ez = ez
  generalize interpOdd e.n ⌊rHalf / e.h + 1 / 2⌋₊ (rHalf / e.h - ⌊rHalf / e.h + 1 / 2⌋₊) e.F.Bf = bY
  generalize interpEven e.n ⌊rHalf / e.h + 1 / 2⌋₊ (rHalf / e.h - ⌊rHalf / e.h + 1 / 2⌋₊) e.F.Bz = bz
  have x1 : px + q * dl * (gm * ex + -py * -bz - pz * bY) / 2 = px + q * dl * (gm * ex + py * bz - pz * bY) / 2 := by ring
  have y1 : -py + q * dl * (gm * -ey - pz * -ey - px * -bz) / 2 = -(py + q * dl * (gm * ey - pz * ey - px * bz) / 2) := by ring
  have z1 : pz + q * dl * (gm * ez + px * bY + -py * -ey) / 2 = pz + q * dl * (gm * ez + px * bY + py * ey) / 2 := by ring
  rw [x1, y1, z1]
  generalize px + q * dl * (gm * ex + py * bz - pz * bY) / 2 = px1
  generalize py + q * dl * (gm * ey - pz * ey - px * bz) / 2 = py1
  generalize pz + q * dl * (gm * ez + px * bY + py * ey) / 2 = pz1
  rw [neg_sq]
  generalize Real.sqrt (m ^ 2 + px1 ^ 2 + py1 ^ 2 + pz1 ^ 2) = g1
  by_cases h : g1 = pz1
  · rw [if_pos h, if_pos h]; simp only [MoveResult.rev, discarded_rev]
  · rw [if_neg h, if_neg h, ← moveFinish_rev]
    generalize dxi / (g1 - pz1) = dl1
    congr 1 <;> ring

theorem moveOne_rev (e : Env) (m : ℝ) (s : PState) (dxi : ℝ) : moveOne e.rev m s.rev dxi = (moveOne e m s dxi).rev := by
  unfold moveOne
  simp only [PState.rev, neg_sq, show e.rev.R = e.R from rfl]
  generalize Real.sqrt (m ^ 2 + s.pr ^ 2 + s.pf ^ 2 + s.pz ^ 2) = g
  have d : ∀ p g : ℝ, MoveResult.rev ⟨discarded e.R, p, g⟩ = ⟨discarded e.R, p, g⟩ := by intro p g; unfold MoveResult.rev; simp only [discarded_rev]
  by_cases h : g = s.pz
  · rw [if_pos h, if_pos h, d]
  · rw [if_neg h, if_neg h]
    generalize dxi / (g - s.pz) = dl
    have k0 := moveKick_rev e s.r (s.r + s.pr * dl / 2) (2 * e.R - (s.r + s.pr * dl / 2)) 0 0 0 m (dxi / m) s.q m dxi
    rw [neg_zero] at k0
    rw [moveKick_rev, moveKick_rev, k0]
    by_cases h1 : s.r + s.pr * dl / 2 < 0
    · simp only [if_pos h1]
      by_cases h2 : -(s.r + s.pr * dl / 2) < 0 ∨ -(s.r + s.pr * dl / 2) > e.R
      · simp only [if_pos h2, d]
      · simp only [if_neg h2]
    · simp only [if_neg h1]
      by_cases h3 : s.r + s.pr * dl / 2 > e.R
      · simp only [if_pos h3]
        by_cases h2 : 2 * e.R - (s.r + s.pr * dl / 2) < 0 ∨ 2 * e.R - (s.r + s.pr * dl / 2) > e.R
        · simp only [if_pos h2, d]
        · simp only [if_neg h2]
      · simp only [if_neg h3]

def SubSt.rev (st : SubSt) : SubSt := { st with s := st.s.rev }

theorem subRun_rev (mv mv' : PState → ℝ → MoveResult) (hmv : ∀ s x, mv' s.rev x = (mv s x).rev) (h step : ℝ) (n : ℕ) (st : SubSt) :
    subRun mv' h step n st.rev = (subRun mv h step n st).rev := by
  induction n generalizing st with
  | zero => rfl
  | succ n ih =>
    have it : subIter mv' h step st.rev = (subIter mv h step st).map SubSt.rev := by
      unfold subIter
      by_cases h1 : st.xi ≤ 99999 / 100000 * step
      · rw [if_pos h1, if_pos (show st.rev.xi ≤ 99999 / 100000 * step from h1)]
        by_cases h2 : st.s.q = 0
        · rw [if_pos h2, if_pos (show st.rev.s.q = 0 from h2)]; rfl
        · rw [if_neg h2, if_neg (show ¬ st.rev.s.q = 0 from h2)]
          have e : mv' st.rev.s st.rev.cur = (mv st.s st.cur).rev := hmv _ _
          simp only [e]
          by_cases h3 : (mv st.s st.cur).path ≥ h ∧ st.cur / step > 1 / 10000
          · rw [if_pos h3, if_pos (show (mv st.s st.cur).rev.path ≥ h ∧ st.rev.cur / step > 1 / 10000 from h3)]; rfl
          · rw [if_neg h3, if_neg (show ¬ ((mv st.s st.cur).rev.path ≥ h ∧ st.rev.cur / step > 1 / 10000) from h3)]; rfl
      · rw [if_neg h1, if_neg (show ¬ st.rev.xi ≤ 99999 / 100000 * step from h1)]; rfl
    unfold subRun
    rw [it]
    cases subIter mv h step st with
    | none => rfl
    | some st' => exact ih st'

theorem movePart_rev (e : Env) (step : ℝ) (p : PPart) : movePart e.rev step p.rev = (movePart e step p).rev := by
  have := subRun_rev (moveOne e p.m) (moveOne e.rev p.m) (fun s x => moveOne_rev e p.m s x) e.h step maxTurns ⟨⟨p.r, p.pr, p.pf, p.pz, p.q⟩, 0, step, p.age⟩
  unfold movePart moveSubstepped
  simp only
  have e1 : subRun (moveOne e.rev p.rev.m) e.rev.h step maxTurns ⟨⟨p.rev.r, p.rev.pr, p.rev.pf, p.rev.pz, p.rev.q⟩, 0, step, p.rev.age⟩ =
      (subRun (moveOne e p.m) e.h step maxTurns ⟨⟨p.r, p.pr, p.pf, p.pz, p.q⟩, 0, step, p.age⟩).rev := this
  rw [e1]
  rfl

/-! ### A substep, a layer, a run -/

theorem moveAll_rev (c : SolverCfg) (F : Flds) (noise : ℕ → ℝ) (step : ℝ) (el : List PPart) (ions : Ions) :
    moveAll c.rev F.rev noise step (el.map PPart.rev) ions.rev = ((moveAll c F noise step el ions).1.map PPart.rev, (moveAll c F noise step el ions).2.rev) := by
  have he : (⟨c.rev.M + 1, { F.rev with Bz := fun i => F.rev.Bz i + c.rev.B0 }, noise, c.rev.h, c.rev.R⟩ : Env) = Env.rev ⟨c.M + 1, { F with Bz := fun i => F.Bz i + c.B0 }, noise, c.h, c.R⟩ := by
    unfold Env.rev Flds.rev SolverCfg.rev
    simp only
    congr 2
    funext i
    ring
  have hm : ∀ l : List PPart, (l.map PPart.rev).map (movePart ⟨c.rev.M + 1, { F.rev with Bz := fun i => F.rev.Bz i + c.rev.B0 }, noise, c.rev.h, c.rev.R⟩ step) =
      (l.map (movePart ⟨c.M + 1, { F with Bz := fun i => F.Bz i + c.B0 }, noise, c.h, c.R⟩ step)).map PPart.rev := by
    intro l
    rw [he, List.map_map, List.map_map]
    exact List.map_congr_left fun p _ => movePart_rev _ _ p
  unfold moveAll
  simp only [hm]
  cases ions with
  | mobile ps => simp only [Ions.rev, hm]
  | background ni => rfl

theorem noise_rev (n : ℕ) (cur : Currents) (b : Bool) : noiseAmplitude n cur.rev b = noiseAmplitude n cur b := by
  have e : ∀ i, cur.rev.ionRho i = cur.ionRho i := by
    intro i
    unfold Currents.ionRho Currents.rev
    rw [List.map_map]; rfl
  unfold noiseAmplitude
  simp only [e]
  rfl

theorem predict_rev (c : SolverCfg) (w : World) (step : ℝ) : predict c.rev w.rev step = (predict c w step).rev := by
  have m := moveAll_rev c w.F (noiseAmplitude (c.M + 1) w.cur c.decl) step w.el w.ions
  unfold predict
  simp only
  rw [show w.rev.F = w.F.rev from rfl, show w.rev.cur = w.cur.rev from rfl, noise_rev, show w.rev.el = w.el.map PPart.rev from rfl, show w.rev.ions = w.ions.rev from rfl,
    show c.rev.M = c.M from rfl, show c.rev.decl = c.decl from rfl, m]
  simp only
  rw [computeRhoj_rev]
  rfl

theorem correct_rev (c : SolverCfg) (rb : ℕ → ℝ) (w : World) (step : ℝ) (t : World) : correct c.rev rb w.rev step t.rev = (correct c rb w step t).rev := by
  have m := moveAll_rev c (computeFields c.h c.M t.F w.F rb w.cur t.cur step).2.1 (noiseAmplitude (c.M + 1) t.cur c.decl) step w.el w.ions
  unfold correct
  simp only
  rw [show w.rev.F = w.F.rev from rfl, show t.rev.F = t.F.rev from rfl, show w.rev.cur = w.cur.rev from rfl, show t.rev.cur = t.cur.rev from rfl, noise_rev, show w.rev.el = w.el.map PPart.rev from rfl,
    show w.rev.ions = w.ions.rev from rfl, show c.rev.M = c.M from rfl, show c.rev.decl = c.decl from rfl, show c.rev.h = c.h from rfl, computeFields_rev]
  simp only
  rw [m]
  simp only
  rw [computeRhoj_rev]
  rfl

theorem advance_rev (c : SolverCfg) (rb : ℕ → ℝ) (w : World) (step : ℝ) : advance c.rev rb w.rev step = (advance c rb w step).rev := by
  unfold advance
  rw [predict_rev, show c.rev.corrector = c.corrector from rfl]
  generalize predict c w step = t
  induction c.corrector generalizing t with
  | zero => rfl
  | succ n ih => rw [Function.iterate_succ_apply, Function.iterate_succ_apply, correct_rev, ih]

theorem needRefine_rev (c : SolverCfg) (w : World) (step : ℝ) : needRefine c.rev w.rev step = needRefine c w step := by
  unfold needRefine
  simp only
  rw [predict_rev]
  have : (∃ row ∈ (predict c w step).rev.cur.el :: (predict c w step).rev.cur.ions, ∃ i ≤ c.rev.M, |step * row.jz i| > c.rev.sens) ↔
      ∃ row ∈ (predict c w step).cur.el :: (predict c w step).cur.ions, ∃ i ≤ c.M, |step * row.jz i| > c.sens := by
    rw [show (predict c w step).rev.cur.el :: (predict c w step).rev.cur.ions = ((predict c w step).cur.el :: (predict c w step).cur.ions).map Cur.rev from rfl]
    simp only [List.mem_map]
    constructor
    · rintro ⟨_, ⟨r, hr, rfl⟩, i, hi, h⟩; exact ⟨r, hr, i, hi, h⟩
    · rintro ⟨r, hr, i, hi, h⟩; exact ⟨_, ⟨r, hr, rfl⟩, i, hi, h⟩
  simp only [this]

def Conf.rev : Conf World → Conf World
  | .done w => .done w.rev
  | .go s => .go { s with w := s.w.rev }

theorem turn_rev (c : SolverCfg) (rb : ℕ → ℝ) (k : Conf World) :
    turn (needRefine c.rev) (advance c.rev rb) c.rev.depth (Conf.rev k) = Conf.rev (turn (needRefine c) (advance c rb) c.depth k) := by
  cases k with
  | done w => rfl
  | go s =>
    unfold turn
    simp only [Conf.rev]
    rw [needRefine_rev, show c.rev.depth = c.depth from rfl, advance_rev]
    split_ifs
    · rfl
    · unfold afterAccept
      simp only
      split_ifs <;> rfl

/-- C56: one layer. -/
theorem stepDxi_rev (c : SolverCfg) (rb : ℕ → ℝ) (L : ℝ) (w : World) : stepDxi c.rev rb L w.rev = Conf.rev (stepDxi c rb L w) := by
  unfold stepDxi
  rw [show c.rev.depth = c.depth from rfl, show startLayer w.rev L = Conf.rev (startLayer w L) from rfl]
  generalize startLayer w L = k
  induction turns c.depth generalizing k with
  | zero => rfl
  | succ n ih => rw [Function.iterate_succ_apply, Function.iterate_succ_apply, ← ih]; congr 1; exact turn_rev c rb k

end Lcode.Plasma2D
