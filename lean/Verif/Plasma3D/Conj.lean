import Verif.Plasma3D.Swap

/-!
Property C55, 3D plasma: reversing the sign of every charge reverses all fields and currents and leaves every trajectory as it is, also with declustering.
-/

namespace Lcode.Plasma3D

/-! ### Specification -/

/-- The plasma particle with the opposite charge. -/
def Ptl.conj (p : Ptl) : Ptl := { p with q := -p.q }

def Cur.conj (c : Cur) : Cur := ⟨neg2 c.ro, neg2 c.jx, neg2 c.jy, neg2 c.jz⟩

def Fields3.conj (F : Fields3) : Fields3 := ⟨neg2 F.Ex, neg2 F.Ey, neg2 F.Ez, neg2 F.Bx, neg2 F.By, neg2 F.Bz, neg2 F.Phi⟩

/-- The plasma with all charges reversed. -/
def W3.conj (w : W3) : W3 := ⟨w.el.map Ptl.conj, w.ions.map fun l => l.map Ptl.conj, w.chx, w.chy, w.F.conj, (w.cur.1.conj, w.cur.2.conj)⟩

def Vec3.neg (v : Vec3) : Vec3 := ⟨-v.x, -v.y, -v.z⟩

/-! ### Motion -/

theorem fieldE_conj (c : MCfg) (F : Fields3) (x y : ℝ) : fieldE c F.conj x y = (fieldE c F x y).neg := by
  unfold fieldE Fields3.conj Vec3.neg
  simp only [interpolate_neg]

theorem fieldB_conj (c : MCfg) (F : Fields3) (x y : ℝ) : fieldB c F.conj x y = (fieldB c F x y).neg := by
  unfold fieldB Fields3.conj Vec3.neg
  simp only [interpolate_neg]

theorem kick3_conj (q m dxi : ℝ) (E B p : Vec3) : kick3 (-q) m dxi E.neg B.neg p = kick3 q m dxi E B p := by
  unfold kick3 Vec3.neg
  simp only [Vec3.mk.injEq]
  refine ⟨?_, ?_, ?_⟩ <;> ring

theorem half3_conj (c : MCfg) (prev full : Ptl) : half3 c prev.conj full.conj = half3 c prev full := rfl

theorem finish3_conj (c : MCfg) (prev full : Ptl) (op mid d : Vec3) : finish3 c prev.conj full.conj op mid d = (finish3 c prev full op mid d).conj := by
  unfold finish3
  dsimp only
  rw [apply_ite Ptl.conj]
  refine if_congr Iff.rfl ?_ rfl
  simp only [Ptl.conj, neg_zero]

theorem moveOne_conj (c : MCfg) (F : Fields3) (prev full : Ptl) : moveOne c F.conj prev.conj full.conj = (moveOne c F prev full).conj := by
  unfold moveOne
  by_cases hq : full.q = 0
  · rw [if_pos hq, if_pos (show full.conj.q = 0 by simp [Ptl.conj, hq])]
  · rw [if_neg hq, if_neg (show ¬full.conj.q = 0 by simp [Ptl.conj, hq])]
    simp only [half3_conj, fieldE_conj, fieldB_conj, show full.conj.q = -full.q from rfl, show full.conj.m = full.m from rfl, kick3_conj, finish3_conj]
    rfl

theorem moveFree_conj (dxi : ℝ) (p : Ptl) : moveFree dxi p.conj = (moveFree dxi p).conj := by
  unfold moveFree
  by_cases hm : p.m = 0
  · rw [if_pos hm, if_pos (show p.conj.m = 0 from hm)]
  · rw [if_neg hm, if_neg (show ¬p.conj.m = 0 from hm)]
    rfl

theorem moveSort_conj (c : MCfg) (F : Fields3) (a b : List Ptl) : moveSort c F.conj (a.map Ptl.conj) (b.map Ptl.conj) = (moveSort c F a b).map Ptl.conj := by
  unfold moveSort
  induction a generalizing b with
  | nil => rfl
  | cons p a ih =>
    cases b with
    | nil => rfl
    | cons q b => simp only [List.map_cons, List.zipWith_cons_cons, ih b, moveOne_conj]

theorem sum_map_neg (ps : List Ptl) (g : Ptl → ℝ) : (ps.map fun p => -g p).sum = -(ps.map g).sum := by
  induction ps with
  | nil => simp
  | cons p ps ih => simp only [List.map_cons, List.sum_cons, ih]; ring

theorem depositSort_conj (N : ℤ) (h : ℝ) (ps : List Ptl) : depositSort N h (ps.map Ptl.conj) = (depositSort N h ps).conj := by
  have e : ∀ (i j : ℤ) (f : Ptl → ℝ), (∀ p, f p.conj = -f p) → ((ps.map Ptl.conj).map fun p => f p * shape N h p i j).sum = -(ps.map fun p => f p * shape N h p i j).sum := by
    intro i j f hf
    rw [List.map_map, ← sum_map_neg]
    congr 1
    apply List.map_congr_left
    intro p _
    simp only [Function.comp, hf]
    rw [show shape N h p.conj i j = shape N h p i j from rfl, neg_mul]
  have ch : ∀ p : Ptl, charge3 p.conj = -charge3 p := by intro p; simp only [charge3, Ptl.conj, neg_div]
  have ext : ∀ a b : Cur, (∀ i j, a.ro i j = b.ro i j ∧ a.jx i j = b.jx i j ∧ a.jy i j = b.jy i j ∧ a.jz i j = b.jz i j) → a = b := by
    intro a b hab
    obtain ⟨a1, a2, a3, a4⟩ := a
    obtain ⟨b1, b2, b3, b4⟩ := b
    rw [Cur.mk.injEq]
    exact ⟨funext fun i => funext fun j => (hab i j).1, funext fun i => funext fun j => (hab i j).2.1, funext fun i => funext fun j => (hab i j).2.2.1, funext fun i => funext fun j => (hab i j).2.2.2⟩
  apply ext
  intro i j
  obtain ⟨h1, h2, h3, h4⟩ := depositSort_shape N h (ps.map Ptl.conj) i j
  obtain ⟨g1, g2, g3, g4⟩ := depositSort_shape N h ps i j
  rw [h1, h2, h3, h4]
  simp only [Cur.conj, neg2]
  rw [g1, g2, g3, g4, e i j charge3 ch, e i j curX, e i j curY, e i j curZ]
  · exact ⟨neg_div _ _, neg_div _ _, neg_div _ _, neg_div _ _⟩
  all_goals
    intro p
    simp only [curX, curY, curZ, ch]
    simp only [Ptl.conj]
    ring

/-! ### Fields -/

theorem dirichletSolve_neg (L : ℕ) (h : ℝ) (u : ℤ → ℤ → ℝ) : dirichletSolve L h (neg2 u) = neg2 (dirichletSolve L h u) := by
  funext i j
  simp only [dirichletSolve, neg2, dst2, dst1_neg, neg_mul, pad1]
  split <;> simp

theorem roHalf_conj (full prev : Cur) (bF bP : ℤ → ℤ → ℝ) : roHalf full.conj prev.conj (neg2 bF) (neg2 bP) = neg2 (roHalf full prev bF bP) := by
  funext i j; simp only [roHalf, Cur.conj, neg2]; ring

theorem jzHalf_conj (full prev : Cur) (bF bP : ℤ → ℤ → ℝ) : jzHalf full.conj prev.conj (neg2 bF) (neg2 bP) = neg2 (jzHalf full prev bF bP) := by
  funext i j; simp only [jzHalf, Cur.conj, neg2]; ring

theorem dxArr_neg (L : ℕ) (h : ℝ) (a : ℤ → ℤ → ℝ) (i j : ℤ) : dxArr L h (neg2 a) i j = -dxArr L h a i j := by
  simp only [dxArr, neg2]; split <;> ring

theorem dyArr_neg (L : ℕ) (h : ℝ) (a : ℤ → ℤ → ℝ) (i j : ℤ) : dyArr L h (neg2 a) i j = -dyArr L h a i j := by
  simp only [dyArr, neg2]; split <;> ring

theorem calcEx_conj (c : FCfg) (F : Fields3) (bF bP : ℤ → ℤ → ℝ) (full prev : Cur) : calcEx c F.conj (neg2 bF) (neg2 bP) full.conj prev.conj = neg2 (calcEx c F bF bP full prev) := by
  unfold calcEx
  simp only [roHalf_conj]
  have : (fun a b => -(dxArr c.L c.h (neg2 (roHalf full prev bF bP)) b a - djDxi c.dxi prev.conj.jx full.conj.jx b a - c.κ * F.conj.Ex b a)) =
      neg2 fun a b => -(dxArr c.L c.h (roHalf full prev bF bP) b a - djDxi c.dxi prev.jx full.jx b a - c.κ * F.Ex b a) := by
    funext a b
    rw [dxArr_neg]
    simp only [neg2, Fields3.conj, Cur.conj, djDxi]
    ring
  rw [this, mixSolve_neg]
  rfl

theorem calcEy_conj (c : FCfg) (F : Fields3) (bF bP : ℤ → ℤ → ℝ) (full prev : Cur) : calcEy c F.conj (neg2 bF) (neg2 bP) full.conj prev.conj = neg2 (calcEy c F bF bP full prev) := by
  unfold calcEy
  simp only [roHalf_conj]
  have : (fun i j => -(dyArr c.L c.h (neg2 (roHalf full prev bF bP)) i j - djDxi c.dxi prev.conj.jy full.conj.jy i j - c.κ * F.conj.Ey i j)) =
      neg2 fun i j => -(dyArr c.L c.h (roHalf full prev bF bP) i j - djDxi c.dxi prev.jy full.jy i j - c.κ * F.Ey i j) := by
    funext a b
    rw [dyArr_neg]
    simp only [neg2, Fields3.conj, Cur.conj, djDxi]
    ring
  rw [this, mixSolve_neg]

theorem calcBx_conj (c : FCfg) (F : Fields3) (bF bP : ℤ → ℤ → ℝ) (full prev : Cur) : calcBx c F.conj (neg2 bF) (neg2 bP) full.conj prev.conj = neg2 (calcBx c F bF bP full prev) := by
  unfold calcBx
  simp only [jzHalf_conj]
  have : (fun i j => dyArr c.L c.h (neg2 (jzHalf full prev bF bP)) i j - djDxi c.dxi prev.conj.jy full.conj.jy i j + c.κ * F.conj.Bx i j) =
      neg2 fun i j => dyArr c.L c.h (jzHalf full prev bF bP) i j - djDxi c.dxi prev.jy full.jy i j + c.κ * F.Bx i j := by
    funext a b
    rw [dyArr_neg]
    simp only [neg2, Fields3.conj, Cur.conj, djDxi]
    ring
  rw [this, mixSolve_neg]

theorem calcBy_conj (c : FCfg) (F : Fields3) (bF bP : ℤ → ℤ → ℝ) (full prev : Cur) : calcBy c F.conj (neg2 bF) (neg2 bP) full.conj prev.conj = neg2 (calcBy c F bF bP full prev) := by
  unfold calcBy
  simp only [jzHalf_conj]
  have : (fun a b => -(dxArr c.L c.h (neg2 (jzHalf full prev bF bP)) b a - djDxi c.dxi prev.conj.jx full.conj.jx b a - c.κ * F.conj.By b a)) =
      neg2 fun a b => -(dxArr c.L c.h (jzHalf full prev bF bP) b a - djDxi c.dxi prev.jx full.jx b a - c.κ * F.By b a) := by
    funext a b
    rw [dxArr_neg]
    simp only [neg2, Fields3.conj, Cur.conj, djDxi]
    ring
  rw [this, mixSolve_neg]
  rfl

theorem calcEz_conj (L : ℕ) (h : ℝ) (c : Cur) : calcEz L h c.conj = neg2 (calcEz L h c) := by
  unfold calcEz
  rw [← dirichletSolve_neg]
  congr 1
  funext i j
  simp only [ezRhs, Cur.conj, neg2]
  ring

theorem calcPhi_conj (L : ℕ) (h : ℝ) (c : Cur) : calcPhi L h c.conj = neg2 (calcPhi L h c) := by
  unfold calcPhi
  rw [← dirichletSolve_neg]
  congr 1
  funext i j
  simp only [Cur.conj, neg2]
  ring

theorem calcBz_conj (L : ℕ) (h : ℝ) (c : Cur) : calcBz L h c.conj = neg2 (calcBz L h c) := by
  unfold calcBz
  have : bzRhs L h c.conj.jx c.conj.jy = neg2 (bzRhs L h c.jx c.jy) := by
    funext i j
    simp only [bzRhs, Cur.conj, neg2, pad1]
    split <;> ring
  simp only [this]
  rw [neumannSolve_neg]
  have hm : meanAll L (neg2 (neumannSolve L h (bzRhs L h c.jx c.jy))) = -meanAll L (neumannSolve L h (bzRhs L h c.jx c.jy)) := by
    unfold meanAll neg2
    simp only [Finset.sum_neg_distrib]
    rw [neg_div]
  rw [hm]
  funext i j
  simp only [neg2]
  ring

theorem total_conj (c : Cur × Cur) : Cur.total (c.1.conj, c.2.conj) = (Cur.total c).conj := by
  unfold Cur.total Cur.conj
  simp only [Cur.mk.injEq]
  refine ⟨?_, ?_, ?_, ?_⟩ <;> funext i j <;> simp only [neg2] <;> ring

theorem computeFields_conj (c : FCfg) (F Fp : Fields3) (bF bP : ℤ → ℤ → ℝ) (cp cf : Cur × Cur) :
    computeFields c F.conj Fp.conj (neg2 bF) (neg2 bP) (cp.1.conj, cp.2.conj) (cf.1.conj, cf.2.conj) =
      ((computeFields c F Fp bF bP cp cf).1.conj, (computeFields c F Fp bF bP cp cf).2.conj) := by
  unfold computeFields
  simp only [total_conj, calcEx_conj, calcEy_conj, calcBx_conj, calcBy_conj, calcEz_conj, calcBz_conj, calcPhi_conj]
  rw [Prod.mk.injEq]
  constructor
  · rw [Fields3.conj, Fields3.mk.injEq]
    refine ⟨?_, ?_, rfl, ?_, ?_, rfl, rfl⟩ <;> funext i j <;> simp only [neg2, Fields3.conj] <;> ring
  · rw [Fields3.conj, Fields3.mk.injEq]
    refine ⟨rfl, rfl, ?_, rfl, rfl, ?_, rfl⟩ <;> funext i j <;> simp only [neg2, Fields3.conj] <;> ring

/-! ### C55 -/

def conjPair (a : List Ptl × Option (List Ptl)) : List Ptl × Option (List Ptl) := (a.1.map Ptl.conj, a.2.map fun l => l.map Ptl.conj)

theorem pushSorts_conj (c c' : SCfg) (hc : c'.m = c.m) (F : Fields3) (w : W3) (full : List Ptl × Option (List Ptl)) : pushSorts c' F.conj w.conj (conjPair full) = conjPair (pushSorts c F w full) := by
  unfold pushSorts conjPair
  simp only [hc, W3.conj]
  rw [moveSort_conj]
  congr 1
  cases w.ions <;> cases full.2 <;> simp [moveSort_conj]

theorem rhojSorts_conj (c c' : SCfg) (hc : c'.m = c.m) (hr : c'.roInit = neg2 c.roInit) (full : List Ptl × Option (List Ptl)) : rhojSorts c' (conjPair full) = ((rhojSorts c full).1.conj, (rhojSorts c full).2.conj) := by
  unfold rhojSorts computeRhoj conjPair
  simp only [hc, hr, depositSort_conj]
  congr 1
  cases full.2 with
  | none =>
    simp only [Option.map_none, Cur.conj, Cur.zero, Cur.mk.injEq, true_and]
    refine ⟨?_, ?_, ?_⟩ <;> funext i j <;> simp [neg2]
  | some l => simp only [Option.map_some, depositSort_conj]

theorem freeSorts_conj (c c' : SCfg) (hc : c'.m = c.m) (w : W3) : freeSorts c' w.conj = conjPair (freeSorts c w) := by
  unfold freeSorts conjPair W3.conj
  simp only [hc, List.map_map]
  have e : (moveFree c.m.dxi ∘ Ptl.conj) = (Ptl.conj ∘ moveFree c.m.dxi) := by funext p; exact moveFree_conj _ _
  rw [e]
  congr 1
  cases w.ions with
  | none => rfl
  | some l => simp only [Option.map_some, List.map_map, e]

theorem entry_conj (n : ℕ) (ps : List Ptl) (g : Ptl → ℝ) (hg : ∀ p, g p.conj = g p) : entry n (ps.map Ptl.conj) g = entry n ps g := by
  funext i j
  unfold entry
  rw [List.getElem?_map]
  cases ps[(i * n + j).toNat]? with
  | none => rfl
  | some p => exact hg p

theorem filterSort_conj (d : NCfg) (el : List Ptl) (chx chy : ℤ → ℤ → ℝ) :
    filterSort d (el.map Ptl.conj) chx chy = ((filterSort d el chx chy).1.map Ptl.conj, (filterSort d el chx chy).2) := by
  unfold filterSort
  simp only
  rw [entry_conj _ _ _ fun _ => rfl, entry_conj _ _ _ fun _ => rfl, entry_conj _ _ _ fun _ => rfl, entry_conj _ _ _ fun _ => rfl]
  rw [Prod.mk.injEq]
  refine ⟨?_, rfl⟩
  apply List.ext_getElem
  · simp
  · intro k _ _
    simp only [List.getElem_mapIdx, List.getElem_map, Ptl.conj]

/-- C55: with the charges of all plasma particles, the ion background, the currents, the fields and the beam reversed, a step gives the plasma with all charges, currents and fields reversed, and the same positions and momenta. -/
theorem step_conj (c : SCfg) (w : W3) (bF bP : ℤ → ℤ → ℝ) : stepDxi { c with roInit := neg2 c.roInit } w.conj (neg2 bF) (neg2 bP) = (stepDxi c w bF bP).conj := by
  have hf : SCfg.f { c with roInit := neg2 c.roInit } = c.f := rfl
  have hm : ({ c with roInit := neg2 c.roInit } : SCfg).m = c.m := rfl
  have hr : ({ c with roInit := neg2 c.roInit } : SCfg).roInit = neg2 c.roInit := rfl
  have pr : predictor { c with roInit := neg2 c.roInit } w.conj (neg2 bF) (neg2 bP) = (conjPair (predictor c w bF bP).1, ((predictor c w bF bP).2.1.conj, (predictor c w bF bP).2.2.conj)) := by
    unfold predictor
    simp only
    rw [hf, freeSorts_conj c _ hm, show w.conj.F = w.F.conj from rfl, show w.conj.cur = (w.cur.1.conj, w.cur.2.conj) from rfl,
      pushSorts_conj c _ hm, rhojSorts_conj c _ hm hr, computeFields_conj c.f]
    simp only
    rw [pushSorts_conj c _ hm, rhojSorts_conj c _ hm hr, computeFields_conj c.f]
  unfold stepDxi
  dsimp only
  rw [pr]
  dsimp only
  rw [pushSorts_conj c _ hm]
  cases c.decl with
  | none =>
    dsimp only
    rw [rhojSorts_conj c _ (by rfl) (by rfl)]
    rfl
  | some d =>
    dsimp only
    rw [show (conjPair (pushSorts c (predictor c w bF bP).2.2 w (predictor c w bF bP).1)).1 = (pushSorts c (predictor c w bF bP).2.2 w (predictor c w bF bP).1).1.map Ptl.conj from rfl,
      show w.conj.chx = w.chx from rfl, show w.conj.chy = w.chy from rfl, filterSort_conj]
    generalize filterSort d (pushSorts c (predictor c w bF bP).2.2 w (predictor c w bF bP).1).1 w.chx w.chy = r
    generalize pushSorts c (predictor c w bF bP).2.2 w (predictor c w bF bP).1 = p
    rw [show ((r.1.map Ptl.conj, r.2).1, (conjPair p).2) = conjPair (r.1, p.2) from rfl, rhojSorts_conj c _ (by rfl) (by rfl)]
    rfl

end Lcode.Plasma3D
