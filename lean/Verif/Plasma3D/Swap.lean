import Verif.Plasma3D.Step

/-!
Property C44: the 3D plasma solver treats the two transverse axes alike. Exchanging x and y in the input exchanges them in the output.
(The code treats the axes by separate expressions: transposed solvers for Ex and By, signs for the magnetic field, separate branches of the reflection.)
-/

namespace Lcode.Plasma3D

/-! ### Specification: the exchange of x and y (a mirror, so the magnetic field, an axial vector, changes sign) -/

def Ptl.swap (p : Ptl) : Ptl := ⟨p.y0, p.x0, p.y, p.x, p.py, p.px, p.pz, p.q, p.m⟩

def Cur.swap (c : Cur) : Cur := ⟨tr c.ro, tr c.jy, tr c.jx, tr c.jz⟩

def neg2 (u : ℤ → ℤ → ℝ) : ℤ → ℤ → ℝ := fun i j => -u i j

def Fields3.swap (F : Fields3) : Fields3 := ⟨tr F.Ey, tr F.Ex, tr F.Ez, neg2 (tr F.By), neg2 (tr F.Bx), neg2 (tr F.Bz), tr F.Phi⟩

def W3.swap (w : W3) : W3 := ⟨w.el.map Ptl.swap, w.ions.map fun l => l.map Ptl.swap, w.chx, w.chy, w.F.swap, (w.cur.1.swap, w.cur.2.swap)⟩

/-! ### Particles -/

def Vec3.swap (v : Vec3) : Vec3 := ⟨v.y, v.x, v.z⟩
def Vec3.swapB (v : Vec3) : Vec3 := ⟨-v.y, -v.x, -v.z⟩

theorem stencil_swap (N : ℤ) (xh yh : ℝ) (F : ℤ → ℤ → ℝ) : interpolate N yh xh (tr F) = interpolate N xh yh F := by
  simp only [interpolate, stencil, places, tr, List.flatMap_cons, List.flatMap_nil, List.map_cons, List.map_nil, List.cons_append, List.nil_append, List.append_nil, List.foldl_cons, List.foldl_nil, div_one]
  ring

theorem interpolate_neg (N : ℤ) (xh yh : ℝ) (F : ℤ → ℤ → ℝ) : interpolate N xh yh (neg2 F) = -interpolate N xh yh F := by
  simp only [interpolate, stencil, places, neg2, List.flatMap_cons, List.flatMap_nil, List.map_cons, List.map_nil, List.cons_append, List.nil_append, List.append_nil, List.foldl_cons, List.foldl_nil, div_one]
  ring

theorem fieldE_swap (c : MCfg) (F : Fields3) (x y : ℝ) : fieldE c F.swap y x = (fieldE c F x y).swap := by
  simp only [fieldE, Fields3.swap, Vec3.swap, stencil_swap]

theorem fieldB_swap (c : MCfg) (F : Fields3) (x y : ℝ) : fieldB c F.swap y x = (fieldB c F x y).swapB := by
  simp only [fieldB, Fields3.swap, Vec3.swapB, interpolate_neg, stencil_swap]

theorem sqrt_swap (m x y z : ℝ) : Real.sqrt (m ^ 2 + z ^ 2 + y ^ 2 + x ^ 2) = Real.sqrt (m ^ 2 + z ^ 2 + x ^ 2 + y ^ 2) := by congr 1; ring

theorem kick3_swap (q m dxi : ℝ) (E B p : Vec3) : kick3 q m dxi E.swap B.swapB p.swap = (kick3 q m dxi E B p).swap := by
  simp only [kick3, Vec3.swap, Vec3.swapB, sqrt_swap m p.x p.y p.z, Vec3.mk.injEq]
  refine ⟨?_, ?_, ?_⟩ <;> ring

def Corr.swap (c : Corr) : Corr := ⟨c.y, c.x, c.yo, c.xo, c.p.swap⟩

theorem refl_comm (b y0 x0 : ℝ) (c : Corr) :
    (reflRight b x0 c.swap = (reflTop b x0 c).swap) ∧ (reflLeft b x0 c.swap = (reflBottom b x0 c).swap) ∧
    (reflTop b y0 c.swap = (reflRight b y0 c).swap) ∧ (reflBottom b y0 c.swap = (reflLeft b y0 c).swap) := by
  refine ⟨?_, ?_, ?_, ?_⟩
  · by_cases h : c.y > b <;> simp [reflRight, reflTop, Corr.swap, Vec3.swap, h]
  · by_cases h : c.y < -b <;> simp [reflLeft, reflBottom, Corr.swap, Vec3.swap, h]
  · by_cases h : c.x > b <;> simp [reflRight, reflTop, Corr.swap, Vec3.swap, h]
  · by_cases h : c.x < -b <;> simp [reflLeft, reflBottom, Corr.swap, Vec3.swap, h]

theorem refl_order (b x0 y0 : ℝ) (c : Corr) : reflLeft b x0 (reflRight b x0 (reflBottom b y0 (reflTop b y0 c))) = reflBottom b y0 (reflTop b y0 (reflLeft b x0 (reflRight b x0 c))) := by
  have rt : ∀ c, reflRight b x0 (reflTop b y0 c) = reflTop b y0 (reflRight b x0 c) := by
    intro c; unfold reflRight reflTop; by_cases h1 : c.x > b <;> by_cases h2 : c.y > b <;> simp [h1, h2]
  have rb : ∀ c, reflRight b x0 (reflBottom b y0 c) = reflBottom b y0 (reflRight b x0 c) := by
    intro c; unfold reflRight reflBottom; by_cases h1 : c.x > b <;> by_cases h2 : c.y < -b <;> simp [h1, h2]
  have lt : ∀ c, reflLeft b x0 (reflTop b y0 c) = reflTop b y0 (reflLeft b x0 c) := by
    intro c; unfold reflLeft reflTop; by_cases h1 : c.x < -b <;> by_cases h2 : c.y > b <;> simp [h1, h2]
  have lb : ∀ c, reflLeft b x0 (reflBottom b y0 c) = reflBottom b y0 (reflLeft b x0 c) := by
    intro c; unfold reflLeft reflBottom; by_cases h1 : c.x < -b <;> by_cases h2 : c.y < -b <;> simp [h1, h2]
  rw [rb, rt, lb, lt]

theorem correctBoundary_swap (x0 y0 xo yo : ℝ) (p : Vec3) (b : ℝ) : correctBoundary y0 x0 yo xo p.swap b = (correctBoundary x0 y0 xo yo p b).swap := by
  unfold correctBoundary
  rw [show (⟨y0 + yo, x0 + xo, yo, xo, p.swap⟩ : Corr) = Corr.swap ⟨x0 + xo, y0 + yo, xo, yo, p⟩ from rfl]
  rw [(refl_comm b x0 y0 _).1, (refl_comm b x0 y0 _).2.1, (refl_comm b x0 y0 _).2.2.1, (refl_comm b x0 y0 _).2.2.2, refl_order]

theorem half3_swap (c : MCfg) (prev full : Ptl) : half3 c prev.swap full.swap = (half3 c prev full).swap := by
  unfold half3
  exact correctBoundary_swap prev.x0 prev.y0 ((prev.x + full.x) / 2) ((prev.y + full.y) / 2) ⟨prev.px, prev.py, prev.pz⟩ c.boundary

theorem finish3_swap (c : MCfg) (prev full : Ptl) (op mid d : Vec3) : finish3 c prev.swap full.swap op.swap mid.swap d.swap = (finish3 c prev full op mid d).swap := by
  unfold finish3
  simp only [Vec3.swap, Ptl.swap, sqrt_swap full.m mid.x mid.y mid.z]
  rw [show (⟨op.y + d.y, op.x + d.x, op.z + d.z⟩ : Vec3) = Vec3.swap ⟨op.x + d.x, op.y + d.y, op.z + d.z⟩ from rfl, correctBoundary_swap]
  generalize correctBoundary _ _ _ _ _ _ = r
  have e1 : r.swap.xo = r.yo := rfl
  have e2 : r.swap.yo = r.xo := rfl
  by_cases h : prev.x0 + r.xo ≥ c.boundary ∨ prev.x0 + r.xo ≤ -c.boundary ∨ prev.y0 + r.yo ≥ c.boundary ∨ prev.y0 + r.yo ≤ -c.boundary
  · rw [if_pos h, if_pos (by rw [e1, e2]; tauto)]
  · rw [if_neg h, if_neg (by rw [e1, e2]; tauto)]
    rfl

theorem moveOne_swap (c : MCfg) (F : Fields3) (prev full : Ptl) : moveOne c F.swap prev.swap full.swap = (moveOne c F prev full).swap := by
  unfold moveOne
  by_cases hq : full.q = 0
  · rw [if_pos hq, if_pos (show full.swap.q = 0 from hq)]
  · rw [if_neg hq, if_neg (show ¬full.swap.q = 0 from hq)]
    simp only [half3_swap]
    rw [show (half3 c prev full).swap.x = (half3 c prev full).y from rfl, show (half3 c prev full).swap.y = (half3 c prev full).x from rfl, fieldE_swap, fieldB_swap,
      show (half3 c prev full).swap.p = (half3 c prev full).p.swap from rfl, show full.swap.q = full.q from rfl, show full.swap.m = full.m from rfl,
      show (⟨prev.swap.px, prev.swap.py, prev.swap.pz⟩ : Vec3) = Vec3.swap ⟨prev.px, prev.py, prev.pz⟩ from rfl]
    have ah : ∀ a b : Vec3, addHalf a.swap b.swap = (addHalf a b).swap := fun a b => rfl
    simp only [kick3_swap, ah, finish3_swap]

theorem moveFree_swap (dxi : ℝ) (p : Ptl) : moveFree dxi p.swap = (moveFree dxi p).swap := by
  unfold moveFree
  by_cases hm : p.m = 0
  · rw [if_pos hm, if_pos (show p.swap.m = 0 from hm)]
  · rw [if_neg hm, if_neg (show ¬p.swap.m = 0 from hm)]
    simp only [Ptl.swap, sqrt_swap p.m p.px p.py p.pz]

theorem moveSort_swap (c : MCfg) (F : Fields3) (a b : List Ptl) : moveSort c F.swap (a.map Ptl.swap) (b.map Ptl.swap) = (moveSort c F a b).map Ptl.swap := by
  unfold moveSort
  induction a generalizing b with
  | nil => rfl
  | cons p a ih =>
    cases b with
    | nil => rfl
    | cons q b => simp only [List.map_cons, List.zipWith_cons_cons, ih b, moveOne_swap]

theorem depositSort_swap (N : ℤ) (h : ℝ) (ps : List Ptl) : depositSort N h (ps.map Ptl.swap) = (depositSort N h ps).swap := by
  have e : ∀ (i j : ℤ) (f g : Ptl → ℝ), (∀ p, f p.swap = g p) → ((ps.map Ptl.swap).map fun p => f p * shape N h p i j).sum = (ps.map fun p => g p * shape N h p j i).sum := by
    intro i j f g hfg
    rw [List.map_map]
    congr 1
    apply List.map_congr_left
    intro p _
    simp only [Function.comp, hfg]
    simp only [shape, Ptl.swap, Ptl.X, Ptl.Y]
    ring
  have sq : ∀ p : Ptl, Real.sqrt (p.m ^ 2 + p.py ^ 2 + p.px ^ 2 + p.pz ^ 2) = Real.sqrt (p.m ^ 2 + p.px ^ 2 + p.py ^ 2 + p.pz ^ 2) := by intro p; congr 1; ring
  have ch : ∀ p : Ptl, charge3 p.swap = charge3 p := by intro p; simp only [charge3, Ptl.swap, sq p]
  have ext : ∀ a b : Cur, (∀ i j, a.ro i j = b.ro i j ∧ a.jx i j = b.jx i j ∧ a.jy i j = b.jy i j ∧ a.jz i j = b.jz i j) → a = b := by
    intro a b hab
    obtain ⟨a1, a2, a3, a4⟩ := a
    obtain ⟨b1, b2, b3, b4⟩ := b
    rw [Cur.mk.injEq]
    exact ⟨funext fun i => funext fun j => (hab i j).1, funext fun i => funext fun j => (hab i j).2.1, funext fun i => funext fun j => (hab i j).2.2.1, funext fun i => funext fun j => (hab i j).2.2.2⟩
  apply ext
  intro i j
  obtain ⟨h1, h2, h3, h4⟩ := depositSort_shape N h (ps.map Ptl.swap) i j
  obtain ⟨g1, g2, g3, g4⟩ := depositSort_shape N h ps j i
  rw [h1, h2, h3, h4]
  simp only [Cur.swap, tr]
  rw [g1, g2, g3, g4]
  refine ⟨?_, ?_, ?_, ?_⟩ <;> congr 1 <;> apply e
  · exact ch
  · intro p; simp only [curX, curY, ch]; simp only [Ptl.swap, sq p]
  · intro p; simp only [curX, curY, ch]; simp only [Ptl.swap, sq p]
  · intro p; simp only [curZ, ch]; simp only [Ptl.swap, sq p]

/-! ### Fields -/

theorem dst2_tr (L : ℕ) (hL : 1 ≤ L) (u : ℤ → ℤ → ℝ) : dst2 L (tr u) = tr (dst2 L u) := by
  funext k l
  unfold tr dst2
  exact (dst1_dst1_comm L hL (fun n m => u n m) l k).symm

theorem dct2_tr (L : ℕ) (hL : 1 ≤ L) (u : ℤ → ℤ → ℝ) : dct2 L (tr u) = tr (dct2 L u) := by
  funext k l
  unfold tr dct2
  exact (dct1_dct1_comm L hL (fun n m => u n m) l k).symm

theorem dirichletSolve_tr (L : ℕ) (hL : 1 ≤ L) (h : ℝ) (u : ℤ → ℤ → ℝ) : dirichletSolve L h (tr u) = tr (dirichletSolve L h u) := by
  unfold dirichletSolve
  have e : (fun k l => dst2 L (tr u) k l * dirichletMatrix L h k l) = tr fun k l => dst2 L u k l * dirichletMatrix L h k l := by
    rw [dst2_tr L hL]
    funext k l
    simp only [tr, dirichletMatrix, add_comm]
  rw [e, dst2_tr L hL]
  funext i j
  simp only [pad1, tr, and_comm]

theorem neumannSolve_tr (L : ℕ) (hL : 1 ≤ L) (h : ℝ) (u : ℤ → ℤ → ℝ) : neumannSolve L h (tr u) = tr (neumannSolve L h u) := by
  unfold neumannSolve
  have e : (fun k l => dct2 L (tr u) k l * neumannMatrix L h k l) = tr fun k l => dct2 L u k l * neumannMatrix L h k l := by
    rw [dct2_tr L hL]
    funext k l
    simp only [tr, neumannMatrix, add_comm, and_comm]
  rw [e, dct2_tr L hL]

theorem dct1_neg (L : ℕ) (u : ℤ → ℝ) (k : ℤ) : dct1 L (fun n => -u n) k = -dct1 L u k := by
  have := dct1_mul L (-1) u k
  simp only [neg_one_mul] at this
  exact this

theorem dst1_neg (L : ℕ) (u : ℤ → ℝ) (k : ℤ) : dst1 L (fun n => -u n) k = -dst1 L u k := by
  have := dst1_mul L (-1) u k
  simp only [neg_one_mul] at this
  exact this

theorem neumannSolve_neg (L : ℕ) (h : ℝ) (u : ℤ → ℤ → ℝ) : neumannSolve L h (neg2 u) = neg2 (neumannSolve L h u) := by
  funext i j
  simp only [neumannSolve, neg2, dct2, dct1_neg, neg_mul]

theorem mixSolve_neg (L : ℕ) (h κ : ℝ) (u : ℤ → ℤ → ℝ) : mixSolve L h κ (neg2 u) = neg2 (mixSolve L h κ u) := by
  have e : ∀ v, mix2d L (neg2 v) = neg2 (mix2d L v) := by
    intro v
    funext i j
    simp only [mix2d, neg2, mixT, dct1_neg, dst1_neg]
    split <;> simp
  unfold mixSolve
  have e2 : (fun k l => mixedMatrix L h κ k l * mix2d L (neg2 u) k l) = neg2 fun k l => mixedMatrix L h κ k l * mix2d L u k l := by
    rw [e]
    funext k l
    simp only [neg2, mul_neg]
  rw [e2, e]

theorem dxArr_tr (L : ℕ) (h : ℝ) (a : ℤ → ℤ → ℝ) (i j : ℤ) : dxArr L h (tr a) i j = dyArr L h a j i := by
  simp only [dxArr, dyArr, tr, and_comm]

theorem dyArr_tr (L : ℕ) (h : ℝ) (a : ℤ → ℤ → ℝ) (i j : ℤ) : dyArr L h (tr a) i j = dxArr L h a j i := by
  simp only [dxArr, dyArr, tr, and_comm]

theorem roHalf_swap (full prev : Cur) (bF bP : ℤ → ℤ → ℝ) : roHalf full.swap prev.swap (tr bF) (tr bP) = tr (roHalf full prev bF bP) := rfl
theorem jzHalf_swap (full prev : Cur) (bF bP : ℤ → ℤ → ℝ) : jzHalf full.swap prev.swap (tr bF) (tr bP) = tr (jzHalf full prev bF bP) := rfl

theorem calcEx_swap (c : FCfg) (F : Fields3) (bF bP : ℤ → ℤ → ℝ) (full prev : Cur) : calcEx c F.swap (tr bF) (tr bP) full.swap prev.swap = tr (calcEy c F bF bP full prev) := by
  unfold calcEx calcEy
  simp only [roHalf_swap]
  funext i j
  simp only [tr]
  congr 1
  funext a b
  rw [dxArr_tr]
  rfl

theorem calcEy_swap (c : FCfg) (F : Fields3) (bF bP : ℤ → ℤ → ℝ) (full prev : Cur) : calcEy c F.swap (tr bF) (tr bP) full.swap prev.swap = tr (calcEx c F bF bP full prev) := by
  unfold calcEx calcEy
  simp only [roHalf_swap]
  funext i j
  simp only [tr]
  congr 1
  funext a b
  rw [dyArr_tr]
  rfl

theorem calcBx_swap (c : FCfg) (F : Fields3) (bF bP : ℤ → ℤ → ℝ) (full prev : Cur) : calcBx c F.swap (tr bF) (tr bP) full.swap prev.swap = neg2 (tr (calcBy c F bF bP full prev)) := by
  unfold calcBx calcBy
  simp only [jzHalf_swap]
  have : (fun i j => dyArr c.L c.h (tr (jzHalf full prev bF bP)) i j - djDxi c.dxi prev.swap.jy full.swap.jy i j + c.κ * F.swap.Bx i j) =
      neg2 fun a b => -(dxArr c.L c.h (jzHalf full prev bF bP) b a - djDxi c.dxi prev.jx full.jx b a - c.κ * F.By b a) := by
    funext i j
    rw [dyArr_tr]
    simp only [neg2, Fields3.swap, Cur.swap, tr, djDxi]
    ring
  rw [this, mixSolve_neg]
  rfl

theorem calcBy_swap (c : FCfg) (F : Fields3) (bF bP : ℤ → ℤ → ℝ) (full prev : Cur) : calcBy c F.swap (tr bF) (tr bP) full.swap prev.swap = neg2 (tr (calcBx c F bF bP full prev)) := by
  unfold calcBx calcBy
  simp only [jzHalf_swap]
  have : (fun a b => -(dxArr c.L c.h (tr (jzHalf full prev bF bP)) b a - djDxi c.dxi prev.swap.jx full.swap.jx b a - c.κ * F.swap.By b a)) =
      neg2 fun i j => dyArr c.L c.h (jzHalf full prev bF bP) i j - djDxi c.dxi prev.jy full.jy i j + c.κ * F.Bx i j := by
    funext i j
    rw [dxArr_tr]
    simp only [neg2, Fields3.swap, Cur.swap, tr, djDxi]
    ring
  rw [this, mixSolve_neg]
  rfl

theorem calcEz_swap (L : ℕ) (hL : 1 ≤ L) (h : ℝ) (c : Cur) : calcEz L h c.swap = tr (calcEz L h c) := by
  unfold calcEz
  rw [← dirichletSolve_tr L hL]
  congr 1
  funext i j
  simp only [ezRhs, Cur.swap, tr]
  ring

theorem calcPhi_swap (L : ℕ) (hL : 1 ≤ L) (h : ℝ) (c : Cur) : calcPhi L h c.swap = tr (calcPhi L h c) := by
  unfold calcPhi
  rw [← dirichletSolve_tr L hL]
  rfl

theorem calcBz_swap (L : ℕ) (hL : 1 ≤ L) (h : ℝ) (c : Cur) : calcBz L h c.swap = neg2 (tr (calcBz L h c)) := by
  unfold calcBz
  have : bzRhs L h c.swap.jx c.swap.jy = neg2 (tr (bzRhs L h c.jx c.jy)) := by
    funext i j
    simp only [bzRhs, Cur.swap, tr, neg2, pad1, and_comm]
    ring
  simp only [this]
  rw [neumannSolve_neg, neumannSolve_tr L hL]
  have hm : meanAll L (neg2 (tr (neumannSolve L h (bzRhs L h c.jx c.jy)))) = -meanAll L (neumannSolve L h (bzRhs L h c.jx c.jy)) := by
    unfold meanAll neg2 tr
    simp only [Finset.sum_neg_distrib]
    rw [Finset.sum_comm, neg_div]
  rw [hm]
  funext i j
  simp only [neg2, tr]
  ring

theorem total_swap (c : Cur × Cur) : Cur.total (c.1.swap, c.2.swap) = (Cur.total c).swap := rfl

theorem computeFields_swap (c : FCfg) (hL : 1 ≤ c.L) (F Fp : Fields3) (bF bP : ℤ → ℤ → ℝ) (cp cf : Cur × Cur) :
    computeFields c F.swap Fp.swap (tr bF) (tr bP) (cp.1.swap, cp.2.swap) (cf.1.swap, cf.2.swap) =
      ((computeFields c F Fp bF bP cp cf).1.swap, (computeFields c F Fp bF bP cp cf).2.swap) := by
  unfold computeFields
  simp only [total_swap, calcEx_swap, calcEy_swap, calcBx_swap, calcBy_swap, calcEz_swap _ hL, calcBz_swap _ hL, calcPhi_swap _ hL]
  rw [Prod.mk.injEq]
  constructor
  · rw [Fields3.swap, Fields3.mk.injEq]
    refine ⟨rfl, rfl, rfl, ?_, ?_, rfl, rfl⟩ <;> funext i j <;> simp only [neg2, tr, Fields3.swap] <;> ring
  · rw [Fields3.swap, Fields3.mk.injEq]
    refine ⟨rfl, rfl, rfl, ?_, ?_, ?_, rfl⟩ <;> funext i j <;> simp only [neg2, tr, Fields3.swap] <;> ring

/-! ### C44 -/

def swapPair (a : List Ptl × Option (List Ptl)) : List Ptl × Option (List Ptl) := (a.1.map Ptl.swap, a.2.map fun l => l.map Ptl.swap)

theorem pushSorts_swap (c : SCfg) (c' : SCfg) (hc : c'.m = c.m) (F : Fields3) (w : W3) (full : List Ptl × Option (List Ptl)) : pushSorts c' F.swap w.swap (swapPair full) = swapPair (pushSorts c F w full) := by
  unfold pushSorts swapPair
  simp only [hc, W3.swap]
  rw [moveSort_swap]
  congr 1
  cases w.ions <;> cases full.2 <;> simp [moveSort_swap]

theorem rhojSorts_swap (c c' : SCfg) (hc : c'.m = c.m) (hr : c'.roInit = tr c.roInit) (full : List Ptl × Option (List Ptl)) : rhojSorts c' (swapPair full) = ((rhojSorts c full).1.swap, (rhojSorts c full).2.swap) := by
  unfold rhojSorts computeRhoj swapPair
  simp only [hc, hr, depositSort_swap]
  congr 1
  cases full.2 with
  | none => rfl
  | some l => simp only [Option.map_some, depositSort_swap]

theorem freeSorts_swap (c c' : SCfg) (hc : c'.m = c.m) (w : W3) : freeSorts c' w.swap = swapPair (freeSorts c w) := by
  unfold freeSorts swapPair W3.swap
  simp only [hc, List.map_map]
  have e : (moveFree c.m.dxi ∘ Ptl.swap) = (Ptl.swap ∘ moveFree c.m.dxi) := by funext p; exact moveFree_swap _ _
  rw [e]
  congr 1
  cases w.ions with
  | none => rfl
  | some l => simp only [Option.map_some, List.map_map, e]

/-- C44: exchanging x and y in the plasma, the fields, the currents, the ion background and the beam exchanges them in the result of a step (without declustering). -/
theorem step_swap (c : SCfg) (hN : 2 ≤ c.m.N) (hd : c.decl = none) (w : W3) (bF bP : ℤ → ℤ → ℝ) :
    stepDxi { c with roInit := tr c.roInit } w.swap (tr bF) (tr bP) = (stepDxi c w bF bP).swap := by
  have hL : 1 ≤ c.f.L := by unfold SCfg.f; simp only; omega
  have hf : SCfg.f { c with roInit := tr c.roInit } = c.f := rfl
  have hm : ({ c with roInit := tr c.roInit } : SCfg).m = c.m := rfl
  have hr : ({ c with roInit := tr c.roInit } : SCfg).roInit = tr c.roInit := rfl
  have pr : predictor { c with roInit := tr c.roInit } w.swap (tr bF) (tr bP) = (swapPair (predictor c w bF bP).1, ((predictor c w bF bP).2.1.swap, (predictor c w bF bP).2.2.swap)) := by
    unfold predictor
    simp only
    rw [hf, freeSorts_swap c _ hm, show w.swap.F = w.F.swap from rfl, show w.swap.cur = (w.cur.1.swap, w.cur.2.swap) from rfl,
      pushSorts_swap c _ hm, rhojSorts_swap c _ hm hr, computeFields_swap c.f hL]
    simp only
    rw [pushSorts_swap c _ hm, rhojSorts_swap c _ hm hr, computeFields_swap c.f hL]
  have st : ∀ (c : SCfg) (w : W3) (bF bP : ℤ → ℤ → ℝ), c.decl = none → stepDxi c w bF bP = ⟨(pushSorts c (predictor c w bF bP).2.2 w (predictor c w bF bP).1).1, (pushSorts c (predictor c w bF bP).2.2 w (predictor c w bF bP).1).2, w.chx, w.chy, (predictor c w bF bP).2.1, rhojSorts c (pushSorts c (predictor c w bF bP).2.2 w (predictor c w bF bP).1)⟩ := by
    intro c w bF bP h
    unfold stepDxi
    rw [h]
  rw [st c w bF bP hd, st { c with roInit := tr c.roInit } w.swap (tr bF) (tr bP) hd, pr]
  simp only
  rw [pushSorts_swap c _ hm, rhojSorts_swap c _ hm hr]
  rfl

/-- C44: over any number of layers and for every beam. -/
theorem run_swap (c : SCfg) (hN : 2 ≤ c.m.N) (hd : c.decl = none) (w : W3) (bP : ℤ → ℤ → ℝ) (bs : List (ℤ → ℤ → ℝ)) :
    runLayers { c with roInit := tr c.roInit } w.swap (tr bP) (bs.map tr) = (runLayers c w bP bs).swap := by
  induction bs generalizing w bP with
  | nil => rfl
  | cons b bs ih => rw [List.map_cons, runLayers, runLayers, step_swap c hN hd]; exact ih _ _

/-- The hypotheses are met by a 5 x 5 window. -/
example : 2 ≤ (⟨⟨1 / 100, 1 / 10, 5, 3⟩, 1, fun _ _ => 1, none⟩ : SCfg).m.N ∧ (⟨⟨1 / 100, 1 / 10, 5, 3⟩, 1, fun _ _ => 1, none⟩ : SCfg).decl = none := by
  constructor
  · norm_num
  · rfl

end Lcode.Plasma3D
