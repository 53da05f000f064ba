import Verif.Plasma3D.Swap

/-!
Property C49: the 3D plasma solver is symmetric under reflection in a transverse axis, x ↦ -x (and, with C44, y ↦ -y).
The code does not treat the two directions of an axis alike: the cells are found by rounding down, the walls are tested right first and left second, arrays run from 0 up.
-/

namespace Lcode.Plasma3D

open Finset

/-! ### Specification: the reflection x ↦ -x (the magnetic field is an axial vector) -/

def Ptl.mirror (p : Ptl) : Ptl := ⟨-p.x0, p.y0, -p.x, p.y, -p.px, p.py, p.pz, p.q, p.m⟩

/-- An array read from the other end of the first axis; nodes run from 0 to `L`. -/
def mx (L : ℕ) (u : ℤ → ℤ → ℝ) : ℤ → ℤ → ℝ := fun i j => u (L - i) j

def Cur.mirror (L : ℕ) (c : Cur) : Cur := ⟨mx L c.ro, neg2 (mx L c.jx), mx L c.jy, mx L c.jz⟩

def Fields3.mirror (L : ℕ) (F : Fields3) : Fields3 := ⟨neg2 (mx L F.Ex), mx L F.Ey, mx L F.Ez, mx L F.Bx, neg2 (mx L F.By), neg2 (mx L F.Bz), mx L F.Phi⟩

def W3.mirror (L : ℕ) (w : W3) : W3 := ⟨w.el.map Ptl.mirror, w.ions.map fun l => l.map Ptl.mirror, w.chx, w.chy, w.F.mirror L, (w.cur.1.mirror L, w.cur.2.mirror L)⟩

/-! ### Transforms -/

/-- Sign of a sine mode under reflection. -/
noncomputable def sg (k : ℤ) : ℝ := -(-1 : ℝ) ^ k

noncomputable def tau (k : ℤ) : ℝ := (-1 : ℝ) ^ k

theorem trap_flip (L : ℕ) (g : ℤ → ℝ) : trap L (fun k => g (L - k)) = trap L g := by
  unfold trap
  rw [← Finset.sum_range_reflect]
  apply Finset.sum_congr rfl
  intro k hk
  rw [Finset.mem_range] at hk
  have e1 : (L : ℤ) - ((L - 1 - k : ℕ) : ℤ) = k + 1 := by omega
  have e2 : (L : ℤ) - (((L - 1 - k : ℕ) : ℤ) + 1) = k := by omega
  beta_reduce
  rw [e1, e2]
  ring

theorem sin_flip (L : ℕ) (hL : 1 ≤ L) (k n : ℤ) : Real.sin (Real.pi * k * ((L - n : ℤ) : ℝ) / L) = sg k * Real.sin (Real.pi * k * n / L) := by
  have hLr : (L : ℝ) ≠ 0 := by exact_mod_cast (by omega : L ≠ 0)
  have : Real.pi * k * ((L - n : ℤ) : ℝ) / L = k * Real.pi - Real.pi * k * n / L := by push_cast; field_simp
  rw [this, Real.sin_int_mul_pi_sub]
  unfold sg
  ring

theorem cos_flip (L : ℕ) (hL : 1 ≤ L) (k n : ℤ) : Real.cos (Real.pi * k * ((L - n : ℤ) : ℝ) / L) = tau k * Real.cos (Real.pi * k * n / L) := by
  have hLr : (L : ℝ) ≠ 0 := by exact_mod_cast (by omega : L ≠ 0)
  have : Real.pi * k * ((L - n : ℤ) : ℝ) / L = k * Real.pi - Real.pi * k * n / L := by push_cast; field_simp
  rw [this, Real.cos_int_mul_pi_sub]
  rfl

theorem dst1_flip (L : ℕ) (hL : 1 ≤ L) (u : ℤ → ℝ) (k : ℤ) : dst1 L (fun n => u (L - n)) k = sg k * dst1 L u k := by
  rw [dst1_trap L hL, dst1_trap L hL, ← trap_flip, ← trap_mul]
  congr 1
  funext n
  rw [sin_flip L hL, sub_sub_cancel]
  ring

theorem dct1_flip (L : ℕ) (hL : 1 ≤ L) (u : ℤ → ℝ) (k : ℤ) : dct1 L (fun n => u (L - n)) k = tau k * dct1 L u k := by
  rw [dct1_trap L hL, dct1_trap L hL, ← trap_flip, ← trap_mul]
  congr 1
  funext n
  rw [cos_flip L hL, sub_sub_cancel]
  ring

theorem dst1_out (L : ℕ) (hL : 1 ≤ L) (u : ℤ → ℝ) (k : ℤ) : dst1 L u (L - k) = dst1 L (fun n => sg n * u n) k := by
  rw [dst1_trap L hL, dst1_trap L hL]
  congr 1
  funext n
  have := sin_flip L hL n k
  rw [show Real.pi * n * ((L - k : ℤ) : ℝ) / L = Real.pi * ((L - k : ℤ) : ℝ) * n / L by ring, show Real.pi * n * (k : ℝ) / L = Real.pi * k * n / L by ring] at this
  rw [this]
  ring

theorem dct1_out (L : ℕ) (hL : 1 ≤ L) (u : ℤ → ℝ) (k : ℤ) : dct1 L u (L - k) = dct1 L (fun n => tau n * u n) k := by
  rw [dct1_trap L hL, dct1_trap L hL]
  congr 1
  funext n
  have := cos_flip L hL n k
  rw [show Real.pi * n * ((L - k : ℤ) : ℝ) / L = Real.pi * ((L - k : ℤ) : ℝ) * n / L by ring, show Real.pi * n * (k : ℝ) / L = Real.pi * k * n / L by ring] at this
  rw [this]
  ring

/-! ### Solvers -/

theorem dst2_mx (L : ℕ) (hL : 1 ≤ L) (u : ℤ → ℤ → ℝ) (k l : ℤ) : dst2 L (mx L u) k l = sg k * dst2 L u k l := by
  unfold dst2 mx
  exact dst1_flip L hL (fun n => dst1 L (fun m => u n m) l) k

theorem mx_dst2 (L : ℕ) (hL : 1 ≤ L) (u : ℤ → ℤ → ℝ) : mx L (dst2 L u) = dst2 L fun k l => sg k * u k l := by
  funext k l
  unfold dst2 mx
  beta_reduce
  rw [dst1_out L hL]
  simp only [dst1_mul]

theorem dct2_mx (L : ℕ) (hL : 1 ≤ L) (u : ℤ → ℤ → ℝ) (k l : ℤ) : dct2 L (mx L u) k l = tau k * dct2 L u k l := by
  unfold dct2 mx
  exact dct1_flip L hL (fun n => dct1 L (fun m => u n m) l) k

theorem mx_dct2 (L : ℕ) (hL : 1 ≤ L) (u : ℤ → ℤ → ℝ) : mx L (dct2 L u) = dct2 L fun k l => tau k * u k l := by
  funext k l
  unfold dct2 mx
  beta_reduce
  rw [dct1_out L hL]
  simp only [dct1_mul]

theorem pad1_mx (L : ℕ) (u : ℤ → ℤ → ℝ) : pad1 L (mx L u) = mx L (pad1 L u) := by
  funext i j
  simp only [pad1, mx]
  by_cases h : (1 ≤ i ∧ i < L) ∧ (1 ≤ j ∧ j < L)
  · rw [if_pos h, if_pos (by omega)]
  · rw [if_neg h, if_neg (by omega)]

theorem dirichletSolve_mx (L : ℕ) (hL : 1 ≤ L) (h : ℝ) (u : ℤ → ℤ → ℝ) : dirichletSolve L h (mx L u) = mx L (dirichletSolve L h u) := by
  unfold dirichletSolve
  rw [← pad1_mx, mx_dst2 L hL]
  simp only [dst2_mx L hL, mul_assoc]

theorem neumannSolve_mx (L : ℕ) (hL : 1 ≤ L) (h : ℝ) (u : ℤ → ℤ → ℝ) : neumannSolve L h (mx L u) = mx L (neumannSolve L h u) := by
  unfold neumannSolve
  rw [mx_dct2 L hL]
  simp only [dct2_mx L hL, mul_assoc]

theorem mixT_mx (L : ℕ) (hL : 1 ≤ L) (u : ℤ → ℤ → ℝ) (k l : ℤ) : mixT L (mx L u) k l = sg k * mixT L u k l := by
  unfold mixT mx
  have : ∀ m, dst1 L (fun n => u (L - n) m) k = sg k * dst1 L (fun n => u n m) k := fun m => dst1_flip L hL (fun n => u n m) k
  simp only [this, dct1_mul]

theorem mixT_out (L : ℕ) (hL : 1 ≤ L) (u : ℤ → ℤ → ℝ) (k l : ℤ) : mixT L u (L - k) l = mixT L (fun k l => sg k * u k l) k l := by
  unfold mixT
  have : ∀ m, dst1 L (fun n => u n m) (L - k) = dst1 L (fun n => sg n * u n m) k := fun m => dst1_out L hL (fun n => u n m) k
  simp only [this]

/-- Reflection of the second axis. -/
def my (L : ℕ) (u : ℤ → ℤ → ℝ) : ℤ → ℤ → ℝ := fun i j => u i (L - j)

theorem mixT_my (L : ℕ) (hL : 1 ≤ L) (u : ℤ → ℤ → ℝ) (k l : ℤ) : mixT L (my L u) k l = tau l * mixT L u k l := by
  unfold mixT my
  exact dct1_flip L hL (fun m => dst1 L (fun n => u n m) k) l

theorem mixT_outy (L : ℕ) (hL : 1 ≤ L) (u : ℤ → ℤ → ℝ) (k l : ℤ) : mixT L u k (L - l) = mixT L (fun k l => tau l * u k l) k l := by
  unfold mixT
  rw [dct1_out L hL]
  simp only [dst1_mul]

theorem mix2d_mx (L : ℕ) (hL : 1 ≤ L) (u : ℤ → ℤ → ℝ) (k l : ℤ) : mix2d L (mx L u) k l = sg k * mix2d L u k l := by
  unfold mix2d
  split_ifs
  · exact mixT_mx L hL u k l
  · rw [mul_zero]

theorem mix2d_my (L : ℕ) (hL : 1 ≤ L) (u : ℤ → ℤ → ℝ) (k l : ℤ) : mix2d L (my L u) k l = tau l * mix2d L u k l := by
  unfold mix2d
  split_ifs
  · exact mixT_my L hL u k l
  · rw [mul_zero]

theorem mx_mix2d (L : ℕ) (hL : 1 ≤ L) (u : ℤ → ℤ → ℝ) : mx L (mix2d L u) = mix2d L fun k l => sg k * u k l := by
  funext k l
  simp only [mx, mix2d]
  by_cases h : 1 ≤ k ∧ k < L
  · rw [if_pos h, if_pos (by omega), mixT_out L hL]
  · rw [if_neg h, if_neg (by omega)]

theorem my_mix2d (L : ℕ) (hL : 1 ≤ L) (u : ℤ → ℤ → ℝ) : my L (mix2d L u) = mix2d L fun k l => tau l * u k l := by
  funext k l
  simp only [my, mix2d]
  split_ifs
  · rw [mixT_outy L hL]
  · rfl

theorem mixSolve_mx (L : ℕ) (hL : 1 ≤ L) (h κ : ℝ) (u : ℤ → ℤ → ℝ) : mixSolve L h κ (mx L u) = mx L (mixSolve L h κ u) := by
  unfold mixSolve
  rw [mx_mix2d L hL]
  simp only [mix2d_mx L hL, mul_left_comm]

theorem mixSolve_my (L : ℕ) (hL : 1 ≤ L) (h κ : ℝ) (u : ℤ → ℤ → ℝ) : mixSolve L h κ (my L u) = my L (mixSolve L h κ u) := by
  unfold mixSolve
  rw [my_mix2d L hL]
  simp only [mix2d_my L hL, mul_left_comm]

theorem dxArr_mx (L : ℕ) (h : ℝ) (a : ℤ → ℤ → ℝ) (i j : ℤ) : dxArr L h (mx L a) i j = -dxArr L h a (L - i) j := by
  simp only [dxArr, mx]
  by_cases g : (1 ≤ i ∧ i < L) ∧ (1 ≤ j ∧ j < L)
  · rw [if_pos g, if_pos (by omega), show (L : ℤ) - (i + 1) = L - i - 1 by ring, show (L : ℤ) - (i - 1) = L - i + 1 by ring]
    ring
  · rw [if_neg g, if_neg (by omega)]
    simp

theorem dyArr_mx (L : ℕ) (h : ℝ) (a : ℤ → ℤ → ℝ) (i j : ℤ) : dyArr L h (mx L a) i j = dyArr L h a (L - i) j := by
  simp only [dyArr, mx]
  by_cases g : (1 ≤ i ∧ i < L) ∧ (1 ≤ j ∧ j < L)
  · rw [if_pos g, if_pos (by omega)]
  · rw [if_neg g, if_neg (by omega)]

theorem roHalf_mirror (L : ℕ) (full prev : Cur) (bF bP : ℤ → ℤ → ℝ) : roHalf (full.mirror L) (prev.mirror L) (mx L bF) (mx L bP) = mx L (roHalf full prev bF bP) := rfl
theorem jzHalf_mirror (L : ℕ) (full prev : Cur) (bF bP : ℤ → ℤ → ℝ) : jzHalf (full.mirror L) (prev.mirror L) (mx L bF) (mx L bP) = mx L (jzHalf full prev bF bP) := rfl

theorem calcEy_mirror (c : FCfg) (hL : 1 ≤ c.L) (F : Fields3) (bF bP : ℤ → ℤ → ℝ) (full prev : Cur) :
    calcEy c (F.mirror c.L) (mx c.L bF) (mx c.L bP) (full.mirror c.L) (prev.mirror c.L) = mx c.L (calcEy c F bF bP full prev) := by
  unfold calcEy
  simp only [roHalf_mirror]
  rw [← mixSolve_mx c.L hL]
  congr 1
  funext i j
  rw [dyArr_mx]
  rfl

theorem calcBx_mirror (c : FCfg) (hL : 1 ≤ c.L) (F : Fields3) (bF bP : ℤ → ℤ → ℝ) (full prev : Cur) :
    calcBx c (F.mirror c.L) (mx c.L bF) (mx c.L bP) (full.mirror c.L) (prev.mirror c.L) = mx c.L (calcBx c F bF bP full prev) := by
  unfold calcBx
  simp only [jzHalf_mirror]
  rw [← mixSolve_mx c.L hL]
  congr 1
  funext i j
  rw [dyArr_mx]
  rfl

theorem calcEx_mirror (c : FCfg) (hL : 1 ≤ c.L) (F : Fields3) (bF bP : ℤ → ℤ → ℝ) (full prev : Cur) :
    calcEx c (F.mirror c.L) (mx c.L bF) (mx c.L bP) (full.mirror c.L) (prev.mirror c.L) = neg2 (mx c.L (calcEx c F bF bP full prev)) := by
  unfold calcEx
  simp only [roHalf_mirror]
  have : (fun a b => -(dxArr c.L c.h (mx c.L (roHalf full prev bF bP)) b a - djDxi c.dxi (prev.mirror c.L).jx (full.mirror c.L).jx b a - c.κ * (F.mirror c.L).Ex b a)) =
      neg2 (my c.L fun a b => -(dxArr c.L c.h (roHalf full prev bF bP) b a - djDxi c.dxi prev.jx full.jx b a - c.κ * F.Ex b a)) := by
    funext a b
    rw [dxArr_mx]
    simp only [neg2, my, mx, Cur.mirror, Fields3.mirror, djDxi]
    ring
  rw [this, mixSolve_neg, mixSolve_my c.L hL]
  rfl

theorem calcBy_mirror (c : FCfg) (hL : 1 ≤ c.L) (F : Fields3) (bF bP : ℤ → ℤ → ℝ) (full prev : Cur) :
    calcBy c (F.mirror c.L) (mx c.L bF) (mx c.L bP) (full.mirror c.L) (prev.mirror c.L) = neg2 (mx c.L (calcBy c F bF bP full prev)) := by
  unfold calcBy
  simp only [jzHalf_mirror]
  have : (fun a b => -(dxArr c.L c.h (mx c.L (jzHalf full prev bF bP)) b a - djDxi c.dxi (prev.mirror c.L).jx (full.mirror c.L).jx b a - c.κ * (F.mirror c.L).By b a)) =
      neg2 (my c.L fun a b => -(dxArr c.L c.h (jzHalf full prev bF bP) b a - djDxi c.dxi prev.jx full.jx b a - c.κ * F.By b a)) := by
    funext a b
    rw [dxArr_mx]
    simp only [neg2, my, mx, Cur.mirror, Fields3.mirror, djDxi]
    ring
  rw [this, mixSolve_neg, mixSolve_my c.L hL]
  rfl

theorem calcEz_mirror (L : ℕ) (hL : 1 ≤ L) (h : ℝ) (c : Cur) : calcEz L h (c.mirror L) = mx L (calcEz L h c) := by
  unfold calcEz
  rw [← dirichletSolve_mx L hL]
  congr 1
  funext i j
  simp only [ezRhs, Cur.mirror, neg2, mx]
  rw [show (L : ℤ) - (i + 1) = L - i - 1 by ring, show (L : ℤ) - (i - 1) = L - i + 1 by ring]
  ring

theorem calcPhi_mirror (L : ℕ) (hL : 1 ≤ L) (h : ℝ) (c : Cur) : calcPhi L h (c.mirror L) = mx L (calcPhi L h c) := by
  unfold calcPhi
  rw [← dirichletSolve_mx L hL]
  rfl

theorem sum_Icc_flip (L : ℕ) (g : ℤ → ℝ) : ∑ i ∈ Finset.Icc 0 (L : ℤ), g (L - i) = ∑ i ∈ Finset.Icc 0 (L : ℤ), g i := by
  apply Finset.sum_nbij' (fun i => (L : ℤ) - i) (fun i => (L : ℤ) - i)
  · intro i hi; rw [Finset.mem_Icc] at hi ⊢; omega
  · intro i hi; rw [Finset.mem_Icc] at hi ⊢; omega
  · intro i _; ring
  · intro i _; ring
  · intro i _; rfl

theorem calcBz_mirror (L : ℕ) (hL : 1 ≤ L) (h : ℝ) (c : Cur) : calcBz L h (c.mirror L) = neg2 (mx L (calcBz L h c)) := by
  unfold calcBz
  have : bzRhs L h (c.mirror L).jx (c.mirror L).jy = neg2 (mx L (bzRhs L h c.jx c.jy)) := by
    funext i j
    simp only [bzRhs, Cur.mirror, mx, neg2, pad1]
    by_cases g : (1 ≤ i ∧ i < L) ∧ (1 ≤ j ∧ j < L)
    · rw [if_pos g, if_pos g, if_pos (by omega), if_pos (by omega), show (L : ℤ) - (i + 1) = L - i - 1 by ring, show (L : ℤ) - (i - 1) = L - i + 1 by ring]
      ring
    · rw [if_neg g, if_neg g, if_neg (by omega), if_neg (by omega)]
      ring
  simp only [this]
  rw [neumannSolve_neg, neumannSolve_mx L hL]
  have hm : meanAll L (neg2 (mx L (neumannSolve L h (bzRhs L h c.jx c.jy)))) = -meanAll L (neumannSolve L h (bzRhs L h c.jx c.jy)) := by
    unfold meanAll neg2 mx
    simp only [Finset.sum_neg_distrib]
    rw [sum_Icc_flip L fun i => ∑ j ∈ Finset.Icc 0 (L : ℤ), neumannSolve L h (bzRhs L h c.jx c.jy) i j, neg_div]
  rw [hm]
  funext i j
  simp only [neg2, mx]
  ring

theorem total_mirror (L : ℕ) (c : Cur × Cur) : Cur.total (c.1.mirror L, c.2.mirror L) = (Cur.total c).mirror L := by
  unfold Cur.total Cur.mirror
  simp only [Cur.mk.injEq]
  refine ⟨rfl, ?_, rfl, rfl⟩
  funext i j
  simp only [neg2, mx]
  ring

/-- C49: the field solver. -/
theorem computeFields_mirror (c : FCfg) (hL : 1 ≤ c.L) (F Fp : Fields3) (bF bP : ℤ → ℤ → ℝ) (cp cf : Cur × Cur) :
    computeFields c (F.mirror c.L) (Fp.mirror c.L) (mx c.L bF) (mx c.L bP) (cp.1.mirror c.L, cp.2.mirror c.L) (cf.1.mirror c.L, cf.2.mirror c.L) =
      ((computeFields c F Fp bF bP cp cf).1.mirror c.L, (computeFields c F Fp bF bP cp cf).2.mirror c.L) := by
  unfold computeFields
  simp only [total_mirror, calcEx_mirror _ hL, calcEy_mirror _ hL, calcBx_mirror _ hL, calcBy_mirror _ hL, calcEz_mirror _ hL, calcBz_mirror _ hL, calcPhi_mirror _ hL]
  rw [Prod.mk.injEq]
  constructor
  · rw [Fields3.mirror, Fields3.mk.injEq]
    refine ⟨?_, rfl, rfl, rfl, ?_, rfl, rfl⟩ <;> funext i j <;> simp only [neg2, mx, Fields3.mirror] <;> ring
  · rw [Fields3.mirror, Fields3.mk.injEq]
    refine ⟨rfl, rfl, rfl, rfl, rfl, ?_, rfl⟩ <;> funext i j <;> simp only [neg2, mx, Fields3.mirror] <;> ring

/-! ### Particles -/

def Vec3.mirror (v : Vec3) : Vec3 := ⟨-v.x, v.y, v.z⟩
def Vec3.mirrorB (v : Vec3) : Vec3 := ⟨v.x, -v.y, -v.z⟩
def Corr.mirror (c : Corr) : Corr := ⟨-c.x, c.y, -c.xo, c.yo, c.p.mirror⟩

theorem node_flip (N : ℤ) (hN : N % 2 = 1) (L : ℕ) (hL : (L : ℤ) = N - 1) (i : ℤ) : (nodeOf N (L - i) : ℝ) = -nodeOf N i := by
  unfold nodeOf
  rw [← Int.cast_neg, Int.cast_inj]
  omega

theorem bspline4_even (y : ℝ) : bspline4 (-y) = bspline4 y := by
  unfold bspline4
  rw [abs_neg]
  split_ifs <;> ring

theorem interpolate_mirror (N : ℤ) (hN : N % 2 = 1) (L : ℕ) (hL : (L : ℤ) = N - 1) (X Y : ℝ) (F : ℤ → ℤ → ℝ) :
    interpolate N (-X + 1 / 2) (Y + 1 / 2) (mx L F) = interpolate N (X + 1 / 2) (Y + 1 / 2) F := by
  obtain ⟨M, hM⟩ : ∃ M : ℤ, |cellOf N (X + 1 / 2)| + |cellOf N (-X + 1 / 2)| + |cellOf N (Y + 1 / 2)| + 2 + L ≤ M := ⟨_, le_rfl⟩
  have a1 := abs_le.mp (le_refl |cellOf N (X + 1 / 2)|)
  have a2 := abs_le.mp (le_refl |cellOf N (-X + 1 / 2)|)
  have a3 := abs_le.mp (le_refl |cellOf N (Y + 1 / 2)|)
  have n1 := abs_nonneg (cellOf N (X + 1 / 2))
  have n2 := abs_nonneg (cellOf N (-X + 1 / 2))
  have n3 := abs_nonneg (cellOf N (Y + 1 / 2))
  have pl : ∀ k ∈ places, -2 ≤ k ∧ k ≤ 2 := by intro k hk; simp only [places, List.mem_cons, List.not_mem_nil, or_false] at hk; omega
  rw [interpolate_shape N (-X) Y (mx L F) (Finset.Icc (L - M) M) (fun k hk => by have := pl k hk; rw [Finset.mem_Icc]; omega) (fun k hk => by have := pl k hk; rw [Finset.mem_Icc]; omega),
    interpolate_shape N X Y F (Finset.Icc (L - M) M) (fun k hk => by have := pl k hk; rw [Finset.mem_Icc]; omega) (fun k hk => by have := pl k hk; rw [Finset.mem_Icc]; omega)]
  apply Finset.sum_nbij' (fun i => (L : ℤ) - i) (fun i => (L : ℤ) - i)
  · intro i hi; rw [Finset.mem_Icc] at hi ⊢; omega
  · intro i hi; rw [Finset.mem_Icc] at hi ⊢; omega
  · intro i _; ring
  · intro i _; ring
  · intro i _
    apply Finset.sum_congr rfl
    intro j _
    rw [node_flip N hN L hL, show -X - nodeOf N i = -(X - -nodeOf N i) by ring, bspline4_even]
    rfl

theorem fieldE_mirror (c : MCfg) (hN : c.N % 2 = 1) (L : ℕ) (hL : (L : ℤ) = c.N - 1) (F : Fields3) (x y : ℝ) : fieldE c (F.mirror L) (-x) y = (fieldE c F x y).mirror := by
  simp only [fieldE, Fields3.mirror, Vec3.mirror, interpolate_neg, neg_div, interpolate_mirror c.N hN L hL]

theorem fieldB_mirror (c : MCfg) (hN : c.N % 2 = 1) (L : ℕ) (hL : (L : ℤ) = c.N - 1) (F : Fields3) (x y : ℝ) : fieldB c (F.mirror L) (-x) y = (fieldB c F x y).mirrorB := by
  simp only [fieldB, Fields3.mirror, Vec3.mirrorB, interpolate_neg, neg_div, interpolate_mirror c.N hN L hL]

theorem kick3_mirror (q m dxi : ℝ) (E B p : Vec3) : kick3 q m dxi E.mirror B.mirrorB p.mirror = (kick3 q m dxi E B p).mirror := by
  simp only [kick3, Vec3.mirror, Vec3.mirrorB, neg_sq, Vec3.mk.injEq]
  refine ⟨?_, ?_, ?_⟩ <;> ring

theorem refl_mirror (b x0 y0 : ℝ) (c : Corr) :
    (reflRight b (-x0) c.mirror = (reflLeft b x0 c).mirror) ∧ (reflLeft b (-x0) c.mirror = (reflRight b x0 c).mirror) ∧
    (reflTop b y0 c.mirror = (reflTop b y0 c).mirror) ∧ (reflBottom b y0 c.mirror = (reflBottom b y0 c).mirror) := by
  refine ⟨?_, ?_, ?_, ?_⟩
  · unfold reflRight reflLeft
    by_cases h : c.x < -b
    · have h' : c.mirror.x > b := by change -c.x > b; linarith
      rw [if_pos h', if_pos h]
      simp only [Corr.mirror, Vec3.mirror, Corr.mk.injEq, Vec3.mk.injEq, neg_zero, and_true, true_and]
      constructor <;> ring
    · have h' : ¬c.mirror.x > b := by change ¬-c.x > b; linarith
      rw [if_neg h', if_neg h]
  · unfold reflRight reflLeft
    by_cases h : c.x > b
    · have h' : c.mirror.x < -b := by change -c.x < -b; linarith
      rw [if_pos h', if_pos h]
      simp only [Corr.mirror, Vec3.mirror, Corr.mk.injEq, Vec3.mk.injEq, neg_zero, and_true, true_and]
      constructor <;> ring
    · have h' : ¬c.mirror.x < -b := by change ¬-c.x < -b; linarith
      rw [if_neg h', if_neg h]
  · by_cases h : c.y > b <;> simp [reflTop, Corr.mirror, Vec3.mirror, h]
  · by_cases h : c.y < -b <;> simp [reflBottom, Corr.mirror, Vec3.mirror, h]

theorem refl_once (b x0 : ℝ) (hb : 0 ≤ b) (c : Corr) (h : |c.x| ≤ 3 * b) : reflRight b x0 (reflLeft b x0 c) = reflLeft b x0 (reflRight b x0 c) := by
  obtain ⟨h1, h2⟩ := abs_le.mp h
  by_cases g1 : c.x > b
  · have g2 : ¬c.x < -b := by linarith
    have g3 : ¬(2 * b - c.x < -b) := by linarith
    simp only [reflRight, reflLeft, if_pos g1, if_neg g2, if_neg g3]
  · by_cases g2 : c.x < -b
    · have g3 : ¬(-2 * b - c.x > b) := by linarith
      simp only [reflRight, reflLeft, if_neg g1, if_pos g2, if_neg g3]
    · simp only [reflRight, reflLeft, if_neg g1, if_neg g2]

theorem correctBoundary_flip (x0 y0 xo yo : ℝ) (p : Vec3) (b : ℝ) (hb : 0 ≤ b) (h : |x0 + xo| ≤ 3 * b) :
    correctBoundary (-x0) y0 (-xo) yo p.mirror b = (correctBoundary x0 y0 xo yo p b).mirror := by
  unfold correctBoundary
  rw [show (⟨-x0 + -xo, y0 + yo, -xo, yo, p.mirror⟩ : Corr) = Corr.mirror ⟨x0 + xo, y0 + yo, xo, yo, p⟩ by simp only [Corr.mirror, Corr.mk.injEq, and_true]; ring]
  rw [(refl_mirror b x0 y0 _).1, (refl_mirror b x0 y0 _).2.1, refl_once b x0 hb ⟨x0 + xo, y0 + yo, xo, yo, p⟩ h, (refl_mirror b x0 y0 _).2.2.1, (refl_mirror b x0 y0 _).2.2.2]

/-! ### Specification: how far a particle flies in one push before the wall is looked at -/

/-- The momentum in the middle of the step, with which the particle is displaced. -/
noncomputable def midMomentum (c : MCfg) (F : Fields3) (prev full : Ptl) : Vec3 :=
  let op : Vec3 := ⟨prev.px, prev.py, prev.pz⟩
  let hs := half3 c prev full
  let E := fieldE c F hs.x hs.y
  let B := fieldB c F hs.x hs.y
  addHalf op (kick3 full.q full.m c.dxi E B (addHalf op (kick3 full.q full.m c.dxi E B hs.p)))

/-- The particle does not fly past the wall by more than the width of the plasma: neither the half-step point nor the end point lies beyond three times the distance of the wall. -/
noncomputable def NoLeap (c : MCfg) (F : Fields3) (prev full : Ptl) : Prop :=
  |prev.x0 + (prev.x + full.x) / 2| ≤ 3 * c.boundary ∧
  |prev.x0 + (prev.x + (midMomentum c F prev full).x / (Real.sqrt (full.m ^ 2 + (midMomentum c F prev full).x ^ 2 + (midMomentum c F prev full).y ^ 2 + (midMomentum c F prev full).z ^ 2) - (midMomentum c F prev full).z) * c.dxi)| ≤ 3 * c.boundary

theorem half3_mirror (c : MCfg) (hb : 0 ≤ c.boundary) (prev full : Ptl) (h : |prev.x0 + (prev.x + full.x) / 2| ≤ 3 * c.boundary) :
    half3 c prev.mirror full.mirror = (half3 c prev full).mirror := by
  unfold half3
  rw [← correctBoundary_flip prev.x0 prev.y0 ((prev.x + full.x) / 2) ((prev.y + full.y) / 2) ⟨prev.px, prev.py, prev.pz⟩ c.boundary hb h]
  simp only [Ptl.mirror, Vec3.mirror]
  congr 1
  ring

theorem finish3_mirror (c : MCfg) (hb : 0 ≤ c.boundary) (prev full : Ptl) (op mid d : Vec3)
    (h : |prev.x0 + (prev.x + mid.x / (Real.sqrt (full.m ^ 2 + mid.x ^ 2 + mid.y ^ 2 + mid.z ^ 2) - mid.z) * c.dxi)| ≤ 3 * c.boundary) :
    finish3 c prev.mirror full.mirror op.mirror mid.mirror d.mirror = (finish3 c prev full op mid d).mirror := by
  unfold finish3
  simp only [Vec3.mirror, Ptl.mirror, neg_sq]
  rw [← sqrt_comm] at h
  rw [show (⟨-op.x + -d.x, op.y + d.y, op.z + d.z⟩ : Vec3) = Vec3.mirror ⟨op.x + d.x, op.y + d.y, op.z + d.z⟩ by simp only [Vec3.mirror, Vec3.mk.injEq, and_true]; ring,
    show -prev.x + -mid.x / (Real.sqrt (full.m ^ 2 + mid.z ^ 2 + mid.x ^ 2 + mid.y ^ 2) - mid.z) * c.dxi =
      -(prev.x + mid.x / (Real.sqrt (full.m ^ 2 + mid.z ^ 2 + mid.x ^ 2 + mid.y ^ 2) - mid.z) * c.dxi) by ring,
    correctBoundary_flip _ _ _ _ _ _ hb h]
  generalize correctBoundary _ _ _ _ _ _ = r
  have e1 : r.mirror.xo = -r.xo := rfl
  have e2 : r.mirror.yo = r.yo := rfl
  by_cases h : prev.x0 + r.xo ≥ c.boundary ∨ prev.x0 + r.xo ≤ -c.boundary ∨ prev.y0 + r.yo ≥ c.boundary ∨ prev.y0 + r.yo ≤ -c.boundary
  · have h' : -prev.x0 + r.mirror.xo ≥ c.boundary ∨ -prev.x0 + r.mirror.xo ≤ -c.boundary ∨ prev.y0 + r.mirror.yo ≥ c.boundary ∨ prev.y0 + r.mirror.yo ≤ -c.boundary := by
      rw [e1, e2]
      rcases h with h | h | h | h
      · right; left; linarith
      · left; linarith
      · right; right; left; exact h
      · right; right; right; exact h
    rw [if_pos h, if_pos h']
    simp only [neg_zero]
  · have h' : ¬(-prev.x0 + r.mirror.xo ≥ c.boundary ∨ -prev.x0 + r.mirror.xo ≤ -c.boundary ∨ prev.y0 + r.mirror.yo ≥ c.boundary ∨ prev.y0 + r.mirror.yo ≤ -c.boundary) := by
      rw [e1, e2]
      push Not at h ⊢
      exact ⟨by linarith [h.2.1], by linarith [h.1], h.2.2.1, h.2.2.2⟩
    rw [if_neg h, if_neg h']
    rfl

/-- C49: one push of one particle. -/
theorem moveOne_mirror (c : MCfg) (hN : c.N % 2 = 1) (L : ℕ) (hL : (L : ℤ) = c.N - 1) (hb : 0 ≤ c.boundary) (F : Fields3) (prev full : Ptl) (h : full.q = 0 ∨ NoLeap c F prev full) :
    moveOne c (F.mirror L) prev.mirror full.mirror = (moveOne c F prev full).mirror := by
  unfold moveOne
  by_cases hq : full.q = 0
  · rw [if_pos hq, if_pos (show full.mirror.q = 0 from hq)]
  · have hl := h.resolve_left hq
    rw [if_neg hq, if_neg (show ¬full.mirror.q = 0 from hq)]
    simp only [half3_mirror c hb prev full hl.1]
    rw [show (half3 c prev full).mirror.x = -(half3 c prev full).x from rfl, show (half3 c prev full).mirror.y = (half3 c prev full).y from rfl, fieldE_mirror c hN L hL, fieldB_mirror c hN L hL,
      show (half3 c prev full).mirror.p = (half3 c prev full).p.mirror from rfl, show full.mirror.q = full.q from rfl, show full.mirror.m = full.m from rfl,
      show (⟨prev.mirror.px, prev.mirror.py, prev.mirror.pz⟩ : Vec3) = Vec3.mirror ⟨prev.px, prev.py, prev.pz⟩ from rfl]
    have ah : ∀ a b : Vec3, addHalf a.mirror b.mirror = (addHalf a b).mirror := by
      intro a b
      simp only [addHalf, Vec3.mirror, Vec3.mk.injEq, and_true]
      ring
    simp only [kick3_mirror, ah]
    exact finish3_mirror c hb prev full _ _ _ hl.2

theorem moveFree_mirror (dxi : ℝ) (p : Ptl) : moveFree dxi p.mirror = (moveFree dxi p).mirror := by
  unfold moveFree
  by_cases hm : p.m = 0
  · rw [if_pos hm, if_pos (show p.mirror.m = 0 from hm)]
  · rw [if_neg hm, if_neg (show ¬p.mirror.m = 0 from hm)]
    simp only [Ptl.mirror, neg_sq, Ptl.mk.injEq, and_true, true_and]
    ring

/-- The pairs (particle of the previous layer, its present estimate) of a push that is free of leaps. -/
def NoLeaps (c : MCfg) (F : Fields3) (a b : List Ptl) : Prop := ∀ t ∈ a.zip b, t.2.q = 0 ∨ NoLeap c F t.1 t.2

theorem moveSort_mirror (c : MCfg) (hN : c.N % 2 = 1) (L : ℕ) (hL : (L : ℤ) = c.N - 1) (hb : 0 ≤ c.boundary) (F : Fields3) (a b : List Ptl) (h : NoLeaps c F a b) :
    moveSort c (F.mirror L) (a.map Ptl.mirror) (b.map Ptl.mirror) = (moveSort c F a b).map Ptl.mirror := by
  unfold moveSort
  induction a generalizing b with
  | nil => rfl
  | cons p a ih =>
    cases b with
    | nil => rfl
    | cons q b =>
      simp only [List.map_cons, List.zipWith_cons_cons]
      rw [ih b fun t ht => h t (by rw [List.zip_cons_cons]; exact List.mem_cons_of_mem _ ht), moveOne_mirror c hN L hL hb F p q (h (p, q) (by rw [List.zip_cons_cons]; exact List.mem_cons_self))]

theorem depositSort_mirror (N : ℤ) (hN : N % 2 = 1) (L : ℕ) (hL : (L : ℤ) = N - 1) (h : ℝ) (ps : List Ptl) : depositSort N h (ps.map Ptl.mirror) = (depositSort N h ps).mirror L := by
  have sh : ∀ (p : Ptl) (i j : ℤ), shape N h p.mirror i j = shape N h p (L - i) j := by
    intro p i j
    simp only [shape, Ptl.mirror, Ptl.X, Ptl.Y, node_flip N hN L hL]
    rw [show (-p.x0 + -p.x) / h - nodeOf N i = -((p.x0 + p.x) / h - -nodeOf N i) by ring, bspline4_even]
  have e : ∀ (i j : ℤ) (f g : Ptl → ℝ), (∀ p, f p.mirror = g p) → ((ps.map Ptl.mirror).map fun p => f p * shape N h p i j).sum = (ps.map fun p => g p * shape N h p (L - i) j).sum := by
    intro i j f g hfg
    rw [List.map_map]
    congr 1
    apply List.map_congr_left
    intro p _
    simp only [Function.comp, hfg, sh]
  have ch : ∀ p : Ptl, charge3 p.mirror = charge3 p := by intro p; simp only [charge3, Ptl.mirror, neg_sq]
  have ext : ∀ a b : Cur, (∀ i j, a.ro i j = b.ro i j ∧ a.jx i j = b.jx i j ∧ a.jy i j = b.jy i j ∧ a.jz i j = b.jz i j) → a = b := by
    intro a b hab
    obtain ⟨a1, a2, a3, a4⟩ := a
    obtain ⟨b1, b2, b3, b4⟩ := b
    rw [Cur.mk.injEq]
    exact ⟨funext fun i => funext fun j => (hab i j).1, funext fun i => funext fun j => (hab i j).2.1, funext fun i => funext fun j => (hab i j).2.2.1, funext fun i => funext fun j => (hab i j).2.2.2⟩
  apply ext
  intro i j
  obtain ⟨h1, h2, h3, h4⟩ := depositSort_shape N h (ps.map Ptl.mirror) i j
  obtain ⟨g1, g2, g3, g4⟩ := depositSort_shape N h ps (L - i) j
  rw [h1, h2, h3, h4]
  simp only [Cur.mirror, mx, neg2]
  rw [g1, g2, g3, g4]
  have ng : -((ps.map fun p => curX p * shape N h p (L - i) j).sum / h ^ 2) = (ps.map fun p => (-curX p) * shape N h p (L - i) j).sum / h ^ 2 := by
    rw [← neg_div]
    congr 1
    rw [← neg_one_mul, ← List.sum_map_mul_left]
    congr 1
    apply List.map_congr_left
    intro p _
    ring
  rw [ng]
  refine ⟨?_, ?_, ?_, ?_⟩ <;> congr 1 <;> apply e
  · exact ch
  · intro p; simp only [curX, ch]; simp only [Ptl.mirror, neg_sq]; ring
  · intro p; simp only [curY, ch]; simp only [Ptl.mirror, neg_sq]
  · intro p; simp only [curZ, ch]; simp only [Ptl.mirror, neg_sq]

/-! ### C49 -/

def mirrorPair (a : List Ptl × Option (List Ptl)) : List Ptl × Option (List Ptl) := (a.1.map Ptl.mirror, a.2.map fun l => l.map Ptl.mirror)

/-- A push of both sorts that is free of leaps. -/
def NoLeapsPair (c : SCfg) (F : Fields3) (w : W3) (full : List Ptl × Option (List Ptl)) : Prop :=
  NoLeaps c.m F w.el full.1 ∧ ∀ a b, w.ions = some a → full.2 = some b → NoLeaps c.m F a b

theorem pushSorts_mirror (c c' : SCfg) (hc : c'.m = c.m) (hN : c.m.N % 2 = 1) (L : ℕ) (hL : (L : ℤ) = c.m.N - 1) (hb : 0 ≤ c.m.boundary) (F : Fields3) (w : W3) (full : List Ptl × Option (List Ptl))
    (h : NoLeapsPair c F w full) : pushSorts c' (F.mirror L) (w.mirror L) (mirrorPair full) = mirrorPair (pushSorts c F w full) := by
  unfold pushSorts mirrorPair
  simp only [hc, W3.mirror]
  rw [moveSort_mirror c.m hN L hL hb F _ _ h.1]
  congr 1
  cases h1 : w.ions with
  | none => rfl
  | some a =>
    cases h2 : full.2 with
    | none => rfl
    | some b => simp only [Option.map_some]; rw [moveSort_mirror c.m hN L hL hb F a b (h.2 a b h1 h2)]

theorem rhojSorts_mirror (c c' : SCfg) (hc : c'.m = c.m) (hN : c.m.N % 2 = 1) (L : ℕ) (hL : (L : ℤ) = c.m.N - 1) (hr : c'.roInit = mx L c.roInit) (full : List Ptl × Option (List Ptl)) :
    rhojSorts c' (mirrorPair full) = ((rhojSorts c full).1.mirror L, (rhojSorts c full).2.mirror L) := by
  unfold rhojSorts computeRhoj mirrorPair
  simp only [hc, hr, depositSort_mirror c.m.N hN L hL]
  congr 1
  cases full.2 with
  | none =>
    simp only [Option.map_none, Cur.mirror, Cur.mk.injEq, true_and, and_true]
    first | rfl | (refine ⟨?_, ?_, ?_⟩ <;> funext i j <;> simp [neg2, mx, Cur.zero])
  | some l => simp only [Option.map_some, depositSort_mirror c.m.N hN L hL]

theorem freeSorts_mirror (c c' : SCfg) (hc : c'.m = c.m) (L : ℕ) (w : W3) : freeSorts c' (w.mirror L) = mirrorPair (freeSorts c w) := by
  unfold freeSorts mirrorPair W3.mirror
  simp only [hc, List.map_map]
  have e : (moveFree c.m.dxi ∘ Ptl.mirror) = (Ptl.mirror ∘ moveFree c.m.dxi) := by funext p; exact moveFree_mirror _ _
  rw [e]
  congr 1
  cases w.ions with
  | none => rfl
  | some l => simp only [Option.map_some, List.map_map, e]

/-- The three pushes of a step (solver.py:34, 49, 64): the fields and the estimate each of them starts from. -/
noncomputable def pushes (c : SCfg) (w : W3) (bFull bPrev : ℤ → ℤ → ℝ) : List (Fields3 × (List Ptl × Option (List Ptl))) :=
  let p0 := freeSorts c w
  let p1 := pushSorts c w.F w p0
  let h1 := (computeFields c.f w.F w.F bFull bPrev w.cur (rhojSorts c p1)).2
  let p2 := pushSorts c h1 w p1
  [(w.F, p0), (h1, p1), ((computeFields c.f h1 w.F bFull bPrev w.cur (rhojSorts c p2)).2, p2)]

/-- No particle flies past the wall by more than the width of the plasma in any of the pushes of the step. -/
def StepNoLeap (c : SCfg) (w : W3) (bFull bPrev : ℤ → ℤ → ℝ) : Prop := ∀ t ∈ pushes c w bFull bPrev, NoLeapsPair c t.1 w t.2

/-- C49: reflecting the plasma, the fields, the currents, the ion background and the beam at x = 0 reflects the result of a step (without declustering), if no particle leaps across the plasma. -/
theorem step_mirror (c : SCfg) (hN : c.m.N % 2 = 1) (hN2 : 2 ≤ c.m.N) (hb : 0 ≤ c.m.boundary) (hd : c.decl = none) (w : W3) (bF bP : ℤ → ℤ → ℝ) (hl : StepNoLeap c w bF bP) :
    stepDxi { c with roInit := mx c.f.L c.roInit } (w.mirror c.f.L) (mx c.f.L bF) (mx c.f.L bP) = (stepDxi c w bF bP).mirror c.f.L := by
  have hL : 1 ≤ c.f.L := by unfold SCfg.f; simp only; omega
  have hLN : (c.f.L : ℤ) = c.m.N - 1 := by unfold SCfg.f; simp only; omega
  have hf : SCfg.f { c with roInit := mx c.f.L c.roInit } = c.f := rfl
  have hm : ({ c with roInit := mx c.f.L c.roInit } : SCfg).m = c.m := rfl
  have hr : ({ c with roInit := mx c.f.L c.roInit } : SCfg).roInit = mx c.f.L c.roInit := rfl
  have n0 := hl (w.F, freeSorts c w) (by unfold pushes; simp)
  have n1 := hl ((computeFields c.f w.F w.F bF bP w.cur (rhojSorts c (pushSorts c w.F w (freeSorts c w)))).2, pushSorts c w.F w (freeSorts c w)) (by unfold pushes; simp)
  have n2 : NoLeapsPair c (predictor c w bF bP).2.2 w (predictor c w bF bP).1 := hl ((predictor c w bF bP).2.2, (predictor c w bF bP).1) (by unfold pushes predictor; simp)
  have pr : predictor { c with roInit := mx c.f.L c.roInit } (w.mirror c.f.L) (mx c.f.L bF) (mx c.f.L bP) =
      (mirrorPair (predictor c w bF bP).1, ((predictor c w bF bP).2.1.mirror c.f.L, (predictor c w bF bP).2.2.mirror c.f.L)) := by
    unfold predictor
    simp only
    rw [hf, freeSorts_mirror c _ hm, show (w.mirror c.f.L).F = w.F.mirror c.f.L from rfl, show (w.mirror c.f.L).cur = (w.cur.1.mirror c.f.L, w.cur.2.mirror c.f.L) from rfl,
      pushSorts_mirror c _ hm hN _ hLN hb _ _ _ n0, rhojSorts_mirror c _ hm hN _ hLN hr, computeFields_mirror c.f hL]
    simp only
    rw [pushSorts_mirror c _ hm hN _ hLN hb _ _ _ n1, rhojSorts_mirror c _ hm hN _ hLN hr, computeFields_mirror c.f hL]
  have st : ∀ (c : SCfg) (w : W3) (bF bP : ℤ → ℤ → ℝ), c.decl = none → stepDxi c w bF bP = ⟨(pushSorts c (predictor c w bF bP).2.2 w (predictor c w bF bP).1).1, (pushSorts c (predictor c w bF bP).2.2 w (predictor c w bF bP).1).2, w.chx, w.chy, (predictor c w bF bP).2.1, rhojSorts c (pushSorts c (predictor c w bF bP).2.2 w (predictor c w bF bP).1)⟩ := by
    intro c w bF bP h
    unfold stepDxi
    rw [h]
  rw [st c w bF bP hd, st { c with roInit := mx c.f.L c.roInit } (w.mirror c.f.L) (mx c.f.L bF) (mx c.f.L bP) hd, pr]
  simp only
  rw [pushSorts_mirror c _ hm hN _ hLN hb _ _ _ n2, rhojSorts_mirror c _ hm hN _ hLN hr]
  rfl

/-- In every layer of a run no particle leaps across the plasma. -/
def RunNoLeap (c : SCfg) (w : W3) (bPrev : ℤ → ℤ → ℝ) : List (ℤ → ℤ → ℝ) → Prop
  | [] => True
  | b :: bs => StepNoLeap c w b bPrev ∧ RunNoLeap c (stepDxi c w b bPrev) b bs

/-- C49: over any number of layers and for every beam. -/
theorem run_mirror (c : SCfg) (hN : c.m.N % 2 = 1) (hN2 : 2 ≤ c.m.N) (hb : 0 ≤ c.m.boundary) (hd : c.decl = none) (w : W3) (bP : ℤ → ℤ → ℝ) (bs : List (ℤ → ℤ → ℝ)) (hl : RunNoLeap c w bP bs) :
    runLayers { c with roInit := mx c.f.L c.roInit } (w.mirror c.f.L) (mx c.f.L bP) (bs.map (mx c.f.L)) = (runLayers c w bP bs).mirror c.f.L := by
  induction bs generalizing w bP with
  | nil => rfl
  | cons b bs ih => rw [List.map_cons, runLayers, runLayers, step_mirror c hN hN2 hb hd w b bP hl.1]; exact ih _ _ hl.2

/-! ### The other axis -/

def Ptl.mirrorY (p : Ptl) : Ptl := ⟨p.x0, -p.y0, p.x, -p.y, p.px, -p.py, p.pz, p.q, p.m⟩
def Cur.mirrorY (L : ℕ) (c : Cur) : Cur := ⟨my L c.ro, my L c.jx, neg2 (my L c.jy), my L c.jz⟩
def Fields3.mirrorY (L : ℕ) (F : Fields3) : Fields3 := ⟨my L F.Ex, neg2 (my L F.Ey), my L F.Ez, neg2 (my L F.Bx), my L F.By, neg2 (my L F.Bz), my L F.Phi⟩
def W3.mirrorY (L : ℕ) (w : W3) : W3 := ⟨w.el.map Ptl.mirrorY, w.ions.map fun l => l.map Ptl.mirrorY, w.chx, w.chy, w.F.mirrorY L, (w.cur.1.mirrorY L, w.cur.2.mirrorY L)⟩

theorem neg2_neg2 (u : ℤ → ℤ → ℝ) : neg2 (neg2 u) = u := by funext i j; simp [neg2]

theorem mirrorY_eq (L : ℕ) (w : W3) : w.mirrorY L = ((w.swap).mirror L).swap := by
  have ep : (Ptl.swap ∘ Ptl.mirror ∘ Ptl.swap) = Ptl.mirrorY := rfl
  unfold W3.mirrorY W3.swap W3.mirror
  simp only [List.map_map, W3.mk.injEq, and_true, true_and]
  refine ⟨rfl, ?_, ?_, ?_⟩
  · cases w.ions with
    | none => rfl
    | some l => simp only [Option.map_some, List.map_map]; rfl
  · simp only [Fields3.mirrorY, Fields3.swap, Fields3.mirror, Fields3.mk.injEq]
    refine ⟨?_, rfl, rfl, ?_, ?_, ?_, rfl⟩ <;> funext i j <;> simp [neg2, my, mx, tr]
  · rfl

theorem tr_tr (u : ℤ → ℤ → ℝ) : tr (tr u) = u := rfl

theorem run_swap' (c : SCfg) (hN : 2 ≤ c.m.N) (hd : c.decl = none) (w : W3) (bP : ℤ → ℤ → ℝ) (bs : List (ℤ → ℤ → ℝ)) (c' : SCfg) (hc : c' = { c with roInit := tr c.roInit }) (w' : W3) (hw : w' = w.swap)
    (bP' : ℤ → ℤ → ℝ) (hbP : bP' = tr bP) (bs' : List (ℤ → ℤ → ℝ)) (hbs : bs' = bs.map tr) : runLayers c' w' bP' bs' = (runLayers c w bP bs).swap := by
  rw [hc, hw, hbP, hbs]
  exact run_swap c hN hd w bP bs

theorem swap_swap (w : W3) : w.swap.swap = w := by
  have e : (Ptl.swap ∘ Ptl.swap) = id := rfl
  unfold W3.swap
  simp only [List.map_map, e, List.map_id]
  obtain ⟨el, ions, chx, chy, F, cur⟩ := w
  simp only [W3.mk.injEq, true_and]
  refine ⟨?_, ?_, rfl⟩
  · cases ions <;> simp [e]
  · simp only [Fields3.swap]
    congr 1 <;> funext i j <;> simp [neg2, tr]

/-- C49: the reflection y ↦ -y, over any number of layers; the condition on leaps is that for x, asked of the run with the axes exchanged. -/
theorem run_mirrorY (c : SCfg) (hN : c.m.N % 2 = 1) (hN2 : 2 ≤ c.m.N) (hb : 0 ≤ c.m.boundary) (hd : c.decl = none) (w : W3) (bP : ℤ → ℤ → ℝ) (bs : List (ℤ → ℤ → ℝ))
    (hl : RunNoLeap { c with roInit := tr c.roInit } w.swap (tr bP) (bs.map tr)) :
    runLayers { c with roInit := my c.f.L c.roInit } (w.mirrorY c.f.L) (my c.f.L bP) (bs.map (my c.f.L)) = (runLayers c w bP bs).mirrorY c.f.L := by
  have h1 := run_swap c hN2 hd w bP bs
  have h2 := run_mirror { c with roInit := tr c.roInit } hN hN2 hb hd w.swap (tr bP) (bs.map tr) hl
  rw [h1] at h2
  rw [mirrorY_eq c.f.L (runLayers c w bP bs)]
  rw [show (runLayers c w bP bs).swap.mirror c.f.L = (runLayers c w bP bs).swap.mirror (SCfg.f { c with roInit := tr c.roInit }).L from rfl, ← h2]
  refine run_swap' _ ?_ ?_ _ _ _ _ ?_ _ ?_ _ ?_ _ ?_
  · exact hN2
  · exact hd
  · rfl
  · exact mirrorY_eq c.f.L w
  · rfl
  · rw [List.map_map, List.map_map]
    rfl

end Lcode.Plasma3D
