import Verif.Plasma3D.Spectral
import Verif.Plasma3D.Move

/-!
Model of lcode/plasma3d/fields.py (CPU branch) and of the solver matrices of lcode/plasma3d/initialization.py:15-67. Property C28.
`L = N - 1`; array indices run from 0 to L.
-/

namespace Lcode.Plasma3D

open Finset

/-! ### Model -/

/-- `lam[k] = 4 / h**2 * sin(k pi / (2 (N-1)))**2`, initialization.py:24, 43, 44, 63. -/
noncomputable def lam (L : ℕ) (h : ℝ) (k : ℤ) : ℝ := 4 / h ^ 2 * Real.sin (k * Real.pi / (2 * L)) ^ 2

/-- dirichlet_matrix, initialization.py:15-27. -/
noncomputable def dirichletMatrix (L : ℕ) (h : ℝ) (k l : ℤ) : ℝ := 1 / (lam L h k + lam L h l) / (2 * L) ^ 2

/-- mixed_matrix, initialization.py:32-48. -/
noncomputable def mixedMatrix (L : ℕ) (h κ : ℝ) (k l : ℤ) : ℝ := 1 / (lam L h k + lam L h l + κ) / (2 * L) ^ 2

/-- neumann_matrix, initialization.py:53-67. -/
noncomputable def neumannMatrix (L : ℕ) (h : ℝ) (k l : ℤ) : ℝ := (if k = 0 ∧ l = 0 then 0 else 1 / (lam L h k + lam L h l)) / (2 * L) ^ 2

/-- `xp.pad(inner, 1, 'constant', constant_values=0)`, fields.py:137. -/
noncomputable def pad1 (L : ℕ) (u : ℤ → ℤ → ℝ) : ℤ → ℤ → ℝ := fun i j => if (1 ≤ i ∧ i < L) ∧ (1 ≤ j ∧ j < L) then u i j else 0

/-- rhs_inner of calculate_Ez, fields.py:119-123. -/
noncomputable def ezRhs (h : ℝ) (jx jy : ℤ → ℤ → ℝ) : ℤ → ℤ → ℝ := fun i j => -((jx (i + 1) j - jx (i - 1) j) + (jy i (j + 1) - jy i (j - 1))) / (h * 2)

/-- The sine-transform solver, fields.py:125-137 and 152-157. -/
noncomputable def dirichletSolve (L : ℕ) (h : ℝ) (rhs : ℤ → ℤ → ℝ) : ℤ → ℤ → ℝ :=
  pad1 L (dst2 L fun k l => dst2 L rhs k l * dirichletMatrix L h k l)

/-- calculate_Ez, fields.py:112-139. -/
noncomputable def calcEz (L : ℕ) (h : ℝ) (c : Cur) : ℤ → ℤ → ℝ := dirichletSolve L h (ezRhs h c.jx c.jy)

/-- calculate_Phi, fields.py:142-159. -/
noncomputable def calcPhi (L : ℕ) (h : ℝ) (c : Cur) : ℤ → ℤ → ℝ := dirichletSolve L h fun i j => c.ro i j - c.jz i j

/-- mix2d, fields.py:19-31: the rows 0 and L of the result are zero. -/
noncomputable def mix2d (L : ℕ) (u : ℤ → ℤ → ℝ) : ℤ → ℤ → ℝ := fun k l => if 1 ≤ k ∧ k < L then mixT L u k l else 0

/-- `mix2d(mix_mat * mix2d(rhs[1:-1, :])[1:-1, :])`, fields.py:216-228. -/
noncomputable def mixSolve (L : ℕ) (h κ : ℝ) (rhs : ℤ → ℤ → ℝ) : ℤ → ℤ → ℝ := mix2d L fun k l => mixedMatrix L h κ k l * mix2d L rhs k l

/-- dx_dy, fields.py:164-173: zero on the perimeter. -/
noncomputable def dxArr (L : ℕ) (h : ℝ) (a : ℤ → ℤ → ℝ) : ℤ → ℤ → ℝ := fun i j => (if (1 ≤ i ∧ i < L) ∧ (1 ≤ j ∧ j < L) then a (i + 1) j - a (i - 1) j else 0) / (h * 2)
noncomputable def dyArr (L : ℕ) (h : ℝ) (a : ℤ → ℤ → ℝ) : ℤ → ℤ → ℝ := fun i j => (if (1 ≤ i ∧ i < L) ∧ (1 ≤ j ∧ j < L) then a i (j + 1) - a i (j - 1) else 0) / (h * 2)

/-- The constants of get_field_computer, fields.py:269-272: nodes minus one, transverse-step, xi-step, field-solver-subtraction-coefficient. -/
structure FCfg where
  L : ℕ
  h : ℝ
  dxi : ℝ
  κ : ℝ

/-- ro_half and jz_half, fields.py:194-197. -/
noncomputable def roHalf (full prev : Cur) (bFull bPrev : ℤ → ℤ → ℝ) : ℤ → ℤ → ℝ := fun i j => (full.ro i j + bFull i j + prev.ro i j + bPrev i j) / 2
noncomputable def jzHalf (full prev : Cur) (bFull bPrev : ℤ → ℤ → ℝ) : ℤ → ℤ → ℝ := fun i j => (full.jz i j + bFull i j + prev.jz i j + bPrev i j) / 2

/-- `(j_prev - j_full) / xi_step_size`, fields.py:202-203. -/
noncomputable def djDxi (dxi : ℝ) (jPrev jFull : ℤ → ℤ → ℝ) : ℤ → ℤ → ℝ := fun i j => (jPrev i j - jFull i j) / dxi

/-- calculate_Ex_Ey_Bx_By, fields.py:176-230, one definition per component; `F` are the fields of the subtraction trick. -/
noncomputable def calcEx (c : FCfg) (F : Fields3) (bFull bPrev : ℤ → ℤ → ℝ) (full prev : Cur) : ℤ → ℤ → ℝ :=
  let rhs : ℤ → ℤ → ℝ := fun i j => -(dxArr c.L c.h (roHalf full prev bFull bPrev) i j - djDxi c.dxi prev.jx full.jx i j - c.κ * F.Ex i j)
  fun i j => mixSolve c.L c.h c.κ (fun a b => rhs b a) j i
noncomputable def calcEy (c : FCfg) (F : Fields3) (bFull bPrev : ℤ → ℤ → ℝ) (full prev : Cur) : ℤ → ℤ → ℝ :=
  let rhs : ℤ → ℤ → ℝ := fun i j => -(dyArr c.L c.h (roHalf full prev bFull bPrev) i j - djDxi c.dxi prev.jy full.jy i j - c.κ * F.Ey i j)
  mixSolve c.L c.h c.κ rhs
noncomputable def calcBx (c : FCfg) (F : Fields3) (bFull bPrev : ℤ → ℤ → ℝ) (full prev : Cur) : ℤ → ℤ → ℝ :=
  let rhs : ℤ → ℤ → ℝ := fun i j => dyArr c.L c.h (jzHalf full prev bFull bPrev) i j - djDxi c.dxi prev.jy full.jy i j + c.κ * F.Bx i j
  mixSolve c.L c.h c.κ rhs
noncomputable def calcBy (c : FCfg) (F : Fields3) (bFull bPrev : ℤ → ℤ → ℝ) (full prev : Cur) : ℤ → ℤ → ℝ :=
  let rhs : ℤ → ℤ → ℝ := fun i j => -(dxArr c.L c.h (jzHalf full prev bFull bPrev) i j - djDxi c.dxi prev.jx full.jx i j - c.κ * F.By i j)
  fun i j => mixSolve c.L c.h c.κ (fun a b => rhs b a) j i

/-- rhs of calculate_Bz, fields.py:240-246: padded with zeros. -/
noncomputable def bzRhs (L : ℕ) (h : ℝ) (jx jy : ℤ → ℤ → ℝ) : ℤ → ℤ → ℝ :=
  fun i j => -(pad1 L (fun i j => jx i (j + 1) - jx i (j - 1)) i j - pad1 L (fun i j => jy (i + 1) j - jy (i - 1) j) i j) / (h * 2)

/-- `Bz.mean()` over all nodes. -/
noncomputable def meanAll (L : ℕ) (u : ℤ → ℤ → ℝ) : ℝ := (∑ i ∈ Finset.Icc 0 (L : ℤ), ∑ j ∈ Finset.Icc 0 (L : ℤ), u i j) / (L + 1) ^ 2

/-- The cosine-transform solver, fields.py:251-262. -/
noncomputable def neumannSolve (L : ℕ) (h : ℝ) (rhs : ℤ → ℤ → ℝ) : ℤ → ℤ → ℝ := dct2 L fun k l => dct2 L rhs k l * neumannMatrix L h k l

/-- calculate_Bz, fields.py:233-266. -/
noncomputable def calcBz (L : ℕ) (h : ℝ) (c : Cur) : ℤ → ℤ → ℝ :=
  let u := neumannSolve L h (bzRhs L h c.jx c.jy)
  fun i j => u i j - meanAll L u

/-- The sum over the sorts, fields.py:282-292. -/
def Cur.total (c : Cur × Cur) : Cur := ⟨fun i j => c.1.ro i j + c.2.ro i j, fun i j => c.1.jx i j + c.2.jx i j, fun i j => c.1.jy i j + c.2.jy i j, fun i j => c.1.jz i j + c.2.jz i j⟩

/-- compute_fields, fields.py:276-322; returns (fields_full, fields_half). -/
noncomputable def computeFields (c : FCfg) (F Fprev : Fields3) (bFull bPrev : ℤ → ℤ → ℝ) (curPrev curFull : Cur × Cur) : Fields3 × Fields3 :=
  let full := Cur.total curFull
  let prev := Cur.total curPrev
  let ex := calcEx c F bFull bPrev full prev
  let ey := calcEy c F bFull bPrev full prev
  let bx := calcBx c F bFull bPrev full prev
  let by' := calcBy c F bFull bPrev full prev
  let ez := calcEz c.L c.h full
  let bz := calcBz c.L c.h full
  let phi := calcPhi c.L c.h full
  (⟨fun i j => 2 * ex i j - Fprev.Ex i j, fun i j => 2 * ey i j - Fprev.Ey i j, ez, fun i j => 2 * bx i j - Fprev.Bx i j, fun i j => 2 * by' i j - Fprev.By i j, bz, phi⟩,
   ⟨ex, ey, fun i j => (ez i j + Fprev.Ez i j) / 2, bx, by', fun i j => (bz i j + Fprev.Bz i j) / 2, phi⟩)

/-! ### Specification -/

/-- Interior and whole index ranges of one axis. -/
def Inner (L : ℕ) (i : ℤ) : Prop := 1 ≤ i ∧ i < L
def OnGrid (L : ℕ) (i : ℤ) : Prop := 0 ≤ i ∧ i ≤ L

/-- The five-point Laplacian. -/
noncomputable def lapH (h : ℝ) (u : ℤ → ℤ → ℝ) (i j : ℤ) : ℝ := (u (i + 1) j + u (i - 1) j + u i (j + 1) + u i (j - 1) - 4 * u i j) / h ^ 2

/-- Neighbours of a node when the function is continued evenly over both walls (zero normal derivative). -/
def next (L : ℕ) (j : ℤ) : ℤ := if j = L then L - 1 else j + 1
def prev (j : ℤ) : ℤ := if j = 0 then 1 else j - 1

/-- Five-point Laplacian with zero normal derivative at the walls of the second axis, or of both. -/
noncomputable def lapM (L : ℕ) (h : ℝ) (u : ℤ → ℤ → ℝ) (i j : ℤ) : ℝ := (u (i + 1) j + u (i - 1) j + u i (next L j) + u i (prev j) - 4 * u i j) / h ^ 2
noncomputable def lapN (L : ℕ) (h : ℝ) (u : ℤ → ℤ → ℝ) (i j : ℤ) : ℝ := (u (next L i) j + u (prev i) j + u i (next L j) + u i (prev j) - 4 * u i j) / h ^ 2

/-! ### Helper facts -/

theorem lam_lam0 (L : ℕ) (h : ℝ) (k : ℤ) : lam L h k = lam0 L k / h ^ 2 := by unfold lam lam0; ring

theorem dst2_congr (L : ℕ) (u v : ℤ → ℤ → ℝ) (i j : ℤ) (h : ∀ k l, Inner L k → Inner L l → u k l = v k l) : dst2 L u i j = dst2 L v i j := by
  unfold dst2
  apply dst1_congr; intro n h1 h2
  apply dst1_congr; intro m h3 h4
  exact h n m ⟨h1, h2⟩ ⟨h3, h4⟩

theorem dct2_congr (L : ℕ) (hL : 1 ≤ L) (u v : ℤ → ℤ → ℝ) (i j : ℤ) (h : ∀ k l, OnGrid L k → OnGrid L l → u k l = v k l) : dct2 L u i j = dct2 L v i j := by
  unfold dct2
  apply dct1_congr L hL; intro n h1 h2
  apply dct1_congr L hL; intro m h3 h4
  exact h n m ⟨h1, h2⟩ ⟨h3, h4⟩

theorem mixT_congr (L : ℕ) (hL : 1 ≤ L) (u v : ℤ → ℤ → ℝ) (i j : ℤ) (h : ∀ k l, Inner L k → OnGrid L l → u k l = v k l) : mixT L u i j = mixT L v i j := by
  unfold mixT
  apply dct1_congr L hL; intro m h3 h4
  apply dst1_congr; intro n h1 h2
  exact h n m ⟨h1, h2⟩ ⟨h3, h4⟩

theorem dst1_zero (L : ℕ) (k : ℤ) : dst1 L (fun _ => 0) k = 0 := by simp [dst1]
theorem dct1_zero (L : ℕ) (k : ℤ) : dct1 L (fun _ => 0) k = 0 := by simp [dct1]

theorem dst2_perimeter (L : ℕ) (hL : 1 ≤ L) (g : ℤ → ℤ → ℝ) (i j : ℤ) (h : i = 0 ∨ i = L ∨ j = 0 ∨ j = L) : dst2 L g i j = 0 := by
  unfold dst2
  rcases h with rfl | rfl | rfl | rfl
  · exact (dst1_ends L hL _).1
  · exact (dst1_ends L hL _).2
  · rw [show (fun n => dst1 L (fun m => g n m) 0) = fun _ => (0 : ℝ) from funext fun n => (dst1_ends L hL _).1]; exact dst1_zero L i
  · rw [show (fun n => dst1 L (fun m => g n m) L) = fun _ => (0 : ℝ) from funext fun n => (dst1_ends L hL _).2]; exact dst1_zero L i

theorem pad1_dst2 (L : ℕ) (hL : 1 ≤ L) (g : ℤ → ℤ → ℝ) (i j : ℤ) (hi : OnGrid L i) (hj : OnGrid L j) : pad1 L (dst2 L g) i j = dst2 L g i j := by
  unfold pad1
  split_ifs with h
  · rfl
  · rw [dst2_perimeter L hL]
    unfold OnGrid at hi hj
    omega

theorem mixT_ends (L : ℕ) (hL : 1 ≤ L) (g : ℤ → ℤ → ℝ) (i j : ℤ) (h : i = 0 ∨ i = L) : mixT L g i j = 0 := by
  unfold mixT
  rcases h with rfl | rfl
  · rw [show (fun m => dst1 L (fun n => g n m) 0) = fun _ => (0 : ℝ) from funext fun n => (dst1_ends L hL _).1]; exact dct1_zero L j
  · rw [show (fun m => dst1 L (fun n => g n m) L) = fun _ => (0 : ℝ) from funext fun n => (dst1_ends L hL _).2]; exact dct1_zero L j

theorem mix2d_mixT (L : ℕ) (hL : 1 ≤ L) (g : ℤ → ℤ → ℝ) (i j : ℤ) (hi : OnGrid L i) : mix2d L g i j = mixT L g i j := by
  unfold mix2d
  split_ifs with h
  · rfl
  · rw [mixT_ends L hL]
    unfold OnGrid at hi
    omega

theorem mixT_mirror (L : ℕ) (hL : 1 ≤ L) (g : ℤ → ℤ → ℝ) (i j : ℤ) : mixT L g i (next L j) = mixT L g i (j + 1) ∧ mixT L g i (prev j) = mixT L g i (j - 1) := by
  unfold mixT next prev
  constructor
  · split_ifs with h
    · subst h; exact (dct1_mirror L hL _ 1).2.symm
    · rfl
  · split_ifs with h
    · subst h; exact (dct1_mirror L hL _ 1).1.symm
    · rfl

theorem dct2_mirror (L : ℕ) (hL : 1 ≤ L) (g : ℤ → ℤ → ℝ) (i j : ℤ) : dct2 L g i (next L j) = dct2 L g i (j + 1) ∧ dct2 L g i (prev j) = dct2 L g i (j - 1) ∧
    dct2 L g (next L i) j = dct2 L g (i + 1) j ∧ dct2 L g (prev i) j = dct2 L g (i - 1) j := by
  have h1 : ∀ g : ℤ → ℤ → ℝ, ∀ i j : ℤ, dct2 L g (next L i) j = dct2 L g (i + 1) j ∧ dct2 L g (prev i) j = dct2 L g (i - 1) j := by
    intro g i j
    unfold dct2 next prev
    constructor
    · split_ifs with h
      · subst h; exact (dct1_mirror L hL _ 1).2.symm
      · rfl
    · split_ifs with h
      · subst h; exact (dct1_mirror L hL _ 1).1.symm
      · rfl
  have sw : ∀ i j : ℤ, dct2 L g i j = dct2 L (fun a b => g b a) j i := by
    intro i j; unfold dct2; exact dct1_dct1_comm L hL g i j
  refine ⟨?_, ?_, (h1 g i j).1, (h1 g i j).2⟩
  · rw [sw, sw]; exact (h1 _ j i).1
  · rw [sw, sw]; exact (h1 _ j i).2

/-! ### C28 -/

/-- C28: the sine-transform solver gives the exact solution of the discrete Poisson problem with zero values on the perimeter. -/
theorem dirichletSolve_spec (L : ℕ) (hL : 1 ≤ L) (h : ℝ) (hh : 0 < h) (rhs : ℤ → ℤ → ℝ) :
    (∀ i j, Inner L i → Inner L j → -lapH h (dirichletSolve L h rhs) i j = rhs i j) ∧
    (∀ i j : ℤ, (i = 0 ∨ i = L ∨ j = 0 ∨ j = L) → dirichletSolve L h rhs i j = 0) := by
  have hLr : (0 : ℝ) < L := by exact_mod_cast hL
  constructor
  · intro i j hi hj
    have hi' := hi
    have hj' := hj
    unfold Inner at hi hj
    unfold dirichletSolve lapH
    have g1 : OnGrid L i := ⟨by omega, by omega⟩
    have g2 : OnGrid L j := ⟨by omega, by omega⟩
    have g3 : OnGrid L (i + 1) := ⟨by omega, by omega⟩
    have g4 : OnGrid L (i - 1) := ⟨by omega, by omega⟩
    have g5 : OnGrid L (j + 1) := ⟨by omega, by omega⟩
    have g6 : OnGrid L (j - 1) := ⟨by omega, by omega⟩
    rw [pad1_dst2 L hL _ _ _ g3 g2, pad1_dst2 L hL _ _ _ g4 g2, pad1_dst2 L hL _ _ _ g1 g5, pad1_dst2 L hL _ _ _ g1 g6, pad1_dst2 L hL _ _ _ g1 g2]
    have e := dst2_lap L hL (fun k l => dst2 L rhs k l * dirichletMatrix L h k l) i j
    unfold lap5 at e
    have e2 : dst2 L (fun k l => (lam0 L k + lam0 L l) * (dst2 L rhs k l * dirichletMatrix L h k l)) i j = dst2 L (fun k l => h ^ 2 / (2 * L) ^ 2 * dst2 L rhs k l) i j := by
      apply dst2_congr
      intro k l hk hl
      have p1 := lam0_pos L k hk.1 hk.2.le
      have p2 := lam0_pos L l hl.1 hl.2.le
      simp only [dirichletMatrix, lam_lam0]
      field_simp
    have e3 : dst2 L (fun k l => h ^ 2 / (2 * L) ^ 2 * dst2 L rhs k l) i j = h ^ 2 / (2 * L) ^ 2 * dst2 L (dst2 L rhs) i j := by
      conv_lhs => unfold dst2
      simp only [dst1_mul]
      rfl
    rw [dst2_dst2 L hL rhs i j hi' hj'] at e3
    rw [e2, e3] at e
    rw [show ∀ a b : ℝ, -(a / b) = -a / b from fun a b => by ring, e]
    field_simp
  · intro i j hij
    unfold dirichletSolve pad1
    rw [if_neg (by omega)]

/-- C28: that discrete Poisson problem has only one solution. -/
theorem dirichlet_unique (L : ℕ) (hL : 1 ≤ L) (h : ℝ) (hh : 0 < h) (u v : ℤ → ℤ → ℝ)
    (hu : ∀ i j : ℤ, (i = 0 ∨ i = L ∨ j = 0 ∨ j = L) → u i j = v i j) (hl : ∀ i j, Inner L i → Inner L j → lapH h u i j = lapH h v i j) :
    ∀ i j, OnGrid L i → OnGrid L j → u i j = v i j := by
  have hLr : (0 : ℝ) < L := by exact_mod_cast hL
  set w : ℤ → ℤ → ℝ := fun i j => u i j - v i j with hw
  have hw0 : ∀ i j : ℤ, (i = 0 ∨ i = L ∨ j = 0 ∨ j = L) → w i j = 0 := by intro i j hij; simp only [hw]; rw [hu i j hij, sub_self]
  have hwl : ∀ i j, Inner L i → Inner L j → lap5 w i j = 0 := by
    intro i j hi hj
    have := hl i j hi hj
    unfold lapH at this
    rw [div_left_inj' (by positivity)] at this
    unfold lap5; simp only [hw]; linarith
  set s := fun i j => 1 / (2 * (L : ℝ)) ^ 2 * dst2 L w i j with hs
  have hws : ∀ i j, OnGrid L i → OnGrid L j → w i j = dst2 L s i j := by
    intro i j hi hj
    have e3 : dst2 L s i j = 1 / (2 * (L : ℝ)) ^ 2 * dst2 L (dst2 L w) i j := by
      rw [hs]
      conv_lhs => unfold dst2
      simp only [dst1_mul]
      rfl
    by_cases hb : Inner L i ∧ Inner L j
    · rw [e3, dst2_dst2 L hL w i j hb.1 hb.2]; field_simp
    · have : i = 0 ∨ i = L ∨ j = 0 ∨ j = L := by unfold Inner at hb; unfold OnGrid at hi hj; omega
      rw [hw0 i j this, dst2_perimeter L hL _ i j this]
  have hz : ∀ k l, Inner L k → Inner L l → dst2 L w k l = 0 := by
    intro k l hk hl'
    have h1 : ∀ i j, Inner L i → Inner L j → dst2 L (fun k l => (lam0 L k + lam0 L l) * s k l) i j = 0 := by
      intro i j hi hj
      rw [← dst2_lap L hL s i j]
      have := hwl i j hi hj
      have hi' := hi
      have hj' := hj
      unfold Inner at hi hj
      unfold lap5 at this ⊢
      rw [hws _ _ ⟨by omega, by omega⟩ ⟨by omega, by omega⟩, hws _ _ ⟨by omega, by omega⟩ ⟨by omega, by omega⟩, hws _ _ ⟨by omega, by omega⟩ ⟨by omega, by omega⟩,
        hws _ _ ⟨by omega, by omega⟩ ⟨by omega, by omega⟩, hws _ _ ⟨by omega, by omega⟩ ⟨by omega, by omega⟩] at this
      rw [this, neg_zero]
    have h2 := dst2_dst2 L hL (fun k l => (lam0 L k + lam0 L l) * s k l) k l hk hl'
    rw [dst2_congr L _ (fun _ _ => 0) k l h1] at h2
    have h3 : dst2 L (fun _ _ => 0) k l = 0 := by unfold dst2; simp only [dst1_zero]
    rw [h3] at h2
    have p1 := lam0_pos L k hk.1 hk.2.le
    have p2 := lam0_pos L l hl'.1 hl'.2.le
    have h4 : s k l = 0 := by
      have hne : (2 * (L : ℝ)) ^ 2 ≠ 0 := by positivity
      have hne2 : lam0 L k + lam0 L l ≠ 0 := by positivity
      have := h2.symm
      simp only [mul_eq_zero, hne, hne2, false_or] at this
      exact this
    rw [hs] at h4
    simp only at h4
    have hne : 1 / (2 * (L : ℝ)) ^ 2 ≠ 0 := by positivity
    exact (mul_eq_zero.mp h4).resolve_left hne
  intro i j hi hj
  have := hws i j hi hj
  rw [hs, dst2_congr L _ (fun _ _ => 0) i j (fun k l hk hl' => by simp only [hz k l hk hl', mul_zero])] at this
  have h3 : dst2 L (fun _ _ => 0) i j = 0 := by unfold dst2; simp only [dst1_zero]
  rw [h3] at this
  simp only [hw] at this
  linarith

/-- C28: the mixed solver gives the exact solution of the discrete Helmholtz problem with zero values at the walls of the first axis and zero normal derivative at the walls of the second. -/
theorem mixSolve_spec (L : ℕ) (hL : 1 ≤ L) (h κ : ℝ) (hh : 0 < h) (hκ : 0 ≤ κ) (rhs : ℤ → ℤ → ℝ) :
    (∀ i j, Inner L i → OnGrid L j → -lapM L h (mixSolve L h κ rhs) i j + κ * mixSolve L h κ rhs i j = rhs i j) ∧
    (∀ i j : ℤ, (i = 0 ∨ i = L) → mixSolve L h κ rhs i j = 0) := by
  have hLr : (0 : ℝ) < L := by exact_mod_cast hL
  constructor
  · intro i j hi hj
    have hi' := hi
    unfold Inner at hi
    unfold mixSolve lapM
    set g : ℤ → ℤ → ℝ := fun k l => mixedMatrix L h κ k l * mix2d L rhs k l with hg
    rw [mix2d_mixT L hL _ _ _ ⟨by omega, by omega⟩, mix2d_mixT L hL _ _ _ ⟨by omega, by omega⟩, mix2d_mixT L hL _ _ _ ⟨by omega, by omega⟩, mix2d_mixT L hL _ _ _ ⟨by omega, by omega⟩,
      mix2d_mixT L hL _ _ _ ⟨by omega, by omega⟩, (mixT_mirror L hL g i j).1, (mixT_mirror L hL g i j).2]
    have e := mixT_lap L hL g i j
    unfold lap5 at e
    have e1 : h ^ 2 * κ * mixT L g i j = mixT L (fun k l => h ^ 2 * κ * g k l) i j := by unfold mixT; simp only [dst1_mul, dct1_mul]
    have e0 : mixT L (fun k l => (lam0 L k + lam0 L l) * g k l) i j + mixT L (fun k l => h ^ 2 * κ * g k l) i j = mixT L (fun k l => h ^ 2 / (2 * L) ^ 2 * mixT L rhs k l) i j := by
      have : mixT L (fun k l => (lam0 L k + lam0 L l) * g k l + h ^ 2 * κ * g k l) i j = mixT L (fun k l => (lam0 L k + lam0 L l) * g k l) i j + mixT L (fun k l => h ^ 2 * κ * g k l) i j := by
        conv_lhs => unfold mixT
        simp only [dst1_add, dct1_add]
        rfl
      rw [← this]
      apply mixT_congr L hL
      intro k l hk hl
      have p1 := lam0_pos L k hk.1 hk.2.le
      have p2 := lam0_nonneg L l
      simp only [hg, mixedMatrix, lam_lam0]
      rw [mix2d_mixT L hL rhs k l ⟨by have := hk.1; omega, hk.2.le⟩]
      have : lam0 L k / h ^ 2 + lam0 L l / h ^ 2 + κ ≠ 0 := by positivity
      have e5 : (lam0 L k + lam0 L l) + h ^ 2 * κ = h ^ 2 * (lam0 L k / h ^ 2 + lam0 L l / h ^ 2 + κ) := by field_simp
      rw [← add_mul, e5]
      field_simp
    have e3 : mixT L (fun k l => h ^ 2 / (2 * L) ^ 2 * mixT L rhs k l) i j = h ^ 2 / (2 * L) ^ 2 * mixT L (mixT L rhs) i j := by
      conv_lhs => unfold mixT
      simp only [dst1_mul, dct1_mul]
      rfl
    rw [mixT_mixT L hL rhs i j hi' hj] at e3
    have hfin : -(mixT L g (i + 1) j + mixT L g (i - 1) j + mixT L g i (j + 1) + mixT L g i (j - 1) - 4 * mixT L g i j) + h ^ 2 * κ * mixT L g i j = h ^ 2 * rhs i j := by
      rw [e, e1, e0, e3]; field_simp
    field_simp
    linarith
  · intro i j hij
    unfold mixSolve mix2d
    rw [if_neg (by omega)]

/-- C28: that Helmholtz problem has only one solution. -/
theorem mixed_unique (L : ℕ) (hL : 1 ≤ L) (h κ : ℝ) (hh : 0 < h) (hκ : 0 ≤ κ) (u v : ℤ → ℤ → ℝ)
    (hu : ∀ i j : ℤ, (i = 0 ∨ i = L) → u i j = v i j) (hl : ∀ i j, Inner L i → OnGrid L j → -lapM L h u i j + κ * u i j = -lapM L h v i j + κ * v i j) :
    ∀ i j, OnGrid L i → OnGrid L j → u i j = v i j := by
  have hLr : (0 : ℝ) < L := by exact_mod_cast hL
  set w : ℤ → ℤ → ℝ := fun i j => u i j - v i j with hw
  have hw0 : ∀ i j : ℤ, (i = 0 ∨ i = L) → w i j = 0 := by intro i j hij; simp only [hw]; rw [hu i j hij, sub_self]
  have hwl : ∀ i j, Inner L i → OnGrid L j → -(w (i + 1) j + w (i - 1) j + w i (next L j) + w i (prev j) - 4 * w i j) + h ^ 2 * κ * w i j = 0 := by
    intro i j hi hj
    have := hl i j hi hj
    unfold lapM at this
    field_simp at this
    simp only [hw]; linarith
  set s := fun i j => 1 / (2 * (L : ℝ)) ^ 2 * mixT L w i j with hs
  have hws : ∀ i j, OnGrid L i → OnGrid L j → w i j = mixT L s i j := by
    intro i j hi hj
    have e3 : mixT L s i j = 1 / (2 * (L : ℝ)) ^ 2 * mixT L (mixT L w) i j := by
      rw [hs]
      conv_lhs => unfold mixT
      simp only [dst1_mul, dct1_mul]
      rfl
    by_cases hb : Inner L i
    · rw [e3, mixT_mixT L hL w i j hb hj]; field_simp
    · have : i = 0 ∨ i = L := by unfold Inner at hb; unfold OnGrid at hi; omega
      rw [hw0 i j this, mixT_ends L hL _ i j this]
  have nxt : ∀ j, OnGrid L j → OnGrid L (next L j) ∧ OnGrid L (prev j) := by
    intro j hj; unfold OnGrid at *; unfold next prev; split_ifs <;> omega
  have hz : ∀ k l, Inner L k → OnGrid L l → mixT L w k l = 0 := by
    intro k l hk hl'
    have h1 : ∀ i j, Inner L i → OnGrid L j → mixT L (fun k l => (lam0 L k + lam0 L l + h ^ 2 * κ) * s k l) i j = 0 := by
      intro i j hi hj
      have esum : mixT L (fun k l => (lam0 L k + lam0 L l + h ^ 2 * κ) * s k l) i j = mixT L (fun k l => (lam0 L k + lam0 L l) * s k l) i j + h ^ 2 * κ * mixT L s i j := by
        conv_lhs => unfold mixT
        simp only [add_mul (lam0 L _ + lam0 L _) (h ^ 2 * κ), dst1_add, dct1_add, dst1_mul, dct1_mul]
        rfl
      rw [esum, ← mixT_lap L hL s i j]
      have := hwl i j hi hj
      have hi' := hi
      unfold Inner at hi
      unfold lap5
      rw [hws _ _ ⟨by omega, by omega⟩ hj, hws _ _ ⟨by omega, by omega⟩ hj, hws _ _ ⟨by omega, by omega⟩ (nxt j hj).1,
        hws _ _ ⟨by omega, by omega⟩ (nxt j hj).2, hws _ _ ⟨by omega, by omega⟩ hj, (mixT_mirror L hL s i j).1, (mixT_mirror L hL s i j).2] at this
      exact this
    have h2 := mixT_mixT L hL (fun k l => (lam0 L k + lam0 L l + h ^ 2 * κ) * s k l) k l hk hl'
    rw [mixT_congr L hL _ (fun _ _ => 0) k l h1] at h2
    have h3 : mixT L (fun _ _ => 0) k l = 0 := by unfold mixT; simp only [dst1_zero, dct1_zero]
    rw [h3] at h2
    have p1 := lam0_pos L k hk.1 hk.2.le
    have p2 := lam0_nonneg L l
    have h4 : s k l = 0 := by
      have hne : (2 * (L : ℝ)) ^ 2 ≠ 0 := by positivity
      have hne2 : lam0 L k + lam0 L l + h ^ 2 * κ ≠ 0 := by positivity
      have := h2.symm
      simp only [mul_eq_zero, hne, hne2, false_or] at this
      exact this
    rw [hs] at h4
    simp only at h4
    have hne : 1 / (2 * (L : ℝ)) ^ 2 ≠ 0 := by positivity
    exact (mul_eq_zero.mp h4).resolve_left hne
  intro i j hi hj
  have := hws i j hi hj
  rw [hs, mixT_congr L hL _ (fun _ _ => 0) i j (fun k l hk hl' => by simp only [hz k l hk hl', mul_zero])] at this
  have h3 : mixT L (fun _ _ => 0) i j = 0 := by unfold mixT; simp only [dst1_zero, dct1_zero]
  rw [h3] at this
  simp only [hw] at this
  linarith


/-- Sum over the interior nodes. -/
noncomputable def innerSum (L : ℕ) (u : ℤ → ℤ → ℝ) : ℝ := ∑ i ∈ Finset.Ico 1 (L : ℤ), ∑ j ∈ Finset.Ico 1 (L : ℤ), u i j

theorem trap_cos_zero (L : ℕ) (hL : 1 ≤ L) (u : ℤ → ℝ) : dct1 L u 0 = trap L u := by
  rw [dct1_trap L hL]; exact trap_congr _ _ _ fun k _ _ => by simp

theorem dct2_zero_zero (L : ℕ) (hL : 1 ≤ L) (u : ℤ → ℤ → ℝ) (hu : ∀ i j : ℤ, (i = 0 ∨ i = L ∨ j = 0 ∨ j = L) → u i j = 0) : dct2 L u 0 0 = 4 * innerSum L u := by
  unfold dct2 innerSum
  rw [trap_cos_zero L hL]
  simp only [trap_cos_zero L hL]
  rw [trap_eq L hL]
  have inner : ∀ i : ℤ, trap L (fun m => u i m) = 2 * ∑ j ∈ Finset.Ico 1 (L : ℤ), u i j := by
    intro i
    rw [trap_eq L hL, hu i 0 (by tauto), hu i L (by tauto)]; ring
  rw [trap_zero L _ (fun k _ _ => hu 0 k (by tauto)), trap_zero L _ (fun k _ _ => hu L k (by tauto))]
  simp only [inner, ← Finset.mul_sum]
  ring

/-- C28: the cosine-transform solver solves the discrete Poisson problem with zero normal derivative at all walls up to the mean of the right-hand side, which such a problem cannot have. -/
theorem neumannSolve_spec (L : ℕ) (hL : 1 ≤ L) (h : ℝ) (hh : 0 < h) (rhs : ℤ → ℤ → ℝ) (hr : ∀ i j : ℤ, (i = 0 ∨ i = L ∨ j = 0 ∨ j = L) → rhs i j = 0) (i j : ℤ) (hi : OnGrid L i) (hj : OnGrid L j) :
    -lapN L h (neumannSolve L h rhs) i j = rhs i j - innerSum L rhs / L ^ 2 := by
  have hLr : (0 : ℝ) < L := by exact_mod_cast hL
  unfold neumannSolve lapN
  set g : ℤ → ℤ → ℝ := fun k l => dct2 L rhs k l * neumannMatrix L h k l with hg
  obtain ⟨m1, m2, m3, m4⟩ := dct2_mirror L hL g i j
  rw [m1, m2, m3, m4]
  have e := dct2_lap L hL g i j
  unfold lap5 at e
  have e0 : dct2 L (fun k l => (lam0 L k + lam0 L l) * g k l) i j = dct2 L (fun k l => h ^ 2 / (2 * L) ^ 2 * dct2 L rhs k l + -(h ^ 2 / (2 * L) ^ 2 * dct2 L rhs 0 0) * (if k = 0 then (if l = 0 then 1 else 0) else 0)) i j := by
    apply dct2_congr L hL
    intro k l hk hl
    simp only [hg, neumannMatrix, lam_lam0]
    by_cases h0 : k = 0 ∧ l = 0
    · rw [if_pos h0, h0.1, h0.2]; simp
    · have hz : (if k = 0 then (if l = 0 then (1 : ℝ) else 0) else 0) = 0 := by
        split_ifs with a b
        · exact absurd ⟨a, b⟩ h0
        · rfl
        · rfl
      rw [if_neg h0, hz]
      have hp : 0 < lam0 L k + lam0 L l := by
        have n1 := lam0_nonneg L k
        have n2 := lam0_nonneg L l
        unfold OnGrid at hk hl
        by_cases hk0 : k = 0
        · have := lam0_pos L l (by omega) hl.2; linarith
        · have := lam0_pos L k (by omega) hk.2; linarith
      field_simp
      ring
  have e1 : ∀ c : ℝ, dct2 L (fun k l => h ^ 2 / (2 * L) ^ 2 * dct2 L rhs k l + c * (if k = 0 then (if l = 0 then 1 else 0) else 0)) i j = h ^ 2 / (2 * L) ^ 2 * dct2 L (dct2 L rhs) i j + c := by
    intro c
    have hd : dct2 L (fun k l => if k = 0 then (if l = 0 then (1 : ℝ) else 0) else 0) i j = 1 := by
      have one : ∀ x : ℤ, dct1 L (fun l => if l = 0 then (1 : ℝ) else 0) x = 1 := by
        intro x
        have := trap_single L hL (fun n => Real.cos (Real.pi * x * n / L)) 0 1 le_rfl (by omega)
        rw [if_pos (Or.inl rfl)] at this
        rw [dct1_trap L hL]
        have e : (fun n : ℤ => (if n = 0 then (1 : ℝ) else 0) * Real.cos (Real.pi * x * n / L)) = fun n : ℤ => Real.cos (Real.pi * x * n / L) * if n = 0 then 1 else 0 := by funext n; ring
        rw [e, this]; simp
      unfold dct2
      have : (fun n : ℤ => dct1 L (fun m : ℤ => if n = 0 then (if m = 0 then (1 : ℝ) else 0) else 0) j) = fun n : ℤ => if n = 0 then (1 : ℝ) else 0 := by
        funext n
        by_cases hn : n = 0
        · simp only [hn, if_true]; exact one j
        · simp only [hn, if_false]; exact dct1_zero L j
      rw [this]; exact one i
    have : dct2 L (fun k l => h ^ 2 / (2 * L) ^ 2 * dct2 L rhs k l + c * (if k = 0 then (if l = 0 then 1 else 0) else 0)) i j =
        h ^ 2 / (2 * L) ^ 2 * dct2 L (dct2 L rhs) i j + c * dct2 L (fun k l => if k = 0 then (if l = 0 then (1 : ℝ) else 0) else 0) i j := by
      conv_lhs => unfold dct2
      simp only [dct1_add, dct1_mul]
      rfl
    rw [this, hd, mul_one]
  rw [e0, e1, dct2_dct2 L hL rhs i j hi hj, dct2_zero_zero L hL rhs hr] at e
  rw [show ∀ a b : ℝ, -(a / b) = -a / b from fun a b => by ring, e]
  field_simp
  ring

theorem bzRhs_perimeter (L : ℕ) (h : ℝ) (jx jy : ℤ → ℤ → ℝ) (i j : ℤ) (hij : i = 0 ∨ i = L ∨ j = 0 ∨ j = L) : bzRhs L h jx jy i j = 0 := by
  unfold bzRhs pad1
  rw [if_neg (by omega), if_neg (by omega)]; simp

theorem sum_telescope2 (L : ℕ) (hL : 2 ≤ L) (a : ℤ → ℝ) : ∑ j ∈ Finset.Ico 1 (L : ℤ), (a (j + 1) - a (j - 1)) = a L + a (L - 1) - a 1 - a 0 := by
  induction L with
  | zero => omega
  | succ L ih =>
    have : Finset.Ico (1 : ℤ) ((L + 1 : ℕ) : ℤ) = insert (L : ℤ) (Finset.Ico 1 (L : ℤ)) := by
      ext k; simp only [Finset.mem_Ico, Finset.mem_insert]; omega
    rw [this, Finset.sum_insert (by simp)]
    rcases Nat.lt_or_ge L 2 with h | h
    · have : L = 1 := by omega
      subst this; simp
    · rw [ih h]
      push_cast
      rw [show (L : ℤ) + 1 - 1 = L by ring]
      ring

/-- C28: the right-hand side of the longitudinal magnetic field has no mean when no current touches the two outer layers of nodes. -/
theorem bzRhs_sum (L : ℕ) (hL : 2 ≤ L) (h : ℝ) (jx jy : ℤ → ℤ → ℝ)
    (hx : ∀ i j : ℤ, (j ≤ 1 ∨ (L : ℤ) - 1 ≤ j) → jx i j = 0) (hy : ∀ i j : ℤ, (i ≤ 1 ∨ (L : ℤ) - 1 ≤ i) → jy i j = 0) : innerSum L (bzRhs L h jx jy) = 0 := by
  have e : ∀ i ∈ Finset.Ico 1 (L : ℤ), ∀ j ∈ Finset.Ico 1 (L : ℤ), bzRhs L h jx jy i j = -(1 / (h * 2)) * (jx i (j + 1) - jx i (j - 1)) + 1 / (h * 2) * (jy (i + 1) j - jy (i - 1) j) := by
    intro i hi j hj
    rw [Finset.mem_Ico] at hi hj
    unfold bzRhs pad1
    rw [if_pos ⟨hi, hj⟩, if_pos ⟨hi, hj⟩]
    ring
  unfold innerSum
  rw [Finset.sum_congr rfl fun i hi => Finset.sum_congr rfl (e i hi)]
  simp only [Finset.sum_add_distrib, ← Finset.mul_sum]
  have h1 : ∀ i, ∑ j ∈ Finset.Ico 1 (L : ℤ), (jx i (j + 1) - jx i (j - 1)) = 0 := by
    intro i
    rw [sum_telescope2 L hL (fun j => jx i j), hx i L (by omega), hx i (L - 1) (by omega), hx i 1 (by omega), hx i 0 (by omega)]; ring
  have h2 : ∑ i ∈ Finset.Ico 1 (L : ℤ), ∑ j ∈ Finset.Ico 1 (L : ℤ), (jy (i + 1) j - jy (i - 1) j) = 0 := by
    rw [Finset.sum_comm]
    apply Finset.sum_eq_zero
    intro j _
    rw [sum_telescope2 L hL (fun i => jy i j), hy L j (by omega), hy (L - 1) j (by omega), hy 1 j (by omega), hy 0 j (by omega)]; ring
  simp only [h1, h2]
  simp

/-- C28: the longitudinal magnetic field has zero mean and obeys the discrete Poisson equation with zero normal derivative at the walls; its source is minus the curl of the transverse current, corrected by its mean over the window. -/
theorem calcBz_spec (L : ℕ) (hL : 2 ≤ L) (h : ℝ) (hh : 0 < h) (c : Cur) :
    (∑ i ∈ Finset.Icc 0 (L : ℤ), ∑ j ∈ Finset.Icc 0 (L : ℤ), calcBz L h c i j = 0) ∧
    (∀ i j, Inner L i → Inner L j → lapN L h (calcBz L h c) i j = (c.jx i (j + 1) - c.jx i (j - 1)) / (2 * h) - (c.jy (i + 1) j - c.jy (i - 1) j) / (2 * h) + innerSum L (bzRhs L h c.jx c.jy) / L ^ 2) ∧
    (∀ i j : ℤ, OnGrid L i → OnGrid L j → (i = 0 ∨ i = L ∨ j = 0 ∨ j = L) → lapN L h (calcBz L h c) i j = innerSum L (bzRhs L h c.jx c.jy) / L ^ 2) := by
  have hLr : (0 : ℝ) < L := by have : (2 : ℝ) ≤ L := by exact_mod_cast hL
                               linarith
  have lap : ∀ i j : ℤ, OnGrid L i → OnGrid L j → lapN L h (calcBz L h c) i j = -bzRhs L h c.jx c.jy i j + innerSum L (bzRhs L h c.jx c.jy) / L ^ 2 := by
    intro i j hi hj
    have := neumannSolve_spec L (by omega) h hh (bzRhs L h c.jx c.jy) (bzRhs_perimeter L h c.jx c.jy) i j hi hj
    have e : lapN L h (calcBz L h c) i j = lapN L h (neumannSolve L h (bzRhs L h c.jx c.jy)) i j := by
      unfold calcBz lapN; ring
    rw [e]; linarith
  refine ⟨?_, ?_, ?_⟩
  · unfold calcBz
    simp only [Finset.sum_sub_distrib, Finset.sum_const, Int.card_Icc]
    unfold meanAll
    have : (((L : ℤ) + 1 - 0).toNat : ℝ) = L + 1 := by rw [sub_zero]; norm_cast
    simp only [nsmul_eq_mul, this]
    field_simp
    ring
  · intro i j hi hj
    have hi' := hi
    have hj' := hj
    unfold Inner at hi hj
    rw [lap i j ⟨by omega, by omega⟩ ⟨by omega, by omega⟩]
    unfold bzRhs pad1
    rw [if_pos ⟨hi', hj'⟩, if_pos ⟨hi', hj'⟩]
    field_simp
  · intro i j hi hj hb
    rw [lap i j hi hj, bzRhs_perimeter L h c.jx c.jy i j hb]; ring

/-- C28: the longitudinal electric field and the potential vanish on the perimeter and obey the discrete Poisson equations. -/
theorem calcEz_spec (L : ℕ) (hL : 1 ≤ L) (h : ℝ) (hh : 0 < h) (c : Cur) :
    (∀ i j : ℤ, (i = 0 ∨ i = L ∨ j = 0 ∨ j = L) → calcEz L h c i j = 0 ∧ calcPhi L h c i j = 0) ∧
    (∀ i j, Inner L i → Inner L j → lapH h (calcEz L h c) i j = (c.jx (i + 1) j - c.jx (i - 1) j) / (2 * h) + (c.jy i (j + 1) - c.jy i (j - 1)) / (2 * h)) ∧
    (∀ i j, Inner L i → Inner L j → lapH h (calcPhi L h c) i j = c.jz i j - c.ro i j) := by
  refine ⟨fun i j hij => ⟨(dirichletSolve_spec L hL h hh _).2 i j hij, (dirichletSolve_spec L hL h hh _).2 i j hij⟩, ?_, ?_⟩
  · intro i j hi hj
    have := (dirichletSolve_spec L hL h hh (ezRhs h c.jx c.jy)).1 i j hi hj
    change -lapH h (calcEz L h c) i j = _ at this
    have e : ezRhs h c.jx c.jy i j = -((c.jx (i + 1) j - c.jx (i - 1) j) / (2 * h) + (c.jy i (j + 1) - c.jy i (j - 1)) / (2 * h)) := by
      unfold ezRhs; field_simp
    rw [e] at this
    linarith
  · intro i j hi hj
    have := (dirichletSolve_spec L hL h hh (fun i j => c.ro i j - c.jz i j)).1 i j hi hj
    change -lapH h (calcPhi L h c) i j = _ at this
    linarith

/-- Transposition of an array. -/
def tr (u : ℤ → ℤ → ℝ) : ℤ → ℤ → ℝ := fun i j => u j i

/-- C28: the transverse fields of the half step. With `ρ` and `j_z` the means of the two layers, plasma and beam together, in the interior `ΔEx = ∂x ρ - ∂ξ jx`, `ΔEy = ∂y ρ - ∂ξ jy`, `ΔBx = ∂ξ jy - ∂y jz`, `ΔBy = ∂x jz - ∂ξ jx`, each up to the coefficient of the subtraction trick times the change of the field with respect to the one given; on the walls, where the code takes the derivative of the density to be zero, likewise. The tangential electric and the normal magnetic field vanish on each wall. -/
theorem transverse_spec (c : FCfg) (hL : 1 ≤ c.L) (hh : 0 < c.h) (hκ : 0 ≤ c.κ) (F : Fields3) (bFull bPrev : ℤ → ℤ → ℝ) (full prev : Cur) (ro jz : ℤ → ℤ → ℝ)
    (hro : ∀ i j, ro i j = ((full.ro i j + bFull i j) + (prev.ro i j + bPrev i j)) / 2) (hjz : ∀ i j, jz i j = ((full.jz i j + bFull i j) + (prev.jz i j + bPrev i j)) / 2) :
    (∀ i j : ℤ, (j = 0 ∨ j = c.L) → calcEx c F bFull bPrev full prev i j = 0 ∧ calcBy c F bFull bPrev full prev i j = 0) ∧
    (∀ i j : ℤ, (i = 0 ∨ i = c.L) → calcEy c F bFull bPrev full prev i j = 0 ∧ calcBx c F bFull bPrev full prev i j = 0) ∧
    (∀ i j, Inner c.L i → Inner c.L j →
      lapM c.L c.h (tr (calcEx c F bFull bPrev full prev)) j i - c.κ * (calcEx c F bFull bPrev full prev i j - F.Ex i j) = (ro (i + 1) j - ro (i - 1) j) / (2 * c.h) - (prev.jx i j - full.jx i j) / c.dxi ∧
      lapM c.L c.h (calcEy c F bFull bPrev full prev) i j - c.κ * (calcEy c F bFull bPrev full prev i j - F.Ey i j) = (ro i (j + 1) - ro i (j - 1)) / (2 * c.h) - (prev.jy i j - full.jy i j) / c.dxi ∧
      lapM c.L c.h (calcBx c F bFull bPrev full prev) i j - c.κ * (calcBx c F bFull bPrev full prev i j - F.Bx i j) = (prev.jy i j - full.jy i j) / c.dxi - (jz i (j + 1) - jz i (j - 1)) / (2 * c.h) ∧
      lapM c.L c.h (tr (calcBy c F bFull bPrev full prev)) j i - c.κ * (calcBy c F bFull bPrev full prev i j - F.By i j) = (jz (i + 1) j - jz (i - 1) j) / (2 * c.h) - (prev.jx i j - full.jx i j) / c.dxi) ∧
    (∀ i j : ℤ, (i = 0 ∨ i = c.L) → Inner c.L j →
      lapM c.L c.h (tr (calcEx c F bFull bPrev full prev)) j i - c.κ * (calcEx c F bFull bPrev full prev i j - F.Ex i j) = -(prev.jx i j - full.jx i j) / c.dxi ∧
      lapM c.L c.h (tr (calcBy c F bFull bPrev full prev)) j i - c.κ * (calcBy c F bFull bPrev full prev i j - F.By i j) = -(prev.jx i j - full.jx i j) / c.dxi) ∧
    (∀ i j : ℤ, Inner c.L i → (j = 0 ∨ j = c.L) →
      lapM c.L c.h (calcEy c F bFull bPrev full prev) i j - c.κ * (calcEy c F bFull bPrev full prev i j - F.Ey i j) = -(prev.jy i j - full.jy i j) / c.dxi ∧
      lapM c.L c.h (calcBx c F bFull bPrev full prev) i j - c.κ * (calcBx c F bFull bPrev full prev i j - F.Bx i j) = (prev.jy i j - full.jy i j) / c.dxi) := by
  have ero : roHalf full prev bFull bPrev = ro := by funext i j; rw [hro]; unfold roHalf; ring
  have ejz : jzHalf full prev bFull bPrev = jz := by funext i j; rw [hjz]; unfold jzHalf; ring
  have dx : ∀ (a : ℤ → ℤ → ℝ) i j, Inner c.L i → Inner c.L j → dxArr c.L c.h a i j = (a (i + 1) j - a (i - 1) j) / (2 * c.h) := by
    intro a i j hi hj; unfold dxArr; rw [if_pos ⟨hi, hj⟩, mul_comm c.h]
  have dy : ∀ (a : ℤ → ℤ → ℝ) i j, Inner c.L i → Inner c.L j → dyArr c.L c.h a i j = (a i (j + 1) - a i (j - 1)) / (2 * c.h) := by
    intro a i j hi hj; unfold dyArr; rw [if_pos ⟨hi, hj⟩, mul_comm c.h]
  have dx0 : ∀ (a : ℤ → ℤ → ℝ) (i j : ℤ), (i = 0 ∨ i = c.L) → dxArr c.L c.h a i j = 0 := by
    intro a i j hi; unfold dxArr; rw [if_neg (by omega)]; simp
  have dy0 : ∀ (a : ℤ → ℤ → ℝ) (i j : ℤ), (j = 0 ∨ j = c.L) → dyArr c.L c.h a i j = 0 := by
    intro a i j hi; unfold dyArr; rw [if_neg (by omega)]; simp
  have inn : ∀ i : ℤ, Inner c.L i → OnGrid c.L i := fun i hi => ⟨by have := hi.1; omega, hi.2.le⟩
  have edg : ∀ i : ℤ, (i = 0 ∨ i = c.L) → OnGrid c.L i := fun i hi => by unfold OnGrid; omega
  have sEx : ∀ i j, OnGrid c.L i → Inner c.L j → lapM c.L c.h (tr (calcEx c F bFull bPrev full prev)) j i - c.κ * (calcEx c F bFull bPrev full prev i j - F.Ex i j) = dxArr c.L c.h ro i j - djDxi c.dxi prev.jx full.jx i j := by
    intro i j hi hj
    have := (mixSolve_spec c.L hL c.h c.κ hh hκ (fun a b => -(dxArr c.L c.h (roHalf full prev bFull bPrev) b a - djDxi c.dxi prev.jx full.jx b a - c.κ * F.Ex b a))).1 j i hj hi
    change -lapM c.L c.h (tr (calcEx c F bFull bPrev full prev)) j i + c.κ * calcEx c F bFull bPrev full prev i j = _ at this
    rw [ero] at this
    linarith
  have sEy : ∀ i j, Inner c.L i → OnGrid c.L j → lapM c.L c.h (calcEy c F bFull bPrev full prev) i j - c.κ * (calcEy c F bFull bPrev full prev i j - F.Ey i j) = dyArr c.L c.h ro i j - djDxi c.dxi prev.jy full.jy i j := by
    intro i j hi hj
    have := (mixSolve_spec c.L hL c.h c.κ hh hκ (fun a b => -(dyArr c.L c.h (roHalf full prev bFull bPrev) a b - djDxi c.dxi prev.jy full.jy a b - c.κ * F.Ey a b))).1 i j hi hj
    change -lapM c.L c.h (calcEy c F bFull bPrev full prev) i j + c.κ * calcEy c F bFull bPrev full prev i j = _ at this
    rw [ero] at this
    linarith
  have sBx : ∀ i j, Inner c.L i → OnGrid c.L j → lapM c.L c.h (calcBx c F bFull bPrev full prev) i j - c.κ * (calcBx c F bFull bPrev full prev i j - F.Bx i j) = djDxi c.dxi prev.jy full.jy i j - dyArr c.L c.h jz i j := by
    intro i j hi hj
    have := (mixSolve_spec c.L hL c.h c.κ hh hκ (fun a b => dyArr c.L c.h (jzHalf full prev bFull bPrev) a b - djDxi c.dxi prev.jy full.jy a b + c.κ * F.Bx a b)).1 i j hi hj
    change -lapM c.L c.h (calcBx c F bFull bPrev full prev) i j + c.κ * calcBx c F bFull bPrev full prev i j = _ at this
    rw [ejz] at this
    linarith
  have sBy : ∀ i j, OnGrid c.L i → Inner c.L j → lapM c.L c.h (tr (calcBy c F bFull bPrev full prev)) j i - c.κ * (calcBy c F bFull bPrev full prev i j - F.By i j) = dxArr c.L c.h jz i j - djDxi c.dxi prev.jx full.jx i j := by
    intro i j hi hj
    have := (mixSolve_spec c.L hL c.h c.κ hh hκ (fun a b => -(dxArr c.L c.h (jzHalf full prev bFull bPrev) b a - djDxi c.dxi prev.jx full.jx b a - c.κ * F.By b a))).1 j i hj hi
    change -lapM c.L c.h (tr (calcBy c F bFull bPrev full prev)) j i + c.κ * calcBy c F bFull bPrev full prev i j = _ at this
    rw [ejz] at this
    linarith
  refine ⟨?_, ?_, ?_, ?_, ?_⟩
  · intro i j hj
    exact ⟨(mixSolve_spec c.L hL c.h c.κ hh hκ _).2 j i hj, (mixSolve_spec c.L hL c.h c.κ hh hκ _).2 j i hj⟩
  · intro i j hi
    exact ⟨(mixSolve_spec c.L hL c.h c.κ hh hκ _).2 i j hi, (mixSolve_spec c.L hL c.h c.κ hh hκ _).2 i j hi⟩
  · intro i j hi hj
    refine ⟨?_, ?_, ?_, ?_⟩
    · rw [sEx i j (inn i hi) hj, dx ro i j hi hj]; rfl
    · rw [sEy i j hi (inn j hj), dy ro i j hi hj]; rfl
    · rw [sBx i j hi (inn j hj), dy jz i j hi hj]; rfl
    · rw [sBy i j (inn i hi) hj, dx jz i j hi hj]; rfl
  · intro i j hi hj
    refine ⟨?_, ?_⟩
    · rw [sEx i j (edg i hi) hj, dx0 ro i j hi]; unfold djDxi; ring
    · rw [sBy i j (edg i hi) hj, dx0 jz i j hi]; unfold djDxi; ring
  · intro i j hi hj
    refine ⟨?_, ?_⟩
    · rw [sEy i j hi (edg j hj), dy0 ro i j hj]; unfold djDxi; ring
    · rw [sBx i j hi (edg j hj), dy0 jz i j hj]; unfold djDxi; ring

/-- C28: what compute_fields returns: the half-step transverse fields and the new longitudinal fields are those of the solvers, applied to the sum over the plasma sorts, and the half-step fields are the means of the old and the new ones. -/
theorem computeFields_spec (c : FCfg) (F Fprev : Fields3) (bFull bPrev : ℤ → ℤ → ℝ) (curPrev curFull : Cur × Cur) (G H : Fields3) (hGH : computeFields c F Fprev bFull bPrev curPrev curFull = (G, H)) :
    H.Ex = calcEx c F bFull bPrev (Cur.total curFull) (Cur.total curPrev) ∧ H.Ey = calcEy c F bFull bPrev (Cur.total curFull) (Cur.total curPrev) ∧
    H.Bx = calcBx c F bFull bPrev (Cur.total curFull) (Cur.total curPrev) ∧ H.By = calcBy c F bFull bPrev (Cur.total curFull) (Cur.total curPrev) ∧
    G.Ez = calcEz c.L c.h (Cur.total curFull) ∧ G.Bz = calcBz c.L c.h (Cur.total curFull) ∧ G.Phi = calcPhi c.L c.h (Cur.total curFull) ∧
    ∀ i j, H.Ex i j = (Fprev.Ex i j + G.Ex i j) / 2 ∧ H.Ey i j = (Fprev.Ey i j + G.Ey i j) / 2 ∧ H.Ez i j = (Fprev.Ez i j + G.Ez i j) / 2 ∧
      H.Bx i j = (Fprev.Bx i j + G.Bx i j) / 2 ∧ H.By i j = (Fprev.By i j + G.By i j) / 2 ∧ H.Bz i j = (Fprev.Bz i j + G.Bz i j) / 2 := by
  unfold computeFields at hGH
  simp only [Prod.mk.injEq] at hGH
  obtain ⟨rfl, rfl⟩ := hGH
  refine ⟨rfl, rfl, rfl, rfl, rfl, rfl, rfl, fun i j => ⟨?_, ?_, ?_, ?_, ?_, ?_⟩⟩ <;> simp only <;> ring

/-- C28: without charges, currents and beam, and with no old fields, all fields are zero. -/
theorem zero_fields (c : FCfg) (F Fprev : Fields3) (hF : ∀ i j, F.Ex i j = 0 ∧ F.Ey i j = 0 ∧ F.Bx i j = 0 ∧ F.By i j = 0)
    (hP : ∀ i j, Fprev.Ex i j = 0 ∧ Fprev.Ey i j = 0 ∧ Fprev.Ez i j = 0 ∧ Fprev.Bx i j = 0 ∧ Fprev.By i j = 0 ∧ Fprev.Bz i j = 0)
    (curPrev curFull : Cur × Cur) (h1 : Cur.total curPrev = Cur.zero) (h2 : Cur.total curFull = Cur.zero) :
    computeFields c F Fprev (fun _ _ => 0) (fun _ _ => 0) curPrev curFull =
      (⟨fun _ _ => 0, fun _ _ => 0, fun _ _ => 0, fun _ _ => 0, fun _ _ => 0, fun _ _ => 0, fun _ _ => 0⟩,
       ⟨fun _ _ => 0, fun _ _ => 0, fun _ _ => 0, fun _ _ => 0, fun _ _ => 0, fun _ _ => 0, fun _ _ => 0⟩) := by
  have dz : dst2 c.L (fun _ _ => 0) = fun _ _ => 0 := by funext i j; unfold dst2; simp only [dst1_zero]
  have cz : dct2 c.L (fun _ _ => 0) = fun _ _ => 0 := by funext i j; unfold dct2; simp only [dct1_zero]
  have mz : mix2d c.L (fun _ _ => 0) = fun _ _ => 0 := by funext i j; unfold mix2d mixT; simp only [dst1_zero, dct1_zero, ite_self]
  have ms : mixSolve c.L c.h c.κ (fun _ _ => 0) = fun _ _ => 0 := by unfold mixSolve; simp only [mz, mul_zero]
  have ds : dirichletSolve c.L c.h (fun _ _ => 0) = fun _ _ => 0 := by funext i j; unfold dirichletSolve pad1; simp only [dz, zero_mul, ite_self]
  have ns : neumannSolve c.L c.h (fun _ _ => 0) = fun _ _ => 0 := by unfold neumannSolve; simp only [cz, zero_mul]
  have ez : calcEz c.L c.h Cur.zero = fun _ _ => 0 := by
    unfold calcEz
    rw [show ezRhs c.h Cur.zero.jx Cur.zero.jy = fun _ _ => 0 by funext i j; simp [ezRhs, Cur.zero], ds]
  have ph : calcPhi c.L c.h Cur.zero = fun _ _ => 0 := by
    unfold calcPhi
    rw [show (fun i j => Cur.zero.ro i j - Cur.zero.jz i j) = fun _ _ => (0 : ℝ) by funext i j; simp [Cur.zero], ds]
  have bz : calcBz c.L c.h Cur.zero = fun _ _ => 0 := by
    unfold calcBz
    rw [show bzRhs c.L c.h Cur.zero.jx Cur.zero.jy = fun _ _ => 0 by funext i j; simp [bzRhs, Cur.zero, pad1], ns]
    simp [meanAll]
  have rz : roHalf Cur.zero Cur.zero (fun _ _ => 0) (fun _ _ => 0) = fun _ _ => 0 := by funext i j; simp [roHalf, Cur.zero]
  have jz : jzHalf Cur.zero Cur.zero (fun _ _ => 0) (fun _ _ => 0) = fun _ _ => 0 := by funext i j; simp [jzHalf, Cur.zero]
  have ex : calcEx c F (fun _ _ => 0) (fun _ _ => 0) Cur.zero Cur.zero = fun _ _ => 0 := by
    unfold calcEx
    rw [rz]
    simp only [(hF _ _).1, dxArr, djDxi, Cur.zero, sub_self, zero_div, mul_zero, ite_self, neg_zero, ms]
  have ey : calcEy c F (fun _ _ => 0) (fun _ _ => 0) Cur.zero Cur.zero = fun _ _ => 0 := by
    unfold calcEy
    rw [rz]
    simp only [(hF _ _).2.1, dyArr, djDxi, Cur.zero, sub_self, zero_div, mul_zero, ite_self, neg_zero, ms]
  have bx : calcBx c F (fun _ _ => 0) (fun _ _ => 0) Cur.zero Cur.zero = fun _ _ => 0 := by
    unfold calcBx
    rw [jz]
    simp only [(hF _ _).2.2.1, dyArr, djDxi, Cur.zero, sub_self, zero_div, mul_zero, ite_self, add_zero, ms]
  have by' : calcBy c F (fun _ _ => 0) (fun _ _ => 0) Cur.zero Cur.zero = fun _ _ => 0 := by
    unfold calcBy
    rw [jz]
    simp only [(hF _ _).2.2.2, dxArr, djDxi, Cur.zero, sub_self, zero_div, mul_zero, ite_self, neg_zero, ms]
  unfold computeFields
  rw [h1, h2]
  simp only [ex, ey, ez, bx, by', bz, ph, (hP _ _).1, (hP _ _).2.1, (hP _ _).2.2.1, (hP _ _).2.2.2.1, (hP _ _).2.2.2.2.1, (hP _ _).2.2.2.2.2, mul_zero, sub_self, add_zero, zero_div]

/-- The hypotheses of `transverse_spec` are met by a beam column of unit density in an 8x8 window. -/
example : 1 ≤ (⟨8, 1 / 10, 1 / 100, 1⟩ : FCfg).L ∧ (0 : ℝ) < (⟨8, 1 / 10, 1 / 100, 1⟩ : FCfg).h ∧ (0 : ℝ) ≤ (⟨8, 1 / 10, 1 / 100, 1⟩ : FCfg).κ ∧
    ∃ ro jz : ℤ → ℤ → ℝ, ro 4 4 = 1 ∧
      (∀ i j, ro i j = ((Cur.zero.ro i j + (if i = 4 ∧ j = 4 then 1 else 0)) + (Cur.zero.ro i j + (if i = 4 ∧ j = 4 then 1 else 0))) / 2) ∧
      (∀ i j, jz i j = ((Cur.zero.jz i j + (if i = 4 ∧ j = 4 then 1 else 0)) + (Cur.zero.jz i j + (if i = 4 ∧ j = 4 then 1 else 0))) / 2) := by
  refine ⟨by norm_num, by norm_num, by norm_num, fun i j => if i = 4 ∧ j = 4 then 1 else 0, fun i j => if i = 4 ∧ j = 4 then 1 else 0, by simp, ?_, ?_⟩ <;>
  · intro i j; simp only [Cur.zero]; split <;> norm_num

/-- The hypotheses of `bzRhs_sum` are met by a current at the centre of an 8x8 window. -/
example : (∀ i j : ℤ, (j ≤ 1 ∨ ((8 : ℕ) : ℤ) - 1 ≤ j) → (fun i j : ℤ => if i = 4 ∧ j = 4 then (1 : ℝ) else 0) i j = 0) ∧
    (∀ i j : ℤ, (i ≤ 1 ∨ ((8 : ℕ) : ℤ) - 1 ≤ i) → (fun i j : ℤ => if i = 4 ∧ j = 4 then (1 : ℝ) else 0) i j = 0) := by
  constructor <;> intro i j h <;> simp only <;> rw [if_neg (by omega)]

end Lcode.Plasma3D
