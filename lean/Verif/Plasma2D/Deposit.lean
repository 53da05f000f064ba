import Verif.Plasma2D.Fields
import Mathlib.Algebra.Order.Floor.Ring
import Mathlib.Algebra.Order.BigOperators.Group.Finset
import Mathlib.Data.Rat.Floor
import Mathlib.Tactic.NormNum
import Mathlib.Analysis.Real.Pi.Bounds

/-!
Model of lcode/plasma/rhoj.py and property C17.

Arrays are functions on the integers so that a write outside the grid would be visible.
-/

namespace Lcode.Plasma2D

open Finset

section Stencil

variable {K : Type*} [Field K] [LinearOrder K] [IsStrictOrderedRing K] [FloorRing K]

/-! ### Model -/

/-- weight_quadratic, rhoj.py:12-23 (only places -1, 0, 1 are used). -/
def weightQuadratic (l : K) (place : ℤ) : K :=
  if place = -1 then (l - 1 / 2) ^ 2 / 2
  else if place = 0 then 3 / 4 - l ^ 2
  else (l + 1 / 2) ^ 2 / 2

/-- One `out[cell_index] += v`. -/
def addAt (a : ℤ → K) (i : ℤ) (v : K) : ℤ → K := fun j => if j = i then a j + v else a j

/-- The cells touched by one particle at normalised radius `x` on a grid of `n` nodes, in program order, rhoj.py:44-71:
cell index, factor for the even quantities (rho, j_z), factor for the odd quantities (j_r, j_f). -/
def contributions (n : ℤ) (x : K) : List (ℤ × K × K) :=
  let ci := ⌊x + 1 / 2⌋
  let l := x - ci
  (if ci = 0 then [(1, weightQuadratic l (-1), -weightQuadratic l (-1))] else []) ++
  (if ci = 0 then [0, 1] else [-1, 0, 1]).map fun place : ℤ =>
    ((if ci = n - 1 ∧ place = 1 then n - 2 else ci + place), weightQuadratic l place, weightQuadratic l place)

/-- The even / odd accumulation of one particle carrying the amount `v`, rhoj.py:54-55, 68-69 and 56-57, 70-71. -/
def depositEven (n : ℤ) (x v : K) (a : ℤ → K) : ℤ → K :=
  (contributions n x).foldl (fun a t => addAt a t.1 (v * t.2.1)) a
def depositOdd (n : ℤ) (x v : K) (a : ℤ → K) : ℤ → K :=
  (contributions n x).foldl (fun a t => addAt a t.1 (v * t.2.2)) a

/-! ### Specification -/

/-- The centred quadratic B-spline. -/
def bspline (y : K) : K :=
  if |y| ≤ 1 / 2 then 3 / 4 - y ^ 2 else if |y| ≤ 3 / 2 then (3 / 2 - |y|) ^ 2 / 2 else 0

/-- Shape of a particle at normalised radius `x` in node `i` of a grid with wall node `M`:
spline of the particle, of its image mirrored at the axis with sign `s`, and of its image mirrored at the wall. -/
def shape (M : ℤ) (s : K) (i : ℤ) (x : K) : K :=
  if i < 0 ∨ M < i then 0 else
    bspline (x - i) + (if i = 0 then 0 else s * bspline (x + i)) + (if i = M then 0 else bspline (x - (2 * M - i)))

/-! ### C17 -/

omit [FloorRing K] in
theorem bspline_place (l : K) (h1 : -(1 / 2) ≤ l) (h2 : l ≤ 1 / 2) :
    bspline (l + 1) = weightQuadratic l (-1) ∧ bspline l = weightQuadratic l 0 ∧ bspline (l - 1) = weightQuadratic l 1 := by
  unfold bspline weightQuadratic
  refine ⟨?_, ?_, ?_⟩
  · rw [abs_of_nonneg (by linarith : 0 ≤ l + 1)]
    by_cases h : l + 1 ≤ 1 / 2
    · have : l = -(1 / 2) := by linarith
      subst this; norm_num
    · rw [if_neg h, if_pos (by linarith)]; simp; ring
  · rw [if_pos (abs_le.mpr ⟨by linarith, h2⟩)]; simp
  · rw [abs_of_nonpos (by linarith : l - 1 ≤ 0)]
    by_cases h : -(l - 1) ≤ 1 / 2
    · have : l = 1 / 2 := by linarith
      subst this; norm_num
    · rw [if_neg h, if_pos (by linarith)]; norm_num; ring

omit [FloorRing K] in
theorem bspline_far (y : K) (h : 3 / 2 ≤ |y|) : bspline y = 0 := by
  unfold bspline
  rw [if_neg (by linarith)]
  by_cases h2 : |y| ≤ 3 / 2
  · rw [if_pos h2, le_antisymm h2 h]; norm_num
  · rw [if_neg h2]

omit [FloorRing K] in
theorem bspline_neg (y : K) : bspline (-y) = bspline y := by
  unfold bspline; rw [abs_neg]; simp

omit [FloorRing K] in
theorem bspline_nonneg (y : K) : 0 ≤ bspline y := by
  unfold bspline
  split_ifs with h1 h2
  · have := abs_le.mp h1
    nlinarith
  · positivity
  · exact le_rfl

/-- The integer and fractional part the code uses. -/
theorem cell_split (x : K) : ∃ (c : ℤ) (l : K), ⌊x + 1 / 2⌋ = c ∧ x = c + l ∧ -(1 / 2) ≤ l ∧ l < 1 / 2 := by
  refine ⟨⌊x + 1 / 2⌋, x - ⌊x + 1 / 2⌋, rfl, by ring, ?_, ?_⟩
  · have := Int.floor_le (x + 1 / 2); linarith
  · have := Int.lt_floor_add_one (x + 1 / 2); linarith

/-- Spline value at node `i` of a particle in cell `c` with offset `l`. -/
theorem bspline_cell (c i : ℤ) (l : K) (h1 : -(1 / 2) ≤ l) (h2 : l ≤ 1 / 2) :
    bspline ((c : K) + l - i) = if i = c - 1 then weightQuadratic l (-1) else if i = c then weightQuadratic l 0
      else if i = c + 1 then weightQuadratic l 1 else 0 := by
  obtain ⟨a, b, d⟩ := bspline_place l h1 h2
  split_ifs with e1 e2 e3
  · subst e1; rw [← a]; congr 1; push_cast; ring
  · subst e2; rw [← b]; congr 1; ring
  · subst e3; rw [← d]; congr 1; push_cast; ring
  · apply bspline_far
    rcases lt_or_ge i (c - 1) with h | h
    · have : (i : K) ≤ c - 2 := by exact_mod_cast (show i ≤ c - 2 by omega)
      rw [abs_of_nonneg (by linarith)]; linarith
    · have : (c : K) + 2 ≤ i := by exact_mod_cast (show c + 2 ≤ i by omega)
      rw [abs_of_nonpos (by linarith)]; linarith

theorem foldl_addAt (w : ℤ × K × K → K) (L : List (ℤ × K × K)) (a : ℤ → K) (i : ℤ) :
    L.foldl (fun a t => addAt a t.1 (w t)) a i = a i + (L.map fun t => if i = t.1 then w t else 0).sum := by
  induction L generalizing a with
  | nil => simp
  | cons t L ih =>
    rw [List.foldl_cons, ih, List.map_cons, List.sum_cons]
    unfold addAt
    by_cases h : i = t.1
    · simp only [h, if_true]; ring
    · simp only [h, if_false]; ring

/-- C17, one particle, pointwise: the deposited amounts are those of the image-charge shape. -/
theorem deposit_shape (M : ℤ) (hM : 1 ≤ M) (x v : K) (hx0 : 0 ≤ x) (hx1 : x < M + 1 / 2) (a : ℤ → K) (i : ℤ) :
    depositEven (M + 1) x v a i = a i + v * shape M 1 i x ∧
    depositOdd (M + 1) x v a i = a i + v * shape M (-1) i x := by
  obtain ⟨c, l, hc, hx, hl1, hl2⟩ := cell_split x
  have hc0 : 0 ≤ c := by rw [← hc]; exact Int.floor_nonneg.mpr (by linarith)
  have hcM : c ≤ M := by
    have : ⌊x + 1 / 2⌋ < M + 1 := by rw [Int.floor_lt]; push_cast; linarith
    omega
  have hl : x - c = l := by rw [hx]; ring
  have b1 := bspline_cell c i l hl1 hl2.le
  have b2 : bspline (x + i) = if i = -(c - 1) then weightQuadratic l (-1) else if i = -c then weightQuadratic l 0
      else if i = -(c + 1) then weightQuadratic l 1 else 0 := by
    have := bspline_cell c (-i) l hl1 hl2.le
    push_cast at this
    rw [show x + (i : K) = c + l - -i by rw [hx]; ring, this]
    simp only [neg_eq_iff_eq_neg]
  have b3 : bspline (x - (2 * M - i)) = if i = 2 * M - (c - 1) then weightQuadratic l (-1) else if i = 2 * M - c then weightQuadratic l 0
      else if i = 2 * M - (c + 1) then weightQuadratic l 1 else 0 := by
    have := bspline_cell c (2 * M - i) l hl1 hl2.le
    push_cast at this
    rw [hx, this]
    simp only [sub_eq_iff_eq_add]
    congr 1
    · rw [eq_iff_iff]; omega
    · congr 1
      · rw [eq_iff_iff]; omega
      · congr 1
        · rw [eq_iff_iff]; omega
  rw [← hx] at b1
  have hi : i < 0 ∨ M < i ∨ (0 ≤ i ∧ i ≤ M ∧ (i = c - 1 ∨ i = c ∨ i = c + 1 ∨ i < c - 1 ∨ c + 1 < i)) := by omega
  have hcc : c = 0 ∨ (1 ≤ c ∧ c < M) ∨ c = M ∧ 1 ≤ c := by omega
  constructor
  · unfold depositEven
    rw [foldl_addAt (fun t => v * t.2.1)]
    congr 1
    unfold contributions shape
    simp only [hc, hl, b1, b2, b3]
    rcases hcc with h0 | ⟨h0, h0'⟩ | ⟨h0, h0'⟩ <;> rcases hi with h | h | ⟨h, h', hh | hh | hh | hh | hh⟩ <;> first
    | (exfalso; omega)
    | (simp (disch := omega) only [if_pos, if_neg, ite_self, mul_zero, and_true, List.map_cons, List.map_nil, List.sum_cons, List.sum_nil, List.cons_append, List.nil_append]
       try ring)
  · unfold depositOdd
    rw [foldl_addAt (fun t => v * t.2.2)]
    congr 1
    unfold contributions shape
    simp only [hc, hl, b1, b2, b3]
    rcases hcc with h0 | ⟨h0, h0'⟩ | ⟨h0, h0'⟩ <;> rcases hi with h | h | ⟨h, h', hh | hh | hh | hh | hh⟩ <;> first
    | (exfalso; omega)
    | (simp (disch := omega) only [if_pos, if_neg, ite_self, mul_zero, and_true, List.map_cons, List.map_nil, List.sum_cons, List.sum_nil, List.cons_append, List.nil_append]
       try ring)

/-- C17: no write outside the grid for particles up to half a cell beyond the wall node. -/
theorem writes_in_grid (M : ℤ) (hM : 1 ≤ M) (x : K) (hx0 : 0 ≤ x) (hx1 : x < M + 1 / 2) :
    ∀ t ∈ contributions (M + 1) x, 0 ≤ t.1 ∧ t.1 ≤ M := by
  have hc0 : 0 ≤ ⌊x + 1 / 2⌋ := Int.floor_nonneg.mpr (by linarith)
  have hcM : ⌊x + 1 / 2⌋ < M + 1 := by rw [Int.floor_lt]; push_cast; linarith
  unfold contributions
  simp only
  generalize ⌊x + 1 / 2⌋ = c at hc0 hcM
  intro t ht
  by_cases h0 : c = 0
  · simp only [h0, if_true, List.map_cons, List.map_nil, List.cons_append, List.nil_append, List.mem_cons, List.not_mem_nil, or_false] at ht
    rcases ht with rfl | rfl | rfl <;> simp only [and_true] <;> (try split_ifs) <;> constructor <;> omega
  · simp only [h0, if_false, List.map_cons, List.map_nil, List.nil_append, List.mem_cons, List.not_mem_nil, or_false] at ht
    rcases ht with rfl | rfl | rfl <;> simp only [and_true] <;> (try split_ifs) <;> constructor <;> omega

/-- C17 (finding): a particle half a cell or more beyond the wall node makes the code write outside the arrays. -/
theorem write_outside (M : ℤ) (hM : 1 ≤ M) (x : K) (hx1 : M + 1 / 2 ≤ x) :
    ∃ t ∈ contributions (M + 1) x, M < t.1 := by
  have hcM : M + 1 ≤ ⌊x + 1 / 2⌋ := by rw [Int.le_floor]; push_cast; linarith
  unfold contributions
  simp only
  generalize ⌊x + 1 / 2⌋ = c at hcM
  rw [if_neg (by omega), if_neg (by omega)]
  refine ⟨(c, weightQuadratic (x - c) 0, weightQuadratic (x - c) 0), List.mem_append_right _ (List.mem_map.mpr ⟨0, by simp, ?_⟩), by simp only; omega⟩
  simp

/-- The even factors of one particle sum to one. -/
theorem contributions_sum (n : ℤ) (x : K) : ((contributions n x).map fun t => t.2.1).sum = 1 := by
  unfold contributions
  simp only
  by_cases h0 : ⌊x + 1 / 2⌋ = 0
  · simp only [h0, if_true, List.map_cons, List.map_nil, List.cons_append, List.nil_append, List.sum_cons, List.sum_nil,
      weightQuadratic]
    norm_num
    ring
  · simp only [h0, if_false, List.map_cons, List.map_nil, List.nil_append, List.sum_cons, List.sum_nil, weightQuadratic]
    norm_num
    ring

theorem sum_ite_list (M : ℤ) (L : List (ℤ × K × K)) (w : ℤ × K × K → K) (hL : ∀ t ∈ L, 0 ≤ t.1 ∧ t.1 ≤ M) :
    ∑ i ∈ Icc 0 M, (L.map fun t => if i = t.1 then w t else 0).sum = (L.map w).sum := by
  induction L with
  | nil => simp
  | cons t L ih =>
    simp only [List.map_cons, List.sum_cons, sum_add_distrib]
    rw [ih (fun t ht => hL t (List.mem_cons_of_mem _ ht)), sum_ite_eq' (Icc 0 M) t.1 (fun _ => w t),
      if_pos (by rw [mem_Icc]; exact hL t List.mem_cons_self)]

/-- C17, one particle: the shape of the even quantities is a partition of unity over the grid, including at the axis and at the wall. -/
theorem shape_partition (M : ℤ) (hM : 1 ≤ M) (x : K) (hx0 : 0 ≤ x) (hx1 : x < M + 1 / 2) :
    ∑ i ∈ Icc 0 M, shape M 1 i x = 1 := by
  have e : ∀ i, shape M 1 i x = ((contributions (M + 1) x).map fun t => if i = t.1 then t.2.1 else 0).sum := by
    intro i
    have h := (deposit_shape M hM x 1 hx0 hx1 (fun _ => 0) i).1
    unfold depositEven at h
    rw [foldl_addAt (fun t => 1 * t.2.1)] at h
    simp only [one_mul, zero_add] at h
    exact h.symm
  simp only [e]
  rw [sum_ite_list M _ _ (writes_in_grid M hM x hx0 hx1), contributions_sum]

omit [FloorRing K] in
/-- C17: every particle contributes with a non-negative factor. -/
theorem shape_nonneg (M i : ℤ) (x : K) : 0 ≤ shape M 1 i x := by
  unfold shape
  have a := bspline_nonneg (x - i)
  have b := bspline_nonneg (x + i)
  have d := bspline_nonneg (x - (2 * M - i))
  split_ifs <;> linarith

end Stencil

/-! ### Particles -/

/-- One macro-particle of one sort, lcode/plasma/initialization.py:62 (entries of the arrays r, p_r, p_f, p_z, q, m, age). -/
structure PPart where
  r : ℝ
  pr : ℝ
  pf : ℝ
  pz : ℝ
  q : ℝ
  m : ℝ
  age : ℝ

/-- rhoj.py:34 -/
noncomputable def gammaM (p : PPart) : ℝ := Real.sqrt (p.m ^ 2 + p.pr ^ 2 + p.pf ^ 2 + p.pz ^ 2)

/-- The four output arrays of one sort. -/
structure Grid4 where
  rho : ℤ → ℝ
  jr : ℤ → ℝ
  jf : ℤ → ℝ
  jz : ℤ → ℝ

/-- Body of the particle loop, rhoj.py:33-71. -/
noncomputable def depositOne (h : ℝ) (n : ℤ) (g : Grid4) (p : PPart) : Grid4 :=
  let dq := p.q / (gammaM p - p.pz)
  let x := p.r / h
  { rho := depositEven n x (dq * gammaM p) g.rho
    jr := depositOdd n x (dq * p.pr) g.jr
    jf := depositOdd n x (dq * p.pf) g.jf
    jz := depositEven n x (dq * p.pz) g.jz }

/-- deposit_plasma, rhoj.py:27-81. -/
noncomputable def depositPlasma (h : ℝ) (n : ℤ) (ps : List PPart) (g : Grid4) : Grid4 :=
  let g := ps.foldl (depositOne h n) g
  { rho := g.rho
    jr := fun i => if i = 0 ∨ i = n - 1 then 0 else g.jr i
    jf := fun i => if i = 0 ∨ i = n - 1 then 0 else g.jf i
    jz := fun i => if i = n - 1 then 0 else g.jz i }

/-- _cell_volume, rhoj.py:84-92. -/
noncomputable def cellVolume (h : ℝ) (ppc n : ℕ) (i : ℕ) : ℝ :=
  let c : ℝ := 1 / ppc
  if i = n - 1 then Real.pi * h ^ 2 * (n - 45 / 32)
  else if i = 1 then 2 * Real.pi * h ^ 2 * i * ((193 + 2 * c ^ 2) / 192)
  else if i = 0 then Real.pi * h ^ 2 * ((13 + 2 * c ^ 2) / 32)
  else 2 * Real.pi * h ^ 2 * i

/-- One row (sort) of compute_rhoj, rhoj.py:105-120. -/
noncomputable def rhojRow (h : ℝ) (ppc n : ℕ) (ps : List PPart) : Cur :=
  let g := depositPlasma h n ps ⟨0, 0, 0, 0⟩
  { rho := fun i => g.rho i / cellVolume h ppc n i
    jr := fun i => g.jr i / cellVolume h ppc n i
    jf := fun i => g.jf i / cellVolume h ppc n i
    jz := fun i => g.jz i / cellVolume h ppc n i }

/-- The ion models of the code: mobile ions, or an immobile background of given density. -/
inductive Ions where
  | mobile (ps : List PPart)
  | background (ni : ℕ → ℝ)

/-- compute_rhoj, rhoj.py:103-125. For background ions row 1 holds the density `ni` and no currents. -/
noncomputable def computeRhoj (h : ℝ) (ppc n : ℕ) (el : List PPart) (ions : Ions) : Currents :=
  { el := rhojRow h ppc n el
    ions := match ions with
      | .mobile ps => [rhojRow h ppc n ps]
      | .background ni => [⟨ni, 0, 0, 0⟩] }

/-! ### Specification: the quasistatic charge and current of a particle -/

/-- velocity component `p/(gamma m)` -/
noncomputable def PPart.vr (p : PPart) : ℝ := p.pr / gammaM p
noncomputable def PPart.vf (p : PPart) : ℝ := p.pf / gammaM p
noncomputable def PPart.vz (p : PPart) : ℝ := p.pz / gammaM p

/-- In the quasistatic frame a particle is weighted by `1/(1 - v_z)`. -/
noncomputable def PPart.charge (p : PPart) : ℝ := p.q / (1 - p.vz)

theorem gammaM_sq (p : PPart) : gammaM p ^ 2 = p.m ^ 2 + p.pr ^ 2 + p.pf ^ 2 + p.pz ^ 2 :=
  Real.sq_sqrt (by positivity)

theorem gammaM_gt (p : PPart) (hm : 0 < p.m) : |p.pz| < gammaM p ∧ 0 < gammaM p := by
  have h : |p.pz| < gammaM p := by
    unfold gammaM
    rw [← Real.sqrt_sq_eq_abs]
    apply Real.sqrt_lt_sqrt (by positivity)
    have : 0 < p.m ^ 2 := by positivity
    nlinarith [sq_nonneg p.pr, sq_nonneg p.pf]
  exact ⟨h, lt_of_le_of_lt (abs_nonneg _) h⟩

/-- Massive particles move slower than light, so the charge factor is finite and keeps the sign of the charge. -/
theorem vz_lt_one (p : PPart) (hm : 0 < p.m) : |p.vz| < 1 := by
  obtain ⟨h1, h2⟩ := gammaM_gt p hm
  unfold PPart.vz
  rw [abs_div, abs_of_pos h2, div_lt_one h2]
  exact h1

/-- A particle the deposition accepts: massive, and within the grid of wall node `M`. -/
def PPart.Inside (h : ℝ) (M : ℤ) (p : PPart) : Prop := 0 < p.m ∧ 0 ≤ p.r ∧ p.r < (M + 1 / 2) * h

theorem deposit_factors (p : PPart) (hm : 0 < p.m) :
    p.q / (gammaM p - p.pz) * gammaM p = p.charge ∧ p.q / (gammaM p - p.pz) * p.pr = p.charge * p.vr ∧
    p.q / (gammaM p - p.pz) * p.pf = p.charge * p.vf ∧ p.q / (gammaM p - p.pz) * p.pz = p.charge * p.vz := by
  obtain ⟨h1, h2⟩ := gammaM_gt p hm
  have h3 : gammaM p - p.pz ≠ 0 := by
    have := (abs_lt.mp h1).2; intro e; linarith
  have h4 : 1 - p.pz / gammaM p = (gammaM p - p.pz) / gammaM p := by field_simp
  unfold PPart.charge PPart.vr PPart.vf PPart.vz
  rw [h4]
  refine ⟨?_, ?_, ?_, ?_⟩ <;> field_simp

theorem foldl_depositOne (h : ℝ) (hh : 0 < h) (M : ℤ) (hM : 1 ≤ M) (ps : List PPart) (hp : ∀ p ∈ ps, p.Inside h M) (g : Grid4) (i : ℤ) :
    (ps.foldl (depositOne h (M + 1)) g).rho i = g.rho i + (ps.map fun p => p.charge * shape M 1 i (p.r / h)).sum ∧
    (ps.foldl (depositOne h (M + 1)) g).jr i = g.jr i + (ps.map fun p => p.charge * p.vr * shape M (-1) i (p.r / h)).sum ∧
    (ps.foldl (depositOne h (M + 1)) g).jf i = g.jf i + (ps.map fun p => p.charge * p.vf * shape M (-1) i (p.r / h)).sum ∧
    (ps.foldl (depositOne h (M + 1)) g).jz i = g.jz i + (ps.map fun p => p.charge * p.vz * shape M 1 i (p.r / h)).sum := by
  induction ps generalizing g with
  | nil => simp
  | cons p ps ih =>
    obtain ⟨hm, h0, h1⟩ := hp p List.mem_cons_self
    have hx0 : 0 ≤ p.r / h := by positivity
    have hx1 : p.r / h < M + 1 / 2 := by rw [div_lt_iff₀ hh]; exact h1
    obtain ⟨f1, f2, f3, f4⟩ := deposit_factors p hm
    obtain ⟨i1, i2, i3, i4⟩ := ih (fun p hp' => hp p (List.mem_cons_of_mem _ hp')) (depositOne h (M + 1) g p)
    rw [List.foldl_cons, i1, i2, i3, i4]
    simp only [List.map_cons, List.sum_cons]
    have d1 := (deposit_shape M hM (p.r / h) p.charge hx0 hx1 g.rho i).1
    have d2 := (deposit_shape M hM (p.r / h) (p.charge * p.vr) hx0 hx1 g.jr i).2
    have d3 := (deposit_shape M hM (p.r / h) (p.charge * p.vf) hx0 hx1 g.jf i).2
    have d4 := (deposit_shape M hM (p.r / h) (p.charge * p.vz) hx0 hx1 g.jz i).1
    simp only [depositOne, f1, f2, f3, f4, d1, d2, d3, d4]
    refine ⟨?_, ?_, ?_, ?_⟩ <;> ring

/-- C17, pointwise: every array deposited by the code is, at every node, the sum over the particles of charge (current) times the image-charge shape,
with the radial and azimuthal currents forced to zero on the axis and all currents forced to zero on the wall node. -/
theorem deposit_pointwise (h : ℝ) (hh : 0 < h) (M : ℤ) (hM : 1 ≤ M) (ps : List PPart) (hp : ∀ p ∈ ps, p.Inside h M) (i : ℤ) :
    let g := depositPlasma h (M + 1) ps ⟨0, 0, 0, 0⟩
    g.rho i = (ps.map fun p => p.charge * shape M 1 i (p.r / h)).sum ∧
    g.jr i = (if i = 0 ∨ i = M then 0 else (ps.map fun p => p.charge * p.vr * shape M (-1) i (p.r / h)).sum) ∧
    g.jf i = (if i = 0 ∨ i = M then 0 else (ps.map fun p => p.charge * p.vf * shape M (-1) i (p.r / h)).sum) ∧
    g.jz i = (if i = M then 0 else (ps.map fun p => p.charge * p.vz * shape M 1 i (p.r / h)).sum) := by
  obtain ⟨a, b, c, d⟩ := foldl_depositOne h hh M hM ps hp ⟨0, 0, 0, 0⟩ i
  simp only [Pi.zero_apply, zero_add] at a b c d
  unfold depositPlasma
  simp only [add_sub_cancel_right, a, b, c, d, and_self]

theorem sum_map_shape (M : ℤ) (ps : List PPart) (f : PPart → ℝ) (s : ℤ → PPart → ℝ) (hs : ∀ p ∈ ps, ∑ i ∈ Icc 0 M, s i p = 1) :
    ∑ i ∈ Icc 0 M, (ps.map fun p => f p * s i p).sum = (ps.map f).sum := by
  induction ps with
  | nil => simp
  | cons p ps ih =>
    simp only [List.map_cons, List.sum_cons, sum_add_distrib]
    rw [ih (fun p hp => hs p (List.mem_cons_of_mem _ hp)), ← mul_sum, hs p List.mem_cons_self, mul_one]

/-- C17: the total deposited charge is the total quasistatic charge of the particles, and nothing is written outside the grid. -/
theorem deposit_conserves (h : ℝ) (hh : 0 < h) (M : ℤ) (hM : 1 ≤ M) (ps : List PPart) (hp : ∀ p ∈ ps, p.Inside h M) :
    let g := depositPlasma h (M + 1) ps ⟨0, 0, 0, 0⟩
    ∑ i ∈ Icc 0 M, g.rho i = (ps.map PPart.charge).sum ∧
    ∀ i, i < 0 ∨ M < i → g.rho i = 0 ∧ g.jr i = 0 ∧ g.jf i = 0 ∧ g.jz i = 0 := by
  intro g
  constructor
  · have e : ∀ i, g.rho i = (ps.map fun p => p.charge * shape M 1 i (p.r / h)).sum :=
      fun i => (deposit_pointwise h hh M hM ps hp i).1
    simp only [e]
    apply sum_map_shape M ps PPart.charge (fun i p => shape M 1 i (p.r / h))
    intro p hp'
    obtain ⟨hm, h0, h1⟩ := hp p hp'
    exact shape_partition M hM _ (by positivity) (by rw [div_lt_iff₀ hh]; exact h1)
  · intro i hi
    obtain ⟨a, b, c, d⟩ := deposit_pointwise h hh M hM ps hp i
    have hs : ∀ s : ℝ, ∀ x : ℝ, shape M s i x = 0 := by
      intro s x; unfold shape; rw [if_pos hi]
    simp only [hs, mul_zero, List.map_const', List.sum_replicate, smul_zero, ite_self] at a b c d
    exact ⟨a, b, c, d⟩

theorem cellVolume_pos (h : ℝ) (hh : 0 < h) (ppc M i : ℕ) (hM : 1 ≤ M) : 0 < cellVolume h ppc (M + 1) i := by
  unfold cellVolume
  have hpi := Real.pi_pos
  have hM' : (1 : ℝ) ≤ M := by exact_mod_cast hM
  simp only
  split_ifs with h1 h2 h3
  · have : (0 : ℝ) < ((M + 1 : ℕ) : ℝ) - 45 / 32 := by push_cast; linarith
    positivity
  · subst h2; positivity
  · positivity
  · have : 0 < (i : ℝ) := by exact_mod_cast (show 0 < i by omega)
    positivity

/-- C17 for the densities: the density times the cell volume, summed over the window, is the total charge. -/
theorem density_conserves (h : ℝ) (hh : 0 < h) (ppc M : ℕ) (hM : 1 ≤ M) (ps : List PPart) (hp : ∀ p ∈ ps, p.Inside h M) :
    ∑ i ∈ range (M + 1), (rhojRow h ppc (M + 1) ps).rho i * cellVolume h ppc (M + 1) i = (ps.map PPart.charge).sum := by
  have e : ∀ i ∈ range (M + 1), (rhojRow h ppc (M + 1) ps).rho i * cellVolume h ppc (M + 1) i =
      (depositPlasma h (M + 1) ps ⟨0, 0, 0, 0⟩).rho i := by
    intro i _
    show _ / _ * _ = _
    rw [div_mul_cancel₀ _ (cellVolume_pos h hh ppc M i hM).ne']
    push_cast; rfl
  rw [sum_congr rfl e, ← (deposit_conserves h hh M (by exact_mod_cast hM) ps hp).1]
  symm
  exact sum_bij' (s := Icc (0 : ℤ) (M : ℤ)) (t := range (M + 1)) (fun i _ => i.toNat) (fun i _ => (i : ℤ))
    (by intro i hi; rw [mem_Icc] at hi; rw [mem_range]; omega) (by intro i hi; rw [mem_range] at hi; rw [mem_Icc]; omega)
    (by intro i hi; rw [mem_Icc] at hi; exact Int.toNat_of_nonneg hi.1) (by intro i hi; simp)
    (by intro i hi; rw [mem_Icc] at hi; rw [Int.toNat_of_nonneg hi.1])

/-- Non-vacuity of `Inside`: one particle next to the axis, one next to the wall. -/
example : ∀ p ∈ [PPart.mk (1 / 10) (1 / 2) 0 3 (-1) 1 0, PPart.mk 5 0 1 (-1) 2 1836 0], p.Inside 1 5 := by
  intro p hp
  simp only [List.mem_cons, List.not_mem_nil, or_false] at hp
  rcases hp with rfl | rfl <;> norm_num [PPart.Inside]

example : (contributions (5 : ℤ) (1 / 4 : ℚ)) = [(1, 1 / 32, -1 / 32), (0, 11 / 16, 11 / 16), (1, 9 / 32, 9 / 32)] := by decide +kernel
example : (contributions (5 : ℤ) (4 : ℚ)) = [(3, 1 / 8, 1 / 8), (4, 3 / 4, 3 / 4), (3, 1 / 8, 1 / 8)] := by decide +kernel

end Lcode.Plasma2D
