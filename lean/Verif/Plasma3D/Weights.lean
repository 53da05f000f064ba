import Mathlib.Analysis.SpecialFunctions.Sqrt
import Mathlib.Algebra.Order.Floor.Ring
import Mathlib.Algebra.BigOperators.Ring.Finset
import Mathlib.Tactic.FieldSimp
import Mathlib.Tactic.Ring
import Mathlib.Tactic.Linarith
import Mathlib.Tactic.LinearCombination

/-!
Model of lcode/plasma3d/weights.py (CPU branch) and lcode/plasma3d/rhoj.py. Properties C23, C24.
Arrays on the N x N grid are functions of two integers; the model writes where the code writes, and the theorems say when that is inside the array.
-/

namespace Lcode.Plasma3D

open Finset

section Stencil
variable {K : Type} [Field K] [LinearOrder K] [IsStrictOrderedRing K] [FloorRing K]

/-! ### Model -/

/-- weight4, weights.py:13-31 (called with places -2..2 only; the code returns None for others). -/
def weight4 (x : K) (place : ℤ) : K :=
  if place = -2 then (1 / 2 - x) ^ 4 / 24
  else if place = -1 then 19 / 96 - 11 / 24 * x + x ^ 2 / 4 + x ^ 3 / 6 - x ^ 4 / 6
  else if place = 0 then 115 / 192 - x ^ 2 * 5 / 8 + x ^ 4 / 4
  else if place = 1 then 19 / 96 + 11 / 24 * x + x ^ 2 / 4 - x ^ 3 / 6 - x ^ 4 / 6
  else (1 / 2 + x) ^ 4 / 24

/-- `range(-2, 3)` -/
def places : List ℤ := [-2, -1, 0, 1, 2]

/-- Local coordinate of the cell, weights.py:53-54, move.py:92-93. -/
def localOf (xh : K) : K := xh - ⌊xh⌋ - 1 / 2

/-- Index of the cell, weights.py:55-56, move.py:94-95. -/
def cellOf (N : ℤ) (xh : K) : ℤ := ⌊xh⌋ + N / 2

/-- One `out[index_x, index_y] += v`. -/
def addAt2 (a : ℤ → ℤ → K) (i j : ℤ) (v : K) : ℤ → ℤ → K := fun i' j' => if i' = i ∧ j' = j then a i' j' + v else a i' j'

/-- The 25 (index_x, index_y, weight) of a particle, in program order, weights.py:58-62, with the weight of one axis divided by `g` (the grid step for the deposition, 1 for the interpolation). -/
def stencil (N : ℤ) (g xh yh : K) : List (ℤ × ℤ × K) :=
  places.flatMap fun kx => places.map fun ky =>
    (cellOf N xh + kx, cellOf N yh + ky, weight4 (localOf xh) kx / g * weight4 (localOf yh) ky / g)

/-- Adding the amount `v` of one particle to one array, weights.py:58-67. -/
def depositAmount (N : ℤ) (g xh yh v : K) (a : ℤ → ℤ → K) : ℤ → ℤ → K :=
  (stencil N g xh yh).foldl (fun a t => addAt2 a t.1 t.2.1 (v * t.2.2)) a

/-- Interpolation of one field to a particle, move.py:97-107. -/
def interpolate (N : ℤ) (xh yh : K) (F : ℤ → ℤ → K) : K :=
  (stencil N 1 xh yh).foldl (fun s t => s + F t.1 t.2.1 * t.2.2) 0

/-! ### Specification -/

/-- The centred quartic B-spline. -/
def bspline4 (y : K) : K :=
  if |y| ≤ 1 / 2 then 115 / 192 - 5 / 8 * y ^ 2 + y ^ 4 / 4
  else if |y| ≤ 3 / 2 then (55 + 20 * |y| - 120 * y ^ 2 + 80 * |y| ^ 3 - 16 * y ^ 4) / 96
  else if |y| ≤ 5 / 2 then (5 - 2 * |y|) ^ 4 / 384
  else 0

/-- Coordinate of the grid node with index `i` in units of the grid step (`grid` of plasma3d/initialization.py:362). -/
def nodeOf (N i : ℤ) : K := ((i - N / 2 : ℤ) : K)

/-! ### C23 -/

theorem local_range (xh : K) : -(1 / 2) ≤ localOf xh ∧ localOf xh < 1 / 2 := by
  unfold localOf
  have := Int.floor_le xh
  have := Int.lt_floor_add_one xh
  constructor <;> linarith

/-- C23: the five weights add up to one, reproduce linear functions exactly, and have the second moment of the spline. -/
theorem weight4_moments (x : K) :
    (places.map fun k : ℤ => weight4 x k).sum = 1 ∧ (places.map fun k : ℤ => (k : K) * weight4 x k).sum = x ∧
    (places.map fun k : ℤ => (k : K) ^ 2 * weight4 x k).sum = x ^ 2 + 5 / 12 := by
  simp only [places, weight4, List.map_cons, List.map_nil, List.sum_cons, List.sum_nil]
  norm_num
  refine ⟨?_, ?_, ?_⟩ <;> ring

/-- C23: the weights are the quartic spline at the distances to the five nodes. -/
theorem weight4_bspline (x : K) (h1 : -(1 / 2) ≤ x) (h2 : x ≤ 1 / 2) (k : ℤ) (hk : k ∈ places) : weight4 x k = bspline4 (x - k) := by
  simp only [places, List.mem_cons, List.not_mem_nil, or_false] at hk
  unfold bspline4
  rcases hk with rfl | rfl | rfl | rfl | rfl
  · have e : |x - ((-2 : ℤ) : K)| = x + 2 := by push_cast; rw [abs_of_nonneg (by linarith)]; ring
    rw [e]
    rcases eq_or_lt_of_le h1 with h | h
    · rw [← h]; norm_num [weight4]
    · rw [if_neg (by linarith), if_neg (by linarith), if_pos (by linarith)]
      norm_num [weight4]; ring
  · have e : |x - ((-1 : ℤ) : K)| = x + 1 := by push_cast; rw [abs_of_nonneg (by linarith)]; ring
    rw [e]
    rcases eq_or_lt_of_le h1 with h | h
    · rw [← h]; norm_num [weight4]
    · rw [if_neg (by linarith), if_pos (by linarith)]
      norm_num [weight4]; ring
  · rw [if_pos (by push_cast; rw [abs_le]; constructor <;> linarith)]
    norm_num [weight4]; ring
  · have e : |x - ((1 : ℤ) : K)| = 1 - x := by push_cast; rw [abs_of_nonpos (by linarith)]; ring
    rw [e]
    rcases eq_or_lt_of_le h2 with h | h
    · rw [h]; norm_num [weight4]
    · rw [if_neg (by linarith), if_pos (by linarith)]
      norm_num [weight4]; ring
  · have e : |x - ((2 : ℤ) : K)| = 2 - x := by push_cast; rw [abs_of_nonpos (by linarith)]; ring
    rw [e]
    rcases eq_or_lt_of_le h2 with h | h
    · rw [h]; norm_num [weight4]
    · rw [if_neg (by linarith), if_neg (by linarith), if_pos (by linarith)]
      norm_num [weight4]; ring

theorem bspline4_nonneg (y : K) : 0 ≤ bspline4 y := by
  unfold bspline4
  have hy := abs_nonneg y
  have hsq : y ^ 2 = |y| ^ 2 := (sq_abs y).symm
  have h4 : y ^ 4 = |y| ^ 4 := by rw [show y ^ 4 = (y ^ 2) ^ 2 by ring, hsq]; ring
  rw [hsq, h4]
  generalize |y| = a at hy
  split_ifs with h1 h2 h3
  · nlinarith [mul_nonneg hy hy, sq_nonneg (a ^ 2 - 1 / 4)]
  · apply div_nonneg _ (by norm_num)
    have ha : 0 ≤ a - 1 / 2 := by linarith [not_le.mp h1]
    have hb : 0 ≤ 3 / 2 - a := by linarith
    have : 55 + 20 * a - 120 * a ^ 2 + 80 * a ^ 3 - 16 * a ^ 4 =
        44 * (3 / 2 - a) ^ 4 + 128 * (a - 1 / 2) * (3 / 2 - a) ^ 3 + 96 * (a - 1 / 2) ^ 2 * (3 / 2 - a) ^ 2 + 32 * (a - 1 / 2) ^ 3 * (3 / 2 - a) + 4 * (a - 1 / 2) ^ 4 := by
      ring
    rw [this]
    positivity
  · positivity
  · exact le_rfl

/-- C23: the weights are not negative inside the cell. -/
theorem weight4_nonneg (x : K) (h1 : -(1 / 2) ≤ x) (h2 : x ≤ 1 / 2) (k : ℤ) (hk : k ∈ places) : 0 ≤ weight4 x k := by
  rw [weight4_bspline x h1 h2 k hk]; exact bspline4_nonneg _

theorem bspline4_far (y : K) (h : 5 / 2 ≤ |y|) : bspline4 y = 0 := by
  unfold bspline4
  rw [if_neg (by linarith), if_neg (by linarith)]
  split_ifs with h3
  · have : |y| = 5 / 2 := le_antisymm h3 h
    rw [this]; norm_num
  · rfl


theorem foldl_addAt2 (l : List (ℤ × ℤ × K)) (v : K) (a : ℤ → ℤ → K) (i j : ℤ) :
    l.foldl (fun a t => addAt2 a t.1 t.2.1 (v * t.2.2)) a i j = a i j + (l.map fun t => if i = t.1 ∧ j = t.2.1 then v * t.2.2 else 0).sum := by
  induction l generalizing a with
  | nil => simp
  | cons t l ih =>
    rw [List.foldl_cons, ih]
    simp only [List.map_cons, List.sum_cons, addAt2]
    split_ifs <;> ring

/-- The part of the weight of one axis that falls on the node `i`. -/
theorem axis_weight (N i : ℤ) (X : K) :
    (places.map fun k : ℤ => if i = cellOf N (X + 1 / 2) + k then weight4 (localOf (X + 1 / 2)) k else 0).sum = bspline4 (X - nodeOf N i) := by
  obtain ⟨h1, h2⟩ := local_range (X + 1 / 2)
  have hloc : X = localOf (X + 1 / 2) + (⌊X + 1 / 2⌋ : K) := by unfold localOf; ring
  have key : X - nodeOf N i = localOf (X + 1 / 2) - ((i - cellOf N (X + 1 / 2) : ℤ) : K) := by
    unfold nodeOf cellOf
    conv_lhs => rw [hloc]
    push_cast; ring
  rw [key]
  generalize localOf (X + 1 / 2) = x at *
  generalize cellOf N (X + 1 / 2) = c at *
  by_cases hm : i - c ∈ places
  · rw [← weight4_bspline x h1 h2.le _ hm]
    simp only [places, List.mem_cons, List.not_mem_nil, or_false] at hm
    rcases hm with h | h | h | h | h <;> rw [h] <;> obtain rfl : i = _ := (sub_eq_iff_eq_add.mp h) <;>
      simp only [places, List.map_cons, List.map_nil, List.sum_cons, List.sum_nil] <;>
      simp (disch := omega) only [if_pos, if_neg] <;> ring
  · have hz : bspline4 (x - ((i - c : ℤ) : K)) = 0 := by
      apply bspline4_far
      simp only [places, List.mem_cons, List.not_mem_nil, or_false, not_or] at hm
      rcases le_or_gt (i - c) (-3) with h | h
      · have : ((i - c : ℤ) : K) ≤ -3 := by exact_mod_cast h
        rw [abs_of_nonneg (by linarith)]; linarith
      · have h3 : 3 ≤ i - c := by omega
        have : (3 : K) ≤ ((i - c : ℤ) : K) := by exact_mod_cast h3
        rw [abs_of_nonpos (by linarith)]; linarith
    rw [hz]
    simp only [places, List.mem_cons, List.not_mem_nil, or_false, not_or] at hm
    simp only [places, List.map_cons, List.map_nil, List.sum_cons, List.sum_nil]
    simp (disch := omega) only [if_neg]
    simp

/-- C24: one particle with transverse position (X, Y), in units of the grid step, adds to every node its amount times the tensor spline of the distance to the node, per cell area. -/
theorem depositAmount_shape (N : ℤ) (g X Y v : K) (a : ℤ → ℤ → K) (i j : ℤ) :
    depositAmount N g (X + 1 / 2) (Y + 1 / 2) v a i j = a i j + v * (bspline4 (X - nodeOf N i) * bspline4 (Y - nodeOf N j)) / g ^ 2 := by
  unfold depositAmount stencil
  rw [foldl_addAt2, ← axis_weight, ← axis_weight]
  congr 1
  generalize localOf (X + 1 / 2) = x
  generalize cellOf N (X + 1 / 2) = c
  generalize localOf (Y + 1 / 2) = y
  generalize cellOf N (Y + 1 / 2) = d
  have hs : ∀ (l l' : List ℤ) , ((l.flatMap fun kx => l'.map fun ky => (c + kx, d + ky, weight4 x kx / g * weight4 y ky / g)).map
      fun t : ℤ × ℤ × K => if i = t.1 ∧ j = t.2.1 then v * t.2.2 else 0).sum =
      v * ((l.map fun k : ℤ => if i = c + k then weight4 x k else 0).sum * (l'.map fun k : ℤ => if j = d + k then weight4 y k else 0).sum) / g ^ 2 := by
    intro l l'
    induction l with
    | nil => simp
    | cons kx l ih =>
      rw [List.flatMap_cons, List.map_append, List.sum_append, ih, List.map_cons, List.sum_cons, add_mul, mul_add, add_div]
      congr 1
      clear ih
      induction l' with
      | nil => simp
      | cons ky l' ih' =>
        rw [List.map_cons, List.map_cons, List.sum_cons, ih', List.map_cons, List.sum_cons]
        by_cases h1 : i = c + kx <;> by_cases h2 : j = d + ky <;> simp [h1, h2] <;> ring
  exact hs places places


/-- The stencil reads and writes `f` on the nodes of any set `S` that contains it. -/
theorem axis_sum (N : ℤ) (X : K) (f : ℤ → K) (S : Finset ℤ) (hS : ∀ k ∈ places, cellOf N (X + 1 / 2) + k ∈ S) :
    ∑ i ∈ S, f i * bspline4 (X - nodeOf N i) = (places.map fun k : ℤ => f (cellOf N (X + 1 / 2) + k) * weight4 (localOf (X + 1 / 2)) k).sum := by
  simp only [← axis_weight]
  generalize localOf (X + 1 / 2) = x
  generalize cellOf N (X + 1 / 2) = c at *
  have hs : ∀ l : List ℤ, (∀ k ∈ l, c + k ∈ S) → ∑ i ∈ S, f i * (l.map fun k : ℤ => if i = c + k then weight4 x k else 0).sum = (l.map fun k : ℤ => f (c + k) * weight4 x k).sum := by
    intro l
    induction l with
    | nil => simp
    | cons k l ih =>
      intro h
      simp only [List.map_cons, List.sum_cons, mul_add, Finset.sum_add_distrib]
      rw [ih (fun k hk => h k (by simp [hk]))]
      congr 1
      rw [Finset.sum_eq_single (c + k)]
      · simp
      · intro b _ hb; simp [hb]
      · intro hn; exact absurd (h k (by simp)) hn
  exact hs places hS

/-- Over any set of nodes with the stencil in it, the splines add up to one and have their centre at the particle. -/
theorem axis_total (N : ℤ) (X : K) (S : Finset ℤ) (hS : ∀ k ∈ places, cellOf N (X + 1 / 2) + k ∈ S) :
    ∑ i ∈ S, bspline4 (X - nodeOf N i) = 1 ∧ ∑ i ∈ S, nodeOf N i * bspline4 (X - nodeOf N i) = X := by
  obtain ⟨m0, m1, -⟩ := weight4_moments (localOf (X + 1 / 2))
  constructor
  · have := axis_sum N X (fun _ => 1) S hS
    simp only [one_mul] at this
    rw [this, m0]
  · rw [axis_sum N X (nodeOf N) S hS]
    have h : ∀ l : List ℤ, (l.map fun k : ℤ => (nodeOf N (cellOf N (X + 1 / 2) + k) : K) * weight4 (localOf (X + 1 / 2)) k).sum =
        (⌊X + 1 / 2⌋ : K) * (l.map fun k : ℤ => weight4 (localOf (X + 1 / 2)) k).sum + (l.map fun k : ℤ => (k : K) * weight4 (localOf (X + 1 / 2)) k).sum := by
      intro l
      induction l with
      | nil => simp
      | cons k l ih =>
        rw [List.map_cons, List.sum_cons, ih, List.map_cons, List.sum_cons, List.map_cons, List.sum_cons]
        have : (nodeOf N (cellOf N (X + 1 / 2) + k) : K) = ⌊X + 1 / 2⌋ + k := by unfold nodeOf cellOf; push_cast; ring
        rw [this]; ring
    rw [h, m0, m1]
    unfold localOf; ring

/-- C24: a particle whose distance to the axis is below `N/2 - pad` grid steps, on a grid with an odd number of nodes, touches only nodes with indices between `pad - 2` and `N - 1 - (pad - 2)`. -/
theorem stencil_inside (N pad : ℤ) (hN : N % 2 = 1) (g X Y : K) (hX : |X| < N / 2 - pad) (hY : |Y| < N / 2 - pad) :
    ∀ t ∈ stencil N g (X + 1 / 2) (Y + 1 / 2), pad - 2 ≤ t.1 ∧ t.1 ≤ N - 1 - (pad - 2) ∧ pad - 2 ≤ t.2.1 ∧ t.2.1 ≤ N - 1 - (pad - 2) := by
  have key : ∀ Z : K, |Z| < N / 2 - pad → pad ≤ cellOf N (Z + 1 / 2) ∧ cellOf N (Z + 1 / 2) ≤ N - 1 - pad := by
    intro Z hZ
    rw [abs_lt] at hZ
    obtain ⟨n, rfl⟩ : ∃ n, N = 2 * n + 1 := ⟨N / 2, by omega⟩
    have hn : (2 * n + 1) / 2 = n := by omega
    push_cast at hZ
    have h1 : pad - n ≤ ⌊Z + 1 / 2⌋ := Int.le_floor.mpr (by push_cast; linarith)
    have h2 : ⌊Z + 1 / 2⌋ < n + 1 - pad := Int.floor_lt.mpr (by push_cast; linarith)
    unfold cellOf; rw [hn]; omega
  have hx := key X hX
  have hy := key Y hY
  intro t ht
  simp only [stencil, List.mem_flatMap, List.mem_map] at ht
  obtain ⟨kx, hkx, ky, hky, rfl⟩ := ht
  simp only [places, List.mem_cons, List.not_mem_nil, or_false] at hkx hky
  simp only
  omega

/-- Every index of the stencil of one axis is an index of the grid. -/
theorem cell_inside (N pad : ℤ) (hN : N % 2 = 1) (hp : 2 ≤ pad) (X : K) (hX : |X| < N / 2 - pad) :
    ∀ k ∈ places, cellOf N (X + 1 / 2) + k ∈ Finset.Ico 0 N := by
  intro k hk
  have := stencil_inside N pad hN 1 X X hX hX (cellOf N (X + 1 / 2) + k, cellOf N (X + 1 / 2) + k, weight4 (localOf (X + 1 / 2)) k / 1 * weight4 (localOf (X + 1 / 2)) k / 1)
    (by simp only [stencil, List.mem_flatMap, List.mem_map]; exact ⟨k, hk, k, hk, rfl⟩)
  simp only at this
  rw [Finset.mem_Ico]; omega

/-- C24: interpolation is the spline-weighted sum of the field over the grid. -/
theorem interpolate_shape (N : ℤ) (X Y : K) (F : ℤ → ℤ → K) (S : Finset ℤ)
    (hX : ∀ k ∈ places, cellOf N (X + 1 / 2) + k ∈ S) (hY : ∀ k ∈ places, cellOf N (Y + 1 / 2) + k ∈ S) :
    interpolate N (X + 1 / 2) (Y + 1 / 2) F = ∑ i ∈ S, ∑ j ∈ S, F i j * (bspline4 (X - nodeOf N i) * bspline4 (Y - nodeOf N j)) := by
  have h1 : ∀ i, ∑ j ∈ S, F i j * (bspline4 (X - nodeOf N i) * bspline4 (Y - nodeOf N j)) =
      (∑ j ∈ S, F i j * bspline4 (Y - nodeOf N j)) * bspline4 (X - nodeOf N i) := by
    intro i; rw [Finset.sum_mul]; exact Finset.sum_congr rfl fun j _ => by ring
  simp only [h1]
  rw [axis_sum N X (fun i => ∑ j ∈ S, F i j * bspline4 (Y - nodeOf N j)) S hX]
  simp only [axis_sum N Y _ S hY]
  unfold interpolate stencil
  simp only [places, List.flatMap_cons, List.flatMap_nil, List.map_cons, List.map_nil, List.sum_cons, List.sum_nil, List.cons_append, List.nil_append,
    List.foldl_cons, List.foldl_nil, List.append_nil, div_one]
  ring

/-- C23: interpolation is exact for fields that are affine in x and y. -/
theorem interpolate_affine (N pad : ℤ) (hN : N % 2 = 1) (hp : 2 ≤ pad) (X Y : K) (hX : |X| < N / 2 - pad) (hY : |Y| < N / 2 - pad)
    (F : ℤ → ℤ → K) (a b c : K) (hF : ∀ i j, 0 ≤ i → i < N → 0 ≤ j → j < N → F i j = a + b * nodeOf N i + c * nodeOf N j) :
    interpolate N (X + 1 / 2) (Y + 1 / 2) F = a + b * X + c * Y := by
  have hx := cell_inside N pad hN hp X hX
  have hy := cell_inside N pad hN hp Y hY
  rw [interpolate_shape N X Y F (Finset.Ico 0 N) hx hy]
  obtain ⟨x0, x1⟩ := axis_total N X _ hx
  obtain ⟨y0, y1⟩ := axis_total N Y _ hy
  have h1 : ∀ i ∈ Finset.Ico 0 N, ∑ j ∈ Finset.Ico 0 N, F i j * (bspline4 (X - nodeOf N i) * bspline4 (Y - nodeOf N j)) =
      (a + c * Y) * bspline4 (X - nodeOf N i) + b * (nodeOf N i * bspline4 (X - nodeOf N i)) := by
    intro i hi
    rw [Finset.mem_Ico] at hi
    have : ∀ j ∈ Finset.Ico 0 N, F i j * (bspline4 (X - nodeOf N i) * bspline4 (Y - nodeOf N j)) =
        (a + b * nodeOf N i) * bspline4 (X - nodeOf N i) * bspline4 (Y - nodeOf N j) + c * bspline4 (X - nodeOf N i) * (nodeOf N j * bspline4 (Y - nodeOf N j)) := by
      intro j hj
      rw [Finset.mem_Ico] at hj
      rw [hF i j hi.1 hi.2 hj.1 hj.2]; ring
    rw [Finset.sum_congr rfl this, Finset.sum_add_distrib, ← Finset.mul_sum, ← Finset.mul_sum, y0, y1]
    ring
  rw [Finset.sum_congr rfl h1, Finset.sum_add_distrib, ← Finset.mul_sum, ← Finset.mul_sum, x0, x1]
  ring

/-- C24: a field acts on a deposited amount exactly as the interpolated field acts on the particle. -/
theorem deposit_interpolate_adjoint (N pad : ℤ) (hN : N % 2 = 1) (hp : 2 ≤ pad) (g X Y v : K) (hg : g ≠ 0) (hX : |X| < N / 2 - pad) (hY : |Y| < N / 2 - pad)
    (F : ℤ → ℤ → K) :
    ∑ i ∈ Finset.Ico 0 N, ∑ j ∈ Finset.Ico 0 N, F i j * depositAmount N g (X + 1 / 2) (Y + 1 / 2) v (fun _ _ => 0) i j * g ^ 2 =
      v * interpolate N (X + 1 / 2) (Y + 1 / 2) F := by
  rw [interpolate_shape N X Y F (Finset.Ico 0 N) (cell_inside N pad hN hp X hX) (cell_inside N pad hN hp Y hY), Finset.mul_sum]
  refine Finset.sum_congr rfl fun i _ => ?_
  rw [Finset.mul_sum]
  refine Finset.sum_congr rfl fun j _ => ?_
  rw [depositAmount_shape]
  field_simp
  ring

end Stencil

/-! ### Particles and the deposition of all of them -/

/-- One particle of the arrays created by init_plasma, initialization.py:341-348 (x_init, y_init, x_offt, y_offt, px, py, pz, q, m). -/
structure Ptl where
  x0 : ℝ
  y0 : ℝ
  x : ℝ
  y : ℝ
  px : ℝ
  py : ℝ
  pz : ℝ
  q : ℝ
  m : ℝ

/-- `ro`, `jx`, `jy`, `jz` of one sort: `ro[column,:,:]` and so on. -/
structure Cur where
  ro : ℤ → ℤ → ℝ
  jx : ℤ → ℤ → ℝ
  jy : ℤ → ℤ → ℝ
  jz : ℤ → ℤ → ℝ

/-- Position of a particle. -/
def Ptl.X (p : Ptl) : ℝ := p.x0 + p.x
def Ptl.Y (p : Ptl) : ℝ := p.y0 + p.y

/-- `gamma_m = sqrt(m**2 + px**2 + py**2 + pz**2)`, weights.py:47, move.py:110. -/
noncomputable def gammaM (m px py pz : ℝ) : ℝ := Real.sqrt (m ^ 2 + px ^ 2 + py ^ 2 + pz ^ 2)

/-- `dro = q / (1 - pz / gamma_m)`, weights.py:48. -/
noncomputable def dro (p : Ptl) : ℝ := p.q / (1 - p.pz / gammaM p.m p.px p.py p.pz)

/-- One pass of the loop of deposit_plasma_numba, weights.py:43-67, with x_h, y_h of weights.py:271-274. -/
noncomputable def depositOne (N : ℤ) (h : ℝ) (c : Cur) (p : Ptl) : Cur :=
  if p.q = 0 then c
  else
    let gm := gammaM p.m p.px p.py p.pz
    let xh := (p.x0 + p.x) / h + 1 / 2
    let yh := (p.y0 + p.y) / h + 1 / 2
    { ro := depositAmount N h xh yh (dro p) c.ro
      jx := depositAmount N h xh yh (p.px * (dro p / gm)) c.jx
      jy := depositAmount N h xh yh (p.py * (dro p / gm)) c.jy
      jz := depositAmount N h xh yh (p.pz * (dro p / gm)) c.jz }

def Cur.zero : Cur := ⟨fun _ _ => 0, fun _ _ => 0, fun _ _ => 0, fun _ _ => 0⟩

/-- deposit_plasma for one sort, weights.py:255-281. -/
noncomputable def depositSort (N : ℤ) (h : ℝ) (ps : List Ptl) : Cur := ps.foldl (depositOne N h) Cur.zero

/-- compute_rhoj, rhoj.py:11-20: electrons in row 0; row 1 holds the mobile ions (`some ions`) or, with a background, the constant ro_initial and no currents. -/
noncomputable def computeRhoj (N : ℤ) (h : ℝ) (roInitial : ℤ → ℤ → ℝ) (el : List Ptl) (ions : Option (List Ptl)) : Cur × Cur :=
  (depositSort N h el, match ions with | some l => depositSort N h l | none => { Cur.zero with ro := roInitial })

/-! ### Specification -/

/-- Share of the particle at the node (i, j): the tensor quartic spline. -/
noncomputable def shape (N : ℤ) (h : ℝ) (p : Ptl) (i j : ℤ) : ℝ := bspline4 (p.X / h - nodeOf N i) * bspline4 (p.Y / h - nodeOf N j)

/-- Charge and current per unit length of the co-moving coordinate: `q / (1 - v_z)` and velocity times it. -/
noncomputable def charge3 (p : Ptl) : ℝ := p.q / (1 - p.pz / Real.sqrt (p.m ^ 2 + p.px ^ 2 + p.py ^ 2 + p.pz ^ 2))
noncomputable def curX (p : Ptl) : ℝ := p.px / Real.sqrt (p.m ^ 2 + p.px ^ 2 + p.py ^ 2 + p.pz ^ 2) * charge3 p
noncomputable def curY (p : Ptl) : ℝ := p.py / Real.sqrt (p.m ^ 2 + p.px ^ 2 + p.py ^ 2 + p.pz ^ 2) * charge3 p
noncomputable def curZ (p : Ptl) : ℝ := p.pz / Real.sqrt (p.m ^ 2 + p.px ^ 2 + p.py ^ 2 + p.pz ^ 2) * charge3 p

/-- The particle is inside the reflection boundary `h (N/2 - pad)`, or switched off. -/
def Inside (N pad : ℤ) (h : ℝ) (p : Ptl) : Prop := p.q = 0 ∨ (|p.X| < h * (N / 2 - pad) ∧ |p.Y| < h * (N / 2 - pad))

/-! ### C24 -/

theorem foldl_deposit (N : ℤ) (h : ℝ) (ps : List Ptl) (c : Cur) (i j : ℤ) :
    (ps.foldl (depositOne N h) c).ro i j = c.ro i j + (ps.map fun p => charge3 p * shape N h p i j).sum / h ^ 2 ∧
    (ps.foldl (depositOne N h) c).jx i j = c.jx i j + (ps.map fun p => curX p * shape N h p i j).sum / h ^ 2 ∧
    (ps.foldl (depositOne N h) c).jy i j = c.jy i j + (ps.map fun p => curY p * shape N h p i j).sum / h ^ 2 ∧
    (ps.foldl (depositOne N h) c).jz i j = c.jz i j + (ps.map fun p => curZ p * shape N h p i j).sum / h ^ 2 := by
  induction ps generalizing c with
  | nil => simp
  | cons p ps ih =>
    obtain ⟨h1, h2, h3, h4⟩ := ih (depositOne N h c p)
    rw [List.foldl_cons, h1, h2, h3, h4]
    simp only [List.map_cons, List.sum_cons]
    by_cases hq : p.q = 0
    · simp [depositOne, hq, charge3, curX, curY, curZ]
    · simp only [depositOne, if_neg hq, depositAmount_shape, shape, Ptl.X, Ptl.Y, curX, curY, curZ, charge3, dro, gammaM]
      refine ⟨?_, ?_, ?_, ?_⟩ <;> ring

/-- C24: each node receives from every particle its charge `q/(1 - v_z)` and its current, times the tensor spline, per cell area. -/
theorem depositSort_shape (N : ℤ) (h : ℝ) (ps : List Ptl) (i j : ℤ) :
    (depositSort N h ps).ro i j = (ps.map fun p => charge3 p * shape N h p i j).sum / h ^ 2 ∧
    (depositSort N h ps).jx i j = (ps.map fun p => curX p * shape N h p i j).sum / h ^ 2 ∧
    (depositSort N h ps).jy i j = (ps.map fun p => curY p * shape N h p i j).sum / h ^ 2 ∧
    (depositSort N h ps).jz i j = (ps.map fun p => curZ p * shape N h p i j).sum / h ^ 2 := by
  have := foldl_deposit N h ps Cur.zero i j
  simpa [depositSort, Cur.zero] using this

/-- The indices written by the deposition of a particle list, in program order, weights.py:62. -/
noncomputable def touched (N : ℤ) (h : ℝ) (ps : List Ptl) : List (ℤ × ℤ) :=
  ps.flatMap fun p => if p.q = 0 then [] else (stencil N h (p.X / h + 1 / 2) (p.Y / h + 1 / 2)).map fun t => (t.1, t.2.1)

theorem inside_units {N pad : ℤ} {h : ℝ} (hh : 0 < h) {Z : ℝ} (hZ : |Z| < h * (N / 2 - pad)) : |Z / h| < N / 2 - pad := by
  rw [abs_div, abs_of_pos hh, div_lt_iff₀ hh]; linarith

/-- C24: with the padding that the initialization accepts (more than 2) every node touched exists and is not on the perimeter; in general it keeps `pad - 2` nodes away from the edge. -/
theorem touched_inside (N pad : ℤ) (hN : N % 2 = 1) (h : ℝ) (hh : 0 < h) (ps : List Ptl) (hps : ∀ p ∈ ps, Inside N pad h p) :
    ∀ t ∈ touched N h ps, pad - 2 ≤ t.1 ∧ t.1 ≤ N - 1 - (pad - 2) ∧ pad - 2 ≤ t.2 ∧ t.2 ≤ N - 1 - (pad - 2) := by
  intro t ht
  simp only [touched, List.mem_flatMap] at ht
  obtain ⟨p, hp, ht⟩ := ht
  rcases hps p hp with hq | ⟨hX, hY⟩
  · simp [hq] at ht
  · split_ifs at ht with hq
    · simp at ht
    · simp only [List.mem_map] at ht
      obtain ⟨t', ht', rfl⟩ := ht
      exact stencil_inside N pad hN h _ _ (inside_units hh hX) (inside_units hh hY) t' ht'

/-- C24: outside the touched nodes nothing is deposited. -/
theorem depositSort_support (N pad : ℤ) (hN : N % 2 = 1) (h : ℝ) (hh : 0 < h) (ps : List Ptl) (hps : ∀ p ∈ ps, Inside N pad h p) (i j : ℤ)
    (hij : i < pad - 2 ∨ N - 1 - (pad - 2) < i ∨ j < pad - 2 ∨ N - 1 - (pad - 2) < j) :
    (depositSort N h ps).ro i j = 0 ∧ (depositSort N h ps).jx i j = 0 ∧ (depositSort N h ps).jy i j = 0 ∧ (depositSort N h ps).jz i j = 0 := by
  have key : ∀ p ∈ ps, p.q = 0 ∨ shape N h p i j = 0 := by
    intro p hp
    rcases hps p hp with hq | ⟨hX, hY⟩
    · exact Or.inl hq
    · refine Or.inr ?_
      have far : ∀ (Z : ℝ) (k : ℤ), |Z| < h * (N / 2 - pad) → k < pad - 2 ∨ N - 1 - (pad - 2) < k → bspline4 (Z / h - nodeOf N k) = 0 := by
        intro Z k hZ hk
        apply bspline4_far
        have hz := abs_lt.mp (inside_units hh hZ)
        obtain ⟨n, rfl⟩ : ∃ n, N = 2 * n + 1 := ⟨N / 2, by omega⟩
        have hn : (2 * n + 1) / 2 = n := by omega
        unfold nodeOf
        rw [hn]
        push_cast at hz ⊢
        rcases hk with hk | hk
        · have hk' : k ≤ pad - 3 := by omega
          have : (k : ℝ) ≤ pad - 3 := by exact_mod_cast hk'
          rw [abs_of_nonneg (by linarith)]; linarith
        · have hk' : 2 * n + 1 - pad + 2 ≤ k := by omega
          have : (2 * n + 1 - pad + 2 : ℝ) ≤ k := by exact_mod_cast hk'
          rw [abs_of_nonpos (by linarith)]; linarith
      unfold shape
      rcases hij with h1 | h1 | h1 | h1
      · rw [far _ i hX (Or.inl h1), zero_mul]
      · rw [far _ i hX (Or.inr h1), zero_mul]
      · rw [far _ j hY (Or.inl h1), mul_zero]
      · rw [far _ j hY (Or.inr h1), mul_zero]
  have hz : ∀ f : Ptl → ℝ, (∀ p, p.q = 0 → f p = 0) → (ps.map fun p => f p * shape N h p i j).sum = 0 := by
    intro f hf
    apply List.sum_eq_zero
    intro v hv
    obtain ⟨p, hp, rfl⟩ := List.mem_map.mp hv
    rcases key p hp with hq | hs
    · rw [hf p hq, zero_mul]
    · rw [hs, mul_zero]
  obtain ⟨h1, h2, h3, h4⟩ := depositSort_shape N h ps i j
  rw [h1, h2, h3, h4, hz _ (fun p hq => by simp [charge3, hq]), hz _ (fun p hq => by simp [curX, charge3, hq]),
    hz _ (fun p hq => by simp [curY, charge3, hq]), hz _ (fun p hq => by simp [curZ, charge3, hq])]
  simp

/-- Total over the grid, times the cell area. -/
noncomputable def gridTotal (N : ℤ) (h : ℝ) (F : ℤ → ℤ → ℝ) : ℝ := ∑ i ∈ Finset.Ico 0 N, ∑ j ∈ Finset.Ico 0 N, F i j * h ^ 2

theorem total_list (N pad : ℤ) (hN : N % 2 = 1) (hp : 2 ≤ pad) (h : ℝ) (hh : 0 < h) (f : Ptl → ℝ) (hf : ∀ p, p.q = 0 → f p = 0) (ps : List Ptl)
    (hps : ∀ p ∈ ps, Inside N pad h p) (F G : ℤ → ℤ → ℝ) (hF : ∀ i j, F i j = (ps.map fun p => f p * shape N h p i j).sum / h ^ 2) :
    ∑ i ∈ Finset.Ico 0 N, ∑ j ∈ Finset.Ico 0 N, G i j * F i j * h ^ 2 = (ps.map fun p => f p * ∑ i ∈ Finset.Ico 0 N, ∑ j ∈ Finset.Ico 0 N, G i j * shape N h p i j).sum := by
  have : ∀ i j, G i j * F i j * h ^ 2 = (ps.map fun p => f p * (G i j * shape N h p i j)).sum := by
    intro i j
    rw [hF]
    have hh' : h ≠ 0 := hh.ne'
    rw [show G i j * ((ps.map fun p => f p * shape N h p i j).sum / h ^ 2) * h ^ 2 = G i j * (ps.map fun p => f p * shape N h p i j).sum by field_simp]
    rw [← List.sum_map_mul_left]
    congr 1
    apply List.map_congr_left
    intro p _; ring
  simp only [this]
  clear this hF hps
  induction ps with
  | nil => simp
  | cons p ps ih =>
    simp only [List.map_cons, List.sum_cons, Finset.sum_add_distrib, ih, ← Finset.mul_sum]

/-- C24: the charge and the three currents on the grid add up to those of the particles, and the dipole moment of the grid is that of the particles. -/
theorem depositSort_conserves (N pad : ℤ) (hN : N % 2 = 1) (hp : 2 ≤ pad) (h : ℝ) (hh : 0 < h) (ps : List Ptl) (hps : ∀ p ∈ ps, Inside N pad h p) :
    gridTotal N h (depositSort N h ps).ro = (ps.map charge3).sum ∧
    gridTotal N h (depositSort N h ps).jx = (ps.map curX).sum ∧
    gridTotal N h (depositSort N h ps).jy = (ps.map curY).sum ∧
    gridTotal N h (depositSort N h ps).jz = (ps.map curZ).sum ∧
    gridTotal N h (fun i j => h * nodeOf N i * (depositSort N h ps).ro i j) = (ps.map fun p => p.X * charge3 p).sum ∧
    gridTotal N h (fun i j => h * nodeOf N j * (depositSort N h ps).ro i j) = (ps.map fun p => p.Y * charge3 p).sum := by
  have axes : ∀ p ∈ ps, p.q = 0 ∨
      (∑ i ∈ Finset.Ico 0 N, bspline4 (p.X / h - nodeOf N i) = 1 ∧ ∑ i ∈ Finset.Ico 0 N, nodeOf N i * bspline4 (p.X / h - nodeOf N i) = p.X / h) ∧
      (∑ i ∈ Finset.Ico 0 N, bspline4 (p.Y / h - nodeOf N i) = 1 ∧ ∑ i ∈ Finset.Ico 0 N, nodeOf N i * bspline4 (p.Y / h - nodeOf N i) = p.Y / h) := by
    intro p hp'
    rcases hps p hp' with hq | ⟨hX, hY⟩
    · exact Or.inl hq
    · exact Or.inr ⟨axis_total N _ _ (cell_inside N pad hN hp _ (inside_units hh hX)), axis_total N _ _ (cell_inside N pad hN hp _ (inside_units hh hY))⟩
  have hone : ∀ (f : Ptl → ℝ), (∀ p, p.q = 0 → f p = 0) → ∀ F : ℤ → ℤ → ℝ, (∀ i j, F i j = (ps.map fun p => f p * shape N h p i j).sum / h ^ 2) →
      gridTotal N h F = (ps.map f).sum := by
    intro f hf F hF
    have := total_list N pad hN hp h hh f hf ps hps F (fun _ _ => 1) hF
    simp only [one_mul] at this
    unfold gridTotal
    rw [this]
    congr 1
    apply List.map_congr_left
    intro p hp'
    rcases axes p hp' with hq | ⟨⟨x0, -⟩, y0, -⟩
    · simp [hf p hq]
    · simp only [shape, ← Finset.mul_sum, y0, mul_one, x0]
  have hS := depositSort_shape N h ps
  have c0 : ∀ p : Ptl, p.q = 0 → charge3 p = 0 := fun p hq => by simp [charge3, hq]
  refine ⟨hone _ c0 _ fun i j => (hS i j).1, hone _ (fun p hq => by simp [curX, c0 p hq]) _ fun i j => (hS i j).2.1,
    hone _ (fun p hq => by simp [curY, c0 p hq]) _ fun i j => (hS i j).2.2.1, hone _ (fun p hq => by simp [curZ, c0 p hq]) _ fun i j => (hS i j).2.2.2, ?_, ?_⟩
  · have := total_list N pad hN hp h hh charge3 c0 ps hps _ (fun i _ => h * nodeOf N i) (fun i j => (hS i j).1)
    unfold gridTotal
    rw [this]
    congr 1
    apply List.map_congr_left
    intro p hp'
    rcases axes p hp' with hq | ⟨⟨-, x1⟩, y0, -⟩
    · simp [c0 p hq]
    · have : ∀ i ∈ Finset.Ico 0 N, ∑ j ∈ Finset.Ico 0 N, h * nodeOf N i * shape N h p i j = h * (nodeOf N i * bspline4 (p.X / h - nodeOf N i)) := by
        intro i _
        simp only [shape, ← mul_assoc, ← Finset.mul_sum, y0, mul_one]
      rw [Finset.sum_congr rfl this, ← Finset.mul_sum, x1]
      field_simp
  · have := total_list N pad hN hp h hh charge3 c0 ps hps _ (fun _ j => h * nodeOf N j) (fun i j => (hS i j).1)
    unfold gridTotal
    rw [this]
    congr 1
    apply List.map_congr_left
    intro p hp'
    rcases axes p hp' with hq | ⟨⟨x0, -⟩, -, y1⟩
    · simp [c0 p hq]
    · have : ∀ i ∈ Finset.Ico 0 N, ∑ j ∈ Finset.Ico 0 N, h * nodeOf N j * shape N h p i j = h * (p.Y / h) * bspline4 (p.X / h - nodeOf N i) := by
        intro i _
        rw [← y1, mul_assoc h, Finset.sum_mul, Finset.mul_sum]
        exact Finset.sum_congr rfl fun j _ => by unfold shape; ring
      rw [Finset.sum_congr rfl this, ← Finset.mul_sum, x0]
      field_simp

/-- C24: particles of one charge sign give a density of that sign everywhere. -/
theorem depositSort_sign (N : ℤ) (h : ℝ) (ps : List Ptl) (hps : ∀ p ∈ ps, p.q ≤ 0 ∧ p.m ≠ 0) (i j : ℤ) : (depositSort N h ps).ro i j ≤ 0 := by
  rw [(depositSort_shape N h ps i j).1]
  apply div_nonpos_of_nonpos_of_nonneg _ (sq_nonneg h)
  have : ∀ v ∈ ps.map fun p => charge3 p * shape N h p i j, v ≤ 0 := by
    intro v hv
    obtain ⟨p, hp, rfl⟩ := List.mem_map.mp hv
    obtain ⟨hq, hm⟩ := hps p hp
    apply mul_nonpos_of_nonpos_of_nonneg _ (mul_nonneg (bspline4_nonneg _) (bspline4_nonneg _))
    apply div_nonpos_of_nonpos_of_nonneg hq
    have hs : 0 < p.m ^ 2 := by positivity
    have : p.pz < Real.sqrt (p.m ^ 2 + p.px ^ 2 + p.py ^ 2 + p.pz ^ 2) := by
      refine (le_abs_self _).trans_lt ?_
      rw [← Real.sqrt_sq_eq_abs]
      exact Real.sqrt_lt_sqrt (sq_nonneg _) (by nlinarith [sq_nonneg p.px, sq_nonneg p.py])
    have h0 : 0 < Real.sqrt (p.m ^ 2 + p.px ^ 2 + p.py ^ 2 + p.pz ^ 2) := Real.sqrt_pos.mpr (by positivity)
    rw [sub_nonneg, div_le_one h0]; exact this.le
  have sum_le : ∀ l : List ℝ, (∀ v ∈ l, v ≤ 0) → l.sum ≤ 0 := by
    intro l
    induction l with
    | nil => simp
    | cons a l ih => intro hl; rw [List.sum_cons]; linarith [hl a (by simp), ih fun v hv => hl v (by simp [hv])]
  exact sum_le _ this

/-- C24: the order of the particles does not matter. -/
theorem depositSort_perm (N : ℤ) (h : ℝ) (ps qs : List Ptl) (hp : ps.Perm qs) : depositSort N h ps = depositSort N h qs := by
  have e : ∀ c d : Cur, (∀ i j, c.ro i j = d.ro i j ∧ c.jx i j = d.jx i j ∧ c.jy i j = d.jy i j ∧ c.jz i j = d.jz i j) → c = d := by
    rintro ⟨a, b, c, d⟩ ⟨a', b', c', d'⟩ h
    simp only at h
    simp only [Cur.mk.injEq]
    exact ⟨funext fun i => funext fun j => (h i j).1, funext fun i => funext fun j => (h i j).2.1, funext fun i => funext fun j => (h i j).2.2.1, funext fun i => funext fun j => (h i j).2.2.2⟩
  apply e
  intro i j
  obtain ⟨h1, h2, h3, h4⟩ := depositSort_shape N h ps i j
  obtain ⟨g1, g2, g3, g4⟩ := depositSort_shape N h qs i j
  rw [h1, h2, h3, h4, g1, g2, g3, g4]
  exact ⟨by rw [(hp.map _).sum_eq], by rw [(hp.map _).sum_eq], by rw [(hp.map _).sum_eq], by rw [(hp.map _).sum_eq]⟩

/-- Non-vacuity: an odd grid, the default padding and a moving particle off the axis. -/
example : Inside 101 10 (1 / 10) ⟨1, -2, 1 / 7, 3 / 7, 1, -2, 1 / 2, -1 / 400, 1 / 400⟩ ∧ (101 : ℤ) % 2 = 1 ∧
    (⟨1, -2, 1 / 7, 3 / 7, 1, -2, 1 / 2, -1 / 400, 1 / 400⟩ : Ptl).q ≠ 0 := by
  refine ⟨Or.inr ⟨?_, ?_⟩, by decide, by norm_num⟩
  · norm_num [Ptl.X, abs_of_pos]
  · rw [abs_lt]; norm_num [Ptl.Y]

end Lcode.Plasma3D
