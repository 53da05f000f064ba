import Verif.Plasma2D.Init
import Mathlib.Algebra.BigOperators.Field

/-!
Property C18: the charge density of the unperturbed plasma.
-/

namespace Lcode.Plasma2D

open Finset

/-- Picking one index out of a sum over `0..M-1`. -/
theorem sum_pick (M : ℕ) (t w : ℝ) (e : ℤ) :
    ∑ j ∈ range M, ((j : ℝ) + t) * (if (j : ℤ) = e then w else 0) = if 0 ≤ e ∧ e < M then ((e : ℝ) + t) * w else 0 := by
  by_cases h : 0 ≤ e ∧ e < M
  · rw [if_pos h, sum_eq_single e.toNat]
    · have : ((e.toNat : ℕ) : ℤ) = e := Int.toNat_of_nonneg h.1
      have h2 : ((e.toNat : ℕ) : ℝ) = (e : ℝ) := by rw [← Int.cast_natCast, this]
      rw [if_pos this, h2]
    · intro j _ hj
      rw [if_neg (by omega), mul_zero]
    · intro hj
      rw [mem_range] at hj; omega
  · rw [if_neg h]
    apply sum_eq_zero
    intro j hj
    rw [mem_range] at hj
    rw [if_neg (by omega), mul_zero]

/-- The weight of a particle in cell `c` with offset `l` at node `i`, written so that the particle's own cell is singled out. -/
theorem shape_cell (M i : ℤ) (hi0 : 0 ≤ i) (hiM : i ≤ M) (c : ℤ) (l : ℝ) (h1 : -(1 / 2) ≤ l) (h2 : l ≤ 1 / 2) :
    shape M 1 i ((c : ℝ) + l) =
      ((if c = i + 1 then weightQuadratic l (-1) else 0) + (if c = i then weightQuadratic l 0 else 0) + (if c = i - 1 then weightQuadratic l 1 else 0))
      + (if i = 0 then 0 else
        (if c = 1 - i then weightQuadratic l (-1) else 0) + (if c = -i then weightQuadratic l 0 else 0) + (if c = -1 - i then weightQuadratic l 1 else 0))
      + (if i = M then 0 else
        (if c = 2 * M - i + 1 then weightQuadratic l (-1) else 0) + (if c = 2 * M - i then weightQuadratic l 0 else 0) + (if c = 2 * M - i - 1 then weightQuadratic l 1 else 0)) := by
  have key : ∀ i : ℤ, bspline ((c : ℝ) + l - i) = (if c = i + 1 then weightQuadratic l (-1) else 0)
      + (if c = i then weightQuadratic l 0 else 0) + (if c = i - 1 then weightQuadratic l 1 else 0) := by
    intro i
    rw [bspline_cell c i l h1 h2]
    have : i = c - 1 ∨ i = c ∨ i = c + 1 ∨ (i ≠ c - 1 ∧ i ≠ c ∧ i ≠ c + 1) := by omega
    rcases this with h | h | h | h <;> (simp (disch := omega) only [if_pos, if_neg]; try ring)
  have k2 := key (-i)
  have k3 := key (2 * M - i)
  push_cast at k2 k3
  unfold shape
  rw [if_neg (by omega), key i, show (c : ℝ) + l + i = c + l - -i by ring, k2, k3]
  simp only [one_mul]
  rw [show -i + 1 = 1 - i by ring, show -i - 1 = -1 - i by ring]

/-- Charge collected by node `i` from the column of particles at `t, 1 + t, ..., M - 1 + t`. -/
noncomputable def columnSum (M : ℕ) (i : ℤ) (t : ℝ) : ℝ := ∑ j ∈ range M, ((j : ℝ) + t) * shape M 1 i ((j : ℝ) + t)

/-- Sum of `(j + t)` times three picked weights. -/
noncomputable def pick (M : ℕ) (t w : ℝ) (e : ℤ) : ℝ := if 0 ≤ e ∧ e < M then ((e : ℝ) + t) * w else 0

theorem columnSum_low (M : ℕ) (i : ℤ) (hi0 : 0 ≤ i) (hiM : i ≤ M) (t : ℝ) (h1 : 0 ≤ t) (h2 : t ≤ 1 / 2) :
    columnSum M i t = (pick M t (weightQuadratic t (-1)) (i + 1) + pick M t (weightQuadratic t 0) i + pick M t (weightQuadratic t 1) (i - 1))
      + (if i = 0 then 0 else pick M t (weightQuadratic t (-1)) (1 - i) + pick M t (weightQuadratic t 0) (-i) + pick M t (weightQuadratic t 1) (-1 - i))
      + (if i = M then 0 else pick M t (weightQuadratic t (-1)) (2 * M - i + 1) + pick M t (weightQuadratic t 0) (2 * M - i) + pick M t (weightQuadratic t 1) (2 * M - i - 1)) := by
  unfold columnSum
  have e := fun j : ℕ => shape_cell (M : ℤ) i hi0 hiM (j : ℤ) t (by linarith) h2
  simp only [Int.cast_natCast] at e
  simp only [e]
  by_cases a : i = 0 <;> by_cases b : i = M
  · simp only [if_pos a, if_pos b, mul_add, sum_add_distrib, add_zero, sum_pick, pick]
  · simp only [if_pos a, if_neg b, mul_add, sum_add_distrib, add_zero, sum_pick, pick]
  · simp only [if_neg a, if_pos b, mul_add, sum_add_distrib, add_zero, sum_pick, pick]
  · simp only [if_neg a, if_neg b, mul_add, sum_add_distrib, sum_pick, pick]

theorem columnSum_high (M : ℕ) (i : ℤ) (hi0 : 0 ≤ i) (hiM : i ≤ M) (t : ℝ) (h1 : 1 / 2 ≤ t) (h2 : t ≤ 1) :
    columnSum M i t = (pick M t (weightQuadratic (t - 1) (-1)) i + pick M t (weightQuadratic (t - 1) 0) (i - 1) + pick M t (weightQuadratic (t - 1) 1) (i - 2))
      + (if i = 0 then 0 else pick M t (weightQuadratic (t - 1) (-1)) (-i) + pick M t (weightQuadratic (t - 1) 0) (-1 - i) + pick M t (weightQuadratic (t - 1) 1) (-2 - i))
      + (if i = M then 0 else pick M t (weightQuadratic (t - 1) (-1)) (2 * M - i) + pick M t (weightQuadratic (t - 1) 0) (2 * M - i - 1) + pick M t (weightQuadratic (t - 1) 1) (2 * M - i - 2)) := by
  unfold columnSum
  have e : ∀ j ∈ range M, ((j : ℝ) + t) * shape M 1 i ((j : ℝ) + t) = ((j : ℝ) + t) * (
      ((if (j : ℤ) = i then weightQuadratic (t - 1) (-1) else 0) + (if (j : ℤ) = i - 1 then weightQuadratic (t - 1) 0 else 0) + (if (j : ℤ) = i - 2 then weightQuadratic (t - 1) 1 else 0))
      + (if i = 0 then 0 else
        (if (j : ℤ) = -i then weightQuadratic (t - 1) (-1) else 0) + (if (j : ℤ) = -1 - i then weightQuadratic (t - 1) 0 else 0) + (if (j : ℤ) = -2 - i then weightQuadratic (t - 1) 1 else 0))
      + (if i = M then 0 else
        (if (j : ℤ) = 2 * M - i then weightQuadratic (t - 1) (-1) else 0) + (if (j : ℤ) = 2 * M - i - 1 then weightQuadratic (t - 1) 0 else 0) + (if (j : ℤ) = 2 * M - i - 2 then weightQuadratic (t - 1) 1 else 0))) := by
    intro j _
    have := shape_cell (M : ℤ) i hi0 hiM (j + 1 : ℤ) (t - 1) (by linarith) (by linarith)
    push_cast at this
    rw [show (j : ℝ) + 1 + (t - 1) = j + t by ring] at this
    rw [this]
    simp only [show ((j : ℤ) + 1 = i + 1) = ((j : ℤ) = i) by rw [eq_iff_iff]; omega,
      show ((j : ℤ) + 1 = i) = ((j : ℤ) = i - 1) by rw [eq_iff_iff]; omega,
      show ((j : ℤ) + 1 = i - 1) = ((j : ℤ) = i - 2) by rw [eq_iff_iff]; omega,
      show ((j : ℤ) + 1 = 1 - i) = ((j : ℤ) = -i) by rw [eq_iff_iff]; omega,
      show ((j : ℤ) + 1 = -i) = ((j : ℤ) = -1 - i) by rw [eq_iff_iff]; omega,
      show ((j : ℤ) + 1 = -1 - i) = ((j : ℤ) = -2 - i) by rw [eq_iff_iff]; omega,
      show ((j : ℤ) + 1 = 2 * M - i + 1) = ((j : ℤ) = 2 * M - i) by rw [eq_iff_iff]; omega,
      show ((j : ℤ) + 1 = 2 * M - i) = ((j : ℤ) = 2 * M - i - 1) by rw [eq_iff_iff]; omega,
      show ((j : ℤ) + 1 = 2 * M - i - 1) = ((j : ℤ) = 2 * M - i - 2) by rw [eq_iff_iff]; omega]
  rw [sum_congr rfl e]
  by_cases a : i = 0 <;> by_cases b : i = M
  · simp only [if_pos a, if_pos b, mul_add, sum_add_distrib, add_zero, sum_pick, pick]
  · simp only [if_pos a, if_neg b, mul_add, sum_add_distrib, add_zero, sum_pick, pick]
  · simp only [if_neg a, if_pos b, mul_add, sum_add_distrib, add_zero, sum_pick, pick]
  · simp only [if_neg a, if_neg b, mul_add, sum_add_distrib, sum_pick, pick]

/-- Exact linear reproduction away from axis and wall. -/
theorem column_inner (M : ℕ) (i : ℤ) (h0 : 2 ≤ i) (hM : i ≤ M - 2) (t : ℝ) (h1 : 0 ≤ t) (h2 : t ≤ 1) : columnSum M i t = i := by
  rcases le_total t (1 / 2) with h | h
  · rw [columnSum_low M i (by omega) (by omega) t h1 h]
    unfold pick weightQuadratic
    simp (disch := omega) only [if_pos, if_neg]
    push_cast; norm_num; ring
  · rw [columnSum_high M i (by omega) (by omega) t h h2]
    unfold pick weightQuadratic
    simp (disch := omega) only [if_pos, if_neg]
    push_cast; norm_num; ring

/-- Two mirrored columns, at node 0, 1, M-1 and M. -/
theorem column_pair (M : ℕ) (hM : 4 ≤ M) (u : ℝ) (h1 : 0 ≤ u) (h2 : u ≤ 1 / 2) :
    columnSum M 0 u + columnSum M 0 (1 - u) = 1 / 4 + 3 / 4 * u - u ^ 3 ∧
    columnSum M 1 u + columnSum M 1 (1 - u) = 2 + u * (1 / 2 - u) ^ 2 ∧
    columnSum M (M - 1) u + columnSum M (M - 1) (1 - u) = 2 * (M - 1) - u * (1 / 2 - u) ^ 2 ∧
    columnSum M M u + columnSum M M (1 - u) = M - (1 / 4 + 3 / 4 * u - u ^ 3) := by
  refine ⟨?_, ?_, ?_, ?_⟩
  all_goals
    rw [columnSum_low M _ (by omega) (by omega) u h1 h2, columnSum_high M _ (by omega) (by omega) (1 - u) (by linarith) (by linarith)]
    unfold pick weightQuadratic
    simp (disch := omega) only [if_pos, if_neg]
    push_cast; norm_num; ring

theorem sum_split (M p : ℕ) (f : ℕ → ℝ) : ∑ k ∈ range (M * p), f k = ∑ s ∈ range p, ∑ j ∈ range M, f (j * p + s) := by
  induction M with
  | zero => simp
  | succ M ih =>
    rw [Nat.succ_mul, sum_range_add, ih, ← sum_add_distrib]
    apply sum_congr rfl
    intro s _
    rw [sum_range_succ]

/-- `Σ x_k shape_i(x_k)` over the particles of a uniform plasma, column by column. -/
theorem particle_columns (M ppc : ℕ) (hp : 1 ≤ ppc) (i : ℤ) :
    ∑ k ∈ range (M * ppc), (((k : ℝ) + 1 / 2) / ppc) * shape M 1 i (((k : ℝ) + 1 / 2) / ppc) =
      ∑ s ∈ range ppc, columnSum M i (((s : ℝ) + 1 / 2) / ppc) := by
  rw [sum_split M ppc (fun k => (((k : ℝ) + 1 / 2) / ppc) * shape M 1 i (((k : ℝ) + 1 / 2) / ppc))]
  apply sum_congr rfl
  intro s _
  unfold columnSum
  apply sum_congr rfl
  intro j _
  have hp' : (ppc : ℝ) ≠ 0 := by positivity
  have e : (((j * ppc + s : ℕ) : ℝ) + 1 / 2) / ppc = j + ((s : ℝ) + 1 / 2) / ppc := by
    push_cast; field_simp; ring
  rw [e]

theorem reflect_even (p : ℕ) (hp : 1 ≤ p) (g : ℝ → ℝ) :
    ∑ s ∈ range (2 * p), g (((s : ℝ) + 1 / 2) / (2 * p : ℕ)) =
      ∑ s ∈ range p, (g (((s : ℝ) + 1 / 2) / (2 * p : ℕ)) + g (1 - ((s : ℝ) + 1 / 2) / (2 * p : ℕ))) := by
  rw [show 2 * p = p + p by ring, sum_range_add, sum_add_distrib]
  congr 1
  rw [← sum_range_reflect]
  apply sum_congr rfl
  intro s hs
  rw [mem_range] at hs
  congr 1
  have hp' : (p : ℝ) ≠ 0 := by positivity
  rw [show p + (p - 1 - s) = 2 * p - 1 - s by omega, Nat.cast_sub (by omega), Nat.cast_sub (by omega)]
  push_cast; field_simp; ring

theorem reflect_odd (p : ℕ) (g : ℝ → ℝ) :
    ∑ s ∈ range (2 * p + 1), g (((s : ℝ) + 1 / 2) / (2 * p + 1 : ℕ)) =
      ∑ s ∈ range p, (g (((s : ℝ) + 1 / 2) / (2 * p + 1 : ℕ)) + g (1 - ((s : ℝ) + 1 / 2) / (2 * p + 1 : ℕ))) + g (1 / 2) := by
  have hp' : (2 * (p : ℝ) + 1) ≠ 0 := by positivity
  rw [show 2 * p + 1 = (p + 1) + p by ring, sum_range_add, sum_range_succ, sum_add_distrib]
  have e1 : ((p : ℝ) + 1 / 2) / ((p + 1 + p : ℕ) : ℝ) = 1 / 2 := by
    push_cast; rw [div_eq_div_iff (by positivity) (by norm_num)]; ring
  have e2 : ∑ x ∈ range p, g ((((p + 1 + x : ℕ) : ℝ) + 1 / 2) / ((p + 1 + p : ℕ) : ℝ)) =
      ∑ s ∈ range p, g (1 - ((s : ℝ) + 1 / 2) / ((p + 1 + p : ℕ) : ℝ)) := by
    rw [← sum_range_reflect]
    apply sum_congr rfl
    intro s hs
    rw [mem_range] at hs
    congr 1
    rw [show p + 1 + (p - 1 - s) = 2 * p - s by omega, Nat.cast_sub (by omega)]
    push_cast
    rw [eq_sub_iff_add_eq, ← add_div, div_eq_one_iff_eq (by positivity)]; ring
  rw [e1, e2]; ring

/-- Power sums of half-integers. -/
theorem half_sums (p : ℕ) (c : ℝ) :
    ∑ s ∈ range p, ((s : ℝ) + 1 / 2) * c = c * (p ^ 2 / 2) ∧
    ∑ s ∈ range p, (((s : ℝ) + 1 / 2) * c) ^ 2 = c ^ 2 * ((p : ℝ) ^ 3 / 3 - p / 12) ∧
    ∑ s ∈ range p, (((s : ℝ) + 1 / 2) * c) ^ 3 = c ^ 3 * ((p : ℝ) ^ 4 / 4 - p ^ 2 / 8) := by
  induction p with
  | zero => simp
  | succ p ih =>
    obtain ⟨a, b, d⟩ := ih
    refine ⟨?_, ?_, ?_⟩
    · rw [sum_range_succ, a]; push_cast; ring
    · rw [sum_range_succ, b]; push_cast; ring
    · rw [sum_range_succ, d]; push_cast; ring

/-- `Σ (1/4 + 3u/4 - u³)` and `Σ u (1/2 - u)²` over `u = (s + 1/2) c`, `s < p`. -/
theorem pair_sums (p : ℕ) (c : ℝ) :
    ∑ s ∈ range p, (1 / 4 + 3 / 4 * (((s : ℝ) + 1 / 2) * c) - (((s : ℝ) + 1 / 2) * c) ^ 3) =
      p / 4 + 3 / 4 * (c * (p ^ 2 / 2)) - c ^ 3 * ((p : ℝ) ^ 4 / 4 - p ^ 2 / 8) ∧
    ∑ s ∈ range p, ((((s : ℝ) + 1 / 2) * c) * (1 / 2 - ((s : ℝ) + 1 / 2) * c) ^ 2) =
      c * (p ^ 2 / 2) / 4 - c ^ 2 * ((p : ℝ) ^ 3 / 3 - p / 12) + c ^ 3 * ((p : ℝ) ^ 4 / 4 - p ^ 2 / 8) := by
  obtain ⟨a, b, d⟩ := half_sums p c
  constructor
  · rw [sum_sub_distrib, sum_add_distrib, ← mul_sum, a, d]
    simp
    ring
  · have e : ∀ s ∈ range p, ((((s : ℝ) + 1 / 2) * c) * (1 / 2 - ((s : ℝ) + 1 / 2) * c) ^ 2) =
        (((s : ℝ) + 1 / 2) * c) / 4 - (((s : ℝ) + 1 / 2) * c) ^ 2 + (((s : ℝ) + 1 / 2) * c) ^ 3 := by intros; ring
    rw [sum_congr rfl e, sum_add_distrib, sum_sub_distrib, ← sum_div, a, b, d]

/-- Mean over the particles of one cell of the charge collected by the nodes 0, 1, M-1, M, for `c = 1/ppc`. -/
theorem column_mean (M ppc : ℕ) (hM : 4 ≤ M) (hp : 1 ≤ ppc) :
    let c : ℝ := 1 / ppc
    let d : ℝ := if Even ppc then 0 else c ^ 4
    let S : ℤ → ℝ := fun i => c * ∑ s ∈ range ppc, columnSum M i (((s : ℝ) + 1 / 2) / ppc)
    S 0 = (13 + 2 * c ^ 2 + d) / 64 ∧ S 1 = 1 + (1 + 2 * c ^ 2 - 3 * d) / 192 ∧
    S (M - 1) = (M - 1) - (1 + 2 * c ^ 2 - 3 * d) / 192 ∧ S M = M / 2 - (13 + 2 * c ^ 2 + d) / 64 ∧
    ∀ i : ℤ, 2 ≤ i → i ≤ M - 2 → S i = i := by
  intro c d S
  have hpp : (ppc : ℝ) ≠ 0 := by positivity
  have hu : ∀ s : ℕ, s < ppc → 0 ≤ ((s : ℝ) + 1 / 2) / ppc ∧ ((s : ℝ) + 1 / 2) / ppc ≤ 1 := by
    intro s hs
    refine ⟨by positivity, ?_⟩
    rw [div_le_one (by positivity)]
    have : (s : ℝ) + 1 ≤ ppc := by exact_mod_cast hs
    linarith
  have hin : ∀ i : ℤ, 2 ≤ i → i ≤ M - 2 → S i = i := by
    intro i h1 h2
    show c * _ = _
    rw [sum_congr rfl (fun s hs => column_inner M i h1 h2 _ (hu s (mem_range.mp hs)).1 (hu s (mem_range.mp hs)).2)]
    simp only [sum_const, card_range, nsmul_eq_mul, c]
    field_simp
  have hhalf := column_pair M hM (1 / 2) (by norm_num) le_rfl
  norm_num at hhalf
  rcases Nat.even_or_odd' ppc with ⟨p, hpe | hpo⟩
  · have hd : d = 0 := if_pos ⟨p, by omega⟩
    have hp1 : 1 ≤ p := by omega
    have hp' : (p : ℝ) ≠ 0 := by positivity
    obtain ⟨s1, s2⟩ := pair_sums p (1 / (2 * p : ℕ))
    have hc : c = 1 / (2 * p : ℕ) := by rw [← hpe]
    have hpair := fun s (hs : s ∈ range p) => column_pair M hM (((s : ℝ) + 1 / 2) * (1 / (2 * p : ℕ))) (by positivity) (by
      rw [mul_one_div, div_le_div_iff₀ (by positivity) (by norm_num)]
      have : (s : ℝ) + 1 ≤ p := by exact_mod_cast (mem_range.mp hs)
      push_cast; linarith)
    have hS : ∀ i, S i = 1 / (2 * p : ℕ) * ∑ s ∈ range p, (columnSum M i (((s : ℝ) + 1 / 2) * (1 / (2 * p : ℕ))) + columnSum M i (1 - ((s : ℝ) + 1 / 2) * (1 / (2 * p : ℕ)))) := by
      intro i
      show c * _ = _
      rw [hc, hpe, reflect_even p hp1 (columnSum M i)]
      simp only [mul_one_div]
    rw [hS 0, hS 1, hS (M - 1), hS M, hd, hc]
    rw [sum_congr rfl (fun s hs => (hpair s hs).1), sum_congr rfl (fun s hs => (hpair s hs).2.1),
      sum_congr rfl (fun s hs => (hpair s hs).2.2.1), sum_congr rfl (fun s hs => (hpair s hs).2.2.2), s1, sum_add_distrib, sum_sub_distrib, sum_sub_distrib, s1, s2]
    refine ⟨?_, ?_, ?_, ?_, hin⟩ <;>
    · try simp only [sum_const, card_range, nsmul_eq_mul]
      push_cast; field_simp; ring
  · have hd : d = c ^ 4 := if_neg (by rw [Nat.not_even_iff_odd]; exact ⟨p, hpo⟩)
    have hp' : (2 * (p : ℝ) + 1) ≠ 0 := by positivity
    obtain ⟨s1, s2⟩ := pair_sums p (1 / (2 * p + 1 : ℕ))
    have hc : c = 1 / (2 * p + 1 : ℕ) := by rw [← hpo]
    have hpair := fun s (hs : s ∈ range p) => column_pair M hM (((s : ℝ) + 1 / 2) * (1 / (2 * p + 1 : ℕ))) (by positivity) (by
      rw [mul_one_div, div_le_div_iff₀ (by positivity) (by norm_num)]
      have : (s : ℝ) + 1 ≤ p := by exact_mod_cast (mem_range.mp hs)
      push_cast; linarith)
    have hS : ∀ i, S i = 1 / (2 * p + 1 : ℕ) * (∑ s ∈ range p, (columnSum M i (((s : ℝ) + 1 / 2) * (1 / (2 * p + 1 : ℕ))) + columnSum M i (1 - ((s : ℝ) + 1 / 2) * (1 / (2 * p + 1 : ℕ)))) + columnSum M i (1 / 2)) := by
      intro i
      show c * _ = _
      rw [hc, hpo, reflect_odd p (columnSum M i)]
      simp only [mul_one_div]
    rw [hS 0, hS 1, hS (M - 1), hS M, hd, hc]
    rw [sum_congr rfl (fun s hs => (hpair s hs).1), sum_congr rfl (fun s hs => (hpair s hs).2.1),
      sum_congr rfl (fun s hs => (hpair s hs).2.2.1), sum_congr rfl (fun s hs => (hpair s hs).2.2.2), s1, sum_add_distrib, sum_sub_distrib, sum_sub_distrib, s1, s2]
    obtain ⟨e1, e2, e3, e4⟩ := hhalf
    have m1 : columnSum M 0 (1 / 2) = 1 / 4 := by linarith
    have m2 : columnSum M 1 (1 / 2) = 1 := by linarith
    have m3 : columnSum M (M - 1) (1 / 2) = M - 1 := by linarith
    have m4 : columnSum M M (1 / 2) = M / 2 - 1 / 4 := by linarith
    rw [m1, m2, m3, m4]
    refine ⟨?_, ?_, ?_, ?_, hin⟩ <;>
    · try simp only [sum_const, card_range, nsmul_eq_mul]
      push_cast; field_simp; ring

theorem sum_list_range (n : ℕ) (f : ℕ → ℝ) : ((List.range n).map f).sum = ∑ k ∈ range n, f k := by
  induction n with
  | zero => simp
  | succ n ih => rw [List.range_succ, List.map_append, List.sum_append, ih, sum_range_succ]; simp

theorem charge_at_rest (p : PPart) (h1 : p.pz = 0) : p.charge = p.q := by
  unfold PPart.charge PPart.vz; rw [h1]; simp

theorem cellCount_exact (h : ℝ) (hh : 0 < h) (M : ℕ) : cellCount (M * h) h = M := by
  unfold cellCount
  rw [mul_div_cancel_right₀ _ hh.ne', Nat.floor_natCast]

/-- The deposited charge of the uniform plasma at every node, before the division by the cell volume. -/
theorem uniform_charge (h : ℝ) (hh : 0 < h) (M ppc : ℕ) (hM : 4 ≤ M) (hp : 1 ≤ ppc) (age : ℝ) (i : ℤ) :
    (depositPlasma h (M + 1) (initElectrons (M * h) h ppc (fun _ => 1) age) ⟨0, 0, 0, 0⟩).rho i =
      -(2 * Real.pi * h ^ 2) * ((1 / ppc : ℝ) * ∑ s ∈ range ppc, columnSum M i (((s : ℝ) + 1 / 2) / ppc)) := by
  have hMR : (0 : ℝ) < M := by positivity
  have hR : 0 < (M : ℝ) * h := by positivity
  have hpR : (0 : ℝ) < ppc := by positivity
  have hn : 2 ≤ cellCount (M * h) h * ppc := by
    rw [cellCount_exact h hh]; nlinarith
  have hin : ∀ p ∈ initElectrons (M * h) h ppc (fun _ => 1) age, p.Inside h M := by
    intro p hp
    obtain ⟨k, hk, h1, h2, h3, h4, h5, -, -, -, -, h6⟩ := electrons_placed _ h hR ppc _ age hn p hp
    refine ⟨?_, h2.le, by rw [Int.cast_natCast]; linarith⟩
    have : 0 ≤ p.m := by
      rw [h4, one_mul]
      unfold ringArea
      have hd : 0 < (M : ℝ) * h / (cellCount (M * h) h * ppc : ℕ) := by
        have : (0 : ℝ) < (cellCount (M * h) h * ppc : ℕ) := by exact_mod_cast (show 0 < cellCount (M * h) h * ppc by omega)
        positivity
      have hk0 : (0 : ℝ) ≤ k := Nat.cast_nonneg k
      have := Real.pi_pos
      apply mul_nonneg this.le
      nlinarith
    rcases this.lt_or_eq with h | h
    · exact h
    · exfalso; rw [h5, ← h] at h6; simp at h6
  rw [(deposit_pointwise h hh M (by omega) _ hin i).1, uniform_electrons_eq _ h hR ppc age hn, cellCount_exact h hh, List.map_map, sum_list_range]
  rw [← particle_columns M ppc hp i, mul_sum, mul_sum]
  apply sum_congr rfl
  intro k _
  simp only [Function.comp]
  rw [charge_at_rest _ rfl]
  have e1 : ((k : ℝ) + 1 / 2) * (M * h / (M * ppc : ℕ)) / h = ((k : ℝ) + 1 / 2) / ppc := by
    push_cast; field_simp
  rw [e1]
  unfold ringArea
  simp only
  push_cast
  field_simp
  ring

/-- C18. For a window of a whole number `M` of cells, any number of particles per cell and `c = 1/ppc`, the electron density of the unperturbed uniform plasma is
exactly -1 at every node from 2 to M-2; at the nodes 0 and 1 it is -1 if and only if the number of particles per cell is even (finding: for odd numbers the volume correction misses a `c⁴` term);
the node next to the wall is off by `O(1/(192 M))` and the wall node by `2c²/32` (finding: the corrected wall volume leaves out this term). -/
theorem uniform_density (h : ℝ) (hh : 0 < h) (M ppc : ℕ) (hM : 4 ≤ M) (hp : 1 ≤ ppc) (age : ℝ) :
    let ne := (rhojRow h ppc (M + 1) (initElectrons (M * h) h ppc (fun _ => 1) age)).rho
    let c : ℝ := 1 / ppc
    let d : ℝ := if Even ppc then 0 else c ^ 4
    (∀ i : ℕ, 2 ≤ i → i ≤ M - 2 → ne i = -1) ∧
    ne 0 = -(1 + d / (13 + 2 * c ^ 2)) ∧
    ne 1 = -(1 - 3 * d / (193 + 2 * c ^ 2)) ∧
    ne (M - 1) = -(1 - (1 + 2 * c ^ 2 - 3 * d) / (192 * (M - 1))) ∧
    ne M = -(1 - (2 * c ^ 2 + d) / (32 * M - 13)) := by
  intro ne c d
  have hpi := Real.pi_pos
  have hne : ∀ i : ℕ, ne i = -(2 * Real.pi * h ^ 2) * ((1 / ppc : ℝ) * ∑ s ∈ range ppc, columnSum M i (((s : ℝ) + 1 / 2) / ppc)) / cellVolume h ppc (M + 1) i := by
    intro i
    rw [← uniform_charge h hh M ppc hM hp age i]
    show _ / _ = _ / _
    push_cast; rfl
  obtain ⟨c0, c1, c2, c3, c4⟩ := column_mean M ppc hM hp
  change (1 / ppc : ℝ) * _ = (13 + 2 * c ^ 2 + d) / 64 at c0
  change (1 / ppc : ℝ) * _ = 1 + (1 + 2 * c ^ 2 - 3 * d) / 192 at c1
  change (1 / ppc : ℝ) * _ = (M - 1) - (1 + 2 * c ^ 2 - 3 * d) / 192 at c2
  change (1 / ppc : ℝ) * _ = M / 2 - (13 + 2 * c ^ 2 + d) / 64 at c3
  have hM' : (4 : ℝ) ≤ M := by exact_mod_cast hM
  have hc2 : 0 ≤ c ^ 2 := sq_nonneg c
  refine ⟨?_, ?_, ?_, ?_, ?_⟩
  · intro i h1 h2
    have := c4 i (by omega) (by omega)
    change (1 / ppc : ℝ) * _ = _ at this
    rw [hne, this]
    have hi : (0 : ℝ) < i := by positivity
    unfold cellVolume
    simp only
    rw [if_neg (by omega), if_neg (by omega), if_neg (by omega)]
    push_cast
    field_simp
  · rw [hne]
    rw [show ((0 : ℕ) : ℤ) = 0 from rfl, c0]
    unfold cellVolume
    simp only
    rw [if_neg (by omega), if_neg (by omega), if_pos trivial]
    change _ / (_ * ((13 + 2 * c ^ 2) / 32)) = _
    field_simp
    ring
  · rw [hne]
    rw [show ((1 : ℕ) : ℤ) = 1 from rfl, c1]
    unfold cellVolume
    simp only
    rw [if_neg (by omega), if_pos trivial]
    change _ / (_ * ((193 + 2 * c ^ 2) / 192)) = _
    push_cast
    field_simp
    ring
  · rw [hne]
    rw [show ((M - 1 : ℕ) : ℤ) = (M : ℤ) - 1 by omega, c2]
    unfold cellVolume
    simp only
    rw [if_neg (by omega), if_neg (by omega), if_neg (by omega), Nat.cast_sub (by omega)]
    push_cast
    have : (M : ℝ) - 1 ≠ 0 := by intro e; linarith
    field_simp
  · rw [hne, c3]
    unfold cellVolume
    simp only
    rw [if_pos (by omega)]
    push_cast
    have h2 : 32 * (M : ℝ) - 13 ≠ 0 := by intro e; linarith
    rw [show (M : ℝ) + 1 - 45 / 32 = (32 * M - 13) / 32 by ring]
    generalize hz : 32 * (M : ℝ) - 13 = z at h2
    rw [show (M : ℝ) = (z + 13) / 32 by linarith]
    field_simp
    ring

/-- C18: with an odd number of particles per cell the density on the axis is not that of the uniform plasma. -/
theorem odd_ppc_not_uniform (h : ℝ) (hh : 0 < h) (M ppc : ℕ) (hM : 4 ≤ M) (hp : Odd ppc) (age : ℝ) :
    (rhojRow h ppc (M + 1) (initElectrons (M * h) h ppc (fun _ => 1) age)).rho 0 < -1 ∧
    -1 < (rhojRow h ppc (M + 1) (initElectrons (M * h) h ppc (fun _ => 1) age)).rho 1 := by
  have hp1 : 1 ≤ ppc := hp.pos
  obtain ⟨-, h0, h1, -, -⟩ := uniform_density h hh M ppc hM hp1 age
  rw [h0, h1, if_neg (by rw [Nat.not_even_iff_odd]; exact hp)]
  have hc : (0 : ℝ) < 1 / ppc := by positivity
  constructor
  · have : (0 : ℝ) < (1 / (ppc : ℝ)) ^ 4 / (13 + 2 * (1 / (ppc : ℝ)) ^ 2) := by positivity
    linarith
  · have : (0 : ℝ) < 3 * (1 / (ppc : ℝ)) ^ 4 / (193 + 2 * (1 / (ppc : ℝ)) ^ 2) := by positivity
    linarith

/-! ### Net charge -/

/-- A list of particles at rest that the deposition accepts. -/
def Resting (h : ℝ) (M : ℕ) (ps : List PPart) : Prop := ∀ p ∈ ps, p.Inside h M ∧ p.pr = 0 ∧ p.pf = 0 ∧ p.pz = 0

/-- The density row of particles at rest; they carry no currents. -/
theorem resting_row (h : ℝ) (hh : 0 < h) (ppc M : ℕ) (hM : 1 ≤ M) (ps : List PPart) (hp : Resting h M ps) (i : ℕ) :
    (rhojRow h ppc (M + 1) ps).rho i = (ps.map fun p => p.q * shape M 1 i (p.r / h)).sum / cellVolume h ppc (M + 1) i ∧
    (rhojRow h ppc (M + 1) ps).jr i = 0 ∧ (rhojRow h ppc (M + 1) ps).jf i = 0 ∧ (rhojRow h ppc (M + 1) ps).jz i = 0 := by
  obtain ⟨a, b, c, d⟩ := deposit_pointwise h hh M (by omega) ps (fun p hp' => (hp p hp').1) i
  have z : ∀ (f : PPart → ℝ), (∀ p ∈ ps, f p = 0) → (ps.map f).sum = 0 := by
    intro f hf
    apply List.sum_eq_zero
    intro x hx
    rw [List.mem_map] at hx
    obtain ⟨p, hp', rfl⟩ := hx
    exact hf p hp'
  rw [z _ (fun p hp' => by unfold PPart.vr; rw [(hp p hp').2.1]; simp), ite_self] at b
  rw [z _ (fun p hp' => by unfold PPart.vf; rw [(hp p hp').2.2.1]; simp), ite_self] at c
  rw [z _ (fun p hp' => by unfold PPart.vz; rw [(hp p hp').2.2.2]; simp), ite_self] at d
  refine ⟨?_, ?_, ?_, ?_⟩
  · have e : ps.map (fun p => p.charge * shape M 1 i (p.r / h)) = ps.map (fun p => p.q * shape M 1 i (p.r / h)) := by
      apply List.map_congr_left
      intro p hp'
      rw [charge_at_rest p (hp p hp').2.2.2]
    rw [← e, ← a]
    show _ / _ = _ / _
    push_cast; rfl
  · show (depositPlasma h ((M + 1 : ℕ) : ℤ) ps _).jr i / _ = 0
    push_cast; rw [b, zero_div]
  · show (depositPlasma h ((M + 1 : ℕ) : ℤ) ps _).jf i / _ = 0
    push_cast; rw [c, zero_div]
  · show (depositPlasma h ((M + 1 : ℕ) : ℤ) ps _).jz i / _ = 0
    push_cast; rw [d, zero_div]

/-- Electrons at rest together with the ions the code creates for them are quiet, for both ion models. -/
theorem resting_quiet (h : ℝ) (hh : 0 < h) (ppc M : ℕ) (hM : 1 ≤ M) (el : List PPart) (hel : Resting h M el)
    (hq : ∀ p ∈ el, p.q < 0) (ionMass : ℝ) (hm : 0 < ionMass) :
    (computeRhoj h ppc (M + 1) el (.mobile (initIons ionMass el))).Quiet M ∧
    (computeRhoj h ppc (M + 1) el (.background (initBackground h ppc (M + 1) el))).Quiet M := by
  have hions : Resting h M (initIons ionMass el) := by
    intro p hp
    unfold initIons at hp
    rw [List.mem_map] at hp
    obtain ⟨x, hx, rfl⟩ := hp
    refine ⟨⟨?_, (hel x hx).1.2⟩, rfl, rfl, rfl⟩
    have := hq x hx
    show 0 < ionMass * -x.q
    have : 0 < -x.q := by linarith
    positivity
  constructor
  · intro i hi
    obtain ⟨a1, a2, a3, a4⟩ := resting_row h hh ppc M hM el hel i
    obtain ⟨b1, b2, b3, b4⟩ := resting_row h hh ppc M hM _ hions i
    have e : ((initIons ionMass el).map fun p => p.q * shape M 1 i (p.r / h)).sum = -(el.map fun p => p.q * shape M 1 i (p.r / h)).sum := by
      unfold initIons
      rw [List.map_map, List.sum_neg, List.map_map]
      congr 1
      apply List.map_congr_left
      intro p _
      simp only [Function.comp]; ring
    rw [e] at b1
    simp only [Currents.sum, computeRhoj, List.map_cons, List.map_nil, List.sum_cons, List.sum_nil, a1, a2, a3, a4, b1, b2, b3, b4]
    refine ⟨by ring, by ring, by ring, by ring⟩
  · intro i hi
    obtain ⟨a1, a2, a3, a4⟩ := resting_row h hh ppc M hM el hel i
    simp only [Currents.sum, computeRhoj, initBackground, List.map_cons, List.map_nil, List.sum_cons, List.sum_nil, a2, a3, a4, Pi.zero_apply]
    refine ⟨by ring, by ring, by ring, by ring⟩

/-- The electrons of init_plasma are at rest, negative and accepted by the deposition. -/
theorem init_resting (R h : ℝ) (hR : 0 < R) (ppc : ℕ) (coef : ℝ → ℝ) (hc : ∀ r, 0 ≤ coef r) (age : ℝ)
    (hn : 2 ≤ cellCount R h * ppc) (hw : R ≤ (cellCount R h + 1 / 2) * h) :
    Resting h (cellCount R h) (initElectrons R h ppc coef age) ∧ ∀ p ∈ initElectrons R h ppc coef age, p.q < 0 := by
  have key : ∀ p ∈ initElectrons R h ppc coef age, 0 < p.m := by
    intro p hp
    obtain ⟨k, hk, h1, h2, h3, h4, h5, -, -, -, -, h6⟩ := electrons_placed R h hR ppc coef age hn p hp
    have : 0 ≤ p.m := by
      rw [h4]
      refine mul_nonneg (hc _) ?_
      have hd : 0 < R / (cellCount R h * ppc : ℕ) := by
        have : (0 : ℝ) < (cellCount R h * ppc : ℕ) := by exact_mod_cast (show 0 < cellCount R h * ppc by omega)
        positivity
      generalize R / ((cellCount R h * ppc : ℕ) : ℝ) = d at hd
      unfold ringArea
      have hk0 : (0 : ℝ) ≤ k := Nat.cast_nonneg k
      have := Real.pi_pos
      apply mul_nonneg this.le
      rw [show ((k + 1) * d) ^ 2 - (k * d) ^ 2 = (2 * (k : ℝ) + 1) * d ^ 2 by ring]
      positivity
    rcases this.lt_or_eq with h | h
    · exact h
    · exfalso; rw [h5, ← h] at h6; simp at h6
  constructor
  · intro p hp
    obtain ⟨k, hk, h1, h2, h3, h4, h5, h6, h7, h8, -, -⟩ := electrons_placed R h hR ppc coef age hn p hp
    exact ⟨⟨key p hp, h2.le, by rw [Int.cast_natCast]; linarith⟩, h6, h7, h8⟩
  · intro p hp
    obtain ⟨k, hk, h1, h2, h3, h4, h5, -⟩ := electrons_placed R h hR ppc coef age hn p hp
    rw [h5]; linarith [key p hp]

/-- C18: whatever the (non-negative) density profile, the plasma the code starts with is neutral in every cell and carries no current, for both ion models. -/
theorem initial_quiet (R h : ℝ) (hR : 0 < R) (hh : 0 < h) (ppc : ℕ) (coef : ℝ → ℝ) (hc : ∀ r, 0 ≤ coef r) (age ionMass : ℝ) (hm : 0 < ionMass)
    (hn : 2 ≤ cellCount R h * ppc) (hw : R ≤ (cellCount R h + 1 / 2) * h) :
    let M := cellCount R h
    let el := initElectrons R h ppc coef age
    (computeRhoj h ppc (M + 1) el (.mobile (initIons ionMass el))).Quiet M ∧
    (computeRhoj h ppc (M + 1) el (.background (initBackground h ppc (M + 1) el))).Quiet M := by
  intro M el
  obtain ⟨a, b⟩ := init_resting R h hR ppc coef hc age hn hw
  have hM : 1 ≤ M := by
    rcases Nat.eq_zero_or_pos M with h0 | h0
    · rw [show cellCount R h = 0 from h0] at hn; omega
    · exact h0
  exact resting_quiet h hh ppc M hM el a b ionMass hm

/-- Non-vacuity: a window of five cells with two particles per cell. -/
example : 2 ≤ cellCount (5 * (1 / 20 : ℝ)) (1 / 20) * 2 ∧ (5 * (1 / 20) : ℝ) ≤ (cellCount (5 * (1 / 20 : ℝ)) (1 / 20) + 1 / 2) * (1 / 20) := by
  have := cellCount_exact (1 / 20) (by norm_num) 5
  push_cast at this
  rw [this]; norm_num

end Lcode.Plasma2D
