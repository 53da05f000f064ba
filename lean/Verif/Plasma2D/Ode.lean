import Verif.Py
import Mathlib.Algebra.Order.Field.Basic
import Mathlib.Algebra.BigOperators.Intervals
import Mathlib.Tactic.FieldSimp
import Mathlib.Tactic.Linarith
import Mathlib.Tactic.LinearCombination
import Mathlib.Tactic.Positivity
import Mathlib.Tactic.Ring

/-!
Model of lcode/plasma/ode.py and properties C14, C15.

A numpy array of length `n` is a function on indices; only the indices `0..n-1` are ever read.
-/

namespace Lcode.Plasma2D

variable {K : Type*} [Field K]

/-! ### Model -/

/-- cumtrapz_numba with mode 'forward', ode.py:26-30. -/
def cumtrapzForward (y : ℕ → K) (dx : K) : ℕ → K
  | 0 => 0
  | i + 1 => cumtrapzForward y dx i + dx * ((y (i + 1) + y i) / 2)

/-- The backward loop of ode.py:31-35 after `k` turns, on an array of length `last + 1`: the value written at index `last - k`. -/
def cumtrapzBackAux (y : ℕ → K) (dx : K) (last : ℕ) : ℕ → K
  | 0 => 0
  | k + 1 => cumtrapzBackAux y dx last k - dx * ((y (last - (k + 1) + 1) + y (last - (k + 1))) / 2)

/-- cumtrapz_numba with mode 'backward', ode.py:31-35, array length `last + 1`. -/
def cumtrapzBackward (y : ℕ → K) (dx : K) (last : ℕ) (i : ℕ) : K := cumtrapzBackAux y dx last (last - i)

/-- Coefficients `a`, `b`, `c` of row `i`, ode.py:46-48. -/
def rowA (i : ℕ) : K := 1 + 1 / 2 / i
def rowB (pf : ℕ → K) (h : K) (i : ℕ) : K := 2 + pf i * h ^ 2 + 1 / (i : K) ^ 2
def rowC (i : ℕ) : K := 1 - 1 / 2 / i

/-- The forward sweep, ode.py:43-52: `(alpha[i], beta[i])`, for `i` below the last index. -/
def sweepFwd (rhs pf : ℕ → K) (h : K) : ℕ → K × K
  | 0 => (0, 0)
  | i + 1 =>
    let prev := sweepFwd rhs pf h i
    let denom := 1 / (rowB pf h (i + 1) - rowC (i + 1) * prev.1)
    (rowA (i + 1) * denom, (rowC (i + 1) * prev.2 - h ^ 2 * rhs (i + 1)) * denom)

/-- The back substitution, ode.py:53-58, after `k` turns: the value at index `nr - k`. `bc = (c, b)` are the two boundary numbers. -/
def sweepBack (rhs pf : ℕ → K) (h : K) (bc : K × K) (nr : ℕ) : ℕ → K
  | 0 => (bc.1 * (sweepFwd rhs pf h (nr - 1)).2 - h * rhs nr) / (bc.2 - bc.1 * (sweepFwd rhs pf h (nr - 1)).1)
  | k + 1 =>
    let f := sweepFwd rhs pf h (nr - (k + 1))
    f.2 + sweepBack rhs pf h bc nr k * f.1

/-- tridiagonal_solve, ode.py:41-59, for arrays of length `nr + 1`. -/
def tridiagonalSolve (rhs pf : ℕ → K) (h : K) (bc : K × K) (nr : ℕ) (i : ℕ) : K :=
  sweepBack rhs pf h bc nr (nr - i)

/-- The boundary numbers of ode.py:65. -/
def neumannBc (nr : ℕ) : K × K := (-((nr : K) - 1) / (nr - 1 / 2), -(nr : K) / (nr - 1 / 2))

/-- ode.py:63-66 -/
def solveNeumann (rhs pf : ℕ → K) (h : K) (nr : ℕ) : ℕ → K := tridiagonalSolve rhs pf h (neumannBc nr) nr

/-- ode.py:70-72 -/
def solveDirichlet (rhs pf : ℕ → K) (h : K) (nr : ℕ) : ℕ → K := tridiagonalSolve rhs pf h (0, -1) nr

/-! ### C15: cumulative integration -/

/-- Specification: the composite trapezoidal rule over the cells `a, ..., b-1`. -/
def trapezoid (y : ℕ → K) (dx : K) (a b : ℕ) : K := ∑ i ∈ Finset.Ico a b, dx * (y i + y (i + 1)) / 2

/-- C15, forward. -/
theorem cumtrapz_forward (y : ℕ → K) (dx : K) (i : ℕ) : cumtrapzForward y dx i = trapezoid y dx 0 i := by
  induction i with
  | zero => simp [cumtrapzForward, trapezoid]
  | succ i ih =>
    unfold cumtrapzForward trapezoid
    rw [Finset.sum_Ico_succ_top (by omega), ih]
    unfold trapezoid
    ring

theorem cumtrapzBackAux_eq (y : ℕ → K) (dx : K) (last k : ℕ) (hk : k ≤ last) :
    cumtrapzBackAux y dx last k = -trapezoid y dx (last - k) last := by
  induction k with
  | zero => simp [cumtrapzBackAux, trapezoid]
  | succ k ih =>
    unfold cumtrapzBackAux trapezoid
    have h : last - (k + 1) + 1 = last - k := by omega
    rw [ih (by omega), Finset.sum_eq_sum_Ico_succ_bot (by omega : last - (k + 1) < last), h]
    unfold trapezoid
    ring

/-- C15, backward: minus the trapezoidal integral from the node to the last node, for every node. -/
theorem cumtrapz_backward (y : ℕ → K) (dx : K) (last i : ℕ) (hi : i ≤ last) :
    cumtrapzBackward y dx last i = -trapezoid y dx i last := by
  unfold cumtrapzBackward
  rw [cumtrapzBackAux_eq y dx last _ (by omega), Nat.sub_sub_self hi]

/-- C15: both directions differ by a constant: the whole integral. -/
theorem cumtrapz_directions (y : ℕ → K) (dx : K) (last i : ℕ) (hi : i ≤ last) :
    cumtrapzBackward y dx last i = cumtrapzForward y dx i - cumtrapzForward y dx last := by
  rw [cumtrapz_backward y dx last i hi, cumtrapz_forward, cumtrapz_forward]
  unfold trapezoid
  rw [← Finset.sum_Ico_consecutive _ (by omega : 0 ≤ i) hi]
  ring

/-- C15: affine functions are integrated exactly. -/
theorem cumtrapz_affine [CharZero K] (a b dx : K) (i : ℕ) :
    cumtrapzForward (fun j => a + b * (j * dx)) dx i = a * (i * dx) + b * (i * dx) ^ 2 / 2 := by
  induction i with
  | zero => simp [cumtrapzForward]
  | succ i ih =>
    unfold cumtrapzForward
    rw [ih]; push_cast; field_simp; ring

/-- C15: integration is linear in the integrand. -/
theorem cumtrapz_linear (y z : ℕ → K) (s t dx : K) (last i : ℕ) (hi : i ≤ last) :
    cumtrapzForward (fun j => s * y j + t * z j) dx i = s * cumtrapzForward y dx i + t * cumtrapzForward z dx i ∧
    cumtrapzBackward (fun j => s * y j + t * z j) dx last i =
      s * cumtrapzBackward y dx last i + t * cumtrapzBackward z dx last i := by
  have key : ∀ i, cumtrapzForward (fun j => s * y j + t * z j) dx i = s * cumtrapzForward y dx i + t * cumtrapzForward z dx i := by
    intro i
    induction i with
    | zero => simp [cumtrapzForward]
    | succ i ih => unfold cumtrapzForward; rw [ih]; ring
  refine ⟨key i, ?_⟩
  rw [cumtrapz_directions _ _ _ _ hi, cumtrapz_directions _ _ _ _ hi, cumtrapz_directions _ _ _ _ hi, key, key]
  ring

example : (List.range 4).map (cumtrapzForward (fun i => ((i : ℚ) + 1) ^ 2) (1 / 2)) = [0, 5 / 4, 9 / 2, 43 / 4] := by
  decide +kernel
example : (List.range 4).map (cumtrapzBackward (fun i => ((i : ℚ) + 1) ^ 2) (1 / 2) 3) = [-43 / 4, -19 / 2, -25 / 4, 0] := by
  decide +kernel

/-! ### C14: the tridiagonal solver -/

variable [LinearOrder K] [IsStrictOrderedRing K]

/-- C15: the cumulative integrals of a non-negative function are monotone in the radius, in both directions. -/
theorem cumtrapz_monotone (y : ℕ → K) (dx : K) (hdx : 0 ≤ dx) (last i j : ℕ) (hij : i ≤ j) (hj : j ≤ last)
    (hy : ∀ k ≤ last, 0 ≤ y k) :
    cumtrapzForward y dx i ≤ cumtrapzForward y dx j ∧ cumtrapzBackward y dx last i ≤ cumtrapzBackward y dx last j := by
  have key : cumtrapzForward y dx i ≤ cumtrapzForward y dx j := by
    rw [cumtrapz_forward, cumtrapz_forward]
    unfold trapezoid
    rw [← Finset.sum_Ico_consecutive _ (by omega : 0 ≤ i) hij, le_add_iff_nonneg_right]
    apply Finset.sum_nonneg
    intro k hk
    rw [Finset.mem_Ico] at hk
    have := hy k (by omega)
    have := hy (k + 1) (by omega)
    positivity
  refine ⟨key, ?_⟩
  rw [cumtrapz_directions y dx last i (by omega), cumtrapz_directions y dx last j hj]
  linarith

/-- Bounds on the sweep: all divisors are positive and `0 ≤ alpha[i] ≤ i/(i+1) < 1`. -/
theorem sweep_bounds (rhs pf : ℕ → K) (h : K) (i : ℕ) (hpf : ∀ j, 1 ≤ j → j ≤ i → 0 ≤ pf j) :
    0 ≤ (sweepFwd rhs pf h i).1 ∧ (sweepFwd rhs pf h i).1 ≤ (i : K) / (i + 1) ∧
    (1 ≤ i → 0 < rowB pf h i - rowC i * (sweepFwd rhs pf h (i - 1)).1) := by
  induction i with
  | zero => simp [sweepFwd]
  | succ i ih =>
    obtain ⟨h0, h1, -⟩ := ih (fun j a b => hpf j a (by omega))
    have hp := hpf (i + 1) (by omega) le_rfl
    set al := (sweepFwd rhs pf h i).1 with hal
    have hi : (0 : K) ≤ i := Nat.cast_nonneg i
    have hi1 : (0 : K) < i + 1 := by linarith
    have hc : (0 : K) ≤ rowC (K := K) (i + 1) := by
      unfold rowC; push_cast
      rw [sub_nonneg, div_le_one hi1]; linarith
    have hden : ((2 * (i : K) + 3) * (i + 2)) / (2 * (i + 1) ^ 2) ≤ rowB pf h (i + 1) - rowC (i + 1) * al := by
      have h2 : rowC (K := K) (i + 1) * al ≤ rowC (i + 1) * ((i : K) / (i + 1)) := mul_le_mul_of_nonneg_left h1 hc
      have h3 : ((2 * (i : K) + 3) * (i + 2)) / (2 * (i + 1) ^ 2) =
          2 + 1 / (i + 1) ^ 2 - rowC (i + 1) * ((i : K) / (i + 1)) := by
        unfold rowC; push_cast; field_simp; ring
      have h4 : (0 : K) ≤ pf (i + 1) * h ^ 2 := by positivity
      rw [h3]; unfold rowB; push_cast; linarith
    have hpos : 0 < rowB pf h (i + 1) - rowC (i + 1) * al := lt_of_lt_of_le (by positivity) hden
    have ha : (0 : K) < rowA (K := K) (i + 1) := by unfold rowA; push_cast; positivity
    refine ⟨?_, ?_, fun _ => by simpa using hpos⟩
    · show 0 ≤ rowA (i + 1) * (1 / (rowB pf h (i + 1) - rowC (i + 1) * al))
      positivity
    · show rowA (i + 1) * (1 / (rowB pf h (i + 1) - rowC (i + 1) * al)) ≤ _
      rw [mul_one_div, div_le_iff₀ hpos]
      have h5 : rowA (K := K) (i + 1) = ((i : K) + 1) / (i + 1 + 1) * (((2 * (i : K) + 3) * (i + 2)) / (2 * (i + 1) ^ 2)) := by
        unfold rowA; push_cast; field_simp; ring
      rw [h5]; push_cast
      exact mul_le_mul_of_nonneg_left hden (by positivity)

theorem alpha_lt_one (rhs pf : ℕ → K) (h : K) (i : ℕ) (hpf : ∀ j, 1 ≤ j → j ≤ i → 0 ≤ pf j) :
    (sweepFwd rhs pf h i).1 < 1 := by
  refine lt_of_le_of_lt (sweep_bounds rhs pf h i hpf).2.1 ?_
  have hi : (0 : K) ≤ i := Nat.cast_nonneg i
  rw [div_lt_one (by linarith)]; linarith

/-- The last divisor does not vanish for either boundary condition of the code. -/
theorem last_divisor (rhs pf : ℕ → K) (h : K) (nr : ℕ) (hn : 1 ≤ nr) (hpf : ∀ j, 1 ≤ j → j < nr → 0 ≤ pf j) :
    (neumannBc (K := K) nr).2 - (neumannBc nr).1 * (sweepFwd rhs pf h (nr - 1)).1 < 0 ∧
    ((0 : K), (-1 : K)).2 - ((0 : K), (-1 : K)).1 * (sweepFwd rhs pf h (nr - 1)).1 < 0 := by
  have h1 := alpha_lt_one rhs pf h (nr - 1) (fun j a b => hpf j a (by omega))
  have hn' : (1 : K) ≤ nr := by exact_mod_cast hn
  refine ⟨?_, by simp⟩
  unfold neumannBc
  simp only
  rw [show -(nr : K) / (nr - 1 / 2) - -((nr : K) - 1) / (nr - 1 / 2) * (sweepFwd rhs pf h (nr - 1)).1
    = (-(nr : K) + (nr - 1) * (sweepFwd rhs pf h (nr - 1)).1) / (nr - 1 / 2) by ring]
  apply div_neg_of_neg_of_pos _ (by linarith)
  nlinarith

/-- Specification: the finite-difference form, at node `i` (radius `i h`), of
`d/dr((1/r) d/dr(r y)) = y'' + y'/r - y/r²`. -/
def radialLaplacian (h : K) (y : ℕ → K) (i : ℕ) : K :=
  (y (i + 1) - 2 * y i + y (i - 1)) / h ^ 2 + (y (i + 1) - y (i - 1)) / (2 * h) / (i * h) - y i / (i * h) ^ 2

/-- Row `i` of the linear system written with the code's coefficients. -/
theorem row_iff (h : K) (hh : h ≠ 0) (rhs pf y : ℕ → K) (i : ℕ) (hi : 1 ≤ i) :
    radialLaplacian h y i - pf i * y i = rhs i ↔
      rowA i * y (i + 1) - rowB pf h i * y i + rowC i * y (i - 1) = h ^ 2 * rhs i := by
  have hi' : (i : K) ≠ 0 := by
    have : (1 : K) ≤ i := by exact_mod_cast hi
    intro e; rw [e] at this; linarith
  have e : h ^ 2 * (radialLaplacian h y i - pf i * y i) = rowA i * y (i + 1) - rowB pf h i * y i + rowC i * y (i - 1) := by
    unfold radialLaplacian rowA rowB rowC
    field_simp
    ring
  rw [← e]
  exact ⟨fun e => by rw [e], fun e => mul_left_cancel₀ (pow_ne_zero 2 hh) e⟩

omit [LinearOrder K] [IsStrictOrderedRing K] in
theorem solve_step (rhs pf : ℕ → K) (h : K) (bc : K × K) (nr i : ℕ) (hi : i < nr) :
    tridiagonalSolve rhs pf h bc nr i =
      (sweepFwd rhs pf h i).2 + tridiagonalSolve rhs pf h bc nr (i + 1) * (sweepFwd rhs pf h i).1 := by
  unfold tridiagonalSolve
  obtain ⟨k, hk⟩ : ∃ k, nr - i = k + 1 := ⟨nr - i - 1, by omega⟩
  rw [hk, show nr - (i + 1) = k by omega, sweepBack, show nr - (k + 1) = i by omega]

theorem solve_rows (rhs pf : ℕ → K) (h : K) (hh : h ≠ 0) (bc : K × K) (nr : ℕ)
    (hpf : ∀ j, 1 ≤ j → j < nr → 0 ≤ pf j) (i : ℕ) (h1 : 1 ≤ i) (hi : i < nr) :
    radialLaplacian h (tridiagonalSolve rhs pf h bc nr) i - pf i * tridiagonalSolve rhs pf h bc nr i = rhs i := by
  rw [row_iff h hh rhs pf _ i h1]
  obtain ⟨k, rfl⟩ : ∃ k, i = k + 1 := ⟨i - 1, by omega⟩
  have e1 := solve_step rhs pf h bc nr (k + 1) hi
  have e0 := solve_step rhs pf h bc nr k (by omega)
  have hpos := (sweep_bounds rhs pf h (k + 1) (fun j a b => hpf j a (by omega))).2.2 (by omega)
  simp only [Nat.add_sub_cancel] at hpos ⊢
  set y := tridiagonalSolve rhs pf h bc nr
  have ea : (sweepFwd rhs pf h (k + 1)).1 * (rowB pf h (k + 1) - rowC (k + 1) * (sweepFwd rhs pf h k).1) = rowA (k + 1) := by
    show rowA (k + 1) * (1 / _) * _ = _
    rw [mul_assoc, one_div_mul_cancel hpos.ne', mul_one]
  have eb : (sweepFwd rhs pf h (k + 1)).2 * (rowB pf h (k + 1) - rowC (k + 1) * (sweepFwd rhs pf h k).1) =
      rowC (k + 1) * (sweepFwd rhs pf h k).2 - h ^ 2 * rhs (k + 1) := by
    show _ * (1 / _) * _ = _
    rw [mul_assoc, one_div_mul_cancel hpos.ne', mul_one]
  rw [e0]
  linear_combination (-(rowB pf h (k + 1) - rowC (k + 1) * (sweepFwd rhs pf h k).1)) * e1 - eb - y (k + 1 + 1) * ea

theorem solve_axis (rhs pf : ℕ → K) (h : K) (bc : K × K) (nr : ℕ) (hn : 1 ≤ nr) :
    tridiagonalSolve rhs pf h bc nr 0 = 0 := by
  rw [solve_step rhs pf h bc nr 0 (by omega)]
  simp [sweepFwd]

theorem solve_last (rhs pf : ℕ → K) (h : K) (bc : K × K) (nr : ℕ) (hn : 1 ≤ nr)
    (hd : bc.2 - bc.1 * (sweepFwd rhs pf h (nr - 1)).1 ≠ 0) :
    bc.2 * tridiagonalSolve rhs pf h bc nr nr - bc.1 * tridiagonalSolve rhs pf h bc nr (nr - 1) = -(h * rhs nr) := by
  have e := solve_step rhs pf h bc nr (nr - 1) (by omega)
  rw [show nr - 1 + 1 = nr by omega] at e
  rw [e]
  have e2 : tridiagonalSolve rhs pf h bc nr nr * (bc.2 - bc.1 * (sweepFwd rhs pf h (nr - 1)).1) =
      bc.1 * (sweepFwd rhs pf h (nr - 1)).2 - h * rhs nr := by
    unfold tridiagonalSolve
    rw [Nat.sub_self, sweepBack, div_mul_cancel₀ _ hd]
  linear_combination e2

/-- C14, Neumann-like boundary (used for E_r). For every grid of at least two nodes, every right-hand side and every non-negative
factor the result satisfies: zero on the axis; the discretised equation at every inner node; and, at the wall,
`(r y)' / r = rhs` at the last half node. -/
theorem neumann_solves (rhs pf : ℕ → K) (h : K) (hh : 0 < h) (nr : ℕ) (hn : 1 ≤ nr)
    (hpf : ∀ j, 1 ≤ j → j < nr → 0 ≤ pf j) :
    let y := solveNeumann rhs pf h nr
    y 0 = 0 ∧
    (∀ i, 1 ≤ i → i < nr → radialLaplacian h y i - pf i * y i = rhs i) ∧
    ((nr * h) * y nr - ((nr - 1) * h) * y (nr - 1)) / h / ((nr - 1 / 2) * h) = rhs nr := by
  intro y
  have hd := (last_divisor rhs pf h nr hn hpf).1
  have hn' : (1 : K) ≤ nr := by exact_mod_cast hn
  have hn2 : (nr : K) - 1 / 2 ≠ 0 := by intro e; linarith
  refine ⟨solve_axis _ _ _ _ _ hn, fun i h1 h2 => solve_rows rhs pf h hh.ne' _ nr hpf i h1 h2, ?_⟩
  have := solve_last rhs pf h (neumannBc nr) nr hn hd.ne
  change _ * y nr - _ * y (nr - 1) = _ at this
  unfold neumannBc at this
  simp only at this
  have e : (nr : K) * y nr - ((nr : K) - 1) * y (nr - 1) = (h * rhs nr) * (nr - 1 / 2) := by
    rw [show -(nr : K) / (nr - 1 / 2) * y nr - -((nr : K) - 1) / (nr - 1 / 2) * y (nr - 1)
      = -(((nr : K) * y nr - (nr - 1) * y (nr - 1)) / (nr - 1 / 2)) by ring, neg_inj, div_eq_iff hn2] at this
    exact this
  rw [show (nr : K) * h * y nr - (nr - 1) * h * y (nr - 1) = h * ((nr : K) * y nr - ((nr : K) - 1) * y (nr - 1)) by ring, e]
  have hh' := hh.ne'
  rw [div_div, div_eq_iff (by positivity)]
  ring

/-- C14, Dirichlet boundary (used for E_phi): the value at the wall is `h * rhs`, which is zero for the code's right-hand side. -/
theorem dirichlet_solves (rhs pf : ℕ → K) (h : K) (hh : 0 < h) (nr : ℕ) (hn : 1 ≤ nr)
    (hpf : ∀ j, 1 ≤ j → j < nr → 0 ≤ pf j) :
    let y := solveDirichlet rhs pf h nr
    y 0 = 0 ∧
    (∀ i, 1 ≤ i → i < nr → radialLaplacian h y i - pf i * y i = rhs i) ∧
    y nr = h * rhs nr := by
  intro y
  have hd := (last_divisor rhs pf h nr hn hpf).2
  refine ⟨solve_axis _ _ _ _ _ hn, fun i h1 h2 => solve_rows rhs pf h hh.ne' _ nr hpf i h1 h2, ?_⟩
  have := solve_last rhs pf h (0, -1) nr hn hd.ne
  change _ * y nr - _ * y (nr - 1) = _ at this
  simp only [zero_mul, sub_zero, neg_mul, one_mul, neg_inj] at this
  exact this

/-- Every solution of axis condition and inner rows is produced by the forward sweep. -/
theorem sweep_unique (rhs pf : ℕ → K) (h : K) (hh : h ≠ 0) (nr : ℕ) (hpf : ∀ j, 1 ≤ j → j < nr → 0 ≤ pf j)
    (z : ℕ → K) (h0 : z 0 = 0)
    (hz : ∀ i, 1 ≤ i → i < nr → radialLaplacian h z i - pf i * z i = rhs i) (i : ℕ) (hi : i < nr) :
    z i = (sweepFwd rhs pf h i).2 + z (i + 1) * (sweepFwd rhs pf h i).1 := by
  induction i with
  | zero => simp [sweepFwd, h0]
  | succ k ih =>
    have e0 := ih (by omega)
    have hr := (row_iff h hh rhs pf z (k + 1) (by omega)).1 (hz (k + 1) (by omega) hi)
    have hpos := (sweep_bounds rhs pf h (k + 1) (fun j a b => hpf j a (by omega))).2.2 (by omega)
    simp only [Nat.add_sub_cancel] at hpos hr
    show z (k + 1) = (rowC (k + 1) * (sweepFwd rhs pf h k).2 - h ^ 2 * rhs (k + 1)) *
      (1 / (rowB pf h (k + 1) - rowC (k + 1) * (sweepFwd rhs pf h k).1)) +
      z (k + 1 + 1) * (rowA (k + 1) * (1 / (rowB pf h (k + 1) - rowC (k + 1) * (sweepFwd rhs pf h k).1)))
    rw [show ∀ a b c d : K, a * (1 / d) + b * (c * (1 / d)) = (a + b * c) / d by intros; ring, eq_div_iff hpos.ne']
    rw [e0] at hr
    linear_combination -hr

/-- C14: the system the solver solves has no other solution (for both boundary conditions). -/
theorem solution_unique (rhs pf : ℕ → K) (h : K) (hh : 0 < h) (nr : ℕ) (hn : 1 ≤ nr)
    (hpf : ∀ j, 1 ≤ j → j < nr → 0 ≤ pf j) (z : ℕ → K) (h0 : z 0 = 0)
    (hz : ∀ i, 1 ≤ i → i < nr → radialLaplacian h z i - pf i * z i = rhs i) :
    (((nr * h) * z nr - ((nr - 1) * h) * z (nr - 1)) / h / ((nr - 1 / 2) * h) = rhs nr →
      ∀ i ≤ nr, z i = solveNeumann rhs pf h nr i) ∧
    (z nr = h * rhs nr → ∀ i ≤ nr, z i = solveDirichlet rhs pf h nr i) := by
  have key : ∀ bc : K × K, z nr = tridiagonalSolve rhs pf h bc nr nr → ∀ i ≤ nr, z i = tridiagonalSolve rhs pf h bc nr i := by
    intro bc hb i hi
    obtain ⟨k, rfl⟩ : ∃ k, i = nr - k := ⟨nr - i, by omega⟩
    induction k with
    | zero => simpa using hb
    | succ k ih =>
      by_cases hk : k < nr
      · have e := ih (by omega)
        have e2 := sweep_unique rhs pf h hh.ne' nr hpf z h0 hz (nr - (k + 1)) (by omega)
        have e3 := solve_step rhs pf h bc nr (nr - (k + 1)) (by omega)
        rw [show nr - (k + 1) + 1 = nr - k by omega] at e2 e3
        rw [e2, e3, e]
      · have e := ih (by omega)
        rw [show nr - (k + 1) = nr - k by omega]
        exact e
  have hl := sweep_unique rhs pf h hh.ne' nr hpf z h0 hz (nr - 1) (by omega)
  rw [show nr - 1 + 1 = nr by omega] at hl
  have hn' : (1 : K) ≤ nr := by exact_mod_cast hn
  have hn2 : (nr : K) - 1 / 2 ≠ 0 := by intro e; linarith
  refine ⟨fun hw => key _ ?_, fun hw => key _ ?_⟩
  · have hd := (last_divisor rhs pf h nr hn hpf).1
    unfold tridiagonalSolve
    rw [Nat.sub_self, sweepBack, eq_div_iff hd.ne]
    have e : (nr : K) * z nr - ((nr : K) - 1) * z (nr - 1) = (h * rhs nr) * (nr - 1 / 2) := by
      have hh' := hh.ne'
      rw [div_div, div_eq_iff (by positivity)] at hw
      apply mul_left_cancel₀ hh'
      linear_combination hw
    rw [hl] at e
    unfold neumannBc
    simp only
    apply mul_right_cancel₀ hn2
    rw [show ∀ a b c d k : K, a * (b / k - c / k * d) * k = a * ((b - c * d) / k * k) by intros; ring,
      show ∀ c f g k : K, (c / k * f - g) * k = c / k * k * f - g * k by intros; ring,
      div_mul_cancel₀ _ hn2, div_mul_cancel₀ _ hn2]
    linear_combination -e
  · rw [hw]
    unfold tridiagonalSolve
    rw [Nat.sub_self, sweepBack]
    simp

/-- A three-cell grid with an arbitrary-looking right-hand side; the hypotheses hold and the answer is not trivial. -/
example : (List.range 4).map (solveNeumann (fun i => (i : ℚ) + 1) (fun _ => 1) 1 3) ≠ [0, 0, 0, 0] := by
  decide +kernel

end Lcode.Plasma2D
