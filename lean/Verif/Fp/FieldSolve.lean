import Verif.Fp.TridiagError
import Verif.Fp.Trapz

/-!
C71, continued: the radial field solver of lcode/plasma/fields.py in doubles. The screening factor is an argument (its square root is not modelled in doubles).
-/

namespace Lcode.Fp

open Lcode.Plasma2D Finset

/-! ### Model -/

/-- `right_part` of compute_e_phi in doubles, fields.py:82-87. -/
def efRightF (jf jfPrev efPrev pf : ℕ → ℚ) (dxi : ℚ) (nr i : ℕ) : ℚ :=
  if i = 0 ∨ i = nr then 0 else fl (fl (fl (jf i - jfPrev i) / dxi) - fl (pf i * efPrev i))

/-- `right_part` of compute_e_r in doubles, fields.py:43-50. -/
def erRightF (rho jr jrPrev erPrev pf : ℕ → ℚ) (h dxi : ℚ) (nr i : ℕ) : ℚ :=
  if i = 0 then 0 else if i = nr then fl (fl (rho (nr - 1) + rho nr) / 2) else
    fl (fl (fl (fl (jr i - jrPrev i) / dxi) - fl (pf i * erPrev i)) + fl (fl (fl (rho (i + 1) - rho (i - 1)) / 2) / h))

/-- compute_e_phi in doubles, fields.py:82-89. -/
def computeEfF (jf jfPrev efPrev pf : ℕ → ℚ) (h dxi : ℚ) (nr : ℕ) : ℕ → ℚ := solveDirichletF (efRightF jf jfPrev efPrev pf dxi nr) pf h nr

/-- compute_e_r in doubles, fields.py:43-52. -/
def computeErF (rho jr jrPrev erPrev pf : ℕ → ℚ) (h dxi : ℚ) (nr : ℕ) : ℕ → ℚ := solveNeumannF (erRightF rho jr jrPrev erPrev pf h dxi nr) pf h nr

/-- compute_e_z in doubles, fields.py:110-112. -/
def computeEzF (jr : ℕ → ℚ) (h : ℚ) (nr : ℕ) : ℕ → ℚ := cumBackwardF jr h nr

/-- compute_b_phi in doubles, fields.py:137-147. -/
def computeBfF (rho jz er : ℕ → ℚ) (h : ℚ) (i : ℕ) : ℚ :=
  let t := cumForwardF (fun k : ℕ => fl ((k : ℚ) * fl (rho k - jz k))) h i
  fl (er i - if 1 ≤ i then fl (t / i) else t)

/-- compute_b_z in doubles, fields.py:168-177 (np.sum inside numba adds one after another). -/
def computeBzF (jf : ℕ → ℚ) (h : ℚ) (nr i : ℕ) : ℚ :=
  let b := cumBackwardF (fun k => -jf k) h nr
  let flux := sumF 0 ((List.range (nr + 1)).map fun k : ℕ => fl ((2 * (k : ℚ) + 1) * b k))
  fl (b i - fl (flux / (nr : ℚ) ^ 2))

/-! ### Specification: the same formulas without rounding -/

/-- The right-hand side of the equation for E_phi. -/
def efSource (jf jfPrev efPrev pf : ℕ → ℚ) (dxi : ℚ) (nr i : ℕ) : ℚ := if i = 0 ∨ i = nr then 0 else (jf i - jfPrev i) / dxi - pf i * efPrev i

/-- The right-hand side of the equation for E_r. -/
def erSource (rho jr jrPrev erPrev pf : ℕ → ℚ) (h dxi : ℚ) (nr i : ℕ) : ℚ :=
  if i = 0 then 0 else if i = nr then (rho (nr - 1) + rho nr) / 2 else (jr i - jrPrev i) / dxi - pf i * erPrev i + (rho (i + 1) - rho (i - 1)) / 2 / h

/-! ### Errors relative to a given size -/

/-- `a` is `b`, a number of size at most `B`, after `n` roundings. -/
def Within (n : ℕ) (a b B : ℚ) : Prop := |a - b| ≤ gam n * B ∧ |b| ≤ B

theorem Within.pos {n : ℕ} {a b B : ℚ} (h : Within n a b B) : 0 ≤ B := (abs_nonneg _).trans h.2

theorem Within.mono {m n : ℕ} (hmn : m ≤ n) {a b B C : ℚ} (h : Within m a b B) (hB : B ≤ C) : Within n a b C :=
  ⟨h.1.trans (mul_le_mul (gam_mono hmn) hB h.pos (gam_nonneg n)), h.2.trans hB⟩

theorem Within.exact {b B : ℚ} (h : |b| ≤ B) : Within 0 b b B := ⟨by simp [gam], h⟩

theorem Within.self (b : ℚ) : Within 0 b b |b| := Within.exact le_rfl

theorem Within.size {n : ℕ} {a b B : ℚ} (h : Within n a b B) : |a| ≤ (1 + gam n) * B := by
  have := abs_add_le (a - b) b
  rw [sub_add_cancel] at this
  linarith [h.1, h.2]

theorem Within.fl {n : ℕ} {a b B : ℚ} (h : Within n a b B) : Within (n + 1) (Lcode.Fp.fl a) b B := by
  refine ⟨?_, h.2⟩
  have h1 := fl_abs_err a
  have h2 := h.size
  have h3 := mul_le_mul_of_nonneg_left h2 u_pos.le
  have h4 := abs_add_le (Lcode.Fp.fl a - a) (a - b)
  rw [show Lcode.Fp.fl a - a + (a - b) = Lcode.Fp.fl a - b by ring] at h4
  rw [gam_succ]
  linarith [h.1]

theorem Within.add {n : ℕ} {a b B c d C : ℚ} (h : Within n a b B) (k : Within n c d C) : Within n (a + c) (b + d) (B + C) := by
  refine ⟨?_, (abs_add_le _ _).trans (add_le_add h.2 k.2)⟩
  rw [show a + c - (b + d) = (a - b) + (c - d) by ring]
  exact (abs_add_le _ _).trans (by linarith [h.1, k.1])

theorem Within.neg {n : ℕ} {a b B : ℚ} (h : Within n a b B) : Within n (-a) (-b) B :=
  ⟨by rw [show -a - -b = -(a - b) by ring, abs_neg]; exact h.1, by rw [abs_neg]; exact h.2⟩

theorem Within.sub {n : ℕ} {a b B c d C : ℚ} (h : Within n a b B) (k : Within n c d C) : Within n (a - c) (b - d) (B + C) := by
  rw [sub_eq_add_neg, sub_eq_add_neg]
  exact h.add k.neg

theorem Within.smul {n : ℕ} {a b B : ℚ} (h : Within n a b B) (c : ℚ) : Within n (c * a) (c * b) (|c| * B) := by
  constructor
  · rw [← mul_sub, abs_mul]
    have := mul_le_mul_of_nonneg_left h.1 (abs_nonneg c)
    linarith
  · rw [abs_mul]; exact mul_le_mul_of_nonneg_left h.2 (abs_nonneg c)

theorem Within.divc {n : ℕ} {a b B : ℚ} (h : Within n a b B) {c : ℚ} (hc : 0 < c) : Within n (a / c) (b / c) (B / c) := by
  have := h.smul (1 / c)
  rw [abs_of_pos (by positivity)] at this
  convert this using 1 <;> ring

/-- Errors of the terms and of the additions together. -/
theorem Within.sum {n : ℕ} (l : List ℕ) (f g B : ℕ → ℚ) (h : ∀ k ∈ l, Within n (f k) (g k) (B k)) :
    Within (n + l.length) (sumF 0 (l.map f)) (l.map g).sum (l.map B).sum := by
  have s1 : |(l.map f).sum - (l.map g).sum| ≤ gam n * (l.map B).sum ∧ |(l.map g).sum| ≤ (l.map B).sum ∧ absSum (l.map f) ≤ (1 + gam n) * (l.map B).sum := by
    clear * - h
    induction l with
    | nil => simp [absSum]
    | cons a l ih =>
      obtain ⟨i1, i2, i3⟩ := ih fun k hk => h k (List.mem_cons_of_mem _ hk)
      have ha := h a List.mem_cons_self
      have hw : Within n (f a + (l.map f).sum) (g a + (l.map g).sum) (B a + (l.map B).sum) := ha.add ⟨i1, i2⟩
      simp only [List.map_cons, List.sum_cons]
      refine ⟨hw.1, hw.2, ?_⟩
      have e : absSum (f a :: l.map f) = |f a| + absSum (l.map f) := by simp [absSum]
      rw [e]
      linarith [ha.size]
  obtain ⟨s1, s2, s3⟩ := s1
  refine ⟨?_, s2⟩
  have h1 := sumF_err (l.map f) 0
  rw [abs_zero, zero_add, zero_add, List.length_map] at h1
  have h2 := mul_le_mul_of_nonneg_left s3 (gam_nonneg l.length)
  have h3 := abs_add_le (sumF 0 (l.map f) - (l.map f).sum) ((l.map f).sum - (l.map g).sum)
  rw [show sumF 0 (l.map f) - (l.map f).sum + ((l.map f).sum - (l.map g).sum) = sumF 0 (l.map f) - (l.map g).sum by ring] at h3
  have e := gam_add n l.length
  have e2 : gam (n + l.length) = gam n + gam l.length * (1 + gam n) := by linarith
  rw [e2]
  linarith

/-! ### E_phi and E_r -/

/-- A change of the right-hand side changes the exact solution by no more (factors of at least one). -/
theorem source_change (r r' pf : ℕ → ℚ) (h : ℚ) (hh : 0 < h) (nr : ℕ) (hn : 1 ≤ nr) (hpf : ∀ j, 1 ≤ j → j < nr → 1 ≤ pf j) (d : ℚ) (hd : ∀ i, 1 ≤ i → i < nr → |r i - r' i| ≤ d) (hd0 : 0 ≤ d) :
    (r nr = r' nr → ∀ i ≤ nr, |solveDirichlet r pf h nr i - solveDirichlet r' pf h nr i| ≤ d) ∧ (∀ g, |r nr - r' nr| ≤ g → ∀ i ≤ nr, |solveNeumann r pf h nr i - solveNeumann r' pf h nr i| ≤ d + nr * h * g) := by
  have hp0 : ∀ j, 1 ≤ j → j < nr → 0 ≤ pf j := fun j a b => by linarith [hpf j a b]
  have inner : ∀ bc : ℚ × ℚ, ∀ B, d ≤ B → ∀ i, 1 ≤ i → i < nr → |rowA i * (tridiagonalSolve r pf h bc nr (i + 1) - tridiagonalSolve r' pf h bc nr (i + 1)) - rowB pf h i * (tridiagonalSolve r pf h bc nr i - tridiagonalSolve r' pf h bc nr i) + rowC i * (tridiagonalSolve r pf h bc nr (i - 1) - tridiagonalSolve r' pf h bc nr (i - 1))| ≤ B * (pf i * h ^ 2 + 1 / (i : ℚ) ^ 2) := by
    intro bc B hB i h1 h2
    have q1 := (row_iff h hh.ne' r pf _ i h1).mp (solve_rows r pf h hh.ne' bc nr hp0 i h1 h2)
    have q2 := (row_iff h hh.ne' r' pf _ i h1).mp (solve_rows r' pf h hh.ne' bc nr hp0 i h1 h2)
    have e : rowA i * (tridiagonalSolve r pf h bc nr (i + 1) - tridiagonalSolve r' pf h bc nr (i + 1)) - rowB pf h i * (tridiagonalSolve r pf h bc nr i - tridiagonalSolve r' pf h bc nr i) + rowC i * (tridiagonalSolve r pf h bc nr (i - 1) - tridiagonalSolve r' pf h bc nr (i - 1)) = h ^ 2 * (r i - r' i) := by
      linarith
    rw [e, abs_mul, abs_of_nonneg (sq_nonneg h)]
    have t1 := mul_le_mul_of_nonneg_left ((hd i h1 h2).trans hB) (sq_nonneg h)
    have t2 := mul_le_mul_of_nonneg_right (hpf i h1 h2) (mul_nonneg (hd0.trans hB) (sq_nonneg h))
    have t3 : 0 ≤ B * (1 / (i : ℚ) ^ 2) := mul_nonneg (hd0.trans hB) (by positivity)
    linarith
  constructor
  · intro hw
    have e1 := (dirichlet_solves r pf h hh nr hn hp0).2.2
    have e2 := (dirichlet_solves r' pf h hh nr hn hp0).2.2
    refine max_rows h nr pf (fun i => solveDirichlet r pf h nr i - solveDirichlet r' pf h nr i) hp0 d ?_ hd0 (inner _ d le_rfl) (fun _ => Or.inl ?_)
    · show tridiagonalSolve _ _ _ _ _ _ - tridiagonalSolve _ _ _ _ _ _ = _
      rw [solve_axis r pf h _ nr hn, solve_axis r' pf h _ nr hn, sub_zero]
    · beta_reduce
      rw [e1, e2, hw, sub_self, abs_zero]
      exact hd0
  · intro g hg
    have e1 := (neumann_solves r pf h hh nr hn hp0).2.2
    have e2 := (neumann_solves r' pf h hh nr hn hp0).2.2
    have hn1 : (1 : ℚ) ≤ nr := by exact_mod_cast hn
    have hs : (0 : ℚ) < nr - 1 / 2 := by linarith
    have hg0 : 0 ≤ g := (abs_nonneg _).trans hg
    have hB : d ≤ d + nr * h * g := by
      have : 0 ≤ nr * h * g := by positivity
      linarith
    refine max_rows h nr pf (fun i => solveNeumann r pf h nr i - solveNeumann r' pf h nr i) hp0 _ ?_ (hd0.trans hB) (inner _ _ hB) (fun _ => Or.inr ?_)
    · show tridiagonalSolve _ _ _ _ _ _ - tridiagonalSolve _ _ _ _ _ _ = _
      rw [solve_axis r pf h _ nr hn, solve_axis r' pf h _ nr hn, sub_zero]
    · beta_reduce
      rw [div_div, div_eq_iff (by positivity)] at e1 e2
      have e3 : nr * (solveNeumann r pf h nr nr - solveNeumann r' pf h nr nr) - (nr - 1) * (solveNeumann r pf h nr (nr - 1) - solveNeumann r' pf h nr (nr - 1)) = (nr - 1 / 2) * h * (r nr - r' nr) := by
        apply mul_left_cancel₀ hh.ne'
        linear_combination e1 - e2
      rw [e3, abs_mul, abs_of_pos (by positivity : 0 < ((nr : ℚ) - 1 / 2) * h)]
      have := mul_le_mul (by nlinarith : ((nr : ℚ) - 1 / 2) * h ≤ nr * h) hg (abs_nonneg _) (by positivity)
      linarith

theorem efRight_within (jf jfPrev efPrev pf : ℕ → ℚ) (dxi : ℚ) (hx : 0 < dxi) (nr i : ℕ) (h1 : 1 ≤ i) (h2 : i < nr) :
    Within 3 (efRightF jf jfPrev efPrev pf dxi nr i) (efSource jf jfPrev efPrev pf dxi nr i) (|jf i - jfPrev i| / dxi + |pf i * efPrev i|) := by
  have : ¬ (i = 0 ∨ i = nr) := by omega
  unfold efRightF efSource
  simp only [this, if_false]
  exact (((Within.self _).fl.divc hx).fl.sub ((Within.self _).fl.mono (by norm_num) le_rfl)).fl

/-- C71, E_phi: the computed field against the exact solution for the exact sources; `S` bounds `|j_phi - j_phi_prev| / dxi + |factor E_prev|`. -/
theorem Ef_doubles (jf jfPrev efPrev pf : ℕ → ℚ) (h dxi : ℚ) (hh : 1 / 2 ^ 22 ≤ h) (hx : 0 < dxi) (nr : ℕ) (hn : 1 ≤ nr) (h24 : nr ≤ 2 ^ 24) (hpf : ∀ j, 1 ≤ j → j < nr → 1 ≤ pf j)
    (S : ℚ) (hS0 : 0 ≤ S) (hS : ∀ i, 1 ≤ i → i < nr → |jf i - jfPrev i| / dxi + |pf i * efPrev i| ≤ S) (i : ℕ) (hi : i ≤ nr) :
    |computeEfF jf jfPrev efPrev pf h dxi nr i - solveDirichlet (efSource jf jfPrev efPrev pf dxi nr) pf h nr i| ≤ 100 / 2 ^ 53 * (1 / h ^ 2 + 1) * S := by
  have h0 : 0 < h := lt_of_lt_of_le (by norm_num) hh
  have hw : ∀ i, 1 ≤ i → i < nr → Within 3 (efRightF jf jfPrev efPrev pf dxi nr i) (efSource jf jfPrev efPrev pf dxi nr i) S := fun i a b => (efRight_within jf jfPrev efPrev pf dxi hx nr i a b).mono le_rfl (hS i a b)
  have z1 : efRightF jf jfPrev efPrev pf dxi nr nr = 0 := by simp [efRightF]
  have z2 : efSource jf jfPrev efPrev pf dxi nr nr = 0 := by simp [efSource]
  have g3 := gam_nonneg 3
  have a1 := (fields_doubles (efRightF jf jfPrev efPrev pf dxi nr) pf h hh nr hn h24 hpf ((1 + gam 3) * S) 0 (fun i a b => (hw i a b).size) (by positivity) (by rw [z1, abs_zero]) i hi).1 z1
  have a2 := (source_change (efRightF jf jfPrev efPrev pf dxi nr) (efSource jf jfPrev efPrev pf dxi nr) pf h h0 nr hn hpf (gam 3 * S) (fun i a b => (hw i a b).1) (by positivity)).1 (by rw [z1, z2]) i hi
  change |computeEfF jf jfPrev efPrev pf h dxi nr i - solveDirichlet (efRightF jf jfPrev efPrev pf dxi nr) pf h nr i| ≤ _ at a1
  have a3 := abs_add_le (computeEfF jf jfPrev efPrev pf h dxi nr i - solveDirichlet (efRightF jf jfPrev efPrev pf dxi nr) pf h nr i) (solveDirichlet (efRightF jf jfPrev efPrev pf dxi nr) pf h nr i - solveDirichlet (efSource jf jfPrev efPrev pf dxi nr) pf h nr i)
  rw [sub_add_sub_cancel] at a3
  have q : 0 < 1 / h ^ 2 := by positivity
  generalize 1 / h ^ 2 = k at *
  have k1 : gam 3 ≤ 7 / 2 / 2 ^ 53 := by unfold gam u; norm_num
  have k2 : 96 / 2 ^ 53 * (1 + gam 3) ≤ 193 / 2 / 2 ^ 53 := by unfold gam u; norm_num
  have k3 := mul_le_mul_of_nonneg_right k2 (by positivity : 0 ≤ (k + 1) * S)
  have k4 := mul_le_mul_of_nonneg_right k1 hS0
  have k5 : 7 / 2 / 2 ^ 53 * S ≤ 7 / 2 / 2 ^ 53 * ((k + 1) * S) := by
    apply mul_le_mul_of_nonneg_left _ (by norm_num)
    nlinarith
  linarith [(by ring : 96 / 2 ^ 53 * (k + 1) * ((1 + gam 3) * S) = 96 / 2 ^ 53 * (1 + gam 3) * ((k + 1) * S))]

theorem erRight_within (rho jr jrPrev erPrev pf : ℕ → ℚ) (h dxi : ℚ) (hh : 0 < h) (hx : 0 < dxi) (nr i : ℕ) (h1 : 1 ≤ i) (h2 : i < nr) :
    Within 4 (erRightF rho jr jrPrev erPrev pf h dxi nr i) (erSource rho jr jrPrev erPrev pf h dxi nr i) (|jr i - jrPrev i| / dxi + |pf i * erPrev i| + |rho (i + 1) - rho (i - 1)| / 2 / h) := by
  have g1 : ¬ i = 0 := by omega
  have g2 : ¬ i = nr := by omega
  unfold erRightF erSource
  simp only [g1, g2, if_false]
  exact ((((Within.self _).fl.divc hx).fl.sub ((Within.self _).fl.mono (by norm_num) le_rfl)).fl.add ((((Within.self _).fl.divc (by norm_num)).fl.divc hh).fl.mono (by norm_num) le_rfl)).fl

/-- C71, E_r: `S` bounds `|j_r - j_r_prev| / dxi + |factor E_prev| + |rho(i+1) - rho(i-1)| / 2h` at the inner nodes and `G` the mean density of the last cell. -/
theorem Er_doubles (rho jr jrPrev erPrev pf : ℕ → ℚ) (h dxi : ℚ) (hh : 1 / 2 ^ 22 ≤ h) (hx : 0 < dxi) (nr : ℕ) (hn : 1 ≤ nr) (h24 : nr ≤ 2 ^ 24) (hpf : ∀ j, 1 ≤ j → j < nr → 1 ≤ pf j)
    (S G : ℚ) (hS0 : 0 ≤ S) (hS : ∀ i, 1 ≤ i → i < nr → |jr i - jrPrev i| / dxi + |pf i * erPrev i| + |rho (i + 1) - rho (i - 1)| / 2 / h ≤ S) (hG : |rho (nr - 1) + rho nr| / 2 ≤ G) (i : ℕ) (hi : i ≤ nr) :
    |computeErF rho jr jrPrev erPrev pf h dxi nr i - solveNeumann (erSource rho jr jrPrev erPrev pf h dxi nr) pf h nr i| ≤ 101 / 2 ^ 53 * (1 / h ^ 2 + nr + 1) * (S + nr * h * G) := by
  have h0 : 0 < h := lt_of_lt_of_le (by norm_num) hh
  have hw : ∀ i, 1 ≤ i → i < nr → Within 4 (erRightF rho jr jrPrev erPrev pf h dxi nr i) (erSource rho jr jrPrev erPrev pf h dxi nr i) S := fun i a b => (erRight_within rho jr jrPrev erPrev pf h dxi h0 hx nr i a b).mono le_rfl (hS i a b)
  have hn0 : ¬ nr = 0 := by omega
  have hwall : Within 4 (erRightF rho jr jrPrev erPrev pf h dxi nr nr) (erSource rho jr jrPrev erPrev pf h dxi nr nr) G := by
    unfold erRightF erSource
    simp only [hn0, if_false, if_true]
    exact ((Within.self _).fl.divc (by norm_num)).fl.mono (by norm_num) hG
  have hG0 := hwall.pos
  have g4 := gam_nonneg 4
  have hn1 : (1 : ℚ) ≤ nr := by exact_mod_cast hn
  have a1 := (fields_doubles (erRightF rho jr jrPrev erPrev pf h dxi nr) pf h hh nr hn h24 hpf ((1 + gam 4) * S) ((1 + gam 4) * G) (fun i a b => (hw i a b).size) (by positivity) hwall.size i hi).2
  have a2 := (source_change (erRightF rho jr jrPrev erPrev pf h dxi nr) (erSource rho jr jrPrev erPrev pf h dxi nr) pf h h0 nr hn hpf (gam 4 * S) (fun i a b => (hw i a b).1) (by positivity)).2 (gam 4 * G) hwall.1 i hi
  change |computeErF rho jr jrPrev erPrev pf h dxi nr i - solveNeumann (erRightF rho jr jrPrev erPrev pf h dxi nr) pf h nr i| ≤ _ at a1
  have a3 := abs_add_le (computeErF rho jr jrPrev erPrev pf h dxi nr i - solveNeumann (erRightF rho jr jrPrev erPrev pf h dxi nr) pf h nr i) (solveNeumann (erRightF rho jr jrPrev erPrev pf h dxi nr) pf h nr i - solveNeumann (erSource rho jr jrPrev erPrev pf h dxi nr) pf h nr i)
  rw [sub_add_sub_cancel] at a3
  have q : 0 < 1 / h ^ 2 := by positivity
  generalize 1 / h ^ 2 = k at *
  have e1 : (1 + gam 4) * S + nr * h * ((1 + gam 4) * G) = (1 + gam 4) * (S + nr * h * G) := by ring
  have e2 : gam 4 * S + nr * h * (gam 4 * G) = gam 4 * (S + nr * h * G) := by ring
  rw [e1] at a1
  rw [e2] at a2
  have hT : 0 ≤ S + nr * h * G := by positivity
  generalize S + nr * h * G = T at *
  have k1 : gam 4 ≤ 9 / 2 / 2 ^ 53 := by unfold gam u; norm_num
  have k2 : 96 / 2 ^ 53 * (1 + gam 4) ≤ 193 / 2 / 2 ^ 53 := by unfold gam u; norm_num
  have k3 := mul_le_mul_of_nonneg_right k2 (by positivity : 0 ≤ (k + nr + 1) * T)
  have k4 := mul_le_mul_of_nonneg_right k1 hT
  have k5 : 9 / 2 / 2 ^ 53 * T ≤ 9 / 2 / 2 ^ 53 * ((k + nr + 1) * T) := by
    apply mul_le_mul_of_nonneg_left _ (by norm_num)
    nlinarith
  linarith [(by ring : 96 / 2 ^ 53 * (k + nr + 1) * ((1 + gam 4) * T) = 96 / 2 ^ 53 * (1 + gam 4) * ((k + nr + 1) * T))]

/-! ### The magnetic fields -/

theorem termF_within (y z B : ℕ → ℚ) (dx : ℚ) (hd : 0 ≤ dx) {n : ℕ} (hy : ∀ k, Within n (y k) (z k) (B k)) (k : ℕ) :
    Within (n + 3) (termF y dx k) (dx * ((z (k + 1) + z k) / 2)) (dx * ((B (k + 1) + B k) / 2)) := by
  have := ((((hy (k + 1)).add (hy k)).fl.divc (by norm_num : (0 : ℚ) < 2)).fl.smul dx).fl
  rw [abs_of_nonneg hd] at this
  exact this

/-- The forward integral of an array that carries errors itself. -/
theorem cumForward_within (y z B : ℕ → ℚ) (dx : ℚ) (hd : 0 ≤ dx) {n : ℕ} (hy : ∀ k, Within n (y k) (z k) (B k)) (i : ℕ) :
    Within (n + 3 + i) (cumForwardF y dx i) (cumtrapzForward z dx i) (cumtrapzForward B dx i) := by
  have := Within.sum (List.range i) (termF y dx) (fun k => dx * ((z (k + 1) + z k) / 2)) (fun k => dx * ((B (k + 1) + B k) / 2)) (fun k _ => termF_within y z B dx hd hy k)
  rw [List.length_range, ← forward_sum] at this
  have e : ∀ w : ℕ → ℚ, ((List.range i).map fun k => dx * ((w (k + 1) + w k) / 2)).sum = cumtrapzForward w dx i := by
    intro w
    rw [range_sum, cumtrapz_forward]
    unfold trapezoid
    rw [← Finset.range_eq_Ico]
    exact Finset.sum_congr rfl fun k _ => by ring
  rw [e, e] at this
  exact this

/-- C71, B_phi: for the computed E_r, up to one rounding of the result and `i + 7` roundings of the integral of the absolute value of `r (rho - j_z)`, over `r`. -/
theorem Bf_doubles (rho jz er : ℕ → ℚ) (h : ℚ) (hh : 0 ≤ h) (i : ℕ) (h1 : 1 ≤ i) :
    |computeBfF rho jz er h i - (er i - cumtrapzForward (fun k => (k : ℚ) * (rho k - jz k)) h i / i)| ≤
      u * |er i - cumtrapzForward (fun k => (k : ℚ) * (rho k - jz k)) h i / i| + gam (i + 7) * (cumtrapzForward (fun k => (k : ℚ) * |rho k - jz k|) h i / i) := by
  have hi : (0 : ℚ) < i := by exact_mod_cast h1
  have hw := ((cumForward_within (fun k => fl ((k : ℚ) * fl (rho k - jz k))) (fun k => (k : ℚ) * (rho k - jz k)) (fun k => (k : ℚ) * |rho k - jz k|) h hh (n := 2) (fun k => by
    have := ((Within.self (rho k - jz k)).fl.smul k).fl
    rw [abs_of_nonneg (Nat.cast_nonneg k)] at this
    exact this) i).divc hi).fl
  unfold computeBfF
  simp only [h1, if_true]
  generalize cumForwardF (fun k => fl ((k : ℚ) * fl (rho k - jz k))) h i = t at *
  generalize cumtrapzForward (fun k => (k : ℚ) * (rho k - jz k)) h i / i = s at *
  generalize cumtrapzForward (fun k => (k : ℚ) * |rho k - jz k|) h i / i = B at *
  have h2 := fl_abs_err (er i - fl (t / i))
  have h3 := hw.1
  have hu := u_pos
  have h4 : |er i - fl (t / i)| ≤ |er i - s| + |fl (t / i) - s| := by
    have := abs_sub (er i - s) (fl (t / i) - s)
    rwa [show er i - s - (fl (t / i) - s) = er i - fl (t / i) by ring] at this
  have h5 := abs_sub (fl (er i - fl (t / i)) - (er i - fl (t / i))) (fl (t / i) - s)
  rw [show fl (er i - fl (t / i)) - (er i - fl (t / i)) - (fl (t / i) - s) = fl (er i - fl (t / i)) - (er i - s) by ring] at h5
  have h6 : gam (2 + 3 + i + 1) = gam (i + 6) := by congr 1; ring
  rw [h6] at h3
  have h7 := gam_succ (i + 6)
  have h8 := mul_le_mul_of_nonneg_left h4 hu.le
  have h9 := mul_le_mul_of_nonneg_left h3 hu.le
  have hB := hw.pos
  have h10 : 0 ≤ u * B := by positivity
  rw [show i + 7 = i + 6 + 1 by ring, h7]
  linarith

/-- C71, B_phi on the axis. -/
theorem Bf_axis (rho jz er : ℕ → ℚ) (h : ℚ) : computeBfF rho jz er h 0 = fl (er 0) := by
  simp [computeBfF, cumForwardF]

theorem back_abs_le (y : ℕ → ℚ) (h : ℚ) (hh : 0 ≤ h) (nr i : ℕ) (hi : i ≤ nr) : |cumtrapzBackward y h nr i| ≤ absTrapezoid y h i nr ∧ absTrapezoid y h i nr ≤ absTrapezoid y h 0 nr := by
  constructor
  · rw [cumtrapz_backward y h nr i hi, abs_neg]
    unfold trapezoid absTrapezoid
    refine (Finset.abs_sum_le_sum_abs _ _).trans (Finset.sum_le_sum fun k _ => ?_)
    have := abs_term y h hh k
    rwa [show h * ((y (k + 1) + y k) / 2) = h * (y k + y (k + 1)) / 2 by ring] at this
  · unfold absTrapezoid
    apply Finset.sum_le_sum_of_subset_of_nonneg
    · intro k hk
      rw [Finset.mem_Ico] at hk ⊢
      omega
    · intro k _ _
      refine mul_nonneg hh ?_
      linarith [abs_nonneg (y (k + 1)), abs_nonneg (y k)]

theorem odd_sum (n : ℕ) : ((List.range n).map fun k : ℕ => 2 * (k : ℚ) + 1).sum = (n : ℚ) ^ 2 := by
  induction n with
  | zero => simp
  | succ n ih => rw [List.range_succ (n := n), List.map_append, List.sum_append, ih]; simp; ring

/-- C71, B_z: against the exact formula (the backward integral of `-j_phi` minus its mean flux), up to `2 nr + 7` roundings of five times the integral of `|j_phi|` over the window. -/
theorem Bz_doubles (jf : ℕ → ℚ) (h : ℚ) (hh : 0 ≤ h) (nr : ℕ) (hn : 1 ≤ nr) (i : ℕ) (hi : i ≤ nr) :
    |computeBzF jf h nr i - (cumtrapzBackward (fun k => -jf k) h nr i - (∑ k ∈ range (nr + 1), (2 * (k : ℚ) + 1) * cumtrapzBackward (fun k => -jf k) h nr k) / (nr : ℚ) ^ 2)| ≤
      gam (2 * nr + 7) * (5 * absTrapezoid jf h 0 nr) := by
  have hb : ∀ k ≤ nr, Within (nr + 3) (cumBackwardF (fun k => -jf k) h nr k) (cumtrapzBackward (fun k => -jf k) h nr k) (absTrapezoid jf h 0 nr) := by
    intro k hk
    obtain ⟨q1, q2⟩ := back_abs_le (fun k => -jf k) h hh nr k hk
    have q3 := cumBackward_doubles (fun k => -jf k) h hh nr k hk
    have e : ∀ a b, absTrapezoid (fun k => -jf k) h a b = absTrapezoid jf h a b := by
      intro a b
      unfold absTrapezoid
      simp only [abs_neg]
    rw [e, e] at q2
    rw [e] at q1 q3
    refine ⟨q3.trans (mul_le_mul (gam_mono (by omega)) q2 ((abs_nonneg _).trans q1) (gam_nonneg _)), q1.trans q2⟩
  have hA := (hb 0 (by omega)).pos
  generalize absTrapezoid jf h 0 nr = A at *
  unfold computeBzF
  simp only
  generalize cumBackwardF (fun k => -jf k) h nr = b at *
  generalize cumtrapzBackward (fun k => -jf k) h nr = z at *
  have hs := Within.sum (List.range (nr + 1)) (fun k => fl ((2 * (k : ℚ) + 1) * b k)) (fun k => (2 * (k : ℚ) + 1) * z k) (fun k => (2 * (k : ℚ) + 1) * A) (n := nr + 4) (fun k hk => by
    rw [List.mem_range] at hk
    have := ((hb k (by omega)).smul (2 * (k : ℚ) + 1)).fl
    rw [abs_of_nonneg (by positivity : (0 : ℚ) ≤ 2 * k + 1)] at this
    exact this)
  rw [List.length_range, range_sum, List.sum_map_mul_right, odd_sum] at hs
  have hn1 : (1 : ℚ) ≤ nr := by exact_mod_cast hn
  have hq := (hs.divc (by positivity : (0 : ℚ) < (nr : ℚ) ^ 2)).fl
  have hq2 := hq.mono (le_refl _) (C := 4 * A) (by
    rw [div_le_iff₀ (by positivity)]
    push_cast
    have : ((nr : ℚ) + 1) ^ 2 ≤ 4 * (nr : ℚ) ^ 2 := by nlinarith
    nlinarith)
  have fin := (((hb i hi).mono (by omega : nr + 3 ≤ nr + 4 + (nr + 1) + 1) le_rfl).sub hq2).fl
  have h1 := fin.1
  rw [show A + 4 * A = 5 * A by ring, show nr + 4 + (nr + 1) + 1 + 1 = 2 * nr + 7 by ring] at h1
  exact h1

end Lcode.Fp
