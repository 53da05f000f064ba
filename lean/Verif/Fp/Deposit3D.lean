import Verif.Fp.BeamCharge
import Verif.Fp.Index3D
import Verif.Plasma3D.Weights

/-!
C70: the charge of a 3D beam layer deposited in doubles, on a CPU or with the atomic additions of a GPU in any order.
-/

namespace Lcode.Fp

open Finset
open Lcode.Plasma3D (weight4 places)

/-! ### Any deposit -/

/-- Sums over all elements of arrays: whatever the order of the additions. -/
theorem deposit_total {ι : Type} [DecidableEq ι] (nodes : Finset ι) (out : ι → ℚ) (l : List (ι × ℚ)) (n : ℕ) (hin : ∀ t ∈ l, t.1 ∈ nodes) (hn : ∀ i ∈ nodes, (atNode i l).length ≤ n) :
    |∑ i ∈ nodes, addAtF out l i - (∑ i ∈ nodes, out i + (l.map Prod.snd).sum)| ≤ gam n * (∑ i ∈ nodes, |out i| + absSum (l.map Prod.snd)) := by
  have key : ∀ l : List (ι × ℚ), (∀ t ∈ l, t.1 ∈ nodes) → ∑ i ∈ nodes, (atNode i l).sum = (l.map Prod.snd).sum ∧ ∑ i ∈ nodes, absSum (atNode i l) = absSum (l.map Prod.snd) := by
    intro l
    induction l with
    | nil => intro _; simp [atNode, absSum]
    | cons a l ih =>
      intro h
      obtain ⟨h1, h2⟩ := ih (fun t ht => h t (List.mem_cons_of_mem _ ht))
      have ha := h a List.mem_cons_self
      have e : ∀ i, atNode i (a :: l) = (if a.1 = i then [a.2] else []) ++ atNode i l := by
        intro i; unfold atNode; rw [List.filter_cons]
        by_cases hk : a.1 = i <;> simp [hk]
      simp only [absSum, e, List.map_append, List.sum_append, Finset.sum_add_distrib, List.map_cons, List.sum_cons] at h1 h2 ⊢
      rw [h1, h2]
      constructor
      · congr 1
        rw [Finset.sum_eq_single a.1]
        · simp
        · intro b _ hb; rw [if_neg (Ne.symm hb)]; simp
        · intro hc; exact absurd ha hc
      · congr 1
        rw [Finset.sum_eq_single a.1]
        · simp
        · intro b _ hb; rw [if_neg (Ne.symm hb)]; simp
        · intro hc; exact absurd ha hc
  obtain ⟨h1, h2⟩ := key l hin
  rw [← h1, ← h2, ← Finset.sum_add_distrib, ← Finset.sum_add_distrib, ← Finset.sum_sub_distrib, Finset.mul_sum]
  refine (Finset.abs_sum_le_sum_abs _ _).trans (Finset.sum_le_sum fun i hi => ?_)
  rw [addAtF_apply]
  exact (sumF_err _ _).trans (mul_le_mul_of_nonneg_right (gam_mono (hn i hi)) (add_nonneg (abs_nonneg _) (absSum_nonneg _)))

/-! ### Absolute errors of expressions -/

/-- `a` is `b` up to `e` units of roundoff, and `b` is at most `B`. -/
structure Near (a b e B : ℚ) : Prop where
  err : |a - b| ≤ e * u
  size : |b| ≤ B

theorem Near.exact {b B : ℚ} (h : |b| ≤ B) : Near b b 0 B := ⟨by simp, h⟩

theorem Near.add {a b c d e f B C : ℚ} (h : Near a b e B) (k : Near c d f C) : Near (a + c) (b + d) (e + f) (B + C) :=
  ⟨by rw [show a + c - (b + d) = (a - b) + (c - d) by ring]; exact (abs_add_le _ _).trans (by linarith [h.err, k.err]), (abs_add_le _ _).trans (by linarith [h.size, k.size])⟩

theorem Near.neg {a b e B : ℚ} (h : Near a b e B) : Near (-a) (-b) e B :=
  ⟨by rw [show -a - -b = -(a - b) by ring, abs_neg]; exact h.err, by rw [abs_neg]; exact h.size⟩

theorem Near.sub {a b c d e f B C : ℚ} (h : Near a b e B) (k : Near c d f C) : Near (a - c) (b - d) (e + f) (B + C) := by
  rw [sub_eq_add_neg, sub_eq_add_neg]; exact h.add k.neg

theorem Near.mul {a b c d e f B C : ℚ} (h : Near a b e B) (k : Near c d f C) (he : e ≤ 1000) (hf : f ≤ 1000) : Near (a * c) (b * d) (B * f + C * e + 1 / 1000) (B * C) := by
  have hu := u_pos
  have h1 := h.err; have h2 := h.size; have h3 := k.err; have h4 := k.size
  constructor
  · rw [show a * c - b * d = b * (c - d) + d * (a - b) + (a - b) * (c - d) by ring]
    refine (abs_add_three _ _ _).trans ?_
    rw [abs_mul, abs_mul, abs_mul]
    have m1 : |b| * |c - d| ≤ B * (f * u) := mul_le_mul h2 h3 (abs_nonneg _) ((abs_nonneg _).trans h2)
    have m2 : |d| * |a - b| ≤ C * (e * u) := mul_le_mul h4 h1 (abs_nonneg _) ((abs_nonneg _).trans h4)
    have m3 : |a - b| * |c - d| ≤ (1000 * u) * (1000 * u) := mul_le_mul (h1.trans (mul_le_mul_of_nonneg_right he hu.le)) (h3.trans (mul_le_mul_of_nonneg_right hf hu.le)) (abs_nonneg _) (by positivity)
    have m4 : (1000 * u) * (1000 * u) ≤ 1 / 1000 * u := by unfold u; norm_num
    linarith [(by ring : (B * f + C * e + 1 / 1000) * u = B * (f * u) + C * (e * u) + 1 / 1000 * u)]
  · rw [abs_mul]
    exact mul_le_mul h2 h4 (abs_nonneg _) ((abs_nonneg _).trans h2)

theorem Near.fl {a b e B : ℚ} (h : Near a b e B) (he : e ≤ 1000) : Near (Lcode.Fp.fl a) b (e + B + 1 / 1000) B := by
  have hu := u_pos
  have h1 := h.err; have h2 := h.size
  refine ⟨?_, h2⟩
  have h3 := fl_abs_err a
  have h4 := abs_sub_le (Lcode.Fp.fl a) a b
  have h5 : |a| ≤ B + 1000 * u := by
    have := abs_add_le (a - b) b
    rw [sub_add_cancel] at this
    have := mul_le_mul_of_nonneg_right he hu.le
    linarith
  have h6 := mul_le_mul_of_nonneg_left h5 hu.le
  have h7 : u * (1000 * u) ≤ 1 / 1000 * u := by unfold u; norm_num
  linarith

theorem Near.mono {a b e B e' B' : ℚ} (h : Near a b e B) (he : e ≤ e') (hB : |b| ≤ B') : Near a b e' B' :=
  ⟨h.err.trans (mul_le_mul_of_nonneg_right he u_pos.le), hB⟩

/-- A rounded constant. -/
theorem Near.const {c B : ℚ} (h : |c| ≤ B) : Near (Lcode.Fp.fl c) c (B + 1 / 1000) B := by
  have := (Near.exact h).fl (by norm_num)
  rwa [zero_add] at this

/-! ### The weights -/

/-- `y ** 2`, `y ** 3`, `y ** 4` as compiled by numba (products). -/
def pow2F (y : ℚ) : ℚ := fl (y * y)
def pow3F (y : ℚ) : ℚ := fl (pow2F y * y)
def pow4F (y : ℚ) : ℚ := fl (pow2F y * pow2F y)

/-- weight4, beam3d/weights.py:18-37 (plasma3d/weights.py:12-31 is the same), in doubles. -/
def weight4F (x : ℚ) (place : ℤ) : ℚ :=
  if place = -2 then fl (pow4F (fl (1 / 2 - x)) / 24)
  else if place = -1 then fl (fl (fl (fl (fl (19 / 96) - fl (fl (11 / 24) * x)) + fl (pow2F x / 4)) + fl (pow3F x / 6)) - fl (pow4F x / 6))
  else if place = 0 then fl (fl (fl (115 / 192) - fl (fl (pow2F x * 5) / 8)) + fl (pow4F x / 4))
  else if place = 1 then fl (fl (fl (fl (fl (19 / 96) + fl (fl (11 / 24) * x)) + fl (pow2F x / 4)) - fl (pow3F x / 6)) - fl (pow4F x / 6))
  else fl (pow4F (fl (1 / 2 + x)) / 24)

theorem near_pow {y z e B : ℚ} (h : Near y z e B) (he : e ≤ 2) (he0 : 0 ≤ e) (hB : B ≤ 1) :
    Near (pow2F y) (z ^ 2) (2 * e + 1 + 1 / 100) (B * B) ∧ Near (pow3F y) (z ^ 3) (3 * e + 2 + 3 / 100) (B * B * B) ∧ Near (pow4F y) (z ^ 4) (4 * e + 3 + 5 / 100) (B * B * (B * B)) := by
  have hB0 : 0 ≤ B := (abs_nonneg _).trans h.size
  have hBB : B * B ≤ 1 := by nlinarith
  have hBe : B * e ≤ e := by nlinarith
  have p2 : Near (pow2F y) (z ^ 2) (2 * e + 1 + 1 / 100) (B * B) := by
    have := (h.mul h (by linarith) (by linarith)).fl (by linarith)
    rw [pow_two]
    exact this.mono (by linarith) this.size
  refine ⟨p2, ?_, ?_⟩
  · have h1 := (p2.mul h (by linarith) (by linarith))
    have b1 : B * B * e ≤ e := by nlinarith
    have b2 : B * (2 * e + 1 + 1 / 100) ≤ 2 * e + 1 + 1 / 100 := by nlinarith
    have b3 : B * B * B ≤ 1 := by nlinarith
    have := h1.fl (by linarith)
    rw [show z ^ 3 = z ^ 2 * z by ring]
    exact this.mono (by linarith) this.size
  · have h1 := (p2.mul p2 (by linarith) (by linarith))
    have b2 : B * B * (2 * e + 1 + 1 / 100) ≤ 2 * e + 1 + 1 / 100 := by nlinarith
    have b3 : B * B * (B * B) ≤ 1 := by nlinarith
    have := h1.fl (by linarith)
    rw [show z ^ 4 = z ^ 2 * z ^ 2 by ring]
    exact this.mono (by linarith) this.size

theorem near_div {a b e B c : ℚ} (h : Near a b e B) (hc : 1 ≤ c) (he0 : 0 ≤ e) (he : e ≤ 100) (hB : B ≤ 1) : Near (fl (a / c)) (b / c) (e / c + B / c + 1 / 50) (B / c) := by
  have hB0 : 0 ≤ B := (abs_nonneg _).trans h.size
  have h1 : |1 / c| ≤ 1 / c := by rw [abs_of_nonneg (by positivity)]
  have h2 := (h.mul (Near.exact h1) (by linarith) (by norm_num))
  have hec : 1 / c * e ≤ e := by
    have : 1 / c ≤ 1 := by rw [div_le_one (by linarith)]; exact hc
    nlinarith
  have h3 := h2.fl (by linarith)
  rw [mul_one_div, mul_one_div, mul_one_div] at h3
  refine h3.mono ?_ h3.size
  have : 1 / c * e = e / c := by ring
  linarith

/-- Specification: computed weights that are off by at most six units of roundoff. -/
def GoodWeights (w : ℚ → ℤ → ℚ) : Prop := ∀ x, |x| ≤ 1 / 2 → ∀ k ∈ places, |w x k - weight4 x k| ≤ 6 * u

/-- Every computed weight is off by at most six units of roundoff. -/
theorem weight4_doubles : GoodWeights weight4F := by
  intro x hx k hk
  have X : Near x x 0 (1 / 2) := Near.exact hx
  obtain ⟨p2, p3, p4⟩ := near_pow X (by norm_num) le_rfl (by norm_num)
  have q2 := near_div p2 (c := 4) (by norm_num) (by norm_num) (by norm_num) (by norm_num)
  have q3 := near_div p3 (c := 6) (by norm_num) (by norm_num) (by norm_num) (by norm_num)
  have q4 := near_div p4 (c := 6) (by norm_num) (by norm_num) (by norm_num) (by norm_num)
  have r4 := near_div p4 (c := 4) (by norm_num) (by norm_num) (by norm_num) (by norm_num)
  have c19 : Near (fl (19 / 96)) (19 / 96) (1 / 5 + 1 / 1000) (1 / 5) := Near.const (by rw [abs_of_pos] <;> norm_num)
  have c11 : Near (fl (11 / 24)) (11 / 24) (1 / 2 + 1 / 1000) (1 / 2) := Near.const (by rw [abs_of_pos] <;> norm_num)
  have c115 : Near (fl (115 / 192)) (115 / 192) (3 / 5 + 1 / 1000) (3 / 5) := Near.const (by rw [abs_of_pos] <;> norm_num)
  have m11 := (c11.mul X (by norm_num) (by norm_num)).fl (by norm_num)
  have five : Near (5 : ℚ) 5 0 5 := Near.exact (by norm_num)
  have s5 := (p2.mul five (by norm_num) (by norm_num)).fl (by norm_num)
  have s58 : Near (fl (fl (pow2F x * 5) / 8)) (x ^ 2 * 5 / 8) (5 / 2) (1 / 6) := by
    have e8 : |(1 : ℚ) / 8| ≤ 1 / 8 := by norm_num
    have h2 := ((s5.mul (Near.exact e8) (by norm_num) (by norm_num))).fl (by norm_num)
    rw [mul_one_div, mul_one_div] at h2
    refine h2.mono (by norm_num) ?_
    have := h2.size
    linarith
  simp only [places, List.mem_cons, List.not_mem_nil, or_false] at hk
  have fin : ∀ a b e B : ℚ, Near a b e B → e ≤ 6 → |a - b| ≤ 6 * u := fun a b e B h he => h.err.trans (mul_le_mul_of_nonneg_right he u_pos.le)
  rcases hk with rfl | rfl | rfl | rfl | rfl
  · have half : Near (fl (1 / 2 - x)) (1 / 2 - x) (1 + 1 / 1000) 1 := by
      have b : |1 / 2 - x| ≤ 1 := by have := abs_le.mp hx; rw [abs_le]; constructor <;> linarith [this.1, this.2]
      have := (Near.exact b).fl (by norm_num)
      exact this.mono (by norm_num) b
    obtain ⟨-, -, w⟩ := near_pow half (by norm_num) (by norm_num) le_rfl
    exact fin _ _ _ _ (near_div w (c := 24) (by norm_num) (by norm_num) (by norm_num) (by norm_num)) (by norm_num)
  · have t1 := (c19.sub m11).fl (by norm_num)
    have t2 := (t1.add q2).fl (by norm_num)
    have t3 := (t2.add q3).fl (by norm_num)
    have t4 := (t3.sub q4).fl (by norm_num)
    exact fin _ _ _ _ t4 (by norm_num)
  · have t1 := (c115.sub s58).fl (by norm_num)
    have t2 := (t1.add r4).fl (by norm_num)
    exact fin _ _ _ _ t2 (by norm_num)
  · have t1 := (c19.add m11).fl (by norm_num)
    have t2 := (t1.add q2).fl (by norm_num)
    have t3 := (t2.sub q3).fl (by norm_num)
    have t4 := (t3.sub q4).fl (by norm_num)
    exact fin _ _ _ _ t4 (by norm_num)
  · have half : Near (fl (1 / 2 + x)) (1 / 2 + x) (1 + 1 / 1000) 1 := by
      have b : |1 / 2 + x| ≤ 1 := by have := abs_le.mp hx; rw [abs_le]; constructor <;> linarith [this.1, this.2]
      have := (Near.exact b).fl (by norm_num)
      exact this.mono (by norm_num) b
    obtain ⟨-, -, w⟩ := near_pow half (by norm_num) (by norm_num) le_rfl
    exact fin _ _ _ _ (near_div w (c := 24) (by norm_num) (by norm_num) (by norm_num) (by norm_num)) (by norm_num)

/-- weight4 of the GPU kernel, beam3d/weights.py:82-103 (plasma3d/weights.py:131-153), in doubles without contraction. -/
def weight4GF (x : ℚ) (place : ℤ) : ℚ :=
  if place = -2 then fl (fl (fl (fl (fl (1 / 2 - x) * fl (1 / 2 - x)) * fl (1 / 2 - x)) * fl (1 / 2 - x)) / 24)
  else if place = -1 then fl (fl (fl (fl (fl (19 / 96) - fl (fl (11 / 24) * x)) + fl (fl (x * x) / 4)) + fl (fl (fl (x * x) * x) / 6)) - fl (fl (fl (fl (x * x) * x) * x) / 6))
  else if place = 0 then fl (fl (fl (115 / 192) - fl (fl (5 / 8 * x) * x)) + fl (fl (fl (fl (x * x) * x) * x) / 4))
  else if place = 1 then fl (fl (fl (fl (fl (19 / 96) + fl (fl (11 / 24) * x)) + fl (fl (x * x) / 4)) - fl (fl (fl (x * x) * x) / 6)) - fl (fl (fl (fl (x * x) * x) * x) / 6))
  else fl (fl (fl (fl (fl (1 / 2 + x) * fl (1 / 2 + x)) * fl (1 / 2 + x)) * fl (1 / 2 + x)) / 24)

theorem near_pow4 {y z e B : ℚ} (h : Near y z e B) (he : e ≤ 2) (he0 : 0 ≤ e) (hB : B ≤ 1) : Near (fl (fl (fl (y * y) * y) * y)) (z ^ 4) (4 * e + 3 + 7 / 100) (B * B * (B * B)) := by
  have hB0 : 0 ≤ B := (abs_nonneg _).trans h.size
  obtain ⟨-, p3, -⟩ := near_pow h he he0 hB
  have h1 := (p3.mul h (by linarith) (by linarith))
  have k1 : B * B ≤ 1 := by nlinarith
  have k2 : B * B * B ≤ 1 := by nlinarith
  have k3 : B * B * B * B ≤ 1 := by nlinarith
  have b1 : B * B * B * e ≤ e := by nlinarith
  have b2 : B * (3 * e + 2 + 3 / 100) ≤ 3 * e + 2 + 3 / 100 := by nlinarith
  have := h1.fl (by linarith)
  rw [show z ^ 4 = z ^ 3 * z by ring]
  exact this.mono (by linarith) (this.size.trans_eq (by ring))

theorem weight4G_doubles : GoodWeights weight4GF := by
  intro x hx k hk
  have X : Near x x 0 (1 / 2) := Near.exact hx
  obtain ⟨p2, p3, -⟩ := near_pow X (by norm_num) le_rfl (by norm_num)
  have p4 := near_pow4 X (by norm_num) le_rfl (by norm_num)
  have q2 := near_div p2 (c := 4) (by norm_num) (by norm_num) (by norm_num) (by norm_num)
  have q3 := near_div p3 (c := 6) (by norm_num) (by norm_num) (by norm_num) (by norm_num)
  have q4 := near_div p4 (c := 6) (by norm_num) (by norm_num) (by norm_num) (by norm_num)
  have r4 := near_div p4 (c := 4) (by norm_num) (by norm_num) (by norm_num) (by norm_num)
  have c19 : Near (fl (19 / 96)) (19 / 96) (1 / 5 + 1 / 1000) (1 / 5) := Near.const (by rw [abs_of_pos] <;> norm_num)
  have c11 : Near (fl (11 / 24)) (11 / 24) (1 / 2 + 1 / 1000) (1 / 2) := Near.const (by rw [abs_of_pos] <;> norm_num)
  have c115 : Near (fl (115 / 192)) (115 / 192) (3 / 5 + 1 / 1000) (3 / 5) := Near.const (by rw [abs_of_pos] <;> norm_num)
  have m11 := (c11.mul X (by norm_num) (by norm_num)).fl (by norm_num)
  have five : Near (5 / 8 : ℚ) (5 / 8) 0 (5 / 8) := Near.exact (by norm_num)
  have s5 := (five.mul X (by norm_num) (by norm_num)).fl (by norm_num)
  have s58 := (s5.mul X (by norm_num) (by norm_num)).fl (by norm_num)
  simp only [places, List.mem_cons, List.not_mem_nil, or_false] at hk
  have fin : ∀ a b e B : ℚ, Near a b e B → e ≤ 6 → |a - b| ≤ 6 * u := fun a b e B h he => h.err.trans (mul_le_mul_of_nonneg_right he u_pos.le)
  rcases hk with rfl | rfl | rfl | rfl | rfl
  · have half : Near (fl (1 / 2 - x)) (1 / 2 - x) (1 + 1 / 1000) 1 := by
      have b : |1 / 2 - x| ≤ 1 := by have := abs_le.mp hx; rw [abs_le]; constructor <;> linarith [this.1, this.2]
      have := (Near.exact b).fl (by norm_num)
      exact this.mono (by norm_num) b
    have w := near_pow4 half (by norm_num) (by norm_num) le_rfl
    exact fin _ _ _ _ (near_div w (c := 24) (by norm_num) (by norm_num) (by norm_num) (by norm_num)) (by norm_num)
  · have t1 := (c19.sub m11).fl (by norm_num)
    have t2 := (t1.add q2).fl (by norm_num)
    have t3 := (t2.add q3).fl (by norm_num)
    have t4 := (t3.sub q4).fl (by norm_num)
    exact fin _ _ _ _ t4 (by norm_num)
  · have t1 := (c115.sub s58).fl (by norm_num)
    have t2 := (t1.add r4).fl (by norm_num)
    have e : weight4 x 0 = 115 / 192 - 5 / 8 * x * x + x ^ 4 / 4 := by simp [weight4]; ring
    rw [e]
    exact fin _ _ _ _ t2 (by norm_num)
  · have t1 := (c19.add m11).fl (by norm_num)
    have t2 := (t1.add q2).fl (by norm_num)
    have t3 := (t2.sub q3).fl (by norm_num)
    have t4 := (t3.sub q4).fl (by norm_num)
    exact fin _ _ _ _ t4 (by norm_num)
  · have half : Near (fl (1 / 2 + x)) (1 / 2 + x) (1 + 1 / 1000) 1 := by
      have b : |1 / 2 + x| ≤ 1 := by have := abs_le.mp hx; rw [abs_le]; constructor <;> linarith [this.1, this.2]
      have := (Near.exact b).fl (by norm_num)
      exact this.mono (by norm_num) b
    have w := near_pow4 half (by norm_num) (by norm_num) le_rfl
    exact fin _ _ _ _ (near_div w (c := 24) (by norm_num) (by norm_num) (by norm_num) (by norm_num)) (by norm_num)

/-! ### One layer -/

/-- One particle of a 3D beam, as far as the deposit looks at it (floats). -/
structure PF3 where
  x : ℚ
  y : ℚ
  xi : ℚ
  q : ℚ

/-- `x / grid_step_size + 0.5`, beam3d/weights.py:158. -/
def halfCellF (h x : ℚ) : ℚ := fl (fl (x / h) + 1 / 2)

/-- `x_h - floor(x_h) - .5`, beam3d/weights.py:50-51. -/
def localF (xh : ℚ) : ℚ := fl (fl (xh - ⌊xh⌋) - 1 / 2)

/-- `xi_loc`, beam3d/weights.py:156-157. -/
def xiLocF (s : ℚ) (i : ℕ) (p : PF3) : ℚ := fl (fl (fl (-s * i) - p.xi) / s)

/-- What one particle adds, and where: beam3d/weights.py:49-66 (`weight1`, :9-14, inlined); `side` is 0 for `out_ro0`, 1 for `out_ro1`; `w` is the weight function (`weight4F` on a CPU, `weight4GF` on a GPU). -/
def incs3F (w : ℚ → ℤ → ℚ) (N : ℤ) (h s : ℚ) (i : ℕ) (side : ℕ) (p : PF3) : List ((ℤ × ℤ) × ℚ) :=
  let xh := halfCellF h p.x
  let yh := halfCellF h p.y
  let z := if side = 0 then xiLocF s i p else fl (1 - xiLocF s i p)
  places.flatMap fun kx => places.map fun ky =>
    ((⌊xh⌋ + N / 2 + kx, ⌊yh⌋ + N / 2 + ky), fl (p.q * fl (fl (w (localF xh) kx * w (localF yh) ky) * z)))

/-- deposit_beam_numba, beam3d/weights.py:40-66, in doubles: `out_ro0` and `out_ro1` are different arrays, so their additions can be listed separately. -/
def deposit3F (N : ℤ) (h s : ℚ) (i : ℕ) (ps : List PF3) (out0 out1 : ℤ × ℤ → ℚ) : (ℤ × ℤ → ℚ) × (ℤ × ℤ → ℚ) :=
  (addAtF out0 (ps.flatMap (incs3F weight4F N h s i 0)), addAtF out1 (ps.flatMap (incs3F weight4F N h s i 1)))

/-- deposit_beam_cupy, beam3d/weights.py:108-140, in doubles: the same additions, in some order. Contraction into fused operations by the compiler is left to `w`; in the other products it is not modelled. -/
def Deposited3F (w : ℚ → ℤ → ℚ) (N : ℤ) (h s : ℚ) (i : ℕ) (ps : List PF3) (out0 out1 : ℤ × ℤ → ℚ) (o : (ℤ × ℤ → ℚ) × (ℤ × ℤ → ℚ)) : Prop :=
  ∃ l0 l1, l0.Perm (ps.flatMap (incs3F w N h s i 0)) ∧ l1.Perm (ps.flatMap (incs3F w N h s i 1)) ∧ o = (addAtF out0 l0, addAtF out1 l1)

theorem local_bound (xh : ℚ) : |localF xh| ≤ 1 / 2 := by
  have h0 := Int.floor_le xh
  have h1 := Int.lt_floor_add_one xh
  have a : 0 ≤ fl (xh - ⌊xh⌋) := fl_nonneg (by linarith)
  have b : fl (xh - ⌊xh⌋) ≤ 1 := by
    have := fl_mono (show xh - ⌊xh⌋ ≤ 1 by linarith)
    have e1 : fl 1 = 1 := fl_exact ⟨1, 0, by norm_num, by norm_num⟩
    rwa [e1] at this
  have e : fl (1 / 2) = 1 / 2 := fl_exact ⟨1, -1, by norm_num, by norm_num⟩
  unfold localF
  rw [abs_le]
  constructor
  · have := fl_mono (show -(1 / 2) ≤ fl (xh - ⌊xh⌋) - 1 / 2 by linarith)
    rwa [fl_neg, e] at this
  · have := fl_mono (show fl (xh - ⌊xh⌋) - 1 / 2 ≤ 1 / 2 by linarith)
    rwa [e] at this

theorem weight4_nonneg {x : ℚ} (hx : |x| ≤ 1 / 2) {k : ℤ} (hk : k ∈ places) : 0 ≤ weight4 x k ∧ weight4 x k ≤ 1 := by
  obtain ⟨h1, h2⟩ := abs_le.mp hx
  have hxx : x ^ 2 ≤ 1 / 4 := by nlinarith
  have hx0 : 0 ≤ x ^ 2 := sq_nonneg x
  have h4 : x ^ 4 = x ^ 2 * x ^ 2 := by ring
  have h3 : x ^ 3 = x * x ^ 2 := by ring
  have hq : x ^ 2 * x ^ 2 ≤ 1 / 16 := by nlinarith
  have hq0 : 0 ≤ x ^ 2 * x ^ 2 := by positivity
  have hc : -(1 / 8) ≤ x * x ^ 2 ∧ x * x ^ 2 ≤ 1 / 8 := by
    constructor <;> nlinarith
  have edge : ∀ y : ℚ, 0 ≤ y → y ≤ 1 → 0 ≤ y ^ 4 / 24 ∧ y ^ 4 / 24 ≤ 1 := by
    intro y h0 h1
    have : y ^ 4 ≤ 1 := pow_le_one₀ h0 h1
    exact ⟨by positivity, by linarith⟩
  simp only [places, List.mem_cons, List.not_mem_nil, or_false] at hk
  rcases hk with rfl | rfl | rfl | rfl | rfl <;> unfold weight4
  · exact edge _ (by linarith) (by linarith)
  · norm_num; rw [h4, h3]; constructor <;> nlinarith
  · norm_num; rw [h4]; constructor <;> nlinarith
  · norm_num; rw [h4, h3]; constructor <;> nlinarith
  · exact edge _ (by linarith) (by linarith)

/-- The exact weights of the five places add up to one for every local coordinate, so how that coordinate was rounded does not matter for the charge. -/
theorem weight4_total (x : ℚ) : (places.map (weight4 x)).sum = 1 := by
  simp [places, weight4]
  ring

theorem product_close {w : ℚ → ℤ → ℚ} (hw : GoodWeights w) {x y : ℚ} (hx : |x| ≤ 1 / 2) (hy : |y| ≤ 1 / 2) {kx ky : ℤ} (h1 : kx ∈ places) (h2 : ky ∈ places) (q z Z c : ℚ) (hz : |z - Z| ≤ c * u * |Z|) (hc0 : 0 ≤ c) (hc : c ≤ 1) :
    |fl (q * fl (fl (w x kx * w y ky) * z)) - q * (weight4 x kx * weight4 y ky * Z)| ≤ 18 * u * (|q| * |Z|) := by
  have hu := u_pos
  have wx := hw x hx kx h1
  have wy := hw y hy ky h2
  have nx := weight4_nonneg hx h1
  have ny := weight4_nonneg hy h2
  have A : Near (w x kx) (weight4 x kx) 6 1 := ⟨wx, by rw [abs_of_nonneg nx.1]; exact nx.2⟩
  have B : Near (w y ky) (weight4 y ky) 6 1 := ⟨wy, by rw [abs_of_nonneg ny.1]; exact ny.2⟩
  have P := (A.mul B (by norm_num) (by norm_num)).fl (by norm_num)
  have P' : Near (fl (w x kx * w y ky)) (weight4 x kx * weight4 y ky) (14 - 8 / 10) 1 := P.mono (by norm_num) (by simpa using P.size)
  obtain ⟨pe, ps⟩ := P'
  generalize fl (w x kx * w y ky) = v at pe
  generalize weight4 x kx * weight4 y ky = W at pe ps ⊢
  clear wx wy A B P nx ny
  have hub : u ≤ 1 / 10000 := by unfold u; norm_num
  have huu : u * u ≤ 1 / 10000 * u := mul_le_mul_of_nonneg_right hub hu.le
  have hZ := abs_nonneg Z
  have hq := abs_nonneg q
  have zb : |z| ≤ (1 + u) * |Z| := by
    have := abs_add_le (z - Z) Z
    rw [sub_add_cancel] at this
    have h3 : c * u * |Z| ≤ 1 * u * |Z| := mul_le_mul_of_nonneg_right (mul_le_mul_of_nonneg_right hc hu.le) hZ
    linarith
  have e1 : |v * z - W * Z| ≤ (142 / 10) * u * |Z| + 14 * u * u * |Z| := by
    rw [show v * z - W * Z = (v - W) * z + W * (z - Z) by ring]
    refine (abs_add_le _ _).trans ?_
    rw [abs_mul, abs_mul]
    have m1 : |v - W| * |z| ≤ ((14 - 8 / 10) * u) * ((1 + u) * |Z|) := mul_le_mul pe zb (abs_nonneg _) (by positivity)
    have m2 : |W| * |z - Z| ≤ 1 * (c * u * |Z|) := mul_le_mul ps hz (abs_nonneg _) zero_le_one
    have m3 : c * u * |Z| ≤ 1 * u * |Z| := mul_le_mul_of_nonneg_right (mul_le_mul_of_nonneg_right hc hu.le) hZ
    have m4 : 0 ≤ u * u * |Z| := by positivity
    linarith
  have e1' : |v * z - W * Z| ≤ (143 / 10) * u * |Z| := by
    have : 14 * u * u * |Z| ≤ (1 / 10) * u * |Z| := by
      have := mul_le_mul_of_nonneg_right huu hZ
      nlinarith [mul_nonneg hu.le hZ]
    linarith
  have WZ : |W * Z| ≤ |Z| := by rw [abs_mul]; exact mul_le_of_le_one_left hZ ps
  have wz : |v * z| ≤ (1 + 1 / 100) * |Z| := by
    have := abs_add_le (v * z - W * Z) (W * Z)
    rw [sub_add_cancel] at this
    have : (143 / 10) * u * |Z| ≤ 1 / 100 * |Z| := mul_le_mul_of_nonneg_right (by linarith) hZ
    linarith
  have e2 : |fl (v * z) - W * Z| ≤ (154 / 10) * u * |Z| := by
    have k1 := fl_abs_err (v * z)
    have k2 := abs_sub_le (fl (v * z)) (v * z) (W * Z)
    have k3 := mul_le_mul_of_nonneg_left wz hu.le
    have k4 : 0 ≤ u * |Z| := mul_nonneg hu.le hZ
    linarith
  generalize fl (v * z) = f at e2 ⊢
  have fb : |f| ≤ (1 + 1 / 100) * |Z| := by
    have := abs_add_le (f - W * Z) (W * Z)
    rw [sub_add_cancel] at this
    have : (154 / 10) * u * |Z| ≤ 1 / 100 * |Z| := mul_le_mul_of_nonneg_right (by linarith) hZ
    linarith
  have k1 := fl_abs_err (q * f)
  have k2 := abs_sub_le (fl (q * f)) (q * f) (q * (W * Z))
  rw [← mul_sub, abs_mul q] at k2
  rw [abs_mul] at k1
  have k3 := mul_le_mul_of_nonneg_left e2 hq
  have k4 := mul_le_mul_of_nonneg_left (mul_le_mul_of_nonneg_left fb hq) hu.le
  have k5 : 0 ≤ u * (|q| * |Z|) := mul_nonneg hu.le (mul_nonneg hq hZ)
  linarith

theorem flat_sum (f : ℤ → ℤ → ℚ) (g : ℤ → ℤ → ℤ × ℤ) : ((places.flatMap fun kx => places.map fun ky => (g kx ky, f kx ky)).map Prod.snd) = places.flatMap fun kx => places.map fun ky => f kx ky := by
  simp [List.map_flatMap, List.map_map, Function.comp_def]

theorem flat_close (f g : ℤ → ℤ → ℚ) (B : ℚ) (h : ∀ kx ∈ places, ∀ ky ∈ places, |f kx ky - g kx ky| ≤ B) :
    |(places.flatMap fun kx => places.map fun ky => f kx ky).sum - (places.flatMap fun kx => places.map fun ky => g kx ky).sum| ≤ 25 * B ∧
    absSum (places.flatMap fun kx => places.map fun ky => f kx ky) ≤ absSum (places.flatMap fun kx => places.map fun ky => g kx ky) + 25 * B := by
  have gen : ∀ l : List (ℤ × ℤ), (∀ t ∈ l, t.1 ∈ places ∧ t.2 ∈ places) → |(l.map fun t => f t.1 t.2).sum - (l.map fun t => g t.1 t.2).sum| ≤ l.length * B ∧ absSum (l.map fun t => f t.1 t.2) ≤ absSum (l.map fun t => g t.1 t.2) + l.length * B := by
    intro l
    induction l with
    | nil => intro _; simp [absSum]
    | cons t l ih =>
      intro ht
      obtain ⟨i1, i2⟩ := ih (fun t' ht' => ht t' (List.mem_cons_of_mem _ ht'))
      obtain ⟨m1, m2⟩ := ht t List.mem_cons_self
      have hb := h _ m1 _ m2
      simp only [absSum, List.map_cons, List.sum_cons, List.length_cons] at i1 i2 ⊢
      push_cast
      constructor
      · generalize (l.map fun t => f t.1 t.2).sum = F at *
        generalize (l.map fun t => g t.1 t.2).sum = G at *
        rw [show f t.1 t.2 + F - (g t.1 t.2 + G) = (f t.1 t.2 - g t.1 t.2) + (F - G) by ring]
        refine (abs_add_le _ _).trans ?_
        linarith
      · have := abs_add_le (f t.1 t.2 - g t.1 t.2) (g t.1 t.2)
        rw [sub_add_cancel] at this
        linarith
  have := gen (places.flatMap fun kx => places.map fun ky => (kx, ky)) (by decide)
  have e : ∀ f : ℤ → ℤ → ℚ, (places.flatMap fun kx => places.map fun ky => (kx, ky)).map (fun t => f t.1 t.2) = places.flatMap fun kx => places.map fun ky => f kx ky := by
    intro f; simp [List.map_flatMap, List.map_map, Function.comp_def]
  have el : ((places.flatMap fun kx => places.map fun ky => (kx, ky)).length : ℚ) = 25 := by
    have : (places.flatMap fun kx => places.map fun ky => (kx, ky)).length = 25 := by decide
    exact_mod_cast this
  rw [e, e, el] at this
  exact this

/-- All additions for one particle against its charge times the longitudinal share `Z`. -/
theorem particle_close {w : ℚ → ℤ → ℚ} (hw : GoodWeights w) (N : ℤ) (h s : ℚ) (i : ℕ) (p : PF3) (side : ℕ) :
    |((incs3F w N h s i side p).map Prod.snd).sum - p.q * (if side = 0 then xiLocF s i p else 1 - xiLocF s i p)| ≤ 450 * u * (|p.q| * |if side = 0 then xiLocF s i p else 1 - xiLocF s i p|) ∧
    absSum ((incs3F w N h s i side p).map Prod.snd) ≤ (1 + 450 * u) * (|p.q| * |if side = 0 then xiLocF s i p else 1 - xiLocF s i p|) := by
  have hz : |(if side = 0 then xiLocF s i p else fl (1 - xiLocF s i p)) - (if side = 0 then xiLocF s i p else 1 - xiLocF s i p)| ≤ 1 * u * |if side = 0 then xiLocF s i p else 1 - xiLocF s i p| := by
    by_cases hs : side = 0
    · simp only [hs, if_true, sub_self, abs_zero]
      exact mul_nonneg (by linarith [u_pos]) (abs_nonneg _)
    · simp only [hs, if_false, one_mul]
      exact fl_abs_err _
  unfold incs3F
  simp only [flat_sum]
  generalize (if side = 0 then xiLocF s i p else fl (1 - xiLocF s i p)) = z at *
  generalize (if side = 0 then xiLocF s i p else 1 - xiLocF s i p) = Z at *
  have hx := local_bound (halfCellF h p.x)
  have hy := local_bound (halfCellF h p.y)
  generalize localF (halfCellF h p.x) = x at *
  generalize localF (halfCellF h p.y) = y at *
  obtain ⟨c1, c2⟩ := flat_close (fun kx ky => fl (p.q * fl (fl (w x kx * w y ky) * z))) (fun kx ky => p.q * (weight4 x kx * weight4 y ky * Z)) (18 * u * (|p.q| * |Z|))
    (fun kx h1 ky h2 => product_close hw hx hy h1 h2 p.q z Z 1 hz zero_le_one le_rfl)
  have tx := weight4_total x
  have ty := weight4_total y
  have e1 : (places.flatMap fun kx => places.map fun ky => p.q * (weight4 x kx * weight4 y ky * Z)).sum = p.q * Z := by
    have : (places.flatMap fun kx => places.map fun ky => p.q * (weight4 x kx * weight4 y ky * Z)).sum = p.q * Z * ((places.map (weight4 x)).sum * (places.map (weight4 y)).sum) := by
      simp only [places, List.flatMap_cons, List.flatMap_nil, List.map_cons, List.map_nil, List.sum_append, List.sum_cons, List.sum_nil, List.cons_append, List.nil_append]
      ring
    rw [this, tx, ty]; ring
  have e2 : absSum (places.flatMap fun kx => places.map fun ky => p.q * (weight4 x kx * weight4 y ky * Z)) = |p.q| * |Z| := by
    have a : ∀ kx ∈ places, ∀ ky ∈ places, |p.q * (weight4 x kx * weight4 y ky * Z)| = |p.q| * |Z| * (weight4 x kx * weight4 y ky) := by
      intro kx h1 ky h2
      rw [abs_mul, abs_mul, abs_mul, abs_of_nonneg (weight4_nonneg hx h1).1, abs_of_nonneg (weight4_nonneg hy h2).1]; ring
    have : absSum (places.flatMap fun kx => places.map fun ky => p.q * (weight4 x kx * weight4 y ky * Z)) = |p.q| * |Z| * ((places.map (weight4 x)).sum * (places.map (weight4 y)).sum) := by
      unfold absSum
      rw [List.map_flatMap]
      simp only [List.map_map, Function.comp_def]
      rw [List.flatMap_congr (g := fun kx => places.map fun ky => |p.q| * |Z| * (weight4 x kx * weight4 y ky)) (fun kx h1 => List.map_congr_left fun ky h2 => a kx h1 ky h2)]
      simp only [places, List.flatMap_cons, List.flatMap_nil, List.map_cons, List.map_nil, List.sum_append, List.sum_cons, List.sum_nil, List.cons_append, List.nil_append]
      ring
    rw [this, tx, ty]; ring
  beta_reduce at c1 c2
  rw [e1] at c1
  rw [e2] at c2
  exact ⟨by linarith, by linarith⟩

/-- Specification: the particle belongs to layer `i` of the 3D code, give or take half a step. -/
def InSlab3 (s : ℚ) (i : ℕ) (p : PF3) : Prop := |p.xi + ((i : ℚ) + 1 / 2) * s| ≤ s

/-- The particles the 3D code assigns to layer `i` (C57) are such. -/
theorem inSlab3_of_layer {s : ℚ} (hs : 0 < s) {i : ℕ} (hi : i < 2 ^ 40) {p : PF3} (hf : IsFloat s) (h : Between (border3 s) i p.xi) : InSlab3 s i p := by
  have e : ∀ k, border3 s k = border s k := fun k => by unfold border3 border; rw [show -fl s * (k : ℚ) = (k : ℚ) * -fl s by ring]
  have h' : Between (border s) i p.xi := by
    unfold Between at h ⊢
    rw [← e, ← e]; exact h
  have k := inSlab_of_layer (p := ⟨0, p.xi, 0⟩) hs hi hf h'
  unfold InSlab at k
  unfold InSlab3
  exact k

theorem xiLoc_bound {s : ℚ} (hs : 0 < s) {i : ℕ} (hi : i < 2 ^ 40) {p : PF3} (hp : InSlab3 s i p) : |xiLocF s i p| + |1 - xiLocF s i p| ≤ 3 := by
  have hi' : (i : ℚ) + 1 ≤ 2 ^ 40 := by exact_mod_cast hi
  have hi0 : (0 : ℚ) ≤ i := Nat.cast_nonneg i
  have hu := u_pos
  have e1 := fl_abs_err (-s * i)
  have a1 : |-s * (i : ℚ)| = i * s := by rw [abs_of_nonpos (by nlinarith)]; ring
  rw [a1] at e1
  unfold xiLocF
  generalize fl (-s * i) = X at e1 ⊢
  have hb := abs_le.mp hp
  have hub : u * (i * s) ≤ 1 / 8 * s := by
    have : (i : ℚ) * s ≤ 2 ^ 40 * s := mul_le_mul_of_nonneg_right (by linarith) hs.le
    have := mul_le_mul_of_nonneg_left this hu.le
    have : u * (2 ^ 40 * s) ≤ 1 / 8 * s := by unfold u; linarith
    linarith
  have e1' := abs_le.mp e1
  have t : -(5 / 8) * s ≤ X - p.xi ∧ X - p.xi ≤ 13 / 8 * s := ⟨by linarith [hb.1, hb.2, e1'.1, e1'.2], by linarith [hb.1, hb.2, e1'.1, e1'.2]⟩
  have hR : Rel 2 (fl (fl (X - p.xi) / s)) ((X - p.xi) / s) := by
    have h1 : Rel 1 (fl (X - p.xi)) (X - p.xi) := (Rel.refl _).fl
    have h2 := (h1.mul (Rel.refl (1 / s))).fl
    rw [mul_one_div, mul_one_div] at h2
    exact h2
  have T : -(5 / 8) ≤ (X - p.xi) / s ∧ (X - p.xi) / s ≤ 13 / 8 := ⟨by rw [le_div_iff₀ hs]; exact t.1, by rw [div_le_iff₀ hs]; exact t.2⟩
  unfold Rel at hR
  generalize (X - p.xi) / s = D at *
  generalize fl (fl (X - p.xi) / s) = d at *
  have hD : |D| ≤ 13 / 8 := abs_le.mpr ⟨by linarith, by linarith⟩
  have g : gam 2 * |D| ≤ 1 / 8 := by
    have : gam 2 ≤ 1 / 100 := by unfold gam u; norm_num
    calc gam 2 * |D| ≤ 1 / 100 * (13 / 8) := mul_le_mul this hD (abs_nonneg _) (by norm_num)
      _ ≤ 1 / 8 := by norm_num
  have r := abs_le.mp (hR.trans g)
  have b : -1 ≤ d ∧ d ≤ 2 := ⟨by linarith [r.1], by linarith [r.2]⟩
  rcases abs_cases d with ⟨e, -⟩ | ⟨e, -⟩ <;> rcases abs_cases (1 - d) with ⟨e', -⟩ | ⟨e', -⟩ <;> rw [e, e'] <;> linarith

/-- Specification: the elements of the N x N grid. -/
noncomputable def gridNodes (N : ℤ) : Finset (ℤ × ℤ) := Finset.Ico 0 N ×ˢ Finset.Ico 0 N

/-- Specification: the cells touched by the particle exist (C61 says when). -/
def InGrid3 (N : ℤ) (h : ℚ) (p : PF3) : Prop := AllIn N (touched3 N h p.x) ∧ AllIn N (touched3 N h p.y)

theorem incs_in (w : ℚ → ℤ → ℚ) (N : ℤ) (h s : ℚ) (i side : ℕ) (p : PF3) (hp : InGrid3 N h p) : ∀ t ∈ incs3F w N h s i side p, t.1 ∈ gridNodes N := by
  intro t ht
  obtain ⟨hx, hy⟩ := hp
  rw [touched3_iff] at hx hy
  unfold incs3F at ht
  simp only [List.mem_flatMap, List.mem_map] at ht
  obtain ⟨kx, hkx, ky, hky, rfl⟩ := ht
  unfold cell3 at hx hy
  unfold halfCellF gridNodes
  simp only [places, List.mem_cons, List.not_mem_nil, or_false] at hkx hky
  simp only [Finset.mem_product, Finset.mem_Ico]
  omega

theorem incs_once (w : ℚ → ℤ → ℚ) (N : ℤ) (h s : ℚ) (i side : ℕ) (p : PF3) (k : ℤ × ℤ) : (atNode k (incs3F w N h s i side p)).length ≤ 1 := by
  have nd : ((incs3F w N h s i side p).map Prod.fst).Nodup := by
    unfold incs3F
    simp only [List.map_flatMap, List.map_map, Function.comp_def]
    generalize ⌊halfCellF h p.x⌋ + N / 2 = a
    generalize ⌊halfCellF h p.y⌋ + N / 2 = b
    have e : (places.flatMap fun kx => places.map fun ky => (a + kx, b + ky)) = (places.flatMap fun kx => places.map fun ky => (kx, ky)).map fun t => (a + t.1, b + t.2) := by
      simp [List.map_flatMap, List.map_map, Function.comp_def]
    rw [e]
    apply List.Nodup.map
    · rintro ⟨x, y⟩ ⟨x', y'⟩ hxy
      simp only [Prod.mk.injEq, add_right_inj] at hxy
      exact Prod.ext hxy.1 hxy.2
    · decide
  unfold atNode
  rw [List.length_map]
  generalize incs3F w N h s i side p = l at nd ⊢
  induction l with
  | nil => simp
  | cons t l ih =>
    rw [List.map_cons, List.nodup_cons] at nd
    rw [List.filter_cons]
    by_cases ht : t.1 = k
    · have : l.filter (fun iv => iv.1 = k) = [] := by
        rw [List.filter_eq_nil_iff]
        intro t' ht' hk
        simp only [decide_eq_true_eq] at hk
        exact nd.1 (List.mem_map.mpr ⟨t', ht', by rw [hk, ht]⟩)
      simp [ht, this]
    · simp only [ht, decide_false]
      exact ih nd.2

theorem once_each (w : ℚ → ℤ → ℚ) (N : ℤ) (h s : ℚ) (i side : ℕ) (ps : List PF3) (k : ℤ × ℤ) : (atNode k (ps.flatMap (incs3F w N h s i side))).length ≤ ps.length := by
  induction ps with
  | nil => simp [atNode]
  | cons p ps ih =>
    have h1 := incs_once w N h s i side p k
    rw [List.flatMap_cons, atNode_append, List.length_append, List.length_cons]
    omega

/-- Specification: total and total absolute charge. -/
def charge3 (ps : List PF3) : ℚ := (ps.map PF3.q).sum
def absCharge3 (ps : List PF3) : ℚ := (ps.map fun p => |p.q|).sum

theorem layer_parts {w : ℚ → ℤ → ℚ} (hw : GoodWeights w) (N : ℤ) (h s : ℚ) (hs : 0 < s) (i : ℕ) (hi : i < 2 ^ 40) (ps : List PF3) (hx : ∀ p ∈ ps, InSlab3 s i p) :
    |((ps.flatMap (incs3F w N h s i 0)).map Prod.snd).sum + ((ps.flatMap (incs3F w N h s i 1)).map Prod.snd).sum - charge3 ps| ≤ 1350 * u * absCharge3 ps ∧
    absSum ((ps.flatMap (incs3F w N h s i 0)).map Prod.snd) + absSum ((ps.flatMap (incs3F w N h s i 1)).map Prod.snd) ≤ 4 * absCharge3 ps := by
  induction ps with
  | nil => simp [charge3, absCharge3, absSum]
  | cons p ps ih =>
    obtain ⟨i1, i2⟩ := ih (fun q hq => hx q (List.mem_cons_of_mem _ hq))
    have hb := xiLoc_bound hs hi (hx p List.mem_cons_self)
    obtain ⟨a1, a2⟩ := particle_close hw N h s i p 0
    obtain ⟨b1, b2⟩ := particle_close hw N h s i p 1
    simp only [one_ne_zero, if_true, if_false] at a1 a2 b1 b2
    simp only [absSum, charge3, absCharge3, List.flatMap_cons, List.map_append, List.sum_append, List.map_cons, List.sum_cons] at *
    generalize ((incs3F w N h s i 0 p).map Prod.snd).sum = A at *
    generalize ((incs3F w N h s i 1 p).map Prod.snd).sum = B at *
    generalize (((incs3F w N h s i 0 p).map Prod.snd).map fun x => |x|).sum = A' at *
    generalize (((incs3F w N h s i 1 p).map Prod.snd).map fun x => |x|).sum = B' at *
    generalize ((ps.flatMap (incs3F w N h s i 0)).map Prod.snd).sum = S at *
    generalize ((ps.flatMap (incs3F w N h s i 1)).map Prod.snd).sum = T at *
    generalize xiLocF s i p = z at *
    have hu := u_pos
    have hq := abs_nonneg p.q
    have m := mul_le_mul_of_nonneg_left hb hq
    have hu2 : 450 * u ≤ 1 / 3 := by unfold u; norm_num
    constructor
    · rw [show A + S + (B + T) - (p.q + (ps.map PF3.q).sum) = (A - p.q * z) + (B - p.q * (1 - z)) + (S + T - (ps.map PF3.q).sum) by ring]
      refine (abs_add_three _ _ _).trans ?_
      have := mul_le_mul_of_nonneg_left m (by linarith : 0 ≤ 450 * u)
      linarith [(by ring : 450 * u * (|p.q| * (|z| + |1 - z|)) = 450 * u * (|p.q| * |z|) + 450 * u * (|p.q| * |1 - z|))]
    · have := mul_le_mul_of_nonneg_left m (by linarith : 0 ≤ 1 + 450 * u)
      have h3 : (1 + 450 * u) * (|p.q| * 3) ≤ 4 / 3 * (|p.q| * 3) := mul_le_mul_of_nonneg_right (by linarith) (by linarith)
      linarith [(by ring : (1 + 450 * u) * (|p.q| * (|z| + |1 - z|)) = (1 + 450 * u) * (|p.q| * |z|) + (1 + 450 * u) * (|p.q| * |1 - z|))]

/-- C70, 3D: the charge deposited in doubles by a layer of `n` particles, for any order of the additions (CPU or GPU). -/
theorem charge3_any_order {w : ℚ → ℤ → ℚ} (hw : GoodWeights w) (N : ℤ) (h s : ℚ) (hs : 0 < s) (i : ℕ) (hi : i < 2 ^ 40) (ps : List PF3) (out0 : ℤ × ℤ → ℚ) (hg : ∀ p ∈ ps, InGrid3 N h p) (hx : ∀ p ∈ ps, InSlab3 s i p)
    (o : (ℤ × ℤ → ℚ) × (ℤ × ℤ → ℚ)) (ho : Deposited3F w N h s i ps out0 (fun _ => 0) o) :
    |∑ k ∈ gridNodes N, o.1 k + ∑ k ∈ gridNodes N, o.2 k - (∑ k ∈ gridNodes N, out0 k + charge3 ps)| ≤
      gam ps.length * (∑ k ∈ gridNodes N, |out0 k| + 4 * absCharge3 ps) + 1350 * u * absCharge3 ps := by
  obtain ⟨l0, l1, p0, p1, rfl⟩ := ho
  have mem : ∀ side (l : List ((ℤ × ℤ) × ℚ)), l.Perm (ps.flatMap (incs3F w N h s i side)) → ∀ t ∈ l, t.1 ∈ gridNodes N := by
    intro side l hl t ht
    obtain ⟨p, hp, hpt⟩ := List.mem_flatMap.mp (hl.mem_iff.mp ht)
    exact incs_in w N h s i side p (hg p hp) t hpt
  have cnt : ∀ side (l : List ((ℤ × ℤ) × ℚ)), l.Perm (ps.flatMap (incs3F w N h s i side)) → ∀ k ∈ gridNodes N, (atNode k l).length ≤ ps.length := by
    intro side l hl k _
    have : (atNode k l).Perm (atNode k (ps.flatMap (incs3F w N h s i side))) := (hl.filter _).map _
    rw [this.length_eq]
    exact once_each w N h s i side ps k
  have d0 := deposit_total (gridNodes N) out0 l0 ps.length (mem 0 l0 p0) (cnt 0 l0 p0)
  have d1 := deposit_total (gridNodes N) (fun _ => 0) l1 ps.length (mem 1 l1 p1) (cnt 1 l1 p1)
  obtain ⟨e1, e2⟩ := layer_parts hw N h s hs i hi ps hx
  rw [(p0.map Prod.snd).sum_eq] at d0
  rw [(p1.map Prod.snd).sum_eq] at d1
  have s0 : absSum (l0.map Prod.snd) = absSum ((ps.flatMap (incs3F w N h s i 0)).map Prod.snd) := ((p0.map Prod.snd).map _).sum_eq
  have s1 : absSum (l1.map Prod.snd) = absSum ((ps.flatMap (incs3F w N h s i 1)).map Prod.snd) := ((p1.map Prod.snd).map _).sum_eq
  rw [s0] at d0
  rw [s1] at d1
  simp only [Finset.sum_const_zero, abs_zero, zero_add] at d1
  dsimp only
  generalize absSum ((ps.flatMap (incs3F w N h s i 0)).map Prod.snd) = A0 at *
  generalize absSum ((ps.flatMap (incs3F w N h s i 1)).map Prod.snd) = A1 at *
  generalize ((ps.flatMap (incs3F w N h s i 0)).map Prod.snd).sum = S0 at *
  generalize ((ps.flatMap (incs3F w N h s i 1)).map Prod.snd).sum = S1 at *
  generalize ∑ k ∈ gridNodes N, addAtF out0 l0 k = X at *
  generalize ∑ k ∈ gridNodes N, addAtF (fun _ => 0) l1 k = Y at *
  generalize ∑ k ∈ gridNodes N, out0 k = Z at *
  rw [show X + Y - (Z + charge3 ps) = (X - (Z + S0)) + (Y - S1) + (S0 + S1 - charge3 ps) by ring]
  refine (abs_add_three _ _ _).trans ?_
  have := mul_le_mul_of_nonneg_left e2 (gam_nonneg ps.length)
  linarith

/-- C70, 3D, the CPU's order. -/
theorem charge3_doubles (N : ℤ) (h s : ℚ) (hs : 0 < s) (i : ℕ) (hi : i < 2 ^ 40) (ps : List PF3) (out0 : ℤ × ℤ → ℚ) (hg : ∀ p ∈ ps, InGrid3 N h p) (hx : ∀ p ∈ ps, InSlab3 s i p) :
    |∑ k ∈ gridNodes N, (deposit3F N h s i ps out0 (fun _ => 0)).1 k + ∑ k ∈ gridNodes N, (deposit3F N h s i ps out0 (fun _ => 0)).2 k - (∑ k ∈ gridNodes N, out0 k + charge3 ps)| ≤
      gam ps.length * (∑ k ∈ gridNodes N, |out0 k| + 4 * absCharge3 ps) + 1350 * u * absCharge3 ps :=
  charge3_any_order weight4_doubles N h s hs i hi ps out0 hg hx _ ⟨_, _, .refl _, .refl _, rfl⟩

/-- In plain numbers: a million particles per layer, eight digits, starting from an empty grid. -/
theorem charge3_plain {w : ℚ → ℤ → ℚ} (hw : GoodWeights w) (N : ℤ) (h s : ℚ) (hs : 0 < s) (i : ℕ) (hi : i < 2 ^ 40) (ps : List PF3) (hl : ps.length ≤ 10 ^ 6) (hg : ∀ p ∈ ps, InGrid3 N h p) (hx : ∀ p ∈ ps, InSlab3 s i p)
    (o : (ℤ × ℤ → ℚ) × (ℤ × ℤ → ℚ)) (ho : Deposited3F w N h s i ps (fun _ => 0) (fun _ => 0) o) :
    |∑ k ∈ gridNodes N, o.1 k + ∑ k ∈ gridNodes N, o.2 k - charge3 ps| ≤ absCharge3 ps / 10 ^ 8 := by
  have h1 := charge3_any_order hw N h s hs i hi ps (fun _ => 0) hg hx o ho
  simp only [Finset.sum_const_zero, abs_zero, zero_add] at h1
  have h2 : gam ps.length ≤ 1 / (5 * 10 ^ 8) := by
    refine (gam_mono hl).trans ((gam_le (by norm_num)).trans ?_)
    push_cast
    norm_num
  have hS : 0 ≤ absCharge3 ps := by
    apply List.sum_nonneg
    intro x hx
    obtain ⟨y, -, rfl⟩ := List.mem_map.mp hx
    exact abs_nonneg _
  have h3 := mul_le_mul_of_nonneg_right h2 (by linarith : 0 ≤ 4 * absCharge3 ps)
  have h4 : 1350 * u ≤ 1 / (5 * 10 ^ 8) := by unfold u; norm_num
  have h5 := mul_le_mul_of_nonneg_right h4 hS
  linarith

/-- A case of the hypotheses: two particles in layer 6, on a grid of 101 x 101 nodes, and the order of the additions reversed. -/
example : (∀ p ∈ ([⟨fl (3 / 10), fl (-1 / 7), fl (-65 / 1000), 1⟩, ⟨fl (1 / 7), 2, fl (-61 / 1000), -2⟩] : List PF3), InGrid3 101 (fl (1 / 20)) p ∧ InSlab3 (fl (1 / 100)) 6 p) ∧
    Deposited3F weight4F 101 (fl (1 / 20)) (fl (1 / 100)) 6 [⟨fl (3 / 10), fl (-1 / 7), fl (-65 / 1000), 1⟩, ⟨fl (1 / 7), 2, fl (-61 / 1000), -2⟩] (fun _ => 0) (fun _ => 0)
      (addAtF (fun _ => 0) (([⟨fl (3 / 10), fl (-1 / 7), fl (-65 / 1000), 1⟩, ⟨fl (1 / 7), 2, fl (-61 / 1000), -2⟩] : List PF3).flatMap (incs3F weight4F 101 (fl (1 / 20)) (fl (1 / 100)) 6 0)).reverse,
       addAtF (fun _ => 0) (([⟨fl (3 / 10), fl (-1 / 7), fl (-65 / 1000), 1⟩, ⟨fl (1 / 7), 2, fl (-61 / 1000), -2⟩] : List PF3).flatMap (incs3F weight4F 101 (fl (1 / 20)) (fl (1 / 100)) 6 1)).reverse) := by
  refine ⟨?_, _, _, List.reverse_perm _, List.reverse_perm _, rfl⟩
  unfold InGrid3 InSlab3 AllIn
  decide +kernel

end Lcode.Fp
