import Verif.Fp.BeamSum
import Verif.Plasma2D.Ode
import Mathlib.Algebra.Order.BigOperators.Group.Finset
import Mathlib.Data.Finset.Max

/-!
C71: the tridiagonal solver of lcode/plasma/ode.py in doubles. Every operation is rounded as numba compiles it (no fast math, no fused operations). Overflow and underflow are not modelled.
-/

namespace Lcode.Fp

open Lcode.Plasma2D

/-! ### Model -/

/-- The numbers `a`, `b`, `c`, `d` of row `i` in doubles, ode.py:46-49. `i ** 2` is an integer below 2^53. -/
def rowAF (i : ℕ) : ℚ := fl (1 + fl (1 / 2 / i))
def rowBF (pf : ℕ → ℚ) (h : ℚ) (i : ℕ) : ℚ := fl (fl (2 + fl (pf i * fl (h * h))) + fl (1 / (i : ℚ) ^ 2))
def rowCF (i : ℕ) : ℚ := fl (1 - fl (1 / 2 / i))
def rowDF (rhs : ℕ → ℚ) (h : ℚ) (i : ℕ) : ℚ := fl (fl (h * h) * rhs i)

/-- The divisor of row `i` given `alpha[i-1]`, ode.py:50. -/
def divisorF (b c alpha : ℚ) : ℚ := fl (b - fl (c * alpha))

/-- The forward sweep in doubles, ode.py:43-52: `(alpha[i], beta[i])`. -/
def sweepFwdF (rhs pf : ℕ → ℚ) (h : ℚ) : ℕ → ℚ × ℚ
  | 0 => (0, 0)
  | i + 1 =>
    let prev := sweepFwdF rhs pf h i
    let denom := fl (1 / divisorF (rowBF pf h (i + 1)) (rowCF (i + 1)) prev.1)
    (fl (rowAF (i + 1) * denom), fl (fl (fl (rowCF (i + 1) * prev.2) - rowDF rhs h (i + 1)) * denom))

/-- The back substitution in doubles, ode.py:53-58, after `k` turns: the value at index `nr - k`. -/
def sweepBackF (rhs pf : ℕ → ℚ) (h : ℚ) (bc : ℚ × ℚ) (nr : ℕ) : ℕ → ℚ
  | 0 => fl (fl (fl (bc.1 * (sweepFwdF rhs pf h (nr - 1)).2) - fl (h * rhs nr)) / divisorF bc.2 bc.1 (sweepFwdF rhs pf h (nr - 1)).1)
  | k + 1 =>
    let f := sweepFwdF rhs pf h (nr - (k + 1))
    fl (f.2 + fl (sweepBackF rhs pf h bc nr k * f.1))

/-- tridiagonal_solve in doubles, ode.py:41-59. -/
def tridiagonalSolveF (rhs pf : ℕ → ℚ) (h : ℚ) (bc : ℚ × ℚ) (nr i : ℕ) : ℚ := sweepBackF rhs pf h bc nr (nr - i)

/-- The boundary numbers of ode.py:65 in doubles (`nr - 1/2` is exact). -/
def neumannBcF (nr : ℕ) : ℚ × ℚ := (fl (-((nr : ℚ) - 1) / fl (nr - 1 / 2)), fl (-(nr : ℚ) / fl (nr - 1 / 2)))

/-- ode.py:63-66 in doubles. -/
def solveNeumannF (rhs pf : ℕ → ℚ) (h : ℚ) (nr : ℕ) : ℕ → ℚ := tridiagonalSolveF rhs pf h (neumannBcF nr) nr

/-- ode.py:70-72 in doubles. -/
def solveDirichletF (rhs pf : ℕ → ℚ) (h : ℚ) (nr : ℕ) : ℕ → ℚ := tridiagonalSolveF rhs pf h (0, -1) nr

/-! ### Rounding as a factor -/

theorem fl_delta (x : ℚ) : ∃ δ, |δ| ≤ u ∧ fl x = x * (1 + δ) := by
  by_cases hx : x = 0
  · exact ⟨0, by rw [abs_zero]; exact u_pos.le, by rw [hx, fl_zero, zero_mul]⟩
  · refine ⟨(fl x - x) / x, ?_, by field_simp; ring⟩
    rw [abs_div, div_le_iff₀ (abs_pos.mpr hx)]
    exact fl_abs_err x

theorem Rel.delta {δ : ℚ} (h : |δ| ≤ u) : Rel 1 (1 + δ) 1 := by
  unfold Rel gam
  simpa using h

theorem Rel.inv {δ w : ℚ} (h : |δ| ≤ u) (hw : w * (1 + δ) = 1) : Rel 2 w 1 := by
  unfold Rel gam
  have hu : u ≤ 1 / 4 := by unfold u; norm_num
  have h1 := _root_.abs_le.mp h
  have hw0 : 0 < w := by
    by_contra hn
    push Not at hn
    nlinarith [mul_nonneg (neg_nonneg.mpr hn) (by linarith : (0 : ℚ) ≤ 1 + δ)]
  have e : w - 1 = -(w * δ) := by linarith
  have hw2 : w ≤ 1 + u + u := by nlinarith
  rw [e, abs_neg, abs_mul, abs_of_pos hw0, abs_one, mul_one]
  have := mul_le_mul hw2 h (abs_nonneg _) (by linarith [u_pos])
  have h3 : w ≤ 2 + u := by linarith
  nlinarith [mul_le_mul h3 h (abs_nonneg δ) (by linarith [u_pos] : (0:ℚ) ≤ 2 + u)]

theorem Rel.one {n m : ℕ} {a b : ℚ} (h1 : Rel n a 1) (h2 : Rel m b 1) : Rel (n + m) (a * b) 1 := by
  have := Rel.mul h1 h2
  rwa [mul_one] at this

/-! ### One row: the computed numbers solve a nearby row -/

theorem row_identity {a b c d αp βp t α β den yp y ym d1 d2 d3 d4 d5 d6 d7 d8 d9 e8 e9 w : ℚ}
    (ht : t = (b - c * αp * (1 + d1)) * (1 + d2)) (ht0 : t ≠ 0) (hden : den = 1 / t * (1 + d3)) (hα : α = a * den * (1 + d4))
    (hβ : β = (c * βp * (1 + d5) - d) * (1 + d6) * den * (1 + d7)) (hy : y = (β + yp * α * (1 + d8)) * (1 + d9))
    (hym : ym = (βp + y * αp * (1 + e8)) * (1 + e9)) (hw : w * (1 + e9) = 1) :
    a * yp - b * y + c * ym - d = a * yp * (1 - (1 + d3) * (1 + d4) * (1 + d8) * (1 + d9)) + b * y * d2 +
      c * ym * (1 - (1 + d6) * (1 + d3) * (1 + d7) * (1 + d9) * (1 + d5) * w) - d * (1 - (1 + d6) * (1 + d3) * (1 + d7) * (1 + d9)) +
      c * αp * y * ((1 + e8) * ((1 + d5) * ((1 + d6) * (1 + d3) * (1 + d7) * (1 + d9))) - (1 + d1) * (1 + d2)) := by
  have h1 : den * t = 1 + d3 := by rw [hden]; field_simp
  have h2 : α * t = a * (1 + d3) * (1 + d4) := by rw [hα]; linear_combination a * (1 + d4) * h1
  have h3 : β * t = (c * βp * (1 + d5) - d) * (1 + d6) * (1 + d3) * (1 + d7) := by
    rw [hβ]; linear_combination (c * βp * (1 + d5) - d) * (1 + d6) * (1 + d7) * h1
  have h4 : y * t = ((c * βp * (1 + d5) - d) * (1 + d6) * (1 + d3) * (1 + d7) + yp * (a * (1 + d3) * (1 + d4)) * (1 + d8)) * (1 + d9) := by
    conv_lhs => rw [hy]
    linear_combination (1 + d9) * h3 + yp * (1 + d8) * (1 + d9) * h2
  have h5 : βp = ym * w - y * αp * (1 + e8) := by
    rw [hym]; linear_combination (-(βp + y * αp * (1 + e8))) * hw
  rw [ht, h5] at h4
  linear_combination -h4

theorem five_terms {A1 A2 A3 A4 A5 B1 B2 B3 B4 g v k : ℚ} (x1 : |A1| ≤ g * |B1|) (x2 : |A2| ≤ v * |B2|) (x3 : |A3| ≤ g * |B3|) (x4 : |A4| ≤ g * |B4|) (x5 : |A5| ≤ k * |B2|) (gs : v + k ≤ g) :
    |A1 + A2 + A3 - A4 + A5| ≤ g * (|B1| + |B2| + |B3| + |B4|) := by
  have x6 := mul_le_mul_of_nonneg_right gs (abs_nonneg B2)
  have t1 := abs_add_le (A1 + A2 + A3 - A4) A5
  have t2 := abs_sub (A1 + A2 + A3) A4
  have t3 := abs_add_le (A1 + A2) A3
  have t4 := abs_add_le A1 A2
  linarith

theorem row_bound (g : ℕ) (κ : ℚ) (hg : 7 ≤ g) (gs : u + (gam 6 + gam 2) * κ ≤ gam g) {a b c d αp yp y ym d2 P Q R S T : ℚ} (hP : Rel 4 P 1) (hQ : Rel 4 Q 1) (hR : Rel 7 R 1) (hS : Rel 6 S 1) (hT : Rel 2 T 1) (k2 : |d2| ≤ u)
    (hp0 : 0 ≤ αp) (hp1 : αp ≤ 1) (hc : 0 ≤ c) (hb : 0 ≤ b) (hcb : c ≤ κ * b) :
    |a * yp * (1 - Q) + b * y * d2 + c * ym * (1 - R) - d * (1 - P) + c * αp * y * (S - T)| ≤ gam g * (|a * yp| + |b * y| + |c * ym| + |d|) := by
  unfold Rel at hP hQ hR hS hT
  simp only [abs_one, mul_one] at hP hQ hR hS hT
  rw [abs_sub_comm] at hP hQ hR
  have g4 : gam 4 ≤ gam g := gam_mono (by omega)
  have g7 : gam 7 ≤ gam g := gam_mono hg
  have x1 : |a * yp * (1 - Q)| ≤ gam g * |a * yp| := by
    rw [abs_mul, mul_comm]; exact mul_le_mul_of_nonneg_right (hQ.trans g4) (abs_nonneg _)
  have x2 : |b * y * d2| ≤ u * |b * y| := by rw [abs_mul, mul_comm]; exact mul_le_mul_of_nonneg_right k2 (abs_nonneg _)
  have x3 : |c * ym * (1 - R)| ≤ gam g * |c * ym| := by rw [abs_mul, mul_comm]; exact mul_le_mul_of_nonneg_right (hR.trans g7) (abs_nonneg _)
  have x4 : |d * (1 - P)| ≤ gam g * |d| := by rw [abs_mul, mul_comm]; exact mul_le_mul_of_nonneg_right (hP.trans g4) (abs_nonneg _)
  have x5 : |c * αp * y * (S - T)| ≤ (gam 6 + gam 2) * κ * |b * y| := by
    have s1 : |S - T| ≤ gam 6 + gam 2 := by
      have : S - T = (S - 1) - (T - 1) := by ring
      rw [this]
      exact (abs_sub _ _).trans (add_le_add hS hT)
    have s2 : |c * αp * y| ≤ κ * |b * y| := by
      rw [abs_mul, abs_mul b, abs_of_nonneg (mul_nonneg hc hp0), abs_of_nonneg hb]
      have : c * αp ≤ κ * b := (mul_le_of_le_one_right hc hp1).trans hcb
      have := mul_le_mul_of_nonneg_right this (abs_nonneg y)
      linarith
    rw [abs_mul]
    have := mul_le_mul s2 s1 (abs_nonneg _) ((abs_nonneg _).trans s2)
    linarith [(by ring : κ * |b * y| * (gam 6 + gam 2) = (gam 6 + gam 2) * κ * |b * y|)]
  exact five_terms x1 x2 x3 x4 x5 gs

theorem row_backward (g : ℕ) (κ : ℚ) (hg : 7 ≤ g) (gs : u + (gam 6 + gam 2) * κ ≤ gam g) {a b c d αp βp t α β den yp y ym d1 d2 d3 d4 d5 d6 d7 d8 d9 e8 e9 : ℚ}
    (ht : t = (b - c * αp * (1 + d1)) * (1 + d2)) (ht0 : t ≠ 0) (hden : den = 1 / t * (1 + d3)) (hα : α = a * den * (1 + d4))
    (hβ : β = (c * βp * (1 + d5) - d) * (1 + d6) * den * (1 + d7)) (hy : y = (β + yp * α * (1 + d8)) * (1 + d9))
    (hym : ym = (βp + y * αp * (1 + e8)) * (1 + e9))
    (k1 : |d1| ≤ u) (k2 : |d2| ≤ u) (k3 : |d3| ≤ u) (k4 : |d4| ≤ u) (k5 : |d5| ≤ u) (k6 : |d6| ≤ u) (k7 : |d7| ≤ u) (k8 : |d8| ≤ u) (k9 : |d9| ≤ u) (l8 : |e8| ≤ u) (l9 : |e9| ≤ u)
    (hp0 : 0 ≤ αp) (hp1 : αp ≤ 1) (hc : 0 ≤ c) (hb : 0 ≤ b) (hcb : c ≤ κ * b) :
    |a * yp - b * y + c * ym - d| ≤ gam g * (|a * yp| + |b * y| + |c * ym| + |d|) := by
  have hne : 1 + e9 ≠ 0 := by
    have h9 := _root_.abs_le.mp l9
    have hu : u ≤ 1 / 4 := by unfold u; norm_num
    intro e; linarith only [e, h9.1, hu]
  obtain ⟨w, hw⟩ : ∃ w, w * (1 + e9) = 1 := ⟨1 / (1 + e9), one_div_mul_cancel hne⟩
  have hid := row_identity ht ht0 hden hα hβ hy hym hw
  rw [hid]
  clear hid ht ht0 hden hα hβ hy hym
  have hP := (((Rel.delta k6).one (Rel.delta k3)).one (Rel.delta k7)).one (Rel.delta k9)
  have hQ := (((Rel.delta k3).one (Rel.delta k4)).one (Rel.delta k8)).one (Rel.delta k9)
  have hR := (hP.one (Rel.delta k5)).one (Rel.inv l9 hw)
  have hS := (Rel.delta l8).one ((Rel.delta k5).one hP)
  have hT := (Rel.delta k1).one (Rel.delta k2)
  exact row_bound g κ hg gs (hP.mono (by norm_num)) (hQ.mono (by norm_num)) (hR.mono (by norm_num)) (hS.mono (by norm_num)) (hT.mono (by norm_num)) k2 hp0 hp1 hc hb hcb

/-! ### The coefficients -/

theorem Rel.add {n : ℕ} {a b c d : ℚ} (h1 : Rel n a b) (h2 : Rel n c d) (hb : 0 ≤ b) (hd : 0 ≤ d) : Rel n (a + c) (b + d) := by
  unfold Rel at *
  rw [abs_of_nonneg hb] at h1
  rw [abs_of_nonneg hd] at h2
  rw [abs_of_nonneg (by linarith : 0 ≤ b + d), show a + c - (b + d) = (a - b) + (c - d) by ring]
  refine (abs_add_le _ _).trans ?_
  linarith

theorem half_over {i : ℕ} (h1 : 1 ≤ i) : (0 : ℚ) < 1 / 2 / i ∧ (1 : ℚ) / 2 / i ≤ 1 / 2 := by
  have hi : (1 : ℚ) ≤ i := by exact_mod_cast h1
  refine ⟨by positivity, ?_⟩
  rw [div_le_iff₀ (by linarith)]
  linarith

theorem fl_half_over {i : ℕ} (h1 : 1 ≤ i) : fl (1 / 2 / (i : ℚ)) ≤ 1 / 2 := by
  have f2 : fl (1 / 2) = 1 / 2 := fl_exact ⟨1, -1, by norm_num, by norm_num⟩
  have := fl_mono (half_over h1).2
  rwa [f2] at this

theorem rowA_err {i : ℕ} (h1 : 1 ≤ i) : Rel 2 (rowAF i) (rowA i) := by
  have hx := (half_over h1).1.le
  exact (((Rel.refl 1).mono (by norm_num : 0 ≤ 1)).add (Rel.refl _).fl zero_le_one hx).fl

theorem rowB_err {pf : ℕ → ℚ} (h : ℚ) {i : ℕ} (hp : 0 ≤ pf i) : Rel 4 (rowBF pf h i) (rowB pf h i) := by
  have e : rowB pf h i = 2 + pf i * (h * h) + 1 / (i : ℚ) ^ 2 := by unfold rowB; ring
  rw [e]
  have r1 : Rel 1 (fl (h * h)) (h * h) := (Rel.refl _).fl
  have r2 : Rel 2 (fl (pf i * fl (h * h))) (pf i * (h * h)) := ((Rel.refl (pf i)).mul r1).fl.mono (by norm_num)
  have hph : 0 ≤ pf i * (h * h) := mul_nonneg hp (mul_self_nonneg h)
  have r3 : Rel 3 (fl (2 + fl (pf i * fl (h * h)))) (2 + pf i * (h * h)) := (((Rel.refl 2).mono (by norm_num : 0 ≤ 2)).add r2 (by norm_num) hph).fl
  have r4 : Rel 1 (fl (1 / (i : ℚ) ^ 2)) (1 / (i : ℚ) ^ 2) := (Rel.refl _).fl
  exact (r3.add (r4.mono (by norm_num)) (by linarith) (by positivity)).fl

theorem rowC_err {i : ℕ} (h1 : 1 ≤ i) : Rel 2 (rowCF i) (rowC i) := by
  have hx := half_over h1
  have hb : Rel 1 (1 - fl (1 / 2 / i)) (rowC i) := by
    unfold Rel rowC
    have := fl_abs_err (1 / 2 / (i : ℚ))
    rw [abs_of_pos hx.1] at this
    rw [abs_of_nonneg (by linarith : (0 : ℚ) ≤ 1 - 1 / 2 / i), show 1 - fl (1 / 2 / (i : ℚ)) - (1 - 1 / 2 / i) = -(fl (1 / 2 / i) - 1 / 2 / i) by ring, abs_neg]
    refine this.trans ?_
    have eg : gam 1 = u := by unfold gam; ring
    rw [eg]
    exact mul_le_mul_of_nonneg_left (by linarith) u_pos.le
  exact hb.fl

theorem rowD_err (rhs : ℕ → ℚ) (h : ℚ) (i : ℕ) : Rel 2 (rowDF rhs h i) (h ^ 2 * rhs i) := by
  rw [pow_two]
  exact (((Rel.refl (h * h)).fl.mul (Rel.refl (rhs i))).fl).mono (by norm_num)

theorem rowC_range {i : ℕ} (h1 : 1 ≤ i) : 1 / 2 ≤ rowCF i ∧ rowCF i ≤ 1 := by
  have hx := half_over h1
  have f2 : fl (1 / 2) = 1 / 2 := fl_exact ⟨1, -1, by norm_num, by norm_num⟩
  have f1 : fl 1 = 1 := fl_exact ⟨1, 0, by norm_num, by norm_num⟩
  have y0 : 0 ≤ fl (1 / 2 / (i : ℚ)) := fl_nonneg hx.1.le
  have y1 := fl_half_over h1
  unfold rowCF
  constructor
  · conv_lhs => rw [← f2]
    exact fl_mono (by linarith)
  · conv_rhs => rw [← f1]
    exact fl_mono (by linarith)

theorem rowB_ge {pf : ℕ → ℚ} (h : ℚ) {i : ℕ} (hp : 0 ≤ pf i) : fl (2 + fl (1 / (i : ℚ) ^ 2)) ≤ rowBF pf h i := by
  have f2 : fl 2 = 2 := fl_exact ⟨2, 0, by norm_num, by norm_num⟩
  have hz : 0 ≤ fl (pf i * fl (h * h)) := fl_nonneg (mul_nonneg hp (fl_nonneg (mul_self_nonneg h)))
  apply fl_mono
  have : 2 ≤ fl (2 + fl (pf i * fl (h * h))) := by
    conv_lhs => rw [← f2]
    exact fl_mono (by linarith)
  linarith

theorem rowB_two {pf : ℕ → ℚ} (h : ℚ) {i : ℕ} (hp : 0 ≤ pf i) : 2 ≤ rowBF pf h i := by
  have f2 : fl 2 = 2 := fl_exact ⟨2, 0, by norm_num, by norm_num⟩
  refine le_trans ?_ (rowB_ge h hp)
  conv_lhs => rw [← f2]
  exact fl_mono (by linarith [fl_nonneg (x := 1 / (i : ℚ) ^ 2) (by positivity)])

theorem fl_one : fl 1 = 1 := fl_exact ⟨1, 0, by norm_num, by norm_num⟩

/-- The margin of diagonal dominance, `1/i²`, is larger than the rounding errors. -/
theorem margin {v x2 a c b t y z : ℚ} (hv0 : 0 < v) (hv1 : v ≤ 1) (hv : 32 * u ≤ v ^ 2)
    (hx2 : v ^ 2 * (1 - u) ≤ x2) (hb : (2 + x2) * (1 - u) ≤ b) (hy1 : y ≤ v / 2 * (1 + u)) (hz : v / 2 * (1 - u) ≤ z) (hz2 : z ≤ 1 / 2)
    (ha : a ≤ (1 + y) * (1 + u)) (hc : c ≤ (1 - z) * (1 + u)) (ht : (b - c) * (1 - u) ≤ t) : a * (1 + u) ≤ t := by
  have hu0 := u_pos
  have hu1 : u ≤ 1 / 1000 := by unfold u; norm_num
  have hvv : v ^ 2 ≤ 1 := by nlinarith
  have uv : u * v ≤ u := mul_le_of_le_one_right hu0.le hv1
  have uv0 : 0 ≤ u * v := by positivity
  have uu : u * u ≤ u * (1 / 1000) := mul_le_mul_of_nonneg_left hu1 hu0.le
  have uuv : u * u * v ≤ u * u := mul_le_of_le_one_right (by positivity) hv1
  have uvv : u * v ^ 2 ≤ u := mul_le_of_le_one_right hu0.le hvv
  have h1 : a ≤ 1 + v / 2 + 3 * u := by
    have := mul_le_mul_of_nonneg_right hy1 (by linarith : 0 ≤ 1 + u)
    linarith
  have h2 : a * (1 + u) ≤ 1 + v / 2 + 5 * u := by nlinarith
  have h3 : c ≤ 1 - v / 2 + 2 * u := by
    have := mul_le_mul_of_nonneg_right hz (by linarith : 0 ≤ 1 + u)
    nlinarith [mul_nonneg (mul_nonneg hu0.le hu0.le) hv0.le]
  have h4 : 2 + v ^ 2 - 4 * u ≤ b := by
    have := mul_le_mul_of_nonneg_right hx2 (by linarith : 0 ≤ 1 - u)
    nlinarith [mul_nonneg (mul_nonneg hu0.le hu0.le) (sq_nonneg v)]
  have h5 : 1 + v / 2 + v ^ 2 - 6 * u ≤ b - c := by linarith
  have h6 : 1 + v / 2 + v ^ 2 - 9 * u ≤ t := by nlinarith
  linarith

theorem fl_lo {x : ℚ} (hx : 0 ≤ x) : x * (1 - u) ≤ fl x := by
  have := (_root_.abs_le.mp (fl_abs_err x)).1
  rw [abs_of_nonneg hx] at this
  linarith

theorem fl_hi {x : ℚ} (hx : 0 ≤ x) : fl x ≤ x * (1 + u) := by
  have := (_root_.abs_le.mp (fl_abs_err x)).2
  rw [abs_of_nonneg hx] at this
  linarith

/-- The divisor of row `i` exceeds `a` by more than the rounding errors if `0 ≤ alpha[i-1] ≤ 1`. -/
theorem divisor_ge {pf : ℕ → ℚ} (h : ℚ) {i : ℕ} (h1 : 1 ≤ i) (h2 : i ≤ 2 ^ 24) (hp : 0 ≤ pf i) {al : ℚ} (h0 : 0 ≤ al) (hle : al ≤ 1) :
    rowAF i * (1 + u) ≤ divisorF (rowBF pf h i) (rowCF i) al := by
  have hi : (1 : ℚ) ≤ i := by exact_mod_cast h1
  have hi2 : (i : ℚ) ≤ 2 ^ 24 := by exact_mod_cast h2
  have hu1 : u ≤ 1 / 1000 := by unfold u; norm_num
  obtain ⟨x0, x1⟩ := half_over h1
  obtain ⟨c0, c1⟩ := rowC_range h1
  have f2 : fl (1 / 2) = 1 / 2 := fl_exact ⟨1, -1, by norm_num, by norm_num⟩
  have e1 : (1 : ℚ) / 2 / i = 1 / i / 2 := by ring
  have e2 : 1 / (i : ℚ) ^ 2 = (1 / i) ^ 2 := by ring
  have hb := rowB_ge h hp
  have hcle : fl (rowCF i * al) ≤ rowCF i := by
    have : IsFloat (rowCF i) := isFloat_fl _
    rw [← fl_exact this]
    rw [fl_exact this]
    conv_rhs => rw [← fl_exact this]
    exact fl_mono (by nlinarith)
  have hb2 := rowB_two h hp
  refine margin (v := 1 / i) (x2 := fl (1 / (i : ℚ) ^ 2)) (b := rowBF pf h i) (c := rowCF i) (y := fl (1 / 2 / i)) (z := fl (1 / 2 / i)) (by positivity) ?_ ?_ ?_ ?_ ?_ ?_ ?_ ?_ ?_ ?_
  · rw [div_le_one (by linarith)]; exact hi
  · rw [← e2, le_div_iff₀ (by positivity)]
    have : (i : ℚ) ^ 2 ≤ (2 ^ 24) ^ 2 := pow_le_pow_left₀ (by linarith) hi2 2
    have := mul_le_mul_of_nonneg_left this (by linarith [u_pos] : 0 ≤ 32 * u)
    refine this.trans ?_
    unfold u; norm_num
  · rw [← e2]; exact fl_lo (by positivity)
  · exact (fl_lo (by linarith [fl_nonneg (x := 1 / (i : ℚ) ^ 2) (by positivity)])).trans hb
  · rw [← e1]; exact fl_hi x0.le
  · rw [← e1]; exact fl_lo x0.le
  · exact fl_half_over h1
  · exact fl_hi (by linarith [fl_nonneg x0.le])
  · have := fl_half_over h1
    exact fl_hi (by linarith)
  · refine le_trans ?_ (fl_lo (by linarith))
    exact mul_le_mul_of_nonneg_right (by linarith) (by linarith)

/-- C71: in doubles, on every grid of at most 2^24 cells, the factors of the forward sweep stay between 0 and 1. -/
theorem alphaF_range (rhs pf : ℕ → ℚ) (h : ℚ) (i : ℕ) (hi : i ≤ 2 ^ 24) (hpf : ∀ j, 1 ≤ j → j ≤ i → 0 ≤ pf j) :
    0 ≤ (sweepFwdF rhs pf h i).1 ∧ (sweepFwdF rhs pf h i).1 ≤ 1 := by
  induction i with
  | zero => simp [sweepFwdF]
  | succ i ih =>
    obtain ⟨h0, h1⟩ := ih (by omega) (fun j a b => hpf j a (by omega))
    have hd := divisor_ge h (by omega : 1 ≤ i + 1) hi (hpf (i + 1) (by omega) le_rfl) h0 h1
    have ha : 1 ≤ rowAF (i + 1) := by
      unfold rowAF
      conv_lhs => rw [← fl_one]
      exact fl_mono (by linarith [fl_nonneg (half_over (by omega : 1 ≤ i + 1)).1.le])
    have e : (sweepFwdF rhs pf h (i + 1)).1 = fl (rowAF (i + 1) * fl (1 / divisorF (rowBF pf h (i + 1)) (rowCF (i + 1)) (sweepFwdF rhs pf h i).1)) := rfl
    rw [e]
    generalize divisorF (rowBF pf h (i + 1)) (rowCF (i + 1)) (sweepFwdF rhs pf h i).1 = t at *
    generalize rowAF (i + 1) = a at *
    have hu := u_pos
    have ht : 0 < t := by nlinarith
    have hden : fl (1 / t) ≤ 1 / t * (1 + u) := fl_hi (by positivity)
    have hden0 : 0 ≤ fl (1 / t) := fl_nonneg (by positivity)
    refine ⟨fl_nonneg (mul_nonneg (by linarith) hden0), ?_⟩
    conv_rhs => rw [← fl_one]
    apply fl_mono
    refine (mul_le_mul_of_nonneg_left hden (by linarith)).trans ?_
    rw [show a * (1 / t * (1 + u)) = a * (1 + u) / t by ring, div_le_one ht]
    exact hd

/-! ### The rows -/

theorem solveF_step (rhs pf : ℕ → ℚ) (h : ℚ) (bc : ℚ × ℚ) (nr i : ℕ) (hi : i < nr) :
    tridiagonalSolveF rhs pf h bc nr i = fl ((sweepFwdF rhs pf h i).2 + fl (tridiagonalSolveF rhs pf h bc nr (i + 1) * (sweepFwdF rhs pf h i).1)) := by
  unfold tridiagonalSolveF
  obtain ⟨k, hk⟩ : ∃ k, nr - i = k + 1 := ⟨nr - i - 1, by omega⟩
  rw [hk, show nr - (i + 1) = k by omega, sweepBackF, show nr - (k + 1) = i by omega]

/-- Replacing the coefficients by the exact ones. -/
theorem row_exact (g k : ℕ) {a b c d A B C D yp y ym : ℚ} (ha : Rel k a A) (hb : Rel k b B) (hc : Rel k c C) (hd : Rel k d D)
    (hr : |a * yp - b * y + c * ym - d| ≤ gam g * (|a * yp| + |b * y| + |c * ym| + |d|)) :
    |A * yp - B * y + C * ym - D| ≤ gam (g + k) * (|A * yp| + |B * y| + |C * ym| + |D|) := by
  have key : ∀ p P z : ℚ, Rel k p P → |p * z - P * z| ≤ gam k * |P * z| := by
    intro p P z hp
    rw [← sub_mul, abs_mul, abs_mul, ← mul_assoc]
    exact mul_le_mul_of_nonneg_right hp (abs_nonneg _)
  have t1 := key a A yp ha
  have t2 := key b B y hb
  have t3 := key c C ym hc
  have t4 : |d - D| ≤ gam k * |D| := hd
  generalize a * yp = a' at *
  generalize A * yp = A' at *
  generalize b * y = b' at *
  generalize B * y = B' at *
  generalize c * ym = c' at *
  generalize C * ym = C' at *
  have key2 : ∀ x X : ℚ, |x - X| ≤ gam k * |X| → |x| ≤ |X| + gam k * |X| := by
    intro x X hx
    have := abs_add_le (x - X) X
    rw [sub_add_cancel] at this
    linarith
  have s1 := key2 _ _ t1
  have s2 := key2 _ _ t2
  have s3 := key2 _ _ t3
  have s4 := key2 _ _ t4
  have hg := mul_le_mul_of_nonneg_left (add_le_add (add_le_add (add_le_add s1 s2) s3) s4) (gam_nonneg g)
  have eg := gam_add g k
  have eg2 : gam (g + k) = gam g + gam k + gam g * gam k := by linarith
  rw [eg2]
  have e : A' - B' + C' - D = (a' - b' + c' - d) - (a' - A') + (b' - B') - (c' - C') + (d - D) := by ring
  rw [e]
  have u1 := abs_add_le (a' - b' + c' - d - (a' - A') + (b' - B') - (c' - C')) (d - D)
  have u2 := abs_sub (a' - b' + c' - d - (a' - A') + (b' - B')) (c' - C')
  have u3 := abs_add_le (a' - b' + c' - d - (a' - A')) (b' - B')
  have u4 := abs_sub (a' - b' + c' - d) (a' - A')
  linarith

theorem rows_rowform (rhs pf : ℕ → ℚ) (h : ℚ) (bc : ℚ × ℚ) (nr : ℕ) (hn : nr ≤ 2 ^ 24) (hpf : ∀ j, 1 ≤ j → j < nr → 0 ≤ pf j) (i : ℕ) (h1 : 1 ≤ i) (hi : i < nr) :
    |rowA i * tridiagonalSolveF rhs pf h bc nr (i + 1) - rowB pf h i * tridiagonalSolveF rhs pf h bc nr i + rowC i * tridiagonalSolveF rhs pf h bc nr (i - 1) - h ^ 2 * rhs i| ≤
      gam 11 * (|rowA i * tridiagonalSolveF rhs pf h bc nr (i + 1)| + |rowB pf h i * tridiagonalSolveF rhs pf h bc nr i| + |rowC i * tridiagonalSolveF rhs pf h bc nr (i - 1)| + |h ^ 2 * rhs i|) := by
  have hp := hpf i h1 hi
  refine row_exact 7 4 ((rowA_err h1).mono (by norm_num)) (rowB_err h hp) ((rowC_err h1).mono (by norm_num)) ((rowD_err rhs h i).mono (by norm_num)) ?_
  obtain ⟨k, rfl⟩ : ∃ k, i = k + 1 := ⟨i - 1, by omega⟩
  have e1 := solveF_step rhs pf h bc nr (k + 1) hi
  have e0 := solveF_step rhs pf h bc nr k (by omega)
  obtain ⟨a0, a1⟩ := alphaF_range rhs pf h k (by omega) (fun j a b => hpf j a (by omega))
  have hd := divisor_ge h h1 (by omega : k + 1 ≤ 2 ^ 24) hp a0 a1
  have ha : 0 < rowAF (k + 1) := fl_pos (by linarith [fl_nonneg (half_over h1).1.le])
  obtain ⟨c0, c1⟩ := rowC_range h1
  have b2 := rowB_two h hp
  have ea : (sweepFwdF rhs pf h (k + 1)).1 = fl (rowAF (k + 1) * fl (1 / divisorF (rowBF pf h (k + 1)) (rowCF (k + 1)) (sweepFwdF rhs pf h k).1)) := rfl
  have eb : (sweepFwdF rhs pf h (k + 1)).2 = fl (fl (fl (rowCF (k + 1) * (sweepFwdF rhs pf h k).2) - rowDF rhs h (k + 1)) * fl (1 / divisorF (rowBF pf h (k + 1)) (rowCF (k + 1)) (sweepFwdF rhs pf h k).1)) := rfl
  have et : divisorF (rowBF pf h (k + 1)) (rowCF (k + 1)) (sweepFwdF rhs pf h k).1 = fl (rowBF pf h (k + 1) - fl (rowCF (k + 1) * (sweepFwdF rhs pf h k).1)) := rfl
  simp only [Nat.add_sub_cancel]
  generalize divisorF (rowBF pf h (k + 1)) (rowCF (k + 1)) (sweepFwdF rhs pf h k).1 = t at *
  generalize (sweepFwdF rhs pf h (k + 1)).1 = α at *
  generalize (sweepFwdF rhs pf h (k + 1)).2 = β at *
  generalize (sweepFwdF rhs pf h k).1 = αp at *
  generalize (sweepFwdF rhs pf h k).2 = βp at *
  generalize tridiagonalSolveF rhs pf h bc nr (k + 1 + 1) = yp at *
  generalize tridiagonalSolveF rhs pf h bc nr (k + 1) = y at *
  generalize tridiagonalSolveF rhs pf h bc nr k = ym at *
  generalize rowAF (k + 1) = a at *
  generalize rowBF pf h (k + 1) = b at *
  generalize rowCF (k + 1) = c at *
  generalize rowDF rhs h (k + 1) = d at *
  have ht : t ≠ 0 := by
    have : 0 < a * (1 + u) := mul_pos ha (by linarith [u_pos])
    exact (lt_of_lt_of_le this hd).ne'
  obtain ⟨d1, k1, x1⟩ := fl_delta (c * αp)
  obtain ⟨d2, k2, x2⟩ := fl_delta (b - fl (c * αp))
  obtain ⟨d3, k3, x3⟩ := fl_delta (1 / t)
  obtain ⟨d4, k4, x4⟩ := fl_delta (a * fl (1 / t))
  obtain ⟨d5, k5, x5⟩ := fl_delta (c * βp)
  obtain ⟨d6, k6, x6⟩ := fl_delta (fl (c * βp) - d)
  obtain ⟨d7, k7, x7⟩ := fl_delta (fl (fl (c * βp) - d) * fl (1 / t))
  obtain ⟨d8, k8, x8⟩ := fl_delta (yp * α)
  obtain ⟨d9, k9, x9⟩ := fl_delta (β + fl (yp * α))
  obtain ⟨e8, l8, z8⟩ := fl_delta (y * αp)
  obtain ⟨e9, l9, z9⟩ := fl_delta (βp + fl (y * αp))
  refine row_backward 7 (1 / 2) le_rfl (by unfold gam u; norm_num) (t := t) (α := α) (β := β) (den := fl (1 / t)) (αp := αp) (βp := βp) (d1 := d1) (d2 := d2) (d3 := d3) (d4 := d4) (d5 := d5) (d6 := d6) (d7 := d7) (d8 := d8) (d9 := d9) (e8 := e8) (e9 := e9)
    ?_ ht x3 ?_ ?_ ?_ ?_ k1 k2 k3 k4 k5 k6 k7 k8 k9 l8 l9 a0 a1 (by linarith) (by linarith) (by linarith)
  · rw [et, x2, x1]
  · rw [ea, x4]
  · rw [eb, x7, x6, x5]
  · rw [e1, x9, x8]
  · rw [e0, z9, z8]

/-- C71: in doubles, on every grid of at most 2^24 cells, for every right-hand side and every non-negative factor, the computed array satisfies the discretised equation at every inner node up to about twelve roundings of its terms. -/
theorem rows_doubles (rhs pf : ℕ → ℚ) (h : ℚ) (hh : 0 < h) (bc : ℚ × ℚ) (nr : ℕ) (hn : nr ≤ 2 ^ 24) (hpf : ∀ j, 1 ≤ j → j < nr → 0 ≤ pf j) (y : ℕ → ℚ) (hy : y = tridiagonalSolveF rhs pf h bc nr) (i : ℕ) (h1 : 1 ≤ i) (hi : i < nr) :
    |radialLaplacian h y i - pf i * y i - rhs i| ≤
      gam 11 * (((1 + 1 / (2 * i)) * |y (i + 1)| + 2 * |y i| + (1 - 1 / (2 * i)) * |y (i - 1)|) / h ^ 2 + |y i| / (i * h) ^ 2 + pf i * |y i| + |rhs i|) := by
  have hr := rows_rowform rhs pf h bc nr hn hpf i h1 hi
  rw [← hy] at hr
  have hi1 : (1 : ℚ) ≤ i := by exact_mod_cast h1
  have hi0 : (i : ℚ) ≠ 0 := by intro e; linarith
  have e : h ^ 2 * (radialLaplacian h y i - pf i * y i - rhs i) = rowA i * y (i + 1) - rowB pf h i * y i + rowC i * y (i - 1) - h ^ 2 * rhs i := by
    unfold radialLaplacian rowA rowB rowC
    field_simp
    ring
  have hp := hpf i h1 hi
  have hx := half_over h1
  have hA : (0 : ℚ) ≤ rowA i := by unfold rowA; linarith
  have hC : (0 : ℚ) ≤ rowC i := by unfold rowC; linarith
  have hB : (0 : ℚ) ≤ rowB pf h i := by unfold rowB; positivity
  rw [abs_mul, abs_mul, abs_mul, abs_mul, abs_of_nonneg hA, abs_of_nonneg hB, abs_of_nonneg hC, abs_of_nonneg (sq_nonneg h), ← e, abs_mul, abs_of_nonneg (sq_nonneg h)] at hr
  have hh2 : 0 < h ^ 2 := by positivity
  refine le_of_mul_le_mul_left (hr.trans (le_of_eq ?_)) hh2
  unfold rowA rowB rowC
  field_simp
  ring

end Lcode.Fp
