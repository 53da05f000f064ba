import Verif.Plasma2D.Fields
import Verif.Num.Taylor
import Mathlib.Analysis.Calculus.Deriv.Inv
import Mathlib.Algebra.BigOperators.Field

/-!
Convergence of the radial field solver. Property C65: with sources that are samples of smooth functions, the computed fields approach the exact solutions of the differential equations as the grid is refined.

The exact fields are given by their differential equations; nothing of the model occurs in them.
-/

namespace Lcode.Plasma2D

open Lcode.Num Finset

/-! ### Stability -/

/-- The largest value of a finite sequence is attained. -/
theorem exists_max (e : ℕ → ℝ) (n : ℕ) : ∃ m, m ≤ n ∧ ∀ i, i ≤ n → |e i| ≤ |e m| := by
  obtain ⟨m, hm, h⟩ := (range (n + 1)).exists_max_image (fun i => |e i|) ⟨0, by simp⟩
  exact ⟨m, by simpa [Nat.lt_succ_iff] using hm, fun i hi => h i (by simpa [Nat.lt_succ_iff] using hi)⟩

/-- Maximum principle of the discrete equation: a sequence that vanishes on the axis is bounded by `B` if at every inner node the residual is bounded by `B (pf + 1/r²)` and at the wall either the value or the divergence is small. -/
theorem max_principle (h : ℝ) (hh : 0 < h) (nr : ℕ) (pf e : ℕ → ℝ) (hpf : ∀ i, 1 ≤ i → i < nr → 0 ≤ pf i) (B : ℝ) (h0 : e 0 = 0) (hB : 0 ≤ B)
    (hin : ∀ i, 1 ≤ i → i < nr → |radialLaplacian h e i - pf i * e i| ≤ B * (pf i + 1 / (i * h) ^ 2))
    (hw : 1 ≤ nr → |e nr| ≤ B ∨ |((nr * h) * e nr - ((nr - 1) * h) * e (nr - 1)) / h / ((nr - 1 / 2) * h)| * ((nr - 1 / 2) * h) ≤ B) (i : ℕ) (hi : i ≤ nr) : |e i| ≤ B := by
  obtain ⟨m, hm, hmax⟩ := exists_max e nr
  refine (hmax i hi).trans ?_
  rcases Nat.eq_zero_or_pos m with rfl | hm0
  · rw [h0, abs_zero]; exact hB
  rcases hm.lt_or_eq with hlt | rfl
  · have hr := (row_iff h hh.ne' (fun i => radialLaplacian h e i - pf i * e i) pf e m hm0).mp rfl
    beta_reduce at hr
    have hres := hin m hm0 hlt
    generalize radialLaplacian h e m - pf m * e m = rho at hr hres
    have h1 := hmax (m + 1) (by omega)
    have h2 := hmax (m - 1) (by omega)
    have hm1 : (1 : ℝ) ≤ m := by exact_mod_cast hm0
    have hA : (0 : ℝ) ≤ rowA m := by unfold rowA; positivity
    have hC : (0 : ℝ) ≤ rowC m := by
      unfold rowC
      rw [sub_nonneg, div_div, div_le_one (by positivity)]; linarith
    have hBpos : (0 : ℝ) ≤ rowB pf h m := by
      unfold rowB
      have := mul_nonneg (hpf m hm0 hlt) (sq_nonneg h)
      positivity
    have hAC : (rowA m + rowC m : ℝ) = 2 := by unfold rowA rowC; ring
    have e1 : rowB pf h m * e m = rowA m * e (m + 1) + rowC m * e (m - 1) - h ^ 2 * rho := by linarith
    have e2 : rowB pf h m * |e m| ≤ 2 * |e m| + h ^ 2 * |rho| := by
      have : rowB pf h m * |e m| = |rowB pf h m * e m| := by rw [abs_mul, abs_of_nonneg hBpos]
      rw [this, e1]
      have t1 := abs_sub (rowA m * e (m + 1) + rowC m * e (m - 1)) (h ^ 2 * rho)
      have t2 := abs_add_le (rowA m * e (m + 1)) (rowC m * e (m - 1))
      rw [abs_mul, abs_of_nonneg hA, abs_mul, abs_of_nonneg hC] at t2
      rw [abs_mul (h ^ 2), abs_of_nonneg (sq_nonneg h)] at t1
      have t3 := mul_le_mul_of_nonneg_left h1 hA
      have t4 := mul_le_mul_of_nonneg_left h2 hC
      have t5 : rowA m * |e m| + rowC m * |e m| = 2 * |e m| := by rw [← add_mul, hAC]
      linarith
    have e3 : (pf m * h ^ 2 + 1 / (m : ℝ) ^ 2) * |e m| ≤ h ^ 2 * |rho| := by
      have : rowB pf h m = 2 + (pf m * h ^ 2 + 1 / (m : ℝ) ^ 2) := by unfold rowB; ring
      rw [this] at e2
      linarith
    have e4 : h ^ 2 * |rho| ≤ B * (pf m * h ^ 2 + 1 / (m : ℝ) ^ 2) := by
      have := mul_le_mul_of_nonneg_left hres (sq_nonneg h)
      refine this.trans (le_of_eq ?_)
      have : (m : ℝ) ≠ 0 := by positivity
      field_simp
    have hpos : 0 < pf m * h ^ 2 + 1 / (m : ℝ) ^ 2 := by
      have := mul_nonneg (hpf m hm0 hlt) (sq_nonneg h)
      positivity
    have := e3.trans e4
    rw [mul_comm B] at this
    exact le_of_mul_le_mul_left this hpos
  · rcases hw hm0 with hd | hg
    · exact hd
    · have hm1 : (1 : ℝ) ≤ m := by exact_mod_cast hm0
      have hs : 0 < ((m : ℝ) - 1 / 2) * h := mul_pos (by linarith) hh
      rw [abs_div, abs_of_pos hs, div_mul_cancel₀ _ hs.ne'] at hg
      have : ((m : ℝ) * h * e m - (m - 1) * h * e (m - 1)) / h = m * e m - (m - 1) * e (m - 1) := by field_simp
      rw [this] at hg
      have h2 := hmax (m - 1) (by omega)
      have t1 : (m : ℝ) * |e m| ≤ |m * e m - (m - 1) * e (m - 1)| + (m - 1) * |e (m - 1)| := by
        have := abs_add_le (m * e m - (m - 1) * e (m - 1)) ((m - 1) * e (m - 1))
        rw [sub_add_cancel, abs_mul, abs_of_nonneg (by linarith : (0 : ℝ) ≤ m), abs_mul ((m : ℝ) - 1), abs_of_nonneg (by linarith : (0 : ℝ) ≤ (m : ℝ) - 1)] at this
        exact this
      nlinarith

/-! ### Consistency -/

/-- The discrete operator applied to a smooth function. -/
theorem laplacian_consistent (h : ℝ) (hh : 0 < h) (nr : ℕ) (y y1 y2 y3 y4 : ℝ → ℝ) (d0 : DerivOn y y1 0 (nr * h)) (d1 : DerivOn y1 y2 0 (nr * h)) (d2 : DerivOn y2 y3 0 (nr * h)) (d3 : DerivOn y3 y4 0 (nr * h))
    (M3 M4 : ℝ) (b3 : BoundedOn y3 M3 0 (nr * h)) (b4 : BoundedOn y4 M4 0 (nr * h)) (i : ℕ) (h1 : 1 ≤ i) (h2 : i < nr) :
    |radialLaplacian h (fun j => y (j * h)) i - (y2 (i * h) + y1 (i * h) / (i * h) - y (i * h) / (i * h) ^ 2)| ≤ h ^ 2 * (M4 / 12 + M3 / 6 / (i * h)) := by
  have hi : (1 : ℝ) ≤ i := by exact_mod_cast h1
  have hn : (i : ℝ) + 1 ≤ nr := by exact_mod_cast h2
  have lo : 0 ≤ i * h - h := by nlinarith
  have hi' : i * h + h ≤ nr * h := by nlinarith
  have hs := second_bound (d0.mono lo hi') (d1.mono lo hi') (d2.mono lo hi') (d3.mono lo hi') (b4.mono lo hi') h hh.le le_rfl
  have hc := central_bound (d0.mono lo hi') (d1.mono lo hi') (d2.mono lo hi') (b3.mono lo hi') h hh.le le_rfl
  have ep : ((i + 1 : ℕ) : ℝ) * h = i * h + h := by push_cast; ring
  have em : ((i - 1 : ℕ) : ℝ) * h = i * h - h := by rw [Nat.cast_sub h1]; push_cast; ring
  have hr : (0 : ℝ) < i * h := by positivity
  unfold radialLaplacian
  beta_reduce
  rw [ep, em]
  generalize (i : ℝ) * h = r at *
  have e : (y (r + h) - 2 * y r + y (r - h)) / h ^ 2 + (y (r + h) - y (r - h)) / (2 * h) / r - y r / r ^ 2 - (y2 r + y1 r / r - y r / r ^ 2) =
      (y (r + h) + y (r - h) - 2 * y r - h ^ 2 * y2 r) / h ^ 2 + (y (r + h) - y (r - h) - 2 * h * y1 r) / (2 * h) / r := by
    field_simp; ring
  rw [e]
  refine (abs_add_le _ _).trans ?_
  rw [abs_div, abs_div, abs_div, abs_of_pos hr, abs_of_pos (by positivity : 0 < 2 * h), abs_of_pos (by positivity : 0 < h ^ 2)]
  have t1 := div_le_div_of_nonneg_right hs (by positivity : (0 : ℝ) ≤ h ^ 2)
  have t2 := div_le_div_of_nonneg_right (div_le_div_of_nonneg_right hc (by positivity : (0 : ℝ) ≤ 2 * h)) hr.le
  refine (add_le_add t1 t2).trans (le_of_eq ?_)
  field_simp
  ring

/-- The difference of two sequences. -/
theorem radialLaplacian_sub (h : ℝ) (a b : ℕ → ℝ) (i : ℕ) : radialLaplacian h (fun j => a j - b j) i = radialLaplacian h a i - radialLaplacian h b i := by
  unfold radialLaplacian; ring

/-- One over the radius against the weight of the maximum principle. -/
theorem inv_radius (r k : ℝ) (hr : 0 < r) (hk : 1 ≤ k) : 1 / r ≤ (k + 1 / r ^ 2) / 2 := by
  have : (1 / r - 1) ^ 2 = 1 / r ^ 2 - 2 * (1 / r) + 1 := by field_simp; ring
  nlinarith [sq_nonneg (1 / r - 1)]

/-! ### The azimuthal electric field -/

/-- C65, E_phi: let `y` be four times differentiable on [0, R], R = nr h, vanish on the axis and at the wall and solve `(1/r (r y)')' = (j_phi - j_phi_prev)/dxi + (y - Eprev)`. Then the computed field differs from it by at most `h² (M3 + M4) / 12` at every node. -/
theorem converge_Ef (h : ℝ) (hh : 0 < h) (nr : ℕ) (hn : 1 ≤ nr) (dxi : ℝ) (y y1 y2 y3 y4 jf jfPrev efPrev : ℝ → ℝ) (d0 : DerivOn y y1 0 (nr * h)) (d1 : DerivOn y1 y2 0 (nr * h)) (d2 : DerivOn y2 y3 0 (nr * h)) (d3 : DerivOn y3 y4 0 (nr * h))
    (M3 M4 : ℝ) (b3 : BoundedOn y3 M3 0 (nr * h)) (b4 : BoundedOn y4 M4 0 (nr * h)) (haxis : y 0 = 0) (hwall : y (nr * h) = 0)
    (heq : ∀ r, 0 < r → r < nr * h → y2 r + y1 r / r - y r / r ^ 2 = (jf r - jfPrev r) / dxi + (y r - efPrev r)) (i : ℕ) (hi : i ≤ nr) :
    |computeEf (fun j => jf (j * h)) (fun j => jfPrev (j * h)) (fun j => efPrev (j * h)) (fun _ => 1) h dxi nr i - y (i * h)| ≤ h ^ 2 * (M3 + M4) / 12 := by
  obtain ⟨s0, s1, s2⟩ := dirichlet_solves (efRight (fun j => jf (j * h)) (fun j => jfPrev (j * h)) (fun j => efPrev (j * h)) (fun _ => 1) dxi nr) (fun _ => 1) h hh nr hn (fun _ _ _ => zero_le_one)
  have hM3 : 0 ≤ M3 := (abs_nonneg _).trans (b3 0 le_rfl (by positivity))
  have hM4 : 0 ≤ M4 := (abs_nonneg _).trans (b4 0 le_rfl (by positivity))
  refine max_principle h hh nr (fun _ => 1) (fun i => computeEf (fun j => jf (j * h)) (fun j => jfPrev (j * h)) (fun j => efPrev (j * h)) (fun _ => 1) h dxi nr i - y (i * h)) (fun _ _ _ => zero_le_one) _ ?_ (by positivity) ?_ ?_ i hi
  · show solveDirichlet _ _ h nr 0 - _ = 0
    rw [s0]; simp [haxis]
  · intro i h1 h2
    have hi1 : (1 : ℝ) ≤ i := by exact_mod_cast h1
    have hi2 : (i : ℝ) < nr := by exact_mod_cast h2
    have hr : (0 : ℝ) < i * h := by positivity
    have hc := laplacian_consistent h hh nr y y1 y2 y3 y4 d0 d1 d2 d3 M3 M4 b3 b4 i h1 h2
    rw [heq (i * h) hr (by nlinarith)] at hc
    have hrow := s1 i h1 h2
    rw [radialLaplacian_sub]
    have er : efRight (fun j => jf (j * h)) (fun j => jfPrev (j * h)) (fun j => efPrev (j * h)) (fun _ => 1) dxi nr i = (jf (i * h) - jfPrev (i * h)) / dxi - efPrev (i * h) := by
      unfold efRight
      have : ¬ (i = 0 ∨ i = nr) := by omega
      simp only [this, if_false, one_mul]
    rw [er] at hrow
    change radialLaplacian h (computeEf _ _ _ _ h dxi nr) i - 1 * computeEf _ _ _ _ h dxi nr i = _ at hrow
    have e : radialLaplacian h (fun i => computeEf (fun j => jf (j * h)) (fun j => jfPrev (j * h)) (fun j => efPrev (j * h)) (fun _ => 1) h dxi nr i) i - radialLaplacian h (fun j => y (j * h)) i -
        1 * (computeEf (fun j => jf (j * h)) (fun j => jfPrev (j * h)) (fun j => efPrev (j * h)) (fun _ => 1) h dxi nr i - y (i * h)) =
        -(radialLaplacian h (fun j => y (j * h)) i - ((jf (i * h) - jfPrev (i * h)) / dxi + (y (i * h) - efPrev (i * h)))) := by linarith
    rw [e, abs_neg]
    refine hc.trans ?_
    have hinv := inv_radius (i * h) 1 hr le_rfl
    have hw : (1 : ℝ) ≤ 1 + 1 / (i * h) ^ 2 := by have : 0 < 1 / ((i : ℝ) * h) ^ 2 := by positivity
                                                  linarith
    have e2 : M3 / 6 / (i * h) = M3 / 6 * (1 / (i * h)) := by ring
    rw [e2]
    have t1 : M4 / 12 ≤ M4 / 12 * (1 + 1 / (i * h) ^ 2) := le_mul_of_one_le_right (by positivity) hw
    have t2 : M3 / 6 * (1 / (i * h)) ≤ M3 / 6 * ((1 + 1 / (i * h) ^ 2) / 2) := mul_le_mul_of_nonneg_left hinv (by positivity)
    have t3 := mul_le_mul_of_nonneg_left (add_le_add t1 t2) (sq_nonneg h)
    refine t3.trans (le_of_eq ?_)
    ring
  · intro _
    left
    show |solveDirichlet _ _ h nr nr - _| ≤ _
    rw [s2, hwall]
    have : efRight (fun j => jf (j * h)) (fun j => jfPrev (j * h)) (fun j => efPrev (j * h)) (fun _ => 1) dxi nr nr = 0 := by
      unfold efRight; simp
    rw [this, mul_zero, sub_zero, abs_zero]
    positivity

/-! ### The radial electric field -/

/-- The error of the discrete Gauss' law at the last half node, times the radius there. `W` bounds, in the last half cell, by how much the derivative of the divergence differs from the derivative of the density. -/
theorem wall_consistent (h : ℝ) (hh : 0 < h) (nr : ℕ) (hn : 1 ≤ nr) (y y1 y2 y3 rho rho1 rho2 : ℝ → ℝ) (d0 : DerivOn y y1 0 (nr * h)) (d1 : DerivOn y1 y2 0 (nr * h)) (d2 : DerivOn y2 y3 0 (nr * h))
    (p0 : DerivOn rho rho1 0 (nr * h)) (p1 : DerivOn rho1 rho2 0 (nr * h)) (M2 M3 P2 W : ℝ) (b2 : BoundedOn y2 M2 0 (nr * h)) (b3 : BoundedOn y3 M3 0 (nr * h)) (q2 : BoundedOn rho2 P2 0 (nr * h))
    (hG : y1 (nr * h) + y (nr * h) / (nr * h) = rho (nr * h)) (hW : BoundedOn (fun r => y2 r + y1 r / r - y r / r ^ 2 - rho1 r) W ((nr - 1 / 2) * h) (nr * h)) :
    |((nr * h) * y (nr * h) - ((nr - 1) * h) * y ((nr - 1) * h)) / h / ((nr - 1 / 2) * h) - (rho ((nr - 1) * h) + rho (nr * h)) / 2| * ((nr - 1 / 2) * h) ≤
      h ^ 2 * ((3 * M2 + nr * h * M3) / 24 + nr * h * P2 / 8) + nr * h * W * h / 2 := by
  have hn1 : (1 : ℝ) ≤ nr := by exact_mod_cast hn
  have hs : 0 < ((nr : ℝ) - 1 / 2) * h := mul_pos (by linarith) hh
  have lo : 0 ≤ ((nr : ℝ) - 1 / 2) * h - h / 2 := by nlinarith
  have hi : ((nr : ℝ) - 1 / 2) * h + h / 2 ≤ nr * h := by nlinarith
  have eR : ((nr : ℝ)) * h = (nr - 1 / 2) * h + h / 2 := by ring
  have eL : ((nr : ℝ) - 1) * h = (nr - 1 / 2) * h - h / 2 := by ring
  have hM2 : 0 ≤ M2 := (abs_nonneg _).trans (b2 0 le_rfl (by positivity))
  have hM3 : 0 ≤ M3 := (abs_nonneg _).trans (b3 0 le_rfl (by positivity))
  have hP2 : 0 ≤ P2 := (abs_nonneg _).trans (q2 0 le_rfl (by positivity))
  have hW0 : 0 ≤ W := (abs_nonneg _).trans (hW (nr * h) (by linarith) le_rfl)
  have m0 : DerivOn (fun r => r * y r) (fun r => y r + r * y1 r) 0 (nr * h) := fun r a b => ((hasDerivAt_id r).mul (d0 r a b)).congr_deriv (by simp)
  have m1 : DerivOn (fun r => y r + r * y1 r) (fun r => 2 * y1 r + r * y2 r) 0 (nr * h) := fun r a b => ((d0 r a b).add ((hasDerivAt_id r).mul (d1 r a b))).congr_deriv (by simp only [id_eq]; ring)
  have m2 : DerivOn (fun r => 2 * y1 r + r * y2 r) (fun r => 3 * y2 r + r * y3 r) 0 (nr * h) := fun r a b => (((d1 r a b).const_mul 2).add ((hasDerivAt_id r).mul (d2 r a b))).congr_deriv (by simp only [id_eq]; ring)
  have m3 : BoundedOn (fun r => 3 * y2 r + r * y3 r) (3 * M2 + nr * h * M3) 0 (nr * h) := by
    intro r a b
    refine (abs_add_le _ _).trans ?_
    rw [abs_mul, abs_mul, abs_of_nonneg a, abs_of_pos (by norm_num : (0 : ℝ) < 3)]
    have := mul_le_mul b (b3 r a b) (abs_nonneg _) (by positivity : (0 : ℝ) ≤ nr * h)
    linarith [b2 r a b]
  have hc := central_bound (m0.mono lo hi) (m1.mono lo hi) (m2.mono lo hi) (m3.mono lo hi) (h / 2) (by positivity) le_rfl
  have hm := mean_bound (p0.mono lo hi) (p1.mono lo hi) (q2.mono lo hi) (h / 2) (by positivity) le_rfl
  have hg := grow (fun t => y1 (nr * h - t) + y (nr * h - t) / (nr * h - t) - rho (nr * h - t)) (fun t => -(y2 (nr * h - t) + y1 (nr * h - t) / (nr * h - t) - y (nr * h - t) / (nr * h - t) ^ 2 - rho1 (nr * h - t))) (h / 2) W 0
    (by simp only [sub_zero]; rw [hG, sub_self]) (by
      intro t t0 t1
      have hpos : nr * h - t ≠ 0 := by
        have : 0 < nr * h - t := by nlinarith
        exact this.ne'
      have r0 : 0 ≤ nr * h - t := by nlinarith
      have r1 : nr * h - t ≤ nr * h := by linarith
      have hid : HasDerivAt (fun t => nr * h - t) (-1) t := by simpa using (hasDerivAt_id t).const_sub (nr * h)
      have hD : HasDerivAt (fun r => y1 r + y r / r - rho r) (y2 (nr * h - t) + y1 (nr * h - t) / (nr * h - t) - y (nr * h - t) / (nr * h - t) ^ 2 - rho1 (nr * h - t)) (nr * h - t) := by
        refine (((d1 _ r0 r1).add ((d0 _ r0 r1).div (hasDerivAt_id _) hpos)).sub (p0 _ r0 r1)).congr_deriv ?_
        simp only [id_eq]
        field_simp
        ring
      exact (hD.comp t hid).congr_deriv (by ring)) (by
      intro t t0 t1
      rw [abs_neg, pow_zero, mul_one]
      exact hW _ (by nlinarith) (by linarith)) (h / 2) (by positivity) le_rfl
  have eS : (nr : ℝ) * h - h / 2 = (nr - 1 / 2) * h := by ring
  simp only [eS] at hg
  rw [eL, eR]
  have hsR : ((nr : ℝ) - 1 / 2) * h ≤ nr * h := by nlinarith
  rw [← eR]
  rw [← eR] at hc hm
  generalize hsd : ((nr : ℝ) - 1 / 2) * h = s at *
  rw [← abs_of_pos hs, ← abs_mul, abs_of_pos hs]
  have e : ((nr * h * y (nr * h) - (s - h / 2) * y (s - h / 2)) / h / s - (rho (s - h / 2) + rho (nr * h)) / 2) * s =
      (nr * h * y (nr * h) - (s - h / 2) * y (s - h / 2) - 2 * (h / 2) * (y s + s * y1 s)) / h - s / 2 * (rho (nr * h) + rho (s - h / 2) - 2 * rho s) + s * (y1 s + y s / s - rho s) := by
    field_simp
    ring
  rw [e]
  refine (abs_add_le _ _).trans ?_
  have t0 := abs_sub ((nr * h * y (nr * h) - (s - h / 2) * y (s - h / 2) - 2 * (h / 2) * (y s + s * y1 s)) / h) (s / 2 * (rho (nr * h) + rho (s - h / 2) - 2 * rho s))
  rw [abs_div, abs_of_pos hh, abs_mul (s / 2), abs_of_pos (by positivity : 0 < s / 2)] at t0
  rw [abs_mul s, abs_of_pos hs]
  have t1 := div_le_div_of_nonneg_right hc hh.le
  have t2 := mul_le_mul_of_nonneg_left hm (by positivity : (0 : ℝ) ≤ s / 2)
  have t3 := mul_le_mul_of_nonneg_left hg hs.le
  have u1 : (3 * M2 + nr * h * M3) / 3 * (h / 2) ^ 3 / h = h ^ 2 * ((3 * M2 + nr * h * M3) / 24) := by field_simp; ring
  have u2 : s / 2 * (P2 * (h / 2) ^ 2) ≤ h ^ 2 * (nr * h * P2 / 8) := by
    have := mul_le_mul_of_nonneg_right hsR (by positivity : 0 ≤ P2 * h ^ 2 / 8)
    nlinarith
  have u3 : s * (W / ((0 : ℕ) + 1) * (h / 2) ^ (0 + 1)) ≤ nr * h * W * h / 2 := by
    have := mul_le_mul_of_nonneg_right hsR (by positivity : 0 ≤ W * h / 2)
    push_cast
    nlinarith
  rw [u1] at t1
  linarith [t0, t1, t2.trans u2, t3.trans u3]

/-- C65, E_r: let `y` be four times differentiable on [0, R], R = nr h, vanish on the axis, obey Gauss' law `(1/r)(r y)' = rho` at the wall and solve `(1/r (r y)')' = rho' + (j_r - j_r_prev)/dxi + k (y - Eprev)` with a factor `k ≥ 1`. Then at every node the computed
field differs from it by at most `h² ((M3 + M4)/12 + P3/6 + (3 M2 + R M3)/24 + R P2/8)`, plus `R W h / 2`, where `W` bounds `(j_r - j_r_prev)/dxi + k (y - Eprev)` in the half cell next to the wall. -/
theorem converge_Er (h : ℝ) (hh : 0 < h) (nr : ℕ) (hn : 1 ≤ nr) (dxi : ℝ) (y y1 y2 y3 y4 rho rho1 rho2 rho3 jr jrPrev erPrev k : ℝ → ℝ) (d0 : DerivOn y y1 0 (nr * h)) (d1 : DerivOn y1 y2 0 (nr * h)) (d2 : DerivOn y2 y3 0 (nr * h)) (d3 : DerivOn y3 y4 0 (nr * h))
    (p0 : DerivOn rho rho1 0 (nr * h)) (p1 : DerivOn rho1 rho2 0 (nr * h)) (p2 : DerivOn rho2 rho3 0 (nr * h))
    (M2 M3 M4 P2 P3 W : ℝ) (b2 : BoundedOn y2 M2 0 (nr * h)) (b3 : BoundedOn y3 M3 0 (nr * h)) (b4 : BoundedOn y4 M4 0 (nr * h)) (q2 : BoundedOn rho2 P2 0 (nr * h)) (q3 : BoundedOn rho3 P3 0 (nr * h))
    (hk : ∀ r, 1 ≤ k r) (haxis : y 0 = 0) (hgauss : y1 (nr * h) + y (nr * h) / (nr * h) = rho (nr * h))
    (heq : ∀ r, 0 < r → r ≤ nr * h → y2 r + y1 r / r - y r / r ^ 2 = rho1 r + (jr r - jrPrev r) / dxi + k r * (y r - erPrev r))
    (hW : BoundedOn (fun r => (jr r - jrPrev r) / dxi + k r * (y r - erPrev r)) W ((nr - 1 / 2) * h) (nr * h)) (i : ℕ) (hi : i ≤ nr) :
    |computeEr (fun j => rho (j * h)) (fun j => jr (j * h)) (fun j => jrPrev (j * h)) (fun j => erPrev (j * h)) (fun j => k (j * h)) h dxi nr i - y (i * h)| ≤
      h ^ 2 * ((M3 + M4) / 12 + P3 / 6 + (3 * M2 + nr * h * M3) / 24 + nr * h * P2 / 8) + nr * h * W * h / 2 := by
  have hpf : ∀ j : ℕ, 1 ≤ j → j < nr → 0 ≤ k (j * h) := fun j _ _ => by linarith [hk (j * h)]
  obtain ⟨s0, s1, s2⟩ := neumann_solves (erRight (fun j => rho (j * h)) (fun j => jr (j * h)) (fun j => jrPrev (j * h)) (fun j => erPrev (j * h)) (fun j => k (j * h)) h dxi nr) (fun j => k (j * h)) h hh nr hn hpf
  have hn1 : (1 : ℝ) ≤ nr := by exact_mod_cast hn
  have hR : (0 : ℝ) ≤ nr * h := by positivity
  have hM2 : 0 ≤ M2 := (abs_nonneg _).trans (b2 0 le_rfl hR)
  have hM3 : 0 ≤ M3 := (abs_nonneg _).trans (b3 0 le_rfl hR)
  have hM4 : 0 ≤ M4 := (abs_nonneg _).trans (b4 0 le_rfl hR)
  have hP2 : 0 ≤ P2 := (abs_nonneg _).trans (q2 0 le_rfl hR)
  have hP3 : 0 ≤ P3 := (abs_nonneg _).trans (q3 0 le_rfl hR)
  have hW0 : 0 ≤ W := (abs_nonneg _).trans (hW (nr * h) (by nlinarith) le_rfl)
  have x1 : 0 ≤ h ^ 2 * ((M3 + M4) / 12 + P3 / 6) := by positivity
  have x2 : 0 ≤ h ^ 2 * ((3 * M2 + nr * h * M3) / 24 + nr * h * P2 / 8) := by positivity
  have x3 : 0 ≤ nr * h * W * h / 2 := by positivity
  have split : h ^ 2 * ((M3 + M4) / 12 + P3 / 6 + (3 * M2 + nr * h * M3) / 24 + nr * h * P2 / 8) + nr * h * W * h / 2 =
      h ^ 2 * ((M3 + M4) / 12 + P3 / 6) + (h ^ 2 * ((3 * M2 + nr * h * M3) / 24 + nr * h * P2 / 8) + nr * h * W * h / 2) := by ring
  rw [split]
  refine max_principle h hh nr (fun j => k (j * h)) (fun i => computeEr (fun j => rho (j * h)) (fun j => jr (j * h)) (fun j => jrPrev (j * h)) (fun j => erPrev (j * h)) (fun j => k (j * h)) h dxi nr i - y (i * h)) hpf _ ?_ (by linarith) ?_ ?_ i hi
  · show solveNeumann _ _ h nr 0 - _ = 0
    rw [s0]; simp [haxis]
  · intro i h1 h2
    have hi1 : (1 : ℝ) ≤ i := by exact_mod_cast h1
    have hi2 : (i : ℝ) + 1 ≤ nr := by exact_mod_cast h2
    have hr : (0 : ℝ) < i * h := by positivity
    have lo : 0 ≤ i * h - h := by nlinarith
    have hi' : i * h + h ≤ nr * h := by nlinarith
    have hc := laplacian_consistent h hh nr y y1 y2 y3 y4 d0 d1 d2 d3 M3 M4 b3 b4 i h1 h2
    rw [heq (i * h) hr (by nlinarith)] at hc
    have hrho := central_bound (p0.mono lo hi') (p1.mono lo hi') (p2.mono lo hi') (q3.mono lo hi') h hh.le le_rfl
    have hrow := s1 i h1 h2
    rw [radialLaplacian_sub]
    have ep : ((i + 1 : ℕ) : ℝ) * h = i * h + h := by push_cast; ring
    have em : ((i - 1 : ℕ) : ℝ) * h = i * h - h := by rw [Nat.cast_sub h1]; push_cast; ring
    have er : erRight (fun j => rho (j * h)) (fun j => jr (j * h)) (fun j => jrPrev (j * h)) (fun j => erPrev (j * h)) (fun j => k (j * h)) h dxi nr i =
        (jr (i * h) - jrPrev (i * h)) / dxi - k (i * h) * erPrev (i * h) + (rho (i * h + h) - rho (i * h - h)) / 2 / h := by
      unfold erRight
      have h3 : ¬ i = 0 := by omega
      have h4 : ¬ i = nr := by omega
      simp only [h3, h4, if_false, h1, h2, and_self, if_true, ep, em]
    rw [er] at hrow
    change radialLaplacian h (computeEr _ _ _ _ _ h dxi nr) i - k (i * h) * computeEr _ _ _ _ _ h dxi nr i = _ at hrow
    have e : radialLaplacian h (fun i => computeEr (fun j => rho (j * h)) (fun j => jr (j * h)) (fun j => jrPrev (j * h)) (fun j => erPrev (j * h)) (fun j => k (j * h)) h dxi nr i) i - radialLaplacian h (fun j => y (j * h)) i -
        k (i * h) * (computeEr (fun j => rho (j * h)) (fun j => jr (j * h)) (fun j => jrPrev (j * h)) (fun j => erPrev (j * h)) (fun j => k (j * h)) h dxi nr i - y (i * h)) =
        (rho (i * h + h) - rho (i * h - h) - 2 * h * rho1 (i * h)) / (2 * h) -
        (radialLaplacian h (fun j => y (j * h)) i - (rho1 (i * h) + (jr (i * h) - jrPrev (i * h)) / dxi + k (i * h) * (y (i * h) - erPrev (i * h)))) := by
      have : (rho (i * h + h) - rho (i * h - h) - 2 * h * rho1 (i * h)) / (2 * h) = (rho (i * h + h) - rho (i * h - h)) / 2 / h - rho1 (i * h) := by field_simp
      rw [this]
      linarith
    rw [e]
    refine (abs_sub _ _).trans ?_
    rw [abs_div, abs_of_pos (by positivity : 0 < 2 * h)]
    have t0 := div_le_div_of_nonneg_right hrho (by positivity : (0 : ℝ) ≤ 2 * h)
    have e0 : P3 / 3 * h ^ 3 / (2 * h) = h ^ 2 * (P3 / 6) := by field_simp; ring
    rw [e0] at t0
    have hinv := inv_radius (i * h) (k (i * h)) hr (hk _)
    have hw : (1 : ℝ) ≤ k (i * h) + 1 / (i * h) ^ 2 := by have : 0 < 1 / ((i : ℝ) * h) ^ 2 := by positivity
                                                          linarith [hk (i * h)]
    have e2 : M3 / 6 / (i * h) = M3 / 6 * (1 / (i * h)) := by ring
    rw [e2] at hc
    set w := k (i * h) + 1 / (i * h) ^ 2
    have t1 : M4 / 12 + P3 / 6 ≤ (M4 / 12 + P3 / 6) * w := le_mul_of_one_le_right (by positivity) hw
    have t2 : M3 / 6 * (1 / (i * h)) ≤ M3 / 6 * (w / 2) := mul_le_mul_of_nonneg_left hinv (by positivity)
    have t3 := mul_le_mul_of_nonneg_left (add_le_add t1 t2) (sq_nonneg h)
    have t4 : 0 ≤ (h ^ 2 * ((3 * M2 + nr * h * M3) / 24 + nr * h * P2 / 8) + nr * h * W * h / 2) * w := mul_nonneg (by linarith) (by linarith)
    have t5 : h ^ 2 * ((M4 / 12 + P3 / 6) * w + M3 / 6 * (w / 2)) = h ^ 2 * ((M3 + M4) / 12 + P3 / 6) * w := by ring
    rw [t5] at t3
    rw [add_mul]
    have t6 : h ^ 2 * (M4 / 12 + M3 / 6 * (1 / (i * h))) + h ^ 2 * (P3 / 6) = h ^ 2 * (M4 / 12 + P3 / 6 + M3 / 6 * (1 / (i * h))) := by ring
    linarith only [t0, hc, t3, t4, t6]
  · intro _
    right
    have hw := wall_consistent h hh nr hn y y1 y2 y3 rho rho1 rho2 d0 d1 d2 p0 p1 M2 M3 P2 W b2 b3 q2 hgauss (fun r a b => by
      have h0 : 0 < r := lt_of_lt_of_le (mul_pos (by linarith) hh) a
      have := hW r a b
      beta_reduce
      rw [heq r h0 b]
      have e : rho1 r + (jr r - jrPrev r) / dxi + k r * (y r - erPrev r) - rho1 r = (jr r - jrPrev r) / dxi + k r * (y r - erPrev r) := by ring
      rw [e]; exact this)
    have em : ((nr - 1 : ℕ) : ℝ) * h = (nr - 1) * h := by rw [Nat.cast_sub hn]; push_cast; ring
    have er : erRight (fun j => rho (j * h)) (fun j => jr (j * h)) (fun j => jrPrev (j * h)) (fun j => erPrev (j * h)) (fun j => k (j * h)) h dxi nr nr = (rho ((nr - 1) * h) + rho (nr * h)) / 2 := by
      unfold erRight
      have h3 : ¬ nr = 0 := by omega
      simp only [h3, if_false, if_true, em]
    rw [er] at s2
    change (nr * h * computeEr _ _ _ _ _ h dxi nr nr - (nr - 1) * h * computeEr _ _ _ _ _ h dxi nr (nr - 1)) / h / ((nr - 1 / 2) * h) = _ at s2
    rw [em]
    have e : (nr * h * (computeEr (fun j => rho (j * h)) (fun j => jr (j * h)) (fun j => jrPrev (j * h)) (fun j => erPrev (j * h)) (fun j => k (j * h)) h dxi nr nr - y (nr * h)) -
        (nr - 1) * h * (computeEr (fun j => rho (j * h)) (fun j => jr (j * h)) (fun j => jrPrev (j * h)) (fun j => erPrev (j * h)) (fun j => k (j * h)) h dxi nr (nr - 1) - y ((nr - 1) * h))) / h / ((nr - 1 / 2) * h) =
        -((nr * h * y (nr * h) - (nr - 1) * h * y ((nr - 1) * h)) / h / ((nr - 1 / 2) * h) - (rho ((nr - 1) * h) + rho (nr * h)) / 2) := by
      rw [← s2]; ring
    rw [e, abs_neg]
    linarith

/-- Minimum principle: no negative values if the axis value is zero, the residual is nowhere positive and the divergence at the wall is not negative. -/
theorem min_principle (h : ℝ) (hh : 0 < h) (nr : ℕ) (pf e : ℕ → ℝ) (hpf : ∀ i, 1 ≤ i → i < nr → 0 ≤ pf i) (h0 : e 0 = 0)
    (hin : ∀ i, 1 ≤ i → i < nr → radialLaplacian h e i - pf i * e i ≤ 0) (hw : 1 ≤ nr → 0 ≤ nr * e nr - (nr - 1) * e (nr - 1)) (i : ℕ) (hi : i ≤ nr) : 0 ≤ e i := by
  obtain ⟨m, hm, hmin⟩ := (range (nr + 1)).exists_min_image e ⟨0, by simp⟩
  rw [mem_range] at hm
  have hmin : ∀ i, i ≤ nr → e m ≤ e i := fun i hi => hmin i (by rw [mem_range]; omega)
  refine le_trans ?_ (hmin i hi)
  rcases Nat.eq_zero_or_pos m with rfl | hm0
  · rw [h0]
  have hm1 : (1 : ℝ) ≤ m := by exact_mod_cast hm0
  rcases (Nat.lt_succ_iff.mp hm).lt_or_eq with hlt | rfl
  · have hr := (row_iff h hh.ne' (fun i => radialLaplacian h e i - pf i * e i) pf e m hm0).mp rfl
    beta_reduce at hr
    have hres := hin m hm0 hlt
    generalize radialLaplacian h e m - pf m * e m = rho at hr hres
    have hA : (0 : ℝ) ≤ rowA m := by unfold rowA; positivity
    have hC : (0 : ℝ) ≤ rowC m := by
      unfold rowC
      rw [sub_nonneg, div_div, div_le_one (by positivity)]; linarith
    have hAC : (rowA m + rowC m : ℝ) = 2 := by unfold rowA rowC; ring
    have t1 := mul_le_mul_of_nonneg_left (hmin (m + 1) (by omega)) hA
    have t2 := mul_le_mul_of_nonneg_left (hmin (m - 1) (by omega)) hC
    have t5 : rowA m * e m + rowC m * e m = 2 * e m := by rw [← add_mul, hAC]
    have t6 : h ^ 2 * rho ≤ 0 := mul_nonpos_of_nonneg_of_nonpos (sq_nonneg h) hres
    have hpos : 0 < pf m * h ^ 2 + 1 / (m : ℝ) ^ 2 := by
      have := mul_nonneg (hpf m hm0 hlt) (sq_nonneg h)
      positivity
    have : rowB pf h m = 2 + (pf m * h ^ 2 + 1 / (m : ℝ) ^ 2) := by unfold rowB; ring
    rw [this] at hr
    have : 0 ≤ (pf m * h ^ 2 + 1 / (m : ℝ) ^ 2) * e m := by linarith
    exact nonneg_of_mul_nonneg_right this hpos
  · have := hw hm0
    have t := mul_le_mul_of_nonneg_left (hmin (m - 1) (by omega)) (by linarith : (0 : ℝ) ≤ m - 1)
    linarith

/-- The discrete operator on the cube of the radius. -/
theorem laplacian_cube (h : ℝ) (hh : 0 < h) (i : ℕ) (hi : 1 ≤ i) : radialLaplacian h (fun j => ((j : ℝ) * h) ^ 3) i = 8 * (i * h) + h ^ 2 / (i * h) := by
  have hi' : (1 : ℝ) ≤ i := by exact_mod_cast hi
  unfold radialLaplacian
  beta_reduce
  rw [Nat.cast_sub hi]
  push_cast
  field_simp
  ring

theorem radialLaplacian_smul (h c : ℝ) (a : ℕ → ℝ) (i : ℕ) : radialLaplacian h (fun j => c * a j) i = c * radialLaplacian h a i := by
  unfold radialLaplacian; ring

/-- C65, the first order of E_r at the wall is attained: `y = r³` solves the equations with the density `4 R²`, the current difference `8 r dxi` and the previous field `r³`, but `(j_r - j_r_prev)/dxi` does not vanish at the wall. For windows up to radius 2, on every grid, the
computed field at the wall is too large by at least `h R²`. -/
theorem Er_first_order (h : ℝ) (hh : 0 < h) (nr : ℕ) (hn : 1 ≤ nr) (hR : nr * h ≤ 2) (dxi : ℝ) (hdxi : dxi ≠ 0) :
    (∀ r : ℝ, 0 < r → r ≤ nr * h → 6 * r + 3 * r ^ 2 / r - r ^ 3 / r ^ 2 = 0 + (8 * r * dxi - 0) / dxi + 1 * (r ^ 3 - r ^ 3)) ∧ 3 * (nr * h) ^ 2 + (nr * h) ^ 3 / (nr * h) = 4 * (nr * h) ^ 2 ∧
    (nr * h) ^ 3 + h * (nr * h) ^ 2 ≤ computeEr (fun _ => 4 * (nr * h) ^ 2) (fun j => 8 * (j * h) * dxi) (fun _ => 0) (fun j => (j * h) ^ 3) (fun _ => 1) h dxi nr nr := by
  have hn1 : (1 : ℝ) ≤ nr := by exact_mod_cast hn
  have hRpos : (0 : ℝ) < nr * h := by positivity
  refine ⟨fun r hr _ => by field_simp; ring, by field_simp; ring, ?_⟩
  obtain ⟨s0, s1, s2⟩ := neumann_solves (erRight (fun _ => 4 * (nr * h) ^ 2) (fun j => 8 * (j * h) * dxi) (fun _ => 0) (fun j => (j * h) ^ 3) (fun _ => 1) h dxi nr) (fun _ => 1) h hh nr hn (fun _ _ _ => zero_le_one)
  have er : erRight (fun _ => 4 * (nr * h) ^ 2) (fun j => 8 * (j * h) * dxi) (fun _ => 0) (fun j => (j * h) ^ 3) (fun _ => 1) h dxi nr nr = 4 * (nr * h) ^ 2 := by
    unfold erRight
    have h3 : ¬ nr = 0 := by omega
    simp only [h3, if_false, if_true]
    ring
  rw [er] at s2
  set y := computeEr (fun _ => 4 * (nr * h) ^ 2) (fun j => 8 * (j * h) * dxi) (fun _ => 0) (fun j => (j * h) ^ 3) (fun _ => 1) h dxi nr with hy
  change y 0 = 0 at s0
  change ∀ i, 1 ≤ i → i < nr → radialLaplacian h y i - 1 * y i = _ at s1
  change (nr * h * y nr - (nr - 1) * h * y (nr - 1)) / h / ((nr - 1 / 2) * h) = _ at s2
  have hcoef : (1 + 1 / (nr : ℝ)) * (nr * h) ^ 3 = (nr * h) ^ 3 + h * (nr * h) ^ 2 := by field_simp
  have key := min_principle h hh nr (fun _ => 1) (fun i => y i - (1 + 1 / nr) * (i * h) ^ 3) (fun _ _ _ => zero_le_one) (by simp [s0]) (by
    intro i h1 h2
    have hi1 : (1 : ℝ) ≤ i := by exact_mod_cast h1
    have hi2 : (i : ℝ) < nr := by exact_mod_cast h2
    have hrow := s1 i h1 h2
    have eri : erRight (fun _ => 4 * (nr * h) ^ 2) (fun j => 8 * (j * h) * dxi) (fun _ => 0) (fun j => (j * h) ^ 3) (fun _ => 1) h dxi nr i = 8 * (i * h) - (i * h) ^ 3 := by
      unfold erRight
      have h3 : ¬ i = 0 := by omega
      have h4 : ¬ i = nr := by omega
      simp only [h3, h4, if_false, h1, h2, and_self, if_true, sub_self, zero_div, add_zero, sub_zero, one_mul]
      field_simp
    rw [eri] at hrow
    rw [radialLaplacian_sub, radialLaplacian_smul, laplacian_cube h hh i h1]
    have hr : (0 : ℝ) < i * h := by positivity
    have hrR : (i : ℝ) * h < 2 := by nlinarith
    generalize (i : ℝ) * h = r at *
    have hq : 0 ≤ 1 / (nr : ℝ) := by positivity
    have h8 : 0 ≤ 8 * r - r ^ 3 := by nlinarith [mul_pos hr hr]
    have h9 : 0 ≤ h ^ 2 / r := by positivity
    have h10 := mul_nonneg hq h8
    have h11 := mul_nonneg hq h9
    nlinarith) (by
    intro _
    have em : ((nr - 1 : ℕ) : ℝ) * h = (nr - 1) * h := by rw [Nat.cast_sub hn]; push_cast; ring
    have hs : ((nr : ℝ) - 1 / 2) * h ≠ 0 := (mul_pos (by linarith) hh).ne'
    rw [div_eq_iff hs, div_eq_iff hh.ne'] at s2
    beta_reduce
    rw [em]
    have e : nr * (y nr - (1 + 1 / nr) * (nr * h) ^ 3) - (nr - 1) * (y (nr - 1) - (1 + 1 / nr) * ((nr - 1) * h) ^ 3) = (nr - 1 / 2) * h ^ 3 * (2 - 2 / (nr : ℝ)) := by
      have s3 : nr * y nr - (nr - 1) * y (nr - 1) = 4 * (nr * h) ^ 2 * ((nr - 1 / 2) * h) := mul_left_cancel₀ hh.ne' (by linear_combination s2)
      field_simp
      linear_combination (nr : ℝ) * s3
    rw [e]
    have : 0 ≤ 2 - 2 / (nr : ℝ) := by
      rw [sub_nonneg, div_le_iff₀ (by positivity)]; linarith
    have : 0 ≤ (nr : ℝ) - 1 / 2 := by linarith
    positivity) nr le_rfl
  beta_reduce at key
  rw [hcoef] at key
  linarith

/-! ### The fields obtained by integration -/

/-- The trapezoidal rule over the cells `a, ..., b-1` against a primitive. -/
theorem trapezoid_converges (h : ℝ) (hh : 0 < h) (nr : ℕ) (F f f1 f2 : ℝ → ℝ) (M : ℝ) (d : DerivOn F f 0 (nr * h)) (d0 : DerivOn f f1 0 (nr * h)) (d1 : DerivOn f1 f2 0 (nr * h)) (hM : BoundedOn f2 M 0 (nr * h))
    (a b : ℕ) (hab : a ≤ b) (hb : b ≤ nr) : |trapezoid (fun j => f (j * h)) h a b - (F (b * h) - F (a * h))| ≤ h ^ 2 * ((b * h - a * h) * M) / 12 := by
  induction b, hab using Nat.le_induction with
  | base => simp [trapezoid]
  | succ b hab ih =>
    have ih := ih (by omega)
    have hb' : (b : ℝ) + 1 ≤ nr := by exact_mod_cast hb
    have lo : (0 : ℝ) ≤ b * h := by positivity
    have hi : b * h + h ≤ nr * h := by nlinarith
    have hc := trapezoid_cell F f f1 f2 (b * h) h M hh.le (d.mono lo hi) (d0.mono lo hi) (d1.mono lo hi) (hM.mono lo hi)
    have ep : ((b + 1 : ℕ) : ℝ) * h = b * h + h := by push_cast; ring
    unfold trapezoid at ih ⊢
    rw [sum_Ico_succ_top hab]
    beta_reduce
    rw [ep]
    have e : ∑ j ∈ Ico a b, h * (f (j * h) + f ((j + 1 : ℕ) * h)) / 2 + h * (f (b * h) + f (b * h + h)) / 2 - (F (b * h + h) - F (a * h)) =
        (∑ j ∈ Ico a b, h * (f (j * h) + f ((j + 1 : ℕ) * h)) / 2 - (F (b * h) - F (a * h))) - (F (b * h + h) - F (b * h) - h * (f (b * h) + f (b * h + h)) / 2) := by ring
    rw [e]
    refine (abs_sub _ _).trans ((add_le_add ih hc).trans (le_of_eq ?_))
    ring

/-- C65, E_z: the exact field has `dE_z/dr = j_r` and vanishes at the wall. -/
theorem converge_Ez (h : ℝ) (hh : 0 < h) (nr : ℕ) (Ez jr jr1 jr2 : ℝ → ℝ) (M : ℝ) (d : DerivOn Ez jr 0 (nr * h)) (d0 : DerivOn jr jr1 0 (nr * h)) (d1 : DerivOn jr1 jr2 0 (nr * h)) (hM : BoundedOn jr2 M 0 (nr * h)) (hwall : Ez (nr * h) = 0)
    (i : ℕ) (hi : i ≤ nr) : |computeEz (fun j => jr (j * h)) h nr i - Ez (i * h)| ≤ h ^ 2 * (nr * h * M) / 12 := by
  have hM0 : 0 ≤ M := (abs_nonneg _).trans (hM 0 le_rfl (by positivity))
  have := trapezoid_converges h hh nr Ez jr jr1 jr2 M d d0 d1 hM i nr hi le_rfl
  unfold computeEz
  rw [cumtrapz_backward _ h nr i hi]
  rw [hwall] at this
  rw [← abs_neg, show -(-trapezoid (fun j => jr (j * h)) h i nr - Ez (i * h)) = trapezoid (fun j => jr (j * h)) h i nr - (0 - Ez (i * h)) by ring]
  refine this.trans ?_
  have h1 : ((nr : ℝ) * h - i * h) * M ≤ nr * h * M := mul_le_mul_of_nonneg_right (by nlinarith [(Nat.cast_nonneg i : (0 : ℝ) ≤ i)]) hM0
  have := mul_le_mul_of_nonneg_left h1 (sq_nonneg h)
  linarith

/-- C65, B_phi: the exact field has `(r (E_r - B_phi))' = r (rho - j_z)`; the error is that of the radial electric field and a term of second order. -/
theorem converge_Bf (h : ℝ) (hh : 0 < h) (nr : ℕ) (Er Bf q q1 q2 rho jz : ℝ → ℝ) (er : ℕ → ℝ) (M eps : ℝ) (hq : ∀ r, q r = r * (rho r - jz r)) (d : DerivOn (fun r => r * (Er r - Bf r)) q 0 (nr * h)) (d0 : DerivOn q q1 0 (nr * h)) (d1 : DerivOn q1 q2 0 (nr * h))
    (hM : BoundedOn q2 M 0 (nr * h)) (haxis : Er 0 = Bf 0) (i : ℕ) (hi : i ≤ nr) (her : |er i - Er (i * h)| ≤ eps) :
    |computeBf (fun j => rho (j * h)) (fun j => jz (j * h)) er h i - Bf (i * h)| ≤ eps + h ^ 2 * M / 12 := by
  have hM0 : 0 ≤ M := (abs_nonneg _).trans (hM 0 le_rfl (by positivity))
  rcases Nat.eq_zero_or_pos i with rfl | h0
  · have : computeBf (fun j => rho (j * h)) (fun j => jz (j * h)) er h 0 = er 0 := by simp [computeBf, cumtrapzForward]
    rw [this]
    simp only [CharP.cast_eq_zero, zero_mul] at her ⊢
    rw [← haxis]
    have : 0 ≤ h ^ 2 * M / 12 := by positivity
    linarith
  have hi1 : (1 : ℝ) ≤ i := by exact_mod_cast h0
  have hr : (0 : ℝ) < i * h := by positivity
  have ht := trapezoid_converges h hh nr _ q q1 q2 M d d0 d1 hM 0 i (by omega) hi
  simp only [CharP.cast_eq_zero, zero_mul, sub_zero] at ht
  have hc : computeBf (fun j => rho (j * h)) (fun j => jz (j * h)) er h i = er i - trapezoid (fun j => q (j * h)) h 0 i / (i * h) := by
    unfold computeBf
    have h1 : 1 ≤ i := h0
    simp only [h1, if_true]
    rw [cumtrapz_forward]
    congr 1
    unfold trapezoid
    rw [Finset.sum_div, Finset.sum_div]
    apply sum_congr rfl
    intro j _
    beta_reduce
    rw [hq, hq]
    push_cast
    field_simp
  rw [hc]
  have e : er i - trapezoid (fun j => q (j * h)) h 0 i / (i * h) - Bf (i * h) = (er i - Er (i * h)) - (trapezoid (fun j => q (j * h)) h 0 i - i * h * (Er (i * h) - Bf (i * h))) / (i * h) := by
    field_simp; ring
  rw [e]
  refine (abs_sub _ _).trans (add_le_add her ?_)
  rw [abs_div, abs_of_pos hr, div_le_iff₀ hr]
  refine ht.trans (le_of_eq ?_)
  ring

/-- C65, B_z: the exact field has `dB_z/dr = -j_phi` and no flux through the window (`Flux' = 2 r B_z`, zero at both ends). The computed field is of first order only: the flux is summed with the value at the inner edge of each cell. -/
theorem converge_Bz (h : ℝ) (hh : 0 < h) (nr : ℕ) (hn : 1 ≤ nr) (Bz Flux jf jf1 jf2 : ℝ → ℝ) (M0 M2 : ℝ) (d : DerivOn Bz (fun r => -jf r) 0 (nr * h)) (d0 : DerivOn jf jf1 0 (nr * h)) (d1 : DerivOn jf1 jf2 0 (nr * h)) (b0 : BoundedOn jf M0 0 (nr * h)) (b2 : BoundedOn jf2 M2 0 (nr * h))
    (dF : DerivOn Flux (fun r => 2 * r * Bz r) 0 (nr * h)) (hF : Flux 0 = Flux (nr * h)) (i : ℕ) (hi : i ≤ nr) :
    |computeBz (fun j => jf (j * h)) h nr i - Bz (i * h)| ≤ h * M0 + h ^ 2 * (nr * h * M2) / 6 := by
  have hn1 : (1 : ℝ) ≤ nr := by exact_mod_cast hn
  have hR : (0 : ℝ) ≤ nr * h := by positivity
  have hM0 : 0 ≤ M0 := (abs_nonneg _).trans (b0 0 le_rfl hR)
  have hM2 : 0 ≤ M2 := (abs_nonneg _).trans (b2 0 le_rfl hR)
  set b : ℕ → ℝ := cumtrapzBackward (fun j => -jf (j * h)) h nr with hbdef
  have hb : ∀ i, i ≤ nr → |b i - (Bz (i * h) - Bz (nr * h))| ≤ h ^ 2 * (nr * h * M2) / 12 := by
    intro i hi
    refine converge_Ez h hh nr (fun r => Bz r - Bz (nr * h)) (fun r => -jf r) (fun r => -jf1 r) (fun r => -jf2 r) M2 (fun r a b => ((d r a b).sub_const _)) (fun r a b => (d0 r a b).neg) (fun r a b => (d1 r a b).neg) (fun r a b => by rw [abs_neg]; exact b2 r a b) (by simp) i hi
  have hbl : b nr = 0 := backward_last _ _ _
  have cell : ∀ j, j < nr → |Flux ((j + 1 : ℕ) * h) - Flux (j * h) - (2 * (j : ℝ) + 1) * h ^ 2 * Bz (j * h)| ≤ (j + 1) * h ^ 3 * M0 := by
    intro j hj
    have hj' : (j : ℝ) + 1 ≤ nr := by exact_mod_cast hj
    have lo : (0 : ℝ) ≤ j * h := by positivity
    have hi : j * h + h ≤ nr * h := by nlinarith
    have sh : ∀ {g g' : ℝ → ℝ}, DerivOn g g' 0 (nr * h) → ∀ t, 0 ≤ t → t ≤ h → HasDerivAt (fun t => g (j * h + t)) (g' (j * h + t)) t := by
      intro g g' hg t h0 ht
      have := (hg (j * h + t) (by linarith) (by linarith)).comp t ((hasDerivAt_id t).const_add (j * h))
      exact this.congr_deriv (by simp)
    have k1 := grow (fun t => Bz (j * h + t) - Bz (j * h)) (fun t => -jf (j * h + t)) h M0 0 (by simp) (fun t h0 ht => (sh d t h0 ht).sub_const _) (fun t h0 ht => by
      rw [abs_neg, pow_zero, mul_one]; exact b0 _ (by linarith) (by linarith))
    have k2 := grow (fun t => Flux (j * h + t) - Flux (j * h) - ((j * h + t) ^ 2 - (j * h) ^ 2) * Bz (j * h)) (fun t => 2 * (j * h + t) * (Bz (j * h + t) - Bz (j * h))) h (2 * (j * h + h) * M0) 1 (by simp) (fun t h0 ht => by
      have := ((sh dF t h0 ht).sub_const (Flux (j * h))).sub (((((hasDerivAt_id t).const_add (j * h)).pow 2).sub_const ((j * h) ^ 2)).mul_const (Bz (j * h)))
      exact this.congr_deriv (by simp only [id_eq]; push_cast; ring)) (fun t h0 ht => by
      have := k1 t h0 ht
      rw [abs_mul, abs_of_nonneg (by linarith : 0 ≤ 2 * (j * h + t)), pow_one]
      simp only [CharP.cast_eq_zero, zero_add, div_one, pow_one] at this
      calc 2 * (j * h + t) * |Bz (j * h + t) - Bz (j * h)| ≤ 2 * (j * h + t) * (M0 * t) := mul_le_mul_of_nonneg_left this (by linarith)
        _ ≤ 2 * (j * h + h) * (M0 * t) := mul_le_mul_of_nonneg_right (by linarith) (by positivity)
        _ = 2 * (j * h + h) * M0 * t := by ring) h hh.le le_rfl
    have ep : ((j + 1 : ℕ) : ℝ) * h = j * h + h := by push_cast; ring
    rw [ep]
    have e : (2 * (j : ℝ) + 1) * h ^ 2 = (j * h + h) ^ 2 - (j * h) ^ 2 := by ring
    rw [e]
    refine k2.trans (le_of_eq ?_)
    push_cast; ring
  have hsum : ∀ n, n ≤ nr → |Flux (n * h) - Flux 0 - ∑ j ∈ range n, (2 * (j : ℝ) + 1) * h ^ 2 * Bz (j * h)| ≤ n * (n + 1) / 2 * h ^ 3 * M0 := by
    intro n
    induction n with
    | zero => intro _; simp
    | succ n ih =>
      intro hn
      rw [sum_range_succ]
      have e : Flux ((n + 1 : ℕ) * h) - Flux 0 - (∑ j ∈ range n, (2 * (j : ℝ) + 1) * h ^ 2 * Bz (j * h) + (2 * (n : ℝ) + 1) * h ^ 2 * Bz (n * h)) =
          (Flux (n * h) - Flux 0 - ∑ j ∈ range n, (2 * (j : ℝ) + 1) * h ^ 2 * Bz (j * h)) + (Flux ((n + 1 : ℕ) * h) - Flux (n * h) - (2 * (n : ℝ) + 1) * h ^ 2 * Bz (n * h)) := by ring
      rw [e]
      refine (abs_add_le _ _).trans ((add_le_add (ih (by omega)) (cell n (by omega))).trans (le_of_eq ?_))
      push_cast; ring
  have hS := hsum nr le_rfl
  rw [hF, sub_self, zero_sub, abs_neg] at hS
  -- the sum of the computed values against the sum of the exact ones
  have hdiff : |∑ j ∈ range nr, (2 * (j : ℝ) + 1) * (b j - (Bz (j * h) - Bz (nr * h)))| ≤ (nr : ℝ) ^ 2 * (h ^ 2 * (nr * h * M2) / 12) := by
    refine (abs_sum_le_sum_abs _ _).trans ?_
    rw [← sum_odd nr, sum_mul]
    apply sum_le_sum
    intro j hj
    rw [mem_range] at hj
    rw [abs_mul, abs_of_nonneg (by positivity : (0 : ℝ) ≤ 2 * j + 1)]
    exact mul_le_mul_of_nonneg_left (hb j hj.le) (by positivity)
  have hflux : ∑ j ∈ range (nr + 1), (2 * (j : ℝ) + 1) * b j = ∑ j ∈ range nr, (2 * (j : ℝ) + 1) * (b j - (Bz (j * h) - Bz (nr * h))) + ∑ j ∈ range nr, (2 * (j : ℝ) + 1) * Bz (j * h) - (nr : ℝ) ^ 2 * Bz (nr * h) := by
    rw [sum_range_succ, hbl, mul_zero, add_zero, ← sum_odd nr, sum_mul, ← sum_add_distrib, ← sum_sub_distrib]
    apply sum_congr rfl
    intro j _
    ring
  have hS2 : |∑ j ∈ range nr, (2 * (j : ℝ) + 1) * Bz (j * h)| ≤ (nr : ℝ) ^ 2 * (h * M0) := by
    have e : ∑ j ∈ range nr, (2 * (j : ℝ) + 1) * h ^ 2 * Bz (j * h) = h ^ 2 * ∑ j ∈ range nr, (2 * (j : ℝ) + 1) * Bz (j * h) := by
      rw [mul_sum]; apply sum_congr rfl; intro j _; ring
    rw [e, abs_mul, abs_of_pos (by positivity : 0 < h ^ 2)] at hS
    have hp : (0 : ℝ) < h ^ 2 := by positivity
    refine le_of_mul_le_mul_left (hS.trans ?_) hp
    have : (nr : ℝ) * (nr + 1) / 2 ≤ nr ^ 2 := by nlinarith
    have h3 : 0 ≤ h ^ 3 * M0 := by positivity
    have := mul_le_mul_of_nonneg_right this h3
    linarith
  have hn2 : (0 : ℝ) < (nr : ℝ) ^ 2 := by positivity
  show |b i - (∑ j ∈ range (nr + 1), (2 * (j : ℝ) + 1) * b j) / (nr : ℝ) ^ 2 - Bz (i * h)| ≤ _
  rw [hflux]
  have e : b i - (∑ j ∈ range nr, (2 * (j : ℝ) + 1) * (b j - (Bz (j * h) - Bz (nr * h))) + ∑ j ∈ range nr, (2 * (j : ℝ) + 1) * Bz (j * h) - (nr : ℝ) ^ 2 * Bz (nr * h)) / (nr : ℝ) ^ 2 - Bz (i * h) =
      (b i - (Bz (i * h) - Bz (nr * h))) - (∑ j ∈ range nr, (2 * (j : ℝ) + 1) * (b j - (Bz (j * h) - Bz (nr * h)))) / (nr : ℝ) ^ 2 - (∑ j ∈ range nr, (2 * (j : ℝ) + 1) * Bz (j * h)) / (nr : ℝ) ^ 2 := by
    generalize ∑ j ∈ range nr, (2 * (j : ℝ) + 1) * (b j - (Bz (j * h) - Bz (nr * h))) = s1
    generalize ∑ j ∈ range nr, (2 * (j : ℝ) + 1) * Bz (j * h) = s2
    rw [sub_div, add_div, mul_div_cancel_left₀ _ hn2.ne']; ring
  rw [e]
  refine (abs_sub _ _).trans ?_
  have t0 := abs_sub (b i - (Bz (i * h) - Bz (nr * h))) ((∑ j ∈ range nr, (2 * (j : ℝ) + 1) * (b j - (Bz (j * h) - Bz (nr * h)))) / (nr : ℝ) ^ 2)
  rw [abs_div _ ((nr : ℝ) ^ 2), abs_of_pos hn2] at t0
  rw [abs_div _ ((nr : ℝ) ^ 2), abs_of_pos hn2]
  have t1 := (div_le_iff₀' hn2).mpr hdiff
  have t2 := (div_le_iff₀' hn2).mpr hS2
  linarith [hb i hi]

/-- The backward integral of a constant. -/
theorem backward_const (c h : ℝ) (nr i : ℕ) (hi : i ≤ nr) : cumtrapzBackward (fun _ => c) h nr i = -(c * (nr * h - i * h)) := by
  rw [cumtrapz_backward _ h nr i hi]
  unfold trapezoid
  rw [sum_const, Nat.card_Ico, nsmul_eq_mul, Nat.cast_sub hi]
  ring

theorem sum_odd_linear (n : ℕ) (c : ℝ) : ∑ j ∈ range n, (2 * (j : ℝ) + 1) * (c - j) = c * (n : ℝ) ^ 2 - n * (n - 1) * (4 * n + 1) / 6 := by
  induction n with
  | zero => simp
  | succ n ih => rw [sum_range_succ, ih]; push_cast; ring

/-- C65, the first order of B_z is attained: a uniform azimuthal current of density 1. The field `2R/3 - r` has the derivative -1 and no flux through the window; the computed field is below it by exactly `h/2 + h²/(6 R)` at every node, on every grid. -/
theorem Bz_first_order (h : ℝ) (hh : 0 < h) (nr : ℕ) (hn : 1 ≤ nr) :
    DerivOn (fun r => 2 * (nr * h) / 3 - r) (fun _ => -1) 0 (nr * h) ∧ DerivOn (fun r => 2 * (nr * h) / 3 * r ^ 2 - 2 / 3 * r ^ 3) (fun r => 2 * r * (2 * (nr * h) / 3 - r)) 0 (nr * h) ∧
    2 * (nr * h) / 3 * (0 : ℝ) ^ 2 - 2 / 3 * 0 ^ 3 = 2 * (nr * h) / 3 * (nr * h) ^ 2 - 2 / 3 * (nr * h) ^ 3 ∧
    ∀ i, i ≤ nr → computeBz (fun _ => 1) h nr i = (2 * (nr * h) / 3 - i * h) - (h / 2 + h ^ 2 / (6 * (nr * h))) := by
  have hn0 : (nr : ℝ) ≠ 0 := by positivity
  refine ⟨fun r _ _ => ?_, fun r _ _ => ?_, by ring, fun i hi => ?_⟩
  · simpa using (hasDerivAt_id r).const_sub (2 * (nr * h) / 3)
  · exact (((hasDerivAt_pow 2 r).const_mul (2 * (nr * h) / 3)).sub ((hasDerivAt_pow 3 r).const_mul (2 / 3))).congr_deriv (by push_cast; ring)
  · unfold computeBz
    have hb : ∀ j, j ≤ nr → cumtrapzBackward (fun _ => (-1 : ℝ)) h nr j = h * (nr - j) := by
      intro j hj; rw [backward_const _ h nr j hj]; ring
    have hs : ∑ j ∈ range (nr + 1), (2 * (j : ℝ) + 1) * cumtrapzBackward (fun _ => (-1 : ℝ)) h nr j = h * ((nr : ℝ) * (nr : ℝ) ^ 2 - nr * (nr - 1) * (4 * nr + 1) / 6) := by
      rw [sum_range_succ, backward_last, mul_zero, add_zero, ← sum_odd_linear, mul_sum]
      apply sum_congr rfl
      intro j hj
      rw [mem_range] at hj
      rw [hb j hj.le]; ring
    simp only [hs, hb i hi]
    field_simp
    ring

end Lcode.Plasma2D
