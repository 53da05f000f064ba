import Verif.Fp.Tridiag

/-!
C71, continued: the wall rows of the tridiagonal solver in doubles, and the distance between the computed array and the exact solution of the discretised equation.
-/

namespace Lcode.Fp

open Lcode.Plasma2D Finset

/-! ### The wall -/

theorem solveF_axis (rhs pf : ℕ → ℚ) (h : ℚ) (bc : ℚ × ℚ) (nr : ℕ) (hn : 1 ≤ nr) : tridiagonalSolveF rhs pf h bc nr 0 = 0 := by
  rw [solveF_step rhs pf h bc nr 0 (by omega)]
  simp [sweepFwdF, fl_zero]

theorem solveF_wall (rhs pf : ℕ → ℚ) (h : ℚ) (bc : ℚ × ℚ) (nr : ℕ) : tridiagonalSolveF rhs pf h bc nr nr =
    fl (fl (fl (bc.1 * (sweepFwdF rhs pf h (nr - 1)).2) - fl (h * rhs nr)) / divisorF bc.2 bc.1 (sweepFwdF rhs pf h (nr - 1)).1) := by
  unfold tridiagonalSolveF
  rw [Nat.sub_self, sweepBackF]

/-- C71, E_phi: the value at the wall is the rounded `h * rhs`. -/
theorem dirichlet_wall (rhs pf : ℕ → ℚ) (h : ℚ) (nr : ℕ) : solveDirichletF rhs pf h nr nr = fl (h * rhs nr) := by
  unfold solveDirichletF
  rw [solveF_wall]
  unfold divisorF
  simp only [zero_mul, fl_zero, zero_sub, sub_zero, fl_neg, fl_fl, fl_one]
  rw [neg_div_neg_eq, div_one, fl_fl]

theorem half_exact {nr : ℕ} (hn : 1 ≤ nr) (h2 : nr ≤ 2 ^ 24) : fl ((nr : ℚ) - 1 / 2) = nr - 1 / 2 := by
  refine fl_exact ⟨2 * nr - 1, -1, ?_, ?_⟩
  · rw [abs_le]; constructor <;> omega
  · push_cast; rw [zpow_neg_one]; ring

/-- The boundary numbers in doubles against the exact ones. -/
theorem neumannBc_err {nr : ℕ} (hn : 1 ≤ nr) (h2 : nr ≤ 2 ^ 24) :
    Rel 1 (neumannBcF nr).1 (neumannBc nr).1 ∧ Rel 1 (neumannBcF nr).2 (neumannBc nr).2 := by
  unfold neumannBcF neumannBc
  rw [half_exact hn h2]
  exact ⟨(Rel.refl _).fl, (Rel.refl _).fl⟩

theorem neumannBc_range {nr : ℕ} (hn : 1 ≤ nr) (h2 : nr ≤ 2 ^ 24) :
    (neumannBcF nr).1 ≤ 0 ∧ (neumannBcF nr).2 ≤ -1 ∧ -1 < (neumannBcF nr).1 := by
  unfold neumannBcF
  rw [half_exact hn h2]
  have h1 : (1 : ℚ) ≤ nr := by exact_mod_cast hn
  have h3 : (nr : ℚ) ≤ 2 ^ 24 := by exact_mod_cast h2
  have hp : (0 : ℚ) < nr - 1 / 2 := by linarith
  have key : ∀ x : ℚ, x ≤ 0 → fl x ≤ 0 := fun x hx => by rw [← fl_zero]; exact fl_mono hx
  have f1 : fl (-1) = -1 := by rw [fl_neg, fl_one]
  refine ⟨key _ (div_nonpos_of_nonpos_of_nonneg (by linarith) hp.le), ?_, ?_⟩
  · show fl (-(nr : ℚ) / (nr - 1 / 2)) ≤ -1
    conv_rhs => rw [← f1]
    apply fl_mono
    rw [div_le_iff₀ hp]; linarith
  · show -1 < fl (-((nr : ℚ) - 1) / (nr - 1 / 2))
    rw [neg_div, fl_neg, neg_lt_neg_iff]
    refine lt_of_le_of_lt (fl_hi (div_nonneg (by linarith) hp.le)) ?_
    rw [div_mul_eq_mul_div, div_lt_one hp]
    have : ((nr : ℚ) - 1) * u ≤ 2 ^ 24 * u := mul_le_mul_of_nonneg_right (by linarith) u_pos.le
    have h4 : (2 : ℚ) ^ 24 * u < 1 / 2 := by unfold u; norm_num
    linarith

/-- The last divisor is negative in doubles. -/
theorem neumann_divisor {nr : ℕ} (hn : 1 ≤ nr) (h2 : nr ≤ 2 ^ 24) {al : ℚ} (h0 : 0 ≤ al) (h1 : al ≤ 1) : divisorF (neumannBcF nr).2 (neumannBcF nr).1 al < 0 := by
  obtain ⟨c0, b1, c1⟩ := neumannBc_range hn h2
  have hf : IsFloat (neumannBcF nr).1 := isFloat_fl _
  unfold divisorF
  generalize (neumannBcF nr).2 = b at *
  generalize (neumannBcF nr).1 = c at *
  have : c ≤ fl (c * al) := by
    conv_lhs => rw [← fl_exact hf]
    exact fl_mono (by nlinarith)
  rw [← neg_pos, ← fl_neg]
  exact fl_pos (by linarith)

/-- C71, E_r: the wall row of the computed array. -/
theorem neumann_wall (rhs pf : ℕ → ℚ) (h : ℚ) (nr : ℕ) (hn : 1 ≤ nr) (h2 : nr ≤ 2 ^ 24) (hpf : ∀ j, 1 ≤ j → j < nr → 0 ≤ pf j) (y : ℕ → ℚ) (hy : y = solveNeumannF rhs pf h nr) :
    |nr * y nr - (nr - 1) * y (nr - 1) - (nr - 1 / 2) * (h * rhs nr)| ≤ gam 10 * (nr * |y nr| + (nr - 1) * |y (nr - 1)| + (nr - 1 / 2) * |h * rhs nr|) := by
  have hstep := solveF_step rhs pf h (neumannBcF nr) nr (nr - 1) (by omega)
  rw [show nr - 1 + 1 = nr by omega] at hstep
  have hw := solveF_wall rhs pf h (neumannBcF nr) nr
  change y = tridiagonalSolveF rhs pf h (neumannBcF nr) nr at hy
  rw [← hy] at hstep hw
  obtain ⟨a0, a1⟩ := alphaF_range rhs pf h (nr - 1) (by omega) (fun j a b => hpf j a (by omega))
  have ht := neumann_divisor hn h2 a0 a1
  obtain ⟨c0, b1, c1⟩ := neumannBc_range hn h2
  obtain ⟨rc, rb⟩ := neumannBc_err hn h2
  have hn1 : (1 : ℚ) ≤ nr := by exact_mod_cast hn
  have hs : (0 : ℚ) < nr - 1 / 2 := by linarith
  have et : divisorF (neumannBcF nr).2 (neumannBcF nr).1 (sweepFwdF rhs pf h (nr - 1)).1 = fl ((neumannBcF nr).2 - fl ((neumannBcF nr).1 * (sweepFwdF rhs pf h (nr - 1)).1)) := rfl
  generalize divisorF (neumannBcF nr).2 (neumannBcF nr).1 (sweepFwdF rhs pf h (nr - 1)).1 = t at *
  generalize (sweepFwdF rhs pf h (nr - 1)).1 = αp at *
  generalize (sweepFwdF rhs pf h (nr - 1)).2 = βp at *
  generalize (neumannBcF nr).2 = b at *
  generalize (neumannBcF nr).1 = c at *
  generalize y nr = yn at *
  generalize y (nr - 1) = ym at *
  have rd : Rel 1 (fl (h * rhs nr)) (h * rhs nr) := (Rel.refl _).fl
  generalize h * rhs nr = D at *
  generalize fl D = d at *
  obtain ⟨d1, k1, x1⟩ := fl_delta (c * αp)
  obtain ⟨d2, k2, x2⟩ := fl_delta (b - fl (c * αp))
  obtain ⟨d5, k5, x5⟩ := fl_delta (c * βp)
  obtain ⟨d6, k6, x6⟩ := fl_delta (fl (c * βp) - d)
  obtain ⟨d7, k7, x7⟩ := fl_delta (fl (fl (c * βp) - d) / t)
  obtain ⟨e8, l8, z8⟩ := fl_delta (yn * αp)
  obtain ⟨e9, l9, z9⟩ := fl_delta (βp + fl (yn * αp))
  have hz : |(0 : ℚ)| ≤ u := by rw [abs_zero]; exact u_pos.le
  have key := row_backward 9 1 (by norm_num) (by unfold gam u; norm_num) (a := 0) (b := -b) (c := -c) (d := -d) (αp := αp) (βp := βp) (t := -t) (α := 0) (β := yn) (den := 1 / -t) (yp := 0) (y := yn) (ym := ym)
    (d1 := d1) (d2 := d2) (d3 := 0) (d4 := 0) (d5 := d5) (d6 := d6) (d7 := d7) (d8 := 0) (d9 := 0) (e8 := e8) (e9 := e9)
    (by rw [et, x2, x1]; ring) (neg_ne_zero.mpr ht.ne) (by ring) (by ring) (by rw [hw, x7, x6, x5, one_div, inv_neg]; ring) (by ring) (by rw [hstep, z9, z8])
    k1 k2 hz hz k5 k6 k7 hz hz l8 l9 a0 a1 (by linarith) (by linarith) (by linarith)
  have neg1 : ∀ {a b : ℚ}, Rel 1 a b → Rel 1 (-a) (-b) := by
    intro a b h
    unfold Rel at *
    rw [abs_neg, show -a - -b = -(a - b) by ring, abs_neg]
    exact h
  have key2 := row_exact 9 1 (A := 0) ((Rel.refl 0).mono (by norm_num)) (neg1 rb) (neg1 rc) (neg1 rd) key
  have eb : (neumannBc nr : ℚ × ℚ).2 = -(nr : ℚ) / (nr - 1 / 2) := rfl
  have ec : (neumannBc nr : ℚ × ℚ).1 = -((nr : ℚ) - 1) / (nr - 1 / 2) := rfl
  rw [eb, ec] at key2
  generalize hsd : (nr : ℚ) - 1 / 2 = s at *
  have key3 := mul_le_mul_of_nonneg_left key2 hs.le
  have e1 : s * |0 * 0 - -(-(nr : ℚ) / s) * yn + -(-((nr : ℚ) - 1) / s) * ym - -D| = |nr * yn - (nr - 1) * ym - s * D| := by
    rw [← abs_of_pos hs, ← abs_mul, abs_of_pos hs, ← abs_neg]
    congr 1
    field_simp
    ring
  have e2 : s * (gam (9 + 1) * (|(0 : ℚ) * 0| + |-(-(nr : ℚ) / s) * yn| + |-(-((nr : ℚ) - 1) / s) * ym| + |-D|)) = gam 10 * (nr * |yn| + (nr - 1) * |ym| + s * |D|) := by
    rw [mul_zero, abs_zero, abs_mul, abs_mul, abs_neg D, show -(-(nr : ℚ) / s) = nr / s by ring, show -(-((nr : ℚ) - 1) / s) = (nr - 1) / s by ring,
      abs_of_nonneg (by positivity : (0 : ℚ) ≤ nr / s), abs_of_nonneg (div_nonneg (by linarith) hs.le : (0 : ℚ) ≤ (nr - 1) / s)]
    field_simp
    ring
  rw [e1, e2] at key3
  exact key3

/-! ### Distance to the exact solution -/

theorem exists_maxQ (e : ℕ → ℚ) (n : ℕ) : ∃ m, m ≤ n ∧ ∀ i, i ≤ n → |e i| ≤ |e m| := by
  obtain ⟨m, hm, h⟩ := (range (n + 1)).exists_max_image (fun i => |e i|) ⟨0, by simp⟩
  exact ⟨m, by simpa [Nat.lt_succ_iff] using hm, fun i hi => h i (by simpa [Nat.lt_succ_iff] using hi)⟩

/-- Maximum principle of the rows. -/
theorem max_rows (h : ℚ) (nr : ℕ) (pf e : ℕ → ℚ) (hpf : ∀ i, 1 ≤ i → i < nr → 0 ≤ pf i) (B : ℚ) (h0 : e 0 = 0) (hB : 0 ≤ B)
    (hin : ∀ i, 1 ≤ i → i < nr → |rowA i * e (i + 1) - rowB pf h i * e i + rowC i * e (i - 1)| ≤ B * (pf i * h ^ 2 + 1 / (i : ℚ) ^ 2))
    (hw : 1 ≤ nr → |e nr| ≤ B ∨ |nr * e nr - (nr - 1) * e (nr - 1)| ≤ B) (i : ℕ) (hi : i ≤ nr) : |e i| ≤ B := by
  obtain ⟨m, hm, hmax⟩ := exists_maxQ e nr
  refine (hmax i hi).trans ?_
  rcases Nat.eq_zero_or_pos m with rfl | hm0
  · rw [h0, abs_zero]; exact hB
  have hm1 : (1 : ℚ) ≤ m := by exact_mod_cast hm0
  rcases hm.lt_or_eq with hlt | rfl
  · have hres := hin m hm0 hlt
    have h1 := hmax (m + 1) (by omega)
    have h2 := hmax (m - 1) (by omega)
    have hx := half_over hm0
    have hA : (0 : ℚ) ≤ rowA m := by unfold rowA; linarith
    have hC : (0 : ℚ) ≤ rowC m := by unfold rowC; linarith
    have hp := mul_nonneg (hpf m hm0 hlt) (sq_nonneg h)
    have hpos : 0 < pf m * h ^ 2 + 1 / (m : ℚ) ^ 2 := by positivity
    have eB : rowB pf h m = 2 + (pf m * h ^ 2 + 1 / (m : ℚ) ^ 2) := by unfold rowB; ring
    have hAC : (rowA m + rowC m : ℚ) = 2 := by unfold rowA rowC; ring
    rw [eB] at hres
    generalize pf m * h ^ 2 + 1 / (m : ℚ) ^ 2 = q at *
    generalize (rowA m : ℚ) = A at *
    generalize (rowC m : ℚ) = C at *
    have t1 := abs_sub (A * e (m + 1) + C * e (m - 1)) (A * e (m + 1) - (2 + q) * e m + C * e (m - 1))
    rw [show A * e (m + 1) + C * e (m - 1) - (A * e (m + 1) - (2 + q) * e m + C * e (m - 1)) = (2 + q) * e m by ring, abs_mul, abs_of_pos (by linarith : 0 < 2 + q)] at t1
    have t2 := abs_add_le (A * e (m + 1)) (C * e (m - 1))
    rw [abs_mul, abs_of_nonneg hA, abs_mul, abs_of_nonneg hC] at t2
    have t3 := mul_le_mul_of_nonneg_left h1 hA
    have t4 := mul_le_mul_of_nonneg_left h2 hC
    have t5 : A * |e m| + C * |e m| = 2 * |e m| := by rw [← add_mul, hAC]
    have t6 : q * |e m| ≤ q * B := by linarith
    exact le_of_mul_le_mul_left t6 hpos
  · rcases hw hm0 with hd | hg
    · exact hd
    · have h2 := hmax (m - 1) (by omega)
      have t1 : (m : ℚ) * |e m| ≤ |m * e m - (m - 1) * e (m - 1)| + (m - 1) * |e (m - 1)| := by
        have := abs_add_le (m * e m - (m - 1) * e (m - 1)) ((m - 1) * e (m - 1))
        rw [sub_add_cancel, abs_mul, abs_of_nonneg (by linarith : (0 : ℚ) ≤ m), abs_mul ((m : ℚ) - 1), abs_of_nonneg (by linarith : (0 : ℚ) ≤ (m : ℚ) - 1)] at this
        exact this
      have t2 := mul_le_mul_of_nonneg_left h2 (by linarith : (0 : ℚ) ≤ (m : ℚ) - 1)
      linarith

/-- Both boundary conditions at once. `N` measures how well the equation is conditioned. -/
theorem forward_error (rhs pf : ℕ → ℚ) (h : ℚ) (bc bc' : ℚ × ℚ) (nr : ℕ) (hn : 1 ≤ nr) (h24 : nr ≤ 2 ^ 24) (hpf : ∀ j, 1 ≤ j → j < nr → 0 ≤ pf j) (hh : 0 < h) (N Y F W : ℚ) (hN0 : 0 ≤ N)
    (hN : ∀ i, 1 ≤ i → i < nr → 1 ≤ N * (pf i * h ^ 2 + 1 / (i : ℚ) ^ 2)) (hW : 0 ≤ W) (hsmall : gam 11 * (4 * N + 1 + W) ≤ 1 / 2)
    (hY : ∀ i ≤ nr, |tridiagonalSolve rhs pf h bc nr i| ≤ Y) (hF : ∀ i, 1 ≤ i → i < nr → |rhs i| ≤ F) (hF0 : 0 ≤ F)
    (hwall : ∀ M, (∀ i ≤ nr, |tridiagonalSolveF rhs pf h bc' nr i| ≤ M) →
      |tridiagonalSolveF rhs pf h bc' nr nr - tridiagonalSolve rhs pf h bc nr nr| ≤ gam 11 * (W * (M + Y)) ∨
      |nr * (tridiagonalSolveF rhs pf h bc' nr nr - tridiagonalSolve rhs pf h bc nr nr) - (nr - 1) * (tridiagonalSolveF rhs pf h bc' nr (nr - 1) - tridiagonalSolve rhs pf h bc nr (nr - 1))| ≤ gam 11 * (W * (M + Y)))
    (i : ℕ) (hi : i ≤ nr) :
    |tridiagonalSolveF rhs pf h bc' nr i - tridiagonalSolve rhs pf h bc nr i| ≤ 2 * gam 11 * ((4 * N + 1 + 2 * W) * Y + N * (h ^ 2 * F)) := by
  obtain ⟨m, hm, hmax⟩ := exists_maxQ (tridiagonalSolveF rhs pf h bc' nr) nr
  have hw := hwall _ hmax
  have hY0 : 0 ≤ Y := (abs_nonneg _).trans (hY 0 (by omega))
  have hg := gam_nonneg 11
  have hM0 : 0 ≤ |tridiagonalSolveF rhs pf h bc' nr m| := abs_nonneg _
  have main := max_rows h nr pf (fun i => tridiagonalSolveF rhs pf h bc' nr i - tridiagonalSolve rhs pf h bc nr i) hpf
    (gam 11 * ((4 * N + 1) * |tridiagonalSolveF rhs pf h bc' nr m| + N * (h ^ 2 * F) + W * (|tridiagonalSolveF rhs pf h bc' nr m| + Y)))
    (by simp only [solveF_axis rhs pf h bc' nr hn, solve_axis rhs pf h bc nr hn, sub_zero]) (by positivity) ?_ ?_
  · have h1 := main m hm
    have h2 := main i hi
    beta_reduce at h1 h2
    have h3 := hY m hm
    refine h2.trans ?_
    generalize tridiagonalSolveF rhs pf h bc' nr m = ym at *
    generalize tridiagonalSolve rhs pf h bc nr m = zm at *
    have h4 : |ym| ≤ Y + gam 11 * ((4 * N + 1) * |ym| + N * (h ^ 2 * F) + W * (|ym| + Y)) := by
      have := abs_add_le (ym - zm) zm
      rw [sub_add_cancel] at this
      linarith
    generalize h ^ 2 * F = H at *
    generalize |ym| = M at *
    generalize gam 11 = g at *
    have e : g * ((4 * N + 1) * M + N * H + W * (M + Y)) = g * (4 * N + 1 + W) * M + g * (N * H + W * Y) := by ring
    rw [e] at h4 ⊢
    have h5 : g * (4 * N + 1 + W) * M ≤ g * (4 * N + 1 + W) * (Y + (g * (4 * N + 1 + W) * M + g * (N * H + W * Y))) := mul_le_mul_of_nonneg_left h4 (by positivity)
    generalize hX : g * (4 * N + 1 + W) * M + g * (N * H + W * Y) = X at *
    have hX0 : 0 ≤ X ∨ X < 0 := le_or_gt 0 X
    have h6 : g * (4 * N + 1 + W) * X ≤ X / 2 := by
      rcases hX0 with hp | hneg
      · have := mul_le_mul_of_nonneg_right hsmall hp
        linarith
      · have : M < Y := by linarith
        exfalso
        have q1 : 0 ≤ g * (4 * N + 1 + W) * M := by positivity
        have q2 : 0 ≤ g * (W * Y) := by positivity
        have q3 : g * (N * H) < 0 := by linarith [(by ring : g * (N * H + W * Y) = g * (N * H) + g * (W * Y))]
        have : 0 ≤ (abs (0 : ℚ)) := abs_nonneg _
        linarith [h2, abs_nonneg (tridiagonalSolveF rhs pf h bc' nr i - tridiagonalSolve rhs pf h bc nr i)]
    linarith [(by ring : g * (4 * N + 1 + W) * (Y + X) = g * (4 * N + 1 + W) * Y + g * (4 * N + 1 + W) * X), (by ring : 2 * g * ((4 * N + 1 + 2 * W) * Y + N * H) = 2 * (g * (4 * N + 1 + W) * Y + g * (N * H + W * Y)))]
  · intro i h1 h2
    beta_reduce
    have hr := rows_rowform rhs pf h bc' nr h24 hpf i h1 h2
    have he := (row_iff h hh.ne' rhs pf _ i h1).mp (solve_rows rhs pf h hh.ne' bc nr hpf i h1 h2)
    have y1 := hmax (i + 1) (by omega)
    have y0 := hmax i (by omega)
    have ym := hmax (i - 1) (by omega)
    have hx := half_over h1
    have hA : (0 : ℚ) ≤ rowA i := by unfold rowA; linarith
    have hC : (0 : ℚ) ≤ rowC i := by unfold rowC; linarith
    have hp := mul_nonneg (hpf i h1 h2) (sq_nonneg h)
    have hNi := hN i h1 h2
    have hi1 : (1 : ℚ) ≤ i := by exact_mod_cast h1
    have hq : 0 < pf i * h ^ 2 + 1 / (i : ℚ) ^ 2 := by positivity
    have eB : rowB pf h i = 2 + (pf i * h ^ 2 + 1 / (i : ℚ) ^ 2) := by unfold rowB; ring
    have hAC : (rowA i + rowC i : ℚ) = 2 := by unfold rowA rowC; ring
    have hf := mul_le_mul_of_nonneg_left (hF i h1 h2) (sq_nonneg h)
    have hH0 : 0 ≤ h ^ 2 * F := by positivity
    rw [abs_mul (rowA i), abs_mul (rowB pf h i), abs_mul (rowC i), abs_mul (h ^ 2), abs_of_nonneg hA, abs_of_nonneg hC, abs_of_nonneg (sq_nonneg h)] at hr
    rw [eB] at hr he ⊢
    generalize pf i * h ^ 2 + 1 / (i : ℚ) ^ 2 = q at *
    rw [abs_of_nonneg (by linarith : 0 ≤ 2 + q)] at hr
    generalize (rowA i : ℚ) = A at *
    generalize (rowC i : ℚ) = C at *
    generalize tridiagonalSolveF rhs pf h bc' nr (i + 1) = f1 at *
    generalize tridiagonalSolveF rhs pf h bc' nr i = f0 at *
    generalize tridiagonalSolveF rhs pf h bc' nr (i - 1) = fm at *
    generalize tridiagonalSolve rhs pf h bc nr (i + 1) = z1 at *
    generalize tridiagonalSolve rhs pf h bc nr i = z0 at *
    generalize tridiagonalSolve rhs pf h bc nr (i - 1) = zm at *
    generalize |tridiagonalSolveF rhs pf h bc' nr m| = M at *
    have e : A * (f1 - z1) - (2 + q) * (f0 - z0) + C * (fm - zm) = A * f1 - (2 + q) * f0 + C * fm - h ^ 2 * rhs i := by linarith
    rw [e]
    refine hr.trans ?_
    rw [mul_assoc]
    apply mul_le_mul_of_nonneg_left _ hg
    generalize h ^ 2 * F = H at *
    have t1 := mul_le_mul_of_nonneg_left y1 hA
    have t2 := mul_le_mul_of_nonneg_left y0 (by linarith : 0 ≤ 2 + q)
    have t3 := mul_le_mul_of_nonneg_left ym hC
    have t5 : A * M + C * M = 2 * M := by rw [← add_mul, hAC]
    have t6 := mul_le_mul_of_nonneg_right hNi (by linarith : 0 ≤ 4 * M + H)
    have t7 : 0 ≤ W * (M + Y) * q := by positivity
    linarith
  · intro _
    have hx : gam 11 * (W * (|tridiagonalSolveF rhs pf h bc' nr m| + Y)) ≤ gam 11 * ((4 * N + 1) * |tridiagonalSolveF rhs pf h bc' nr m| + N * (h ^ 2 * F) + W * (|tridiagonalSolveF rhs pf h bc' nr m| + Y)) := by
      apply mul_le_mul_of_nonneg_left _ hg
      have : 0 ≤ (4 * N + 1) * |tridiagonalSolveF rhs pf h bc' nr m| + N * (h ^ 2 * F) := by positivity
      linarith
    exact hw.imp (fun k => k.trans hx) (fun k => k.trans hx)

theorem gam11 : gam 11 ≤ 12 * u := by unfold gam u; norm_num

/-- C71, the solver used for E_phi: distance between the doubles and the exact solution, for any `N` with `N (pf h² + 1/i²) ≥ 1`. `Y` bounds the exact solution and `F` the right-hand side. -/
theorem dirichlet_error (rhs pf : ℕ → ℚ) (h : ℚ) (hh : 0 < h) (nr : ℕ) (hn : 1 ≤ nr) (h24 : nr ≤ 2 ^ 24) (hpf : ∀ j, 1 ≤ j → j < nr → 0 ≤ pf j) (N Y F : ℚ) (hN0 : 0 ≤ N) (hN1 : N ≤ 2 ^ 46)
    (hN : ∀ i, 1 ≤ i → i < nr → 1 ≤ N * (pf i * h ^ 2 + 1 / (i : ℚ) ^ 2)) (hF0 : 0 ≤ F) (hY : ∀ i ≤ nr, |solveDirichlet rhs pf h nr i| ≤ Y) (hF : ∀ i, 1 ≤ i → i < nr → |rhs i| ≤ F) (i : ℕ) (hi : i ≤ nr) :
    |solveDirichletF rhs pf h nr i - solveDirichlet rhs pf h nr i| ≤ 24 * u * ((4 * N + 3) * Y + N * (h ^ 2 * F)) := by
  have hY0 : 0 ≤ Y := (abs_nonneg _).trans (hY 0 (by omega))
  have key := forward_error rhs pf h (0, -1) (0, -1) nr hn h24 hpf hh N Y F 1 hN0 hN zero_le_one ?_ hY hF hF0 ?_ i hi
  · refine key.trans ?_
    have : 0 ≤ (4 * N + 1 + 2 * 1) * Y + N * (h ^ 2 * F) := by positivity
    have := mul_le_mul_of_nonneg_right gam11 this
    linarith
  · have : gam 11 * (4 * N + 1 + 1) ≤ 12 * u * (4 * 2 ^ 46 + 1 + 1) := mul_le_mul gam11 (by linarith) (by positivity) (by linarith [u_pos])
    refine this.trans ?_
    unfold u; norm_num
  · intro M hM
    left
    have e1 := dirichlet_wall rhs pf h nr
    have e2 := (dirichlet_solves rhs pf h hh nr hn hpf).2.2
    have e3 := hY nr le_rfl
    change |solveDirichletF rhs pf h nr nr - solveDirichlet rhs pf h nr nr| ≤ _
    have hM0 := (abs_nonneg _).trans (hM 0 (by omega))
    have hw := fl_abs_err (h * rhs nr)
    rw [← e1, ← e2] at hw
    have g1 : u ≤ gam 11 := by unfold gam u; norm_num
    refine hw.trans ?_
    exact mul_le_mul g1 (by linarith) (abs_nonneg _) (gam_nonneg 11)

/-- C71, the solver used for E_r. -/
theorem neumann_error (rhs pf : ℕ → ℚ) (h : ℚ) (hh : 0 < h) (nr : ℕ) (hn : 1 ≤ nr) (h24 : nr ≤ 2 ^ 24) (hpf : ∀ j, 1 ≤ j → j < nr → 0 ≤ pf j) (N Y F : ℚ) (hN0 : 0 ≤ N) (hN1 : N ≤ 2 ^ 46)
    (hN : ∀ i, 1 ≤ i → i < nr → 1 ≤ N * (pf i * h ^ 2 + 1 / (i : ℚ) ^ 2)) (hF0 : 0 ≤ F) (hY : ∀ i ≤ nr, |solveNeumann rhs pf h nr i| ≤ Y) (hF : ∀ i, 1 ≤ i → i < nr → |rhs i| ≤ F) (i : ℕ) (hi : i ≤ nr) :
    |solveNeumannF rhs pf h nr i - solveNeumann rhs pf h nr i| ≤ 24 * u * ((4 * N + 4 * nr + 1) * Y + N * (h ^ 2 * F)) := by
  have hY0 : 0 ≤ Y := (abs_nonneg _).trans (hY 0 (by omega))
  have hn1 : (1 : ℚ) ≤ nr := by exact_mod_cast hn
  have h24' : (nr : ℚ) ≤ 2 ^ 24 := by exact_mod_cast h24
  have key := forward_error rhs pf h (neumannBc nr) (neumannBcF nr) nr hn h24 hpf hh N Y F (2 * nr) hN0 hN (by positivity) ?_ hY hF hF0 ?_ i hi
  · refine key.trans ?_
    have : 0 ≤ (4 * N + 1 + 2 * (2 * nr)) * Y + N * (h ^ 2 * F) := by positivity
    have := mul_le_mul_of_nonneg_right gam11 this
    linarith
  · have : gam 11 * (4 * N + 1 + 2 * nr) ≤ 12 * u * (4 * 2 ^ 46 + 1 + 2 * 2 ^ 24) := mul_le_mul gam11 (by linarith) (by positivity) (by linarith [u_pos])
    refine this.trans ?_
    unfold u; norm_num
  · intro M hM
    right
    have hw := neumann_wall rhs pf h nr hn h24 hpf _ rfl
    have e2 := (neumann_solves rhs pf h hh nr hn hpf).2.2
    change |nr * (solveNeumannF rhs pf h nr nr - solveNeumann rhs pf h nr nr) - (nr - 1) * (solveNeumannF rhs pf h nr (nr - 1) - solveNeumann rhs pf h nr (nr - 1))| ≤ _
    have m1 := hM nr le_rfl
    have m2 := hM (nr - 1) (by omega)
    have y1 := hY nr le_rfl
    have y2 := hY (nr - 1) (by omega)
    change |solveNeumannF rhs pf h nr nr| ≤ M at m1
    change |solveNeumannF rhs pf h nr (nr - 1)| ≤ M at m2
    generalize solveNeumannF rhs pf h nr nr = a at *
    generalize solveNeumannF rhs pf h nr (nr - 1) = b at *
    generalize solveNeumann rhs pf h nr nr = z at *
    generalize solveNeumann rhs pf h nr (nr - 1) = v at *
    have hs : (0 : ℚ) < nr - 1 / 2 := by linarith
    have e3 : nr * z - (nr - 1) * v = (nr - 1 / 2) * (h * rhs nr) := by
      rw [div_div, div_eq_iff (by positivity)] at e2
      apply mul_left_cancel₀ hh.ne'
      linear_combination e2
    rw [← abs_of_pos hs, ← abs_mul, abs_of_pos hs, ← e3] at hw
    have hw2 : |nr * a - (nr - 1) * b - (nr * z - (nr - 1) * v)| ≤ gam 10 * (2 * nr * (M + Y)) := by
      refine hw.trans (mul_le_mul_of_nonneg_left ?_ (gam_nonneg 10))
      have t1 := mul_le_mul_of_nonneg_left m1 (by linarith : (0 : ℚ) ≤ nr)
      have t2 := mul_le_mul_of_nonneg_left m2 (by linarith : (0 : ℚ) ≤ (nr : ℚ) - 1)
      have t3 := mul_le_mul_of_nonneg_left y1 (by linarith : (0 : ℚ) ≤ nr)
      have t4 := mul_le_mul_of_nonneg_left y2 (by linarith : (0 : ℚ) ≤ (nr : ℚ) - 1)
      have t5 := abs_sub (nr * z) ((nr - 1) * v)
      rw [abs_mul, abs_mul, abs_of_nonneg (by linarith : (0 : ℚ) ≤ nr), abs_of_nonneg (by linarith : (0 : ℚ) ≤ (nr : ℚ) - 1)] at t5
      have : 0 ≤ M := (abs_nonneg _).trans m1
      linarith
    rw [show nr * (a - z) - (nr - 1) * (b - v) = nr * a - (nr - 1) * b - (nr * z - (nr - 1) * v) by ring]
    refine hw2.trans (mul_le_mul_of_nonneg_right (gam_mono (by norm_num)) ?_)
    have : 0 ≤ M := (abs_nonneg _).trans m1
    positivity

/-- C71, in plain numbers, for the factors of the code (at least one, fields.py:195-197, 243): with a step of at least 2^-22 and at most 2^24 cells, the relative error of the computed field is at most about `100/h²` roundings. -/
theorem solvers_doubles (rhs pf : ℕ → ℚ) (h : ℚ) (hh : 1 / 2 ^ 22 ≤ h) (nr : ℕ) (hn : 1 ≤ nr) (h24 : nr ≤ 2 ^ 24) (hpf : ∀ j, 1 ≤ j → j < nr → 1 ≤ pf j) (F : ℚ) (hF : ∀ i, 1 ≤ i → i < nr → |rhs i| ≤ F) (hF0 : 0 ≤ F) (Y : ℚ) (i : ℕ) (hi : i ≤ nr) :
    ((∀ i ≤ nr, |solveDirichlet rhs pf h nr i| ≤ Y) → |solveDirichletF rhs pf h nr i - solveDirichlet rhs pf h nr i| ≤ 24 / 2 ^ 53 * ((4 / h ^ 2 + 3) * Y + F)) ∧
    ((∀ i ≤ nr, |solveNeumann rhs pf h nr i| ≤ Y) → |solveNeumannF rhs pf h nr i - solveNeumann rhs pf h nr i| ≤ 24 / 2 ^ 53 * ((4 / h ^ 2 + 4 * nr + 1) * Y + F)) := by
  have h0 : 0 < h := lt_of_lt_of_le (by norm_num) hh
  have hN0 : 0 ≤ 1 / h ^ 2 := by positivity
  have hN1 : 1 / h ^ 2 ≤ 2 ^ 46 := by
    have : (1 / 2 ^ 22) ^ 2 ≤ h ^ 2 := pow_le_pow_left₀ (by norm_num) hh 2
    rw [div_le_iff₀ (by positivity)]
    have := mul_le_mul_of_nonneg_left this (by norm_num : (0 : ℚ) ≤ 2 ^ 46)
    refine le_trans (by norm_num) this
  have hN : ∀ i, 1 ≤ i → i < nr → 1 ≤ 1 / h ^ 2 * (pf i * h ^ 2 + 1 / (i : ℚ) ^ 2) := by
    intro i h1 h2
    have := hpf i h1 h2
    have e : 1 / h ^ 2 * (pf i * h ^ 2 + 1 / (i : ℚ) ^ 2) = pf i + 1 / h ^ 2 * (1 / (i : ℚ) ^ 2) := by field_simp
    rw [e]
    have : 0 ≤ 1 / h ^ 2 * (1 / (i : ℚ) ^ 2) := by positivity
    linarith
  have hp0 : ∀ j, 1 ≤ j → j < nr → 0 ≤ pf j := fun j a b => by linarith [hpf j a b]
  have e1 : 1 / h ^ 2 * (h ^ 2 * F) = F := by field_simp
  have e2 : (4 : ℚ) / h ^ 2 = 4 * (1 / h ^ 2) := by ring
  have e3 : (24 : ℚ) / 2 ^ 53 = 24 * u := by unfold u; ring
  rw [e2, e3]
  constructor
  · intro hY
    have := dirichlet_error rhs pf h h0 nr hn h24 hp0 (1 / h ^ 2) Y F hN0 hN1 hN hF0 hY hF i hi
    rwa [e1] at this
  · intro hY
    have := neumann_error rhs pf h h0 nr hn h24 hp0 (1 / h ^ 2) Y F hN0 hN1 hN hF0 hY hF i hi
    rw [e1] at this
    refine this.trans (le_of_eq (by ring))

/-- C71: for any non-negative factor the error is at most about `100 nr²` roundings, on grids of at most 2^23 cells. -/
theorem solvers_doubles_any (rhs pf : ℕ → ℚ) (h : ℚ) (hh : 0 < h) (nr : ℕ) (hn : 1 ≤ nr) (h23 : nr ≤ 2 ^ 23) (hpf : ∀ j, 1 ≤ j → j < nr → 0 ≤ pf j) (F : ℚ) (hF : ∀ i, 1 ≤ i → i < nr → |rhs i| ≤ F) (hF0 : 0 ≤ F) (Y : ℚ) (i : ℕ) (hi : i ≤ nr) :
    ((∀ i ≤ nr, |solveDirichlet rhs pf h nr i| ≤ Y) → |solveDirichletF rhs pf h nr i - solveDirichlet rhs pf h nr i| ≤ 24 / 2 ^ 53 * ((4 * nr ^ 2 + 3) * Y + (nr * h) ^ 2 * F)) ∧
    ((∀ i ≤ nr, |solveNeumann rhs pf h nr i| ≤ Y) → |solveNeumannF rhs pf h nr i - solveNeumann rhs pf h nr i| ≤ 24 / 2 ^ 53 * ((2 * nr + 1) ^ 2 * Y + (nr * h) ^ 2 * F)) := by
  have hn1 : (1 : ℚ) ≤ nr := by exact_mod_cast hn
  have h23' : (nr : ℚ) ≤ 2 ^ 23 := by exact_mod_cast h23
  have hN1 : (nr : ℚ) ^ 2 ≤ 2 ^ 46 := (pow_le_pow_left₀ (by linarith) h23' 2).trans (by norm_num)
  have hN : ∀ i : ℕ, 1 ≤ i → i < nr → 1 ≤ (nr : ℚ) ^ 2 * (pf i * h ^ 2 + 1 / (i : ℚ) ^ 2) := by
    intro i h1 h2
    have hi1 : (1 : ℚ) ≤ i := by exact_mod_cast h1
    have hi2 : (i : ℚ) ≤ nr := by exact_mod_cast h2.le
    have hp := mul_nonneg (hpf i h1 h2) (sq_nonneg h)
    have a1 : (1 : ℚ) ≤ (nr : ℚ) ^ 2 * (1 / (i : ℚ) ^ 2) := by
      rw [mul_one_div, le_div_iff₀ (by positivity), one_mul]
      exact pow_le_pow_left₀ (by linarith) hi2 2
    have a2 : 0 ≤ (nr : ℚ) ^ 2 * (pf i * h ^ 2) := mul_nonneg (by positivity) hp
    linarith
  have e3 : (24 : ℚ) / 2 ^ 53 = 24 * u := by unfold u; ring
  rw [e3]
  constructor
  · intro hY
    refine (dirichlet_error rhs pf h hh nr hn (by omega) hpf (nr ^ 2) Y F (by positivity) hN1 hN hF0 hY hF i hi).trans (le_of_eq (by ring))
  · intro hY
    refine (neumann_error rhs pf h hh nr hn (by omega) hpf (nr ^ 2) Y F (by positivity) hN1 hN hF0 hY hF i hi).trans (le_of_eq (by ring))

/-- The exact solution is bounded by the right-hand side, for factors of at least one. -/
theorem exact_bound (rhs pf : ℕ → ℚ) (h : ℚ) (hh : 0 < h) (nr : ℕ) (hn : 1 ≤ nr) (hpf : ∀ j, 1 ≤ j → j < nr → 1 ≤ pf j) (F : ℚ) (hF : ∀ i, 1 ≤ i → i < nr → |rhs i| ≤ F) (hF0 : 0 ≤ F) :
    (rhs nr = 0 → ∀ i ≤ nr, |solveDirichlet rhs pf h nr i| ≤ F) ∧ (∀ G, |rhs nr| ≤ G → ∀ i ≤ nr, |solveNeumann rhs pf h nr i| ≤ F + nr * h * G) := by
  have hp0 : ∀ j, 1 ≤ j → j < nr → 0 ≤ pf j := fun j a b => by linarith [hpf j a b]
  have inner : ∀ bc : ℚ × ℚ, ∀ B, F ≤ B → ∀ i, 1 ≤ i → i < nr → |rowA i * tridiagonalSolve rhs pf h bc nr (i + 1) - rowB pf h i * tridiagonalSolve rhs pf h bc nr i + rowC i * tridiagonalSolve rhs pf h bc nr (i - 1)| ≤ B * (pf i * h ^ 2 + 1 / (i : ℚ) ^ 2) := by
    intro bc B hB i h1 h2
    rw [(row_iff h hh.ne' rhs pf _ i h1).mp (solve_rows rhs pf h hh.ne' bc nr hp0 i h1 h2), abs_mul, abs_of_nonneg (sq_nonneg h)]
    have t1 := mul_le_mul_of_nonneg_left ((hF i h1 h2).trans hB) (sq_nonneg h)
    have t2 := mul_le_mul_of_nonneg_right (hpf i h1 h2) (mul_nonneg (hF0.trans hB) (sq_nonneg h))
    have t3 : 0 ≤ B * (1 / (i : ℚ) ^ 2) := mul_nonneg (hF0.trans hB) (by positivity)
    linarith
  constructor
  · intro hw
    have e2 := (dirichlet_solves rhs pf h hh nr hn hp0).2.2
    refine max_rows h nr pf _ hp0 F (solve_axis rhs pf h (0, -1) nr hn) hF0 (inner _ F le_rfl) (fun _ => Or.inl ?_)
    rw [e2, hw, mul_zero, abs_zero]
    exact hF0
  · intro G hG
    have e2 := (neumann_solves rhs pf h hh nr hn hp0).2.2
    have hn1 : (1 : ℚ) ≤ nr := by exact_mod_cast hn
    have hs : (0 : ℚ) < nr - 1 / 2 := by linarith
    have hG0 : 0 ≤ G := (abs_nonneg _).trans hG
    have hB : F ≤ F + nr * h * G := by
      have : 0 ≤ nr * h * G := by positivity
      linarith
    refine max_rows h nr pf _ hp0 _ (solve_axis rhs pf h (neumannBc nr) nr hn) (hF0.trans hB) (inner _ _ hB) (fun _ => Or.inr ?_)
    change |nr * solveNeumann rhs pf h nr nr - (nr - 1) * solveNeumann rhs pf h nr (nr - 1)| ≤ _
    have e3 : nr * solveNeumann rhs pf h nr nr - (nr - 1) * solveNeumann rhs pf h nr (nr - 1) = (nr - 1 / 2) * h * rhs nr := by
      rw [div_div, div_eq_iff (by positivity)] at e2
      apply mul_left_cancel₀ hh.ne'
      linear_combination e2
    rw [e3, abs_mul, abs_of_pos (by positivity : 0 < ((nr : ℚ) - 1 / 2) * h)]
    have := mul_le_mul (by nlinarith : ((nr : ℚ) - 1 / 2) * h ≤ nr * h) hG (abs_nonneg _) (by positivity)
    linarith

/-- C71, in terms of the sources alone: `F` bounds the right-hand side at the inner nodes and `G` at the wall. -/
theorem fields_doubles (rhs pf : ℕ → ℚ) (h : ℚ) (hh : 1 / 2 ^ 22 ≤ h) (nr : ℕ) (hn : 1 ≤ nr) (h24 : nr ≤ 2 ^ 24) (hpf : ∀ j, 1 ≤ j → j < nr → 1 ≤ pf j) (F G : ℚ) (hF : ∀ i, 1 ≤ i → i < nr → |rhs i| ≤ F) (hF0 : 0 ≤ F) (hG : |rhs nr| ≤ G) (i : ℕ) (hi : i ≤ nr) :
    (rhs nr = 0 → |solveDirichletF rhs pf h nr i - solveDirichlet rhs pf h nr i| ≤ 96 / 2 ^ 53 * (1 / h ^ 2 + 1) * F) ∧
    |solveNeumannF rhs pf h nr i - solveNeumann rhs pf h nr i| ≤ 96 / 2 ^ 53 * (1 / h ^ 2 + nr + 1) * (F + nr * h * G) := by
  have h0 : 0 < h := lt_of_lt_of_le (by norm_num) hh
  obtain ⟨b1, b2⟩ := exact_bound rhs pf h h0 nr hn hpf F hF hF0
  constructor
  · intro hw
    have := (solvers_doubles rhs pf h hh nr hn h24 hpf F hF hF0 F i hi).1 (b1 hw)
    refine this.trans (le_of_eq (by ring))
  · have := (solvers_doubles rhs pf h hh nr hn h24 hpf F hF hF0 (F + nr * h * G) i hi).2 (b2 G hG)
    refine this.trans ?_
    have hG0 : 0 ≤ G := (abs_nonneg _).trans hG
    have : 0 ≤ nr * h * G := by positivity
    linarith [(by ring : 96 / 2 ^ 53 * (1 / h ^ 2 + nr + 1) * (F + nr * h * G) = 24 / 2 ^ 53 * ((4 / h ^ 2 + 4 * nr + 1) * (F + nr * h * G) + 3 * (F + nr * h * G)))]

/-- A three-cell grid: the doubles differ from the exact solution, by less than the bound. -/
example : solveNeumannF (fun i => (i : ℚ) + 1) (fun _ => 1) (1 / 2) 3 1 ≠ solveNeumann (fun i => (i : ℚ) + 1) (fun _ => 1) (1 / 2) 3 1 := by
  decide +kernel
example : (∀ i < 4, |solveNeumann (fun i => (i : ℚ) + 1) (fun _ => 1) (1 / 2) 3 i| ≤ 4) ∧ (∀ i < 4, |(fun i : ℕ => (i : ℚ) + 1) i| ≤ 4) := by
  decide +kernel

end Lcode.Fp
