import Verif.Fp.Index

/-!
C61: which elements of the arrays of the 3D code are touched, with the rounding of floats.
-/

namespace Lcode.Fp

open Lcode.Py

/-- Cell of a particle along one axis: plasma3d/weights.py:53-56 with :271-274, plasma3d/move.py:90-95, beam3d/move.py:68-74, beam3d/weights.py:50-53. `x` is the float position. -/
def cell3 (N : ℤ) (h x : ℚ) : ℤ := ⌊fl (fl (x / h) + 1 / 2)⌋ + N / 2

/-- The elements touched along one axis: `for kx in range(-2, 3)` in the same places. -/
def touched3 (N : ℤ) (h x : ℚ) : List ℤ := [cell3 N h x + -2, cell3 N h x + -1, cell3 N h x + 0, cell3 N h x + 1, cell3 N h x + 2]

theorem touched3_iff (N : ℤ) (h x : ℚ) : AllIn N (touched3 N h x) ↔ 2 ≤ cell3 N h x ∧ cell3 N h x ≤ N - 3 := by
  unfold AllIn touched3
  simp only [List.mem_cons, List.not_mem_nil, or_false]
  constructor
  · intro hs
    have h1 := hs (cell3 N h x + -2) (by simp)
    have h2 := hs (cell3 N h x + 2) (by simp)
    omega
  · intro hs i hi
    omega

/-- Two and a half cells off the edge of the grid all touched elements exist. -/
theorem fits3 {N : ℤ} {h x : ℚ} (hN : N % 2 = 1) (hN2 : N < 2 ^ 45) (hh : 0 < h) (hx : |x| ≤ h * (N / 2 - 5 / 2)) : AllIn N (touched3 N h x) := by
  rw [touched3_iff]
  obtain ⟨m, hm⟩ : ∃ m, N = 2 * m + 1 := ⟨N / 2, by omega⟩
  have hdiv : N / 2 = m := by omega
  have hNq : (N : ℚ) = 2 * m + 1 := by rw [hm]; push_cast; ring
  have hB : |x / h| ≤ (m : ℚ) - 2 := by
    rw [abs_div, abs_of_pos hh, div_le_iff₀ hh]
    refine hx.trans (le_of_eq ?_)
    rw [hNq]; ring
  have hm0 : (0 : ℚ) ≤ (m : ℚ) - 2 := le_trans (abs_nonneg _) hB
  have hm2 : (m : ℚ) < 2 ^ 44 := by
    have : m < 2 ^ 44 := by omega
    exact_mod_cast this
  have e1 := fl_err (x / h)
  have hs : (m : ℚ) / 2 ^ 53 ≤ 1 / 256 := by
    rw [div_le_iff₀ (by norm_num)]
    have : (2 : ℚ) ^ 44 ≤ 1 / 256 * 2 ^ 53 := by norm_num
    linarith
  have e2 : |x / h| / 2 ^ 53 ≤ 1 / 256 := le_trans (div_le_div_of_nonneg_right (by linarith) (by norm_num)) hs
  have a1 := abs_le.mp (e1.trans e2)
  have a2 := abs_le.mp hB
  have e3 := fl_err (fl (x / h) + 1 / 2)
  have e4 : |fl (x / h) + 1 / 2| ≤ m := by rw [abs_le]; constructor <;> linarith
  have a3 := abs_le.mp (e3.trans (le_trans (div_le_div_of_nonneg_right e4 (by norm_num)) hs))
  have u : fl (fl (x / h) + 1 / 2) < (m - 1 : ℤ) := by push_cast; linarith
  have l : ((-m + 2 : ℤ) : ℚ) ≤ fl (fl (x / h) + 1 / 2) := by push_cast; linarith
  have u' := Int.floor_lt.mpr u
  have l' := Int.le_floor.mpr l
  unfold cell3
  rw [hdiv]
  omega

/-! ### The plasma -/

/-- plasma3d/move.py:321. `grid_steps / 2 - bound_padding_steps` is exact. -/
def boundaryF (N pad : ℤ) (h : ℚ) : ℚ := fl (h * (N / 2 - pad))

theorem boundary_le {N pad : ℤ} {h : ℚ} (hN2 : N < 2 ^ 45) (hh : 0 < h) (hp : 3 ≤ pad) (h0 : 0 ≤ boundaryF N pad h) : boundaryF N pad h * (1 + 1 / 2 ^ 48) ≤ h * (N / 2 - 5 / 2) := by
  have hp' : (3 : ℚ) ≤ pad := by exact_mod_cast hp
  have hd : (0 : ℚ) ≤ N / 2 - pad := by
    by_contra hc
    push Not at hc
    have h1 : h * ((N : ℚ) / 2 - pad) < 0 := mul_neg_of_pos_of_neg hh hc
    have h2 := fl_pos (neg_pos.mpr h1)
    rw [fl_neg] at h2
    unfold boundaryF at h0
    linarith
  have h1 := (fl_between (mul_nonneg hh.le hd)).2
  have hN3 : (N : ℚ) < 2 ^ 45 := by exact_mod_cast hN2
  have h2 : boundaryF N pad h * (1 + 1 / 2 ^ 48) ≤ h * (N / 2 - pad) * (1 + 1 / 2 ^ 53) * (1 + 1 / 2 ^ 48) :=
    mul_le_mul_of_nonneg_right h1 (by norm_num)
  refine h2.trans ?_
  have h3 : (1 + 1 / 2 ^ 53 : ℚ) * (1 + 1 / 2 ^ 48) ≤ 1 + 1 / 2 ^ 47 := by norm_num
  have h4 : h * ((N : ℚ) / 2 - pad) * (1 + 1 / 2 ^ 53) * (1 + 1 / 2 ^ 48) ≤ h * ((N : ℚ) / 2 - pad) * (1 + 1 / 2 ^ 47) := by
    rw [mul_assoc]; exact mul_le_mul_of_nonneg_left h3 (mul_nonneg hh.le hd)
  refine h4.trans ?_
  rw [mul_assoc]
  refine mul_le_mul_of_nonneg_left ?_ hh.le
  have h5 : ((N : ℚ) / 2 - pad) * (1 / 2 ^ 47) ≤ 2 ^ 44 * (1 / 2 ^ 47) := mul_le_mul_of_nonneg_right (by linarith) (by norm_num)
  have h6 : (2 : ℚ) ^ 44 * (1 / 2 ^ 47) ≤ 1 / 2 := by norm_num
  have h7 : ((N : ℚ) / 2 - pad) * (1 + 1 / 2 ^ 47) = (N / 2 - pad) + (N / 2 - pad) * (1 / 2 ^ 47) := by ring
  rw [h7]; linarith

/-- C61: a plasma particle inside the reflecting boundary is deposited on existing nodes, for every bound-padding-steps that init_plasma accepts (more than two, plasma3d/initialization.py:301-304). -/
theorem plasma3_safe {N pad : ℤ} {h x : ℚ} (hN : N % 2 = 1) (hN2 : N < 2 ^ 45) (hh : 0 < h) (hp : 2 < pad) (hx : |x| ≤ boundaryF N pad h) : AllIn N (touched3 N h x) := by
  have h0 : 0 ≤ boundaryF N pad h := (abs_nonneg x).trans hx
  refine fits3 hN hN2 hh (hx.trans (le_trans ?_ (boundary_le hN2 hh (by omega) h0)))
  nlinarith [mul_nonneg h0 (by norm_num : (0 : ℚ) ≤ 1 / 2 ^ 48)]

/-- C61: the check is needed because of rounding only: with padding 2 exact arithmetic stays inside (C24), but with 21 cells and step 0.05 the float before the boundary is deposited beyond the last node. -/
theorem padding_two : ∃ x, IsFloat x ∧ |x| < boundaryF 21 2 (fl (1 / 20)) ∧ ¬ AllIn 21 (touched3 21 (fl (1 / 20)) x) := by
  refine ⟨7656119366529843 / 2 ^ 54, ⟨7656119366529843, -54, by norm_num, by norm_num⟩, by decide +kernel, ?_⟩
  rw [touched3_iff]; decide +kernel

/-- plasma3d/move.py:28-49 for one coordinate: the position after _correct_boundary_particles. Doubling is exact. -/
def mirrorF (b x : ℚ) : ℚ :=
  if (if x > b then fl (2 * b - x) else x) < -b then fl (-2 * b - (if x > b then fl (2 * b - x) else x)) else (if x > b then fl (2 * b - x) else x)

/-- C61: the position where the fields are taken: reflected once, no stray particle leaves the grid unless it is more than a whole window away. -/
theorem mirrorF_inside {b x : ℚ} (hb : IsFloat b) (h0 : 0 ≤ b) (hx : |x| ≤ 3 * b) : |mirrorF b x| ≤ b := by
  have hfb := fl_exact hb
  have hnb : fl (-b) = -b := by rw [fl_neg, hfb]
  have hx' := abs_le.mp hx
  unfold mirrorF
  by_cases h1 : x > b
  · have g1 : -b ≤ fl (2 * b - x) := by rw [← hnb]; exact fl_mono (by linarith)
    have g2 : fl (2 * b - x) ≤ b := by conv_rhs => rw [← hfb]
                                       exact fl_mono (by linarith)
    rw [if_pos h1, if_neg (by linarith), abs_le]
    exact ⟨g1, g2⟩
  · rw [if_neg h1]
    by_cases h2 : x < -b
    · have g1 : -b ≤ fl (-2 * b - x) := by rw [← hnb]; exact fl_mono (by linarith)
      have g2 : fl (-2 * b - x) ≤ b := by conv_rhs => rw [← hfb]
                                          exact fl_mono (by linarith)
      rw [if_pos h2, abs_le]
      exact ⟨g1, g2⟩
    · rw [if_neg h2, abs_le]
      constructor <;> linarith

theorem move3_reads_safe {N pad : ℤ} {h x : ℚ} (hN : N % 2 = 1) (hN2 : N < 2 ^ 45) (hh : 0 < h) (hp : 2 < pad) (hx : |x| ≤ 3 * boundaryF N pad h) :
    AllIn N (touched3 N h (mirrorF (boundaryF N pad h) x)) := by
  have h0 : 0 ≤ boundaryF N pad h := by linarith [abs_nonneg x]
  exact plasma3_safe hN hN2 hh hp (mirrorF_inside (isFloat_fl _) h0 hx)

/-- The end of the GPU kernel (plasma3d/move.py:255-282) checks the reflected position, but what is stored is the offset, and the deposition adds it to the initial position again (weights.py:271-274). The two more roundings do not matter either. -/
theorem gpu3_safe {N pad : ℤ} {h x x0 : ℚ} (hN : N % 2 = 1) (hN2 : N < 2 ^ 45) (hh : 0 < h) (hp : 2 < pad) (hx : |x| ≤ boundaryF N pad h) (h0 : |x0| ≤ boundaryF N pad h) :
    AllIn N (touched3 N h (fl (x0 + fl (x - x0)))) := by
  have hb : 0 ≤ boundaryF N pad h := (abs_nonneg x).trans hx
  refine fits3 hN hN2 hh (le_trans ?_ (boundary_le hN2 hh (by omega) hb))
  set b := boundaryF N pad h
  have e1 := fl_err (x - x0)
  have e2 : |x - x0| ≤ 2 * b := (abs_sub _ _).trans (by linarith)
  have e3 : |fl (x - x0) - (x - x0)| ≤ 2 * b / 2 ^ 53 := e1.trans (div_le_div_of_nonneg_right e2 (by norm_num))
  have e4 : |x0 + fl (x - x0)| ≤ b + 2 * b / 2 ^ 53 := by
    have : x0 + fl (x - x0) = x + (fl (x - x0) - (x - x0)) := by ring
    rw [this]
    exact (abs_add_le _ _).trans (add_le_add hx e3)
  have e5 := fl_err (x0 + fl (x - x0))
  have e6 : |fl (x0 + fl (x - x0))| ≤ |x0 + fl (x - x0)| + |x0 + fl (x - x0)| / 2 ^ 53 := by
    have : fl (x0 + fl (x - x0)) = (x0 + fl (x - x0)) + (fl (x0 + fl (x - x0)) - (x0 + fl (x - x0))) := by ring
    rw [this]
    exact (abs_add_le _ _).trans (by linarith)
  have e7 : |x0 + fl (x - x0)| / 2 ^ 53 ≤ (b + 2 * b / 2 ^ 53) / 2 ^ 53 := div_le_div_of_nonneg_right e4 (by norm_num)
  have e8 : b + 2 * b / 2 ^ 53 + (b + 2 * b / 2 ^ 53) / 2 ^ 53 = b * (1 + 2 / 2 ^ 53 + (1 + 2 / 2 ^ 53) / 2 ^ 53) := by ring
  have e9 : (1 + 2 / 2 ^ 53 + (1 + 2 / 2 ^ 53) / 2 ^ 53 : ℚ) ≤ 1 + 1 / 2 ^ 48 := by norm_num
  have := mul_le_mul_of_nonneg_left e9 hb
  linarith

/-! ### The beam -/

/-- beam3d/move.py:285-286. -/
def lost3F (N : ℤ) (h : ℚ) : ℚ := lostF (fl (h * N) / 2)

theorem float_div_lt {x L : ℚ} (hL : 0 ≤ L) (h : fl (x * x) < fl (L * L)) : |x| ≤ L := by
  by_contra hc
  push Not at hc
  have : L * L ≤ x * x := by
    rw [← abs_mul_abs_self x]; exact mul_self_le_mul_self hL hc.le
  exact absurd (fl_mono this) (not_le.mpr h)

/-- C61: a 3D beam particle that is not lost is inside the lost radius in each coordinate. -/
theorem beam3_within {x y L : ℚ} (hL : 0 ≤ L) (h : notLostF x y L) : |x| ≤ L ∧ |y| ≤ L := by
  unfold notLostF at h
  have hx := fl_nonneg (mul_self_nonneg x)
  have hy := fl_nonneg (mul_self_nonneg y)
  have g1 : fl (x * x) ≤ fl (fl (x * x) + fl (y * y)) := by
    conv_lhs => rw [← fl_fl]
    exact fl_mono (by linarith)
  have g2 : fl (y * y) ≤ fl (fl (x * x) + fl (y * y)) := by
    conv_lhs => rw [← fl_fl]
    exact fl_mono (by linarith)
  exact ⟨float_div_lt hL (lt_of_le_of_lt g1 h), float_div_lt hL (lt_of_le_of_lt g2 h)⟩

theorem lost3_le {N : ℤ} {h : ℚ} (hh : 0 < h) (hN : 51 ≤ N) (hN2 : N < 2 ^ 40) (hs : h ≤ 39 / 100) : 0 ≤ lost3F N h ∧ lost3F N h ≤ h * (N / 2 - 5 / 2) := by
  have hNq : (51 : ℚ) ≤ N := by exact_mod_cast hN
  have hNq2 : (N : ℚ) < 2 ^ 40 := by exact_mod_cast hN2
  have hM0 : 0 ≤ h * N := by positivity
  have hR := fl_between hM0
  have hR0 : 0 ≤ fl (h * N) / 2 := div_nonneg (fl_nonneg hM0) (by norm_num)
  unfold lost3F lostF
  constructor
  · exact le_max_of_le_left (fl_nonneg (mul_nonneg (fl_nonneg (by norm_num)) hR0))
  set R := fl (h * N) / 2 with hRd
  have hR1 : R ≤ h * (N / 2) * (1 + 1 / 2 ^ 53) := by rw [hRd]; linarith [hR.2]
  apply max_le
  · have g1 := (fl_between (x := (9 / 10 : ℚ)) (by norm_num)).2
    have g2 := (fl_between (x := fl (9 / 10) * R) (mul_nonneg (fl_nonneg (by norm_num)) hR0)).2
    have g3 : fl (9 / 10) * R ≤ 9 / 10 * (1 + 1 / 2 ^ 53) * (h * (N / 2) * (1 + 1 / 2 ^ 53)) := mul_le_mul g1 hR1 hR0 (by norm_num)
    have g4 := g2.trans (mul_le_mul_of_nonneg_right g3 (by norm_num))
    refine g4.trans ?_
    have e : 9 / 10 * (1 + 1 / 2 ^ 53) * (h * ((N : ℚ) / 2) * (1 + 1 / 2 ^ 53)) * (1 + 1 / 2 ^ 53) = h * (N / 2) * (9 / 10 * (1 + 1 / 2 ^ 53) ^ 3) := by ring
    rw [e, mul_assoc]
    refine mul_le_mul_of_nonneg_left ?_ hh.le
    have g5 : (9 / 10 * (1 + 1 / 2 ^ 53) ^ 3 : ℚ) ≤ 9001 / 10000 := by norm_num
    have g6 := mul_le_mul_of_nonneg_left g5 (by linarith : (0 : ℚ) ≤ N / 2)
    linarith
  · by_cases h1 : 0 ≤ R - 1
    · have g1 := (fl_between h1).2
      refine g1.trans ?_
      have g2 : (R - 1) * (1 + 1 / 2 ^ 53) ≤ (h * (N / 2) * (1 + 1 / 2 ^ 53) - 1) * (1 + 1 / 2 ^ 53) := mul_le_mul_of_nonneg_right (by linarith) (by norm_num)
      refine g2.trans ?_
      have e : (h * ((N : ℚ) / 2) * (1 + 1 / 2 ^ 53) - 1) * (1 + 1 / 2 ^ 53) = h * (N / 2) * (1 + 1 / 2 ^ 53) ^ 2 - (1 + 1 / 2 ^ 53) := by ring
      rw [e]
      have g3 : ((1 + 1 / 2 ^ 53) ^ 2 : ℚ) ≤ 1 + 1 / 2 ^ 51 := by norm_num
      have g4 := mul_le_mul_of_nonneg_left g3 (by positivity : (0 : ℚ) ≤ h * (N / 2))
      have g5 : h * ((N : ℚ) / 2) * (1 / 2 ^ 51) ≤ h * (2 ^ 40 * (1 / 2 ^ 51)) := by
        rw [mul_assoc]
        exact mul_le_mul_of_nonneg_left (mul_le_mul_of_nonneg_right (by linarith) (by norm_num)) hh.le
      have g6 : (2 : ℚ) ^ 40 * (1 / 2 ^ 51) ≤ 1 / 1000 := by norm_num
      have g7 := mul_le_mul_of_nonneg_left g6 hh.le
      have g8 : (0 : ℚ) < 1 / 2 ^ 53 := by positivity
      linarith
    · have g1 : fl (R - 1) ≤ 0 := by
        have := fl_mono (le_of_lt (not_le.mp h1)); rwa [fl_zero] at this
      refine g1.trans (mul_nonneg hh.le (by linarith))

/-- C61: with at least 51 cells and a step of at most 0.39, a 3D beam particle that passed the wall check reads fields of existing nodes only, and is deposited on existing nodes in the next time step. -/
theorem kept_beam3_safe {N : ℤ} {h x y : ℚ} (hN : N % 2 = 1) (hh : 0 < h) (hN1 : 51 ≤ N) (hN2 : N < 2 ^ 40) (hs : h ≤ 39 / 100) (hk : notLostF x y (lost3F N h)) :
    AllIn N (touched3 N h x) ∧ AllIn N (touched3 N h y) := by
  obtain ⟨h0, h1⟩ := lost3_le hh hN1 hN2 hs
  obtain ⟨hx, hy⟩ := beam3_within h0 hk
  exact ⟨fits3 hN (by omega) hh (hx.trans h1), fits3 hN (by omega) hh (hy.trans h1)⟩

/-- C61, finding: in a small window (33 cells of 0.05) a beam particle at x = 0.74, which is not lost, touches nodes 29 to 33 of a grid with nodes 0 to 32; the same with 81 cells of 0.6 and x = 23.2. -/
theorem small_window3 : notLostF (fl (74 / 100)) 0 (lost3F 33 (fl (1 / 20))) ∧ touched3 33 (fl (1 / 20)) (fl (74 / 100)) = [29, 30, 31, 32, 33] ∧
    notLostF (fl (232 / 10)) 0 (lost3F 81 (fl (6 / 10))) ∧ touched3 81 (fl (6 / 10)) (fl (232 / 10)) = [77, 78, 79, 80, 81] := by
  unfold notLostF
  decide +kernel

/-- Cases that meet the hypotheses: the default 3D grid (201 cells of 0.05), a beam particle at (3, 2) and a plasma particle at 4. -/
example : notLostF 3 2 (lost3F 201 (fl (1 / 20))) ∧ fl (1 / 20) ≤ 39 / 100 ∧ |(4 : ℚ)| ≤ boundaryF 201 10 (fl (1 / 20)) := by
  unfold notLostF
  decide +kernel

end Lcode.Fp
