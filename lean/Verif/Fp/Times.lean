import Verif.Fp.Borders

/-!
C58: the times of the steps and the steps that write, with the rounding of floats.
-/

namespace Lcode.Fp

open Lcode.Py Lcode.Diag

/-- simulation.py:243, :266: the time of the `k`-th step of the process `rank` of `size` processes: the first time is a product, each later one a sum. -/
def timeF (dt : ℚ) (rank size : ℕ) : ℕ → ℚ
  | 0 => fl (fl dt * ((rank : ℚ) + 1))
  | k + 1 => fl (timeF dt rank size k + fl (fl dt * (size : ℚ)))

/-- The number of that step in the whole run, the first step being number 1. -/
def stepNo (rank size k : ℕ) : ℕ := rank + 1 + k * size

theorem product_err {dt : ℚ} (hdt : 0 < dt) (a : ℚ) (ha : 0 ≤ a) : |fl (fl dt * a) - dt * a| ≤ dt * a * (3 / 2 ^ 53) := by
  have h1 := fl_between hdt.le
  have h2 := fl_between (x := fl dt * a) (mul_nonneg (fl_nonneg hdt.le) ha)
  have h0 : 0 ≤ dt * a := mul_nonneg hdt.le ha
  have h3 : dt * (1 - 1 / 2 ^ 53) * a ≤ fl dt * a := mul_le_mul_of_nonneg_right h1.1 ha
  have h4 : fl dt * a ≤ dt * (1 + 1 / 2 ^ 53) * a := mul_le_mul_of_nonneg_right h1.2 ha
  have h5 : fl dt * a * (1 + 1 / 2 ^ 53) ≤ dt * (1 + 1 / 2 ^ 53) * a * (1 + 1 / 2 ^ 53) := mul_le_mul_of_nonneg_right h4 (by norm_num)
  have h6 : dt * (1 - 1 / 2 ^ 53) * a * (1 - 1 / 2 ^ 53) ≤ fl dt * a * (1 - 1 / 2 ^ 53) := mul_le_mul_of_nonneg_right h3 (by norm_num)
  have e1 : dt * (1 + 1 / 2 ^ 53) * a * (1 + 1 / 2 ^ 53) ≤ dt * a * (1 + 3 / 2 ^ 53) := by
    rw [show dt * (1 + 1 / 2 ^ 53) * a * (1 + 1 / 2 ^ 53) = dt * a * ((1 + 1 / 2 ^ 53) * (1 + 1 / 2 ^ 53)) by ring]
    exact mul_le_mul_of_nonneg_left (by norm_num) h0
  have e2 : dt * a * (1 - 3 / 2 ^ 53) ≤ dt * (1 - 1 / 2 ^ 53) * a * (1 - 1 / 2 ^ 53) := by
    rw [show dt * (1 - 1 / 2 ^ 53) * a * (1 - 1 / 2 ^ 53) = dt * a * ((1 - 1 / 2 ^ 53) * (1 - 1 / 2 ^ 53)) by ring]
    exact mul_le_mul_of_nonneg_left (by norm_num) h0
  rw [abs_le]
  constructor <;> linarith [h2.1, h2.2]

/-- C58: the time of a step is `dt` times its number, up to two roundings for each step the process has made. -/
theorem time_err {dt : ℚ} (hdt : 0 < dt) (rank size k : ℕ) (hk : k < 2 ^ 51) :
    |timeF dt rank size k - dt * stepNo rank size k| ≤ dt * stepNo rank size k * ((2 * k + 3) / 2 ^ 53) := by
  induction k with
  | zero =>
    have := product_err hdt ((rank : ℚ) + 1) (by positivity)
    simp only [timeF, stepNo, Nat.zero_mul, Nat.add_zero]
    push_cast
    convert this using 2; ring
  | succ k ih =>
    have ih := ih (by omega)
    have hs := product_err hdt (size : ℚ) (Nat.cast_nonneg _)
    set T := dt * (stepNo rank size k : ℚ) with hT
    set Sz := dt * (size : ℚ) with hS
    have e : dt * (stepNo rank size (k + 1) : ℚ) = T + Sz := by
      rw [hT, hS]; unfold stepNo; push_cast; ring
    have hT0 : 0 ≤ T := by rw [hT]; positivity
    have hS0 : 0 ≤ Sz := by rw [hS]; positivity
    rw [e]
    set t := timeF dt rank size k
    set s := fl (fl dt * (size : ℚ))
    have hk' : (k : ℚ) ≤ 2251799813685247 := by exact_mod_cast (by omega : k ≤ 2251799813685247)
    have hk0 : (0 : ℚ) ≤ k := Nat.cast_nonneg k
    have c3 : (3 : ℚ) / 2 ^ 53 ≤ (2 * k + 3) / 2 ^ 53 := by
      apply div_le_div_of_nonneg_right _ (by norm_num); linarith
    have hsum : |t + s - (T + Sz)| ≤ (T + Sz) * ((2 * k + 3) / 2 ^ 53) := by
      have h1 : |t + s - (T + Sz)| ≤ |t - T| + |s - Sz| := by
        rw [show t + s - (T + Sz) = (t - T) + (s - Sz) by ring]; exact abs_add_le _ _
      have h2 : Sz * (3 / 2 ^ 53) ≤ Sz * ((2 * k + 3) / 2 ^ 53) := mul_le_mul_of_nonneg_left c3 hS0
      have h3 : (T + Sz) * ((2 * k + 3) / 2 ^ 53) = T * ((2 * k + 3) / 2 ^ 53) + Sz * ((2 * k + 3) / 2 ^ 53) := by ring
      linarith
    have hr := fl_err (t + s)
    have habs : |t + s| ≤ (T + Sz) * 2 := by
      have h1 : |t + s| ≤ |t + s - (T + Sz)| + |T + Sz| := by
        have := abs_add_le (t + s - (T + Sz)) (T + Sz); rwa [sub_add_cancel] at this
      rw [abs_of_nonneg (by linarith : 0 ≤ T + Sz)] at h1
      have h2 : (2 * (k : ℚ) + 3) / 2 ^ 53 ≤ 1 := by rw [div_le_one (by norm_num)]; norm_num; linarith
      have h3 : (T + Sz) * ((2 * k + 3) / 2 ^ 53) ≤ (T + Sz) * 1 := mul_le_mul_of_nonneg_left h2 (by linarith)
      linarith
    have h4 : |fl (t + s) - (t + s)| ≤ (T + Sz) * (2 / 2 ^ 53) := by
      refine hr.trans ?_
      rw [div_le_iff₀ (by norm_num)]
      refine habs.trans (le_of_eq ?_)
      ring
    have h5 := abs_sub_le (fl (t + s)) (t + s) (T + Sz)
    show |fl (t + s) - (T + Sz)| ≤ _
    have h6 : (T + Sz) * ((2 * ((k + 1 : ℕ) : ℚ) + 3) / 2 ^ 53) = (T + Sz) * ((2 * k + 3) / 2 ^ 53) + (T + Sz) * (2 / 2 ^ 53) := by
      push_cast; ring
    rw [h6]; linarith

/-- The replacement of a short period commutes with the rounding. -/
theorem adjust_fl (P dt : ℚ) : adjust (fl P) (fl dt) = fl (adjust P dt) := by
  unfold adjust
  by_cases h : P < dt
  · rw [if_pos h]
    have := fl_mono h.le
    split_ifs with h1
    · rfl
    · exact le_antisymm this (not_lt.mp h1)
  · rw [if_neg h, if_neg (not_lt.mpr (fl_mono (not_lt.mp h)))]

/-- How the rounding of the coordinate, the period and the step enters `condition_check` (diagnostics/utils.py:22-24; `math.remainder` and the division by two are exact). -/
theorem cond_near {x X P dt : ℚ} (hdt : 0 < dt) (hP : dt ≤ P) (hx : |x - X| ≤ dt / 16) (hX : |X| ≤ 2 ^ 46 * dt) :
    (∀ z : ℤ, |X - z * P| ≤ 3 / 8 * dt → cond x (fl P) (fl dt)) ∧ (cond x (fl P) (fl dt) → ∃ z : ℤ, |X - z * P| ≤ 5 / 8 * dt) := by
  have hP0 : 0 < P := hdt.trans_le hP
  have hfP := fl_pos hP0
  have hd := fl_between hdt.le
  have hp := fl_err P
  rw [abs_of_pos hP0] at hp
  rw [cond_iff hfP]
  constructor
  · intro z hz
    refine ⟨z, ?_⟩
    have h1 : |(z : ℚ) * P| ≤ |X| + 3 / 8 * dt := by
      have := abs_add_le (z * P - X) X
      rw [sub_add_cancel, abs_sub_comm] at this; linarith
    have h2 : |(z : ℚ) * P - z * fl P| ≤ dt / 32 := by
      rw [← mul_sub, abs_mul, abs_sub_comm]
      rw [abs_mul, abs_of_pos hP0] at h1
      have h3 : |(z : ℚ)| * |fl P - P| ≤ |(z : ℚ)| * (P / 2 ^ 53) := mul_le_mul_of_nonneg_left hp (abs_nonneg _)
      have h4 : |(z : ℚ)| * (P / 2 ^ 53) = |(z : ℚ)| * P / 2 ^ 53 := by ring
      have h5 : |(z : ℚ)| * P / 2 ^ 53 ≤ (2 ^ 46 * dt + 3 / 8 * dt) / 2 ^ 53 := by
        apply div_le_div_of_nonneg_right _ (by norm_num); linarith
      have h6 : (2 ^ 46 * dt + 3 / 8 * dt) / 2 ^ 53 ≤ dt / 32 := by
        rw [div_le_iff₀ (by norm_num)]; norm_num; linarith
      linarith
    have h7 : |x - z * fl P| ≤ |x - X| + |X - z * P| + |z * P - z * fl P| := by
      have a := abs_sub_le x X (z * fl P)
      have b := abs_sub_le X (z * P) (z * fl P)
      linarith
    have := hd.1
    norm_num at this ⊢
    linarith
  · rintro ⟨z, hz⟩
    refine ⟨z, ?_⟩
    have h1 : |(z : ℚ) * fl P| ≤ |x| + fl dt / 2 := by
      have := abs_add_le (z * fl P - x) x
      rw [sub_add_cancel, abs_sub_comm] at this; linarith
    have h1' : |x| ≤ |X| + dt / 16 := by
      have := abs_add_le (x - X) X
      rw [sub_add_cancel] at this; linarith
    have hPP : P ≤ 2 * fl P := by
      rw [abs_le] at hp
      have : P / 2 ^ 53 ≤ P / 2 := by apply div_le_div_of_nonneg_left hP0.le (by norm_num) (by norm_num)
      linarith [hp.1]
    have h2 : |(z : ℚ) * fl P - z * P| ≤ dt / 32 := by
      rw [← mul_sub, abs_mul]
      rw [abs_mul, abs_of_pos hfP] at h1
      have h3 : |(z : ℚ)| * |fl P - P| ≤ |(z : ℚ)| * (P / 2 ^ 53) := mul_le_mul_of_nonneg_left hp (abs_nonneg _)
      have h4 : |(z : ℚ)| * (P / 2 ^ 53) ≤ |(z : ℚ)| * (2 * fl P / 2 ^ 53) := by
        apply mul_le_mul_of_nonneg_left _ (abs_nonneg _)
        exact div_le_div_of_nonneg_right hPP (by norm_num)
      have h4' : |(z : ℚ)| * (2 * fl P / 2 ^ 53) = 2 * (|(z : ℚ)| * fl P) / 2 ^ 53 := by ring
      have hd2 := hd.2
      have hd3 : fl dt ≤ 2 * dt := by refine hd2.trans ?_; rw [mul_comm]; exact mul_le_mul_of_nonneg_right (by norm_num) hdt.le
      have h5 : 2 * (|(z : ℚ)| * fl P) / 2 ^ 53 ≤ 2 * (2 ^ 46 * dt + 2 * dt) / 2 ^ 53 := by
        apply div_le_div_of_nonneg_right _ (by norm_num); linarith
      have h6 : 2 * (2 ^ 46 * dt + 2 * dt) / 2 ^ 53 ≤ dt / 32 := by
        rw [div_le_iff₀ (by norm_num)]; norm_num; linarith
      linarith
    have h7 : |X - z * P| ≤ |x - X| + |x - z * fl P| + |z * fl P - z * P| := by
      have a := abs_sub_le X x (z * P)
      have b := abs_sub_le x (z * fl P) (z * P)
      rw [abs_sub_comm X x] at a
      linarith
    have := hd.2
    norm_num at this
    linarith

theorem time_close {dt : ℚ} (hdt : 0 < dt) (rank size k : ℕ) (hs : 1 ≤ size) (hi : stepNo rank size k ≤ 2 ^ 23) :
    |timeF dt rank size k - dt * stepNo rank size k| ≤ dt / 16 ∧ |dt * (stepNo rank size k : ℚ)| ≤ 2 ^ 46 * dt := by
  have hki : k ≤ stepNo rank size k := by unfold stepNo; nlinarith
  have h1 := time_err hdt rank size k (by omega)
  set i := stepNo rank size k
  have hi' : (i : ℚ) ≤ 2 ^ 23 := by exact_mod_cast hi
  have hk' : (k : ℚ) ≤ 2 ^ 23 := by exact_mod_cast hki.trans hi
  have hi0 : (0 : ℚ) ≤ i := Nat.cast_nonneg i
  have hk0 : (0 : ℚ) ≤ k := Nat.cast_nonneg k
  constructor
  · refine h1.trans ?_
    have : (i : ℚ) * ((2 * k + 3) / 2 ^ 53) ≤ 1 / 16 := by
      rw [← mul_div_assoc, div_le_iff₀ (by norm_num)]
      calc (i : ℚ) * (2 * k + 3) ≤ 2 ^ 23 * (2 * 2 ^ 23 + 3) := mul_le_mul hi' (by linarith) (by linarith) (by norm_num)
        _ ≤ 1 / 16 * 2 ^ 53 := by norm_num
    calc dt * i * ((2 * k + 3) / 2 ^ 53) = dt * (i * ((2 * k + 3) / 2 ^ 53)) := by ring
      _ ≤ dt * (1 / 16) := mul_le_mul_of_nonneg_left this hdt.le
      _ = dt / 16 := by ring
  · rw [abs_of_nonneg (by positivity), mul_comm]
    apply mul_le_mul_of_nonneg_right _ hdt.le
    refine hi'.trans (by norm_num)

/-- C58, C36 with floats: in a run of up to `2^23` time steps, on any number of processes, a step whose exact time is within 3/8 of a time step from a multiple of the output period (adjusted to at least a time step) writes, and every step that writes is within 5/8 of a time step from a multiple. -/
theorem written_floats {dt : ℚ} (hdt : 0 < dt) (P : ℚ) (rank size k : ℕ) (hs : 1 ≤ size) (hi : stepNo rank size k ≤ 2 ^ 23) :
    ((∃ z : ℤ, |dt * stepNo rank size k - z * adjust P dt| ≤ 3 / 8 * dt) → cond (timeF dt rank size k) (adjust (fl P) (fl dt)) (fl dt)) ∧
      (cond (timeF dt rank size k) (adjust (fl P) (fl dt)) (fl dt) → ∃ z : ℤ, |dt * stepNo rank size k - z * adjust P dt| ≤ 5 / 8 * dt) := by
  obtain ⟨h1, h2⟩ := time_close hdt rank size k hs hi
  have := cond_near hdt (adjust_ge P dt) h1 h2
  rw [adjust_fl]
  exact ⟨fun ⟨z, hz⟩ => this.1 z hz, this.2⟩

/-- Distances between multiples of the step. -/
theorem multiple_of_near {dt : ℚ} (hdt : 0 < dt) (m i : ℤ) (z : ℤ) (h : |dt * i - z * (m * dt)| ≤ 5 / 8 * dt) : m ∣ i := by
  have e : dt * (i : ℚ) - z * (m * dt) = dt * ((i - z * m : ℤ) : ℚ) := by push_cast; ring
  rw [e, abs_mul, abs_of_pos hdt, mul_comm] at h
  have h1 : |((i - z * m : ℤ) : ℚ)| ≤ 5 / 8 := le_of_mul_le_mul_right h hdt
  have h2 : |i - z * m| < 1 := by
    have : |((i - z * m : ℤ) : ℚ)| < 1 := by linarith
    exact_mod_cast this
  rw [Int.abs_lt_one_iff] at h2
  exact ⟨z, by rw [mul_comm]; omega⟩

/-- C58, C36 with floats: with an output period of `m` time steps exactly the steps whose number is a multiple of `m` write, although neither the times nor the period are exact. -/
theorem written_every_mth {dt : ℚ} (hdt : 0 < dt) (m : ℕ) (hm : 1 ≤ m) (rank size k : ℕ) (hs : 1 ≤ size) (hi : stepNo rank size k ≤ 2 ^ 23) :
    cond (timeF dt rank size k) (adjust (fl (m * dt)) (fl dt)) (fl dt) ↔ m ∣ stepNo rank size k := by
  have hm' : (1 : ℚ) ≤ m := by exact_mod_cast hm
  have e : adjust ((m : ℚ) * dt) dt = m * dt := by
    unfold adjust; rw [if_neg]; push Not; nlinarith
  have h := written_floats hdt (m * dt) rank size k hs hi
  rw [e] at h
  constructor
  · intro hc
    obtain ⟨z, hz⟩ := h.2 hc
    have := multiple_of_near hdt (m : ℤ) (stepNo rank size k : ℤ) z (by exact_mod_cast hz)
    exact_mod_cast this
  · rintro ⟨q, hq⟩
    refine h.1 ⟨(q : ℤ), ?_⟩
    rw [hq]
    have : dt * ((m * q : ℕ) : ℚ) - ((q : ℤ) : ℚ) * (m * dt) = 0 := by push_cast; ring
    rw [this, abs_zero]; positivity

/-- C58: the same for the layers of a transverse slice (diagnostics/slice.py:323-328): with a period of `m` layers exactly the layers whose number is a multiple of `m` are written. -/
theorem layer_every_mth {dxi : ℚ} (hd : 0 < dxi) (m : ℕ) (hm : 1 ≤ m) (i : ℕ) (hi : i ≤ 2 ^ 46) :
    cond (border3 dxi i) (fl (m * dxi)) (fl dxi) ↔ m ∣ i := by
  have hm' : (1 : ℚ) ≤ m := by exact_mod_cast hm
  have hP : dxi ≤ m * dxi := by nlinarith
  have hi' : (i : ℚ) ≤ 2 ^ 46 := by exact_mod_cast hi
  have hi0 : (0 : ℚ) ≤ i := Nat.cast_nonneg i
  have hq : (i : ℚ) * (3 / 2 ^ 53) ≤ 1 / 16 := by
    have : (i : ℚ) ≤ 70368744177664 := by exact_mod_cast hi
    norm_num; linarith
  have h1 : |border3 dxi i - -(i * dxi)| ≤ dxi / 16 := by
    rw [(border_forms dxi i).1]
    refine (border_err hd i).trans ?_
    calc (i : ℚ) * dxi * (3 / 2 ^ 53) = dxi * (i * (3 / 2 ^ 53)) := by ring
      _ ≤ dxi * (1 / 16) := mul_le_mul_of_nonneg_left (hq) hd.le
      _ = dxi / 16 := by ring
  have h2 : |-((i : ℚ) * dxi)| ≤ 2 ^ 46 * dxi := by
    rw [abs_neg, abs_of_nonneg (by positivity)]
    exact mul_le_mul_of_nonneg_right hi' hd.le
  have h := cond_near hd hP h1 h2
  constructor
  · intro hc
    obtain ⟨z, hz⟩ := h.2 hc
    have := multiple_of_near hd (m : ℤ) (i : ℤ) (-z) (by
      rw [← abs_neg]
      refine le_of_eq_of_le ?_ hz
      congr 1; push_cast; ring)
    exact_mod_cast this
  · rintro ⟨q, hq⟩
    refine h.1 (-(q : ℤ)) ?_
    have : -((i : ℚ) * dxi) - ((-(q : ℤ) : ℤ) : ℚ) * (m * dxi) = 0 := by rw [hq]; push_cast; ring
    rw [this, abs_zero]; positivity

/-- The times are not exact: three steps of 0.1 on one process end at 0.30000000000000004. -/
theorem time_example : timeF (1 / 10) 0 1 2 = fl (3 / 10) + 1 / 2 ^ 54 ∧ stepNo 0 1 2 = 3 ∧ cond (timeF (1 / 10) 0 1 2) (adjust (fl (3 / 10)) (fl (1 / 10))) (fl (1 / 10)) := by decide +kernel

end Lcode.Fp
