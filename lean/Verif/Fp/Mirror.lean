import Verif.Fp.Plasma3World
import Verif.Fp.SubLoop

/-!
C74: the reflection of 3D plasma particles at the boundary, in doubles (move.py:28-49).
-/

namespace Lcode.Fp

/-- The difference of two doubles that are within a factor of two of each other is a double. -/
theorem sterbenz {x y : ℚ} (hx : IsFloat x) (hy : IsFloat y) (h0 : 0 ≤ x) (h1 : y ≤ 2 * x) (h2 : x ≤ 2 * y) : IsFloat (x - y) := by
  have hy0 : 0 ≤ y := by linarith
  have hxy : |x - y| ≤ x ∧ |x - y| ≤ y := by constructor <;> rw [abs_le] <;> constructor <;> linarith
  obtain ⟨m, e, hm, rfl⟩ := hx
  obtain ⟨n, f, hn, rfl⟩ := hy
  have key : ∀ (m n : ℤ) (e f : ℤ), e ≤ f → (m : ℚ) * 2 ^ e - n * 2 ^ f = ((m - n * 2 ^ (f - e).toNat : ℤ) : ℚ) * 2 ^ e := by
    intro m n e f hef
    have : (2 : ℚ) ^ f = 2 ^ (f - e).toNat * 2 ^ e := by
      rw [← zpow_natCast, ← zpow_add₀ (by norm_num), Int.toNat_of_nonneg (by omega)]
      congr 1; ring
    rw [this]; push_cast; ring
  have bound : ∀ (k m : ℤ) (e : ℤ), |m| ≤ 2 ^ 53 → |(k : ℚ) * 2 ^ e| ≤ (m : ℚ) * 2 ^ e → |k| ≤ 2 ^ 53 := by
    intro k m e hm hk
    have hp : (0 : ℚ) < 2 ^ e := by positivity
    rw [abs_mul, abs_of_pos hp] at hk
    have h1 := le_of_mul_le_mul_right hk hp
    have h2 : |k| ≤ m := by exact_mod_cast h1
    exact h2.trans ((le_abs_self m).trans hm)
  rcases le_total e f with hef | hef
  · rw [key m n e f hef] at hxy ⊢
    exact ⟨_, e, bound _ m e hm hxy.1, rfl⟩
  · have e' : (m : ℚ) * 2 ^ e - n * 2 ^ f = ((-(n - m * 2 ^ (e - f).toNat) : ℤ) : ℚ) * 2 ^ f := by
      have := key n m f e hef
      rw [Int.cast_neg, neg_mul, ← this]; ring
    rw [e'] at hxy ⊢
    exact ⟨_, f, bound _ n f hn hxy.2, rfl⟩

/-- The mirror image of a coordinate that is beyond one of the walls at -b and b. -/
def fold (b X : ℚ) : ℚ := if X > b then 2 * b - X else if X < -b then -2 * b - X else X

theorem fold_within {b X : ℚ} (hb : 0 ≤ b) (hX : |X| ≤ 3 * b) : |fold b X| ≤ b := by
  obtain ⟨h1, h2⟩ := abs_le.mp hX
  unfold fold
  split
  · rw [abs_le]; constructor <;> linarith
  · split
    · rw [abs_le]; constructor <;> linarith
    · rw [abs_le]; constructor <;> linarith

/-- C74: in doubles too the reflection at the boundary is exact: a particle that the computer sees at (X, Y), not farther from the axis than three times the boundary, is put exactly at the mirror image, with the momentum zero if it was reflected and otherwise as it was; its offset is the new coordinate minus the initial one with one rounding, or as it was. -/
theorem mirror_doubles {b x0 y0 xo yo : ℚ} {p : V3F} (hf : IsFloat b) (hb : 0 < b) (hX : |fl (x0 + xo)| ≤ 3 * b) (hY : |fl (y0 + yo)| ≤ 3 * b) :
    correct3F x0 y0 xo yo p b = ⟨fold b (fl (x0 + xo)), fold b (fl (y0 + yo)),
      if |fl (x0 + xo)| ≤ b then xo else fl (fold b (fl (x0 + xo)) - x0), if |fl (y0 + yo)| ≤ b then yo else fl (fold b (fl (y0 + yo)) - y0),
      if |fl (x0 + xo)| ≤ b ∧ |fl (y0 + yo)| ≤ b then p else ⟨0, 0, 0⟩⟩ := by
  have two : fl (2 * b) = 2 * b := fl_exact (isFloat_two hf)
  have mtwo : fl (-2 * b) = -2 * b := by rw [show -2 * b = -(2 * b) by ring, fl_neg, two]
  have right : ∀ X, IsFloat X → b < X → X ≤ 3 * b → fl (2 * b - X) = 2 * b - X := fun X hXf h1 h2 => fl_exact (sterbenz (isFloat_two hf) hXf (by linarith) (by linarith) (by linarith))
  have left : ∀ X, IsFloat X → X < -b → -(3 * b) ≤ X → fl (-2 * b - X) = -2 * b - X := by
    intro X hXf h1 h2
    have hXn : IsFloat (-X) := by obtain ⟨m, e, hm, rfl⟩ := hXf; exact ⟨-m, e, by rwa [abs_neg], by push_cast; ring⟩
    rw [show -2 * b - X = -X - 2 * b by ring]
    exact fl_exact (sterbenz hXn (isFloat_two hf) (by linarith) (by linarith) (by linarith))
  unfold correct3F
  have hXf := isFloat_fl (x0 + xo)
  have hYf := isFloat_fl (y0 + yo)
  generalize fl (x0 + xo) = X at *
  generalize fl (y0 + yo) = Y at *
  obtain ⟨x1, x2⟩ := abs_le.mp hX
  obtain ⟨y1, y2⟩ := abs_le.mp hY
  -- the first two tests
  have hx : ∀ Y yo p, reflLeftF b x0 (reflRightF b x0 ⟨X, Y, xo, yo, p⟩) = ⟨fold b X, Y, if |X| ≤ b then xo else fl (fold b X - x0), yo, if |X| ≤ b then p else ⟨0, 0, 0⟩⟩ := by
    intro Y yo p
    unfold reflLeftF reflRightF fold
    rcases lt_or_ge b X with h | h
    · have na : ¬ |X| ≤ b := fun hc => by linarith [le_abs_self X]
      simp only [if_pos h, if_neg na, two, right X hXf h x2]
      rw [if_neg (by linarith)]
    · rcases lt_or_ge X (-b) with h' | h'
      · have na : ¬ |X| ≤ b := fun hc => by linarith [neg_abs_le X]
        simp only [if_neg (not_lt.mpr h), gt_iff_lt, if_pos h', if_neg na, mtwo, left X hXf h' x1]
      · have ya : |X| ≤ b := abs_le.mpr ⟨h', h⟩
        simp only [if_neg (not_lt.mpr h), gt_iff_lt, if_neg (not_lt.mpr h'), if_pos ya]
  have hy : ∀ X xo p, reflBottomF b y0 (reflTopF b y0 ⟨X, Y, xo, yo, p⟩) = ⟨X, fold b Y, xo, if |Y| ≤ b then yo else fl (fold b Y - y0), if |Y| ≤ b then p else ⟨0, 0, 0⟩⟩ := by
    intro X xo p
    unfold reflBottomF reflTopF fold
    rcases lt_or_ge b Y with h | h
    · have na : ¬ |Y| ≤ b := fun hc => by linarith [le_abs_self Y]
      simp only [if_pos h, if_neg na, two, right Y hYf h y2]
      rw [if_neg (by linarith)]
    · rcases lt_or_ge Y (-b) with h' | h'
      · have na : ¬ |Y| ≤ b := fun hc => by linarith [neg_abs_le Y]
        simp only [if_neg (not_lt.mpr h), gt_iff_lt, if_pos h', if_neg na, mtwo, left Y hYf h' y1]
      · have ya : |Y| ≤ b := abs_le.mpr ⟨h', h⟩
        simp only [if_neg (not_lt.mpr h), gt_iff_lt, if_neg (not_lt.mpr h'), if_pos ya]
  rw [hx, hy]
  congr 1
  by_cases h1 : |X| ≤ b <;> by_cases h2 : |Y| ≤ b <;> simp [h1, h2]

/-- A wall at 5, a particle from 4.75 displaced by 0.5. -/
example : correct3F (19 / 4) 1 (1 / 2) 0 ⟨1, 2, 3⟩ 5 = ⟨19 / 4, 1, 0, 0, ⟨0, 0, 0⟩⟩ := by
  have e1 : fl (19 / 4 + 1 / 2) = 21 / 4 := by decide +kernel
  have e2 : fl (1 + 0) = 1 := by decide +kernel
  have e3 : fl (19 / 4 - 19 / 4) = 0 := by decide +kernel
  have hf : IsFloat 5 := ⟨5, 0, by norm_num, by norm_num⟩
  rw [mirror_doubles hf (by norm_num) (by rw [e1]; norm_num [abs_of_pos]) (by rw [e2]; norm_num), e1, e2]
  norm_num [fold, abs_of_pos, e3, fl_zero]

end Lcode.Fp
