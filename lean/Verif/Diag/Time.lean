import Verif.Py
import Mathlib.Algebra.Order.Floor.Semiring
import Mathlib.Tactic.FieldSimp
import Mathlib.Tactic.Push

/-!
C36: at which time steps a diagnostic writes.

Model of lcode/diagnostics/utils.py:19-24, 39-50 and of the period adjustment of the three diagnostics. Times and periods are elements of an
ordered field (exact arithmetic; rounding of floats is not modelled).
-/

namespace Lcode.Diag

open Lcode.Py

variable {K : Type*} [Field K] [LinearOrder K] [IsStrictOrderedRing K] [FloorRing K]

/-- utils.py:17-19 and :39-50: `abs(math.remainder(x, y))`; `math.remainder(x, y) = x - n y` with `n` the integer nearest to `x / y`, ties to
even. -/
def absRemainder (x y : K) : K := |x - y * pyRound (x / y)|

/-- utils.py:22-24: `condition_check`. -/
def cond (time period dt : K) : Prop := absRemainder time period ≤ dt / 2

instance (time period dt : K) : Decidable (cond time period dt) := inferInstanceAs (Decidable (_ ≤ _))

/-- FXi/FXi.py:83-84, slice.py:67-68, particles.py:37-38: a period shorter than a time step is replaced by the time step. -/
def adjust (period dt : K) : K := if period < dt then dt else period

/-- The physical time of the `k`-th time step of a run (`k = 0, 1, ...`): simulation.py:243, :266 on one process;
on several processes `Lcode.Mpi.run_times` shows that the same times are distributed over the processes. -/
def stepTime (dt : K) (k : ℕ) : K := dt * ((k : K) + 1)

theorem adjust_ge (period dt : K) : dt ≤ adjust period dt := by
  unfold adjust; split <;> [exact le_rfl; exact not_lt.mp ‹_›]

theorem pyRound_nearest (x : K) (m : ℤ) : |x - pyRound x| ≤ |x - m| := by
  have h := abs_pyRound_sub_le x
  rw [abs_sub_comm] at h
  rcases eq_or_ne m (pyRound x) with rfl | hne
  · exact le_rfl
  · refine h.trans ?_
    have h1 : (1 : K) ≤ |(m : K) - pyRound x| := by
      have : (1 : ℤ) ≤ |m - pyRound x| := Int.one_le_abs (sub_ne_zero.mpr hne)
      exact_mod_cast this
    have h2 : |(m : K) - pyRound x| ≤ |x - m| + |x - pyRound x| := by
      have := abs_sub_le (m : K) x (pyRound x : K)
      rwa [abs_sub_comm (m : K) x] at this
    linarith

/-- Whether a step writes depends only on whether its time lies within half a time step of a multiple of the period. -/
theorem cond_iff {time period dt : K} (hp : 0 < period) :
    cond time period dt ↔ ∃ m : ℤ, |time - m * period| ≤ dt / 2 := by
  unfold cond absRemainder
  constructor
  · intro h; exact ⟨pyRound (time / period), by rwa [mul_comm]⟩
  · rintro ⟨m, h⟩
    refine le_trans ?_ h
    have h1 := pyRound_nearest (time / period) m
    have e1 : ∀ z : ℤ, |time / period - z| = |time - z * period| / period := by
      intro z
      rw [← abs_of_pos hp, ← abs_div, abs_of_pos hp]
      congr 1; field_simp
    rw [e1, e1, div_le_div_iff_of_pos_right hp] at h1
    rwa [mul_comm period]

/-- C36: every multiple of the (adjusted) output period that the run reaches has an output: some time step of the run writes, at a time at most half
a time step away. -/
theorem every_period_written {dt : K} (hdt : 0 < dt) (period : K) (N m : ℕ) (hm : 1 ≤ m)
    (hN : (m : K) * adjust period dt ≤ stepTime dt N - dt) :
    ∃ k : ℕ, k < N ∧ |stepTime dt k - m * adjust period dt| ≤ dt / 2 ∧ cond (stepTime dt k) (adjust period dt) dt := by
  have hP := adjust_ge period dt
  have hP0 : 0 < adjust period dt := hdt.trans_le hP
  set P := adjust period dt
  have hx1 : (1 : K) ≤ m * P / dt := by
    rw [le_div_iff₀ hdt, one_mul]
    have : (1 : K) ≤ m := by exact_mod_cast hm
    nlinarith
  have hx2 : (m : K) * P / dt ≤ N := by
    rw [div_le_iff₀ hdt]
    unfold stepTime at hN
    linarith
  have hr1 := one_le_pyRound hx1
  have hd := abs_pyRound_sub_le ((m : K) * P / dt)
  have hrN : pyRound ((m : K) * P / dt) ≤ N := by
    by_contra hc
    have hc' : (N : ℤ) + 1 ≤ pyRound ((m : K) * P / dt) := by omega
    have hc2 : (N : K) + 1 ≤ (pyRound ((m : K) * P / dt) : K) := by exact_mod_cast hc'
    rw [abs_le] at hd
    linarith [hd.1, hd.2]
  obtain ⟨k, hk⟩ : ∃ k : ℕ, pyRound ((m : K) * P / dt) = (k : ℤ) + 1 := ⟨(pyRound ((m : K) * P / dt) - 1).toNat, by omega⟩
  have hclose : |stepTime dt k - m * P| ≤ dt / 2 := by
    rw [hk] at hd
    have e : stepTime dt k - m * P = dt * ((((k : ℤ) + 1 : ℤ) : K) - m * P / dt) := by
      unfold stepTime; push_cast; field_simp
    rw [e, abs_mul, abs_of_pos hdt]
    nlinarith
  refine ⟨k, by omega, hclose, (cond_iff hP0).mpr ⟨m, by exact_mod_cast hclose⟩⟩

/-- C36: conversely every step that writes (after the first) is within half a time step of a positive multiple of the period. -/
theorem written_near_period {dt : K} (hdt : 0 < dt) (period : K) (k : ℕ) (h : cond (stepTime dt k) (adjust period dt) dt) :
    ∃ m : ℕ, 1 ≤ m ∧ |stepTime dt k - m * adjust period dt| ≤ dt / 2 := by
  have hP0 : 0 < adjust period dt := hdt.trans_le (adjust_ge period dt)
  obtain ⟨m, hm⟩ := (cond_iff hP0).mp h
  have hm1 : 1 ≤ m := by
    by_contra hc
    have hc' : m ≤ 0 := by omega
    have hc2 : (m : K) ≤ 0 := by exact_mod_cast hc'
    have h3 : (m : K) * adjust period dt ≤ 0 := mul_nonpos_of_nonpos_of_nonneg hc2 hP0.le
    have h4 : dt ≤ stepTime dt k := by
      unfold stepTime
      have : (0 : K) ≤ k := Nat.cast_nonneg k
      nlinarith
    rw [abs_le] at hm
    linarith [hm.2]
  refine ⟨m.toNat, by omega, ?_⟩
  have e : ((m.toNat : ℕ) : K) = (m : K) := by
    have : ((m.toNat : ℕ) : ℤ) = m := by omega
    exact_mod_cast congrArg (Int.cast : ℤ → K) this
  rw [e]; exact hm

/-- C36: a multiple of the period is written by one step, or by two consecutive steps when it falls exactly in the middle between them. -/
theorem writers_of_multiple {dt : K} (hdt : 0 < dt) (P : K) (m k k' : ℕ) (hkk : k < k')
    (h : |stepTime dt k - m * P| ≤ dt / 2) (h' : |stepTime dt k' - m * P| ≤ dt / 2) :
    k' = k + 1 ∧ stepTime dt k + dt / 2 = m * P := by
  unfold stepTime at *
  rw [abs_le] at h h'
  have hlt : (k' : K) < k + 2 := by
    by_contra hc
    push Not at hc
    have : dt * ((k : K) + 2) ≤ dt * k' := mul_le_mul_of_nonneg_left hc hdt.le
    nlinarith [h.1, h'.2]
  have hk : k' < k + 2 := by exact_mod_cast hlt
  have e : k' = k + 1 := by omega
  subst e
  refine ⟨rfl, ?_⟩
  push_cast at h'
  apply le_antisymm
  · nlinarith [h'.2]
  · nlinarith [h.1]

/-- C36: a period not longer than the time step writes at every step. -/
theorem short_period_every_step {dt : K} (hdt : 0 < dt) (period : K) (hp : period ≤ dt) (k : ℕ) :
    cond (stepTime dt k) (adjust period dt) dt := by
  have e : adjust period dt = dt := by
    unfold adjust; split
    · rfl
    · exact le_antisymm hp (not_lt.mp ‹_›)
  rw [e, cond_iff hdt]
  refine ⟨k + 1, ?_⟩
  have : stepTime dt k - ((k + 1 : ℤ) : K) * dt = 0 := by unfold stepTime; push_cast; ring
  rw [this, abs_zero]; linarith

/-- Two outputs of the same run closer to each other than the period minus one time step belong to the same multiple of the period: there are no
extra outputs between two multiples. -/
theorem outputs_spaced {dt : K} (hdt : 0 < dt) (period : K) (k k' m m' : ℕ) (hm : m < m')
    (h : |stepTime dt k - m * adjust period dt| ≤ dt / 2) (h' : |stepTime dt k' - m' * adjust period dt| ≤ dt / 2) :
    adjust period dt - dt ≤ stepTime dt k' - stepTime dt k := by
  have hP0 : 0 < adjust period dt := hdt.trans_le (adjust_ge period dt)
  rw [abs_le] at h h'
  have : ((m : K) + 1) * adjust period dt ≤ m' * adjust period dt := by
    apply mul_le_mul_of_nonneg_right _ hP0.le
    exact_mod_cast hm
  nlinarith [h.1, h.2, h'.1, h'.2]

/-- The hypotheses of C36 are met: time step 3, period 10, the fourth multiple of the period, 14 steps. -/
example : ∃ k : ℕ, k < 14 ∧ |stepTime (3 : ℚ) k - (4 : ℕ) * adjust 10 3| ≤ 3 / 2 ∧ cond (stepTime (3 : ℚ) k) (adjust 10 3) 3 :=
  every_period_written (by norm_num) 10 14 4 (by norm_num) (by norm_num [stepTime, adjust])

/-- The output steps of a run of twelve steps of length 2 with period 5: the multiples 5, 15 and 25 are midway between two steps, so both write. -/
example : (List.range 12).filter (fun k => decide (cond (stepTime (2 : ℚ) k) (adjust 5 2) 2)) = [1, 2, 4, 6, 7, 9, 11] := by
  decide +kernel

end Lcode.Diag
