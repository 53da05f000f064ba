import Verif.Plasma3D.ConvergeAll
import Mathlib.Analysis.Calculus.BumpFunction.Basic
import Mathlib.Analysis.Calculus.BumpFunction.InnerProduct
import Mathlib.MeasureTheory.Integral.IntervalIntegral.FundThmCalculus

/-!
A concrete case of property C66: a smooth bump in the middle of a window of size 10, and the fields built from it.
-/

namespace Lcode.Plasma3D.ConvergeCases

open Lcode.Num Lcode.Plasma3D
open scoped ContDiff

/-- A bump around the middle of the window, zero at distance 2 from it. -/
noncomputable def bump : ContDiffBump (5 : ℝ) := ⟨1, 2, by norm_num, by norm_num⟩

noncomputable def f : ℝ → ℝ → ℝ := fun x y => bump x * bump y

theorem bump_smooth : ContDiff ℝ ∞ (bump : ℝ → ℝ) := bump.contDiff

theorem f_smooth : Smooth2 f := ContDiff.mul (ContDiff.comp (g := fun x => bump x) bump_smooth contDiff_fst) (ContDiff.comp (g := fun x => bump x) bump_smooth contDiff_snd)

theorem bump_zero (x : ℝ) (hx : x ≤ 1 ∨ 10 - 1 ≤ x) : bump x = 0 := by
  apply bump.zero_of_le_dist
  rw [Real.dist_eq]
  change (2 : ℝ) ≤ _
  rcases hx with h | h
  · rw [abs_of_nonpos (by linarith)]; linarith
  · rw [abs_of_nonneg (by linarith)]; linarith

theorem f_vanishes : Vanishes 10 1 f := by
  intro x y h
  unfold f
  rcases h with h | h | h | h
  · rw [bump_zero x (Or.inl h), zero_mul]
  · rw [bump_zero x (Or.inr h), zero_mul]
  · rw [bump_zero y (Or.inl h), mul_zero]
  · rw [bump_zero y (Or.inr h), mul_zero]

theorem bump_one : bump 5 = 1 := bump.one_of_mem_closedBall (by rw [Metric.mem_closedBall, dist_self]; change (0 : ℝ) ≤ 1; norm_num)

theorem inter_f : Interior 10 1 f := ⟨f_smooth, f_vanishes⟩
theorem _root_.Lcode.Plasma3D.Interior.Dx {W δ : ℝ} {u : ℝ → ℝ → ℝ} (h : Interior W δ u) : Interior W δ (Num.Dx u) := ⟨h.1.Dx, h.2.Dx h.1⟩
theorem _root_.Lcode.Plasma3D.Interior.Dy {W δ : ℝ} {u : ℝ → ℝ → ℝ} (h : Interior W δ u) : Interior W δ (Num.Dy u) := ⟨h.1.Dy, h.2.Dy h.1⟩
theorem inter_sub {W δ : ℝ} {a b : ℝ → ℝ → ℝ} (ha : Interior W δ a) (hb : Interior W δ b) : Interior W δ (fun x y => a x y - b x y) :=
  ⟨ha.1.sub hb.1, fun x y hxy => by beta_reduce; rw [ha.2 x y hxy, hb.2 x y hxy, sub_zero]⟩

/-- E_z is the bump, B_z its derivative; the currents follow. -/
noncomputable def bz : ℝ → ℝ → ℝ := Dx f
noncomputable def jx : ℝ → ℝ → ℝ := fun x y => Dx f x y + Dy bz x y
noncomputable def jy : ℝ → ℝ → ℝ := fun x y => Dy f x y - Dx bz x y
noncomputable def jz : ℝ → ℝ → ℝ := fun x y => f x y + Lap f x y

noncomputable def zeroCur : CurFn := ⟨fun _ _ => 0, fun _ _ => 0, fun _ _ => 0, fun _ _ => 0⟩

/-- The electrons carry the current, the ions are at rest. -/
noncomputable def electrons : CurFn := ⟨f, jx, jy, jz⟩
noncomputable def now : CurFn × CurFn := (electrons, zeroCur)
noncomputable def before : CurFn × CurFn := (⟨fun _ _ => 0, fun _ _ => 0, f, fun _ _ => 0⟩, zeroCur)

/-- The estimates that make the bump the solution of the transverse equations with coefficient 1 and step 1/2. -/
noncomputable def F : FieldFn where
  Ex := fun x y => f x y - (Lap f x y - (Dx (meanOf (CurFn.total now).ro (CurFn.total before).ro f f) x y - ((CurFn.total before).jx x y - (CurFn.total now).jx x y) / (1 / 2)))
  Ey := fun x y => f x y - (Lap f x y - (Dy (meanOf (CurFn.total now).ro (CurFn.total before).ro f f) x y - ((CurFn.total before).jy x y - (CurFn.total now).jy x y) / (1 / 2)))
  Ez := fun _ _ => 0
  Bx := fun x y => f x y - (Lap f x y - (((CurFn.total before).jy x y - (CurFn.total now).jy x y) / (1 / 2) - Dy (meanOf (CurFn.total now).jz (CurFn.total before).jz f f) x y))
  By := fun x y => f x y - (Lap f x y - (Dx (meanOf (CurFn.total now).jz (CurFn.total before).jz f f) x y - ((CurFn.total before).jx x y - (CurFn.total now).jx x y) / (1 / 2)))
  Bz := fun _ _ => 0
  Phi := fun _ _ => 0

noncomputable def G : FieldFn := ⟨f, f, f, f, f, bz, f⟩

theorem inter_zero : Interior 10 1 (fun _ _ => 0) := ⟨contDiff_const, fun _ _ _ => rfl⟩
theorem inter_bz : Interior 10 1 bz := inter_f.Dx
theorem inter_jx : Interior 10 1 jx := inter_f.Dx.sum inter_bz.Dy
theorem inter_jy : Interior 10 1 jy := inter_sub inter_f.Dy inter_bz.Dx
theorem inter_jz : Interior 10 1 jz := inter_f.sum (inter_f.Dx.Dx.sum inter_f.Dy.Dy)
theorem inter_zeroCur : zeroCur.Interior 10 1 := ⟨inter_zero, inter_zero, inter_zero, inter_zero⟩
theorem inter_now : now.1.Interior 10 1 ∧ now.2.Interior 10 1 := ⟨⟨inter_f, inter_jx, inter_jy, inter_jz⟩, inter_zeroCur⟩
theorem inter_before : before.1.Interior 10 1 ∧ before.2.Interior 10 1 := ⟨⟨inter_zero, inter_zero, inter_f, inter_zero⟩, inter_zeroCur⟩

/-- The mean value of B_z is zero. -/
theorem bz_mean : ∫ x in (0 : ℝ)..10, ∫ y in (0 : ℝ)..10, bz x y = 0 := by
  have e : ∀ x y, bz x y = deriv bump x * bump y := by
    intro x y
    have hb : HasDerivAt (bump : ℝ → ℝ) (deriv bump x) x := ((bump_smooth.differentiable (by simp)) x).hasDerivAt
    exact (hb.mul_const (bump y)).deriv
  have e2 : ∀ x, ∫ y in (0 : ℝ)..10, bz x y = deriv bump x * ∫ y in (0 : ℝ)..10, bump y := by
    intro x
    simp only [e, intervalIntegral.integral_const_mul]
  simp only [e2, intervalIntegral.integral_mul_const]
  rw [intervalIntegral.integral_deriv_eq_sub (fun x _ => (bump_smooth.differentiable (by simp)) x) ((bump_smooth.continuous_deriv (by simp)).intervalIntegrable 0 10)]
  rw [bump_zero 0 (Or.inl (by norm_num)), bump_zero 10 (Or.inr (by norm_num))]
  simp

theorem edge_x (x y : ℝ) (h : x = 0 ∨ x = 10) : x ≤ 1 ∨ 10 - 1 ≤ x ∨ y ≤ 1 ∨ 10 - 1 ≤ y := by
  rcases h with rfl | rfl
  · left; norm_num
  · right; left; norm_num
theorem edge_y (x y : ℝ) (h : y = 0 ∨ y = 10) : x ≤ 1 ∨ 10 - 1 ≤ x ∨ y ≤ 1 ∨ 10 - 1 ≤ y := by
  rcases h with rfl | rfl
  · right; right; left; norm_num
  · right; right; right; norm_num

/-- The continuous problem has this solution. -/
theorem solves : Solves 10 (1 / 2) 1 (CurFn.total now) (CurFn.total before) f f F G where
  smooth := ⟨f_smooth, f_smooth, f_smooth, f_smooth, f_smooth, inter_bz.1, f_smooth⟩
  wall_x := fun x y _ h => ⟨f_vanishes x y (edge_x x y h), f_vanishes x y (edge_x x y h)⟩
  wall_y := fun x y _ h => ⟨f_vanishes x y (edge_y x y h), f_vanishes x y (edge_y x y h)⟩
  normal_x := fun x y _ h => ⟨inter_f.Dx.2 x y (edge_x x y h), inter_f.Dx.2 x y (edge_x x y h), inter_bz.Dx.2 x y (edge_x x y h)⟩
  normal_y := fun x y _ h => ⟨inter_f.Dy.2 x y (edge_y x y h), inter_f.Dy.2 x y (edge_y x y h), inter_bz.Dy.2 x y (edge_y x y h)⟩
  wall := fun x y _ h => by
    have : x ≤ 1 ∨ 10 - 1 ≤ x ∨ y ≤ 1 ∨ 10 - 1 ≤ y := by
      rcases h with h | h | h | h
      · exact edge_x x y (Or.inl h)
      · exact edge_x x y (Or.inr h)
      · exact edge_y x y (Or.inl h)
      · exact edge_y x y (Or.inr h)
    exact ⟨f_vanishes x y this, f_vanishes x y this⟩
  ex := fun x y _ => by simp only [F, G]; ring
  ey := fun x y _ => by simp only [F, G]; ring
  bx := fun x y _ => by simp only [F, G]; ring
  by' := fun x y _ => by simp only [F, G]; ring
  ez := fun x y _ => by
    have e1 : (CurFn.total now).jx = jx := by funext a b; simp [CurFn.total, now, electrons, zeroCur]
    have e2 : (CurFn.total now).jy = jy := by funext a b; simp [CurFn.total, now, electrons, zeroCur]
    rw [e1, e2]
    have a1 : Dx jx x y = Dx (Dx f) x y + Dx (Dy bz) x y := ((f_smooth.Dx.hasX x y).add (inter_bz.1.Dy.hasX x y)).deriv
    have a2 : Dy jy x y = Dy (Dy f) x y - Dy (Dx bz) x y := ((f_smooth.Dy.hasY x y).sub (inter_bz.1.Dx.hasY x y)).deriv
    rw [a1, a2, inter_bz.1.comm x y]
    simp only [G, Lap]; ring
  phi := fun x y _ => by simp only [G, CurFn.total, now, electrons, zeroCur, jz]; ring
  bz := fun x y _ => by
    have e1 : (CurFn.total now).jx = jx := by funext a b; simp [CurFn.total, now, electrons, zeroCur]
    have e2 : (CurFn.total now).jy = jy := by funext a b; simp [CurFn.total, now, electrons, zeroCur]
    rw [e1, e2]
    have a1 : Dy jx x y = Dy (Dx f) x y + Dy (Dy bz) x y := ((f_smooth.Dx.hasY x y).add (inter_bz.1.Dy.hasY x y)).deriv
    have a2 : Dx jy x y = Dx (Dy f) x y - Dx (Dx bz) x y := ((f_smooth.Dy.hasX x y).sub (inter_bz.1.Dx.hasX x y)).deriv
    rw [a1, a2, f_smooth.comm x y]
    simp only [G, Lap]; ring
  bz_mean := bz_mean

/-- All hypotheses of `fields_converge` hold for these fields, which are not zero: E_z is 1 in the middle of the window. -/
theorem case_converges : G.Ez 5 5 = 1 ∧ ∃ C, ∀ (L : ℕ) (h ε : ℝ), 2 ≤ L → 0 < h → L * h = 10 → h ≤ 1 → 0 ≤ ε → ∀ A B : Fields3, CloseTo L h ε A F → CloseTo L h ε B G →
    ∀ full half, computeFields ⟨L, h, 1 / 2, 1⟩ A B (sample h f) (sample h f) (before.1.sample h, before.2.sample h) (now.1.sample h, now.2.sample h) = (full, half) →
    ∀ i j, OnGrid L i → OnGrid L j → |full.Ez i j - G.Ez (i * h) (j * h)| ≤ C * h ^ 2 ∧ |full.Bz i j - G.Bz (i * h) (j * h)| ≤ C * h := by
  refine ⟨by simp only [G, f, bump_one, mul_one], ?_⟩
  obtain ⟨C, hC⟩ := fields_converge 10 1 (1 / 2) 1 (by norm_num) (by norm_num) now before f f F G G inter_now inter_before inter_f inter_f solves
  refine ⟨C, fun L h ε a b c d e A B hA hB full half hcf i j hi hj => ?_⟩
  have := (hC L h ε a b c d e A B hA hB full half hcf i j hi hj).2.1
  exact ⟨this.1, this.2.2⟩

end Lcode.Plasma3D.ConvergeCases
