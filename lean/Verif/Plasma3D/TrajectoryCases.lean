import Verif.Plasma3D.TrajectoryStep
import Verif.Plasma3D.Stream
import Mathlib.Analysis.SpecialFunctions.Trigonometric.Deriv

/-!
Property C78, third part: what the solver does with each particle, fields sampled on the grid, and a particle on a helix that meets all hypotheses.
-/

namespace Lcode.Plasma3D

open Lcode.Beam3D (Within interpolate_near)
open Lcode.Num (DerivOn BoundedOn)

/-! ### The solver -/

/-- The first estimate of the half-step fields, solver.py:34-47. -/
noncomputable def firstHalf (c : SCfg) (w : W3) (bFull bPrev : ℤ → ℤ → ℝ) : Fields3 :=
  (computeFields c.f w.F w.F bFull bPrev w.cur (rhojSorts c (pushSorts c w.F w (freeSorts c w)))).2

theorem moveSort_get (c : MCfg) (F : Fields3) (f : Ptl → Ptl) (l : List Ptl) (i : ℕ) : (moveSort c F l (l.map f))[i]? = l[i]?.map (fun r => moveOne c F r (f r)) := by
  unfold moveSort
  induction l generalizing i with
  | nil => rfl
  | cons a l ih =>
    cases i with
    | zero => rfl
    | succ i => simpa using ih i

theorem moveSort_map (c : MCfg) (F : Fields3) (f : Ptl → Ptl) (l : List Ptl) : moveSort c F l (l.map f) = l.map (fun r => moveOne c F r (f r)) := by
  apply List.ext_getElem?
  intro i
  rw [moveSort_get, List.getElem?_map]

/-- C78: without declustering, in every layer of every run each electron and each ion makes one step of this file: the arrays of its three passes are the fields of the layer before and the two successive estimates of the half-step fields, the same for all. -/
theorem stepDxi_particles (c : SCfg) (w : W3) (bFull bPrev : ℤ → ℤ → ℝ) (hd : c.decl = none) :
    (∀ i : ℕ, (stepDxi c w bFull bPrev).el[i]? = w.el[i]?.map (layerOf c.m w.F (firstHalf c w bFull bPrev) (predictor c w bFull bPrev).2.2)) ∧
    (∀ ions, w.ions = some ions → ∃ l, (stepDxi c w bFull bPrev).ions = some l ∧ ∀ i : ℕ, l[i]? = ions[i]?.map (layerOf c.m w.F (firstHalf c w bFull bPrev) (predictor c w bFull bPrev).2.2)) := by
  have hp : (predictor c w bFull bPrev).1 = pushSorts c (firstHalf c w bFull bPrev) w (pushSorts c w.F w (freeSorts c w)) := rfl
  have hs : stepDxi c w bFull bPrev = ⟨(pushSorts c (predictor c w bFull bPrev).2.2 w (predictor c w bFull bPrev).1).1, (pushSorts c (predictor c w bFull bPrev).2.2 w (predictor c w bFull bPrev).1).2, w.chx, w.chy,
      (predictor c w bFull bPrev).2.1, rhojSorts c (pushSorts c (predictor c w bFull bPrev).2.2 w (predictor c w bFull bPrev).1)⟩ := by
    unfold stepDxi
    rw [hd]
  rw [hs, hp]
  generalize (predictor c w bFull bPrev).2.2 = F2
  generalize firstHalf c w bFull bPrev = F1
  constructor
  · intro i
    show (moveSort c.m F2 w.el (moveSort c.m F1 w.el (moveSort c.m w.F w.el (w.el.map (moveFree c.m.dxi)))))[i]? = _
    rw [moveSort_map, moveSort_map, moveSort_get]
    rfl
  · intro ions hi
    refine ⟨moveSort c.m F2 ions (moveSort c.m F1 ions (moveSort c.m w.F ions (ions.map (moveFree c.m.dxi)))), ?_, ?_⟩
    · simp only [pushSorts, freeSorts, hi, Option.map_some]
    · intro i
      rw [moveSort_map, moveSort_map, moveSort_get]
      rfl

/-! ### Fields on the grid -/

/-- The arrays `F` hold the values of `E`, `B` at the nodes of the grid, with errors up to `d`. -/
def Sampled2 (c : MCfg) (E B : ℝ → ℝ → Vec3) (d : ℝ) (F : Fields3) : Prop :=
  ∀ i j : ℤ, 0 ≤ i → i < c.N → 0 ≤ j → j < c.N →
    Within ⟨F.Ex i j, F.Ey i j, F.Ez i j⟩ (E (c.h * nodeOf c.N i) (c.h * nodeOf c.N j)) d ∧ Within ⟨F.Bx i j, F.By i j, F.Bz i j⟩ (B (c.h * nodeOf c.N i) (c.h * nodeOf c.N j)) d

/-- A smooth field: at every point there is a gradient such that the field at points up to `e` away is given by it up to `Q e²`. -/
def Bent (Q : ℝ) (u : ℝ → ℝ → ℝ) : Prop := ∀ x y, ∃ a b, ∀ x' y' e, |x' - x| ≤ e → |y' - y| ≤ e → |u x' y' - (u x y + a * (x' - x) + b * (y' - y))| ≤ Q * e ^ 2

/-- All components of a vector field. -/
def Bent3 (Q : ℝ) (E : ℝ → ℝ → Vec3) : Prop := Bent Q (fun x y => (E x y).x) ∧ Bent Q (fun x y => (E x y).y) ∧ Bent Q (fun x y => (E x y).z)

theorem boundary_units {c : MCfg} (hh : 0 < c.h) (hp : 2 ≤ c.pad) {x : ℝ} (hx : |x| < c.boundary) : |x / c.h| < c.N / 2 - c.pad ∧ |x / c.h| < c.N / 2 - (2 : ℤ) := by
  have h1 : |x / c.h| < c.N / 2 - c.pad := inside_units hh hx
  have h2 : (2 : ℝ) ≤ c.pad := by exact_mod_cast hp
  refine ⟨h1, lt_of_lt_of_le h1 ?_⟩
  push_cast
  linarith

/-- C78: interpolation of a smooth field from the grid is of second order: the error is at most that of the samples plus `25/4 Q h²`. -/
theorem interpolate_smooth (c : MCfg) (hN : c.N % 2 = 1) (hp : 2 ≤ c.pad) (hh : 0 < c.h) {u : ℝ → ℝ → ℝ} {Q d : ℝ} (hu : Bent Q u) (F : ℤ → ℤ → ℝ)
    (hF : ∀ i j, 0 ≤ i → i < c.N → 0 ≤ j → j < c.N → |F i j - u (c.h * nodeOf c.N i) (c.h * nodeOf c.N j)| ≤ d) (x y : ℝ) (hx : |x| < c.boundary) (hy : |y| < c.boundary) :
    |interpolate c.N (x / c.h + 1 / 2) (y / c.h + 1 / 2) F - u x y| ≤ d + 25 / 4 * Q * c.h ^ 2 := by
  obtain ⟨a, b, hab⟩ := hu x y
  obtain ⟨X1, X2⟩ := boundary_units hh hp hx
  obtain ⟨Y1, Y2⟩ := boundary_units hh hp hy
  have hA := interpolate_affine c.N c.pad hN hp (x / c.h) (y / c.h) X1 Y1 (fun i j => u x y + a * (c.h * nodeOf c.N i - x) + b * (c.h * nodeOf c.N j - y)) (u x y - a * x - b * y) (a * c.h) (b * c.h) (fun i j _ _ _ _ => by ring)
  have e1 : u x y - a * x - b * y + a * c.h * (x / c.h) + b * c.h * (y / c.h) = u x y := by field_simp; ring
  rw [e1] at hA
  have hx' := cell_inside c.N c.pad hN hp (x / c.h) X1
  have hy' := cell_inside c.N c.pad hN hp (y / c.h) Y1
  have lin : interpolate c.N (x / c.h + 1 / 2) (y / c.h + 1 / 2) F - interpolate c.N (x / c.h + 1 / 2) (y / c.h + 1 / 2) (fun i j => u x y + a * (c.h * nodeOf c.N i - x) + b * (c.h * nodeOf c.N j - y)) =
      interpolate c.N (x / c.h + 1 / 2) (y / c.h + 1 / 2) (fun i j => F i j - (u x y + a * (c.h * nodeOf c.N i - x) + b * (c.h * nodeOf c.N j - y))) := by
    rw [interpolate_shape _ _ _ _ _ hx' hy', interpolate_shape _ _ _ _ _ hx' hy', interpolate_shape _ _ _ _ _ hx' hy', ← Finset.sum_sub_distrib]
    refine Finset.sum_congr rfl fun i _ => ?_
    rw [← Finset.sum_sub_distrib]
    exact Finset.sum_congr rfl fun j _ => by ring
  rw [hA] at lin
  rw [lin]
  have units : ∀ (z : ℝ) (i : ℤ), |z / c.h - nodeOf c.N i| < 5 / 2 → |c.h * nodeOf c.N i - z| ≤ c.h * (5 / 2) := by
    intro z i hi
    have : c.h * nodeOf c.N i - z = -(c.h * (z / c.h - nodeOf c.N i)) := by field_simp; ring
    rw [this, abs_neg, abs_mul, abs_of_pos hh]
    exact mul_le_mul_of_nonneg_left hi.le hh.le
  have near := interpolate_near c.N hN (x / c.h) (y / c.h) X2 Y2 (fun i j => F i j - (u x y + a * (c.h * nodeOf c.N i - x) + b * (c.h * nodeOf c.N j - y))) 0 (d + 25 / 4 * Q * c.h ^ 2) (fun i j k1 k2 k3 k4 k5 k6 => by
    have t1 := hF i j k1 k2 k3 k4
    have t2 := hab _ _ _ (units x i k5) (units y j k6)
    rw [sub_zero]
    refine (abs_sub_le _ (u (c.h * nodeOf c.N i) (c.h * nodeOf c.N j)) _).trans ?_
    have : Q * (c.h * (5 / 2)) ^ 2 = 25 / 4 * Q * c.h ^ 2 := by ring
    linarith)
  rwa [sub_zero] at near

/-- C78: arrays that sample smooth fields give interpolated fields with an error of second order in the grid step. -/
theorem sampled_near (c : MCfg) (hN : c.N % 2 = 1) (hp : 2 ≤ c.pad) (hh : 0 < c.h) {E B : ℝ → ℝ → Vec3} {Q d : ℝ} (hE : Bent3 Q E) (hB : Bent3 Q B) (F : Fields3) (hF : Sampled2 c E B d F) :
    FieldsNear c F E B (d + 25 / 4 * Q * c.h ^ 2) := by
  intro x y hx hy
  refine ⟨⟨?_, ?_, ?_⟩, ⟨?_, ?_, ?_⟩⟩
  · exact interpolate_smooth c hN hp hh hE.1 F.Ex (fun i j h1 h2 h3 h4 => (hF i j h1 h2 h3 h4).1.1) x y hx hy
  · exact interpolate_smooth c hN hp hh hE.2.1 F.Ey (fun i j h1 h2 h3 h4 => (hF i j h1 h2 h3 h4).1.2.1) x y hx hy
  · exact interpolate_smooth c hN hp hh hE.2.2 F.Ez (fun i j h1 h2 h3 h4 => (hF i j h1 h2 h3 h4).1.2.2) x y hx hy
  · exact interpolate_smooth c hN hp hh hB.1 F.Bx (fun i j h1 h2 h3 h4 => (hF i j h1 h2 h3 h4).2.1) x y hx hy
  · exact interpolate_smooth c hN hp hh hB.2.1 F.By (fun i j h1 h2 h3 h4 => (hF i j h1 h2 h3 h4).2.2.1) x y hx hy
  · exact interpolate_smooth c hN hp hh hB.2.2 F.Bz (fun i j h1 h2 h3 h4 => (hF i j h1 h2 h3 h4).2.2.2) x y hx hy

/-- The values in the arrays are bounded by `M`. -/
def ArraysUpto (N : ℤ) (F : Fields3) (M : ℝ) : Prop :=
  ∀ i j : ℤ, 0 ≤ i → i < N → 0 ≤ j → j < N → Upto ⟨F.Ex i j, F.Ey i j, F.Ez i j⟩ M ∧ Upto ⟨F.Bx i j, F.By i j, F.Bz i j⟩ M

/-- Interpolation does not exceed the largest value in the arrays. -/
theorem arrays_upto (c : MCfg) (hN : c.N % 2 = 1) (hp : 2 ≤ c.pad) (hh : 0 < c.h) (F : Fields3) (M : ℝ) (hF : ArraysUpto c.N F M) : FieldsUpto c F M := by
  intro x y hx hy
  obtain ⟨-, X2⟩ := boundary_units hh hp hx
  obtain ⟨-, Y2⟩ := boundary_units hh hp hy
  have one : ∀ G : ℤ → ℤ → ℝ, (∀ i j : ℤ, 0 ≤ i → i < c.N → 0 ≤ j → j < c.N → |G i j| ≤ M) → |interpolate c.N (x / c.h + 1 / 2) (y / c.h + 1 / 2) G| ≤ M := by
    intro G hG
    have := interpolate_near c.N hN (x / c.h) (y / c.h) X2 Y2 G 0 M (fun i j h1 h2 h3 h4 _ _ => by rw [sub_zero]; exact hG i j h1 h2 h3 h4)
    rwa [sub_zero] at this
  refine ⟨⟨?_, ?_, ?_⟩, ⟨?_, ?_, ?_⟩⟩
  · exact one F.Ex fun i j h1 h2 h3 h4 => (hF i j h1 h2 h3 h4).1.1
  · exact one F.Ey fun i j h1 h2 h3 h4 => (hF i j h1 h2 h3 h4).1.2.1
  · exact one F.Ez fun i j h1 h2 h3 h4 => (hF i j h1 h2 h3 h4).1.2.2
  · exact one F.Bx fun i j h1 h2 h3 h4 => (hF i j h1 h2 h3 h4).2.1
  · exact one F.By fun i j h1 h2 h3 h4 => (hF i j h1 h2 h3 h4).2.2.1
  · exact one F.Bz fun i j h1 h2 h3 h4 => (hF i j h1 h2 h3 h4).2.2.2

/-- `w 0, ..., w n` are the states of a run of the whole plasma solver at the borders of the layers, and in every layer the solver's arrays approach the true fields: those of the trial passes are bounded, the half-step fields used last are samples of the true fields in the middle of the layer with errors up to `d`. -/
def Consistent (c : SCfg) (M : ℝ) (E B : ℝ → ℝ → ℝ → Vec3) (d : ℝ) (n : ℕ) (w : ℕ → W3) : Prop :=
  ∀ k < n, ∃ bFull bPrev, w (k + 1) = stepDxi c (w k) bFull bPrev ∧ ArraysUpto c.m.N (w k).F (M + 1) ∧ ArraysUpto c.m.N (firstHalf c (w k) bFull bPrev) (M + 1) ∧
    Sampled2 c.m (E (k * c.m.dxi + c.m.dxi / 2)) (B (k * c.m.dxi + c.m.dxi / 2)) d (predictor c (w k) bFull bPrev).2.2

/-- C78, for the solver as a whole (no declustering): electron `i` of a run stays within `C (e0 + d + dxi² + h²)` of its true trajectory, when the half-step fields of the run are the true fields up to `d`: second order in the layer thickness and in the transverse step. -/
theorem solver_second_order {q m M L Q T W R S μ : ℝ} (hq : q ≠ 0) (hm : 0 < m) (hM : 0 ≤ M) (hL : 0 ≤ L) (hQ : 0 ≤ Q) (hS : 0 ≤ S) (hT : 0 ≤ T) (hμ : μ ≤ 1 / 2) {E B : ℝ → ℝ → ℝ → Vec3} (hE : Tame2 M L E) (hB : Tame2 M L B)
    (hE2 : ∀ s, Bent3 Q (E s)) (hB2 : ∀ s, Bent3 Q (B s)) {X Y : ℝ → ℝ} {P : ℝ → Vec3} (hmo : PlasmaMotion q m E B T X Y P) (hpa : Path T W R S X Y P) :
    ∃ C h0 : ℝ, 0 < C ∧ 0 < h0 ∧ ∀ (c : SCfg) (d e0 : ℝ) (n i : ℕ) (w : ℕ → W3) (r0 : Ptl), c.decl = none → c.m.N % 2 = 1 → 2 ≤ c.m.pad → 0 < c.m.h → 0 ≤ c.m.dxi → c.m.dxi ≤ h0 → n * c.m.dxi ≤ T → W + μ < c.m.boundary →
      0 ≤ d → (w 0).el[i]? = some r0 → r0.q = q → r0.m = m → Close r0 (X 0) (Y 0) (P 0) e0 → C * (e0 + d + c.m.dxi ^ 2 + c.m.h ^ 2) ≤ μ → Consistent c M E B d n w →
      ∀ k ≤ n, ∃ r, (w k).el[i]? = some r ∧ r.q = q ∧ r.m = m ∧ Close r (X (k * c.m.dxi)) (Y (k * c.m.dxi)) (P (k * c.m.dxi)) (C * (e0 + d + c.m.dxi ^ 2 + c.m.h ^ 2)) := by
  obtain ⟨C, h0, hC, hh0, main⟩ := plasma_second_order hq hm hM hL hS hT hμ hE hB hmo hpa
  refine ⟨C * (1 + 25 / 4 * Q) + (1 + 25 / 4 * Q), h0, by positivity, hh0, ?_⟩
  intro c d e0 n i w r0 hdecl hN hpad hh hd hd0 hnT hW hd1 hr0 hrq hrm hcl hsmall hcons
  have he0 : 0 ≤ e0 := le_trans (abs_nonneg _) hcl.1
  have key : e0 + (d + 25 / 4 * Q * c.m.h ^ 2) + c.m.dxi ^ 2 ≤ (1 + 25 / 4 * Q) * (e0 + d + c.m.dxi ^ 2 + c.m.h ^ 2) := by
    have : 0 ≤ c.m.h ^ 2 + 25 / 4 * Q * (e0 + d + c.m.dxi ^ 2) := by positivity
    linarith
  have key2 : C * (e0 + (d + 25 / 4 * Q * c.m.h ^ 2) + c.m.dxi ^ 2) ≤ (C * (1 + 25 / 4 * Q) + (1 + 25 / 4 * Q)) * (e0 + d + c.m.dxi ^ 2 + c.m.h ^ 2) := by
    have m1 := mul_le_mul_of_nonneg_left key hC.le
    have : 0 ≤ (1 + 25 / 4 * Q) * (e0 + d + c.m.dxi ^ 2 + c.m.h ^ 2) := by positivity
    linarith
  have hdel1 : d + 25 / 4 * Q * c.m.h ^ 2 ≤ 1 := by
    have m1 : 0 ≤ C * (1 + 25 / 4 * Q) * (e0 + d + c.m.dxi ^ 2 + c.m.h ^ 2) := by positivity
    have m2 : 0 ≤ e0 + c.m.dxi ^ 2 := by positivity
    linarith
  -- the particle at every layer
  have step : ∀ k < n, ∀ r, (w k).el[i]? = some r → ∃ F0 F1 F2, (w (k + 1)).el[i]? = some (layerOf c.m F0 F1 F2 r) ∧ FieldsUpto c.m F0 (M + 1) ∧ FieldsUpto c.m F1 (M + 1) ∧
      FieldsNear c.m F2 (E (k * c.m.dxi + c.m.dxi / 2)) (B (k * c.m.dxi + c.m.dxi / 2)) (d + 25 / 4 * Q * c.m.h ^ 2) := by
    intro k hk r hr
    obtain ⟨bF, bP, hw, u0, u1, sa⟩ := hcons k hk
    refine ⟨(w k).F, firstHalf c (w k) bF bP, (predictor c (w k) bF bP).2.2, ?_, arrays_upto c.m hN hpad hh _ _ u0, arrays_upto c.m hN hpad hh _ _ u1, sampled_near c.m hN hpad hh (hE2 _) (hB2 _) _ sa⟩
    rw [hw, (stepDxi_particles c (w k) bF bP hdecl).1 i, hr]
    rfl
  have ex : ∀ k ≤ n, ∃ r, (w k).el[i]? = some r := by
    intro k
    induction k with
    | zero => intro _; exact ⟨r0, hr0⟩
    | succ k ih =>
      intro hk
      obtain ⟨r, hr⟩ := ih (Nat.le_of_succ_le hk)
      obtain ⟨F0, F1, F2, h, -⟩ := step k hk r hr
      exact ⟨_, h⟩
  obtain ⟨ρ, hρ⟩ : ∃ ρ : ℕ → Ptl, ∀ k, ρ k = ((w k).el[i]?).getD r0 := ⟨_, fun _ => rfl⟩
  have hρk : ∀ k ≤ n, (w k).el[i]? = some (ρ k) := by
    intro k hk
    obtain ⟨r, hr⟩ := ex k hk
    rw [hρ, hr]; rfl
  have h00 : ρ 0 = r0 := by rw [hρ, hr0]; rfl
  have hrun : Run3 c.m M E B (d + 25 / 4 * Q * c.m.h ^ 2) n ρ := by
    intro k hk
    obtain ⟨F0, F1, F2, h, a1, a2, a3⟩ := step k hk _ (hρk k hk.le)
    refine ⟨F0, F1, F2, ?_, a1, a2, a3⟩
    rw [hρk (k + 1) hk] at h
    exact Option.some.inj h
  have fin := main c.m (d + 25 / 4 * Q * c.m.h ^ 2) e0 n ρ hd hd0 hnT hW (by positivity) hdel1 (by rw [h00]; exact hrq) (by rw [h00]; exact hrm) (by rw [h00]; exact hcl) (key2.trans hsmall) hrun
  intro k hk
  obtain ⟨f1, f2, -, f4⟩ := fin k hk
  exact ⟨ρ k, hρk k hk, f1, f2, f4.1.trans key2, f4.2.1.trans key2, f4.2.2.mono key2⟩

/-- A case of the solver as a whole: neutral streams (C49) that cross the window meet the hypothesis on the fields exactly, with no error, for any number of layers. -/
theorem stream_consistent (c : SCfg) (hb : 0 ≤ c.m.boundary) (hd : c.decl = none) (h0 : c.roInit = fun _ _ => 0) (ps : List Ptl) (h : ∀ p ∈ ps, Tame c.m p) (n : ℕ) :
    Consistent c 0 (fun _ _ _ => ⟨0, 0, 0⟩) (fun _ _ _ => ⟨0, 0, 0⟩) 0 n (fun k => stream ((List.map (fly c.m))^[k] ps)) := by
  have tame : ∀ k : ℕ, ∀ p ∈ (List.map (fly c.m))^[k] ps, Tame c.m p := by
    intro k
    induction k with
    | zero => exact h
    | succ k ih =>
      intro p hp
      rw [Function.iterate_succ_apply'] at hp
      obtain ⟨a, ha, rfl⟩ := List.mem_map.mp hp
      exact fly_tame c.m hb a (ih a ha)
  intro k _
  have hs : ∀ p ∈ (List.map (fly c.m))^[k] ps, Settled p := fun p hp => (tame k p hp).1
  beta_reduce
  rw [Function.iterate_succ_apply']
  generalize (List.map (fly c.m))^[k] ps = qs at hs
  obtain ⟨h1, h2, h3, h4, h5⟩ := stream_passes c h0 qs hs
  have hF : (stream qs).F = Fields3.zero := rfl
  have hcur : (stream qs).cur = (Cur.zero, Cur.zero) := rfl
  have hf : firstHalf c (stream qs) (fun _ _ => 0) (fun _ _ => 0) = Fields3.zero := by
    unfold firstHalf
    rw [hF, hcur, h1, h2, h4]
  have hp : (predictor c (stream qs) (fun _ _ => 0) (fun _ _ => 0)).2.2 = Fields3.zero := by
    unfold predictor
    simp only [hF, hcur, h1, h2, h4, h3]
  refine ⟨fun _ _ => 0, fun _ _ => 0, (stream_step c hd h0 qs hs).1.symm, ?_, ?_, ?_⟩
  · rw [hF]; intro i j _ _ _ _; norm_num [Upto, Fields3.zero]
  · rw [hf]; intro i j _ _ _ _; norm_num [Upto, Fields3.zero]
  · rw [hp]; intro i j _ _ _ _; exact ⟨Beam3D.Within.rfl' _, Beam3D.Within.rfl' _⟩

/-! ### A particle on a helix in a uniform magnetic field -/

/-- Arrays of a uniform magnetic field of strength 1 along z. -/
def unitB3 : Fields3 := ⟨fun _ _ => 0, fun _ _ => 0, fun _ _ => 0, fun _ _ => 0, fun _ _ => 0, fun _ _ => 1, fun _ _ => 0⟩
def noE2 : ℝ → ℝ → ℝ → Vec3 := fun _ _ _ => ⟨0, 0, 0⟩
def oneB2 : ℝ → ℝ → ℝ → Vec3 := fun _ _ _ => ⟨0, 0, 1⟩

/-- A helix with longitudinal momentum 1/2: energy 3/2, one turn on the path 2π. -/
noncomputable def helP (s : ℝ) : Vec3 := ⟨Real.cos s, -Real.sin s, 1 / 2⟩

theorem hel_energy (s : ℝ) : (helP s).energy 1 = 3 / 2 := by
  unfold Vec3.energy helP
  simp only
  rw [Real.sqrt_eq_iff_mul_self_eq (by positivity) (by norm_num)]
  have := Real.sin_sq_add_cos_sq s
  nlinarith

theorem hel_force (s x y : ℝ) : lorentz3 1 1 1 (noE2 s x y) (oneB2 s x y) (helP s) = ⟨-Real.sin s, -Real.cos s, 0⟩ := by
  unfold lorentz3
  rw [hel_energy]
  unfold helP noE2 oneB2
  simp only [Vec3.mk.injEq]
  refine ⟨?_, ?_, ?_⟩ <;> ring

theorem hel_motion (T : ℝ) : PlasmaMotion 1 1 noE2 oneB2 T Real.sin (fun s => Real.cos s - 1) helP where
  dx := fun s _ _ => by
    beta_reduce; rw [hel_energy]
    exact (Real.hasDerivAt_sin s).congr_deriv (by simp only [helP]; ring)
  dy := fun s _ _ => by
    beta_reduce; rw [hel_energy]
    exact ((Real.hasDerivAt_cos s).sub_const 1).congr_deriv (by simp only [helP]; ring)
  dpx := fun s _ _ => by
    simp only [hel_force]; exact Real.hasDerivAt_cos s
  dpy := fun s _ _ => by
    simp only [hel_force]; exact (Real.hasDerivAt_sin s).neg
  dpz := fun s _ _ => by
    simp only [hel_force]; exact hasDerivAt_const _ _

theorem hel_path (T : ℝ) : Path T 2 1 1 Real.sin (fun s => Real.cos s - 1) helP := by
  have sb := Real.abs_sin_le_one
  have cb := Real.abs_cos_le_one
  have ns : ∀ s, |-Real.sin s| ≤ 1 := fun s => by rw [abs_neg]; exact sb s
  have nc : ∀ s, |-Real.cos s| ≤ 1 := fun s => by rw [abs_neg]; exact cb s
  have dS := Real.hasDerivAt_sin
  have dC := Real.hasDerivAt_cos
  have dnS : ∀ s, HasDerivAt (fun s => -Real.sin s) (-Real.cos s) s := fun s => (dS s).neg
  have dnC : ∀ s, HasDerivAt (fun s => -Real.cos s) (Real.sin s) s := fun s => ((dC s).neg).congr_deriv (by ring)
  refine ⟨fun s _ _ => ⟨(sb s).trans (by norm_num), ?_, cb s, ?_, ?_⟩, ?_, ?_, ?_, ?_, ?_⟩
  · have := cb s
    rw [abs_le] at this ⊢
    constructor <;> linarith [this.1, this.2]
  · exact ns s
  · show |(1 / 2 : ℝ)| ≤ 1
    norm_num
  · exact ⟨Real.cos, fun s => -Real.sin s, fun s => -Real.cos s, fun s _ _ => dS s, fun s _ _ => dC s, fun s _ _ => dnS s, fun s _ _ => cb s, fun s _ _ => ns s, fun s _ _ => nc s⟩
  · exact ⟨fun s => -Real.sin s, fun s => -Real.cos s, Real.sin, fun s _ _ => (dC s).sub_const 1, fun s _ _ => dnS s, fun s _ _ => dnC s, fun s _ _ => ns s, fun s _ _ => nc s, fun s _ _ => sb s⟩
  · exact ⟨fun s => -Real.sin s, fun s => -Real.cos s, Real.sin, fun s _ _ => dC s, fun s _ _ => dnS s, fun s _ _ => dnC s, fun s _ _ => ns s, fun s _ _ => nc s, fun s _ _ => sb s⟩
  · exact ⟨fun s => -Real.cos s, Real.sin, Real.cos, fun s _ _ => dnS s, fun s _ _ => dnC s, fun s _ _ => dS s, fun s _ _ => nc s, fun s _ _ => sb s, fun s _ _ => cb s⟩
  · exact ⟨fun _ => 0, fun _ => 0, fun _ => 0, fun s _ _ => hasDerivAt_const _ _, fun s _ _ => hasDerivAt_const _ _, fun s _ _ => hasDerivAt_const _ _, fun s _ _ => by simp, fun s _ _ => by simp, fun s _ _ => by simp⟩

theorem hel_tame : Tame2 1 0 noE2 ∧ Tame2 1 0 oneB2 := by
  refine ⟨⟨fun s x y => by simp [Upto, noE2], fun s x y x' y' e _ _ => ?_⟩, ⟨fun s x y => by simp [Upto, oneB2], fun s x y x' y' e _ _ => ?_⟩⟩ <;> rw [zero_mul] <;> exact Beam3D.Within.rfl' _

theorem hel_fields (c : MCfg) (hN : c.N % 2 = 1) (hp : 2 ≤ c.pad) (hh : 0 < c.h) (s : ℝ) : FieldsUpto c unitB3 (1 + 1) ∧ FieldsNear c unitB3 (noE2 s) (oneB2 s) 0 := by
  have flat : ∀ k : ℝ, Bent 0 (fun _ _ => k) := fun k x y => ⟨0, 0, fun x' y' e _ _ => by simp⟩
  have h1 := sampled_near c hN hp hh (E := noE2 s) (B := oneB2 s) (Q := 0) (d := 0) ⟨flat _, flat _, flat _⟩ ⟨flat _, flat _, flat _⟩ unitB3 (fun i j _ _ _ _ => ⟨Beam3D.Within.rfl' _, Beam3D.Within.rfl' _⟩)
  refine ⟨arrays_upto c hN hp hh unitB3 _ (fun i j _ _ _ _ => by norm_num [Upto, unitB3]), ?_⟩
  have e : (0 : ℝ) + 25 / 4 * 0 * c.h ^ 2 = 0 := by ring
  rwa [e] at h1

/-- C78, a concrete case: on every sufficiently fine grid the particle that starts at the origin with momentum (1, 0, 1/2) in a uniform magnetic field follows its circle `x = sin s`, `y = cos s - 1` with an error of second order in the layer thickness. -/
theorem helix_converges : ∃ C h0 : ℝ, 0 < C ∧ 0 < h0 ∧ ∀ c : MCfg, c.N % 2 = 1 → 2 ≤ c.pad → 0 < c.h → 5 / 2 < c.boundary → 0 ≤ c.dxi → c.dxi ≤ h0 → ∀ n : ℕ, n * c.dxi ≤ 10 →
    Close ((layerOf c unitB3 unitB3 unitB3)^[n] ⟨0, 0, 0, 0, 1, 0, 1 / 2, 1, 1⟩) (Real.sin (n * c.dxi)) (Real.cos (n * c.dxi) - 1) (helP (n * c.dxi)) (C * c.dxi ^ 2) := by
  obtain ⟨C, h0, hC, hh0, main⟩ := plasma_second_order (q := 1) (m := 1) (M := 1) (L := 0) (T := 10) (W := 2) (R := 1) (S := 1) (μ := 2 / 5) (by norm_num) (by norm_num) (by norm_num) le_rfl (by norm_num) (by norm_num) (by norm_num)
    hel_tame.1 hel_tame.2 (hel_motion 10) (hel_path 10)
  refine ⟨C, min h0 (1 / (1 + 3 * C)), hC, by positivity, ?_⟩
  intro c hN hp hh hb hd hd0 n hn
  have k1 : c.dxi ≤ h0 := hd0.trans (min_le_left _ _)
  have k2 : c.dxi ≤ 1 / (1 + 3 * C) := hd0.trans (min_le_right _ _)
  have small : C * (0 + 0 + c.dxi ^ 2) ≤ 2 / 5 := by
    have h1 : c.dxi * (1 + 3 * C) ≤ 1 := by
      have := mul_le_mul_of_nonneg_right k2 (by positivity : 0 ≤ 1 + 3 * C)
      rwa [one_div, inv_mul_cancel₀ (by positivity)] at this
    have h2 : c.dxi ≤ 1 := by nlinarith [mul_nonneg hd hC.le]
    have h3 : C * c.dxi ^ 2 ≤ C * c.dxi := by
      rw [pow_two]; exact mul_le_mul_of_nonneg_left (mul_le_of_le_one_left hd h2) hC.le
    nlinarith
  have hrun : Run3 c 1 noE2 oneB2 0 n (fun k => (layerOf c unitB3 unitB3 unitB3)^[k] ⟨0, 0, 0, 0, 1, 0, 1 / 2, 1, 1⟩) := by
    intro k _
    obtain ⟨f1, f2⟩ := hel_fields c hN hp hh (k * c.dxi + c.dxi / 2)
    exact ⟨unitB3, unitB3, unitB3, Function.iterate_succ_apply' _ _ _, f1, f1, f2⟩
  have := (main c 0 0 n _ hd k1 hn (by linarith) le_rfl (by norm_num) rfl rfl (by simp [Close, Ptl.X, Ptl.Y, Ptl.mom, helP, Within]) small hrun n le_rfl).2.2.2
  have e : C * (0 + 0 + c.dxi ^ 2) = C * c.dxi ^ 2 := by ring
  rwa [e] at this

end Lcode.Plasma3D
