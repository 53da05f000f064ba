import Verif.Plasma2D.Converge
import Mathlib.Analysis.Calculus.ContDiff.Basic
import Mathlib.Analysis.Calculus.ContDiff.Operations
import Mathlib.Analysis.Calculus.ContDiff.Deriv

/-!
Property C65 for the field solver as a whole: all five fields computed by one call, on every grid.
-/

namespace Lcode.Plasma2D

open Lcode.Num Finset
open scoped ContDiff

/-! ### Specification: the continuous problem -/

/-- Density and currents of one species as functions of the radius. -/
structure CurFn where
  rho : ℝ → ℝ
  jr : ℝ → ℝ
  jf : ℝ → ℝ
  jz : ℝ → ℝ

/-- The plasma currents: electrons and ion species. -/
structure PlasmaFn where
  el : CurFn
  ions : List CurFn

/-- The sum over the species. -/
def PlasmaFn.total (p : PlasmaFn) (f : CurFn → ℝ → ℝ) (r : ℝ) : ℝ := f p.el r + (p.ions.map fun s => f s r).sum

/-- Fields as functions of the radius. -/
structure FieldFn where
  Er : ℝ → ℝ
  Ef : ℝ → ℝ
  Ez : ℝ → ℝ
  Bf : ℝ → ℝ
  Bz : ℝ → ℝ

/-- Smooth densities and currents. -/
def CurFn.Smooth (c : CurFn) : Prop := ContDiff ℝ ∞ c.rho ∧ ContDiff ℝ ∞ c.jr ∧ ContDiff ℝ ∞ c.jf ∧ ContDiff ℝ ∞ c.jz
def PlasmaFn.Smooth (p : PlasmaFn) : Prop := p.el.Smooth ∧ ∀ c ∈ p.ions, c.Smooth
def FieldFn.Smooth (F : FieldFn) : Prop := ContDiff ℝ ∞ F.Er ∧ ContDiff ℝ ∞ F.Ef ∧ ContDiff ℝ ∞ F.Ez ∧ ContDiff ℝ ∞ F.Bf ∧ ContDiff ℝ ∞ F.Bz

/-- The operator `(1/r (r y)')'`. -/
noncomputable def radialOperator (y : ℝ → ℝ) (r : ℝ) : ℝ := deriv (deriv y) r + deriv y r / r - y r / r ^ 2

/-- The screening factor of the electrons at one radius. -/
noncomputable def screening (p : PlasmaFn) (r : ℝ) : ℝ := erPreviousFactor (p.el.rho r) (p.el.jr r) (p.el.jf r) (p.el.jz r)

/-- The part of the right-hand side of the E_r equation besides the gradient of the density. -/
noncomputable def ErSource (dxi : ℝ) (now before : PlasmaFn) (old prev F : FieldFn) (r : ℝ) : ℝ :=
  (now.total CurFn.jr r - before.total CurFn.jr r) / dxi + screening now r * (F.Er r - (old.Er r + prev.Er r) / 2)

/-- The differential equations and boundary conditions for the fields `F` in a window of radius `R`, given the currents on this layer (`now`) and the previous one (`before`), the density of the beam, and the two field estimates `old`, `prev` whose mean enters the screening terms. -/
structure Solves (R dxi : ℝ) (now before : PlasmaFn) (beam : ℝ → ℝ) (old prev F : FieldFn) : Prop where
  smooth : F.Smooth
  er_axis : F.Er 0 = 0
  er_wall : deriv F.Er R + F.Er R / R = now.total CurFn.rho R + beam R
  er : ∀ r, 0 < r → r ≤ R → radialOperator F.Er r = deriv (fun s => now.total CurFn.rho s + beam s) r + ErSource dxi now before old prev F r
  ef_axis : F.Ef 0 = 0
  ef_wall : F.Ef R = 0
  ef : ∀ r, 0 < r → r < R → radialOperator F.Ef r = (now.total CurFn.jf r - before.total CurFn.jf r) / dxi + (F.Ef r - (old.Ef r + prev.Ef r) / 2)
  ez_wall : F.Ez R = 0
  ez : ∀ r, 0 ≤ r → r ≤ R → deriv F.Ez r = now.total CurFn.jr r
  bf_axis : F.Bf 0 = 0
  bf : ∀ r, 0 ≤ r → r ≤ R → deriv (fun s => s * (F.Er s - F.Bf s)) r = r * (now.total CurFn.rho r - now.total CurFn.jz r)
  bz : ∀ r, 0 ≤ r → r ≤ R → deriv F.Bz r = -now.total CurFn.jf r
  bz_flux : ∃ flux : ℝ → ℝ, (∀ r, 0 ≤ r → r ≤ R → HasDerivAt flux (2 * r * F.Bz r) r) ∧ flux 0 = flux R

/-! ### The sampled data -/

/-- The arrays the code receives: values at the nodes `0, h, 2h, ...`. -/
def CurFn.sample (h : ℝ) (c : CurFn) : Cur := ⟨fun i => c.rho (i * h), fun i => c.jr (i * h), fun i => c.jf (i * h), fun i => c.jz (i * h)⟩
def PlasmaFn.sample (h : ℝ) (p : PlasmaFn) : Currents := ⟨p.el.sample h, p.ions.map (CurFn.sample h)⟩
def FieldFn.sample (h : ℝ) (F : FieldFn) : Flds := ⟨fun i => F.Er (i * h), fun i => F.Ef (i * h), fun i => F.Ez (i * h), fun i => F.Bf (i * h), fun i => F.Bz (i * h)⟩

theorem sample_sum (h : ℝ) (p : PlasmaFn) (f : Cur → ℕ → ℝ) (g : CurFn → ℝ → ℝ) (hfg : ∀ c i, f (c.sample h) i = g c (i * h)) : (p.sample h).sum f = fun i : ℕ => p.total g (i * h) := by
  funext i
  unfold Currents.sum PlasmaFn.total PlasmaFn.sample
  rw [hfg, List.map_map]
  congr 2
  apply List.map_congr_left
  intro c _
  exact hfg c i

/-! ### Smooth functions -/

theorem smooth_deriv {f : ℝ → ℝ} (hf : ContDiff ℝ ∞ f) : ContDiff ℝ ∞ (deriv f) := (contDiff_infty_iff_deriv.mp hf).2

theorem smooth_derivOn {f : ℝ → ℝ} (hf : ContDiff ℝ ∞ f) (a b : ℝ) : DerivOn f (deriv f) a b := fun x _ _ => ((contDiff_infty_iff_deriv.mp hf).1 x).hasDerivAt

theorem smooth_bounded {f : ℝ → ℝ} (hf : ContDiff ℝ ∞ f) (a b : ℝ) : ∃ M, 0 ≤ M ∧ BoundedOn f M a b := by
  obtain ⟨M, hM⟩ := (isCompact_Icc (a := a) (b := b)).exists_bound_of_continuousOn hf.continuous.continuousOn
  refine ⟨max M 0, le_max_right _ _, fun x h1 h2 => ?_⟩
  have := hM x ⟨h1, h2⟩
  rw [Real.norm_eq_abs] at this
  exact this.trans (le_max_left _ _)

theorem smooth_total (p : PlasmaFn) (g : CurFn → ℝ → ℝ) (he : ContDiff ℝ ∞ (g p.el)) (hi : ∀ c ∈ p.ions, ContDiff ℝ ∞ (g c)) : ContDiff ℝ ∞ (p.total g) := by
  unfold PlasmaFn.total
  refine he.add ?_
  generalize p.ions = l at hi
  induction l with
  | nil => simpa using contDiff_const
  | cons c l ih =>
    simp only [List.map_cons, List.sum_cons]
    exact (hi c (by simp)).add (ih fun d hd => hi d (by simp [hd]))

/-! ### C65 -/

/-- The error bounds in terms of bounds on the derivatives, for one grid. -/
theorem fields_error (R dxi : ℝ) (hR : 0 < R) (now before : PlasmaFn) (beam : ℝ → ℝ) (old prev F : FieldFn) (hnow : now.Smooth) (hbeam : ContDiff ℝ ∞ beam) (hF : Solves R dxi now before beam old prev F) :
    ∃ C, 0 ≤ C ∧ ∀ (nr : ℕ) (h : ℝ), 1 ≤ nr → nr * h = R → ∀ W, BoundedOn (ErSource dxi now before old prev F) W ((nr - 1 / 2) * h) R → ∀ i, i ≤ nr →
      |(computeFields h nr (old.sample h) (prev.sample h) (fun j => beam (j * h)) (before.sample h) (now.sample h) dxi).1.Er i - F.Er (i * h)| ≤ C * h ^ 2 + R * W * h / 2 ∧
      |(computeFields h nr (old.sample h) (prev.sample h) (fun j => beam (j * h)) (before.sample h) (now.sample h) dxi).1.Ef i - F.Ef (i * h)| ≤ C * h ^ 2 ∧
      |(computeFields h nr (old.sample h) (prev.sample h) (fun j => beam (j * h)) (before.sample h) (now.sample h) dxi).1.Ez i - F.Ez (i * h)| ≤ C * h ^ 2 ∧
      |(computeFields h nr (old.sample h) (prev.sample h) (fun j => beam (j * h)) (before.sample h) (now.sample h) dxi).1.Bf i - F.Bf (i * h)| ≤ C * h ^ 2 + R * W * h / 2 ∧
      |(computeFields h nr (old.sample h) (prev.sample h) (fun j => beam (j * h)) (before.sample h) (now.sample h) dxi).1.Bz i - F.Bz (i * h)| ≤ C * h := by
  obtain ⟨⟨sEr, sEf, sEz, sBf, sBz⟩, er0, erw, heq, ef0, efw, hef, ezw, hez, bf0, hbf, hbz, flux, hflux, hflux0⟩ := hF
  have sRho := smooth_total now CurFn.rho hnow.1.1 fun c hc => (hnow.2 c hc).1
  have sJr := smooth_total now CurFn.jr hnow.1.2.1 fun c hc => (hnow.2 c hc).2.1
  have sJf := smooth_total now CurFn.jf hnow.1.2.2.1 fun c hc => (hnow.2 c hc).2.2.1
  have sJz := smooth_total now CurFn.jz hnow.1.2.2.2 fun c hc => (hnow.2 c hc).2.2.2
  have sT : ContDiff ℝ ∞ (fun s => now.total CurFn.rho s + beam s) := sRho.add hbeam
  have sQ : ContDiff ℝ ∞ (fun s => s * (now.total CurFn.rho s - now.total CurFn.jz s)) := contDiff_id.mul (sRho.sub sJz)
  obtain ⟨M2, hM2, b2⟩ := smooth_bounded (smooth_deriv (smooth_deriv sEr)) 0 R
  obtain ⟨M3, hM3, b3⟩ := smooth_bounded (smooth_deriv (smooth_deriv (smooth_deriv sEr))) 0 R
  obtain ⟨M4, hM4, b4⟩ := smooth_bounded (smooth_deriv (smooth_deriv (smooth_deriv (smooth_deriv sEr)))) 0 R
  obtain ⟨P2, hP2, q2⟩ := smooth_bounded (smooth_deriv (smooth_deriv sT)) 0 R
  obtain ⟨P3, hP3, q3⟩ := smooth_bounded (smooth_deriv (smooth_deriv (smooth_deriv sT))) 0 R
  obtain ⟨N3, hN3, c3⟩ := smooth_bounded (smooth_deriv (smooth_deriv (smooth_deriv sEf))) 0 R
  obtain ⟨N4, hN4, c4⟩ := smooth_bounded (smooth_deriv (smooth_deriv (smooth_deriv (smooth_deriv sEf)))) 0 R
  obtain ⟨J2, hJ2, j2⟩ := smooth_bounded (smooth_deriv (smooth_deriv sJr)) 0 R
  obtain ⟨G0, hG0, g0⟩ := smooth_bounded sJf 0 R
  obtain ⟨G2, hG2, g2⟩ := smooth_bounded (smooth_deriv (smooth_deriv sJf)) 0 R
  obtain ⟨Q2, hQ2, u2⟩ := smooth_bounded (smooth_deriv (smooth_deriv sQ)) 0 R
  have z1 : 0 ≤ (M3 + M4) / 12 + P3 / 6 + (3 * M2 + R * M3) / 24 + R * P2 / 8 := by positivity
  have z2 : 0 ≤ (N3 + N4) / 12 := by positivity
  have z3 : 0 ≤ R * J2 / 12 := by positivity
  have z4 : 0 ≤ Q2 / 12 := by positivity
  have z5 : 0 ≤ G0 + R * (R * G2) / 6 := by positivity
  refine ⟨((M3 + M4) / 12 + P3 / 6 + (3 * M2 + R * M3) / 24 + R * P2 / 8) + (N3 + N4) / 12 + R * J2 / 12 + Q2 / 12 + (G0 + R * (R * G2) / 6), by linarith, ?_⟩
  intro nr h hn hRn W hW i hi
  have hn1 : (1 : ℝ) ≤ nr := by exact_mod_cast hn
  have hh : 0 < h := by
    by_contra hneg
    push Not at hneg
    have : (nr : ℝ) * h ≤ 0 := mul_nonpos_of_nonneg_of_nonpos (by linarith) hneg
    linarith
  have hhR : h ≤ R := by nlinarith
  subst hRn
  have kEr := converge_Er h hh nr hn dxi F.Er _ _ _ _ (fun s => now.total CurFn.rho s + beam s) _ _ _ (now.total CurFn.jr) (before.total CurFn.jr) (fun r => (old.Er r + prev.Er r) / 2) (screening now)
    (smooth_derivOn sEr _ _) (smooth_derivOn (smooth_deriv sEr) _ _) (smooth_derivOn (smooth_deriv (smooth_deriv sEr)) _ _) (smooth_derivOn (smooth_deriv (smooth_deriv (smooth_deriv sEr))) _ _)
    (smooth_derivOn sT _ _) (smooth_derivOn (smooth_deriv sT) _ _) (smooth_derivOn (smooth_deriv (smooth_deriv sT)) _ _) M2 M3 M4 P2 P3 W b2 b3 b4 q2 q3 (fun r => factor_ge_one _ _ _ _) er0 erw
    (fun r a b => by have := heq r a b; unfold radialOperator ErSource at this; rw [this]; ring) hW i hi
  have kEf := converge_Ef h hh nr hn dxi F.Ef _ _ _ _ (now.total CurFn.jf) (before.total CurFn.jf) (fun r => (old.Ef r + prev.Ef r) / 2)
    (smooth_derivOn sEf _ _) (smooth_derivOn (smooth_deriv sEf) _ _) (smooth_derivOn (smooth_deriv (smooth_deriv sEf)) _ _) (smooth_derivOn (smooth_deriv (smooth_deriv (smooth_deriv sEf))) _ _) N3 N4 c3 c4 ef0 efw
    (fun r a b => by have := hef r a b; unfold radialOperator at this; exact this) i hi
  have kEz := converge_Ez h hh nr F.Ez (now.total CurFn.jr) _ _ J2 (fun r a b => by rw [← hez r a b]; exact smooth_derivOn sEz _ _ r a b) (smooth_derivOn sJr _ _) (smooth_derivOn (smooth_deriv sJr) _ _) j2 ezw i hi
  have kBz := converge_Bz h hh nr hn F.Bz flux (now.total CurFn.jf) _ _ G0 G2 (fun r a b => by beta_reduce; rw [← hbz r a b]; exact smooth_derivOn sBz _ _ r a b) (smooth_derivOn sJf _ _) (smooth_derivOn (smooth_deriv sJf) _ _) g0 g2 hflux hflux0 i hi
  have kBf := converge_Bf h hh nr F.Er F.Bf (fun s => s * (now.total CurFn.rho s - now.total CurFn.jz s)) _ _ (now.total CurFn.rho) (now.total CurFn.jz) _ Q2 _ (fun _ => rfl)
    (fun r a b => by beta_reduce; rw [← hbf r a b]; exact smooth_derivOn (contDiff_id.mul (sEr.sub sBf)) _ _ r a b) (smooth_derivOn sQ _ _) (smooth_derivOn (smooth_deriv sQ) _ _) u2 (by rw [er0, bf0]) i hi kEr
  have hsq : 0 ≤ h ^ 2 := sq_nonneg h
  unfold computeFields
  simp only [sample_sum h now Cur.rho CurFn.rho (fun _ _ => rfl), sample_sum h now Cur.jr CurFn.jr (fun _ _ => rfl), sample_sum h now Cur.jf CurFn.jf (fun _ _ => rfl), sample_sum h now Cur.jz CurFn.jz (fun _ _ => rfl),
    sample_sum h before Cur.jr CurFn.jr (fun _ _ => rfl), sample_sum h before Cur.jf CurFn.jf (fun _ _ => rfl)]
  refine ⟨?_, ?_, ?_, ?_, ?_⟩
  · refine le_trans (le_of_eq ?_) (kEr.trans ?_)
    · rfl
    · have := mul_le_mul_of_nonneg_left (by linarith : (M3 + M4) / 12 + P3 / 6 + (3 * M2 + nr * h * M3) / 24 + nr * h * P2 / 8 ≤ ((M3 + M4) / 12 + P3 / 6 + (3 * M2 + nr * h * M3) / 24 + nr * h * P2 / 8) + (N3 + N4) / 12 + nr * h * J2 / 12 + Q2 / 12 + (G0 + nr * h * (nr * h * G2) / 6)) hsq
      linarith
  · refine le_trans (le_of_eq ?_) (kEf.trans ?_)
    · rfl
    · have := mul_le_mul_of_nonneg_left (by linarith : (N3 + N4) / 12 ≤ ((M3 + M4) / 12 + P3 / 6 + (3 * M2 + nr * h * M3) / 24 + nr * h * P2 / 8) + (N3 + N4) / 12 + nr * h * J2 / 12 + Q2 / 12 + (G0 + nr * h * (nr * h * G2) / 6)) hsq
      linarith
  · refine le_trans (le_of_eq ?_) (kEz.trans ?_)
    · rfl
    · have := mul_le_mul_of_nonneg_left (by linarith : nr * h * J2 / 12 ≤ ((M3 + M4) / 12 + P3 / 6 + (3 * M2 + nr * h * M3) / 24 + nr * h * P2 / 8) + (N3 + N4) / 12 + nr * h * J2 / 12 + Q2 / 12 + (G0 + nr * h * (nr * h * G2) / 6)) hsq
      linarith
  · refine le_trans (le_of_eq ?_) (kBf.trans ?_)
    · rfl
    · have := mul_le_mul_of_nonneg_left (by linarith : (M3 + M4) / 12 + P3 / 6 + (3 * M2 + nr * h * M3) / 24 + nr * h * P2 / 8 + Q2 / 12 ≤ ((M3 + M4) / 12 + P3 / 6 + (3 * M2 + nr * h * M3) / 24 + nr * h * P2 / 8) + (N3 + N4) / 12 + nr * h * J2 / 12 + Q2 / 12 + (G0 + nr * h * (nr * h * G2) / 6)) hsq
      linarith
  · refine le_trans (le_of_eq ?_) (kBz.trans ?_)
    · rfl
    · have t1 := mul_le_mul_of_nonneg_left hhR (by positivity : 0 ≤ h * (nr * h * G2 / 6))
      have t2 := mul_le_mul_of_nonneg_left (by linarith : G0 + nr * h * (nr * h * G2) / 6 ≤ ((M3 + M4) / 12 + P3 / 6 + (3 * M2 + nr * h * M3) / 24 + nr * h * P2 / 8) + (N3 + N4) / 12 + nr * h * J2 / 12 + Q2 / 12 + (G0 + nr * h * (nr * h * G2) / 6)) hh.le
      linarith

/-- C65: let the sources be smooth functions of the radius, `F` the solution of the differential equations in a window of radius `R`, and let the part of the E_r source besides the density gradient vanish at the wall. Then there is one constant such that, on every grid of `nr` cells, at every node, the
computed E_r, E_phi, E_z and B_phi differ from the exact ones by at most a constant times the square of the cell width `R / nr`, and B_z by at most a constant times the cell width. -/
theorem fields_converge (R dxi : ℝ) (hR : 0 < R) (now before : PlasmaFn) (beam : ℝ → ℝ) (old prev F : FieldFn) (hnow : now.Smooth) (hbeam : ContDiff ℝ ∞ beam) (hF : Solves R dxi now before beam old prev F)
    (L : ℝ) (hwall : ∀ r, 0 ≤ r → r ≤ R → |ErSource dxi now before old prev F r| ≤ L * (R - r)) :
    ∃ C, ∀ nr : ℕ, 1 ≤ nr → ∀ i, i ≤ nr →
      |(computeFields (R / nr) nr (old.sample (R / nr)) (prev.sample (R / nr)) (fun j => beam (j * (R / nr))) (before.sample (R / nr)) (now.sample (R / nr)) dxi).1.Er i - F.Er (i * (R / nr))| ≤ C * (R / nr) ^ 2 ∧
      |(computeFields (R / nr) nr (old.sample (R / nr)) (prev.sample (R / nr)) (fun j => beam (j * (R / nr))) (before.sample (R / nr)) (now.sample (R / nr)) dxi).1.Ef i - F.Ef (i * (R / nr))| ≤ C * (R / nr) ^ 2 ∧
      |(computeFields (R / nr) nr (old.sample (R / nr)) (prev.sample (R / nr)) (fun j => beam (j * (R / nr))) (before.sample (R / nr)) (now.sample (R / nr)) dxi).1.Ez i - F.Ez (i * (R / nr))| ≤ C * (R / nr) ^ 2 ∧
      |(computeFields (R / nr) nr (old.sample (R / nr)) (prev.sample (R / nr)) (fun j => beam (j * (R / nr))) (before.sample (R / nr)) (now.sample (R / nr)) dxi).1.Bf i - F.Bf (i * (R / nr))| ≤ C * (R / nr) ^ 2 ∧
      |(computeFields (R / nr) nr (old.sample (R / nr)) (prev.sample (R / nr)) (fun j => beam (j * (R / nr))) (before.sample (R / nr)) (now.sample (R / nr)) dxi).1.Bz i - F.Bz (i * (R / nr))| ≤ C * (R / nr) := by
  obtain ⟨C, hC, hall⟩ := fields_error R dxi hR now before beam old prev F hnow hbeam hF
  have hL : 0 ≤ L := by
    have := (abs_nonneg _).trans (hwall 0 le_rfl hR.le)
    rw [sub_zero] at this
    exact nonneg_of_mul_nonneg_left this hR
  refine ⟨C + R * L / 4, fun nr hn i hi => ?_⟩
  have hn1 : (1 : ℝ) ≤ nr := by exact_mod_cast hn
  have hRn : nr * (R / nr) = R := by field_simp
  have hpos : 0 < R / nr := by positivity
  generalize R / nr = h at *
  obtain ⟨a, b, c, d, e⟩ := hall nr h hn hRn (L * (h / 2)) (fun r h1 h2 => by
    have h3 : R - r ≤ h / 2 := by linarith
    have h4 : 0 ≤ r := le_trans (by nlinarith) h1
    exact (hwall r h4 h2).trans (mul_le_mul_of_nonneg_left h3 hL)) i hi
  have h1 : R * (L * (h / 2)) * h / 2 = R * L / 4 * h ^ 2 := by ring
  have h2 : 0 ≤ R * L / 4 * h ^ 2 := by positivity
  have h3 : 0 ≤ R * L / 4 * h := by positivity
  rw [h1] at a d
  rw [add_mul, add_mul]
  exact ⟨a, b.trans (by linarith), c.trans (by linarith), d, e.trans (by linarith)⟩

/-- C65 without the condition at the wall: if that part of the source is only bounded, E_r and B_phi still converge, with first order (`Er_first_order` shows that no more can be said). -/
theorem fields_converge_first (R dxi : ℝ) (hR : 0 < R) (now before : PlasmaFn) (beam : ℝ → ℝ) (old prev F : FieldFn) (hnow : now.Smooth) (hbeam : ContDiff ℝ ∞ beam) (hF : Solves R dxi now before beam old prev F)
    (W : ℝ) (hwall : ∀ r, 0 ≤ r → r ≤ R → |ErSource dxi now before old prev F r| ≤ W) :
    ∃ C, ∀ nr : ℕ, 1 ≤ nr → ∀ i, i ≤ nr →
      |(computeFields (R / nr) nr (old.sample (R / nr)) (prev.sample (R / nr)) (fun j => beam (j * (R / nr))) (before.sample (R / nr)) (now.sample (R / nr)) dxi).1.Er i - F.Er (i * (R / nr))| ≤ C * (R / nr) ∧
      |(computeFields (R / nr) nr (old.sample (R / nr)) (prev.sample (R / nr)) (fun j => beam (j * (R / nr))) (before.sample (R / nr)) (now.sample (R / nr)) dxi).1.Bf i - F.Bf (i * (R / nr))| ≤ C * (R / nr) := by
  obtain ⟨C, hC, hall⟩ := fields_error R dxi hR now before beam old prev F hnow hbeam hF
  refine ⟨C * R + R * W / 2, fun nr hn i hi => ?_⟩
  have hn1 : (1 : ℝ) ≤ nr := by exact_mod_cast hn
  have hRn : nr * (R / nr) = R := by field_simp
  have hpos : 0 < R / nr := by positivity
  generalize R / nr = h at *
  have hhR : h ≤ R := by nlinarith
  obtain ⟨a, _, _, d, _⟩ := hall nr h hn hRn W (fun r h1 h2 => hwall r (le_trans (by nlinarith) h1) h2) i hi
  have h1 : C * h ^ 2 ≤ C * R * h := by
    have := mul_le_mul_of_nonneg_left hhR (mul_nonneg hC hpos.le)
    linarith
  exact ⟨a.trans (by linarith), d.trans (by linarith)⟩

/-! ### A case -/

/-- A window of radius 1 with two species, a beam, and a known solution: E_r = r³, E_phi = r - r³, E_z = (r² - 1)/2, B_phi = r³ - r, B_z = 1/4 - r²/2. -/
noncomputable def caseNow : PlasmaFn := ⟨⟨fun r => 2 * r ^ 2 + (1 - r) ^ 2 / 2, fun r => r, fun r => r, fun r => 3 * r ^ 2 + (1 - r) ^ 2 / 2 - 2⟩, [⟨fun r => r ^ 2, fun _ => 0, fun _ => 0, fun _ => 0⟩]⟩
def caseBefore : PlasmaFn := ⟨⟨fun r => r, fun r => r - (1 - r) * 2, fun r => r + 16 * r, fun _ => 0⟩, []⟩
noncomputable def caseOld : FieldFn := ⟨fun r => r ^ 3, fun r => r - r ^ 3, fun _ => 0, fun _ => 0, fun _ => 0⟩
noncomputable def caseF : FieldFn := ⟨fun r => r ^ 3, fun r => r - r ^ 3, fun r => (r ^ 2 - 1) / 2, fun r => r ^ 3 - r, fun r => 1 / 4 - r ^ 2 / 2⟩

theorem deriv_cube : deriv (fun r : ℝ => r ^ 3) = fun r => 3 * r ^ 2 := by
  funext r; exact ((hasDerivAt_pow 3 r).congr_deriv (by push_cast; ring)).deriv

theorem deriv_lin_cube : deriv (fun r : ℝ => r - r ^ 3) = fun r => 1 - 3 * r ^ 2 := by
  funext r; exact (((hasDerivAt_id r).sub (hasDerivAt_pow 3 r)).congr_deriv (by push_cast; ring)).deriv

theorem deriv_sq (c d : ℝ) : deriv (fun r : ℝ => d + c * r ^ 2) = fun r => 2 * c * r := by
  funext r; exact ((((hasDerivAt_pow 2 r).const_mul c).const_add d).congr_deriv (by push_cast; ring)).deriv

example : caseNow.Smooth ∧ ContDiff ℝ ∞ (fun r : ℝ => r ^ 2) ∧ Solves 1 2 caseNow caseBefore (fun r => r ^ 2) caseOld caseOld caseF ∧ ∀ r, 0 ≤ r → r ≤ 1 → |ErSource 2 caseNow caseBefore caseOld caseOld caseF r| ≤ 1 * (1 - r) := by
  have hsrc : ∀ r, ErSource 2 caseNow caseBefore caseOld caseOld caseF r = 1 - r := by
    intro r
    simp [ErSource, PlasmaFn.total, caseNow, caseBefore, caseOld, caseF]
  refine ⟨⟨⟨?_, ?_, ?_, ?_⟩, ?_⟩, by fun_prop, ⟨⟨?_, ?_, ?_, ?_, ?_⟩, ?_, ?_, ?_, ?_, ?_, ?_, ?_, ?_, ?_, ?_, ?_, ?_⟩, ?_⟩
  · simp only [caseNow]; fun_prop
  · simp only [caseNow]; fun_prop
  · simp only [caseNow]; fun_prop
  · simp only [caseNow]; fun_prop
  · intro c hc
    simp only [caseNow, List.mem_singleton] at hc
    subst hc
    exact ⟨by fun_prop, by fun_prop, by fun_prop, by fun_prop⟩
  · simp only [caseF]; fun_prop
  · simp only [caseF]; fun_prop
  · simp only [caseF]; fun_prop
  · simp only [caseF]; fun_prop
  · simp only [caseF]; fun_prop
  · simp [caseF]
  · simp only [caseF, deriv_cube, PlasmaFn.total, caseNow]; norm_num
  · intro r h0 _
    rw [hsrc]
    have hT : deriv (fun s => caseNow.total CurFn.rho s + s ^ 2) r = 8 * r - (1 - r) := by
      have e : (fun s => caseNow.total CurFn.rho s + s ^ 2) = fun s : ℝ => 4 * s ^ 2 + (1 - s) ^ 2 / 2 := by
        funext s; simp only [PlasmaFn.total, caseNow, List.map_cons, List.map_nil, List.sum_cons, List.sum_nil]; ring
      rw [e]
      exact ((((hasDerivAt_pow 2 r).const_mul 4).add ((((hasDerivAt_id r).const_sub 1).pow 2).div_const 2)).congr_deriv (by simp only [id_eq]; push_cast; ring)).deriv
    rw [hT]
    have hd : deriv (deriv fun r : ℝ => r ^ 3) = fun r => 6 * r := by
      rw [deriv_cube]
      have := deriv_sq 3 0
      simp only [zero_add] at this
      rw [this]; funext r; ring
    simp only [radialOperator, caseF, hd]
    rw [deriv_cube]
    field_simp
    ring
  · simp [caseF]
  · simp [caseF]
  · intro r h0 _
    have hd : deriv (deriv fun r : ℝ => r - r ^ 3) = fun r => -6 * r := by
      rw [deriv_lin_cube]
      have := deriv_sq (-3) 1
      have e : (fun r : ℝ => 1 - 3 * r ^ 2) = fun r => 1 + -3 * r ^ 2 := by funext r; ring
      rw [e, this]; funext r; ring
    simp only [radialOperator, caseF, hd]
    rw [deriv_lin_cube]
    simp only [PlasmaFn.total, caseNow, caseBefore, caseOld, List.map_cons, List.map_nil, List.sum_cons, List.sum_nil]
    field_simp
    ring
  · simp [caseF]
  · intro r _ _
    have := deriv_sq (1 / 2) (-1 / 2)
    have e : (fun r : ℝ => (r ^ 2 - 1) / 2) = fun r => -1 / 2 + 1 / 2 * r ^ 2 := by funext r; ring
    simp only [caseF, e, this, PlasmaFn.total, caseNow, List.map_cons, List.map_nil, List.sum_cons, List.sum_nil]
    ring
  · simp [caseF]
  · intro r _ _
    have := deriv_sq 1 0
    have e : (fun r : ℝ => r * (r ^ 3 - (r ^ 3 - r))) = fun r => 0 + 1 * r ^ 2 := by funext r; ring
    simp only [caseF, e, this, PlasmaFn.total, caseNow, List.map_cons, List.map_nil, List.sum_cons, List.sum_nil]
    ring
  · intro r _ _
    have := deriv_sq (-1 / 2) (1 / 4)
    have e : (fun r : ℝ => 1 / 4 - r ^ 2 / 2) = fun r => 1 / 4 + -1 / 2 * r ^ 2 := by funext r; ring
    simp only [caseF, e, this, PlasmaFn.total, caseNow, List.map_cons, List.map_nil, List.sum_cons, List.sum_nil]
    ring
  · refine ⟨fun r => 1 / 4 * r ^ 2 - 1 / 4 * r ^ 4, fun r _ _ => ?_, by norm_num⟩
    exact (((hasDerivAt_pow 2 r).const_mul (1 / 4)).sub ((hasDerivAt_pow 4 r).const_mul (1 / 4))).congr_deriv (by simp only [caseF]; push_cast; ring)
  · intro r h0 h1
    rw [hsrc, one_mul, abs_of_nonneg (by linarith)]

end Lcode.Plasma2D
