import Verif.Plasma3D.TrajectoryCases
import Verif.Plasma2D.TrajectoryCases
import Mathlib.Analysis.Calculus.FDeriv.Comp
import Mathlib.Analysis.Calculus.FDeriv.Prod
import Mathlib.Analysis.Calculus.Deriv.Prod
import Mathlib.Analysis.Calculus.MeanValue

/-!
Property C80: the integral of motion of plasma particles in a wakefield, `gamma m - p_z + q Phi`, is kept by the computed particles: to second order of the layer thickness by the 3D pusher (lcode/plasma3d/move.py), to first order by the 2D pusher with its substeps (lcode/plasma/move.py).
The pushers are modelled in Verif/Plasma3D/Move.lean and Verif/Plasma2D/Move.lean. This file adds the specification of the potential and the proofs.
-/

namespace Lcode.Plasma3D

open Lcode.Beam3D (Within)
open Lcode.Num (DerivOn BoundedOn)
open Lcode.Beam2D (rot)

/-! ### Specification -/

/-- `Φ` is the wakefield potential (the quantity the 3D code stores as Phi): its derivatives with respect to the path `s = -xi` and the transverse coordinates are `E_z`, `-(E_x - B_y)` and `-(E_y + B_x)`. -/
def WakePotential (Φ : ℝ → ℝ → ℝ → ℝ) (E B : ℝ → ℝ → ℝ → Vec3) : Prop :=
  ∀ s x y, HasFDerivAt (fun w : ℝ × ℝ × ℝ => Φ w.1 w.2.1 w.2.2)
    ((E s x y).z • ContinuousLinearMap.fst ℝ ℝ (ℝ × ℝ) + (-((E s x y).x - (B s x y).y)) • (ContinuousLinearMap.fst ℝ ℝ ℝ).comp (ContinuousLinearMap.snd ℝ ℝ (ℝ × ℝ)) +
      (-((E s x y).y + (B s x y).x)) • (ContinuousLinearMap.snd ℝ ℝ ℝ).comp (ContinuousLinearMap.snd ℝ ℝ (ℝ × ℝ))) (s, x, y)

/-- The integral of motion of a particle at `(x, y)` with momentum `p` in layer `s`. -/
noncomputable def integral (q m : ℝ) (Φ : ℝ → ℝ → ℝ → ℝ) (s x y : ℝ) (p : Vec3) : ℝ := p.energy m - p.z + q * Φ s x y

/-! ### The equations of motion -/

/-- `Φ` along a curve. -/
theorem potential_along {Φ : ℝ → ℝ → ℝ → ℝ} {E B : ℝ → ℝ → ℝ → Vec3} (hΦ : WakePotential Φ E B) {X Y : ℝ → ℝ} {s x' y' : ℝ} (hX : HasDerivAt X x' s) (hY : HasDerivAt Y y' s) :
    HasDerivAt (fun τ => Φ τ (X τ) (Y τ)) ((E s (X s) (Y s)).z - ((E s (X s) (Y s)).x - (B s (X s) (Y s)).y) * x' - ((E s (X s) (Y s)).y + (B s (X s) (Y s)).x) * y') s := by
  have h := (hΦ s (X s) (Y s)).comp_hasDerivAt s ((hasDerivAt_id s).prodMk (hX.prodMk hY))
  refine h.congr_deriv ?_
  simp
  ring

/-- C80, the physics: along every solution of the equations of motion of plasma particles `gamma m - p_z + q Phi` does not change. -/
theorem integral_const {q m T : ℝ} (hm : 0 < m) {E B : ℝ → ℝ → ℝ → Vec3} {X Y : ℝ → ℝ} {P : ℝ → Vec3} (hmo : PlasmaMotion q m E B T X Y P) {Φ : ℝ → ℝ → ℝ → ℝ} (hΦ : WakePotential Φ E B) :
    ∀ s, 0 ≤ s → s ≤ T → integral q m Φ s (X s) (Y s) (P s) = integral q m Φ 0 (X 0) (Y 0) (P 0) := by
  have der : ∀ s, 0 ≤ s → s ≤ T → HasDerivAt (fun s => integral q m Φ s (X s) (Y s) (P s)) 0 s := by
    intro s h0 hT
    have hX := hmo.dx s h0 hT
    have hY := hmo.dy s h0 hT
    have hpx := hmo.dpx s h0 hT
    have hpy := hmo.dpy s h0 hT
    have hpz := hmo.dpz s h0 hT
    have hp := potential_along hΦ hX hY
    have hg := energy_pos hm (P s)
    have hs : HasDerivAt (fun s => m ^ 2 + (P s).x ^ 2 + (P s).y ^ 2 + (P s).z ^ 2) _ s := (((hasDerivAt_const s (m ^ 2)).add (hpx.pow 2)).add (hpy.pow 2)).add (hpz.pow 2)
    have hne : m ^ 2 + (P s).x ^ 2 + (P s).y ^ 2 + (P s).z ^ 2 ≠ 0 := by
      have : 0 < m ^ 2 := by positivity
      have := sq_nonneg (P s).x
      have := sq_nonneg (P s).y
      have := sq_nonneg (P s).z
      linarith
    have hen := hs.sqrt hne
    have all := (hen.sub hpz).add (hp.const_mul q)
    refine all.congr_deriv ?_
    have hE : Real.sqrt (m ^ 2 + (P s).x ^ 2 + (P s).y ^ 2 + (P s).z ^ 2) = (P s).energy m := rfl
    have hlt : (P s).energy m - (P s).z ≠ 0 := by
      have h1 := energy_sq m (P s)
      intro h2
      have h3 : (P s).energy m = (P s).z := by linarith
      have : 0 < m ^ 2 := by positivity
      nlinarith [sq_nonneg (P s).x, sq_nonneg (P s).y]
    simp only [lorentz3, hE]
    clear all hen hs hp hpz hpy hpx hY hX
    have h4 : 1 - (P s).z / (P s).energy m = ((P s).energy m - (P s).z) / (P s).energy m := by field_simp
    rw [h4]
    generalize (P s).energy m = g at *
    generalize (P s).x = px at *
    generalize (P s).y = py at *
    generalize (P s).z = pz at *
    field_simp
    ring
  intro s h0 hT
  have := Beam3D.drift (f := fun s => integral q m Φ s (X s) (Y s) (P s)) (f' := fun _ => 0) (T := T) (R := 0) le_rfl h0 hT (fun τ hτ => (der τ hτ.1 hτ.2).hasDerivWithinAt) (fun τ _ => by simp)
  rw [zero_mul] at this
  exact sub_eq_zero.mp (abs_nonpos_iff.mp this)

/-! ### Closeness -/

theorem potential_lip {Φ : ℝ → ℝ → ℝ → ℝ} {E B : ℝ → ℝ → ℝ → Vec3} (hΦ : WakePotential Φ E B) {M L : ℝ} (hE : Tame2 M L E) (hB : Tame2 M L B) (s x y x' y' e : ℝ) (hx : |x - x'| ≤ e) (hy : |y - y'| ≤ e) : |Φ s x y - Φ s x' y'| ≤ 4 * M * e := by
  have two : ∀ a b : ℝ, |a| ≤ M → |b| ≤ M → |a + b| ≤ 2 * M := fun a b ha hb => (abs_add_le a b).trans (by linarith)
  have bx : ∀ x y, |-((E s x y).x - (B s x y).y)| ≤ 2 * M := by
    intro x y
    rw [abs_neg, sub_eq_add_neg]
    exact two _ _ (hE.bounded s x y).1 (by rw [abs_neg]; exact (hB.bounded s x y).2.1)
  have byy : ∀ x y, |-((E s x y).y + (B s x y).x)| ≤ 2 * M := by
    intro x y
    rw [abs_neg]
    exact two _ _ (hE.bounded s x y).2.1 (hB.bounded s x y).1
  have dx : ∀ x y, HasDerivAt (fun τ => Φ s τ y) (-((E s x y).x - (B s x y).y)) x := by
    intro x y
    have h := (hΦ s x y).comp_hasDerivAt x ((hasDerivAt_const x s).prodMk ((hasDerivAt_id x).prodMk (hasDerivAt_const x y)))
    refine h.congr_deriv ?_
    simp
  have dy : ∀ x y, HasDerivAt (fun τ => Φ s x τ) (-((E s x y).y + (B s x y).x)) y := by
    intro x y
    have h := (hΦ s x y).comp_hasDerivAt y ((hasDerivAt_const y s).prodMk ((hasDerivAt_const y x).prodMk (hasDerivAt_id y)))
    refine h.congr_deriv ?_
    simp
  have h1 := Convex.norm_image_sub_le_of_norm_hasDerivWithin_le (f := fun τ => Φ s τ y) (f' := fun τ => -((E s τ y).x - (B s τ y).y)) (C := 2 * M) (s := Set.univ) (x := x') (y := x) (fun τ _ => (dx τ y).hasDerivWithinAt) (fun τ _ => bx τ y) convex_univ trivial trivial
  have h2 := Convex.norm_image_sub_le_of_norm_hasDerivWithin_le (f := fun τ => Φ s x' τ) (f' := fun τ => -((E s x' τ).y + (B s x' τ).x)) (C := 2 * M) (s := Set.univ) (x := y') (y := y) (fun τ _ => (dy x' τ).hasDerivWithinAt) (fun τ _ => byy x' τ) convex_univ trivial trivial
  simp only [Real.norm_eq_abs] at h1 h2
  have hM : 0 ≤ M := le_trans (abs_nonneg _) (hE.bounded s x y).1
  have m1 := mul_le_mul_of_nonneg_left hx (by positivity : 0 ≤ 2 * M)
  have m2 := mul_le_mul_of_nonneg_left hy (by positivity : 0 ≤ 2 * M)
  have := abs_sub_le (Φ s x y) (Φ s x' y) (Φ s x' y')
  linarith

theorem energy_lip {m : ℝ} (hm : 0 < m) {p p' : Vec3} {e : ℝ} (h : Within p p' e) : |p.energy m - p'.energy m| ≤ 3 * e := by
  have g := energy_pos hm p
  have g' := energy_pos hm p'
  have s := energy_sq m p
  have s' := energy_sq m p'
  have comp : ∀ a b c d : ℝ, (m ^ 2 + a ^ 2 + b ^ 2 + c ^ 2 = d ^ 2) → 0 < d → |a| ≤ d ∧ |b| ≤ d ∧ |c| ≤ d := by
    intro a b c d h1 h2
    refine ⟨abs_le_of_sq_le_sq ?_ h2.le, abs_le_of_sq_le_sq ?_ h2.le, abs_le_of_sq_le_sq ?_ h2.le⟩ <;> nlinarith [sq_nonneg a, sq_nonneg b, sq_nonneg c, sq_nonneg m]
  obtain ⟨a1, a2, a3⟩ := comp p.x p.y p.z _ s.symm g
  obtain ⟨b1, b2, b3⟩ := comp p'.x p'.y p'.z _ s'.symm g'
  have he := h.nonneg
  have e1 : (p.energy m - p'.energy m) * (p.energy m + p'.energy m) = (p.x - p'.x) * (p.x + p'.x) + (p.y - p'.y) * (p.y + p'.y) + (p.z - p'.z) * (p.z + p'.z) := by linear_combination s - s'
  have term : ∀ a b : ℝ, |a - b| ≤ e → |a| ≤ p.energy m → |b| ≤ p'.energy m → |(a - b) * (a + b)| ≤ e * (p.energy m + p'.energy m) := by
    intro a b h1 h2 h3
    rw [abs_mul]
    exact mul_le_mul h1 ((abs_add_le a b).trans (add_le_add h2 h3)) (abs_nonneg _) he
  have t1 := term _ _ h.1 a1 b1
  have t2 := term _ _ h.2.1 a2 b2
  have t3 := term _ _ h.2.2 a3 b3
  have hs : 0 < p.energy m + p'.energy m := by linarith
  have : |p.energy m - p'.energy m| * (p.energy m + p'.energy m) ≤ 3 * e * (p.energy m + p'.energy m) := by
    rw [← abs_of_pos hs, ← abs_mul, abs_of_pos hs, e1]
    rw [abs_le] at *
    constructor <;> linarith [t1.1, t1.2, t2.1, t2.2, t3.1, t3.2]
  exact le_of_mul_le_mul_right this hs

/-- A small error of position and momentum is a small error of the integral. -/
theorem integral_lip {q m : ℝ} (hm : 0 < m) {Φ : ℝ → ℝ → ℝ → ℝ} {E B : ℝ → ℝ → ℝ → Vec3} (hΦ : WakePotential Φ E B) {M L : ℝ} (hE : Tame2 M L E) (hB : Tame2 M L B) {s x y x' y' e : ℝ} {p p' : Vec3} (hx : |x - x'| ≤ e) (hy : |y - y'| ≤ e)
    (hp : Within p p' e) : |integral q m Φ s x y p - integral q m Φ s x' y' p'| ≤ (4 + 4 * |q| * M) * e := by
  have h1 := energy_lip hm hp
  have h2 := hp.2.2
  have h3 := potential_lip hΦ hE hB s x y x' y' e hx hy
  have h4 : |q * (Φ s x y - Φ s x' y')| ≤ |q| * (4 * M * e) := by rw [abs_mul]; exact mul_le_mul_of_nonneg_left h3 (abs_nonneg _)
  have e1 : integral q m Φ s x y p - integral q m Φ s x' y' p' = (p.energy m - p'.energy m) - (p.z - p'.z) + q * (Φ s x y - Φ s x' y') := by unfold integral; ring
  rw [e1]
  rw [abs_le] at *
  constructor <;> linarith [h1.1, h1.2, h2.1, h2.2, h4.1, h4.2]

/-- C80 in 3D: `gamma m - p_z + q Phi` of every computed particle stays within `C (e0 + del + dxi²)` of its initial value, on every grid and for every number of layers, under the conditions of C78. -/
theorem integral_kept {q m M L T W R S μ : ℝ} (hq : q ≠ 0) (hm : 0 < m) (hM : 0 ≤ M) (hL : 0 ≤ L) (hS : 0 ≤ S) (hT : 0 ≤ T) (hμ : μ ≤ 1 / 2) {E B : ℝ → ℝ → ℝ → Vec3} (hE : Tame2 M L E) (hB : Tame2 M L B)
    {X Y : ℝ → ℝ} {P : ℝ → Vec3} (hmo : PlasmaMotion q m E B T X Y P) (hpa : Path T W R S X Y P) {Φ : ℝ → ℝ → ℝ → ℝ} (hΦ : WakePotential Φ E B) :
    ∃ C h0 : ℝ, 0 < C ∧ 0 < h0 ∧ ∀ (c : MCfg) (del e0 : ℝ) (n : ℕ) (r : ℕ → Ptl), 0 ≤ c.dxi → c.dxi ≤ h0 → n * c.dxi ≤ T → W + μ < c.boundary → 0 ≤ del → del ≤ 1 → (r 0).q = q → (r 0).m = m →
      Close (r 0) (X 0) (Y 0) (P 0) e0 → C * (e0 + del + c.dxi ^ 2) ≤ μ → Run3 c M E B del n r →
      ∀ k ≤ n, (r k).q = q ∧ (r k).m = m ∧ |integral q m Φ (k * c.dxi) (r k).X (r k).Y (r k).mom - integral q m Φ 0 (r 0).X (r 0).Y (r 0).mom| ≤ C * (e0 + del + c.dxi ^ 2) := by
  obtain ⟨C, h0, hC, hh0, main⟩ := plasma_second_order hq hm hM hL hS hT hμ hE hB hmo hpa
  have hK : 0 ≤ 4 + 4 * |q| * M := by positivity
  refine ⟨(4 + 4 * |q| * M) * (C + 1) + C, h0, by positivity, hh0, ?_⟩
  intro c del e0 n r hd hd0 hnT hW hdel hdel1 hrq hrm hcl hsmall hrun k hk
  have he0 : 0 ≤ e0 := le_trans (abs_nonneg _) hcl.1
  have hG : 0 ≤ e0 + del + c.dxi ^ 2 := by positivity
  have p1 : 0 ≤ (4 + 4 * |q| * M) * (C + 1) * (e0 + del + c.dxi ^ 2) := by positivity
  have fin := main c del e0 n r hd hd0 hnT hW hdel hdel1 hrq hrm hcl (by linarith) hrun k hk
  obtain ⟨f1, f2, -, f3, f4, f5⟩ := fin
  refine ⟨f1, f2, ?_⟩
  have hkT : k * c.dxi ≤ T := (mul_le_mul_of_nonneg_right (Nat.cast_le.mpr hk) hd).trans hnT
  have i0 := integral_const hm hmo hΦ (k * c.dxi) (by positivity) hkT
  have i1 := integral_lip (q := q) (s := k * c.dxi) hm hΦ hE hB f3 f4 f5
  have i2 := integral_lip (q := q) (s := 0) hm hΦ hE hB hcl.1 hcl.2.1 hcl.2.2
  rw [i0] at i1
  have j1 : (4 + 4 * |q| * M) * e0 ≤ (4 + 4 * |q| * M) * (e0 + del + c.dxi ^ 2) := mul_le_mul_of_nonneg_left (by linarith [sq_nonneg c.dxi]) hK
  have p2 : 0 ≤ C * (e0 + del + c.dxi ^ 2) := by positivity
  rw [abs_le] at *
  constructor <;> linarith [i1.1, i1.2, i2.1, i2.2]

/-! ### The axisymmetric code -/

open Lcode.Plasma2D (PState Layers NearTurned Stays AxiSym energy_rot substepped_converges) in
/-- C80 in the axisymmetric code: `gamma m - p_z + q Phi` of every computed particle stays within `C (e0 + del + step)` of its initial value, for whatever substeps the loop chooses, through and around the axis, under the conditions of C79. -/
theorem integral_kept2 {q m M L T W R μ : ℝ} (hq : q ≠ 0) (hm : 0 < m) (hM : 0 ≤ M) (hL : 0 ≤ L) (hT : 0 ≤ T) (hμ : μ ≤ 1 / 2) {E B : ℝ → ℝ → ℝ → Vec3} (hE : Tame2 M L E) (hB : Tame2 M L B) (aE : AxiSym E) (aB : AxiSym B)
    {X Y : ℝ → ℝ} {P : ℝ → Vec3} (hmo : PlasmaMotion q m E B T X Y P) (hst : Stays T W R X Y P) {Φ : ℝ → ℝ → ℝ → ℝ} (hΦ : WakePotential Φ E B) (aΦ : ∀ s x y u v, u ^ 2 + v ^ 2 = 1 → Φ s (u * x - v * y) (v * x + u * y) = Φ s x y) :
    ∃ C h0 : ℝ, 0 < C ∧ 0 < h0 ∧ ∀ (Rw del step e0 : ℝ) (n : ℕ) (S : ℕ → PState), W + 3 * μ ≤ Rw → 0 ≤ del → del ≤ 1 / 2 → 0 < step → step ≤ h0 → n * step ≤ T → (S 0).q = q →
      NearTurned (S 0) (X 0) (Y 0) (P 0) e0 → C * (e0 + del + step) ≤ μ → Layers m E B X Y μ Rw del step n S →
      ∀ k ≤ n, (S k).q = q ∧ |integral q m Φ (k * step) (S k).r 0 ⟨(S k).pr, (S k).pf, (S k).pz⟩ - integral q m Φ 0 (S 0).r 0 ⟨(S 0).pr, (S 0).pf, (S 0).pz⟩| ≤ C * (e0 + del + step) := by
  obtain ⟨C, h0, hC, hh0, main⟩ := substepped_converges hq hm hM hL hT hμ hE hB aE aB hmo hst
  have hK : 0 ≤ 4 + 4 * |q| * M := by positivity
  refine ⟨(4 + 4 * |q| * M) * (C + 1) + C, h0, by positivity, hh0, ?_⟩
  intro Rw del step e0 n S hRw hdel hdel1 hs hs0 hnT hrq hcl hsmall hlay k hk
  have he0 : 0 ≤ e0 := by obtain ⟨u, v, -, h, -⟩ := hcl; exact h.nonneg
  have hG : 0 ≤ e0 + del + step := by positivity
  have p1 : 0 ≤ (4 + 4 * |q| * M) * (C + 1) * (e0 + del + step) := by positivity
  obtain ⟨f1, -, -, f4⟩ := main Rw del step e0 n S hRw hdel hdel1 hs hs0 hnT hrq hcl (by linarith) hlay k hk
  refine ⟨f1, ?_⟩
  have hkT : k * step ≤ T := (mul_le_mul_of_nonneg_right (Nat.cast_le.mpr hk) hs.le).trans hnT
  have turned : ∀ (t x y : ℝ) (p : Vec3) (st : PState) (e : ℝ), NearTurned st x y p e → |integral q m Φ t st.r 0 ⟨st.pr, st.pf, st.pz⟩ - integral q m Φ t x y p| ≤ (4 + 4 * |q| * M) * e := by
    intro t x y p st e ⟨u, v, huv, hx, hp⟩
    have hi := integral_lip (q := q) (s := t) hm hΦ hE hB hx.1 hx.2.1 hp
    have e1 : integral q m Φ t (rot u v st.pos).x (rot u v st.pos).y (rot u v st.mom) = integral q m Φ t st.r 0 ⟨st.pr, st.pf, st.pz⟩ := by
      unfold integral
      rw [energy_rot m u v huv]
      have := aΦ t st.r 0 u v huv
      simp only [rot, PState.pos, PState.mom]
      rw [this]
    rwa [e1] at hi
  have i0 := integral_const hm hmo hΦ (k * step) (by positivity) hkT
  have i1 := turned (k * step) _ _ _ _ _ f4
  have i2 := turned 0 _ _ _ _ _ hcl
  rw [i0] at i1
  have j1 : (4 + 4 * |q| * M) * e0 ≤ (4 + 4 * |q| * M) * (e0 + del + step) := mul_le_mul_of_nonneg_left (by linarith) hK
  have p2 : 0 ≤ C * (e0 + del + step) := by positivity
  rw [abs_le] at *
  constructor <;> linarith [i1.1, i1.2, i2.1, i2.2]

/-! ### A particle accelerated from rest -/

/-- A uniform accelerating field, its potential and its arrays. -/
noncomputable def halfE : ℝ → ℝ → ℝ → Vec3 := fun _ _ _ => ⟨0, 0, 1 / 2⟩
noncomputable def halfArrays : Fields3 := ⟨fun _ _ => 0, fun _ _ => 0, fun _ _ => 1 / 2, fun _ _ => 0, fun _ _ => 0, fun _ _ => 0, fun _ _ => 0⟩

theorem half_potential : WakePotential (fun s _ _ => s / 2) halfE noE2 := by
  intro s x y
  have h := (hasFDerivAt_fst (𝕜 := ℝ) (p := ((s, x, y) : ℝ × ℝ × ℝ))).const_mul (1 / 2 : ℝ)
  have e : (fun w : ℝ × ℝ × ℝ => w.1 / 2) = fun w : ℝ × ℝ × ℝ => 1 / 2 * w.1 := by funext w; ring
  beta_reduce
  rw [e]
  refine h.congr_fderiv ?_
  simp [halfE, noE2]

/-- The momentum of the accelerated particle: with `u = 1 - s / 2` it is `(1 / u - u) / 2`, the energy `(1 / u + u) / 2`. -/
noncomputable def accP (s : ℝ) : Vec3 := ⟨0, 0, ((1 - s / 2)⁻¹ - (1 - s / 2)) / 2⟩

theorem acc_energy {s : ℝ} (hs : s ≤ 1) : (accP s).energy 1 = ((1 - s / 2)⁻¹ + (1 - s / 2)) / 2 := by
  unfold Vec3.energy accP
  simp only
  have hu : 0 < 1 - s / 2 := by linarith
  rw [Real.sqrt_eq_iff_mul_self_eq (by positivity) (by positivity)]
  generalize 1 - s / 2 = u at *
  field_simp
  ring

theorem acc_inv {s : ℝ} (hs : s ≤ 1) : HasDerivAt (fun s : ℝ => (1 - s / 2)⁻¹) (1 / 2 * (1 - s / 2)⁻¹ ^ 2) s := by
  have h1 : HasDerivAt (fun s : ℝ => 1 - s / 2) (-(1 / 2)) s := ((hasDerivAt_id s).div_const 2).const_sub 1
  refine (h1.inv (by linarith)).congr_deriv ?_
  have hu : 1 - s / 2 ≠ 0 := by linarith
  field_simp

theorem acc_pz {s : ℝ} (hs : s ≤ 1) : HasDerivAt (fun s => (accP s).z) (1 / 4 + 1 / 4 * (1 - s / 2)⁻¹ ^ 2) s := by
  have h1 : HasDerivAt (fun s : ℝ => 1 - s / 2) (-(1 / 2)) s := ((hasDerivAt_id s).div_const 2).const_sub 1
  exact (((acc_inv hs).sub h1).div_const 2).congr_deriv (by ring)

theorem acc_motion : PlasmaMotion 1 1 halfE noE2 1 (fun _ => 0) (fun _ => 0) accP where
  dx := fun s _ _ => by
    beta_reduce
    have : (accP s).x = 0 := rfl
    rw [this, zero_div]; exact hasDerivAt_const _ _
  dy := fun s _ _ => by
    beta_reduce
    have : (accP s).y = 0 := rfl
    rw [this, zero_div]; exact hasDerivAt_const _ _
  dpx := fun s _ _ => by
    beta_reduce
    refine (hasDerivAt_const s (0 : ℝ)).congr_deriv ?_
    simp [lorentz3, halfE, noE2]
  dpy := fun s _ _ => by
    beta_reduce
    refine (hasDerivAt_const s (0 : ℝ)).congr_deriv ?_
    simp [lorentz3, halfE, noE2]
  dpz := fun s _ hs => by
    beta_reduce
    refine (acc_pz hs).congr_deriv ?_
    unfold lorentz3
    rw [acc_energy hs]
    simp only [halfE, noE2, accP]
    have hu : 0 < 1 - s / 2 := by linarith
    generalize 1 - s / 2 = u at *
    have h1 : 1 - (u⁻¹ - u) / 2 / ((u⁻¹ + u) / 2) = 2 * u ^ 2 / (1 + u ^ 2) := by field_simp; ring
    rw [h1]
    field_simp
    ring

theorem acc_path : Path 1 0 2 12 (fun _ => 0) (fun _ => 0) accP := by
  have inv : ∀ s : ℝ, s ≤ 1 → 0 < (1 - s / 2)⁻¹ ∧ (1 - s / 2)⁻¹ ≤ 2 := by
    intro s hs
    have hu : 0 < 1 - s / 2 := by linarith
    exact ⟨by positivity, by rw [inv_le_comm₀ hu (by norm_num)]; linarith⟩
  have zero : Thrice 12 1 (fun _ => (0 : ℝ)) := ⟨fun _ => 0, fun _ => 0, fun _ => 0, fun s _ _ => hasDerivAt_const _ _, fun s _ _ => hasDerivAt_const _ _, fun s _ _ => hasDerivAt_const _ _, fun s _ _ => by simp, fun s _ _ => by simp, fun s _ _ => by simp⟩
  refine ⟨fun s h0 hs => ⟨by simp, by simp, by simp [accP], by simp [accP], ?_⟩, zero, zero, zero, zero, ?_⟩
  · obtain ⟨i1, i2⟩ := inv s hs
    show |((1 - s / 2)⁻¹ - (1 - s / 2)) / 2| ≤ 2
    rw [abs_le]; constructor <;> linarith
  · refine ⟨fun s => 1 / 4 + 1 / 4 * (1 - s / 2)⁻¹ ^ 2, fun s => 1 / 4 * (1 - s / 2)⁻¹ ^ 3, fun s => 3 / 8 * (1 - s / 2)⁻¹ ^ 4, fun s _ hs => acc_pz hs, fun s _ hs => ?_, fun s _ hs => ?_, fun s _ hs => ?_, fun s _ hs => ?_, fun s _ hs => ?_⟩
    · exact (((acc_inv hs).pow 2).const_mul (1 / 4)).const_add (1 / 4) |>.congr_deriv (by push_cast; ring)
    · exact ((acc_inv hs).pow 3).const_mul (1 / 4) |>.congr_deriv (by push_cast; ring)
    · obtain ⟨i1, i2⟩ := inv s hs
      have := pow_le_pow_left₀ i1.le i2 2
      rw [abs_of_pos (by positivity)]; linarith
    · obtain ⟨i1, i2⟩ := inv s hs
      have := pow_le_pow_left₀ i1.le i2 3
      rw [abs_of_pos (by positivity)]; linarith
    · obtain ⟨i1, i2⟩ := inv s hs
      have := pow_le_pow_left₀ i1.le i2 4
      rw [abs_of_pos (by positivity)]; linarith

theorem half_tame : Tame2 1 0 halfE := by
  refine ⟨fun s x y => by norm_num [Upto, halfE, abs_le], fun s x y x' y' e _ _ => ?_⟩
  rw [zero_mul]; exact Beam3D.Within.rfl' _

/-- C80, a concrete case: on every sufficiently fine grid an electron-mass particle that starts from rest in a uniform accelerating field has `gamma - p_z = 1 - s / 2` up to the second order of the layer thickness. -/
theorem accelerated_kept : ∃ C h0 : ℝ, 0 < C ∧ 0 < h0 ∧ ∀ c : MCfg, c.N % 2 = 1 → 2 ≤ c.pad → 0 < c.h → 1 / 2 < c.boundary → 0 ≤ c.dxi → c.dxi ≤ h0 → ∀ n : ℕ, n * c.dxi ≤ 1 → ∀ r : Ptl, r = (layerOf c halfArrays halfArrays halfArrays)^[n] ⟨0, 0, 0, 0, 0, 0, 0, 1, 1⟩ →
    |Real.sqrt (1 + r.px ^ 2 + r.py ^ 2 + r.pz ^ 2) - r.pz - (1 - n * c.dxi / 2)| ≤ C * c.dxi ^ 2 := by
  obtain ⟨C, h0, hC, hh0, main⟩ := integral_kept (q := 1) (m := 1) (M := 1) (L := 0) (T := 1) (W := 0) (R := 2) (S := 12) (μ := 2 / 5) (by norm_num) (by norm_num) (by norm_num) le_rfl (by norm_num) (by norm_num) (by norm_num)
    half_tame hel_tame.1 acc_motion acc_path half_potential
  refine ⟨C, min h0 (1 / (1 + 3 * C)), hC, by positivity, ?_⟩
  intro c hN hp hh hb hd hd0 n hn r hr
  have k1 : c.dxi ≤ h0 := hd0.trans (min_le_left _ _)
  have k2 : c.dxi ≤ 1 / (1 + 3 * C) := hd0.trans (min_le_right _ _)
  have small : C * (0 + 0 + c.dxi ^ 2) ≤ 2 / 5 := by
    have h1 : c.dxi * (1 + 3 * C) ≤ 1 := by
      have := mul_le_mul_of_nonneg_right k2 (by positivity : 0 ≤ 1 + 3 * C)
      rwa [one_div, inv_mul_cancel₀ (by positivity)] at this
    have h2 : c.dxi ≤ 1 := by nlinarith [mul_nonneg hd hC.le]
    have h3 : C * c.dxi ^ 2 ≤ C * c.dxi := by
      rw [pow_two]; exact mul_le_mul_of_nonneg_left (mul_le_of_le_one_left hd h2) hC.le
    nlinarith
  have flat : ∀ k : ℝ, Bent 0 (fun _ _ => k) := fun k x y => ⟨0, 0, fun x' y' e _ _ => by simp⟩
  have near : ∀ s, FieldsNear c halfArrays (halfE s) (noE2 s) 0 := by
    intro s
    have h1 := sampled_near c hN hp hh (E := halfE s) (B := noE2 s) (Q := 0) (d := 0) ⟨flat _, flat _, flat _⟩ ⟨flat _, flat _, flat _⟩ halfArrays (fun i j _ _ _ _ => ⟨Beam3D.Within.rfl' _, Beam3D.Within.rfl' _⟩)
    have e : (0 : ℝ) + 25 / 4 * 0 * c.h ^ 2 = 0 := by ring
    rwa [e] at h1
  have upto := arrays_upto c hN hp hh halfArrays (1 + 1) (fun i j _ _ _ _ => by norm_num [Upto, halfArrays, abs_le])
  have hrun : Run3 c 1 halfE noE2 0 n (fun k => (layerOf c halfArrays halfArrays halfArrays)^[k] ⟨0, 0, 0, 0, 0, 0, 0, 1, 1⟩) := by
    intro k _
    exact ⟨halfArrays, halfArrays, halfArrays, Function.iterate_succ_apply' _ _ _, upto, upto, near _⟩
  have fin := (main c 0 0 n _ hd k1 hn (by linarith) le_rfl (by norm_num) rfl rfl (by norm_num [Close, Ptl.X, Ptl.Y, Ptl.mom, accP, Within]) small hrun n le_rfl).2.2
  beta_reduce at fin
  rw [← hr] at fin
  have e0 : C * (0 + 0 + c.dxi ^ 2) = C * c.dxi ^ 2 := by ring
  rw [e0] at fin
  refine le_trans (le_of_eq ?_) fin
  congr 1
  unfold integral Vec3.energy Ptl.mom
  norm_num
  ring

end Lcode.Plasma3D
