import Verif.Plasma2D.TrajectoryCases

/-!
Property C82: plasma particles of the 2D code that do not rotate (no azimuthal momentum, no E_phi, no B_z: an axisymmetric beam in a plasma at rest) are moved with second order, lcode/plasma/move.py:59-166.
Where the predicted middle of a push lies beyond the axis the code takes the fields at the mirrored radius without turning them (move.py:88-89), an error of the first order in that push; such pushes are counted.
The model of the pusher is Verif/Plasma2D/Move.lean; this file adds proofs.
-/

namespace Lcode.Plasma2D

open Lcode.Plasma3D (Vec3 lorentz3 PlasmaMotion Tame2 Upto Thrice kap kapMax kapMax_pos kap_bound velLip slope_lip slope_kap forceLip fieldLip forceMax force_lip3 force_upto halfway halfway_near half_step upto_near full_step smooth_taylor)
open Lcode.Beam3D (Within near_linear vel vel_le_one)
open Lcode.Beam2D (rot within_rot unit_le frame_change sqrt_near)
open Lcode.Num (DerivOn)

/-! ### Specification -/

/-- Position and momentum of the trajectory have three derivatives bounded by `S`. -/
def SmoothPath (S T : ℝ) (X Y : ℝ → ℝ) (P : ℝ → Vec3) : Prop := Thrice S T X ∧ Thrice S T Y ∧ Thrice S T (fun s => (P s).x) ∧ Thrice S T (fun s => (P s).y) ∧ Thrice S T (fun s => (P s).z)

/-- Half a push of length `d` with the old momentum takes the particle beyond the axis. -/
def Crosses (m d : ℝ) (s : PState) : Prop := s.r + d / 2 * (s.pr / (Real.sqrt (m ^ 2 + s.pr ^ 2 + s.pf ^ 2 + s.pz ^ 2) - s.pz)) < 0

/-- `S 0, ..., S n` are the states of one particle at the borders of `n` layers of width `step`, each crossed by the substepping loop of the code. Nothing turns the particle, and in each layer the fields are within `del` of those in the middle of the layer.
The layers are thin compared with the radial cells: `κ step < h`. -/
def PlainLayers (m κ : ℝ) (E B : ℝ → ℝ → ℝ → Vec3) (Rw del step : ℝ) (n : ℕ) (S : ℕ → PState) : Prop :=
  0 ≤ (S 0).r ∧ (S 0).pf = 0 ∧ ∀ k < n, ∃ (e : Env) (M : ℕ) (age : ℝ), 1 ≤ M ∧ e.n = M + 1 ∧ κ * step < e.h ∧ e.R < (M + 1 / 2) * e.h ∧ Rw ≤ e.R ∧ (∀ i, e.F.Ef i = 0 ∧ e.F.Bz i = 0) ∧
    S (k + 1) = (moveSubstepped (moveOne e m) e.h step (S k) age).s ∧ FieldsNear e M (E (k * step + step / 2)) (B (k * step + step / 2)) del

open Classical in
/-- The number of layers among the first `k` in which the particle crosses the axis in the first half. -/
noncomputable def crossings (m step : ℝ) (S : ℕ → PState) (k : ℕ) : ℕ := ((Finset.range k).filter fun j => Crosses m step (S j)).card

/-! ### One push in a fixed frame -/

/-- Error of the force: fields with error `f`, momentum with error `b`. -/
noncomputable def err2F (q m M R f b : ℝ) : ℝ := fieldLip q m (R + 1) * f + forceLip q m (R + 1) M * b
/-- Error of the half-step momentum. -/
noncomputable def err2P (S d e η : ℝ) : ℝ := e + d / 2 * η + S * d ^ 2 / 8
/-- Error of the slope. -/
noncomputable def err2V (m R b1 b2 : ℝ) : ℝ := kapMax m (R + 1) / m * (b2 + b1) + velLip m (R + 1) * b1

theorem frame_step2 {q m M L T W R S : ℝ} (hm : 0 < m) {E B : ℝ → ℝ → ℝ → Vec3} {X Y : ℝ → ℝ} {P : ℝ → Vec3} (hmo : PlasmaMotion q m E B T X Y P) (hE : Tame2 M L E) (hB : Tame2 M L B)
    (hst : Stays T W R X Y P) (hsp : SmoothPath S T X Y P) {t d e del x y x1 y1 x0 η0 b1 η1 b2 : ℝ} {p eR bR mid φ : Vec3} (h0 : 0 ≤ t) (hd : 0 ≤ d) (hT : t + d ≤ T) (he : e ≤ 1 / 2) (hdel : del ≤ 1) (hsm : d * forceMax q m (R + 1) (M + 1) ≤ 1)
    (cx : |x - X t| ≤ e) (cy : |y - Y t| ≤ e) (cp : Within p (P t) e) (fx : |x1 - X (t + d / 2)| ≤ x0) (fy : |y1 - Y (t + d / 2)| ≤ x0)
    (fE : Within eR (E (t + d / 2) x1 y1) del) (fB : Within bR (B (t + d / 2) x1 y1) del)
    (hmid : mid = halfway p d (lorentz3 q m 1 eR bR p)) (hφ : φ = lorentz3 q m 1 eR bR mid)
    (hη0 : η0 = err2F q m M R (del + L * x0) (e + S * d / 2)) (hb1 : b1 = err2P S d e η0) (hη1 : η1 = err2F q m M R (del + L * x0) b1) (hb2 : b2 = err2P S d e η1) :
    |x + d * ((halfway p d φ).x / (mid.energy m - mid.z)) - X (t + d)| ≤ e + d * err2V m R b1 b2 + S * d ^ 3 / 24 ∧ |y + d * ((halfway p d φ).y / (mid.energy m - mid.z)) - Y (t + d)| ≤ e + d * err2V m R b1 b2 + S * d ^ 3 / 24 ∧
    Within (along p d φ) (P (t + d)) (e + d * η1 + S * d ^ 3 / 24) ∧ Upto mid (R + 1) ∧ Upto (halfway p d φ) (R + 1) := by
  have ht2 : 0 ≤ t + d / 2 := by linarith
  have hT2 : t + d / 2 ≤ T := by linarith
  have hPt := (hst t h0 (by linarith)).2
  have hPm : Upto (P (t + d / 2)) (R + 1) := (hst _ ht2 hT2).2.mono (by linarith)
  have uE : Upto eR (M + 1) := (upto_near (hE.bounded _ _ _) fE).mono (by linarith)
  have uB : Upto bR (M + 1) := (upto_near (hB.bounded _ _ _) fB).mono (by linarith)
  have up2 : Upto p (R + 1 / 2) := (upto_near hPt cp).mono (by linarith)
  have up : Upto p (R + 1) := up2.mono (by linarith)
  have n1 := halfway_near p _ hd (force_upto (q := q) hm eR bR p up uE uB)
  rw [← hmid] at n1
  have um : Upto mid (R + 1) := (upto_near up2 n1).mono (by linarith)
  obtain ⟨sx, sy, spx, spy, spz⟩ := hsp
  obtain ⟨-, x2, -, -, -⟩ := smooth_taylor sx hmo.dx h0 hd hT
  obtain ⟨-, y2, -, -, -⟩ := smooth_taylor sy hmo.dy h0 hd hT
  obtain ⟨a1, a2, -, -, a5⟩ := smooth_taylor spx hmo.dpx h0 hd hT
  obtain ⟨c1, c2, -, -, c5⟩ := smooth_taylor spy hmo.dpy h0 hd hT
  obtain ⟨d1, d2, -, -, d5⟩ := smooth_taylor spz hmo.dpz h0 hd hT
  have wE := fE.trans (hE.lipschitz (t + d / 2) _ _ _ _ _ fx fy)
  have wB := fB.trans (hB.lipschitz (t + d / 2) _ _ _ _ _ fx fy)
  have old : Within p (P (t + d / 2)) (e + S * d / 2) := by
    refine cp.trans ⟨?_, ?_, ?_⟩ <;> rw [abs_sub_comm]
    exacts [a5, c5, d5]
  have F0 := force_lip3 (q := q) hm _ _ _ _ _ _ _ _ wE wB old up hPm (hE.bounded _ _ _) (hB.bounded _ _ _)
  change Within _ _ (err2F q m M R (del + L * x0) (e + S * d / 2)) at F0
  rw [← hη0] at F0
  have P1 : Within mid (P (t + d / 2)) b1 := by
    rw [hb1, hmid]
    exact ⟨half_step hd cp.1 F0.1 a1, half_step hd cp.2.1 F0.2.1 c1, half_step hd cp.2.2 F0.2.2 d1⟩
  have F1 := force_lip3 (q := q) hm _ _ _ _ _ _ _ _ wE wB P1 um hPm (hE.bounded _ _ _) (hB.bounded _ _ _)
  change Within _ _ (err2F q m M R (del + L * x0) b1) at F1
  rw [← hη1, ← hφ] at F1
  have P2 : Within (halfway p d φ) (P (t + d / 2)) b2 := by
    rw [hb2]
    exact ⟨half_step hd cp.1 F1.1 a1, half_step hd cp.2.1 F1.2.1 c1, half_step hd cp.2.2 F1.2.2 d1⟩
  have P12 : Within (halfway p d φ) mid (b2 + b1) := P2.trans P1.symm
  obtain ⟨V1, V2⟩ := slope_lip hm _ _ um hPm _ P1
  have W1 := (abs_sub_le _ _ _).trans (add_le_add (denom_le hm mid um _ _ _ P12.1) V1)
  have W2 := (abs_sub_le _ _ _).trans (add_le_add (denom_le hm mid um _ _ _ P12.2.1) V2)
  have n2 := halfway_near p _ hd (force_upto (q := q) hm eR bR mid um uE uB)
  rw [← hφ] at n2
  refine ⟨full_step hd cx W1 x2, full_step hd cy W2 y2, ⟨full_step hd cp.1 F1.1 a2, full_step hd cp.2.1 F1.2.1 c2, full_step hd cp.2.2 F1.2.2 d2⟩, um, (upto_near up2 n2).mono (by linarith)⟩

/-! ### Constants -/

/-- The error at the end of a push is at most `(1 + A d) e + d K (del + d² + c)`, where `c` is the additional error of the place where the fields are taken. -/
theorem growth2 {g f l a k S : ℝ} (hg : 0 ≤ g) (hf : 0 ≤ f) (hl : 0 ≤ l) (ha : 0 ≤ a) (hk : 0 ≤ k) (hS : 0 ≤ S) :
    ∃ A K : ℝ, 0 < A ∧ 0 < K ∧ ∀ h e del c : ℝ, 0 ≤ h → h ≤ 1 → 0 ≤ e → 0 ≤ del → 0 ≤ c →
      ∀ x η b η1 b2 : ℝ, x = e + h / 2 * (g * e) + S * h ^ 2 / 8 + c → η = a * (2 * del + l * x) + f * (e + S * h / 2) → b = e + h / 2 * η + S * h ^ 2 / 8 →
        η1 = a * (2 * del + l * x) + f * b → b2 = e + h / 2 * η1 + S * h ^ 2 / 8 →
        e + h * η1 + S * h ^ 3 / 24 ≤ e * (1 + A * h) + h * (K * (del + h ^ 2 + c)) ∧ e + h * (k * (b2 + b) + g * b) + S * h ^ 3 / 24 ≤ e * (1 + A * h) + h * (K * (del + h ^ 2 + c)) := by
  obtain ⟨N2, hN2⟩ : ∃ N2, N2 = S / 8 + 1 := ⟨_, rfl⟩
  obtain ⟨A0, hA0⟩ : ∃ A0, A0 = a * l * (1 + g / 2) + f := ⟨_, rfl⟩
  obtain ⟨B0, hB0⟩ : ∃ B0, B0 = a * (2 + l * N2) + f * S / 2 := ⟨_, rfl⟩
  obtain ⟨A1, hA1⟩ : ∃ A1, A1 = 1 + A0 / 2 := ⟨_, rfl⟩
  obtain ⟨B1, hB1⟩ : ∃ B1, B1 = B0 / 2 + S / 8 := ⟨_, rfl⟩
  obtain ⟨A2, hA2⟩ : ∃ A2, A2 = a * l * (1 + g / 2) + f * A1 := ⟨_, rfl⟩
  obtain ⟨B2, hB2⟩ : ∃ B2, B2 = a * (2 + l * N2) + f * B1 := ⟨_, rfl⟩
  obtain ⟨A3, hA3⟩ : ∃ A3, A3 = 1 + A2 / 2 := ⟨_, rfl⟩
  obtain ⟨B3, hB3⟩ : ∃ B3, B3 = B2 / 2 + S / 8 := ⟨_, rfl⟩
  have n2 : 0 ≤ N2 := by rw [hN2]; positivity
  have p0 : 0 ≤ A0 := by rw [hA0]; positivity
  have q0 : 0 ≤ B0 := by rw [hB0]; positivity
  have p1 : 0 ≤ A1 := by rw [hA1]; positivity
  have q1 : 0 ≤ B1 := by rw [hB1]; positivity
  have p2 : 0 ≤ A2 := by rw [hA2]; positivity
  have q2 : 0 ≤ B2 := by rw [hB2]; positivity
  have p3 : 0 ≤ A3 := by rw [hA3]; positivity
  have q3 : 0 ≤ B3 := by rw [hB3]; positivity
  refine ⟨1 + A2 + k * (A3 + A1) + g * A1, 1 + B2 + k * (B3 + B1) + g * B1 + S / 24, by positivity, by positivity, ?_⟩
  intro h e del c h0 h1 he hd hc x η b η1 b2 Hx Hη Hb Hη1 Hb2
  obtain ⟨s, hs⟩ : ∃ s, s = del + h ^ 2 + c := ⟨_, rfl⟩
  have hh2 : 0 ≤ h ^ 2 := sq_nonneg h
  have hh : h ^ 2 ≤ s := by rw [hs]; linarith
  have hds : del ≤ s := by rw [hs]; linarith
  have hcs : c ≤ s := by rw [hs]; linarith
  have hs0 : 0 ≤ s := le_trans hd hds
  rw [← hs]
  have he1 : h * e ≤ e := mul_le_of_le_one_left he h1
  have r2 : x ≤ (1 + g / 2) * e + N2 * s := by
    have e1 : x = e + g / 2 * (h * e) + S / 8 * h ^ 2 + c := by rw [Hx]; ring
    have m1 := mul_le_mul_of_nonneg_left he1 (by positivity : 0 ≤ g / 2)
    have m2 := mul_le_mul_of_nonneg_left hh (by positivity : 0 ≤ S / 8)
    rw [e1, hN2]
    linarith
  have x0 : 0 ≤ x := by rw [Hx]; positivity
  have r3 : a * (2 * del + l * x) ≤ a * l * (1 + g / 2) * e + a * (2 + l * N2) * s := by
    have m1 := mul_le_mul_of_nonneg_left r2 hl
    have m2 := mul_le_mul_of_nonneg_left (add_le_add (by linarith : 2 * del ≤ 2 * s) m1) ha
    linarith
  have r3p : 0 ≤ a * (2 * del + l * x) := by positivity
  have r4 : h * η ≤ A0 * e + B0 * s := by
    have e1 : h * η = h * (a * (2 * del + l * x)) + f * (h * e) + f * S / 2 * h ^ 2 := by rw [Hη]; ring
    rw [e1]
    have m1 : h * (a * (2 * del + l * x)) ≤ a * (2 * del + l * x) := mul_le_of_le_one_left r3p h1
    have m2 := mul_le_mul_of_nonneg_left he1 hf
    have m3 := mul_le_mul_of_nonneg_left hh (by positivity : 0 ≤ f * S / 2)
    rw [hA0, hB0]
    linarith
  have r5 : b ≤ A1 * e + B1 * s := by
    have m1 := mul_le_mul_of_nonneg_left hh hS
    rw [Hb, hA1, hB1]
    linarith
  have r6 : η1 ≤ A2 * e + B2 * s := by
    have m1 := mul_le_mul_of_nonneg_left r5 hf
    rw [Hη1, hA2, hB2]
    linarith
  have η1p : 0 ≤ η1 := by
    have : 0 ≤ η := by rw [Hη]; positivity
    have : 0 ≤ b := by rw [Hb]; positivity
    rw [Hη1]; positivity
  have r7 : b2 ≤ A3 * e + B3 * s := by
    have m1 := mul_le_mul_of_nonneg_left hh hS
    have m2 : h * η1 ≤ η1 := mul_le_of_le_one_left η1p h1
    rw [Hb2, hA3, hB3]
    linarith
  have h3 : S * h ^ 3 / 24 ≤ h * (S / 24 * s) := by
    have e1 : S * h ^ 3 / 24 = h * (S / 24 * h ^ 2) := by ring
    rw [e1]
    exact mul_le_mul_of_nonneg_left (mul_le_mul_of_nonneg_left hh (by positivity)) h0
  refine ⟨?_, ?_⟩
  · have m1 := mul_le_mul_of_nonneg_left r6 h0
    have m2 : 0 ≤ h * ((1 + k * (A3 + A1) + g * A1) * e + (1 + k * (B3 + B1) + g * B1) * s) := by positivity
    linarith
  · have m1 := mul_le_mul_of_nonneg_left (add_le_add r7 r5) hk
    have m2 := mul_le_mul_of_nonneg_left r5 hg
    have m4 := mul_le_mul_of_nonneg_left (add_le_add m1 m2) h0
    have m3 : 0 ≤ h * ((1 + A2) * e + (1 + B2) * s) := by positivity
    linarith

/-! ### One push of the code -/

/-- How far a particle can move in a push of unit length. -/
noncomputable def pathMax (m R : ℝ) : ℝ := kapMax m (R + 1) / m * (2 * (R + 1)) + kapMax m (R + 1)

/-- One push of the code, for a particle whose error before it is `e`. -/
theorem push_step2 {q m M L T W R S : ℝ} (hm : 0 < m) {E B : ℝ → ℝ → ℝ → Vec3} {X Y : ℝ → ℝ} {P : ℝ → Vec3} (hmo : PlasmaMotion q m E B T X Y P) (hE : Tame2 M L E) (hB : Tame2 M L B)
    (aE : AxiSym E) (aB : AxiSym B) (hst : Stays T W R X Y P) (hsp : SmoothPath S T X Y P) {t d e del ε c x0 η0 b1 η1 b2 : ℝ} {s : PState} (env : Env) (N : ℕ) (hN : 1 ≤ N) (hn : env.n = N + 1) (hh : 0 < env.h) (hRw : env.R < (N + 1 / 2) * env.h)
    (h0 : 0 ≤ t) (hd : 0 ≤ d) (hT : t + d ≤ T) (he : e ≤ 1 / 2) (hdel : del ≤ 1 / 2) (hsm : d * forceMax q m (R + 1) (M + 1) ≤ 1) (hr : 0 ≤ s.r) (hq : s.q = q) (hpf : s.pf = 0) (hflat : ∀ i, env.F.Ef i = 0 ∧ env.F.Bz i = 0)
    (hc : NearTurned s (X t) (Y t) (P t) e) (hF : FieldsNear env N (E (t + d / 2)) (B (t + d / 2)) del) (hc0 : 0 ≤ c) (hcr : Crosses m d s → kapMax m (R + 1) * d ≤ c)
    (hx0 : x0 = e + d / 2 * (velLip m (R + 1) * e) + S * d ^ 2 / 8 + c) (hη0 : η0 = err2F q m M R (2 * del + L * x0) (e + S * d / 2)) (hb1 : b1 = err2P S d e η0) (hη1 : η1 = err2F q m M R (2 * del + L * x0) b1) (hb2 : b2 = err2P S d e η1)
    (hε1 : e + d * err2V m R b1 b2 + S * d ^ 3 / 24 ≤ ε) (hε2 : e + d * η1 + S * d ^ 3 / 24 ≤ ε) (hw1 : W + 2 * e + kapMax m (R + 1) * d / 2 ≤ env.R) (hw2 : W + 2 * ε ≤ env.R) :
    0 ≤ (moveOne env m s d).s.r ∧ (moveOne env m s d).s.q = q ∧ (moveOne env m s d).path ≤ pathMax m R * d ∧ NearTurned (moveOne env m s d).s (X (t + d)) (Y (t + d)) (P (t + d)) ε := by
  obtain ⟨u, v, huv, cx, cp⟩ := hc
  obtain ⟨bu, bv⟩ := unit_le huv
  have mem : t ∈ Set.Icc t (t + d) := ⟨le_rfl, by linarith⟩
  have he0 : 0 ≤ e := cx.nonneg
  have hP := fun τ (hτ : τ ∈ Set.Icc t (t + d)) => (hst τ (h0.trans hτ.1) (hτ.2.trans hT)).2
  have hR : 0 ≤ R := le_trans (abs_nonneg _) (hP t mem).1
  have k0 := kapMax_pos (R := R + 1) hm
  have hW : Real.sqrt (X t ^ 2 + Y t ^ 2) ≤ W := (hst t h0 (by linarith)).1
  have rp : rot u v s.pos = ⟨u * s.r, v * s.r, 0⟩ := rot_pos u v s.r
  rw [rp] at cx
  obtain ⟨cx1, cx2, -⟩ := cx
  have er : ∀ a : ℝ, Real.sqrt ((u * a) ^ 2 + (v * a) ^ 2) = |a| := by
    intro a
    rw [show (u * a) ^ 2 + (v * a) ^ 2 = a ^ 2 by linear_combination a ^ 2 * huv, Real.sqrt_sq_eq_abs]
  have hrW : s.r ≤ W + 2 * e := by
    have := sqrt_near cx1 cx2
    rw [er, abs_of_nonneg hr] at this
    linarith
  -- where the fields are taken
  obtain ⟨p, hp⟩ : ∃ p : Vec, p = ⟨s.pr, s.pf, s.pz⟩ := ⟨_, rfl⟩
  have hp3 : p.v3 = s.mom := by rw [hp]; rfl
  obtain ⟨rP, hrP⟩ : ∃ rP, rP = predicted m d s.r p := ⟨_, rfl⟩
  have up : Upto (rot u v s.mom) (R + 1) := (upto_near (hP t mem) cp).mono (by linarith)
  have hsl : |rP - s.r| ≤ kapMax m (R + 1) * d / 2 := by
    have e1 : rP - s.r = d / 2 * (s.pr / (s.mom.energy m - s.mom.z)) := by
      rw [hrP, hp]
      show s.r + d / (s.mom.energy m - s.pz) / 2 * s.pr - s.r = d / 2 * (s.pr / (s.mom.energy m - s.pz))
      ring
    have e2 : |s.pr / (s.mom.energy m - s.mom.z)| ≤ kapMax m (R + 1) := by
      have hk := kap_bound hm _ up
      have hz : kap m (rot u v s.mom) = kap m s.mom := by
        unfold kap
        rw [Plasma3D.vel_energy, Plasma3D.vel_energy, energy_rot m u v huv]
        rfl
      have hgt : 0 < s.mom.energy m - s.mom.z := by
        have := energy_gt m hm p
        rw [hp] at this
        exact sub_pos.mpr this
      have hg := Plasma3D.energy_pos hm s.mom
      have e3 : s.pr / (s.mom.energy m - s.mom.z) = kap m s.mom * (s.pr / s.mom.energy m) := by
        unfold kap
        rw [Plasma3D.vel_energy]
        simp only
        have : 1 - s.mom.z / s.mom.energy m = (s.mom.energy m - s.mom.z) / s.mom.energy m := by field_simp
        rw [this]
        field_simp
      rw [hz] at hk
      have hv := (vel_le_one (1 / m) s.mom).1
      rw [Plasma3D.vel_energy] at hv
      rw [e3, abs_mul]
      have := mul_le_mul hk.1 hv (abs_nonneg _) k0.le
      rw [mul_one] at this
      exact this
    rw [e1, abs_mul, abs_of_nonneg (by linarith : 0 ≤ d / 2)]
    have := mul_le_mul_of_nonneg_left e2 (by linarith : 0 ≤ d / 2)
    linarith
  have hρ : |(|rP| - s.r)| ≤ kapMax m (R + 1) * d / 2 := by
    have := abs_abs_sub_abs_le rP s.r
    rw [abs_of_nonneg hr] at this
    exact this.trans hsl
  have hρR : |rP| ≤ env.R := by
    have := (abs_le.mp hρ).2
    linarith
  obtain ⟨hrl, hrh⟩ := abs_le.mp hρR
  have out := (push_spec env N hN hn hh hRw m hm s d).1
  simp only [← hp, ← hrP, hq] at out
  have out := out hrl hrh
  unfold PushOutcome at out
  simp only at out
  obtain ⟨out1, -, -, out4⟩ := out
  obtain ⟨fe, hfe⟩ : ∃ fe, fe = fieldE env N (|rP| / env.h) := ⟨_, rfl⟩
  obtain ⟨fb, hfb⟩ : ∃ fb, fb = fieldB env N (|rP| / env.h) := ⟨_, rfl⟩
  rw [← hfe, ← hfb] at out1 out4
  obtain ⟨mid, hmid⟩ : ∃ mid, mid = halfway p.v3 d (lorentz3 q m 1 fe.v3 fb.v3 p.v3) := ⟨_, rfl⟩
  obtain ⟨φ, hφ⟩ : ∃ φ, φ = lorentz3 q m 1 fe.v3 fb.v3 mid := ⟨_, rfl⟩
  obtain ⟨n1, n2, n3⟩ := push_local m q d s.r hm fe fb p hmid hφ
  have fields : ∀ F : ℝ → ℝ → ℝ → Vec3, AxiSym F → ∀ g : Vec3, Within g (F (t + d / 2) |rP| 0) del → Within (rot u v g) (F (t + d / 2) (u * |rP|) (v * |rP|)) (2 * del) := by
    intro F hFs g hg
    have h1 := within_rot huv hg
    rw [← hFs _ _ _ u v huv, mul_zero, mul_zero, sub_zero, add_zero] at h1
    exact h1
  have hmir : |(|rP| - rP)| ≤ c := by
    rcases le_or_gt 0 rP with h1 | h1
    · rw [abs_of_nonneg h1, sub_self, abs_zero]; exact hc0
    · have hx : Crosses m d s := by
        unfold Crosses
        have e1 : rP = s.r + d / 2 * (s.pr / (Real.sqrt (m ^ 2 + s.pr ^ 2 + s.pf ^ 2 + s.pz ^ 2) - s.pz)) := by
          rw [hrP, hp]
          show s.r + d / (s.mom.energy m - s.pz) / 2 * s.pr = s.r + d / 2 * (s.pr / (s.mom.energy m - s.pz))
          ring
        rw [← e1]; exact h1
      rw [abs_of_neg h1, abs_of_pos (by linarith)]
      have := (abs_le.mp hsl).1
      linarith [hcr hx]
  have place : ∀ (w g : ℝ) (f : ℝ → ℝ), |w| ≤ 1 → |w * s.r - f t| ≤ e → |w * (s.pr / (s.mom.energy m - s.mom.z)) - g| ≤ velLip m (R + 1) * e → |f (t + d / 2) - f t - d / 2 * g| ≤ S * (d / 2) ^ 2 / 2 → |w * |rP| - f (t + d / 2)| ≤ x0 := by
    intro w g f hw h1 h2 h3
    have h4 := full_step (by linarith : 0 ≤ d / 2) h1 h2 h3
    have e1 : w * s.r + d / 2 * (w * (s.pr / (s.mom.energy m - s.mom.z))) = w * rP := by
      rw [hrP, hp]
      show _ = w * (s.r + d / (s.mom.energy m - s.pz) / 2 * s.pr)
      have : s.mom.z = s.pz := rfl
      rw [this]; ring
    rw [e1] at h4
    have h5 : |w * |rP| - w * rP| ≤ c := by
      rw [← mul_sub, abs_mul]
      have := mul_le_mul hw hmir (abs_nonneg _) (by norm_num : (0 : ℝ) ≤ 1)
      linarith
    have h6 := abs_sub_le (w * |rP|) (w * rP) (f (t + d / 2))
    rw [hx0]
    linarith [(by ring : S * (d / 2) ^ 2 / 2 = S * d ^ 2 / 8)]
  have hPt : Upto (P t) (R + 1) := (hP t mem).mono (by linarith)
  obtain ⟨sl1, sl2⟩ := slope_lip hm _ _ up hPt _ cp
  rw [energy_rot m u v huv] at sl1 sl2
  have r1 : (rot u v s.mom).x / (s.mom.energy m - (rot u v s.mom).z) = u * (s.pr / (s.mom.energy m - s.mom.z)) := by
    simp only [rot, PState.mom, hpf]; ring
  have r2 : (rot u v s.mom).y / (s.mom.energy m - (rot u v s.mom).z) = v * (s.pr / (s.mom.energy m - s.mom.z)) := by
    simp only [rot, PState.mom, hpf]; ring
  rw [r1] at sl1
  rw [r2] at sl2
  have tx := (smooth_taylor hsp.1 hmo.dx h0 (by linarith : 0 ≤ d / 2) (by linarith)).2.2.1
  have ty := (smooth_taylor hsp.2.1 hmo.dy h0 (by linarith : 0 ≤ d / 2) (by linarith)).2.2.1
  have st := frame_step2 (x := u * s.r) (y := v * s.r) (x1 := u * |rP|) (y1 := v * |rP|) (p := rot u v s.mom) (eR := rot u v fe.v3) (bR := rot u v fb.v3) (mid := rot u v mid) (φ := rot u v φ) (del := 2 * del) hm hmo hE hB hst hsp h0 hd hT he (by linarith) hsm
    cx1 cx2 cp (place u _ _ bu cx1 sl1 tx) (place v _ _ bv cx2 sl2 ty) (fields E aE _ (by rw [hfe]; exact (hF _ (abs_nonneg _) hρR).1)) (fields B aB _ (by rw [hfb]; exact (hF _ (abs_nonneg _) hρR).2))
    (by rw [lorentz3_rot _ _ _ _ huv, halfway_rot, hmid, hp3]) (by rw [lorentz3_rot _ _ _ _ huv, hφ]) hη0 hb1 hη1 hb2
  rw [halfway_rot, along_rot, energy_rot m u v huv, ← hp3, ← n1] at st
  obtain ⟨s1, s2, s3, um, uh⟩ := st
  obtain ⟨xl, hxl⟩ : ∃ xl, xl = (newPosition m q d fe fb p s.r).x := ⟨_, rfl⟩
  obtain ⟨yl, hyl⟩ : ∃ yl, yl = (newPosition m q d fe fb p s.r).y := ⟨_, rfl⟩
  obtain ⟨pN, hpN⟩ : ∃ pN, pN = newMomentum m q d fe fb p := ⟨_, rfl⟩
  rw [← hxl] at n2 out1 out4
  rw [← hyl] at n3 out1 out4
  rw [← hpN] at s3 out1
  have s1' : |u * xl - v * yl - X (t + d)| ≤ e + d * err2V m R b1 b2 + S * d ^ 3 / 24 := by
    refine le_trans (le_of_eq ?_) s1
    rw [n2, n3]; congr 1; simp only [rot]; ring
  have s2' : |v * xl + u * yl - Y (t + d)| ≤ e + d * err2V m R b1 b2 + S * d ^ 3 / 24 := by
    refine le_trans (le_of_eq ?_) s2
    rw [n2, n3]; congr 1; simp only [rot]; ring
  obtain ⟨rN, hrN⟩ : ∃ rN, rN = Real.sqrt (xl ^ 2 + yl ^ 2) := ⟨_, rfl⟩
  rw [← hrN] at out1 out4
  have hrNR : rN ≤ env.R := by
    have h1 := sqrt_near s1' s2'
    rw [show (u * xl - v * yl) ^ 2 + (v * xl + u * yl) ^ 2 = xl ^ 2 + yl ^ 2 by linear_combination (xl ^ 2 + yl ^ 2) * huv, ← hrN] at h1
    linarith [(hst (t + d) (by linarith) hT).1]
  obtain ⟨o1, o2, o3, o4, o5, o6⟩ := out1 hrNR
  have hrN0 : 0 ≤ rN := by rw [hrN]; exact Real.sqrt_nonneg _
  -- nothing turns the particle
  have fe0 : fe.y = 0 := by
    rw [hfe]; unfold fieldE; simp [hflat]
  have fb0 : fb.x = 0 ∧ fb.z = 0 := by
    rw [hfb]; unfold fieldB; simp [hflat]
  have frc : ∀ p' : Vec3, (lorentz3 q m 1 fe.v3 fb.v3 p').y = 0 := by
    intro p'; unfold lorentz3 Vec.v3; simp [fe0, fb0.1, fb0.2]
  have hpy0 : p.v3.y = 0 := by rw [hp]; exact hpf
  have hpy : pN.y = 0 := by
    have := congrArg Vec3.y n1
    rw [← hpN] at this
    unfold along at this
    simp only [hφ, frc, hpy0, mul_zero, add_zero] at this
    exact this
  have hmove : |xl - s.r| ≤ kapMax m (R + 1) / m * (2 * (R + 1)) * d := by
    have y0 : (halfway p.v3 d φ).y = 0 := by
      unfold halfway
      simp only [hφ, frc, hpy0, mul_zero, zero_div, add_zero]
    have hx : |(halfway p.v3 d φ).x - 0| ≤ 2 * (R + 1) := by
      have q1 := uh.1
      have q2 := uh.2.1
      simp only [rot, y0, mul_zero, sub_zero, add_zero] at q1 q2
      have e1 : (halfway p.v3 d φ).x - 0 = u * (u * (halfway p.v3 d φ).x) + v * (v * (halfway p.v3 d φ).x) := by linear_combination -(halfway p.v3 d φ).x * huv
      rw [e1]
      refine (abs_add_le _ _).trans ?_
      rw [abs_mul u, abs_mul v]
      have z1 := mul_le_mul bu q1 (abs_nonneg _) (by norm_num : (0 : ℝ) ≤ 1)
      have z2 := mul_le_mul bv q2 (abs_nonneg _) (by norm_num : (0 : ℝ) ≤ 1)
      linarith
    have z := denom_le hm (rot u v mid) um _ _ _ hx
    rw [energy_rot m u v huv, zero_div, sub_zero] at z
    have e2 : xl - s.r = d * ((halfway p.v3 d φ).x / (mid.energy m - (rot u v mid).z)) := by rw [n2]; simp only [rot]; ring
    rw [e2, abs_mul, abs_of_nonneg hd]
    linarith [mul_le_mul_of_nonneg_left z hd]
  have hyl0 : yl = 0 := by
    have y0 : (halfway p.v3 d φ).y = 0 := by
      unfold halfway
      simp only [hφ, frc, hpy0, mul_zero, zero_div, add_zero]
    rw [n3, y0]; simp
  have hrNx : rN = |xl| := by rw [hrN, hyl0, show xl ^ 2 + (0 : ℝ) ^ 2 = xl ^ 2 by ring, Real.sqrt_sq_eq_abs]
  have hpath : (moveOne env m s d).path ≤ pathMax m R * d := by
    have hR2 : 0 ≤ env.R := (abs_nonneg _).trans hρR
    rw [(out4 (by linarith)).1]
    have z1 : |s.r - rN| ≤ |xl - s.r| := by
      rw [hrNx, abs_sub_comm]
      have := abs_abs_sub_abs_le xl s.r
      rwa [abs_of_nonneg hr] at this
    have z2 : |rN - rP| ≤ |s.r - rN| + |rP - s.r| := by
      have := abs_sub_le rN s.r rP
      rwa [abs_sub_comm rN s.r, abs_sub_comm s.r rP] at this
    have z3 : |s.r - rP| = |rP - s.r| := abs_sub_comm _ _
    have z4 : 0 ≤ kapMax m (R + 1) * d := by positivity
    have z5 : 0 ≤ kapMax m (R + 1) / m * (2 * (R + 1)) * d := by positivity
    unfold pathMax
    rw [add_mul]
    refine max_le (max_le ?_ ?_) ?_ <;> linarith
  refine ⟨by rw [o1]; exact hrN0, o2, hpath, ?_⟩
  have fin : ∀ u' v' : ℝ, u' ^ 2 + v' ^ 2 = 1 → rot u' v' (moveOne env m s d).s.pos = ⟨u * xl - v * yl, v * xl + u * yl, 0⟩ → rot u' v' (moveOne env m s d).s.mom = rot u v pN.v3 →
      NearTurned (moveOne env m s d).s (X (t + d)) (Y (t + d)) (P (t + d)) ε := by
    intro u' v' h1 h2 h3
    have hε0 : 0 ≤ ε := le_trans (abs_nonneg _) (s1'.trans hε1)
    refine ⟨u', v', h1, ?_, ?_⟩
    · rw [h2]
      exact ⟨s1'.trans hε1, s2'.trans hε1, by simp; exact hε0⟩
    · rw [h3]
      exact s3.mono hε2
  generalize hs' : (moveOne env m s d).s = s' at *
  rcases hrN0.lt_or_eq with hpos | hzero
  · obtain ⟨u', v', h1, h2, h3⟩ := frame_change huv hpos hrN 0 pN.x pN.y pN.z
    refine fin u' v' h1 ?_ ?_
    · have : s'.pos = ⟨rN, 0, 0⟩ := by unfold PState.pos; rw [o1]
      rw [this, h2]
      rfl
    · have : s'.mom = ⟨(xl * pN.x + yl * pN.y) / rN, (xl * pN.y - yl * pN.x) / rN, pN.z⟩ := by
        unfold PState.mom
        rw [← o4, ← o5, o3, mul_div_cancel_left₀ _ hpos.ne', mul_div_cancel_left₀ _ hpos.ne']
      rw [this, h3]
      rfl
  · obtain ⟨z1, z2⟩ := o6 hzero.symm
    have hsq : xl ^ 2 + yl ^ 2 = 0 := by
      have := Real.sq_sqrt (by positivity : 0 ≤ xl ^ 2 + yl ^ 2)
      rw [← hrN, ← hzero] at this
      linarith
    have x0 : xl = 0 := (pow_eq_zero_iff two_ne_zero).mp (by linarith only [hsq, sq_nonneg xl, sq_nonneg yl])
    have y0 : yl = 0 := (pow_eq_zero_iff two_ne_zero).mp (by linarith only [hsq, sq_nonneg xl, sq_nonneg yl])
    refine fin u v huv ?_ ?_
    · have : s'.pos = ⟨0, 0, 0⟩ := by unfold PState.pos; rw [o1, ← hzero]
      rw [this, x0, y0]
      simp [rot]
    · have : s'.mom = pN.v3 := by unfold PState.mom Vec.v3; rw [z1, z2, o3, hpy]
      rw [this]

/-! ### Many layers -/

/-- The error bound after the path `t` with `j` crossings grows as required. -/
theorem gronwall2 {A K kk D step e0 t : ℝ} {j j' c : ℝ} (hA : 0 < A) (hK : 0 < K) (hkk : 0 ≤ kk) (hD : 0 ≤ D) (hs : 0 ≤ step) (he : 0 ≤ e0) (ht : 0 ≤ t) (hj : 0 ≤ j) (hc0 : 0 ≤ c) (hc : c ≤ kk * step * (j' - j)) :
    Real.exp (A * t) * (e0 + K * (t * D + kk * step ^ 2 * j)) * (1 + A * step) + step * (K * (D + c)) ≤ Real.exp (A * (t + step)) * (e0 + K * ((t + step) * D + kk * step ^ 2 * j')) := by
  have h1 : Real.exp (A * (t + step)) = Real.exp (A * t) * Real.exp (A * step) := by rw [← Real.exp_add]; congr 1; ring
  have h2 : 1 + A * step ≤ Real.exp (A * step) := by linarith [Real.add_one_le_exp (A * step)]
  have hy : Real.exp (A * t) * (1 + A * step) ≤ Real.exp (A * (t + step)) := by rw [h1]; exact mul_le_mul_of_nonneg_left h2 (Real.exp_pos _).le
  have h3 : 1 ≤ Real.exp (A * (t + step)) := Real.one_le_exp (by positivity)
  generalize Real.exp (A * (t + step)) = y at *
  generalize Real.exp (A * t) = x at *
  have b0 : 0 ≤ e0 + K * (t * D + kk * step ^ 2 * j) := by positivity
  have m1 := mul_le_mul_of_nonneg_right hy b0
  have z0 : 0 ≤ step * (K * (D + c)) := by positivity
  have m2 : step * (K * (D + c)) ≤ y * (step * (K * (D + c))) := le_mul_of_one_le_left z0 h3
  have m3 : step * (K * (D + c)) ≤ K * (step * D + kk * step ^ 2 * (j' - j)) := by
    have := mul_le_mul_of_nonneg_left hc (mul_nonneg hs hK.le)
    linarith [(by ring : step * K * (kk * step * (j' - j)) = K * (kk * step ^ 2 * (j' - j)))]
  have m4 := mul_le_mul_of_nonneg_left m3 (by linarith : 0 ≤ y)
  linarith

theorem crossings_succ (m step : ℝ) (S : ℕ → PState) (k : ℕ) :
    (Crosses m step (S k) → (crossings m step S (k + 1) : ℝ) = crossings m step S k + 1) ∧ (¬ Crosses m step (S k) → (crossings m step S (k + 1) : ℝ) = crossings m step S k) := by
  classical
  unfold crossings
  rw [Finset.range_add_one, Finset.filter_insert]
  constructor <;> intro hx
  · rw [if_pos hx, Finset.card_insert_of_notMem (by simp)]; push_cast; ring
  · rw [if_neg hx]

theorem crossings_mono (m step : ℝ) (S : ℕ → PState) {j k : ℕ} (h : j ≤ k) : crossings m step S j ≤ crossings m step S k := by
  classical
  unfold crossings
  exact Finset.card_le_card (Finset.filter_subset_filter _ (by simpa using h))

/-- C82: plasma particles that do not rotate are moved with second order. For given axisymmetric fields, particle and three times differentiable exact trajectory there are constants `C`, `κ`, `h0` such that on EVERY grid, for every number of layers of
width `step ≤ h0` with `κ step` below the radial cell: when `e0 + del + (1 + number of axis crossings) step²` is small the computed particle is never reflected by the wall nor thrown away, keeps its charge, and is - turned around the axis by a suitable
angle - within `C (e0 + del + (1 + number of axis crossings so far) step²)` of the true position and momentum at every border of the layers. `e0` is the error of its initial state, `del` that of the fields interpolated in the middle of the layers. -/
theorem plasma2d_second_order {q m M L T W R S μ : ℝ} (hm : 0 < m) (hM : 0 ≤ M) (hL : 0 ≤ L) (hT : 0 ≤ T) (hS : 0 ≤ S) (hμ : μ ≤ 1 / 2) (hq : q ≠ 0) {E B : ℝ → ℝ → ℝ → Vec3} (hE : Tame2 M L E) (hB : Tame2 M L B) (aE : AxiSym E) (aB : AxiSym B)
    {X Y : ℝ → ℝ} {P : ℝ → Vec3} (hmo : PlasmaMotion q m E B T X Y P) (hst : Stays T W R X Y P) (hsp : SmoothPath S T X Y P) :
    ∃ C κ h0 : ℝ, 0 < C ∧ 0 < κ ∧ 0 < h0 ∧ ∀ (Rw del step e0 : ℝ) (n : ℕ) (s : ℕ → PState), W + 3 * μ ≤ Rw → 0 ≤ del → del ≤ 1 / 2 → 0 < step → step ≤ h0 → n * step ≤ T → (s 0).q = q →
      NearTurned (s 0) (X 0) (Y 0) (P 0) e0 → C * (e0 + del + (1 + crossings m step s n) * step ^ 2) ≤ μ → κ * step ≤ μ → PlainLayers m κ E B Rw del step n s →
      ∀ k ≤ n, (s k).q = q ∧ 0 ≤ (s k).r ∧ (s k).r ≤ Rw ∧ NearTurned (s k) (X (k * step)) (Y (k * step)) (P (k * step)) (C * (e0 + del + (1 + crossings m step s k) * step ^ 2)) := by
  have hR : 0 ≤ R := le_trans (abs_nonneg _) (hst 0 le_rfl hT).2.1
  have k0 := kapMax_pos (R := R + 1) hm
  obtain ⟨kk, hkk⟩ : ∃ kk, kk = kapMax m (R + 1) := ⟨_, rfl⟩
  have kk0 : 0 < kk := by rw [hkk]; exact k0
  have hF : 0 ≤ forceMax q m (R + 1) (M + 1) := by unfold forceMax; positivity
  have g0 : 0 ≤ velLip m (R + 1) := by unfold velLip; positivity
  have f0 : 0 ≤ forceLip q m (R + 1) M := by unfold forceLip; positivity
  have a0 : 0 ≤ fieldLip q m (R + 1) := by unfold fieldLip; positivity
  obtain ⟨A, K, hA, hK, grow⟩ := growth2 g0 f0 hL a0 (by positivity : 0 ≤ kapMax m (R + 1) / m) hS
  obtain ⟨x, hx⟩ : ∃ x, x = Real.exp (A * T) := ⟨_, rfl⟩
  have hx1 : 1 ≤ x := by rw [hx]; exact Real.one_le_exp (by positivity)
  obtain ⟨G, hG⟩ : ∃ G, G = x * (1 + K * (T + kk)) := ⟨_, rfl⟩
  have hG0 : 0 < G := by rw [hG]; positivity
  refine ⟨G, pathMax m R + kk + 1, 1 / (1 + forceMax q m (R + 1) (M + 1)), hG0, by unfold pathMax; positivity, by positivity, ?_⟩
  intro Rw del step e0 n s hRw hdel hdel1 hs0 hsh hnT hq0 hcl hsmall hκ hrun
  obtain ⟨hr0, hf0, hsteps⟩ := hrun
  have he0 : 0 ≤ e0 := by obtain ⟨u, v, -, h, -⟩ := hcl; exact h.nonneg
  have hdF : step * (1 + forceMax q m (R + 1) (M + 1)) ≤ 1 := by
    have := mul_le_mul_of_nonneg_right hsh (by positivity : 0 ≤ 1 + forceMax q m (R + 1) (M + 1))
    rwa [one_div, inv_mul_cancel₀ (by positivity)] at this
  have hsF : 0 ≤ step * forceMax q m (R + 1) (M + 1) := by positivity
  have hs1 : step ≤ 1 := by linarith
  have hPM : 0 ≤ pathMax m R * step := by unfold pathMax; positivity
  have hkks : kk * step ≤ μ := by linarith
  have hμ0 : 0 ≤ μ := le_trans (by positivity) hkks
  have cpos : ∀ k, (0 : ℝ) ≤ crossings m step s k := fun k => Nat.cast_nonneg _
  have cmono : ∀ j k, j ≤ k → (crossings m step s j : ℝ) ≤ crossings m step s k := by
    intro j k hjk
    exact_mod_cast crossings_mono m step s hjk
  have tT : ∀ k ≤ n, (k : ℝ) * step ≤ T := by
    intro k hk
    refine le_trans ?_ hnT
    have : (k : ℝ) ≤ n := by exact_mod_cast hk
    exact mul_le_mul_of_nonneg_right this hs0.le
  obtain ⟨D, hD⟩ : ∃ D, D = del + step ^ 2 := ⟨_, rfl⟩
  have D0 : 0 ≤ D := by rw [hD]; positivity
  have bound : ∀ k ≤ n, Real.exp (A * (k * step)) * (e0 + K * (k * step * D + kk * step ^ 2 * crossings m step s k)) ≤ G * (e0 + del + (1 + crossings m step s k) * step ^ 2) := by
    intro k hk
    have h1 : Real.exp (A * (k * step)) ≤ x := by rw [hx]; exact Real.exp_le_exp.mpr (mul_le_mul_of_nonneg_left (tT k hk) hA.le)
    have hc := cpos k
    generalize (crossings m step s k : ℝ) = j at *
    have h2 : (k : ℝ) * step * D ≤ T * D := mul_le_mul_of_nonneg_right (tT k hk) D0
    have h3 : e0 + K * (k * step * D + kk * step ^ 2 * j) ≤ (1 + K * (T + kk)) * (e0 + del + (1 + j) * step ^ 2) := by
      have m1 := mul_le_mul_of_nonneg_left h2 hK.le
      have z1 : 0 ≤ K * (T + kk) * e0 + del + (1 + j) * step ^ 2 + K * kk * del + K * T * j * step ^ 2 + K * kk * step ^ 2 := by positivity
      have e1 : K * (T * D) = K * T * del + K * T * step ^ 2 := by rw [hD]; ring
      linarith
    have h4 : 0 ≤ e0 + K * (k * step * D + kk * step ^ 2 * j) := by positivity
    have := mul_le_mul h1 h3 h4 (by linarith)
    rw [hG]
    linarith
  have last : ∀ k ≤ n, G * (e0 + del + (1 + crossings m step s k) * step ^ 2) ≤ μ := by
    intro k hk
    refine le_trans (mul_le_mul_of_nonneg_left ?_ hG0.le) hsmall
    have := mul_le_mul_of_nonneg_right (cmono k n hk) (sq_nonneg step)
    linarith
  have main : ∀ k ≤ n, (s k).q = q ∧ 0 ≤ (s k).r ∧ (s k).pf = 0 ∧ NearTurned (s k) (X (k * step)) (Y (k * step)) (P (k * step)) (Real.exp (A * (k * step)) * (e0 + K * (k * step * D + kk * step ^ 2 * crossings m step s k))) := by
    intro k
    induction k with
    | zero =>
      intro _
      refine ⟨hq0, hr0, hf0, ?_⟩
      have : crossings m step s 0 = 0 := by unfold crossings; simp
      rw [this]
      simpa using hcl
    | succ k ih =>
      intro hkn
      obtain ⟨iq, ir, ip, ic⟩ := ih (Nat.le_of_succ_le hkn)
      obtain ⟨env, N, age, hN, hn, hthin, hRN, hRwe, hflat, hs, near⟩ := hsteps k hkn
      have hb := (bound k (by omega)).trans (last k (by omega))
      have hb' := (bound (k + 1) hkn).trans (last (k + 1) hkn)
      obtain ⟨c, hc0, hcr, hcle⟩ : ∃ c, 0 ≤ c ∧ (Crosses m step (s k) → kapMax m (R + 1) * step ≤ c) ∧ c ≤ kk * step * (crossings m step s (k + 1) - crossings m step s k) := by
        obtain ⟨c1, c2⟩ := crossings_succ m step s k
        rcases Classical.em (Crosses m step (s k)) with hx | hx
        · exact ⟨kk * step, by positivity, fun _ => by rw [hkk], by rw [c1 hx]; apply le_of_eq; ring⟩
        · exact ⟨0, le_rfl, fun h => absurd h hx, by rw [c2 hx]; apply le_of_eq; ring⟩
      have hgr := gronwall2 (t := k * step) (e0 := e0) (D := D) hA hK kk0.le D0 hs0.le he0 (by positivity) (cpos k) hc0 hcle
      have et : (k : ℝ) * step + step = ((k + 1 : ℕ) : ℝ) * step := by push_cast; ring
      rw [et] at hgr
      generalize Real.exp (A * (((k + 1 : ℕ) : ℝ) * step)) * (e0 + K * (((k + 1 : ℕ) : ℝ) * step * D + kk * step ^ 2 * crossings m step s (k + 1))) = err' at *
      generalize Real.exp (A * ((k : ℝ) * step)) * (e0 + K * ((k : ℝ) * step * D + kk * step ^ 2 * crossings m step s k)) = e at *
      have hepos : 0 ≤ e := by obtain ⟨u, v, -, h, -⟩ := ic; exact h.nonneg
      obtain ⟨g1, g2⟩ := grow step e del c hs0.le hs1 hepos hdel hc0 _ _ _ _ _ rfl rfl rfl rfl rfl
      rw [hD] at hgr
      have hh : 0 < env.h := lt_of_le_of_lt (by unfold pathMax; positivity) hthin
      have hR0 : 0 ≤ env.R := by
        have := (Real.sqrt_nonneg _).trans (hst 0 le_rfl hT).1
        linarith
      have w1 : W + 2 * e + kapMax m (R + 1) * step / 2 ≤ env.R := by rw [← hkk]; linarith [mul_nonneg kk0.le hs0.le]
      obtain ⟨b1, b2, b3, b4⟩ := push_step2 (ε := err') (c := c) hm hmo hE hB aE aB hst hsp env N hN hn hh hRN (by positivity) hs0.le (by rw [et]; exact tT _ hkn) (hb.trans hμ) hdel1 (by linarith) ir iq ip hflat ic near hc0 hcr rfl rfl rfl rfl rfl
        (by refine le_trans ?_ hgr; unfold err2V err2F err2P; exact g2) (by refine le_trans ?_ hgr; unfold err2F err2P; exact g1) w1 (by linarith)
      have single := (single_push (moveOne env m) env.h step hs0 (s k) age (by rw [iq]; exact hq) (lt_of_le_of_lt (by linarith [mul_pos kk0 hs0]) hthin)).1
      rw [single] at hs
      rw [hs]
      rw [et] at b4
      exact ⟨b2, b1, push_unturned env N hN hn hh hRN hR0 m hm (s k) step ip hflat, b4⟩
  intro k hkn
  obtain ⟨a1, a2, -, u, v, a3, a4, a5⟩ := main k hkn
  have hC := bound k hkn
  have a4' := a4.mono hC
  refine ⟨a1, a2, ?_, u, v, a3, a4', a5.mono hC⟩
  have rp : rot u v (s k).pos = ⟨u * (s k).r, v * (s k).r, 0⟩ := rot_pos u v (s k).r
  rw [rp] at a4'
  have h1 := sqrt_near a4'.1 a4'.2.1
  have e1 : Real.sqrt ((u * (s k).r) ^ 2 + (v * (s k).r) ^ 2) = (s k).r := by
    rw [show (u * (s k).r) ^ 2 + (v * (s k).r) ^ 2 = (s k).r ^ 2 by linear_combination (s k).r ^ 2 * a3, Real.sqrt_sq a2]
  simp only at h1
  rw [e1] at h1
  have hW := (hst (k * step) (by positivity) (tT k hkn)).1
  linarith [last k hkn]

end Lcode.Plasma2D
