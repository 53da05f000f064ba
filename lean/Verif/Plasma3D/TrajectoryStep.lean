import Verif.Plasma3D.Trajectory

/-!
Property C78, second part: one layer, and the whole trajectory.
-/

namespace Lcode.Plasma3D

open Lcode.Beam3D (Within gronwall_step)
open Lcode.Num (DerivOn BoundedOn)

/-! ### Specification: one layer for one particle -/

/-- What the solver does with one particle in one layer (solver.py:29-66): a first estimate without fields and three passes with the arrays `F0` (fields of the layer before), `F1` and `F2` (first and second estimate of the half-step fields). -/
noncomputable def layerOf (c : MCfg) (F0 F1 F2 : Fields3) (r : Ptl) : Ptl := moveOne c F2 r (moveOne c F1 r (moveOne c F0 r (moveFree c.dxi r)))

/-! ### Scalars -/

theorem half_step {a k f0 f1 g h b η τ : ℝ} (hh : 0 ≤ h) (ha : |a - f0| ≤ b) (hk : |k - g| ≤ η) (ht : |f1 - f0 - h / 2 * g| ≤ τ) : |a + h * k / 2 - f1| ≤ b + h / 2 * η + τ := by
  have e : a + h * k / 2 - f1 = (a - f0) + h / 2 * (k - g) - (f1 - f0 - h / 2 * g) := by ring
  rw [e]
  refine (abs_sub _ _).trans ?_
  have h1 := abs_add_le (a - f0) (h / 2 * (k - g))
  rw [abs_mul, abs_of_nonneg (by linarith : 0 ≤ h / 2)] at h1
  have h2 := mul_le_mul_of_nonneg_left hk (by linarith : 0 ≤ h / 2)
  linarith

theorem full_step {a k f0 f1 g h b η τ : ℝ} (hh : 0 ≤ h) (ha : |a - f0| ≤ b) (hk : |k - g| ≤ η) (ht : |f1 - f0 - h * g| ≤ τ) : |a + h * k - f1| ≤ b + h * η + τ := by
  have e : a + h * k - f1 = (a - f0) + h * (k - g) - (f1 - f0 - h * g) := by ring
  rw [e]
  refine (abs_sub _ _).trans ?_
  have h1 := abs_add_le (a - f0) (h * (k - g))
  rw [abs_mul, abs_of_nonneg hh] at h1
  have h2 := mul_le_mul_of_nonneg_left hk hh
  linarith

theorem mean_step {a b f0 f1 fm e ε τ : ℝ} (ha : |a - f0| ≤ e) (hb : |b - f1| ≤ ε) (ht : |(f0 + f1) / 2 - fm| ≤ τ) : |(a + b) / 2 - fm| ≤ (e + ε) / 2 + τ := by
  rw [abs_le] at *
  constructor <;> linarith [ha.1, ha.2, hb.1, hb.2, ht.1, ht.2]

theorem inside_of {x X W μ b e : ℝ} (hX : |X| ≤ W) (h : |x - X| ≤ e) (he : e ≤ μ) (hb : W + μ < b) : |x| < b := by
  rw [abs_le] at hX h
  rw [abs_lt]
  constructor <;> linarith [hX.1, hX.2, h.1, h.2]

theorem upto_near {p P : Vec3} {R e : ℝ} (hP : Upto P R) (h : Within p P e) : Upto p (R + e) := by
  have one : ∀ a b : ℝ, |b| ≤ R → |a - b| ≤ e → |a| ≤ R + e := by
    intro a b h1 h2
    have := abs_sub_abs_le_abs_sub a b
    linarith
  exact ⟨one _ _ hP.1 h.1, one _ _ hP.2.1 h.2.1, one _ _ hP.2.2 h.2.2⟩

theorem Upto.mono {p : Vec3} {R R' : ℝ} (h : Upto p R) (hR : R ≤ R') : Upto p R' := ⟨h.1.trans hR, h.2.1.trans hR, h.2.2.trans hR⟩

/-- `p + h f / 2` -/
noncomputable def halfway (p : Vec3) (h : ℝ) (f : Vec3) : Vec3 := ⟨p.x + h * f.x / 2, p.y + h * f.y / 2, p.z + h * f.z / 2⟩

theorem halfway_near (p f : Vec3) {h F : ℝ} (hh : 0 ≤ h) (hf : Upto f F) : Within (halfway p h f) p (h * F / 2) := by
  have one : ∀ a b : ℝ, |b| ≤ F → |a + h * b / 2 - a| ≤ h * F / 2 := by
    intro a b hb
    have e : a + h * b / 2 - a = h / 2 * b := by ring
    rw [e, abs_mul, abs_of_nonneg (by linarith : 0 ≤ h / 2)]
    have := mul_le_mul_of_nonneg_left hb (by linarith : 0 ≤ h / 2)
    linarith
  exact ⟨one _ _ hf.1, one _ _ hf.2.1, one _ _ hf.2.2⟩

/-! ### One pass -/

/-- A pass whose result stays inside, in the terms of this file. -/
theorem pass_inside (c : MCfg) (F : Fields3) (prev full : Ptl) (h0 : prev.x0 = full.x0 ∧ prev.y0 = full.y0) (hq : full.q ≠ 0) (hp : StrictlyInside c.boundary prev) (hf : StrictlyInside c.boundary full)
    {E B φ mid : Vec3} (hE : E = fieldE c F ((prev.X + full.X) / 2) ((prev.Y + full.Y) / 2)) (hB : B = fieldB c F ((prev.X + full.X) / 2) ((prev.Y + full.Y) / 2))
    (hφ : φ = lorentz3 full.q full.m 1 E B (halfway prev.mom c.dxi (lorentz3 full.q full.m 1 E B prev.mom))) (hmid : mid = halfway prev.mom c.dxi φ)
    (hx : |prev.X + c.dxi * (mid.x / (mid.energy full.m - mid.z))| < c.boundary) (hy : |prev.Y + c.dxi * (mid.y / (mid.energy full.m - mid.z))| < c.boundary) :
    (moveOne c F prev full).q = full.q ∧ (moveOne c F prev full).m = full.m ∧ (moveOne c F prev full).x0 = full.x0 ∧ (moveOne c F prev full).y0 = full.y0 ∧
    (moveOne c F prev full).X = prev.X + c.dxi * (mid.x / (mid.energy full.m - mid.z)) ∧ (moveOne c F prev full).Y = prev.Y + c.dxi * (mid.y / (mid.energy full.m - mid.z)) ∧
    (moveOne c F prev full).px = prev.px + c.dxi * φ.x ∧ (moveOne c F prev full).py = prev.py + c.dxi * φ.y ∧ (moveOne c F prev full).pz = prev.pz + c.dxi * φ.z := by
  obtain ⟨-, b1, b2, b3⟩ := moveOne_boundary c F prev full h0
  have ha : addHalf prev.mom (lorentz3 full.q full.m c.dxi E B prev.mom) = halfway prev.mom c.dxi (lorentz3 full.q full.m 1 E B prev.mom) := by
    rw [lorentz3_scale]; rfl
  have hd : lorentz3 full.q full.m c.dxi E B (addHalf prev.mom (lorentz3 full.q full.m c.dxi E B prev.mom)) = ⟨c.dxi * φ.x, c.dxi * φ.y, c.dxi * φ.z⟩ := by
    rw [ha, lorentz3_scale, ← hφ]
  have hm : mid = ⟨prev.mom.x + c.dxi * φ.x / 2, prev.mom.y + c.dxi * φ.y / 2, prev.mom.z + c.dxi * φ.z / 2⟩ := hmid
  obtain ⟨-, h2⟩ := moveOne_spec c F prev full h0 hq hp hf E B prev.mom ⟨c.dxi * φ.x, c.dxi * φ.y, c.dxi * φ.z⟩ mid hE hB rfl hd.symm hm _ _ rfl rfl
  have ex : prev.X + mid.x / (mid.energy full.m - mid.z) * c.dxi = prev.X + c.dxi * (mid.x / (mid.energy full.m - mid.z)) := by ring
  have ey : prev.Y + mid.y / (mid.energy full.m - mid.z) * c.dxi = prev.Y + c.dxi * (mid.y / (mid.energy full.m - mid.z)) := by ring
  rw [ex, ey, mirror_id _ _ hx.le, mirror_id _ _ hy.le] at h2
  obtain ⟨k1, k2, k3, k4, -⟩ := h2 ⟨hx, hy⟩
  obtain ⟨k5, k6, k7⟩ := k4 ⟨hx.le, hy.le⟩
  exact ⟨k1, b3, b1, b2, k2, k3, k5, k6, k7⟩

/-- The situation at the beginning of a layer. -/
structure Setting (c : MCfg) (q m M L T W R S μ : ℝ) (E B : ℝ → ℝ → ℝ → Vec3) (X Y : ℝ → ℝ) (P : ℝ → Vec3) (t e : ℝ) (r : Ptl) : Prop where
  hm : 0 < m
  hq : q ≠ 0
  motion : PlasmaMotion q m E B T X Y P
  path : Path T W R S X Y P
  tameE : Tame2 M L E
  tameB : Tame2 M L B
  ht : 0 ≤ t
  hh : 0 ≤ c.dxi
  hT : t + c.dxi ≤ T
  hμ : μ ≤ 1 / 2
  wide : W + μ < c.boundary
  he : e ≤ μ
  close : Close r (X t) (Y t) (P t) e
  charge : r.q = q
  mass : r.m = m
  small : c.dxi * forceMax q m (R + 1) (M + 1) ≤ 1

/-- An estimate of the particle at the end of the layer. -/
def Estimate (r full : Ptl) (x y ε : ℝ) : Prop := full.q = r.q ∧ full.m = r.m ∧ full.x0 = r.x0 ∧ full.y0 = r.y0 ∧ |full.X - x| ≤ ε ∧ |full.Y - y| ≤ ε

/-- The error of the position after a step with a momentum within `F dxi / 2` of the old one. -/
noncomputable def roughErr (q m M R S h e : ℝ) : ℝ := e + h * (velLip m (R + 1) * (e + h * forceMax q m (R + 1) (M + 1) / 2)) + S * h ^ 2 / 2

section
variable {c : MCfg} {q m M L T W R S μ : ℝ} {E B : ℝ → ℝ → ℝ → Vec3} {X Y : ℝ → ℝ} {P : ℝ → Vec3} {t e : ℝ} {r : Ptl}

theorem Setting.inside (s : Setting c q m M L T W R S μ E B X Y P t e r) : StrictlyInside c.boundary r := by
  obtain ⟨h1, h2, -⟩ := s.path.inside t s.ht (by linarith [s.hT, s.hh])
  exact ⟨inside_of h1 s.close.1 s.he s.wide, inside_of h2 s.close.2.1 s.he s.wide⟩

theorem Setting.e0 (s : Setting c q m M L T W R S μ E B X Y P t e r) : 0 ≤ e := le_trans (abs_nonneg _) s.close.1

theorem Setting.mom (s : Setting c q m M L T W R S μ E B X Y P t e r) : Upto r.mom (R + 1) ∧ Upto r.mom (R + 1 / 2) := by
  obtain ⟨-, -, h3⟩ := s.path.inside t s.ht (by linarith [s.hT, s.hh])
  have := upto_near h3 s.close.2.2
  have h1 := s.he
  have h2 := s.hμ
  exact ⟨this.mono (by linarith), this.mono (by linarith)⟩

/-- The momenta at which the kernel takes forces and velocities are not large. -/
theorem Setting.mid (s : Setting c q m M L T W R S μ E B X Y P t e r) (e1 b1 : Vec3) (he1 : Upto e1 (M + 1)) (hb1 : Upto b1 (M + 1)) (p : Vec3) (hp : Upto p (R + 1)) :
    Upto (halfway r.mom c.dxi (lorentz3 q m 1 e1 b1 p)) (R + 1) ∧ Within (halfway r.mom c.dxi (lorentz3 q m 1 e1 b1 p)) r.mom (c.dxi * forceMax q m (R + 1) (M + 1) / 2) := by
  have hf := force_upto (q := q) s.hm e1 b1 p hp he1 hb1
  have hn := halfway_near r.mom _ s.hh hf
  refine ⟨(upto_near s.mom.2 hn).mono ?_, hn⟩
  have := s.small
  linarith

/-- Position after a step with a momentum close to the old one. -/
theorem Setting.rough (s : Setting c q m M L T W R S μ E B X Y P t e r) (p : Vec3) (hp : Upto p (R + 1)) (hn : Within p r.mom (c.dxi * forceMax q m (R + 1) (M + 1) / 2)) :
    |r.X + c.dxi * (p.x / (p.energy m - p.z)) - X (t + c.dxi)| ≤ roughErr q m M R S c.dxi e ∧ |r.Y + c.dxi * (p.y / (p.energy m - p.z)) - Y (t + c.dxi)| ≤ roughErr q m M R S c.dxi e := by
  obtain ⟨-, -, h3⟩ := s.path.inside t s.ht (by linarith [s.hT, s.hh])
  have hR : Upto (P t) (R + 1) := h3.mono (by linarith)
  have hw := (hn.trans s.close.2.2)
  obtain ⟨l1, l2⟩ := slope_lip s.hm p (P t) hp hR _ hw
  obtain ⟨sx, sy, -⟩ := s.path.smooth
  obtain ⟨-, -, tx, -⟩ := smooth_taylor sx s.motion.dx s.ht s.hh s.hT
  obtain ⟨-, -, ty, -⟩ := smooth_taylor sy s.motion.dy s.ht s.hh s.hT
  unfold roughErr
  refine ⟨(full_step s.hh s.close.1 l1 tx).trans (le_of_eq ?_), (full_step s.hh s.close.2.1 l2 ty).trans (le_of_eq ?_)⟩ <;> ring

theorem Setting.free (s : Setting c q m M L T W R S μ E B X Y P t e r) (hM : 0 ≤ M) : Estimate r (moveFree c.dxi r) (X (t + c.dxi)) (Y (t + c.dxi)) (roughErr q m M R S c.dxi e) := by
  have hF : 0 ≤ forceMax q m (R + 1) (M + 1) := by
    have := kapMax_pos (R := R + 1) s.hm
    unfold forceMax; positivity
  have h0 : Within r.mom r.mom (c.dxi * forceMax q m (R + 1) (M + 1) / 2) := (Beam3D.Within.rfl' _).mono (by have := s.hh; positivity)
  obtain ⟨h1, h2⟩ := s.rough r.mom s.mom.1 h0
  have hm : r.m ≠ 0 := by rw [s.mass]; exact s.hm.ne'
  have hen : Real.sqrt (r.m ^ 2 + r.pz ^ 2 + r.px ^ 2 + r.py ^ 2) = r.mom.energy m := by
    rw [sqrt_comm, s.mass]; rfl
  unfold moveFree
  rw [if_neg hm]
  refine ⟨rfl, rfl, rfl, rfl, ?_, ?_⟩
  · refine le_trans (le_of_eq ?_) h1
    simp only [Ptl.X]
    rw [hen]
    congr 1
    show r.x0 + (r.x + r.px / (r.mom.energy m - r.pz) * c.dxi) - _ = r.x0 + r.x + c.dxi * (r.px / (r.mom.energy m - r.pz)) - _
    ring
  · refine le_trans (le_of_eq ?_) h2
    simp only [Ptl.Y]
    rw [hen]
    congr 1
    show r.y0 + (r.y + r.py / (r.mom.energy m - r.pz) * c.dxi) - _ = r.y0 + r.y + c.dxi * (r.py / (r.mom.energy m - r.pz)) - _
    ring

theorem Setting.estInside (s : Setting c q m M L T W R S μ E B X Y P t e r) {full : Ptl} {ε : ℝ} (hf : Estimate r full (X (t + c.dxi)) (Y (t + c.dxi)) ε) (hε : ε ≤ μ) : StrictlyInside c.boundary full := by
  obtain ⟨h1, h2, -⟩ := s.path.inside (t + c.dxi) (by linarith [s.ht, s.hh]) s.hT
  exact ⟨inside_of h1 hf.2.2.2.2.1 hε s.wide, inside_of h2 hf.2.2.2.2.2 hε s.wide⟩

/-- The point where the fields are taken is inside. -/
theorem mid_inside {b : ℝ} {p f : Ptl} (hp : StrictlyInside b p) (hf : StrictlyInside b f) : |(p.X + f.X) / 2| < b ∧ |(p.Y + f.Y) / 2| < b := by
  obtain ⟨h1, h2⟩ := hp
  obtain ⟨h3, h4⟩ := hf
  rw [abs_lt] at h1 h2 h3 h4
  constructor <;> rw [abs_lt] <;> constructor <;> linarith [h1.1, h1.2, h2.1, h2.2, h3.1, h3.2, h4.1, h4.2]

/-- A trial pass in any bounded fields gives an estimate that is at least as good as a step with the old momentum. -/
theorem Setting.trial (s : Setting c q m M L T W R S μ E B X Y P t e r) (hε : roughErr q m M R S c.dxi e ≤ μ) (F : Fields3) (hF : FieldsUpto c F (M + 1)) (full : Ptl)
    (hf : Estimate r full (X (t + c.dxi)) (Y (t + c.dxi)) (roughErr q m M R S c.dxi e)) :
    Estimate r (moveOne c F r full) (X (t + c.dxi)) (Y (t + c.dxi)) (roughErr q m M R S c.dxi e) := by
  have hin := s.inside
  have hfi := s.estInside hf hε
  obtain ⟨m1, m2⟩ := mid_inside hin hfi
  obtain ⟨uE, uB⟩ := hF _ _ m1 m2
  obtain ⟨f1, f2, f3, f4, -, -⟩ := hf
  have hp1 := s.mid _ _ uE uB r.mom s.mom.1
  have hp2 := s.mid _ _ uE uB _ hp1.1
  obtain ⟨g1, g2⟩ := s.rough _ hp2.1 hp2.2
  obtain ⟨h1, h2, -⟩ := s.path.inside (t + c.dxi) (by linarith [s.ht, s.hh]) s.hT
  have hq : full.q = q := f1.trans s.charge
  have hm : full.m = m := f2.trans s.mass
  obtain ⟨k1, k2, k3, k4, k5, k6, -⟩ := pass_inside c F r full ⟨f3.symm, f4.symm⟩ (by rw [hq]; exact s.hq) hin hfi rfl rfl rfl rfl
    (by rw [hq, hm]; exact inside_of h1 g1 hε s.wide) (by rw [hq, hm]; exact inside_of h2 g2 hε s.wide)
  refine ⟨k1.trans f1, k2.trans f2, k3.trans f3, k4.trans f4, ?_, ?_⟩
  · rw [k5, hq, hm]; exact g1
  · rw [k6, hq, hm]; exact g2

/-! ### The last pass -/

/-- Errors within a layer: of the point where the fields are taken, of the first and second half-step momenta and of the force. -/
noncomputable def errX (S h e ε : ℝ) : ℝ := (e + ε) / 2 + S * h ^ 2 / 8
noncomputable def errF (q m M L R del x b : ℝ) : ℝ := fieldLip q m (R + 1) * (del + L * x) + forceLip q m (R + 1) M * b
noncomputable def errP (S h e η : ℝ) : ℝ := e + h / 2 * η + S * h ^ 2 / 8

/-- The last pass: errors of position and momentum at the end of the layer. -/
theorem Setting.last (s : Setting c q m M L T W R S μ E B X Y P t e r) (hε : roughErr q m M R S c.dxi e ≤ μ) {del : ℝ} (hdel : del ≤ 1) (F : Fields3)
    (hF : FieldsNear c F (E (t + c.dxi / 2)) (B (t + c.dxi / 2)) del) (full : Ptl) (hf : Estimate r full (X (t + c.dxi)) (Y (t + c.dxi)) (roughErr q m M R S c.dxi e))
    {x0 η0 b1 η1 b2 : ℝ} (hx0 : x0 = errX S c.dxi e (roughErr q m M R S c.dxi e)) (hη0 : η0 = errF q m M L R del x0 (e + S * c.dxi / 2)) (hb1 : b1 = errP S c.dxi e η0)
    (hη1 : η1 = errF q m M L R del x0 b1) (hb2 : b2 = errP S c.dxi e η1) :
    (moveOne c F r full).q = r.q ∧ (moveOne c F r full).m = r.m ∧ (moveOne c F r full).x0 = r.x0 ∧ (moveOne c F r full).y0 = r.y0 ∧
    |(moveOne c F r full).X - X (t + c.dxi)| ≤ e + c.dxi * (velLip m (R + 1) * b2) + S * c.dxi ^ 3 / 24 ∧ |(moveOne c F r full).Y - Y (t + c.dxi)| ≤ e + c.dxi * (velLip m (R + 1) * b2) + S * c.dxi ^ 3 / 24 ∧
    Within (moveOne c F r full).mom (P (t + c.dxi)) (e + c.dxi * η1 + S * c.dxi ^ 3 / 24) := by
  have hin := s.inside
  have hfi := s.estInside hf hε
  obtain ⟨m1, m2⟩ := mid_inside hin hfi
  obtain ⟨nE, nB⟩ := hF _ _ m1 m2
  obtain ⟨f1, f2, f3, f4, f5, f6⟩ := hf
  have ht2 : 0 ≤ t + c.dxi / 2 := by linarith [s.ht, s.hh]
  have hT2 : t + c.dxi / 2 ≤ T := by linarith [s.hT, s.hh]
  have uE := (upto_near (s.tameE.bounded _ _ _) nE).mono (by linarith : M + del ≤ M + 1)
  have uB := (upto_near (s.tameB.bounded _ _ _) nB).mono (by linarith : M + del ≤ M + 1)
  have hp1 := s.mid _ _ uE uB r.mom s.mom.1
  have hp2 := s.mid _ _ uE uB _ hp1.1
  obtain ⟨g1, g2⟩ := s.rough _ hp2.1 hp2.2
  obtain ⟨h1, h2, -⟩ := s.path.inside (t + c.dxi) (by linarith [s.ht, s.hh]) s.hT
  obtain ⟨-, -, h5⟩ := s.path.inside (t + c.dxi / 2) ht2 hT2
  have hPm : Upto (P (t + c.dxi / 2)) (R + 1) := h5.mono (by linarith)
  obtain ⟨sx, sy, spx, spy, spz⟩ := s.path.smooth
  obtain ⟨-, x2, -, x4, -⟩ := smooth_taylor sx s.motion.dx s.ht s.hh s.hT
  obtain ⟨-, y2, -, y4, -⟩ := smooth_taylor sy s.motion.dy s.ht s.hh s.hT
  obtain ⟨a1, a2, -, -, a5⟩ := smooth_taylor spx s.motion.dpx s.ht s.hh s.hT
  obtain ⟨c1, c2, -, -, c5⟩ := smooth_taylor spy s.motion.dpy s.ht s.hh s.hT
  obtain ⟨d1, d2, -, -, d5⟩ := smooth_taylor spz s.motion.dpz s.ht s.hh s.hT
  -- where the fields are taken
  have q1 : |(r.X + full.X) / 2 - X (t + c.dxi / 2)| ≤ x0 := by rw [hx0]; exact mean_step s.close.1 f5 x4
  have q2 : |(r.Y + full.Y) / 2 - Y (t + c.dxi / 2)| ≤ x0 := by rw [hx0]; exact mean_step s.close.2.1 f6 y4
  have wE := nE.trans (s.tameE.lipschitz (t + c.dxi / 2) _ _ _ _ _ q1 q2)
  have wB := nB.trans (s.tameB.lipschitz (t + c.dxi / 2) _ _ _ _ _ q1 q2)
  -- the force at the old momentum
  have old : Within r.mom (P (t + c.dxi / 2)) (e + S * c.dxi / 2) := by
    refine s.close.2.2.trans ⟨?_, ?_, ?_⟩ <;> rw [abs_sub_comm]
    exacts [a5, c5, d5]
  have F0 := force_lip3 (q := q) s.hm _ _ _ _ _ _ _ _ wE wB old s.mom.1 hPm (s.tameE.bounded _ _ _) (s.tameB.bounded _ _ _)
  change Within _ _ (errF q m M L R del x0 (e + S * c.dxi / 2)) at F0
  rw [← hη0] at F0
  have P1 : Within (halfway r.mom c.dxi (lorentz3 q m 1 (fieldE c F ((r.X + full.X) / 2) ((r.Y + full.Y) / 2)) (fieldB c F ((r.X + full.X) / 2) ((r.Y + full.Y) / 2)) r.mom)) (P (t + c.dxi / 2)) b1 := by
    rw [hb1]
    exact ⟨half_step s.hh s.close.2.2.1 F0.1 a1, half_step s.hh s.close.2.2.2.1 F0.2.1 c1, half_step s.hh s.close.2.2.2.2 F0.2.2 d1⟩
  have F1 := force_lip3 (q := q) s.hm _ _ _ _ _ _ _ _ wE wB P1 hp1.1 hPm (s.tameE.bounded _ _ _) (s.tameB.bounded _ _ _)
  change Within _ _ (errF q m M L R del x0 b1) at F1
  rw [← hη1] at F1
  have P2 : Within (halfway r.mom c.dxi (lorentz3 q m 1 (fieldE c F ((r.X + full.X) / 2) ((r.Y + full.Y) / 2)) (fieldB c F ((r.X + full.X) / 2) ((r.Y + full.Y) / 2))
      (halfway r.mom c.dxi (lorentz3 q m 1 (fieldE c F ((r.X + full.X) / 2) ((r.Y + full.Y) / 2)) (fieldB c F ((r.X + full.X) / 2) ((r.Y + full.Y) / 2)) r.mom)))) (P (t + c.dxi / 2)) b2 := by
    rw [hb2]
    exact ⟨half_step s.hh s.close.2.2.1 F1.1 a1, half_step s.hh s.close.2.2.2.1 F1.2.1 c1, half_step s.hh s.close.2.2.2.2 F1.2.2 d1⟩
  obtain ⟨V1, V2⟩ := slope_lip s.hm _ _ hp2.1 hPm _ P2
  have hq : full.q = q := f1.trans s.charge
  have hm : full.m = m := f2.trans s.mass
  obtain ⟨k1, k2, k3, k4, k5, k6, k7, k8, k9⟩ := pass_inside c F r full ⟨f3.symm, f4.symm⟩ (by rw [hq]; exact s.hq) hin hfi rfl rfl rfl rfl
    (by rw [hq, hm]; exact inside_of h1 g1 hε s.wide) (by rw [hq, hm]; exact inside_of h2 g2 hε s.wide)
  refine ⟨k1.trans f1, k2.trans f2, k3.trans f3, k4.trans f4, ?_, ?_, ?_, ?_, ?_⟩
  · rw [k5, hq, hm]; exact full_step s.hh s.close.1 V1 x2
  · rw [k6, hq, hm]; exact full_step s.hh s.close.2.1 V2 y2
  · show |(moveOne c F r full).px - _| ≤ _
    rw [k7, hq, hm]; exact full_step s.hh s.close.2.2.1 F1.1 a2
  · show |(moveOne c F r full).py - _| ≤ _
    rw [k8, hq, hm]; exact full_step s.hh s.close.2.2.2.1 F1.2.1 c2
  · show |(moveOne c F r full).pz - _| ≤ _
    rw [k9, hq, hm]; exact full_step s.hh s.close.2.2.2.2 F1.2.2 d2

end

/-! ### Constants -/

/-- The error at the end of a layer is at most `(1 + A h) e + h K (del + h²)`. -/
theorem layer_growth {g f l a M' S : ℝ} (hg : 0 ≤ g) (hf : 0 ≤ f) (hl : 0 ≤ l) (ha : 0 ≤ a) (hM' : 0 ≤ M') (hS : 0 ≤ S) :
    ∃ A K : ℝ, 0 < A ∧ 0 < K ∧ ∀ h e del : ℝ, 0 ≤ h → h ≤ 1 → 0 ≤ e → 0 ≤ del →
      ∀ ε x η b η1 b2 : ℝ, ε = e + h * (g * (e + h * M' / 2)) + S * h ^ 2 / 2 → x = (e + ε) / 2 + S * h ^ 2 / 8 → η = a * (del + l * x) + f * (e + S * h / 2) → b = e + h / 2 * η + S * h ^ 2 / 8 →
        η1 = a * (del + l * x) + f * b → b2 = e + h / 2 * η1 + S * h ^ 2 / 8 →
        ε ≤ A * e + K * (del + h ^ 2) ∧ e + h * η1 + S * h ^ 3 / 24 ≤ e * (1 + A * h) + h * (K * (del + h ^ 2)) ∧ e + h * (g * b2) + S * h ^ 3 / 24 ≤ e * (1 + A * h) + h * (K * (del + h ^ 2)) := by
  obtain ⟨N1, hN1⟩ : ∃ N1, N1 = (g * M' + S) / 2 := ⟨_, rfl⟩
  obtain ⟨N2, hN2⟩ : ∃ N2, N2 = N1 / 2 + S / 8 := ⟨_, rfl⟩
  obtain ⟨A0, hA0⟩ : ∃ A0, A0 = a * l * (1 + g / 2) + f := ⟨_, rfl⟩
  obtain ⟨B0, hB0⟩ : ∃ B0, B0 = a * (1 + l * N2) + f * S / 2 := ⟨_, rfl⟩
  obtain ⟨A1, hA1⟩ : ∃ A1, A1 = 1 + A0 / 2 := ⟨_, rfl⟩
  obtain ⟨B1, hB1⟩ : ∃ B1, B1 = B0 / 2 + S / 8 := ⟨_, rfl⟩
  obtain ⟨A2, hA2⟩ : ∃ A2, A2 = a * l * (1 + g / 2) + f * A1 := ⟨_, rfl⟩
  obtain ⟨B2, hB2⟩ : ∃ B2, B2 = a * (1 + l * N2) + f * B1 := ⟨_, rfl⟩
  obtain ⟨A3, hA3⟩ : ∃ A3, A3 = 1 + A2 / 2 := ⟨_, rfl⟩
  obtain ⟨B3, hB3⟩ : ∃ B3, B3 = B2 / 2 + S / 8 := ⟨_, rfl⟩
  have n1 : 0 ≤ N1 := by rw [hN1]; positivity
  have n2 : 0 ≤ N2 := by rw [hN2]; positivity
  have p0 : 0 ≤ A0 := by rw [hA0]; positivity
  have q0 : 0 ≤ B0 := by rw [hB0]; positivity
  have p1 : 0 ≤ A1 := by rw [hA1]; positivity
  have q1 : 0 ≤ B1 := by rw [hB1]; positivity
  have p2 : 0 ≤ A2 := by rw [hA2]; positivity
  have q2 : 0 ≤ B2 := by rw [hB2]; positivity
  have p3 : 0 ≤ A3 := by rw [hA3]; positivity
  have q3 : 0 ≤ B3 := by rw [hB3]; positivity
  refine ⟨1 + g + A2 + g * A3, 1 + N1 + B2 + g * B3 + S / 24, by positivity, by positivity, ?_⟩
  intro h e del h0 h1 he hd ε x η b η1 b2 Hε Hx Hη Hb Hη1 Hb2
  obtain ⟨s, hs⟩ : ∃ s, s = del + h ^ 2 := ⟨_, rfl⟩
  have hh : h ^ 2 ≤ s := by rw [hs]; linarith
  have hds : del ≤ s := by rw [hs]; nlinarith
  have hs0 : 0 ≤ s := le_trans hd hds
  rw [← hs]
  have he1 : h * e ≤ e := mul_le_of_le_one_left he h1
  have r1 : ε ≤ (1 + g) * e + N1 * s := by
    have e1 : ε = e + g * (h * e) + N1 * h ^ 2 := by rw [Hε, hN1]; ring
    rw [e1]
    have := mul_le_mul_of_nonneg_left he1 hg
    have := mul_le_mul_of_nonneg_left hh n1
    linarith
  have r2 : x ≤ (1 + g / 2) * e + N2 * s := by
    have := mul_le_mul_of_nonneg_left hh hS
    rw [Hx, hN2]
    linarith
  have x0 : 0 ≤ x := by
    have : 0 ≤ ε := by rw [Hε]; positivity
    rw [Hx]; positivity
  have r3 : a * (del + l * x) ≤ a * l * (1 + g / 2) * e + a * (1 + l * N2) * s := by
    have m1 := mul_le_mul_of_nonneg_left r2 hl
    have m2 := mul_le_mul_of_nonneg_left (add_le_add hds m1) ha
    linarith
  have r3p : 0 ≤ a * (del + l * x) := by positivity
  have r4 : h * η ≤ A0 * e + B0 * s := by
    have e1 : h * η = h * (a * (del + l * x)) + f * (h * e) + f * S / 2 * h ^ 2 := by rw [Hη]; ring
    rw [e1]
    have m1 : h * (a * (del + l * x)) ≤ a * (del + l * x) := mul_le_of_le_one_left r3p h1
    have m2 := mul_le_mul_of_nonneg_left he1 hf
    have m3 := mul_le_mul_of_nonneg_left hh (by positivity : 0 ≤ f * S / 2)
    rw [hA0, hB0]
    linarith
  have r5 : b ≤ A1 * e + B1 * s := by
    have m1 := mul_le_mul_of_nonneg_left hh hS
    rw [Hb, hA1, hB1]
    linarith
  have r6 : η1 ≤ A2 * e + B2 * s := by
    have m1 := mul_le_mul_of_nonneg_left r5 hf
    rw [Hη1, hA2, hB2]
    linarith
  have η1p : 0 ≤ η1 := by
    have : 0 ≤ η := by rw [Hη]; positivity
    have : 0 ≤ b := by rw [Hb]; positivity
    rw [Hη1]; positivity
  have r7 : b2 ≤ A3 * e + B3 * s := by
    have m1 := mul_le_mul_of_nonneg_left hh hS
    have m2 : h * η1 ≤ η1 := mul_le_of_le_one_left η1p h1
    rw [Hb2, hA3, hB3]
    linarith
  have h3 : S * h ^ 3 / 24 ≤ h * (S / 24 * s) := by
    have e1 : S * h ^ 3 / 24 = h * (S / 24 * h ^ 2) := by ring
    rw [e1]
    exact mul_le_mul_of_nonneg_left (mul_le_mul_of_nonneg_left hh (by positivity)) h0
  refine ⟨?_, ?_, ?_⟩
  · have m1 : 0 ≤ (A2 + g * A3) * e := by positivity
    have m2 : 0 ≤ (1 + B2 + g * B3 + S / 24) * s := by positivity
    linarith
  · have m1 := mul_le_mul_of_nonneg_left r6 h0
    have m2 : 0 ≤ h * ((1 + g + g * A3) * e + (1 + N1 + g * B3) * s) := by positivity
    linarith
  · have m1 := mul_le_mul_of_nonneg_left r7 hg
    have m2 := mul_le_mul_of_nonneg_left m1 h0
    have m3 : 0 ≤ h * ((1 + g + A2) * e + (1 + N1 + B2) * s) := by positivity
    linarith

/-! ### The trajectory -/

/-- The particle `r 0, ..., r n` at the borders of `n` layers of a run. In every layer the arrays of the two trial passes are bounded by `M + 1`, and those of the last pass are within `del` of the true fields in the middle of the layer. -/
def Run3 (c : MCfg) (M : ℝ) (E B : ℝ → ℝ → ℝ → Vec3) (del : ℝ) (n : ℕ) (r : ℕ → Ptl) : Prop :=
  ∀ k < n, ∃ F0 F1 F2 : Fields3, r (k + 1) = layerOf c F0 F1 F2 (r k) ∧ FieldsUpto c F0 (M + 1) ∧ FieldsUpto c F1 (M + 1) ∧
    FieldsNear c F2 (E (k * c.dxi + c.dxi / 2)) (B (k * c.dxi + c.dxi / 2)) del

/-- C78: plasma trajectories converge with second order. For given fields, particle and exact trajectory there are constants `C`, `h0` such that on EVERY grid and for every number of layers, when the layers are thinner than `h0` and
`e0 + del + dxi²` is small, the computed particle is never reflected nor switched off, keeps charge and mass, and is within `C (e0 + del + dxi²)` of the true one at the border of every layer:
`e0` is the error of its initial state, `del` the error of the interpolated half-step fields. The fields of the trial passes may be anything bounded. -/
theorem plasma_second_order {q m M L T W R S μ : ℝ} (hq : q ≠ 0) (hm : 0 < m) (hM : 0 ≤ M) (hL : 0 ≤ L) (hS : 0 ≤ S) (hT : 0 ≤ T) (hμ : μ ≤ 1 / 2) {E B : ℝ → ℝ → ℝ → Vec3} (hE : Tame2 M L E) (hB : Tame2 M L B)
    {X Y : ℝ → ℝ} {P : ℝ → Vec3} (hmo : PlasmaMotion q m E B T X Y P) (hpa : Path T W R S X Y P) :
    ∃ C h0 : ℝ, 0 < C ∧ 0 < h0 ∧ ∀ (c : MCfg) (del e0 : ℝ) (n : ℕ) (r : ℕ → Ptl), 0 ≤ c.dxi → c.dxi ≤ h0 → n * c.dxi ≤ T → W + μ < c.boundary → 0 ≤ del → del ≤ 1 → (r 0).q = q → (r 0).m = m →
      Close (r 0) (X 0) (Y 0) (P 0) e0 → C * (e0 + del + c.dxi ^ 2) ≤ μ → Run3 c M E B del n r →
      ∀ k ≤ n, (r k).q = q ∧ (r k).m = m ∧ StrictlyInside c.boundary (r k) ∧ Close (r k) (X (k * c.dxi)) (Y (k * c.dxi)) (P (k * c.dxi)) (C * (e0 + del + c.dxi ^ 2)) := by
  have hk := kapMax_pos (R := R + 1) hm
  have hg : 0 ≤ velLip m (R + 1) := by unfold velLip; positivity
  have hf : 0 ≤ forceLip q m (R + 1) M := by unfold forceLip; positivity
  have ha : 0 ≤ fieldLip q m (R + 1) := by unfold fieldLip; positivity
  have hF : 0 ≤ forceMax q m (R + 1) (M + 1) := by unfold forceMax; positivity
  obtain ⟨A, K, hA, hK, grow⟩ := layer_growth hg hf hL ha hF hS
  obtain ⟨x, hx⟩ : ∃ x, x = Real.exp (A * T) := ⟨_, rfl⟩
  have hx1 : 1 ≤ x := by rw [hx]; exact Real.one_le_exp (by positivity)
  obtain ⟨G, hG⟩ : ∃ G, G = x + (x - 1) / A * K := ⟨_, rfl⟩
  have hG1 : 1 ≤ G := by
    have : 0 ≤ (x - 1) / A * K := mul_nonneg (div_nonneg (by linarith) hA.le) hK.le
    rw [hG]; linarith
  refine ⟨(A + 1) * G + K, 1 / (1 + forceMax q m (R + 1) (M + 1)), by positivity, by positivity, ?_⟩
  intro c del e0 n r hd hd0 hnT hW hdel hdel1 hrq hrm hc0 hsmall hrun
  have he0 : 0 ≤ e0 := le_trans (abs_nonneg _) hc0.1
  have hdF : c.dxi * (1 + forceMax q m (R + 1) (M + 1)) ≤ 1 := by
    have := mul_le_mul_of_nonneg_right hd0 (by positivity : 0 ≤ 1 + forceMax q m (R + 1) (M + 1))
    rwa [one_div, inv_mul_cancel₀ (by positivity)] at this
  have hd1 : c.dxi ≤ 1 := by nlinarith [mul_nonneg hd hF]
  have hdF1 : c.dxi * forceMax q m (R + 1) (M + 1) ≤ 1 := by linarith
  obtain ⟨s, hs⟩ : ∃ s, s = e0 + del + c.dxi ^ 2 := ⟨_, rfl⟩
  have hs0 : 0 ≤ s := by rw [hs]; positivity
  rw [← hs] at hsmall ⊢
  -- the Gronwall expression
  have bound : ∀ k : ℕ, (k : ℝ) * c.dxi ≤ T → Real.exp (A * (k * c.dxi)) * e0 + (Real.exp (A * (k * c.dxi)) - 1) / A * (K * (del + c.dxi ^ 2)) ≤ G * s := by
    intro k hkT
    have h1 : Real.exp (A * (k * c.dxi)) ≤ x := by rw [hx]; exact Real.exp_le_exp.mpr (mul_le_mul_of_nonneg_left hkT hA.le)
    have h2 : (Real.exp (A * (k * c.dxi)) - 1) / A ≤ (x - 1) / A := div_le_div_of_nonneg_right (by linarith) hA.le
    have e1 : e0 ≤ s := by rw [hs]; nlinarith [sq_nonneg c.dxi]
    have e2 : del + c.dxi ^ 2 ≤ s := by rw [hs]; linarith
    have m1 := mul_le_mul h1 e1 he0 (by linarith)
    have m2 := mul_le_mul h2 (mul_le_mul_of_nonneg_left e2 hK.le) (by positivity) (div_nonneg (by linarith) hA.le)
    rw [hG, add_mul, mul_assoc]
    linarith
  have main : ∀ k ≤ n, (r k).q = q ∧ (r k).m = m ∧ Close (r k) (X (k * c.dxi)) (Y (k * c.dxi)) (P (k * c.dxi))
      (Real.exp (A * (k * c.dxi)) * e0 + (Real.exp (A * (k * c.dxi)) - 1) / A * (K * (del + c.dxi ^ 2))) := by
    intro k
    induction k with
    | zero => intro _; refine ⟨hrq, hrm, ?_⟩; simpa using hc0
    | succ k ih =>
      intro hkn
      obtain ⟨iq, im, ic⟩ := ih (Nat.le_of_succ_le hkn)
      obtain ⟨F0, F1, F2, hr, u0, u1, near⟩ := hrun k hkn
      have hk1 : ((k + 1 : ℕ) : ℝ) ≤ n := by exact_mod_cast hkn
      have htT : (k : ℝ) * c.dxi + c.dxi ≤ T := by
        have := mul_le_mul_of_nonneg_right hk1 hd
        push_cast at this
        linarith
      have hb := bound k (by linarith)
      have hgr := gronwall_step A (K * (del + c.dxi ^ 2)) c.dxi e0 hA (by positivity) hd he0 k
      have et : ((k + 1 : ℕ) : ℝ) * c.dxi = k * c.dxi + c.dxi := by push_cast; ring
      generalize Real.exp (A * ((k + 1 : ℕ) * c.dxi)) * e0 + (Real.exp (A * ((k + 1 : ℕ) * c.dxi)) - 1) / A * (K * (del + c.dxi ^ 2)) = err' at hgr ⊢
      generalize Real.exp (A * (k * c.dxi)) * e0 + (Real.exp (A * (k * c.dxi)) - 1) / A * (K * (del + c.dxi ^ 2)) = e at *
      rw [et]
      have hepos : 0 ≤ e := le_trans (abs_nonneg _) ic.1
      have hGs : 0 ≤ G * s := by positivity
      have heμ : e ≤ μ := by
        have : 0 ≤ A * G * s + K * s := by positivity
        linarith
      have set : Setting c q m M L T W R S μ E B X Y P (k * c.dxi) e (r k) := ⟨hm, hq, hmo, hpa, hE, hB, by positivity, hd, htT, hμ, hW, heμ, ic, iq, im, hdF1⟩
      obtain ⟨g1, g2, g3⟩ := grow c.dxi e del hd hd1 hepos hdel _ _ _ _ _ _ rfl rfl rfl rfl rfl rfl
      change roughErr q m M R S c.dxi e ≤ _ at g1
      have hε : roughErr q m M R S c.dxi e ≤ μ := by
        have e2 : del + c.dxi ^ 2 ≤ s := by rw [hs]; linarith
        have m1 := mul_le_mul_of_nonneg_left e2 hK.le
        have m2 := mul_le_mul_of_nonneg_left hb hA.le
        linarith
      have est := set.trial hε F1 u1 _ (set.trial hε F0 u0 _ (set.free hM))
      obtain ⟨l1, l2, -, -, l5, l6, l7⟩ := set.last hε hdel1 F2 near _ est rfl rfl rfl rfl rfl
      have hr' : r (k + 1) = moveOne c F2 (r k) (moveOne c F1 (r k) (moveOne c F0 (r k) (moveFree c.dxi (r k)))) := hr
      rw [hr']
      refine ⟨l1.trans iq, l2.trans im, ?_, ?_, ?_⟩
      · exact l5.trans (g3.trans hgr)
      · exact l6.trans (g3.trans hgr)
      · exact l7.mono (g2.trans hgr)
  intro k hkn
  obtain ⟨a1, a2, a3, a4, a5⟩ := main k hkn
  have hk1 : (k : ℝ) ≤ n := by exact_mod_cast hkn
  have hkT : (k : ℝ) * c.dxi ≤ T := (mul_le_mul_of_nonneg_right hk1 hd).trans hnT
  have hC : Real.exp (A * (k * c.dxi)) * e0 + (Real.exp (A * (k * c.dxi)) - 1) / A * (K * (del + c.dxi ^ 2)) ≤ ((A + 1) * G + K) * s := by
    have : 0 ≤ A * G * s + K * s := by positivity
    linarith [bound k hkT]
  obtain ⟨w1, w2, -⟩ := hpa.inside (k * c.dxi) (by positivity) hkT
  exact ⟨a1, a2, ⟨inside_of w1 (a3.trans hC) hsmall hW, inside_of w2 (a4.trans hC) hsmall hW⟩, a3.trans hC, a4.trans hC, a5.mono hC⟩

end Lcode.Plasma3D
