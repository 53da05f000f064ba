import Verif.Plasma3D.ConvergeBz

/-!
Property C66 for the field solver of the 3D code as a whole: all components computed by one call, on every grid.
-/

namespace Lcode.Plasma3D

open Lcode.Num

/-! ### Specification: the continuous problem -/

/-- Density and currents of one sort as functions of the point; the window is `[0, W]²`. -/
structure CurFn where
  ro : ℝ → ℝ → ℝ
  jx : ℝ → ℝ → ℝ
  jy : ℝ → ℝ → ℝ
  jz : ℝ → ℝ → ℝ

/-- Fields as functions of the point. -/
structure FieldFn where
  Ex : ℝ → ℝ → ℝ
  Ey : ℝ → ℝ → ℝ
  Ez : ℝ → ℝ → ℝ
  Bx : ℝ → ℝ → ℝ
  By : ℝ → ℝ → ℝ
  Bz : ℝ → ℝ → ℝ
  Phi : ℝ → ℝ → ℝ

/-- The sum over two sorts. -/
def CurFn.total (c : CurFn × CurFn) : CurFn :=
  ⟨fun x y => c.1.ro x y + c.2.ro x y, fun x y => c.1.jx x y + c.2.jx x y, fun x y => c.1.jy x y + c.2.jy x y, fun x y => c.1.jz x y + c.2.jz x y⟩

/-- Smooth, and zero near the walls. -/
def Interior (W δ : ℝ) (u : ℝ → ℝ → ℝ) : Prop := Smooth2 u ∧ Vanishes W δ u
def CurFn.Interior (W δ : ℝ) (c : CurFn) : Prop := Plasma3D.Interior W δ c.ro ∧ Plasma3D.Interior W δ c.jx ∧ Plasma3D.Interior W δ c.jy ∧ Plasma3D.Interior W δ c.jz

/-- The mean of two layers, plasma and beam. -/
noncomputable def meanOf (a b now before : ℝ → ℝ → ℝ) : ℝ → ℝ → ℝ := fun x y => ((a x y + now x y) + (b x y + before x y)) / 2

/-- A point of the window. -/
def InWindow (W x y : ℝ) : Prop := 0 ≤ x ∧ x ≤ W ∧ 0 ≤ y ∧ y ≤ W

/-- The differential equations and boundary conditions: `G.Ex`, `G.Ey`, `G.Bx`, `G.By` are the transverse fields halfway between two layers, `G.Ez`, `G.Bz`, `G.Phi` those on the new layer; `F` is the estimate of the transverse fields in the screening terms with coefficient `κ`. -/
structure Solves (W dxi κ : ℝ) (now before : CurFn) (beamNow beamBefore : ℝ → ℝ → ℝ) (F G : FieldFn) : Prop where
  smooth : Smooth2 G.Ex ∧ Smooth2 G.Ey ∧ Smooth2 G.Ez ∧ Smooth2 G.Bx ∧ Smooth2 G.By ∧ Smooth2 G.Bz ∧ Smooth2 G.Phi
  /-- the tangential electric field and the normal magnetic field vanish on the walls -/
  wall_x : ∀ x y, InWindow W x y → (x = 0 ∨ x = W) → G.Ey x y = 0 ∧ G.Bx x y = 0
  wall_y : ∀ x y, InWindow W x y → (y = 0 ∨ y = W) → G.Ex x y = 0 ∧ G.By x y = 0
  normal_x : ∀ x y, InWindow W x y → (x = 0 ∨ x = W) → Dx G.Ex x y = 0 ∧ Dx G.By x y = 0 ∧ Dx G.Bz x y = 0
  normal_y : ∀ x y, InWindow W x y → (y = 0 ∨ y = W) → Dy G.Ey x y = 0 ∧ Dy G.Bx x y = 0 ∧ Dy G.Bz x y = 0
  wall : ∀ x y, InWindow W x y → (x = 0 ∨ x = W ∨ y = 0 ∨ y = W) → G.Ez x y = 0 ∧ G.Phi x y = 0
  ex : ∀ x y, InWindow W x y → Lap G.Ex x y - κ * (G.Ex x y - F.Ex x y) = Dx (meanOf now.ro before.ro beamNow beamBefore) x y - (before.jx x y - now.jx x y) / dxi
  ey : ∀ x y, InWindow W x y → Lap G.Ey x y - κ * (G.Ey x y - F.Ey x y) = Dy (meanOf now.ro before.ro beamNow beamBefore) x y - (before.jy x y - now.jy x y) / dxi
  bx : ∀ x y, InWindow W x y → Lap G.Bx x y - κ * (G.Bx x y - F.Bx x y) = (before.jy x y - now.jy x y) / dxi - Dy (meanOf now.jz before.jz beamNow beamBefore) x y
  by' : ∀ x y, InWindow W x y → Lap G.By x y - κ * (G.By x y - F.By x y) = Dx (meanOf now.jz before.jz beamNow beamBefore) x y - (before.jx x y - now.jx x y) / dxi
  ez : ∀ x y, InWindow W x y → Lap G.Ez x y = Dx now.jx x y + Dy now.jy x y
  phi : ∀ x y, InWindow W x y → Lap G.Phi x y = now.jz x y - now.ro x y
  bz : ∀ x y, InWindow W x y → Lap G.Bz x y = Dy now.jx x y - Dx now.jy x y
  bz_mean : ∫ x in (0 : ℝ)..W, ∫ y in (0 : ℝ)..W, G.Bz x y = 0

/-- The arrays of one sort, sampled at the nodes. -/
def CurFn.sample (h : ℝ) (c : CurFn) : Cur := ⟨Plasma3D.sample h c.ro, Plasma3D.sample h c.jx, Plasma3D.sample h c.jy, Plasma3D.sample h c.jz⟩

/-- Transverse arrays that agree with `F` at the nodes up to `ε`. -/
def CloseTo (L : ℕ) (h ε : ℝ) (A : Fields3) (F : FieldFn) : Prop := ∀ i j, OnGrid L i → OnGrid L j →
  |A.Ex i j - F.Ex (i * h) (j * h)| ≤ ε ∧ |A.Ey i j - F.Ey (i * h) (j * h)| ≤ ε ∧ |A.Bx i j - F.Bx (i * h) (j * h)| ≤ ε ∧ |A.By i j - F.By (i * h) (j * h)| ≤ ε

/-! ### Proofs -/

theorem smooth_bound (W : ℝ) (u : ℝ → ℝ → ℝ) (hu : Smooth2 u) : ∃ M, 0 ≤ M ∧ Bound W u M := hu.bounded W

theorem Bound.mono {W : ℝ} {u : ℝ → ℝ → ℝ} {M N : ℝ} (hb : Bound W u M) (hmn : M ≤ N) : Bound W u N := fun x y a b c d => (hb x y a b c d).trans hmn

/-- The mixed problem, with a constant that does not depend on the grid. -/
theorem mixed_rate (W κ : ℝ) (hκ : 0 ≤ κ) (u S : ℝ → ℝ → ℝ) (hu : Smooth2 u)
    (hwall : ∀ x y, (x = 0 ∨ x = W) → 0 ≤ y → y ≤ W → u x y = 0) (hnorm : ∀ x y, 0 ≤ x → x ≤ W → (y = 0 ∨ y = W) → Dy u x y = 0) (heq : ∀ x y, 0 ≤ x → x ≤ W → 0 ≤ y → y ≤ W → -Lap u x y + κ * u x y = S x y) :
    ∃ C, 0 ≤ C ∧ ∀ (L : ℕ) (h : ℝ), 1 ≤ L → 0 < h → L * h = W → ∀ (rhs : ℤ → ℤ → ℝ) (D : ℝ), 0 ≤ D → (∀ i j, Inner L i → OnGrid L j → |rhs i j - S (i * h) (j * h)| ≤ D) →
      ∀ i j, OnGrid L i → OnGrid L j → |mixSolve L h κ rhs i j - u (i * h) (j * h)| ≤ C * h ^ 2 + D * W ^ 2 / 8 := by
  obtain ⟨a, a0, ha⟩ := smooth_bound W _ hu.Dx.Dx.Dx.Dx
  obtain ⟨b, b0, hb⟩ := smooth_bound W _ hu.Dy.Dy.Dy.Dy
  obtain ⟨c, c0, hc⟩ := smooth_bound W _ hu.Dy.Dy.Dy
  refine ⟨|(a + b) / 6 * W ^ 2 / 8 + c * W / 12|, abs_nonneg _, fun L h hL hh hW rhs D hD hr i j hi hj => ?_⟩
  subst hW
  have := mixed_converge L hL h κ hh hκ u S hu (a + b) c (ha.mono (by linarith)) (hb.mono (by linarith)) hc hwall hnorm heq rhs D hD hr i j hi hj
  refine this.trans ?_
  have h1 := mul_le_mul_of_nonneg_right (le_abs_self ((a + b) / 6 * (L * h) ^ 2 / 8 + c * (L * h) / 12)) (sq_nonneg h)
  linarith

/-- The Dirichlet problem likewise. -/
theorem dirichlet_rate (W : ℝ) (u S : ℝ → ℝ → ℝ) (hu : Smooth2 u)
    (hwall : ∀ x y, 0 ≤ x → x ≤ W → 0 ≤ y → y ≤ W → (x = 0 ∨ x = W ∨ y = 0 ∨ y = W) → u x y = 0) (heq : ∀ x y, 0 ≤ x → x ≤ W → 0 ≤ y → y ≤ W → -Lap u x y = S x y) :
    ∃ C, 0 ≤ C ∧ ∀ (L : ℕ) (h : ℝ), 1 ≤ L → 0 < h → L * h = W → ∀ (rhs : ℤ → ℤ → ℝ) (D : ℝ), 0 ≤ D → (∀ i j, Inner L i → Inner L j → |rhs i j - S (i * h) (j * h)| ≤ D) →
      ∀ i j, OnGrid L i → OnGrid L j → |dirichletSolve L h rhs i j - u (i * h) (j * h)| ≤ C * h ^ 2 + D * W ^ 2 / 8 := by
  obtain ⟨a, a0, ha⟩ := smooth_bound W _ hu.Dx.Dx.Dx.Dx
  obtain ⟨b, b0, hb⟩ := smooth_bound W _ hu.Dy.Dy.Dy.Dy
  refine ⟨(a + b) / 6 * W ^ 2 / 8, by positivity, fun L h hL hh hW rhs D hD hr i j hi hj => ?_⟩
  subst hW
  have := dirichlet_converge L hL h hh u S hu (a + b) (ha.mono (by linarith)) (hb.mono (by linarith)) hwall heq rhs D hD hr i j hi hj
  refine this.trans (le_of_eq ?_)
  ring

/-- The numerical derivatives of an interior function, which the code sets to zero on the walls. -/
theorem dy_rate (W δ : ℝ) (hδ : 0 < δ) (r : ℝ → ℝ → ℝ) (hr : Interior W δ r) : ∃ P, 0 ≤ P ∧ ∀ (L : ℕ) (h : ℝ), 0 < h → L * h = W → ∀ i j, Inner L i → OnGrid L j → |dyArr L h (sample h r) i j - Dy r (i * h) (j * h)| ≤ P * h ^ 2 := by
  obtain ⟨P, P0, hP⟩ := smooth_bound W _ hr.1.Dy.Dy.Dy
  refine ⟨P / 6, by positivity, fun L h hh hW i j hi hj => ?_⟩
  subst hW
  by_cases hw : j = 0 ∨ j = L
  · unfold dyArr
    rw [if_neg (by omega), zero_div, zero_sub, abs_neg, (hr.2.Dy hr.1) _ _ (by
      rcases hw with rfl | rfl
      · right; right; left; simp [hδ.le]
      · right; right; right; simp [hδ.le]), abs_zero]
    positivity
  · have hj' : Inner L j := by unfold Inner OnGrid at *; omega
    unfold dyArr
    rw [if_pos ⟨hi, hj'⟩, mul_comm h 2]
    refine (central_y L h hh r hr.1 P hP i j (by unfold Inner OnGrid at *; omega) hj').trans (le_of_eq (by ring))

theorem dx_rate (W δ : ℝ) (hδ : 0 < δ) (r : ℝ → ℝ → ℝ) (hr : Interior W δ r) : ∃ P, 0 ≤ P ∧ ∀ (L : ℕ) (h : ℝ), 0 < h → L * h = W → ∀ i j, OnGrid L i → Inner L j → |dxArr L h (sample h r) i j - Dx r (i * h) (j * h)| ≤ P * h ^ 2 := by
  obtain ⟨P, P0, hP⟩ := dy_rate W δ hδ (fun x y => r y x) ⟨hr.1.swap, hr.2.swap⟩
  refine ⟨P, P0, fun L h hh hW i j hi hj => ?_⟩
  have := hP L h hh hW j i hj hi
  have e : dyArr L h (sample h fun x y => r y x) j i = dxArr L h (sample h r) i j := by
    unfold dyArr dxArr sample; simp only [and_comm]
  rw [e] at this
  exact this

/-- A right-hand side of the mixed problems. -/
theorem rhs_close (a b d e κ F G : ℝ) (P ε : ℝ) (hκ : 0 ≤ κ) (h1 : |a - b| ≤ P) (h2 : |F - G| ≤ ε) (hde : d = e) : |-(a - d - κ * F) - -(b - e - κ * G)| ≤ P + κ * ε := by
  have : -(a - d - κ * F) - -(b - e - κ * G) = -(a - b) + κ * (F - G) := by rw [hde]; ring
  rw [this]
  refine (abs_add_le _ _).trans ?_
  rw [abs_neg, abs_mul, abs_of_nonneg hκ]
  exact add_le_add h1 (mul_le_mul_of_nonneg_left h2 hκ)

theorem Interior.mean {W δ : ℝ} {a b c d : ℝ → ℝ → ℝ} (ha : Interior W δ a) (hb : Interior W δ b) (hc : Interior W δ c) (hd : Interior W δ d) : Interior W δ (meanOf a b c d) :=
  ⟨((ha.1.add hc.1).add (hb.1.add hd.1)).div 2, fun x y hxy => by unfold meanOf; rw [ha.2 x y hxy, hb.2 x y hxy, hc.2 x y hxy, hd.2 x y hxy]; norm_num⟩

theorem Interior.sum {W δ : ℝ} {a b : ℝ → ℝ → ℝ} (ha : Interior W δ a) (hb : Interior W δ b) : Interior W δ (fun x y => a x y + b x y) :=
  ⟨ha.1.add hb.1, fun x y hxy => by beta_reduce; rw [ha.2 x y hxy, hb.2 x y hxy, add_zero]⟩

theorem roHalf_sample (h : ℝ) (now before : CurFn) (b1 b2 : ℝ → ℝ → ℝ) : roHalf (now.sample h) (before.sample h) (sample h b1) (sample h b2) = sample h (meanOf now.ro before.ro b1 b2) := by
  funext i j; unfold roHalf sample meanOf CurFn.sample sample; ring
theorem jzHalf_sample (h : ℝ) (now before : CurFn) (b1 b2 : ℝ → ℝ → ℝ) : jzHalf (now.sample h) (before.sample h) (sample h b1) (sample h b2) = sample h (meanOf now.jz before.jz b1 b2) := by
  funext i j; unfold jzHalf sample meanOf CurFn.sample sample; ring

/-- A constant for E_y, and by exchange of the axes for the other transverse components: `κ u - Δu = -(∂y r - d - κ F)`. -/
theorem component (W δ κ : ℝ) (hδ : 0 < δ) (hκ : 0 ≤ κ) (u r d F : ℝ → ℝ → ℝ) (hu : Smooth2 u) (hr : Interior W δ r)
    (hwall : ∀ x y, InWindow W x y → (x = 0 ∨ x = W) → u x y = 0) (hnorm : ∀ x y, InWindow W x y → (y = 0 ∨ y = W) → Dy u x y = 0) (heq : ∀ x y, InWindow W x y → Lap u x y - κ * (u x y - F x y) = Dy r x y - d x y) :
    ∃ C, 0 ≤ C ∧ ∀ (L : ℕ) (h ε : ℝ), 1 ≤ L → 0 < h → L * h = W → 0 ≤ ε → ∀ A : ℤ → ℤ → ℝ, (∀ i j, OnGrid L i → OnGrid L j → |A i j - F (i * h) (j * h)| ≤ ε) →
      ∀ i j, OnGrid L i → OnGrid L j → |mixSolve L h κ (fun i j => -(dyArr L h (sample h r) i j - sample h d i j - κ * A i j)) i j - u (i * h) (j * h)| ≤ C * (h ^ 2 + ε) := by
  obtain ⟨P, P0, hP⟩ := dy_rate W δ hδ r hr
  obtain ⟨C, C0, hC⟩ := mixed_rate W κ hκ u (fun x y => -(Dy r x y - d x y - κ * F x y)) hu
    (fun x y hx a b => hwall x y (by rcases hx with rfl | rfl <;> [exact ⟨le_rfl, by linarith, a, b⟩; exact ⟨by linarith, le_rfl, a, b⟩]) hx)
    (fun x y a b hy => hnorm x y (by rcases hy with rfl | rfl <;> [exact ⟨a, b, le_rfl, by linarith⟩; exact ⟨a, b, by linarith, le_rfl⟩]) hy)
    (fun x y a b c d => by have := heq x y ⟨a, b, c, d⟩; beta_reduce; linarith)
  have hW2 : 0 ≤ W ^ 2 / 8 := by positivity
  refine ⟨C + (P + κ) * (W ^ 2 / 8), by positivity, fun L h ε hL hh hW hε A hA i j hi hj => ?_⟩
  refine (hC L h hL hh hW _ (P * h ^ 2 + κ * ε) (by positivity) (fun i j hi hj => ?_) i j hi hj).trans ?_
  · exact rhs_close _ _ _ _ κ _ _ _ ε hκ (hP L h hh hW i j hi hj) (hA i j (by unfold Inner OnGrid at *; omega) hj) rfl
  · have e : (C + (P + κ) * (W ^ 2 / 8)) * (h ^ 2 + ε) = C * h ^ 2 + (P * h ^ 2 + κ * ε) * W ^ 2 / 8 + (C * ε + (P * ε + κ * h ^ 2) * (W ^ 2 / 8)) := by ring
    rw [e]
    have : 0 ≤ C * ε + (P * ε + κ * h ^ 2) * (W ^ 2 / 8) := by positivity
    linarith

/-- C66: the field solver of the 3D code converges. Let densities and currents of the plasma and the beam be smooth and vanish near the walls, and let `G` solve the continuous equations. Then there is a constant such that on every grid with at least two cells the transverse fields halfway between the layers, and the new E_z and Phi, differ from `G` at every node by at most this constant times the square of the grid step (plus the error of the given estimates of the transverse fields), the new B_z by at most this constant times the grid step, and the new transverse fields from the extrapolation `2 G - prev` as the half-step fields. -/
theorem fields_converge (W δ dxi κ : ℝ) (hδ : 0 < δ) (hκ : 0 ≤ κ) (now before : CurFn × CurFn) (beamNow beamBefore : ℝ → ℝ → ℝ) (F P G : FieldFn)
    (hn : now.1.Interior W δ ∧ now.2.Interior W δ) (hb : before.1.Interior W δ ∧ before.2.Interior W δ) (hbn : Interior W δ beamNow) (hbb : Interior W δ beamBefore)
    (hG : Solves W dxi κ (CurFn.total now) (CurFn.total before) beamNow beamBefore F G) :
    ∃ C, ∀ (L : ℕ) (h ε : ℝ), 2 ≤ L → 0 < h → L * h = W → h ≤ δ → 0 ≤ ε → ∀ A B : Fields3, CloseTo L h ε A F → CloseTo L h ε B P →
      ∀ full half, computeFields ⟨L, h, dxi, κ⟩ A B (sample h beamNow) (sample h beamBefore) (before.1.sample h, before.2.sample h) (now.1.sample h, now.2.sample h) = (full, half) →
      ∀ i j, OnGrid L i → OnGrid L j →
        (|half.Ex i j - G.Ex (i * h) (j * h)| ≤ C * (h ^ 2 + ε) ∧ |half.Ey i j - G.Ey (i * h) (j * h)| ≤ C * (h ^ 2 + ε) ∧ |half.Bx i j - G.Bx (i * h) (j * h)| ≤ C * (h ^ 2 + ε) ∧ |half.By i j - G.By (i * h) (j * h)| ≤ C * (h ^ 2 + ε)) ∧
        (|full.Ez i j - G.Ez (i * h) (j * h)| ≤ C * h ^ 2 ∧ |full.Phi i j - G.Phi (i * h) (j * h)| ≤ C * h ^ 2 ∧ |full.Bz i j - G.Bz (i * h) (j * h)| ≤ C * h) ∧
        (|full.Ex i j - (2 * G.Ex (i * h) (j * h) - P.Ex (i * h) (j * h))| ≤ C * (h ^ 2 + ε) ∧ |full.Ey i j - (2 * G.Ey (i * h) (j * h) - P.Ey (i * h) (j * h))| ≤ C * (h ^ 2 + ε) ∧
          |full.Bx i j - (2 * G.Bx (i * h) (j * h) - P.Bx (i * h) (j * h))| ≤ C * (h ^ 2 + ε) ∧ |full.By i j - (2 * G.By (i * h) (j * h) - P.By (i * h) (j * h))| ≤ C * (h ^ 2 + ε)) := by
  -- interior sources
  have iro : Interior W δ (meanOf (CurFn.total now).ro (CurFn.total before).ro beamNow beamBefore) := Interior.mean (hn.1.1.sum hn.2.1) (hb.1.1.sum hb.2.1) hbn hbb
  have ijz : Interior W δ (meanOf (CurFn.total now).jz (CurFn.total before).jz beamNow beamBefore) := Interior.mean (hn.1.2.2.2.sum hn.2.2.2.2) (hb.1.2.2.2.sum hb.2.2.2.2) hbn hbb
  have ijx : Interior W δ (CurFn.total now).jx := hn.1.2.1.sum hn.2.2.1
  have ijy : Interior W δ (CurFn.total now).jy := hn.1.2.2.1.sum hn.2.2.2.1
  obtain ⟨sEx, sEy, sEz, sBx, sBy, sBz, sPhi⟩ := hG.smooth
  have swapW : ∀ x y, InWindow W x y → InWindow W y x := fun x y k => ⟨k.2.2.1, k.2.2.2, k.1, k.2.1⟩
  have lapS : ∀ (u : ℝ → ℝ → ℝ) x y, Lap (fun x y => u y x) x y = Lap u y x := fun u x y => by
    have : Lap (fun x y => u y x) x y = Dy (Dy u) y x + Dx (Dx u) y x := rfl
    rw [this]; unfold Lap; ring
  -- transverse components
  obtain ⟨c1, c1p, h1⟩ := component W δ κ hδ hκ (fun x y => G.Ex y x) (fun x y => meanOf (CurFn.total now).ro (CurFn.total before).ro beamNow beamBefore y x) (fun x y => ((CurFn.total before).jx y x - (CurFn.total now).jx y x) / dxi) (fun x y => F.Ex y x)
    sEx.swap ⟨iro.1.swap, iro.2.swap⟩ (fun x y k hx => (hG.wall_y y x (swapW x y k) hx).1) (fun x y k hy => (hG.normal_x y x (swapW x y k) hy).1) (fun x y k => by rw [lapS]; exact hG.ex y x (swapW x y k))
  obtain ⟨c2, c2p, h2⟩ := component W δ κ hδ hκ G.Ey (meanOf (CurFn.total now).ro (CurFn.total before).ro beamNow beamBefore) (fun x y => ((CurFn.total before).jy x y - (CurFn.total now).jy x y) / dxi) F.Ey
    sEy iro (fun x y k hx => (hG.wall_x x y k hx).1) (fun x y k hy => (hG.normal_y x y k hy).1) (fun x y k => hG.ey x y k)
  obtain ⟨c3, c3p, h3⟩ := component W δ κ hδ hκ (fun x y => -G.Bx x y) (meanOf (CurFn.total now).jz (CurFn.total before).jz beamNow beamBefore) (fun x y => ((CurFn.total before).jy x y - (CurFn.total now).jy x y) / dxi) (fun x y => -F.Bx x y)
    sBx.neg ijz (fun x y k hx => by rw [(hG.wall_x x y k hx).2, neg_zero]) (fun x y k hy => by
      have : Dy (fun x y => -G.Bx x y) x y = -Dy G.Bx x y := ((sBx.hasY x y).neg).deriv
      rw [this, (hG.normal_y x y k hy).2.1, neg_zero]) (fun x y k => by
      have e : Lap (fun x y => -G.Bx x y) x y = -Lap G.Bx x y := by
        have e1 : Dx (fun x y => -G.Bx x y) = fun x y => -Dx G.Bx x y := by funext a b; exact ((sBx.hasX a b).neg).deriv
        have e2 : Dy (fun x y => -G.Bx x y) = fun x y => -Dy G.Bx x y := by funext a b; exact ((sBx.hasY a b).neg).deriv
        have e3 : Dx (fun x y => -Dx G.Bx x y) x y = -Dx (Dx G.Bx) x y := ((sBx.Dx.hasX x y).neg).deriv
        have e4 : Dy (fun x y => -Dy G.Bx x y) x y = -Dy (Dy G.Bx) x y := ((sBx.Dy.hasY x y).neg).deriv
        unfold Lap
        rw [e1, e2, e3, e4]; ring
      have := hG.bx x y k
      rw [e]; linarith)
  obtain ⟨c4, c4p, h4⟩ := component W δ κ hδ hκ (fun x y => G.By y x) (fun x y => meanOf (CurFn.total now).jz (CurFn.total before).jz beamNow beamBefore y x) (fun x y => ((CurFn.total before).jx y x - (CurFn.total now).jx y x) / dxi) (fun x y => F.By y x)
    sBy.swap ⟨ijz.1.swap, ijz.2.swap⟩ (fun x y k hx => (hG.wall_y y x (swapW x y k) hx).2) (fun x y k hy => (hG.normal_x y x (swapW x y k) hy).2.1) (fun x y k => by rw [lapS]; exact hG.by' y x (swapW x y k))
  -- longitudinal components
  obtain ⟨c5, c5p, h5⟩ := dirichlet_rate W G.Ez (fun x y => -(Dx (CurFn.total now).jx x y + Dy (CurFn.total now).jy x y)) sEz (fun x y a b c d k => (hG.wall x y ⟨a, b, c, d⟩ k).1) (fun x y a b c d => by rw [hG.ez x y ⟨a, b, c, d⟩])
  obtain ⟨c6, c6p, h6⟩ := dirichlet_rate W G.Phi (fun x y => (CurFn.total now).ro x y - (CurFn.total now).jz x y) sPhi (fun x y a b c d k => (hG.wall x y ⟨a, b, c, d⟩ k).2) (fun x y a b c d => by rw [hG.phi x y ⟨a, b, c, d⟩]; ring)
  obtain ⟨p1, p1p, hp1⟩ := smooth_bound W _ ijx.1.Dx.Dx.Dx
  obtain ⟨p2, p2p, hp2⟩ := smooth_bound W _ ijy.1.Dy.Dy.Dy
  obtain ⟨p3, p3p, hp3⟩ := smooth_bound W _ ijx.1.Dy.Dy.Dy
  obtain ⟨p4, p4p, hp4⟩ := smooth_bound W _ ijy.1.Dx.Dx.Dx
  obtain ⟨m1, m1p, hm1⟩ := smooth_bound W _ sBz.Dx.Dx.Dx.Dx
  obtain ⟨m2, m2p, hm2⟩ := smooth_bound W _ sBz.Dy.Dy.Dy.Dy
  obtain ⟨k1, k1p, hk1⟩ := smooth_bound W _ sBz.Dx
  obtain ⟨k2, k2p, hk2⟩ := smooth_bound W _ sBz.Dy
  obtain ⟨n, np, hnB⟩ := smooth_bound W _ sBz
  set cz := |((m1 + m2) / 6 + (p3 + p4) / 3) * W ^ 3 + 3 * (W * (k1 + k2) + n) / W| with hcz
  have czp : 0 ≤ cz := abs_nonneg _
  set c7 := c5 + (p1 + p2) / 6 * W ^ 2 / 8 with hc7
  have c7p : 0 ≤ c7 := by positivity
  refine ⟨2 * (c1 + c2 + c3 + c4) + c6 + c7 + cz + 1, fun L h ε hL hh hW hhδ hε A B hA hB full half hcf i j hi hj => ?_⟩
  obtain ⟨gEx, gEy, gBx, gBy, gEz, gBz, gPhi, gFull⟩ := computeFields_spec _ _ _ _ _ _ _ _ _ hcf
  have tNow : Cur.total (now.1.sample h, now.2.sample h) = (CurFn.total now).sample h := rfl
  have tBef : Cur.total (before.1.sample h, before.2.sample h) = (CurFn.total before).sample h := rfl
  rw [tNow, tBef] at gEx gEy gBx gBy
  rw [tNow] at gEz gBz gPhi
  have hLn : 1 ≤ L := by omega
  have hh2 : 0 ≤ h ^ 2 + ε := by positivity
  have up : ∀ x a b : ℝ, 0 ≤ b → x ≤ a * b → a ≤ 2 * (c1 + c2 + c3 + c4) + c6 + c7 + cz + 1 → x ≤ (2 * (c1 + c2 + c3 + c4) + c6 + c7 + cz + 1) * b :=
    fun x a b hb hx ha => hx.trans (mul_le_mul_of_nonneg_right ha hb)
  -- the four half-step fields
  have rEx : |half.Ex i j - G.Ex (i * h) (j * h)| ≤ c1 * (h ^ 2 + ε) := by
    have := h1 L h ε hLn hh hW hε (fun i j => A.Ex j i) (fun i j hi hj => (hA j i hj hi).1) j i hj hi
    rw [gEx]
    have e : calcEx ⟨L, h, dxi, κ⟩ A (sample h beamNow) (sample h beamBefore) ((CurFn.total now).sample h) ((CurFn.total before).sample h) i j =
        mixSolve L h κ (fun i j => -(dyArr L h (sample h fun x y => meanOf (CurFn.total now).ro (CurFn.total before).ro beamNow beamBefore y x) i j - sample h (fun x y => ((CurFn.total before).jx y x - (CurFn.total now).jx y x) / dxi) i j - κ * A.Ex j i)) j i := by
      unfold calcEx
      rw [roHalf_sample]
      have e2 : ∀ a b, dyArr L h (sample h fun x y => meanOf (CurFn.total now).ro (CurFn.total before).ro beamNow beamBefore y x) a b = dxArr L h (sample h (meanOf (CurFn.total now).ro (CurFn.total before).ro beamNow beamBefore)) b a := by
        intro a b; unfold dyArr dxArr sample; simp only [and_comm]
      simp only [e2]
      rfl
    rw [e]; exact this
  have rEy : |half.Ey i j - G.Ey (i * h) (j * h)| ≤ c2 * (h ^ 2 + ε) := by
    have := h2 L h ε hLn hh hW hε A.Ey (fun i j hi hj => (hA i j hi hj).2.1) i j hi hj
    rw [gEy]
    unfold calcEy
    rw [roHalf_sample]
    exact this
  have rBx : |half.Bx i j - G.Bx (i * h) (j * h)| ≤ c3 * (h ^ 2 + ε) := by
    have := h3 L h ε hLn hh hW hε (fun i j => -A.Bx i j) (fun i j hi hj => by
      have := (hA i j hi hj).2.2.1
      rw [abs_sub_comm] at this
      refine le_of_eq_of_le ?_ this
      congr 1; ring) i j hi hj
    rw [gBx]
    unfold calcBx
    rw [jzHalf_sample]
    have e : ∀ g : ℤ → ℤ → ℝ, mixSolve L h κ (fun i j => -g i j) i j = -mixSolve L h κ g i j := by
      intro g
      have e1 : ∀ v : ℤ → ℤ → ℝ, mix2d L (fun i j => -v i j) = fun i j => -mix2d L v i j := by
        intro v; funext a b
        unfold mix2d
        split_ifs
        · unfold mixT
          simp only [dct1, dst1, trap, neg_mul, Finset.sum_neg_distrib, mul_neg]
          ring
        · simp
      unfold mixSolve
      rw [e1]
      simp only [mul_neg]
      rw [e1]
    simp only []
    have e3 : (fun i j => -(dyArr L h (sample h (meanOf (CurFn.total now).jz (CurFn.total before).jz beamNow beamBefore)) i j - sample h (fun x y => ((CurFn.total before).jy x y - (CurFn.total now).jy x y) / dxi) i j - κ * -A.Bx i j)) =
        fun i j => -(dyArr L h (sample h (meanOf (CurFn.total now).jz (CurFn.total before).jz beamNow beamBefore)) i j - djDxi dxi ((CurFn.total before).sample h).jy ((CurFn.total now).sample h).jy i j + κ * A.Bx i j) := by
      funext a b
      have : sample h (fun x y => ((CurFn.total before).jy x y - (CurFn.total now).jy x y) / dxi) a b = djDxi dxi ((CurFn.total before).sample h).jy ((CurFn.total now).sample h).jy a b := rfl
      rw [this]; ring
    rw [e3, e] at this
    rw [abs_sub_comm]
    refine le_of_eq_of_le ?_ this
    congr 1; ring
  have rBy : |half.By i j - G.By (i * h) (j * h)| ≤ c4 * (h ^ 2 + ε) := by
    have := h4 L h ε hLn hh hW hε (fun i j => A.By j i) (fun i j hi hj => (hA j i hj hi).2.2.2) j i hj hi
    rw [gBy]
    have e : calcBy ⟨L, h, dxi, κ⟩ A (sample h beamNow) (sample h beamBefore) ((CurFn.total now).sample h) ((CurFn.total before).sample h) i j =
        mixSolve L h κ (fun i j => -(dyArr L h (sample h fun x y => meanOf (CurFn.total now).jz (CurFn.total before).jz beamNow beamBefore y x) i j - sample h (fun x y => ((CurFn.total before).jx y x - (CurFn.total now).jx y x) / dxi) i j - κ * A.By j i)) j i := by
      unfold calcBy
      rw [jzHalf_sample]
      have e2 : ∀ a b, dyArr L h (sample h fun x y => meanOf (CurFn.total now).jz (CurFn.total before).jz beamNow beamBefore y x) a b = dxArr L h (sample h (meanOf (CurFn.total now).jz (CurFn.total before).jz beamNow beamBefore)) b a := by
        intro a b; unfold dyArr dxArr sample; simp only [and_comm]
      simp only [e2]
      rfl
    rw [e]; exact this
  have dbl : ∀ x g p q : ℝ, ∀ c, 0 ≤ c → |x - g| ≤ c * (h ^ 2 + ε) → |q - p| ≤ ε → |2 * x - q - (2 * g - p)| ≤ (2 * c + 1) * (h ^ 2 + ε) := by
    intro x g p q c hc h1 h2
    rw [abs_le] at h1 h2 ⊢
    have := sq_nonneg h
    constructor <;> linarith [h1.1, h1.2, h2.1, h2.2]
  obtain ⟨fEx, fEy, _, fBx, fBy, _⟩ := gFull i j
  obtain ⟨bEx, bEy, bBx, bBy⟩ := hB i j hi hj
  refine ⟨⟨up _ c1 _ hh2 rEx (by linarith), up _ c2 _ hh2 rEy (by linarith), up _ c3 _ hh2 rBx (by linarith), up _ c4 _ hh2 rBy (by linarith)⟩, ⟨?_, ?_, ?_⟩, ?_, ?_, ?_, ?_⟩
  · refine up _ c7 _ (sq_nonneg h) ?_ (by linarith)
    have := h5 L h hLn hh hW (ezRhs h (sample h (CurFn.total now).jx) (sample h (CurFn.total now).jy)) ((p1 + p2) / 6 * h ^ 2) (by positivity) (by
      intro i j hi hj
      have t1 := central_x L h hh _ ijx.1 p1 (by rw [hW]; exact hp1) i j hi (by unfold Inner OnGrid at *; omega)
      have t2 := central_y L h hh _ ijy.1 p2 (by rw [hW]; exact hp2) i j (by unfold Inner OnGrid at *; omega) hj
      have e : ezRhs h (sample h (CurFn.total now).jx) (sample h (CurFn.total now).jy) i j = -((sample h (CurFn.total now).jx (i + 1) j - sample h (CurFn.total now).jx (i - 1) j) / (2 * h) + (sample h (CurFn.total now).jy i (j + 1) - sample h (CurFn.total now).jy i (j - 1)) / (2 * h)) := by
        unfold ezRhs; field_simp
      rw [e]
      rw [abs_le] at t1 t2 ⊢
      constructor <;> linarith [t1.1, t1.2, t2.1, t2.2]) i j hi hj
    rw [gEz]
    refine this.trans (le_of_eq ?_)
    rw [hc7]; ring
  · refine up _ c6 _ (sq_nonneg h) ?_ (by linarith)
    have := h6 L h hLn hh hW (fun i j => sample h (CurFn.total now).ro i j - sample h (CurFn.total now).jz i j) 0 le_rfl (fun i j _ _ => by
      rw [abs_nonpos_iff]; exact sub_self _) i j hi hj
    rw [gPhi]
    refine this.trans (le_of_eq ?_)
    ring
  · refine up _ cz _ hh.le ?_ (by linarith)
    subst hW
    have := bz_converge L hL h δ hh hhδ (CurFn.total now).jx (CurFn.total now).jy G.Bz ijx.1 ijy.1 sBz ijx.2 ijy.2
      (fun x y hx a b => (hG.normal_x x y (by rcases hx with rfl | rfl <;> [exact ⟨le_rfl, by linarith, a, b⟩; exact ⟨by linarith, le_rfl, a, b⟩]) hx).2.2)
      (fun x y a b hy => (hG.normal_y x y (by rcases hy with rfl | rfl <;> [exact ⟨a, b, le_rfl, by linarith⟩; exact ⟨a, b, by linarith, le_rfl⟩]) hy).2.2)
      (fun x y a b c d => hG.bz x y ⟨a, b, c, d⟩) hG.bz_mean (m1 + m2) (p3 + p4) (k1 + k2) n (hm1.mono (by linarith)) (hm2.mono (by linarith)) (hk1.mono (by linarith)) (hk2.mono (by linarith)) hnB (hp3.mono (by linarith)) (hp4.mono (by linarith))
      ((CurFn.total now).sample h) rfl rfl i j hi hj
    rw [gBz]
    refine this.trans ?_
    have e : h * ((m1 + m2) / 6 + (p3 + p4) / 3) * (L * h) ^ 3 + 3 * h * (L * h * (k1 + k2) + n) / (L * h) = (((m1 + m2) / 6 + (p3 + p4) / 3) * (L * h) ^ 3 + 3 * (L * h * (k1 + k2) + n) / (L * h)) * h := by ring
    rw [e]
    exact mul_le_mul_of_nonneg_right (le_abs_self _) hh.le
  · have e : full.Ex i j = 2 * half.Ex i j - B.Ex i j := by linarith
    rw [e]; exact up _ _ _ hh2 (dbl _ _ _ _ c1 c1p rEx bEx) (by linarith)
  · have e : full.Ey i j = 2 * half.Ey i j - B.Ey i j := by linarith
    rw [e]; exact up _ _ _ hh2 (dbl _ _ _ _ c2 c2p rEy bEy) (by linarith)
  · have e : full.Bx i j = 2 * half.Bx i j - B.Bx i j := by linarith
    rw [e]; exact up _ _ _ hh2 (dbl _ _ _ _ c3 c3p rBx bBx) (by linarith)
  · have e : full.By i j = 2 * half.By i j - B.By i j := by linarith
    rw [e]; exact up _ _ _ hh2 (dbl _ _ _ _ c4 c4p rBy bBy) (by linarith)

end Lcode.Plasma3D
