import Verif.Plasma3D.Fields
import Verif.Num.Plane

/-!
Convergence of the transverse solvers of the 3D code, property C66: the Dirichlet problem (E_z, Phi) and the mixed problem (E_x, E_y, B_x, B_y). The coordinates run from a corner of the window: node `(i, j)` is at `(i h, j h)`, the window is the square `[0, L h]²`.
-/

namespace Lcode.Plasma3D

open Lcode.Num

/-! ### Stability -/

/-- The largest value on the grid is attained. -/
theorem grid_max (L : ℕ) (v : ℤ → ℤ → ℝ) : ∃ a b, OnGrid L a ∧ OnGrid L b ∧ ∀ i j, OnGrid L i → OnGrid L j → v i j ≤ v a b := by
  obtain ⟨p, hp, hmax⟩ := ((Finset.Icc (0 : ℤ) L) ×ˢ (Finset.Icc (0 : ℤ) L)).exists_max_image (fun p => v p.1 p.2) ⟨(0, 0), by simp⟩
  rw [Finset.mem_product, Finset.mem_Icc, Finset.mem_Icc] at hp
  exact ⟨p.1, p.2, hp.1, hp.2, fun i j hi hj => hmax (i, j) (by rw [Finset.mem_product, Finset.mem_Icc, Finset.mem_Icc]; exact ⟨hi, hj⟩)⟩

theorem next_onGrid (L : ℕ) (hL : 1 ≤ L) (j : ℤ) (hj : OnGrid L j) : OnGrid L (next L j) := by
  unfold OnGrid next at *; split_ifs <;> omega
theorem prev_onGrid (L : ℕ) (hL : 1 ≤ L) (j : ℤ) (hj : OnGrid L j) : OnGrid L (prev j) := by
  unfold OnGrid prev at *; split_ifs <;> omega

/-- Maximum principle of the mixed problem. -/
theorem mixed_max (L : ℕ) (hL : 1 ≤ L) (h κ : ℝ) (hh : 0 < h) (hκ : 0 ≤ κ) (v : ℤ → ℤ → ℝ) (hw : ∀ i j : ℤ, (i = 0 ∨ i = L) → OnGrid L j → v i j ≤ 0)
    (hin : ∀ i j, Inner L i → OnGrid L j → 0 < lapM L h v i j - κ * v i j) (i j : ℤ) (hi : OnGrid L i) (hj : OnGrid L j) : v i j ≤ 0 := by
  obtain ⟨a, b, ha, hb, hmax⟩ := grid_max L v
  refine (hmax i j hi hj).trans ?_
  by_contra hpos
  push Not at hpos
  by_cases hwall : a = 0 ∨ a = L
  · exact absurd (hw a b hwall hb) (not_le.mpr hpos)
  have hai : Inner L a := by unfold Inner OnGrid at *; omega
  have h0 := hin a b hai hb
  have h1 := hmax (a + 1) b (by unfold Inner OnGrid at *; omega) hb
  have h2 := hmax (a - 1) b (by unfold Inner OnGrid at *; omega) hb
  have h3 := hmax a (next L b) ha (next_onGrid L hL b hb)
  have h4 := hmax a (prev b) ha (prev_onGrid L hL b hb)
  have h5 : lapM L h v a b ≤ 0 := by
    unfold lapM
    exact div_nonpos_of_nonpos_of_nonneg (by linarith) (sq_nonneg h)
  have h6 : 0 ≤ κ * v a b := mul_nonneg hκ hpos.le
  linarith

/-- Maximum principle of the Dirichlet problem. -/
theorem dirichlet_max (L : ℕ) (h : ℝ) (v : ℤ → ℤ → ℝ) (hw : ∀ i j : ℤ, OnGrid L i → OnGrid L j → (i = 0 ∨ i = L ∨ j = 0 ∨ j = L) → v i j ≤ 0)
    (hin : ∀ i j, Inner L i → Inner L j → 0 < lapH h v i j) (i j : ℤ) (hi : OnGrid L i) (hj : OnGrid L j) : v i j ≤ 0 := by
  obtain ⟨a, b, ha, hb, hmax⟩ := grid_max L v
  refine (hmax i j hi hj).trans ?_
  by_contra hpos
  push Not at hpos
  by_cases hwall : a = 0 ∨ a = L ∨ b = 0 ∨ b = L
  · exact absurd (hw a b ha hb hwall) (not_le.mpr hpos)
  have h0 := hin a b (by unfold Inner OnGrid at *; omega) (by unfold Inner OnGrid at *; omega)
  have h1 := hmax (a + 1) b (by unfold OnGrid at *; omega) hb
  have h2 := hmax (a - 1) b (by unfold OnGrid at *; omega) hb
  have h3 := hmax a (b + 1) ha (by unfold OnGrid at *; omega)
  have h4 := hmax a (b - 1) ha (by unfold OnGrid at *; omega)
  have h5 : lapH h v a b ≤ 0 := by
    unfold lapH
    exact div_nonpos_of_nonpos_of_nonneg (by linarith) (sq_nonneg h)
  linarith

/-- The comparison functions. -/
noncomputable def qFun (L : ℕ) (h : ℝ) (i : ℤ) : ℝ := i * h * (L * h - i * h) / 2
noncomputable def pFun (L : ℕ) (h : ℝ) (j : ℤ) : ℝ := (j * h - L * h / 2) ^ 2

theorem qFun_bounds (L : ℕ) (h : ℝ) (hh : 0 < h) (i : ℤ) (hi : OnGrid L i) : 0 ≤ qFun L h i ∧ qFun L h i ≤ (L * h) ^ 2 / 8 := by
  have h0 : (0 : ℝ) ≤ i := by exact_mod_cast hi.1
  have h1 : (i : ℝ) ≤ L := by exact_mod_cast hi.2
  have h2 : (i : ℝ) * h ≤ L * h := mul_le_mul_of_nonneg_right h1 hh.le
  have h3 : 0 ≤ (i : ℝ) * h := by positivity
  unfold qFun
  generalize (i : ℝ) * h = x at *
  generalize (L : ℝ) * h = W at *
  constructor
  · have := mul_nonneg h3 (sub_nonneg.mpr h2); linarith
  · nlinarith [sq_nonneg (x - W / 2)]

theorem pFun_bounds (L : ℕ) (h : ℝ) (hh : 0 < h) (j : ℤ) (hj : OnGrid L j) : 0 ≤ pFun L h j ∧ pFun L h j ≤ (L * h) ^ 2 / 4 := by
  have h0 : (0 : ℝ) ≤ j := by exact_mod_cast hj.1
  have h1 : (j : ℝ) ≤ L := by exact_mod_cast hj.2
  have h2 : (j : ℝ) * h ≤ L * h := mul_le_mul_of_nonneg_right h1 hh.le
  have h3 : 0 ≤ (j : ℝ) * h := by positivity
  unfold pFun
  refine ⟨sq_nonneg _, ?_⟩
  generalize (j : ℝ) * h = x at *
  generalize (L : ℝ) * h = W at *
  nlinarith [mul_nonneg h3 (sub_nonneg.mpr h2)]

theorem lap_q (L : ℕ) (h : ℝ) (hh : 0 < h) (i : ℤ) : (qFun L h (i + 1) + qFun L h (i - 1) - 2 * qFun L h i) / h ^ 2 = -1 := by
  unfold qFun; push_cast; field_simp; ring

theorem lap_p (L : ℕ) (hL : 1 ≤ L) (h : ℝ) (hh : 0 < h) (j : ℤ) (hj : OnGrid L j) :
    (pFun L h (next L j) + pFun L h (prev j) - 2 * pFun L h j) / h ^ 2 = if j = 0 ∨ j = L then 2 - 2 * (L * h) / h else 2 := by
  by_cases h0 : j = 0
  · subst h0
    rw [if_pos (Or.inl rfl)]
    have e1 : next L 0 = 1 := by unfold next; rw [if_neg (by omega)]; rfl
    have e2 : prev 0 = 1 := by unfold prev; rw [if_pos rfl]
    rw [e1, e2]
    unfold pFun; push_cast; field_simp; ring
  by_cases h1 : j = L
  · subst h1
    rw [if_pos (Or.inr rfl)]
    have e1 : next L L = (L : ℤ) - 1 := by unfold next; rw [if_pos rfl]
    have e2 : prev (L : ℤ) = (L : ℤ) - 1 := by unfold prev; rw [if_neg h0]
    rw [e1, e2]
    unfold pFun; push_cast; field_simp; ring
  · rw [if_neg (by omega)]
    have e1 : next L j = j + 1 := by unfold next; rw [if_neg h1]
    have e2 : prev j = j - 1 := by unfold prev; rw [if_neg h0]
    rw [e1, e2]
    unfold pFun; push_cast; field_simp; ring

/-- Stability of the mixed problem: residuals of size `A` inside and `A + b` at the walls with zero normal derivative produce errors of at most `A W²/8 + b h W/4`. -/
theorem mixed_stable (L : ℕ) (hL : 1 ≤ L) (h κ : ℝ) (hh : 0 < h) (hκ : 0 ≤ κ) (A b : ℝ) (hA : 0 ≤ A) (hb : 0 ≤ b) (e : ℤ → ℤ → ℝ) (hw : ∀ i j : ℤ, (i = 0 ∨ i = L) → OnGrid L j → e i j = 0)
    (hin : ∀ i j, Inner L i → Inner L j → |lapM L h e i j - κ * e i j| ≤ A) (hbd : ∀ i j : ℤ, Inner L i → (j = 0 ∨ j = L) → |lapM L h e i j - κ * e i j| ≤ A + b)
    (i j : ℤ) (hi : OnGrid L i) (hj : OnGrid L j) : |e i j| ≤ A * (L * h) ^ 2 / 8 + b * h * (L * h) / 4 := by
  have hLr : (0 : ℝ) < L := by exact_mod_cast hL
  have hW : 0 < (L : ℝ) * h := by positivity
  set c := b * h / (2 * (L * h)) with hc
  have hc0 : 0 ≤ c := by positivity
  -- one sign at a time
  have key : ∀ s : ℝ, (s = 1 ∨ s = -1) → ∀ ε, 0 < ε → s * e i j ≤ (A + 2 * c + ε) * qFun L h i + c * pFun L h j := by
    intro s hs ε hε
    have := mixed_max L hL h κ hh hκ (fun i j => s * e i j - ((A + 2 * c + ε) * qFun L h i + c * pFun L h j)) (by
      intro i j hi hj
      have hig : OnGrid L i := by unfold OnGrid; omega
      have h1 := (qFun_bounds L h hh i hig).1
      have h2 := (pFun_bounds L h hh j hj).1
      rw [hw i j hi hj, mul_zero]
      have := mul_nonneg (by linarith : 0 ≤ A + 2 * c + ε) h1
      have := mul_nonneg hc0 h2
      linarith) (by
      intro i j hi hj
      have hig : OnGrid L i := by unfold OnGrid Inner at *; omega
      have h1 := (qFun_bounds L h hh i hig).1
      have h2 := (pFun_bounds L h hh j hj).1
      have k1 : 0 ≤ κ * ((A + 2 * c + ε) * qFun L h i) := mul_nonneg hκ (mul_nonneg (by linarith) h1)
      have k2 : 0 ≤ κ * (c * pFun L h j) := mul_nonneg hκ (mul_nonneg hc0 h2)
      have hl : lapM L h (fun i j => s * e i j - ((A + 2 * c + ε) * qFun L h i + c * pFun L h j)) i j =
          s * lapM L h e i j - (A + 2 * c + ε) * ((qFun L h (i + 1) + qFun L h (i - 1) - 2 * qFun L h i) / h ^ 2) - c * ((pFun L h (next L j) + pFun L h (prev j) - 2 * pFun L h j) / h ^ 2) := by
        unfold lapM; ring
      rw [hl, lap_q L h hh, lap_p L hL h hh j hj]
      have hs1 : ∀ x B : ℝ, |x| ≤ B → -B ≤ s * x := by
        intro x B hx
        rcases hs with rfl | rfl
        · linarith [neg_abs_le x]
        · linarith [le_abs_self x]
      by_cases hwall : j = 0 ∨ j = L
      · rw [if_pos hwall]
        have hr := hs1 _ _ (hbd i j hi hwall)
        have e2 : c * (2 - 2 * (L * h) / h) = 2 * c - b := by rw [hc]; field_simp
        rw [e2]
        linarith
      · rw [if_neg hwall]
        have hr := hs1 _ _ (hin i j hi (by unfold Inner OnGrid at *; omega))
        linarith) i j hi hj
    linarith
  obtain ⟨q0, q1⟩ := qFun_bounds L h hh i hi
  obtain ⟨p0, p1⟩ := pFun_bounds L h hh j hj
  have fin : ∀ s : ℝ, (s = 1 ∨ s = -1) → s * e i j ≤ A * (L * h) ^ 2 / 8 + b * h * (L * h) / 4 := by
    intro s hs
    refine le_of_forall_pos_le_add fun ε hε => ?_
    have hq : 0 < ε / ((L * h) ^ 2 / 8) := by positivity
    have h1 := key s hs _ hq
    have h2 : (A + 2 * c + ε / ((L * h) ^ 2 / 8)) * qFun L h i ≤ (A + 2 * c + ε / ((L * h) ^ 2 / 8)) * ((L * h) ^ 2 / 8) := mul_le_mul_of_nonneg_left q1 (by positivity)
    have h3 : c * pFun L h j ≤ c * ((L * h) ^ 2 / 4) := mul_le_mul_of_nonneg_left p1 hc0
    have h4 : (A + 2 * c + ε / ((L * h) ^ 2 / 8)) * ((L * h) ^ 2 / 8) = A * (L * h) ^ 2 / 8 + c * ((L * h) ^ 2 / 4) + ε := by
      rw [add_mul, div_mul_cancel₀ _ (by positivity)]; ring
    have h5 : c * ((L * h) ^ 2 / 4) = b * h * (L * h) / 8 := by rw [hc]; field_simp; ring
    linarith
  rw [abs_le]
  constructor
  · linarith [fin (-1) (Or.inr rfl)]
  · linarith [fin 1 (Or.inl rfl)]

/-- Stability of the Dirichlet problem. -/
theorem dirichlet_stable (L : ℕ) (hL : 1 ≤ L) (h : ℝ) (hh : 0 < h) (A : ℝ) (hA : 0 ≤ A) (e : ℤ → ℤ → ℝ) (hw : ∀ i j : ℤ, OnGrid L i → OnGrid L j → (i = 0 ∨ i = L ∨ j = 0 ∨ j = L) → e i j = 0)
    (hin : ∀ i j, Inner L i → Inner L j → |lapH h e i j| ≤ A) (i j : ℤ) (hi : OnGrid L i) (hj : OnGrid L j) : |e i j| ≤ A * (L * h) ^ 2 / 8 := by
  have hLr : (0 : ℝ) < L := by exact_mod_cast hL
  have hW : 0 < (L : ℝ) * h := by positivity
  have key : ∀ s : ℝ, (s = 1 ∨ s = -1) → ∀ ε, 0 < ε → s * e i j ≤ (A + ε) * qFun L h i := by
    intro s hs ε hε
    have := dirichlet_max L h (fun i j => s * e i j - (A + ε) * qFun L h i) (by
      intro i j hi hj hij
      have h1 := (qFun_bounds L h hh i hi).1
      rw [hw i j hi hj hij, mul_zero]
      have := mul_nonneg (by linarith : 0 ≤ A + ε) h1
      linarith) (by
      intro i j hi hj
      have hl : lapH h (fun i j => s * e i j - (A + ε) * qFun L h i) i j = s * lapH h e i j - (A + ε) * ((qFun L h (i + 1) + qFun L h (i - 1) - 2 * qFun L h i) / h ^ 2) := by
        unfold lapH; ring
      rw [hl, lap_q L h hh]
      have hr := abs_le.mp (hin i j hi hj)
      rcases hs with rfl | rfl <;> linarith) i j hi hj
    linarith
  obtain ⟨q0, q1⟩ := qFun_bounds L h hh i hi
  have fin : ∀ s : ℝ, (s = 1 ∨ s = -1) → s * e i j ≤ A * (L * h) ^ 2 / 8 := by
    intro s hs
    refine le_of_forall_pos_le_add fun ε hε => ?_
    have hq : 0 < ε / ((L * h) ^ 2 / 8) := by positivity
    have h1 := key s hs _ hq
    have h2 : (A + ε / ((L * h) ^ 2 / 8)) * qFun L h i ≤ (A + ε / ((L * h) ^ 2 / 8)) * ((L * h) ^ 2 / 8) := mul_le_mul_of_nonneg_left q1 (by positivity)
    have h4 : (A + ε / ((L * h) ^ 2 / 8)) * ((L * h) ^ 2 / 8) = A * (L * h) ^ 2 / 8 + ε := by
      rw [add_mul, div_mul_cancel₀ _ (by positivity)]; ring
    linarith
  rw [abs_le]
  constructor
  · linarith [fin (-1) (Or.inr rfl)]
  · linarith [fin 1 (Or.inl rfl)]

/-! ### Consistency -/

/-- The values of a function at the nodes. -/
def sample (h : ℝ) (u : ℝ → ℝ → ℝ) : ℤ → ℤ → ℝ := fun i j => u (i * h) (j * h)

/-- A bound on a function in the window. -/
def Bound (W : ℝ) (u : ℝ → ℝ → ℝ) (M : ℝ) : Prop := ∀ x y, 0 ≤ x → x ≤ W → 0 ≤ y → y ≤ W → |u x y| ≤ M

theorem node_range (L : ℕ) (h : ℝ) (hh : 0 < h) (i : ℤ) (hi : OnGrid L i) : 0 ≤ (i : ℝ) * h ∧ (i : ℝ) * h ≤ L * h := by
  have h0 : (0 : ℝ) ≤ i := by exact_mod_cast hi.1
  have h1 : (i : ℝ) ≤ L := by exact_mod_cast hi.2
  exact ⟨by positivity, mul_le_mul_of_nonneg_right h1 hh.le⟩

theorem inner_range (L : ℕ) (h : ℝ) (hh : 0 < h) (i : ℤ) (hi : Inner L i) : 0 ≤ (i : ℝ) * h - h ∧ (i : ℝ) * h + h ≤ L * h := by
  have h0 : (1 : ℝ) ≤ i := by exact_mod_cast hi.1
  have h1 : (i : ℝ) + 1 ≤ L := by exact_mod_cast hi.2
  constructor <;> nlinarith

theorem ip (h : ℝ) (i : ℤ) : ((i + 1 : ℤ) : ℝ) * h = i * h + h := by push_cast; ring
theorem im (h : ℝ) (i : ℤ) : ((i - 1 : ℤ) : ℝ) * h = i * h - h := by push_cast; ring

/-- Second differences in one direction. -/
theorem second_x (L : ℕ) (h : ℝ) (hh : 0 < h) (u : ℝ → ℝ → ℝ) (hu : Smooth2 u) (M : ℝ) (hM : Bound (L * h) (Dx (Dx (Dx (Dx u)))) M) (i j : ℤ) (hi : Inner L i) (hj : OnGrid L j) :
    |(sample h u (i + 1) j + sample h u (i - 1) j - 2 * sample h u i j) / h ^ 2 - Dx (Dx u) (i * h) (j * h)| ≤ h ^ 2 * M / 12 := by
  obtain ⟨a, b⟩ := inner_range L h hh i hi
  obtain ⟨c, d⟩ := node_range L h hh j hj
  have := second_bound (f := fun x => u x (j * h)) (f1 := fun x => Dx u x (j * h)) (f2 := fun x => Dx (Dx u) x (j * h)) (f3 := fun x => Dx (Dx (Dx u)) x (j * h)) (f4 := fun x => Dx (Dx (Dx (Dx u))) x (j * h)) (x := i * h) (h := h)
    (fun x _ _ => hu.hasX x _) (fun x _ _ => hu.Dx.hasX x _) (fun x _ _ => hu.Dx.Dx.hasX x _) (fun x _ _ => hu.Dx.Dx.Dx.hasX x _) (M := M) (fun x h1 h2 => hM x _ (by linarith) (by linarith) c d) h hh.le le_rfl
  unfold sample
  rw [ip, im]
  have hp : 0 < h ^ 2 := by positivity
  rw [show (u (i * h + h) (j * h) + u (i * h - h) (j * h) - 2 * u (i * h) (j * h)) / h ^ 2 - Dx (Dx u) (i * h) (j * h) = (u (i * h + h) (j * h) + u (i * h - h) (j * h) - 2 * u (i * h) (j * h) - h ^ 2 * Dx (Dx u) (i * h) (j * h)) / h ^ 2 by field_simp]
  rw [abs_div, abs_of_pos hp, div_le_iff₀ hp]
  refine this.trans (le_of_eq ?_)
  ring

/-- Second differences in the other direction, by exchanging the arguments. -/
theorem second_y (L : ℕ) (h : ℝ) (hh : 0 < h) (u : ℝ → ℝ → ℝ) (hu : Smooth2 u) (M : ℝ) (hM : Bound (L * h) (Dy (Dy (Dy (Dy u)))) M) (i j : ℤ) (hi : OnGrid L i) (hj : Inner L j) :
    |(sample h u i (j + 1) + sample h u i (j - 1) - 2 * sample h u i j) / h ^ 2 - Dy (Dy u) (i * h) (j * h)| ≤ h ^ 2 * M / 12 :=
  second_x L h hh (fun x y => u y x) hu.swap M (fun x y a b c d => hM y x c d a b) j i hj hi

/-- Central differences. -/
theorem central_x (L : ℕ) (h : ℝ) (hh : 0 < h) (u : ℝ → ℝ → ℝ) (hu : Smooth2 u) (M : ℝ) (hM : Bound (L * h) (Dx (Dx (Dx u))) M) (i j : ℤ) (hi : Inner L i) (hj : OnGrid L j) :
    |(sample h u (i + 1) j - sample h u (i - 1) j) / (2 * h) - Dx u (i * h) (j * h)| ≤ h ^ 2 * M / 6 := by
  obtain ⟨a, b⟩ := inner_range L h hh i hi
  obtain ⟨c, d⟩ := node_range L h hh j hj
  have := central_bound (f := fun x => u x (j * h)) (f1 := fun x => Dx u x (j * h)) (f2 := fun x => Dx (Dx u) x (j * h)) (f3 := fun x => Dx (Dx (Dx u)) x (j * h)) (x := i * h) (h := h)
    (fun x _ _ => hu.hasX x _) (fun x _ _ => hu.Dx.hasX x _) (fun x _ _ => hu.Dx.Dx.hasX x _) (M := M) (fun x h1 h2 => hM x _ (by linarith) (by linarith) c d) h hh.le le_rfl
  unfold sample
  rw [ip, im]
  have hp : 0 < 2 * h := by positivity
  rw [show (u (i * h + h) (j * h) - u (i * h - h) (j * h)) / (2 * h) - Dx u (i * h) (j * h) = (u (i * h + h) (j * h) - u (i * h - h) (j * h) - 2 * h * Dx u (i * h) (j * h)) / (2 * h) by field_simp]
  rw [abs_div, abs_of_pos hp, div_le_iff₀ hp]
  refine this.trans (le_of_eq ?_)
  ring

theorem central_y (L : ℕ) (h : ℝ) (hh : 0 < h) (u : ℝ → ℝ → ℝ) (hu : Smooth2 u) (M : ℝ) (hM : Bound (L * h) (Dy (Dy (Dy u))) M) (i j : ℤ) (hi : OnGrid L i) (hj : Inner L j) :
    |(sample h u i (j + 1) - sample h u i (j - 1)) / (2 * h) - Dy u (i * h) (j * h)| ≤ h ^ 2 * M / 6 :=
  central_x L h hh (fun x y => u y x) hu.swap M (fun x y a b c d => hM y x c d a b) j i hj hi

/-- Second differences at a wall with zero normal derivative: first order with a bound on the third derivative, second order where the third derivative vanishes. -/
theorem wall_y (L : ℕ) (hL : 1 ≤ L) (h : ℝ) (hh : 0 < h) (u : ℝ → ℝ → ℝ) (hu : Smooth2 u) (M3 : ℝ) (h3 : Bound (L * h) (Dy (Dy (Dy u))) M3) (i j : ℤ) (hi : OnGrid L i) (hj : j = 0 ∨ j = L) (hn : Dy u (i * h) (j * h) = 0) :
    |(sample h u i (next L j) + sample h u i (prev j) - 2 * sample h u i j) / h ^ 2 - Dy (Dy u) (i * h) (j * h)| ≤ h * M3 / 3 := by
  obtain ⟨c, d⟩ := node_range L h hh i hi
  have hLr : (1 : ℝ) ≤ L := by exact_mod_cast hL
  have hhW : h ≤ L * h := by nlinarith
  have hp : 0 < h ^ 2 := by positivity
  rcases hj with rfl | rfl
  · have e1 : next L 0 = 1 := by unfold next; rw [if_neg (by omega)]; rfl
    have e2 : prev 0 = 1 := by unfold prev; rw [if_pos rfl]
    rw [e1, e2]
    have := taylor3 (fun y => u (i * h) y) (fun y => Dy u (i * h) y) (fun y => Dy (Dy u) (i * h) y) (fun y => Dy (Dy (Dy u)) (i * h) y) 0 h M3 hh.le (fun y _ _ => hu.hasY _ y) (fun y _ _ => hu.Dy.hasY _ y) (fun y _ _ => hu.Dy.Dy.hasY _ y)
      (fun y a b => h3 _ y c d a (by linarith))
    simp only [Int.cast_zero, zero_mul] at hn
    simp only [zero_add, hn, mul_zero, sub_zero] at this
    unfold sample
    simp only [Int.cast_one, one_mul, Int.cast_zero, zero_mul]
    rw [show (u (i * h) h + u (i * h) h - 2 * u (i * h) 0) / h ^ 2 - Dy (Dy u) (i * h) 0 = 2 * (u (i * h) h - u (i * h) 0 - h ^ 2 / 2 * Dy (Dy u) (i * h) 0) / h ^ 2 by field_simp; ring]
    rw [abs_div, abs_of_pos hp, div_le_iff₀ hp, abs_mul, abs_two]
    nlinarith
  · have e1 : next L L = (L : ℤ) - 1 := by unfold next; rw [if_pos rfl]
    have e2 : prev (L : ℤ) = (L : ℤ) - 1 := by unfold prev; rw [if_neg (by omega)]
    rw [e1, e2]
    have d0 : DerivOn (fun y => u (i * h) y) (fun y => Dy u (i * h) y) (L * h - h) (L * h - 0) := fun y _ _ => hu.hasY _ y
    have d1 : DerivOn (fun y => -Dy u (i * h) y) (fun y => -Dy (Dy u) (i * h) y) (L * h - h) (L * h - 0) := fun y _ _ => (hu.Dy.hasY _ y).neg
    have d2 : DerivOn (fun y => Dy (Dy u) (i * h) y) (fun y => Dy (Dy (Dy u)) (i * h) y) (L * h - h) (L * h - 0) := fun y _ _ => hu.Dy.Dy.hasY _ y
    have r0 := d0.reflect (L * h)
    have r1 := d1.reflect (L * h)
    have r2 := d2.reflect (L * h)
    simp only [sub_sub_cancel, sub_zero, sub_self] at r0 r1 r2
    simp only [neg_neg] at r1
    have := taylor3 (fun y => u (i * h) (L * h - y)) (fun y => -Dy u (i * h) (L * h - y)) (fun y => Dy (Dy u) (i * h) (L * h - y)) (fun y => -Dy (Dy (Dy u)) (i * h) (L * h - y)) 0 h M3 hh.le
      (by rw [zero_add]; exact r0) (by rw [zero_add]; exact r1) (by rw [zero_add]; exact r2) (fun y a b => by rw [abs_neg]; exact h3 _ _ c d (by linarith) (by linarith))
    simp only [Int.cast_natCast] at hn
    simp only [zero_add, sub_zero, hn, neg_zero, mul_zero] at this
    unfold sample
    rw [im]
    simp only [Int.cast_natCast]
    rw [show (u (i * h) (L * h - h) + u (i * h) (L * h - h) - 2 * u (i * h) (L * h)) / h ^ 2 - Dy (Dy u) (i * h) (L * h) = 2 * (u (i * h) (L * h - h) - u (i * h) (L * h) - h ^ 2 / 2 * Dy (Dy u) (i * h) (L * h)) / h ^ 2 by field_simp; ring]
    rw [abs_div, abs_of_pos hp, div_le_iff₀ hp, abs_mul, abs_two]
    nlinarith

/-! ### The Dirichlet problem -/

/-- `u` solves `-Δu = S` in the window and vanishes at its walls; the discrete right-hand side is known up to `D`. -/
theorem dirichlet_converge (L : ℕ) (hL : 1 ≤ L) (h : ℝ) (hh : 0 < h) (u S : ℝ → ℝ → ℝ) (hu : Smooth2 u) (M : ℝ) (hx : Bound (L * h) (Dx (Dx (Dx (Dx u)))) M) (hy : Bound (L * h) (Dy (Dy (Dy (Dy u)))) M)
    (hwall : ∀ x y, 0 ≤ x → x ≤ L * h → 0 ≤ y → y ≤ L * h → (x = 0 ∨ x = L * h ∨ y = 0 ∨ y = L * h) → u x y = 0) (heq : ∀ x y, 0 ≤ x → x ≤ L * h → 0 ≤ y → y ≤ L * h → -Lap u x y = S x y)
    (rhs : ℤ → ℤ → ℝ) (D : ℝ) (hD : 0 ≤ D) (hr : ∀ i j, Inner L i → Inner L j → |rhs i j - S (i * h) (j * h)| ≤ D) (i j : ℤ) (hi : OnGrid L i) (hj : OnGrid L j) :
    |dirichletSolve L h rhs i j - u (i * h) (j * h)| ≤ (h ^ 2 * M / 6 + D) * (L * h) ^ 2 / 8 := by
  have hM : 0 ≤ M := (abs_nonneg _).trans (hx 0 0 le_rfl (by positivity) le_rfl (by positivity))
  obtain ⟨s1, s2⟩ := dirichletSolve_spec L hL h hh rhs
  refine dirichlet_stable L hL h hh (h ^ 2 * M / 6 + D) (by positivity) (fun i j => dirichletSolve L h rhs i j - u (i * h) (j * h)) ?_ ?_ i j hi hj
  · intro i j hi hj hij
    beta_reduce
    obtain ⟨a, b⟩ := node_range L h hh i hi
    obtain ⟨c, d⟩ := node_range L h hh j hj
    rw [s2 i j hij, hwall (i * h) (j * h) a b c d (by
      rcases hij with rfl | rfl | rfl | rfl
      · left; simp
      · right; left; simp
      · right; right; left; simp
      · right; right; right; simp), sub_zero]
  · intro i j hi hj
    have hig : OnGrid L i := by unfold Inner OnGrid at *; omega
    have hjg : OnGrid L j := by unfold Inner OnGrid at *; omega
    obtain ⟨a, b⟩ := node_range L h hh i hig
    obtain ⟨c, d⟩ := node_range L h hh j hjg
    have t1 := second_x L h hh u hu M hx i j hi hjg
    have t2 := second_y L h hh u hu M hy i j hig hj
    have t3 := s1 i j hi hj
    have t4 := heq _ _ a b c d
    have t5 := hr i j hi hj
    have e : lapH h (fun i j => dirichletSolve L h rhs i j - u (i * h) (j * h)) i j = -(rhs i j - S (i * h) (j * h)) -
        ((sample h u (i + 1) j + sample h u (i - 1) j - 2 * sample h u i j) / h ^ 2 - Dx (Dx u) (i * h) (j * h)) - ((sample h u i (j + 1) + sample h u i (j - 1) - 2 * sample h u i j) / h ^ 2 - Dy (Dy u) (i * h) (j * h)) := by
      have e2 : lapH h (fun i j => dirichletSolve L h rhs i j - u (i * h) (j * h)) i j = lapH h (dirichletSolve L h rhs) i j -
        (sample h u (i + 1) j + sample h u (i - 1) j - 2 * sample h u i j) / h ^ 2 - (sample h u i (j + 1) + sample h u i (j - 1) - 2 * sample h u i j) / h ^ 2 := by
        unfold lapH sample; ring
      unfold Lap at t4
      rw [e2]; linarith
    rw [e]
    refine (abs_sub _ _).trans ?_
    have := abs_sub (-(rhs i j - S (i * h) (j * h))) ((sample h u (i + 1) j + sample h u (i - 1) j - 2 * sample h u i j) / h ^ 2 - Dx (Dx u) (i * h) (j * h))
    rw [abs_neg] at this
    linarith

/-! ### The mixed problem -/

/-- `u` solves `-Δu + κ u = S` in the window, vanishes at the walls across the first axis and has zero normal derivative at the others. -/
theorem mixed_converge (L : ℕ) (hL : 1 ≤ L) (h κ : ℝ) (hh : 0 < h) (hκ : 0 ≤ κ) (u S : ℝ → ℝ → ℝ) (hu : Smooth2 u) (M M3 : ℝ) (hx : Bound (L * h) (Dx (Dx (Dx (Dx u)))) M) (hy : Bound (L * h) (Dy (Dy (Dy (Dy u)))) M) (h3 : Bound (L * h) (Dy (Dy (Dy u))) M3)
    (hwall : ∀ x y, (x = 0 ∨ x = L * h) → 0 ≤ y → y ≤ L * h → u x y = 0) (hnorm : ∀ x y, 0 ≤ x → x ≤ L * h → (y = 0 ∨ y = L * h) → Dy u x y = 0) (heq : ∀ x y, 0 ≤ x → x ≤ L * h → 0 ≤ y → y ≤ L * h → -Lap u x y + κ * u x y = S x y)
    (rhs : ℤ → ℤ → ℝ) (D : ℝ) (hD : 0 ≤ D) (hr : ∀ i j, Inner L i → OnGrid L j → |rhs i j - S (i * h) (j * h)| ≤ D) (i j : ℤ) (hi : OnGrid L i) (hj : OnGrid L j) :
    |mixSolve L h κ rhs i j - u (i * h) (j * h)| ≤ (h ^ 2 * M / 6 + D) * (L * h) ^ 2 / 8 + h ^ 2 * M3 * (L * h) / 12 := by
  have hM : 0 ≤ M := (abs_nonneg _).trans (hx 0 0 le_rfl (by positivity) le_rfl (by positivity))
  have hM3 : 0 ≤ M3 := (abs_nonneg _).trans (h3 0 0 le_rfl (by positivity) le_rfl (by positivity))
  obtain ⟨s1, s2⟩ := mixSolve_spec L hL h κ hh hκ rhs
  have split : h ^ 2 * M3 * (L * h) / 12 = (h * M3 / 3) * h * (L * h) / 4 := by ring
  rw [split]
  have lapE : ∀ i j, lapM L h (fun i j => mixSolve L h κ rhs i j - u (i * h) (j * h)) i j = lapM L h (mixSolve L h κ rhs) i j -
      (sample h u (i + 1) j + sample h u (i - 1) j - 2 * sample h u i j) / h ^ 2 - (sample h u i (next L j) + sample h u i (prev j) - 2 * sample h u i j) / h ^ 2 := by
    intro i j; unfold lapM sample; ring
  -- the residual at any node where the second difference along the second axis is known up to `Y`
  have res : ∀ i j Y, Inner L i → OnGrid L j → |(sample h u i (next L j) + sample h u i (prev j) - 2 * sample h u i j) / h ^ 2 - Dy (Dy u) (i * h) (j * h)| ≤ Y →
      |lapM L h (fun i j => mixSolve L h κ rhs i j - u (i * h) (j * h)) i j - κ * (mixSolve L h κ rhs i j - u (i * h) (j * h))| ≤ h ^ 2 * M / 12 + D + Y := by
    intro i j Y hi hjg hY
    have hig : OnGrid L i := by unfold Inner OnGrid at *; omega
    obtain ⟨a, b⟩ := node_range L h hh i hig
    obtain ⟨c, d⟩ := node_range L h hh j hjg
    have t1 := second_x L h hh u hu M hx i j hi hjg
    have t3 := s1 i j hi hjg
    have t4 := heq _ _ a b c d
    have t5 := hr i j hi hjg
    have e : lapM L h (fun i j => mixSolve L h κ rhs i j - u (i * h) (j * h)) i j - κ * (mixSolve L h κ rhs i j - u (i * h) (j * h)) = -(rhs i j - S (i * h) (j * h)) -
        ((sample h u (i + 1) j + sample h u (i - 1) j - 2 * sample h u i j) / h ^ 2 - Dx (Dx u) (i * h) (j * h)) - ((sample h u i (next L j) + sample h u i (prev j) - 2 * sample h u i j) / h ^ 2 - Dy (Dy u) (i * h) (j * h)) := by
      unfold Lap at t4
      rw [lapE]; linarith
    rw [e]
    refine (abs_sub _ _).trans ?_
    have := abs_sub (-(rhs i j - S (i * h) (j * h))) ((sample h u (i + 1) j + sample h u (i - 1) j - 2 * sample h u i j) / h ^ 2 - Dx (Dx u) (i * h) (j * h))
    rw [abs_neg] at this
    linarith
  refine mixed_stable L hL h κ hh hκ (h ^ 2 * M / 6 + D) (h * M3 / 3) (by positivity) (by positivity) (fun i j => mixSolve L h κ rhs i j - u (i * h) (j * h)) ?_ ?_ ?_ i j hi hj
  · intro i j hij hj
    beta_reduce
    obtain ⟨c, d⟩ := node_range L h hh j hj
    rw [s2 i j hij, hwall (i * h) (j * h) (by
      rcases hij with rfl | rfl
      · left; simp
      · right; simp) c d, sub_zero]
  · intro i j hi hj
    have hig : OnGrid L i := by unfold Inner OnGrid at *; omega
    have hjg : OnGrid L j := by unfold Inner OnGrid at *; omega
    have e1 : next L j = j + 1 := by unfold next; rw [if_neg (by unfold Inner at *; omega)]
    have e2 : prev j = j - 1 := by unfold prev; rw [if_neg (by unfold Inner at *; omega)]
    have := res i j (h ^ 2 * M / 12) hi hjg (by rw [e1, e2]; exact second_y L h hh u hu M hy i j hig hj)
    linarith
  · intro i j hi hj
    have hig : OnGrid L i := by unfold Inner OnGrid at *; omega
    have hjg : OnGrid L j := by unfold OnGrid; omega
    obtain ⟨a, b⟩ := node_range L h hh i hig
    have := res i j _ hi hjg (wall_y L hL h hh u hu M3 h3 i j hig hj (hnorm _ _ a b (by
      rcases hj with rfl | rfl
      · left; simp
      · right; simp)))
    have : 0 ≤ h ^ 2 * M / 12 := by positivity
    linarith

end Lcode.Plasma3D
