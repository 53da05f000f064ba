import Verif.Plasma3D.Converge
import Mathlib.Analysis.SpecialFunctions.Trigonometric.Bounds
import Mathlib.MeasureTheory.Integral.IntervalIntegral.Basic
import Mathlib.MeasureTheory.Integral.IntervalIntegral.FundThmCalculus
import Mathlib.Analysis.Calculus.ParametricIntervalIntegral

/-!
Convergence of B_z in the 3D code, property C66: the Neumann problem. There is no maximum principle; the error is bounded in the mean square by Parseval's identity for the cosine transform and the smallest positive eigenvalue of the discrete Laplacian, then at every node.
-/

namespace Lcode.Plasma3D

open Lcode.Num Finset

/-! ### Trapezoidal sums -/

theorem trap_mono (L : ℕ) (f g : ℤ → ℝ) (h : ∀ k : ℤ, 0 ≤ k → k ≤ L → f k ≤ g k) : trap L f ≤ trap L g := by
  unfold trap
  refine Finset.sum_le_sum fun k hk => ?_
  rw [Finset.mem_range] at hk
  exact add_le_add (h k (by omega) (by omega)) (h (k + 1) (by omega) (by omega))

theorem trap_const (L : ℕ) (c : ℝ) : trap L (fun _ => c) = 2 * L * c := by
  unfold trap; rw [Finset.sum_const, Finset.card_range, nsmul_eq_mul]; ring

theorem trap_ge (L : ℕ) (hL : 1 ≤ L) (f : ℤ → ℝ) (h : ∀ k : ℤ, 0 ≤ k → k ≤ L → 0 ≤ f k) (i : ℤ) (hi : OnGrid L i) : f i ≤ trap L f := by
  unfold trap
  obtain ⟨h0, h1⟩ := hi
  by_cases hl : i < L
  · have := Finset.single_le_sum (f := fun k : ℕ => f k + f (k + 1)) (s := range L) (fun k hk => by
      rw [mem_range] at hk
      exact add_nonneg (h k (by omega) (by omega)) (h (k + 1) (by omega) (by omega))) (a := i.toNat) (by rw [mem_range]; omega)
    have e : ((i.toNat : ℕ) : ℤ) = i := Int.toNat_of_nonneg h0
    beta_reduce at this
    rw [e] at this
    linarith [h (i + 1) (by omega) (by omega)]
  · have := Finset.single_le_sum (f := fun k : ℕ => f k + f (k + 1)) (s := range L) (fun k hk => by
      rw [mem_range] at hk
      exact add_nonneg (h k (by omega) (by omega)) (h (k + 1) (by omega) (by omega))) (a := L - 1) (by rw [mem_range]; omega)
    have e : (((L - 1 : ℕ) : ℕ) : ℤ) = i - 1 := by omega
    beta_reduce at this
    rw [e, sub_add_cancel] at this
    linarith [h (i - 1) (by omega) (by omega)]

/-- Twofold sums. -/
noncomputable def trap2 (L : ℕ) (f : ℤ → ℤ → ℝ) : ℝ := trap L fun i => trap L fun j => f i j

theorem trap2_mono (L : ℕ) (f g : ℤ → ℤ → ℝ) (h : ∀ i j, OnGrid L i → OnGrid L j → f i j ≤ g i j) : trap2 L f ≤ trap2 L g :=
  trap_mono L _ _ fun i a b => trap_mono L _ _ fun j c d => h i j ⟨a, b⟩ ⟨c, d⟩

theorem trap2_congr (L : ℕ) (f g : ℤ → ℤ → ℝ) (h : ∀ i j, OnGrid L i → OnGrid L j → f i j = g i j) : trap2 L f = trap2 L g :=
  trap_congr L _ _ fun i a b => trap_congr L _ _ fun j c d => h i j ⟨a, b⟩ ⟨c, d⟩

theorem trap2_mul (L : ℕ) (c : ℝ) (f : ℤ → ℤ → ℝ) : trap2 L (fun i j => c * f i j) = c * trap2 L f := by
  unfold trap2
  simp only [trap_mul]

theorem trap2_const (L : ℕ) (c : ℝ) : trap2 L (fun _ _ => c) = (2 * L) ^ 2 * c := by
  unfold trap2; rw [trap_const, trap_const]; ring

theorem trap2_ge (L : ℕ) (hL : 1 ≤ L) (f : ℤ → ℤ → ℝ) (h : ∀ i j, OnGrid L i → OnGrid L j → 0 ≤ f i j) (i j : ℤ) (hi : OnGrid L i) (hj : OnGrid L j) : f i j ≤ trap2 L f := by
  refine (trap_ge L hL (fun j => f i j) (fun j a b => h i j hi ⟨a, b⟩) j hj).trans ?_
  refine trap_ge L hL (fun i => trap L fun j => f i j) (fun i a b => ?_) i hi
  have := trap_mono L (fun _ => 0) (fun j => f i j) (fun j c d => h i j ⟨a, b⟩ ⟨c, d⟩)
  rw [trap_const, mul_zero] at this
  exact this

/-! ### Parseval's identity -/

theorem parseval1 (L : ℕ) (hL : 1 ≤ L) (u : ℤ → ℝ) : trap L (fun k => dct1 L u k ^ 2) = 2 * L * trap L (fun n => u n ^ 2) := by
  have e1 : trap L (fun k => dct1 L u k ^ 2) = trap L (fun k => trap L (fun n => u n * (dct1 L u k * Real.cos (Real.pi * k * n / L)))) := by
    apply trap_congr
    intro k _ _
    rw [sq]
    nth_rewrite 1 [dct1_trap L hL u k]
    rw [← trap_mul_right]
    apply trap_congr
    intro n _ _
    ring
  rw [e1, trap_comm, ← trap_mul]
  apply trap_congr
  intro n h0 h1
  rw [trap_mul]
  have e2 : trap L (fun k => dct1 L u k * Real.cos (Real.pi * k * n / L)) = dct1 L (dct1 L u) n := by
    rw [dct1_trap L hL (dct1 L u) n]
    apply trap_congr
    intro k _ _
    congr 2
    ring
  rw [e2, dct1_dct1 L hL u n h0 h1]
  ring

theorem parseval2 (L : ℕ) (hL : 1 ≤ L) (u : ℤ → ℤ → ℝ) : trap2 L (fun k l => dct2 L u k l ^ 2) = (2 * L) ^ 2 * trap2 L (fun i j => u i j ^ 2) := by
  unfold trap2 dct2
  rw [trap_comm]
  have e : (fun l : ℤ => trap L fun k => dct1 L (fun n => dct1 L (fun m => u n m) l) k ^ 2) = fun l => 2 * L * trap L (fun n => dct1 L (fun m => u n m) l ^ 2) := by
    funext l; exact parseval1 L hL _
  rw [e, trap_mul, trap_comm]
  have e2 : (fun n : ℤ => trap L fun l => dct1 L (fun m => u n m) l ^ 2) = fun n => 2 * L * trap L (fun m => u n m ^ 2) := by
    funext n; exact parseval1 L hL _
  rw [e2, trap_mul]
  ring

/-! ### The smallest positive eigenvalue -/

theorem lam_nonneg (L : ℕ) (h : ℝ) (k : ℤ) : 0 ≤ lam L h k := by unfold lam; positivity

theorem lam_ge (L : ℕ) (hL : 1 ≤ L) (h : ℝ) (hh : 0 < h) (k : ℤ) (h1 : 1 ≤ k) (h2 : k ≤ L) : 4 / (L * h) ^ 2 ≤ lam L h k := by
  have hLr : (0 : ℝ) < L := by exact_mod_cast hL
  have hk : (1 : ℝ) ≤ k := by exact_mod_cast h1
  have hk2 : (k : ℝ) ≤ L := by exact_mod_cast h2
  have hs : 1 / (L : ℝ) ≤ Real.sin (k * Real.pi / (2 * L)) := by
    have h0 : 0 ≤ k * Real.pi / (2 * L) := by have := Real.pi_pos; positivity
    have h3 : k * Real.pi / (2 * L) ≤ Real.pi / 2 := by
      rw [div_le_div_iff₀ (by positivity) (by norm_num)]
      nlinarith [Real.pi_pos]
    have := Real.mul_le_sin h0 h3
    refine le_trans ?_ this
    have e : 2 / Real.pi * (k * Real.pi / (2 * L)) = k / L := by have := Real.pi_ne_zero; field_simp
    rw [e]
    exact div_le_div_of_nonneg_right hk hLr.le
  have hs2 : (1 / (L : ℝ)) ^ 2 ≤ Real.sin (k * Real.pi / (2 * L)) ^ 2 := pow_le_pow_left₀ (by positivity) hs 2
  unfold lam
  have := mul_le_mul_of_nonneg_left hs2 (by positivity : 0 ≤ 4 / h ^ 2)
  refine le_trans (le_of_eq ?_) this
  field_simp

/-! ### Stability -/

/-- The cosine expansion of the operator with zero normal derivative. -/
theorem lapN_dct (L : ℕ) (hL : 1 ≤ L) (h : ℝ) (hh : 0 < h) (g : ℤ → ℤ → ℝ) (i j : ℤ) : lapN L h (dct2 L g) i j = -dct2 L (fun k l => (lam L h k + lam L h l) * g k l) i j := by
  obtain ⟨m1, m2, m3, m4⟩ := dct2_mirror L hL g i j
  unfold lapN
  rw [m1, m2, m3, m4]
  have e := dct2_lap L hL g i j
  unfold lap5 at e
  have e2 : dct2 L (fun k l => (lam L h k + lam L h l) * g k l) i j = 1 / h ^ 2 * dct2 L (fun k l => (lam0 L k + lam0 L l) * g k l) i j := by
    unfold dct2
    rw [← dct1_mul]
    congr 1
    funext n
    rw [← dct1_mul]
    congr 1
    funext m
    beta_reduce
    rw [lam_lam0, lam_lam0]
    ring
  rw [e2, ← e]
  ring

theorem dct2_scale (L : ℕ) (c : ℝ) (u : ℤ → ℤ → ℝ) (k l : ℤ) : dct2 L (fun n m => c * u n m) k l = c * dct2 L u k l := by
  unfold dct2
  rw [← dct1_mul]
  congr 1
  funext n
  rw [← dct1_mul]

theorem dct2_addf (L : ℕ) (u v : ℤ → ℤ → ℝ) (k l : ℤ) : dct2 L (fun n m => u n m + v n m) k l = dct2 L u k l + dct2 L v k l := by
  unfold dct2
  rw [← dct1_add]
  congr 1
  funext n
  rw [← dct1_add]

/-- The transform of a single coefficient at the origin is constant. -/
theorem dct2_origin (L : ℕ) (hL : 1 ≤ L) (c : ℝ) (i j : ℤ) : dct2 L (fun k l => if k = 0 ∧ l = 0 then c else 0) i j = c := by
  have hL0 : ¬ (L : ℤ) = 0 := by omega
  have e : ∀ n : ℤ, dct1 L (fun m => if n = 0 ∧ m = 0 then c else 0) j = if n = 0 then c else 0 := by
    intro n
    unfold dct1
    have hs : ∑ m ∈ Finset.Ico 1 (L : ℤ), (if n = 0 ∧ m = 0 then c else 0) * Real.cos (Real.pi * j * m / L) = 0 := by
      apply Finset.sum_eq_zero
      intro m hm
      rw [Finset.mem_Ico] at hm
      rw [if_neg (by omega), zero_mul]
    rw [hs]
    by_cases hn : n = 0 <;> simp [hn, hL0]
    intro hcon; omega
  unfold dct2
  simp only [e]
  unfold dct1
  have hs : ∑ m ∈ Finset.Ico 1 (L : ℤ), (if m = 0 then c else 0) * Real.cos (Real.pi * i * m / L) = 0 := by
    apply Finset.sum_eq_zero
    intro m hm
    rw [Finset.mem_Ico] at hm
    rw [if_neg (by omega), zero_mul]
  rw [hs]
  simp [hL0]
  intro hcon; omega

theorem lapN_congr (L : ℕ) (hL : 1 ≤ L) (h : ℝ) (u v : ℤ → ℤ → ℝ) (huv : ∀ i j, OnGrid L i → OnGrid L j → u i j = v i j) (i j : ℤ) (hi : OnGrid L i) (hj : OnGrid L j) : lapN L h u i j = lapN L h v i j := by
  unfold lapN
  rw [huv _ _ (next_onGrid L hL i hi) hj, huv _ _ (prev_onGrid L hL i hi) hj, huv _ _ hi (next_onGrid L hL j hj), huv _ _ hi (prev_onGrid L hL j hj), huv _ _ hi hj]

/-- Stability of the Neumann problem: if the discrete Laplacian of `e` is at most `A` at every node, `e` differs from some constant by at most `A W³ / (2 h)`. -/
theorem neumann_stable (L : ℕ) (hL : 1 ≤ L) (h : ℝ) (hh : 0 < h) (A : ℝ) (hA : 0 ≤ A) (e : ℤ → ℤ → ℝ) (hr : ∀ i j, OnGrid L i → OnGrid L j → |lapN L h e i j| ≤ A) :
    ∃ c, ∀ i j, OnGrid L i → OnGrid L j → |e i j - c| ≤ A * (L * h) ^ 3 / (2 * h) := by
  have hLr : (0 : ℝ) < L := by exact_mod_cast hL
  set g : ℤ → ℤ → ℝ := fun k l => 1 / (2 * L) ^ 2 * dct2 L e k l with hg
  have hge : ∀ i j, OnGrid L i → OnGrid L j → dct2 L g i j = e i j := by
    intro i j hi hj
    rw [hg, dct2_scale, dct2_dct2 L hL e i j hi hj]
    field_simp
  set g' : ℤ → ℤ → ℝ := fun k l => if k = 0 ∧ l = 0 then 0 else g k l with hg'
  have hsplit : ∀ i j, OnGrid L i → OnGrid L j → e i j - g 0 0 = dct2 L g' i j := by
    intro i j hi hj
    rw [← hge i j hi hj]
    have : g = fun k l => g' k l + (if k = 0 ∧ l = 0 then g 0 0 else 0) := by
      funext k l
      simp only [hg']
      by_cases hkl : k = 0 ∧ l = 0
      · rw [if_pos hkl, if_pos hkl, hkl.1, hkl.2, zero_add]
      · rw [if_neg hkl, if_neg hkl, add_zero]
    nth_rewrite 1 [this]
    rw [dct2_addf, dct2_origin L hL]
    ring
  refine ⟨g 0 0, fun i j hi hj => ?_⟩
  rw [hsplit i j hi hj]
  -- the transform of the residual
  have hres : ∀ i j, OnGrid L i → OnGrid L j → lapN L h e i j = -dct2 L (fun k l => (lam L h k + lam L h l) * g k l) i j := by
    intro i j hi hj
    rw [← lapN_dct L hL h hh g i j]
    exact lapN_congr L hL h e (dct2 L g) (fun a b ha hb => (hge a b ha hb).symm) i j hi hj
  have hW : 0 < (L : ℝ) * h := by positivity
  -- squares of the coefficients
  have hcoef : ∀ k l, OnGrid L k → OnGrid L l → g' k l ^ 2 ≤ ((L * h) ^ 2 / 4) ^ 2 * ((lam L h k + lam L h l) * g k l) ^ 2 := by
    intro k l hk hl
    simp only [hg']
    by_cases hkl : k = 0 ∧ l = 0
    · rw [if_pos hkl]
      have : (0 : ℝ) ^ 2 = 0 := by norm_num
      rw [this]; positivity
    · rw [if_neg hkl]
      have hlam : 4 / (L * h) ^ 2 ≤ lam L h k + lam L h l := by
        by_cases hk0 : k = 0
        · have := lam_ge L hL h hh l (by have := hl.1; omega) hl.2
          linarith [lam_nonneg L h k]
        · have := lam_ge L hL h hh k (by have := hk.1; omega) hk.2
          linarith [lam_nonneg L h l]
      have h1 : 1 ≤ (L * h) ^ 2 / 4 * (lam L h k + lam L h l) := by
        have := mul_le_mul_of_nonneg_left hlam (by positivity : 0 ≤ (L * h) ^ 2 / 4)
        refine le_trans (le_of_eq ?_) this
        field_simp
      have h2 : 1 ≤ ((L * h) ^ 2 / 4 * (lam L h k + lam L h l)) ^ 2 := one_le_pow₀ h1
      have := mul_le_mul_of_nonneg_right h2 (sq_nonneg (g k l))
      rw [one_mul] at this
      refine this.trans (le_of_eq ?_)
      ring
  have t1 : trap2 L (fun i j => dct2 L g' i j ^ 2) ≤ ((L * h) ^ 2 / 4) ^ 2 * trap2 L (fun i j => lapN L h e i j ^ 2) := by
    rw [parseval2 L hL g']
    have s1 := trap2_mono L _ _ hcoef
    rw [trap2_mul] at s1
    have s2 : trap2 L (fun i j => lapN L h e i j ^ 2) = (2 * L) ^ 2 * trap2 L (fun k l => ((lam L h k + lam L h l) * g k l) ^ 2) := by
      rw [← parseval2 L hL]
      apply trap2_congr
      intro i j hi hj
      rw [hres i j hi hj, neg_sq]
    rw [s2]
    have := mul_le_mul_of_nonneg_left s1 (by positivity : (0 : ℝ) ≤ (2 * L) ^ 2)
    refine this.trans (le_of_eq ?_)
    ring
  have t2 : trap2 L (fun i j => lapN L h e i j ^ 2) ≤ (2 * L) ^ 2 * A ^ 2 := by
    rw [← trap2_const]
    apply trap2_mono
    intro i j hi hj
    rw [← sq_abs]
    exact pow_le_pow_left₀ (abs_nonneg _) (hr i j hi hj) 2
  have t3 : dct2 L g' i j ^ 2 ≤ ((L * h) ^ 2 / 4) ^ 2 * ((2 * L) ^ 2 * A ^ 2) :=
    (trap2_ge L hL (fun i j => dct2 L g' i j ^ 2) (fun _ _ _ _ => sq_nonneg _) i j hi hj).trans (t1.trans (mul_le_mul_of_nonneg_left t2 (by positivity)))
  have e3 : ((L * h) ^ 2 / 4) ^ 2 * ((2 * L) ^ 2 * A ^ 2) = (A * (L * h) ^ 3 / (2 * h)) ^ 2 := by field_simp; ring
  rw [e3] at t3
  exact abs_le_of_sq_le_sq t3 (by positivity)

/-! ### Consistency at the walls -/

/-- A smooth function that vanishes on a segment has vanishing derivative there, ends included. -/
theorem deriv_zero_on (f : ℝ → ℝ) (f' : ℝ) (a b x : ℝ) (hab : a < b) (hx : x ∈ Set.Icc a b) (hf : HasDerivAt f f' x) (h0 : ∀ y ∈ Set.Icc a b, f y = 0) : f' = 0 := by
  have h1 : HasDerivWithinAt f f' (Set.Icc a b) x := hf.hasDerivWithinAt
  have h2 : HasDerivWithinAt f 0 (Set.Icc a b) x := (hasDerivWithinAt_const x (Set.Icc a b) (0 : ℝ)).congr h0 (h0 x hx)
  exact (uniqueDiffOn_Icc hab x hx).eq_deriv _ h1 h2

/-- Where the Laplacian vanishes near a wall with zero normal derivative, the third normal derivative vanishes on the wall. -/
theorem third_zero (W δ : ℝ) (hδ : 0 < δ) (hW : 0 < W) (u : ℝ → ℝ → ℝ) (hu : Smooth2 u) (y0 lo : ℝ) (hy0 : y0 ∈ Set.Icc lo (lo + δ)) (hn : ∀ x, 0 ≤ x → x ≤ W → Dy u x y0 = 0)
    (hlap : ∀ x y, 0 ≤ x → x ≤ W → lo ≤ y → y ≤ lo + δ → Lap u x y = 0) (x : ℝ) (hx0 : 0 ≤ x) (hx1 : x ≤ W) : Dy (Dy (Dy u)) x y0 = 0 := by
  have h1 : Dy (Lap u) x y0 = 0 := deriv_zero_on (fun y => Lap u x y) _ lo (lo + δ) y0 (by linarith) hy0 (hu.Lap.hasY x y0) (fun y hy => hlap x y hx0 hx1 hy.1 hy.2)
  have h2 : Dy (Lap u) x y0 = Dy (Dx (Dx u)) x y0 + Dy (Dy (Dy u)) x y0 := ((hu.Dx.Dx.hasY x y0).add (hu.Dy.Dy.hasY x y0)).deriv
  have hcomm : Dy (Dx u) = Dx (Dy u) := by funext a b; exact (hu.comm a b).symm
  have h3 : Dy (Dx (Dx u)) x y0 = Dx (Dx (Dy u)) x y0 := by rw [← hu.Dx.comm, hcomm]
  have h4 : ∀ s, 0 ≤ s → s ≤ W → Dx (Dy u) s y0 = 0 := fun s a b => deriv_zero_on (fun t => Dy u t y0) _ 0 W s hW ⟨a, b⟩ (hu.Dy.hasX s y0) (fun t ht => hn t ht.1 ht.2)
  have h5 : Dx (Dx (Dy u)) x y0 = 0 := deriv_zero_on (fun t => Dx (Dy u) t y0) _ 0 W x hW ⟨hx0, hx1⟩ (hu.Dy.Dx.hasX x y0) (fun t ht => h4 t ht.1 ht.2)
  linarith

/-- Second differences at a wall, second order. -/
theorem wall_y4 (L : ℕ) (hL : 1 ≤ L) (h : ℝ) (hh : 0 < h) (u : ℝ → ℝ → ℝ) (hu : Smooth2 u) (M : ℝ) (h4 : Bound (L * h) (Dy (Dy (Dy (Dy u)))) M) (i j : ℤ) (hi : OnGrid L i) (hj : j = 0 ∨ j = L) (hn : Dy u (i * h) (j * h) = 0) (hn3 : Dy (Dy (Dy u)) (i * h) (j * h) = 0) :
    |(sample h u i (next L j) + sample h u i (prev j) - 2 * sample h u i j) / h ^ 2 - Dy (Dy u) (i * h) (j * h)| ≤ h ^ 2 * M / 12 := by
  obtain ⟨c, d⟩ := node_range L h hh i hi
  have hLr : (1 : ℝ) ≤ L := by exact_mod_cast hL
  have hhW : h ≤ L * h := by nlinarith
  have hp : 0 < h ^ 2 := by positivity
  rcases hj with rfl | rfl
  · have e1 : next L 0 = 1 := by unfold next; rw [if_neg (by omega)]; rfl
    have e2 : prev 0 = 1 := by unfold prev; rw [if_pos rfl]
    rw [e1, e2]
    simp only [Int.cast_zero, zero_mul] at hn hn3
    have := taylor4 (fun y => u (i * h) y) (fun y => Dy u (i * h) y) (fun y => Dy (Dy u) (i * h) y) (fun y => Dy (Dy (Dy u)) (i * h) y) (fun y => Dy (Dy (Dy (Dy u))) (i * h) y) 0 h M hh.le (fun y _ _ => hu.hasY _ y) (fun y _ _ => hu.Dy.hasY _ y) (fun y _ _ => hu.Dy.Dy.hasY _ y)
      (fun y _ _ => hu.Dy.Dy.Dy.hasY _ y) (fun y a b => h4 _ y c d a (by linarith)) hn3
    simp only [zero_add, hn, mul_zero, sub_zero] at this
    unfold sample
    simp only [Int.cast_one, one_mul, Int.cast_zero, zero_mul]
    rw [show (u (i * h) h + u (i * h) h - 2 * u (i * h) 0) / h ^ 2 - Dy (Dy u) (i * h) 0 = 2 * (u (i * h) h - u (i * h) 0 - h ^ 2 / 2 * Dy (Dy u) (i * h) 0) / h ^ 2 by field_simp; ring]
    rw [abs_div, abs_of_pos hp, div_le_iff₀ hp, abs_mul, abs_two]
    nlinarith
  · have e1 : next L L = (L : ℤ) - 1 := by unfold next; rw [if_pos rfl]
    have e2 : prev (L : ℤ) = (L : ℤ) - 1 := by unfold prev; rw [if_neg (by omega)]
    rw [e1, e2]
    have d0 : DerivOn (fun y => u (i * h) y) (fun y => Dy u (i * h) y) (L * h - h) (L * h - 0) := fun y _ _ => hu.hasY _ y
    have d1 : DerivOn (fun y => -Dy u (i * h) y) (fun y => -Dy (Dy u) (i * h) y) (L * h - h) (L * h - 0) := fun y _ _ => (hu.Dy.hasY _ y).neg
    have d2 : DerivOn (fun y => Dy (Dy u) (i * h) y) (fun y => Dy (Dy (Dy u)) (i * h) y) (L * h - h) (L * h - 0) := fun y _ _ => hu.Dy.Dy.hasY _ y
    have d3 : DerivOn (fun y => -Dy (Dy (Dy u)) (i * h) y) (fun y => -Dy (Dy (Dy (Dy u))) (i * h) y) (L * h - h) (L * h - 0) := fun y _ _ => (hu.Dy.Dy.Dy.hasY _ y).neg
    have r0 := d0.reflect (L * h)
    have r1 := d1.reflect (L * h)
    have r2 := d2.reflect (L * h)
    have r3 := d3.reflect (L * h)
    simp only [sub_sub_cancel, sub_zero, sub_self] at r0 r1 r2 r3
    simp only [neg_neg] at r1 r3
    simp only [Int.cast_natCast] at hn hn3
    have := taylor4 (fun y => u (i * h) (L * h - y)) (fun y => -Dy u (i * h) (L * h - y)) (fun y => Dy (Dy u) (i * h) (L * h - y)) (fun y => -Dy (Dy (Dy u)) (i * h) (L * h - y)) (fun y => Dy (Dy (Dy (Dy u))) (i * h) (L * h - y)) 0 h M hh.le
      (by rw [zero_add]; exact r0) (by rw [zero_add]; exact r1) (by rw [zero_add]; exact r2) (by rw [zero_add]; exact r3) (fun y a b => h4 _ _ c d (by linarith) (by linarith)) (by simp only [sub_zero, hn3, neg_zero])
    simp only [zero_add, sub_zero, hn, neg_zero, mul_zero] at this
    unfold sample
    rw [im]
    simp only [Int.cast_natCast]
    rw [show (u (i * h) (L * h - h) + u (i * h) (L * h - h) - 2 * u (i * h) (L * h)) / h ^ 2 - Dy (Dy u) (i * h) (L * h) = 2 * (u (i * h) (L * h - h) - u (i * h) (L * h) - h ^ 2 / 2 * Dy (Dy u) (i * h) (L * h)) / h ^ 2 by field_simp; ring]
    rw [abs_div, abs_of_pos hp, div_le_iff₀ hp, abs_mul, abs_two]
    nlinarith

/-! ### The mean value -/

theorem sum_Icc_range (L : ℕ) (f : ℤ → ℝ) : ∑ i ∈ Finset.Icc (0 : ℤ) L, f i = ∑ i ∈ range (L + 1), f i := by
  induction L with
  | zero => simp
  | succ L ih =>
    rw [Finset.sum_range_succ, ← ih]
    have : Finset.Icc (0 : ℤ) ((L + 1 : ℕ) : ℤ) = insert ((L + 1 : ℕ) : ℤ) (Finset.Icc (0 : ℤ) L) := by
      ext k; simp only [Finset.mem_Icc, Finset.mem_insert]; omega
    rw [this, Finset.sum_insert (by simp)]
    ring

/-- The sum over the nodes, the last one included, against the integral of a Lipschitz function. -/
theorem rect_sum (L : ℕ) (h : ℝ) (hh : 0 < h) (φ : ℝ → ℝ) (hφ : Continuous φ) (K M : ℝ) (hK : ∀ x y, 0 ≤ x → x ≤ L * h → 0 ≤ y → y ≤ L * h → |φ x - φ y| ≤ K * |x - y|) (hM : ∀ x, 0 ≤ x → x ≤ L * h → |φ x| ≤ M) :
    |h * ∑ i ∈ Finset.Icc (0 : ℤ) L, φ (i * h) - ∫ x in (0 : ℝ)..(L * h), φ x| ≤ h * (L * h * K + M) := by
  have hK0 : 0 ≤ K ∨ L = 0 := by
    rcases Nat.eq_zero_or_pos L with h0 | h0
    · right; exact h0
    · left
      have hL : (0 : ℝ) < L := by exact_mod_cast h0
      have := (abs_nonneg _).trans (hK (L * h) 0 (by positivity) le_rfl le_rfl (by positivity))
      rw [sub_zero] at this
      exact nonneg_of_mul_nonneg_left this (abs_pos.mpr (by positivity))
  have hint : ∀ a b : ℝ, IntervalIntegrable φ MeasureTheory.volume a b := fun a b => hφ.intervalIntegrable a b
  have key : ∀ n : ℕ, n ≤ L → |h * ∑ i ∈ range n, φ (((i : ℤ) : ℝ) * h) - ∫ x in (0 : ℝ)..(n * h), φ x| ≤ n * (K * h ^ 2) := by
    intro n
    induction n with
    | zero => intro _; simp
    | succ n ih =>
      intro hn
      have ih := ih (by omega)
      have hn' : (n : ℝ) + 1 ≤ L := by exact_mod_cast hn
      have h0 : 0 ≤ (n : ℝ) * h := by positivity
      have h1 : (n : ℝ) * h + h ≤ L * h := by nlinarith
      have hcell : |h * φ (n * h) - ∫ x in (n * h)..(n * h + h), φ x| ≤ K * h ^ 2 := by
        have e : h * φ (n * h) - ∫ x in (n * h)..(n * h + h), φ x = ∫ x in (n * h)..(n * h + h), (φ (n * h) - φ x) := by
          rw [intervalIntegral.integral_sub (intervalIntegrable_const) (hint _ _), intervalIntegral.integral_const]
          simp
        rw [e]
        have := intervalIntegral.norm_integral_le_of_norm_le_const (f := fun x => φ (n * h) - φ x) (a := n * h) (b := n * h + h) (C := K * h) (fun x hx => by
          rw [Set.uIoc_of_le (by linarith)] at hx
          rw [Real.norm_eq_abs]
          refine (hK _ _ h0 (by linarith) (by linarith [hx.1]) (by linarith [hx.2])).trans ?_
          have hKp : 0 ≤ K := hK0.resolve_right (by omega)
          apply mul_le_mul_of_nonneg_left _ hKp
          rw [abs_le]; constructor <;> linarith [hx.1, hx.2])
        rw [Real.norm_eq_abs, add_sub_cancel_left, abs_of_pos hh] at this
        refine this.trans (le_of_eq (by ring))
      rw [Finset.sum_range_succ]
      have e : ((n + 1 : ℕ) : ℝ) * h = n * h + h := by push_cast; ring
      rw [e, ← intervalIntegral.integral_add_adjacent_intervals (hint 0 (n * h)) (hint (n * h) (n * h + h))]
      have e2 : h * (∑ i ∈ range n, φ (((i : ℤ) : ℝ) * h) + φ (((n : ℤ) : ℝ) * h)) - ((∫ x in (0 : ℝ)..(n * h), φ x) + ∫ x in (n * h)..(n * h + h), φ x) =
          (h * ∑ i ∈ range n, φ (((i : ℤ) : ℝ) * h) - ∫ x in (0 : ℝ)..(n * h), φ x) + (h * φ (n * h) - ∫ x in (n * h)..(n * h + h), φ x) := by
        push_cast; ring
      rw [e2]
      refine (abs_add_le _ _).trans ((add_le_add ih hcell).trans (le_of_eq ?_))
      push_cast; ring
  rw [sum_Icc_range, Finset.sum_range_succ]
  have e : h * (∑ i ∈ range L, φ (((i : ℤ) : ℝ) * h) + φ (((L : ℤ) : ℝ) * h)) - ∫ x in (0 : ℝ)..(L * h), φ x = (h * ∑ i ∈ range L, φ (((i : ℤ) : ℝ) * h) - ∫ x in (0 : ℝ)..(L * h), φ x) + h * φ (L * h) := by
    push_cast; ring
  rw [e]
  refine (abs_add_le _ _).trans ?_
  rw [abs_mul, abs_of_pos hh]
  have t := hM (L * h) (by positivity) le_rfl
  have := mul_le_mul_of_nonneg_left t hh.le
  refine (add_le_add (key L le_rfl) this).trans (le_of_eq ?_)
  ring

/-- The difference of two values of a smooth function along a line in the window. -/
theorem lipschitz_x (W : ℝ) (u : ℝ → ℝ → ℝ) (hu : Smooth2 u) (K : ℝ) (hK : Bound W (Dx u) K) (x x' y : ℝ) (a : 0 ≤ x) (b : x ≤ W) (a' : 0 ≤ x') (b' : x' ≤ W) (c : 0 ≤ y) (d : y ≤ W) : |u x y - u x' y| ≤ K * |x - x'| := by
  have := Convex.norm_image_sub_le_of_norm_hasDerivWithin_le (f := fun s => u s y) (f' := fun s => Dx u s y) (s := Set.Icc 0 W) (C := K) (x := x') (y := x) (fun s _ => (hu.hasX s y).hasDerivWithinAt) (fun s hs => hK s y hs.1 hs.2 c d) (convex_Icc 0 W) ⟨a', b'⟩ ⟨a, b⟩
  exact this

/-- The mean over the nodes of a smooth function without mean value in the window. -/
theorem node_mean (L : ℕ) (hL : 1 ≤ L) (h : ℝ) (hh : 0 < h) (u : ℝ → ℝ → ℝ) (hu : Smooth2 u) (K M : ℝ) (hx : Bound (L * h) (Dx u) K) (hy : Bound (L * h) (Dy u) K) (hM : Bound (L * h) u M) (hint : ∫ x in (0 : ℝ)..(L * h), ∫ y in (0 : ℝ)..(L * h), u x y = 0) :
    |(∑ i ∈ Finset.Icc (0 : ℤ) L, ∑ j ∈ Finset.Icc (0 : ℤ) L, u (i * h) (j * h)) / (L + 1) ^ 2| ≤ 3 * h * (L * h * K + M) / (L * h) := by
  have hLr : (1 : ℝ) ≤ L := by exact_mod_cast hL
  have hW : 0 < (L : ℝ) * h := by positivity
  have hK0 : 0 ≤ K := (abs_nonneg _).trans (hx 0 0 le_rfl hW.le le_rfl hW.le)
  have hM0 : 0 ≤ M := (abs_nonneg _).trans (hM 0 0 le_rfl hW.le le_rfl hW.le)
  have hcont : Continuous (Function.uncurry u) := ContDiff.continuous (f := fun p : ℝ × ℝ => u p.1 p.2) hu
  set ψ : ℝ → ℝ := fun x => ∫ y in (0 : ℝ)..(L * h), u x y with hψ
  have hψc : Continuous ψ := intervalIntegral.continuous_parametric_intervalIntegral_of_continuous' hcont 0 (L * h)
  have hline : ∀ x : ℝ, Continuous fun y => u x y := fun x => hcont.comp (continuous_const.prodMk continuous_id)
  have hψK : ∀ x y, 0 ≤ x → x ≤ L * h → 0 ≤ y → y ≤ L * h → |ψ x - ψ y| ≤ (L * h * K) * |x - y| := by
    intro x y a b c d
    simp only [hψ]
    rw [← intervalIntegral.integral_sub ((hline x).intervalIntegrable _ _) ((hline y).intervalIntegrable _ _)]
    have := intervalIntegral.norm_integral_le_of_norm_le_const (f := fun s => u x s - u y s) (a := 0) (b := L * h) (C := K * |x - y|) (fun s hs => by
      rw [Set.uIoc_of_le hW.le] at hs
      exact lipschitz_x (L * h) u hu K hx x y s a b c d hs.1.le hs.2)
    rw [Real.norm_eq_abs, sub_zero, abs_of_pos hW] at this
    refine this.trans (le_of_eq (by ring))
  have hψM : ∀ x, 0 ≤ x → x ≤ L * h → |ψ x| ≤ L * h * M := by
    intro x a b
    have := intervalIntegral.norm_integral_le_of_norm_le_const (f := fun s => u x s) (a := 0) (b := L * h) (C := M) (fun s hs => by
      rw [Set.uIoc_of_le hW.le] at hs
      exact hM x s a b hs.1.le hs.2)
    rw [Real.norm_eq_abs, sub_zero, abs_of_pos hW] at this
    refine this.trans (le_of_eq (by ring))
  have t1 := rect_sum L h hh ψ hψc _ _ hψK hψM
  rw [show (∫ x in (0 : ℝ)..(L * h), ψ x) = 0 from hint, sub_zero] at t1
  have t2 : ∀ i : ℤ, OnGrid L i → |h * ∑ j ∈ Finset.Icc (0 : ℤ) L, u (i * h) (j * h) - ψ (i * h)| ≤ h * (L * h * K + M) := by
    intro i hi
    obtain ⟨a, b⟩ := node_range L h hh i hi
    exact rect_sum L h hh (fun y => u (i * h) y) (hline _) K M (fun y y' c d c' d' => lipschitz_x (L * h) (fun y x => u x y) hu.swap K (fun s t p q r w => hy t s r w p q) y y' (i * h) c d c' d' a b) (fun y c d => hM _ _ a b c d)
  have t3 : |h * (h * ∑ i ∈ Finset.Icc (0 : ℤ) L, ∑ j ∈ Finset.Icc (0 : ℤ) L, u (i * h) (j * h)) - h * ∑ i ∈ Finset.Icc (0 : ℤ) L, ψ (i * h)| ≤ h * ((L + 1) * (h * (L * h * K + M))) := by
    rw [← mul_sub, abs_mul, abs_of_pos hh]
    apply mul_le_mul_of_nonneg_left _ hh.le
    rw [Finset.mul_sum, ← Finset.sum_sub_distrib]
    refine (Finset.abs_sum_le_sum_abs _ _).trans ?_
    have := Finset.sum_le_card_nsmul (Finset.Icc (0 : ℤ) L) (fun i : ℤ => |h * ∑ j ∈ Finset.Icc (0 : ℤ) L, u (i * h) (j * h) - ψ (i * h)|) (h * (L * h * K + M)) (fun i hi => by
      rw [Finset.mem_Icc] at hi; exact t2 i hi)
    refine this.trans (le_of_eq ?_)
    rw [nsmul_eq_mul, Int.card_Icc]
    have : (((L : ℤ) + 1 - 0).toNat : ℝ) = L + 1 := by
      have : ((L : ℤ) + 1 - 0).toNat = L + 1 := by omega
      rw [this]; push_cast; ring
    rw [this]
  generalize ∑ i ∈ Finset.Icc (0 : ℤ) L, ∑ j ∈ Finset.Icc (0 : ℤ) L, u (i * h) (j * h) = S at *
  generalize h * ∑ i ∈ Finset.Icc (0 : ℤ) L, ψ (i * h) = T at *
  have t4 : |h * (h * S)| ≤ 3 * (L * h) * (h * (L * h * K + M)) := by
    have e : h * (h * S) = (h * (h * S) - T) + T := by ring
    rw [e]
    refine (abs_add_le _ _).trans ((add_le_add t3 t1).trans ?_)
    have h1 : (L : ℝ) + 1 ≤ 2 * L := by linarith
    have h2 : 0 ≤ h * (L * h * K + M) := by positivity
    have h3 := mul_le_mul_of_nonneg_left (mul_le_mul_of_nonneg_right h1 h2) hh.le
    nlinarith
  rw [abs_div, abs_of_pos (by positivity : (0 : ℝ) < ((L : ℝ) + 1) ^ 2), div_le_div_iff₀ (by positivity) hW]
  have t5 : h ^ 2 * |S| ≤ 3 * (L * h) * (h * (L * h * K + M)) := by
    have : |h * (h * S)| = h ^ 2 * |S| := by rw [abs_mul, abs_mul, abs_of_pos hh]; ring
    rw [← this]; exact t4
  have hp : 0 < h ^ 2 := by positivity
  refine le_of_mul_le_mul_left ?_ hp
  have e1 : h ^ 2 * (|S| * (L * h)) = (h ^ 2 * |S|) * (L * h) := by ring
  rw [e1]
  refine (mul_le_mul_of_nonneg_right t5 hW.le).trans ?_
  have h2 : 0 ≤ 3 * h * (L * h * K + M) := by positivity
  have h3 : (L : ℝ) ^ 2 ≤ (L + 1) ^ 2 := by nlinarith
  have := mul_le_mul_of_nonneg_left h3 (mul_nonneg h2 hp.le)
  nlinarith

end Lcode.Plasma3D
