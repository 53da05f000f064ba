import Verif.Plasma3D.Neumann

/-!
Convergence of the longitudinal magnetic field of the 3D code, property C66.
-/

namespace Lcode.Plasma3D

open Lcode.Num

/-- A function that vanishes outside the inner square of the window `[0, W]²`, at distance `δ` from its walls. -/
def Vanishes (W δ : ℝ) (u : ℝ → ℝ → ℝ) : Prop := ∀ x y, (x ≤ δ ∨ W - δ ≤ x ∨ y ≤ δ ∨ W - δ ≤ y) → u x y = 0

theorem Vanishes.swap {W δ : ℝ} {u : ℝ → ℝ → ℝ} (h : Vanishes W δ u) : Vanishes W δ (fun x y => u y x) := fun x y hxy => h y x (by tauto)

theorem Vanishes.Dx {W δ : ℝ} {u : ℝ → ℝ → ℝ} (h : Vanishes W δ u) (hu : Smooth2 u) : Vanishes W δ (Num.Dx u) := by
  intro x y hxy
  rcases hxy with h1 | h1 | h1
  · exact deriv_zero_on (fun s => u s y) _ (x - 1) x x (by linarith) ⟨by linarith, le_rfl⟩ (hu.hasX x y) (fun s hs => h s y (Or.inl (hs.2.trans h1)))
  · exact deriv_zero_on (fun s => u s y) _ x (x + 1) x (by linarith) ⟨le_rfl, by linarith⟩ (hu.hasX x y) (fun s hs => h s y (Or.inr (Or.inl (h1.trans hs.1))))
  · exact deriv_zero_on (fun s => u s y) _ (x - 1) x x (by linarith) ⟨by linarith, le_rfl⟩ (hu.hasX x y) (fun s hs => h s y (Or.inr (Or.inr h1)))

theorem Vanishes.Dy {W δ : ℝ} {u : ℝ → ℝ → ℝ} (h : Vanishes W δ u) (hu : Smooth2 u) : Vanishes W δ (Num.Dy u) := by
  intro x y hxy
  exact (h.swap.Dx hu.swap) y x (by tauto)

/-- A node on the perimeter. -/
theorem perimeter_point (L : ℕ) (h : ℝ) (i j : ℤ) (hij : i = 0 ∨ i = L ∨ j = 0 ∨ j = L) : (i : ℝ) * h = 0 ∨ (i : ℝ) * h = L * h ∨ (j : ℝ) * h = 0 ∨ (j : ℝ) * h = L * h := by
  rcases hij with rfl | rfl | rfl | rfl
  · left; simp
  · right; left; simp
  · right; right; left; simp
  · right; right; right; simp

/-- `u` solves `Δu = ∂y jx - ∂x jy` in the window with zero normal derivative at the walls and without mean value; the currents vanish near the walls. The field of the code differs from it by terms of the first order. -/
theorem bz_converge (L : ℕ) (hL : 2 ≤ L) (h δ : ℝ) (hh : 0 < h) (hδ : h ≤ δ) (jx jy u : ℝ → ℝ → ℝ) (hjx : Smooth2 jx) (hjy : Smooth2 jy) (hu : Smooth2 u) (ix : Vanishes (L * h) δ jx) (iy : Vanishes (L * h) δ jy)
    (hnx : ∀ x y, (x = 0 ∨ x = L * h) → 0 ≤ y → y ≤ L * h → Dx u x y = 0) (hny : ∀ x y, 0 ≤ x → x ≤ L * h → (y = 0 ∨ y = L * h) → Dy u x y = 0)
    (heq : ∀ x y, 0 ≤ x → x ≤ L * h → 0 ≤ y → y ≤ L * h → Lap u x y = Dy jx x y - Dx jy x y) (hint : ∫ x in (0 : ℝ)..(L * h), ∫ y in (0 : ℝ)..(L * h), u x y = 0)
    (M P K N : ℝ) (hx4 : Bound (L * h) (Dx (Dx (Dx (Dx u)))) M) (hy4 : Bound (L * h) (Dy (Dy (Dy (Dy u)))) M) (hx1 : Bound (L * h) (Dx u) K) (hy1 : Bound (L * h) (Dy u) K) (h0 : Bound (L * h) u N)
    (hpx : Bound (L * h) (Dy (Dy (Dy jx))) P) (hpy : Bound (L * h) (Dx (Dx (Dx jy))) P) (c : Cur) (hcx : c.jx = sample h jx) (hcy : c.jy = sample h jy) (i j : ℤ) (hi : OnGrid L i) (hj : OnGrid L j) :
    |calcBz L h c i j - u (i * h) (j * h)| ≤ h * (M / 6 + P / 3) * (L * h) ^ 3 + 3 * h * (L * h * K + N) / (L * h) := by
  have hL1 : 1 ≤ L := by omega
  have hLr : (1 : ℝ) ≤ L := by exact_mod_cast hL1
  have hW : 0 < (L : ℝ) * h := by positivity
  have hδ0 : 0 < δ := by linarith
  have hM : 0 ≤ M := (abs_nonneg _).trans (hx4 0 0 le_rfl hW.le le_rfl hW.le)
  have hP : 0 ≤ P := (abs_nonneg _).trans (hpx 0 0 le_rfl hW.le le_rfl hW.le)
  obtain ⟨s0, s1, s2⟩ := calcBz_spec L hL h hh c
  -- the correction of the mean is zero
  have small : ∀ k : ℤ, (k ≤ 1 ∨ (L : ℤ) - 1 ≤ k) → (k : ℝ) * h ≤ δ ∨ L * h - δ ≤ (k : ℝ) * h := by
    intro k hk
    rcases hk with hk | hk
    · left
      have : (k : ℝ) ≤ 1 := by exact_mod_cast hk
      nlinarith
    · right
      have : (L : ℝ) - 1 ≤ k := by exact_mod_cast hk
      nlinarith
  have hsum : innerSum L (bzRhs L h c.jx c.jy) = 0 := by
    apply bzRhs_sum L hL h
    · intro i j hj; rw [hcx]; exact ix _ _ (by have := small j hj; tauto)
    · intro i j hj; rw [hcy]; exact iy _ _ (by have := small i hj; tauto)
  rw [hsum] at s1 s2
  have izx := ix.Dy hjx
  have izy := iy.Dx hjy
  -- third normal derivatives vanish at the walls
  have lap0 : ∀ x y, 0 ≤ x → x ≤ L * h → 0 ≤ y → y ≤ L * h → (x ≤ δ ∨ L * h - δ ≤ x ∨ y ≤ δ ∨ L * h - δ ≤ y) → Lap u x y = 0 := by
    intro x y a b c d e
    rw [heq x y a b c d, izx x y e, izy x y e, sub_zero]
  have hδW : δ ≤ L * h ∨ L * h < δ := le_or_gt _ _
  have lapS : ∀ x y, Lap (fun x y => u y x) x y = Lap u y x := fun x y => by
    have : Lap (fun x y => u y x) x y = Dy (Dy u) y x + Dx (Dx u) y x := rfl
    rw [this]; unfold Lap; ring
  set η := min δ (L * h) with hη
  have hη0 : 0 < η := lt_min hδ0 hW
  have hηδ : η ≤ δ := min_le_left _ _
  have hηW : η ≤ L * h := min_le_right _ _
  have y3 : ∀ x y, 0 ≤ x → x ≤ L * h → (y = 0 ∨ y = L * h) → Dy (Dy (Dy u)) x y = 0 := by
    intro x y a b hy
    rcases hy with rfl | rfl
    · exact third_zero (L * h) η hη0 hW u hu 0 0 ⟨le_rfl, by linarith⟩ (fun s p q => hny s 0 p q (Or.inl rfl)) (fun s t p q r w => lap0 s t p q r (by linarith) (Or.inr (Or.inr (Or.inl (by linarith))))) x a b
    · exact third_zero (L * h) η hη0 hW u hu (L * h) (L * h - η) ⟨by linarith, by linarith⟩ (fun s p q => hny s (L * h) p q (Or.inr rfl)) (fun s t p q r w => lap0 s t p q (by linarith) (by linarith) (Or.inr (Or.inr (Or.inr (by linarith))))) x a b
  have x3 : ∀ x y, (x = 0 ∨ x = L * h) → 0 ≤ y → y ≤ L * h → Dx (Dx (Dx u)) x y = 0 := by
    intro x y hx a b
    rcases hx with rfl | rfl
    · exact third_zero (L * h) η hη0 hW (fun x y => u y x) hu.swap 0 0 ⟨le_rfl, by linarith⟩ (fun s p q => hnx 0 s (Or.inl rfl) p q) (fun s t p q r w => by rw [lapS]; exact lap0 t s r (by linarith) p q (Or.inl (by linarith))) y a b
    · exact third_zero (L * h) η hη0 hW (fun x y => u y x) hu.swap (L * h) (L * h - η) ⟨by linarith, by linarith⟩ (fun s p q => hnx (L * h) s (Or.inr rfl) p q) (fun s t p q r w => by rw [lapS]; exact lap0 t s (by linarith) (by linarith) p q (Or.inr (Or.inl (by linarith)))) y a b
  -- second differences at every node
  have secY : ∀ i j, OnGrid L i → OnGrid L j → |(sample h u i (next L j) + sample h u i (prev j) - 2 * sample h u i j) / h ^ 2 - Dy (Dy u) (i * h) (j * h)| ≤ h ^ 2 * M / 12 := by
    intro i j hi hj
    obtain ⟨a, b⟩ := node_range L h hh i hi
    by_cases hw : j = 0 ∨ j = L
    · have hp : (j : ℝ) * h = 0 ∨ (j : ℝ) * h = L * h := by rcases hw with rfl | rfl <;> simp
      exact wall_y4 L hL1 h hh u hu M hy4 i j hi hw (hny _ _ a b hp) (y3 _ _ a b hp)
    · have e1 : next L j = j + 1 := by unfold next; rw [if_neg (by omega)]
      have e2 : prev j = j - 1 := by unfold prev; rw [if_neg (by omega)]
      rw [e1, e2]
      exact second_y L h hh u hu M hy4 i j hi (by unfold Inner OnGrid at *; omega)
  have secX : ∀ i j, OnGrid L i → OnGrid L j → |(sample h u (next L i) j + sample h u (prev i) j - 2 * sample h u i j) / h ^ 2 - Dx (Dx u) (i * h) (j * h)| ≤ h ^ 2 * M / 12 := by
    intro i j hi hj
    obtain ⟨a, b⟩ := node_range L h hh j hj
    by_cases hw : i = 0 ∨ i = L
    · have hp : (i : ℝ) * h = 0 ∨ (i : ℝ) * h = L * h := by rcases hw with rfl | rfl <;> simp
      exact wall_y4 L hL1 h hh (fun x y => u y x) hu.swap M (fun x y p q r w => hx4 y x r w p q) j i hj hw (hnx _ _ hp a b) (x3 _ _ hp a b)
    · have e1 : next L i = i + 1 := by unfold next; rw [if_neg (by omega)]
      have e2 : prev i = i - 1 := by unfold prev; rw [if_neg (by omega)]
      rw [e1, e2]
      exact second_x L h hh u hu M hx4 i j (by unfold Inner OnGrid at *; omega) hj
  -- the source at every node
  have src : ∀ i j, OnGrid L i → OnGrid L j → |lapN L h (calcBz L h c) i j - Lap u (i * h) (j * h)| ≤ h ^ 2 * P / 3 := by
    intro i j hi hj
    obtain ⟨a, b⟩ := node_range L h hh i hi
    obtain ⟨a', b'⟩ := node_range L h hh j hj
    by_cases hw : i = 0 ∨ i = L ∨ j = 0 ∨ j = L
    · rw [s2 i j hi hj hw, lap0 _ _ a b a' b' (by
        rcases perimeter_point L h i j hw with e | e | e | e <;> rw [e]
        · left; exact hδ0.le
        · right; left; linarith
        · right; right; left; exact hδ0.le
        · right; right; right; linarith)]
      rw [zero_div, sub_zero, abs_zero]; positivity
    · have hi' : Inner L i := by unfold Inner OnGrid at *; omega
      have hj' : Inner L j := by unfold Inner OnGrid at *; omega
      rw [s1 i j hi' hj', heq _ _ a b a' b', hcx, hcy]
      have t1 := central_y L h hh jx hjx P hpx i j hi hj'
      have t2 := central_x L h hh jy hjy P hpy i j hi' hj
      rw [zero_div, add_zero]
      rw [abs_le] at t1 t2 ⊢
      constructor <;> linarith [t1.1, t1.2, t2.1, t2.2]
  obtain ⟨b, hb⟩ := neumann_stable L hL1 h hh (h ^ 2 * (M / 6 + P / 3)) (by positivity) (fun i j => calcBz L h c i j - u (i * h) (j * h)) (by
    intro i j hi hj
    have e : lapN L h (fun i j => calcBz L h c i j - u (i * h) (j * h)) i j = (lapN L h (calcBz L h c) i j - Lap u (i * h) (j * h)) -
        ((sample h u (next L i) j + sample h u (prev i) j - 2 * sample h u i j) / h ^ 2 - Dx (Dx u) (i * h) (j * h)) - ((sample h u i (next L j) + sample h u i (prev j) - 2 * sample h u i j) / h ^ 2 - Dy (Dy u) (i * h) (j * h)) := by
      unfold Lap lapN sample; ring
    rw [e]
    have t1 := src i j hi hj
    have t2 := secX i j hi hj
    have t3 := secY i j hi hj
    rw [abs_le] at t1 t2 t3 ⊢
    constructor <;> linarith [t1.1, t1.2, t2.1, t2.2, t3.1, t3.2])
  have hR : h ^ 2 * (M / 6 + P / 3) * (L * h) ^ 3 / (2 * h) = h * (M / 6 + P / 3) * (L * h) ^ 3 / 2 := by field_simp
  rw [hR] at hb
  have hmean := node_mean L hL1 h hh u hu K N hx1 hy1 h0 hint
  -- the constant
  have hcount : ∑ i ∈ Finset.Icc (0 : ℤ) L, ∑ j ∈ Finset.Icc (0 : ℤ) L, b = (L + 1) ^ 2 * b := by
    have : (((L : ℤ) + 1 - 0).toNat : ℝ) = L + 1 := by
      have : ((L : ℤ) + 1 - 0).toNat = L + 1 := by omega
      rw [this]; push_cast; ring
    simp only [Finset.sum_const, Int.card_Icc, nsmul_eq_mul, this]; ring
  have hp : (0 : ℝ) < (L + 1) ^ 2 := by positivity
  have hcb : |(L + 1) ^ 2 * b + ∑ i ∈ Finset.Icc (0 : ℤ) L, ∑ j ∈ Finset.Icc (0 : ℤ) L, u (i * h) (j * h)| ≤ (L + 1) ^ 2 * (h * (M / 6 + P / 3) * (L * h) ^ 3 / 2) := by
    have e : (L + 1) ^ 2 * b + ∑ i ∈ Finset.Icc (0 : ℤ) L, ∑ j ∈ Finset.Icc (0 : ℤ) L, u (i * h) (j * h) = -∑ i ∈ Finset.Icc (0 : ℤ) L, ∑ j ∈ Finset.Icc (0 : ℤ) L, (calcBz L h c i j - u (i * h) (j * h) - b) := by
      simp only [Finset.sum_sub_distrib]
      rw [s0, hcount]; ring
    rw [e, abs_neg]
    have hcount2 : ∑ i ∈ Finset.Icc (0 : ℤ) L, ∑ j ∈ Finset.Icc (0 : ℤ) L, (h * (M / 6 + P / 3) * (L * h) ^ 3 / 2) = (L + 1) ^ 2 * (h * (M / 6 + P / 3) * (L * h) ^ 3 / 2) := by
      have : (((L : ℤ) + 1 - 0).toNat : ℝ) = L + 1 := by
        have : ((L : ℤ) + 1 - 0).toNat = L + 1 := by omega
        rw [this]; push_cast; ring
      simp only [Finset.sum_const, Int.card_Icc, nsmul_eq_mul, this]; ring
    rw [← hcount2]
    refine (Finset.abs_sum_le_sum_abs _ _).trans (Finset.sum_le_sum fun i hi => (Finset.abs_sum_le_sum_abs _ _).trans (Finset.sum_le_sum fun j hj => ?_))
    rw [Finset.mem_Icc] at hi hj
    exact hb i j hi hj
  have hbb := hb i j hi hj
  generalize ∑ i ∈ Finset.Icc (0 : ℤ) L, ∑ j ∈ Finset.Icc (0 : ℤ) L, u (i * h) (j * h) = S at *
  generalize 3 * h * (L * h * K + N) / (L * h) = T at *
  have hb2 : |b + S / (L + 1) ^ 2| ≤ h * (M / 6 + P / 3) * (L * h) ^ 3 / 2 := by
    have : (L + 1) ^ 2 * b + S = (L + 1) ^ 2 * (b + S / (L + 1) ^ 2) := by field_simp
    rw [this, abs_mul, abs_of_pos hp] at hcb
    exact le_of_mul_le_mul_left hcb hp
  rw [abs_le] at hbb hb2 hmean ⊢
  constructor <;> linarith [hbb.1, hbb.2, hb2.1, hb2.2, hmean.1, hmean.2]

end Lcode.Plasma3D
