import Verif.Fp.BeamSum
import Verif.Fp.Borders

/-!
C70: charge and density of a 2D beam in doubles, compared with exact arithmetic.
-/

namespace Lcode.Fp

open Finset Lcode.Beam2D

/-! ### Longitudinal position inside a layer -/

/-- Specification: the particle is in layer `i`, give or take half a step (the borders of the layers are rounded themselves). -/
def InSlab (s : ℚ) (i : ℕ) (p : PF) : Prop := |p.xi + ((i : ℚ) + 1 / 2) * s| ≤ s

/-- The particles the code assigns to layer `i` (`Between` of C57, whose borders are `border`) are such. -/
theorem inSlab_of_layer {s : ℚ} (hs : 0 < s) {i : ℕ} (hi : i < 2 ^ 40) {p : PF} (hf : IsFloat s) (h : Between (border s) i p.xi) : InSlab s i p := by
  obtain ⟨h1, h2⟩ := h
  unfold border at h1 h2
  rw [fl_exact hf] at h1 h2
  have e1 := abs_le.mp (fl_abs_err (((i + 1 : ℕ) : ℚ) * -s))
  have e2 := abs_le.mp (fl_abs_err ((i : ℚ) * -s))
  have hi' : (i : ℚ) + 1 ≤ 2 ^ 40 := by exact_mod_cast hi
  have hi0 : (0 : ℚ) ≤ i := Nat.cast_nonneg i
  have a1 : |((i + 1 : ℕ) : ℚ) * -s| = ((i : ℚ) + 1) * s := by
    push_cast
    rw [abs_of_nonpos (by nlinarith)]; ring
  have a2 : |(i : ℚ) * -s| = (i : ℚ) * s := by rw [abs_of_nonpos (by nlinarith)]; ring
  rw [a1] at e1; rw [a2] at e2
  push_cast at e1 h1
  have b : u * (((i : ℚ) + 1) * s) ≤ s / 2 := by
    have : ((i : ℚ) + 1) * s ≤ 2 ^ 40 * s := mul_le_mul_of_nonneg_right hi' hs.le
    unfold u; linarith
  have b' : u * ((i : ℚ) * s) ≤ s / 2 := by
    have : (i : ℚ) * s ≤ 2 ^ 40 * s := mul_le_mul_of_nonneg_right (by linarith) hs.le
    unfold u; linarith
  unfold InSlab
  rw [abs_le]
  constructor <;> linarith [e1.1, e1.2, e2.1, e2.2]

theorem dxi_close {s : ℚ} (hs : 0 < s) {i : ℕ} (hi : i < 2 ^ 40) {p : PF} (hp : InSlab s i p) :
    |dxiF (xiEndF s i) s p - (p.xi + ((i : ℚ) + 1) * s) / s| ≤ u * (i + 6) := by
  have hi' : (i : ℚ) + 1 ≤ 2 ^ 40 := by exact_mod_cast hi
  have hi0 : (0 : ℚ) ≤ i := Nat.cast_nonneg i
  have hu := u_pos
  have e1 := fl_abs_err (((i : ℚ) + 1) * -s)
  have a1 : |((i : ℚ) + 1) * -s| = ((i : ℚ) + 1) * s := by rw [abs_of_nonpos (by nlinarith)]; ring
  rw [a1] at e1
  unfold dxiF xiEndF
  generalize fl (((i : ℚ) + 1) * -s) = X at e1 ⊢
  set D := (p.xi + ((i : ℚ) + 1) * s) / s with hD
  set T := -(X - p.xi) / s with hT
  have hTD : |T - D| ≤ u * (i + 1) := by
    have : T - D = -(X - ((i : ℚ) + 1) * -s) / s := by rw [hT, hD]; field_simp; ring
    rw [this, abs_div, abs_neg, abs_of_pos hs, div_le_iff₀ hs]
    linarith
  have hDb : |D| ≤ 3 / 2 := by
    rw [hD, abs_div, abs_of_pos hs, div_le_iff₀ hs]
    have := abs_le.mp hp
    rw [abs_le]; constructor <;> linarith [this.1, this.2]
  have hub : u * (i + 1) ≤ 1 / 2 := by
    have : u * (i + 1) ≤ u * 2 ^ 40 := mul_le_mul_of_nonneg_left hi' hu.le
    have : u * 2 ^ 40 ≤ 1 / 2 := by unfold u; norm_num
    linarith
  have hTb : |T| ≤ 2 := by
    have := abs_add_le (T - D) D
    rw [sub_add_cancel] at this
    linarith
  have hR : Rel 2 (fl (-fl (X - p.xi) / s)) T := by
    have h1 : Rel 1 (fl (X - p.xi)) (X - p.xi) := (Rel.refl _).fl
    have h2 := (h1.mul (Rel.refl (-1 / s))).fl
    refine Rel.mono (by norm_num : 1 + 0 + 1 ≤ 2) ?_
    convert h2 using 2
    · ring
    · rw [hT]; ring
  unfold Rel at hR
  have h3 : gam 2 * |T| ≤ 5 * u := by
    have g : gam 2 ≤ 5 / 2 * u := by unfold gam u; norm_num
    calc gam 2 * |T| ≤ gam 2 * 2 := mul_le_mul_of_nonneg_left hTb (gam_nonneg 2)
      _ ≤ 5 * u := by linarith
  have h4 := abs_sub_le (fl (-fl (X - p.xi) / s)) T D
  linarith

/-- Specification: where the particle is between the back (0) and the front (1) of layer `i`. -/
def depth (s : ℚ) (i : ℕ) (p : PF) : ℚ := (p.xi + ((i : ℚ) + 1) * s) / s

theorem depth_bound {s : ℚ} (hs : 0 < s) {i : ℕ} {p : PF} (hp : InSlab s i p) : -(1 / 2) ≤ depth s i p ∧ depth s i p ≤ 3 / 2 := by
  have := abs_le.mp hp
  unfold depth
  rw [le_div_iff₀ hs, div_le_iff₀ hs]
  constructor <;> linarith [this.1, this.2]

theorem dxi_bound {s : ℚ} (hs : 0 < s) {i : ℕ} (hi : i < 2 ^ 40) {p : PF} (hp : InSlab s i p) :
    |dxiF (xiEndF s i) s p| ≤ 2 ∧ |1 - dxiF (xiEndF s i) s p| ≤ 2 ∧ |dxiF (xiEndF s i) s p| + |1 - dxiF (xiEndF s i) s p| ≤ 3 := by
  have h1 := abs_le.mp (dxi_close hs hi hp)
  have h2 := depth_bound hs hp
  unfold depth at h2
  have hi' : (i : ℚ) + 1 ≤ 2 ^ 40 := by exact_mod_cast hi
  have h3 : u * (i + 6) ≤ 1 / 2 := by
    have : u * (i + 6) ≤ u * (2 ^ 40 + 5) := mul_le_mul_of_nonneg_left (by linarith) u_pos.le
    have : u * (2 ^ 40 + 5) ≤ 1 / 2 := by unfold u; norm_num
    linarith
  generalize dxiF (xiEndF s i) s p = d at *
  generalize (p.xi + ((i : ℚ) + 1) * s) / s = D at *
  have b : -1 ≤ d ∧ d ≤ 2 := ⟨by linarith [h1.1, h2.1], by linarith [h1.2, h2.2]⟩
  refine ⟨abs_le.mpr ⟨by linarith, by linarith⟩, abs_le.mpr ⟨by linarith, by linarith⟩, ?_⟩
  rcases abs_cases d with ⟨e, -⟩ | ⟨e, -⟩ <;> rcases abs_cases (1 - d) with ⟨e', -⟩ | ⟨e', -⟩ <;> rw [e, e'] <;> linarith

/-! ### Total charge -/

/-- Sum of an array of length `n`. -/
def totalQ (n : ℕ) (f : ℤ → ℚ) : ℚ := ∑ k ∈ range n, f k

/-- Specification: total charge of the particles. -/
def charge (ps : List PF) : ℚ := (ps.map PF.q).sum

/-- Specification: total absolute charge of the particles. -/
def absCharge (ps : List PF) : ℚ := (ps.map fun p => |p.q|).sum

theorem absCharge_nonneg (ps : List PF) : 0 ≤ absCharge ps := by
  unfold absCharge
  apply List.sum_nonneg
  intro x hx
  obtain ⟨y, -, rfl⟩ := List.mem_map.mp hx
  exact abs_nonneg _

/-- The shares of a particle add up to one. -/
theorem cloud_total (n : ℕ) (x : ℚ) (h0 : 0 ≤ ⌊x⌋) (h1 : ⌊x⌋ + 1 < n) : ∑ k ∈ range n, cloud (x - ((k : ℤ) : ℚ)) = 1 := by
  obtain ⟨j, hj⟩ := Int.eq_ofNat_of_zero_le h0
  have hj1 : j + 1 < n := by omega
  rw [← Finset.sum_subset (s₁ := {j, j + 1})]
  · rw [Finset.sum_pair (by omega)]
    have e1 := cloud_left x
    have e2 := cloud_right x
    rw [hj] at e1 e2
    push_cast at e1 e2 ⊢
    rw [e1, e2]; ring
  · intro k hk
    simp only [Finset.mem_insert, Finset.mem_singleton] at hk
    rw [mem_range]; omega
  · intro k _ hk
    simp only [Finset.mem_insert, Finset.mem_singleton, not_or] at hk
    exact cloud_other x k (by omega) (by omega)

/-- Specification: the particle is inside the array of `n` nodes (C61 says when). -/
def InGrid (n : ℕ) (h : ℚ) (p : PF) : Prop := 0 ≤ p.r ∧ ⌊cellF h p⌋ + 1 < n

theorem sum_shares (n : ℕ) (h : ℚ) (hh : 0 < h) (ps : List PF) (hps : ∀ p ∈ ps, InGrid n h p) (d : PF → ℚ) :
    ∑ k ∈ range n, (ps.map fun p => p.q * (cloud (cellF h p - ((k : ℤ) : ℚ)) * d p)).sum = (ps.map fun p => p.q * d p).sum ∧
    ∑ k ∈ range n, absSum (ps.map fun p => p.q * (cloud (cellF h p - ((k : ℤ) : ℚ)) * d p)) = (ps.map fun p => |p.q| * |d p|).sum := by
  induction ps with
  | nil => simp [absSum]
  | cons p ps ih =>
    obtain ⟨i1, i2⟩ := ih (fun q hq => hps q (List.mem_cons_of_mem _ hq))
    obtain ⟨g1, g2⟩ := hps p List.mem_cons_self
    have ht := cloud_total n (cellF h p) (Int.floor_nonneg.mpr (cellF_nonneg hh g1)) g2
    simp only [absSum, List.map_cons, List.sum_cons, Finset.sum_add_distrib] at i1 i2 ⊢
    rw [i1, i2]
    constructor
    · congr 1
      have : ∀ k : ℕ, p.q * (cloud (cellF h p - ((k : ℤ) : ℚ)) * d p) = p.q * d p * cloud (cellF h p - ((k : ℤ) : ℚ)) := fun k => by ring
      simp only [this]
      rw [← Finset.mul_sum, ht, mul_one]
    · congr 1
      have : ∀ k : ℕ, |p.q * (cloud (cellF h p - ((k : ℤ) : ℚ)) * d p)| = |p.q| * |d p| * cloud (cellF h p - ((k : ℤ) : ℚ)) := fun k => by
        rw [abs_mul, abs_mul, abs_of_nonneg (cloud_nonneg _)]; ring
      simp only [this]
      rw [← Finset.mul_sum, ht, mul_one]

theorem list_le {f g : PF → ℚ} {ps : List PF} (h : ∀ p ∈ ps, f p ≤ g p) : (ps.map f).sum ≤ (ps.map g).sum := List.sum_le_sum h

theorem list_scale (c : ℚ) (ps : List PF) : (ps.map fun p => c * |p.q|).sum = c * absCharge ps := by
  unfold absCharge; rw [List.sum_map_mul_left]

/-- C70: the charge of one layer of a 2D beam as deposited in doubles is the charge of its particles, up to `n + 4` roundings for `n` particles, whatever the order of the particles. -/
theorem charge_doubles (n : ℕ) (h s : ℚ) (hh : 0 < h) (hs : 0 < s) (i : ℕ) (hi : i < 2 ^ 40) (rho : ℤ → ℚ) (ps : List PF)
    (hg : ∀ p ∈ ps, InGrid n h p) (hx : ∀ p ∈ ps, InSlab s i p) :
    |totalQ n (depositF ps rho (fun _ => 0) (xiEndF s i) h s).1 + totalQ n (depositF ps rho (fun _ => 0) (xiEndF s i) h s).2 - (totalQ n rho + charge ps)| ≤
      gam (ps.length + 4) * (totalQ n (fun k => |rho k|) + 3 * absCharge ps) := by
  have hd := deposit_doubles ps rho (fun _ => 0) (xiEndF s i) h s hh (fun p hp => (hg p hp).1)
  obtain ⟨a1, a2⟩ := sum_shares n h hh ps hg (fun p => dxiF (xiEndF s i) s p)
  obtain ⟨b1, b2⟩ := sum_shares n h hh ps hg (fun p => 1 - dxiF (xiEndF s i) s p)
  have k1 : |totalQ n (depositF ps rho (fun _ => 0) (xiEndF s i) h s).1 - (totalQ n rho + (ps.map fun p => p.q * dxiF (xiEndF s i) s p).sum)| ≤
      gam (ps.length + 4) * (totalQ n (fun k => |rho k|) + (ps.map fun p => |p.q| * |dxiF (xiEndF s i) s p|).sum) := by
    unfold totalQ
    rw [← a1, ← a2, ← Finset.sum_add_distrib, ← Finset.sum_add_distrib, ← Finset.sum_sub_distrib, Finset.mul_sum]
    refine (Finset.abs_sum_le_sum_abs _ _).trans (Finset.sum_le_sum fun k _ => (hd k).1)
  have k2 : |totalQ n (depositF ps rho (fun _ => 0) (xiEndF s i) h s).2 - (ps.map fun p => p.q * (1 - dxiF (xiEndF s i) s p)).sum| ≤
      gam (ps.length + 4) * (ps.map fun p => |p.q| * |1 - dxiF (xiEndF s i) s p|).sum := by
    unfold totalQ
    rw [← b1, ← b2, ← Finset.sum_sub_distrib, Finset.mul_sum]
    refine (Finset.abs_sum_le_sum_abs _ _).trans (Finset.sum_le_sum fun k _ => ?_)
    have := (hd k).2
    simpa using this
  have e1 : (ps.map fun p => p.q * dxiF (xiEndF s i) s p).sum + (ps.map fun p => p.q * (1 - dxiF (xiEndF s i) s p)).sum = charge ps := by
    unfold charge
    rw [← List.sum_map_add]
    congr 1
    apply List.map_congr_left
    intro p _; ring
  have e2 : (ps.map fun p => |p.q| * |dxiF (xiEndF s i) s p|).sum + (ps.map fun p => |p.q| * |1 - dxiF (xiEndF s i) s p|).sum ≤ 3 * absCharge ps := by
    rw [← List.sum_map_add, ← list_scale]
    apply list_le
    intro p hp
    have := (dxi_bound hs hi (hx p hp)).2.2
    have := mul_le_mul_of_nonneg_left this (abs_nonneg p.q)
    linarith
  generalize totalQ n (depositF ps rho (fun _ => 0) (xiEndF s i) h s).1 = A at *
  generalize totalQ n (depositF ps rho (fun _ => 0) (xiEndF s i) h s).2 = B at *
  generalize (ps.map fun p => p.q * dxiF (xiEndF s i) s p).sum = S1 at *
  generalize (ps.map fun p => p.q * (1 - dxiF (xiEndF s i) s p)).sum = S2 at *
  generalize (ps.map fun p => |p.q| * |dxiF (xiEndF s i) s p|).sum = T1 at *
  generalize (ps.map fun p => |p.q| * |1 - dxiF (xiEndF s i) s p|).sum = T2 at *
  rw [← e1, show A + B - (totalQ n rho + (S1 + S2)) = (A - (totalQ n rho + S1)) + (B - S2) by ring]
  refine (abs_add_le _ _).trans ?_
  have := mul_le_mul_of_nonneg_left e2 (gam_nonneg (ps.length + 4))
  linarith

/-- What is handed on to the next layer. -/
theorem handed_on (n : ℕ) (h s : ℚ) (hh : 0 < h) (hs : 0 < s) (i : ℕ) (hi : i < 2 ^ 40) (rho : ℤ → ℚ) (ps : List PF) (hl : ps.length + 4 ≤ 2 ^ 52)
    (hg : ∀ p ∈ ps, InGrid n h p) (hx : ∀ p ∈ ps, InSlab s i p) :
    totalQ n (fun k => |(depositF ps rho (fun _ => 0) (xiEndF s i) h s).2 k|) ≤ 4 * absCharge ps := by
  have hd := deposit_doubles ps rho (fun _ => 0) (xiEndF s i) h s hh (fun p hp => (hg p hp).1)
  obtain ⟨-, b2⟩ := sum_shares n h hh ps hg (fun p => 1 - dxiF (xiEndF s i) s p)
  have hgam : gam (ps.length + 4) ≤ 1 := by
    refine (gam_le hl).trans ?_
    rw [div_le_one (by norm_num)]
    exact_mod_cast hl
  have k : ∀ k : ℤ, |(depositF ps rho (fun _ => 0) (xiEndF s i) h s).2 k| ≤ 2 * absSum (ps.map fun p => p.q * (cloud (cellF h p - (k : ℚ)) * (1 - dxiF (xiEndF s i) s p))) := by
    intro k
    have h1 := (hd k).2
    rw [abs_zero, zero_add, zero_add] at h1
    have h2 := abs_sum_le (ps.map fun p => p.q * (cloud (cellF h p - (k : ℚ)) * (1 - dxiF (xiEndF s i) s p)))
    have h3 := absSum_nonneg (ps.map fun p => p.q * (cloud (cellF h p - (k : ℚ)) * (1 - dxiF (xiEndF s i) s p)))
    generalize absSum (ps.map fun p => p.q * (cloud (cellF h p - (k : ℚ)) * (1 - dxiF (xiEndF s i) s p))) = S at *
    generalize (ps.map fun p => p.q * (cloud (cellF h p - (k : ℚ)) * (1 - dxiF (xiEndF s i) s p))).sum = T at *
    generalize (depositF ps rho (fun _ => 0) (xiEndF s i) h s).2 k = A at *
    have h4 := abs_add_le (A - T) T
    rw [sub_add_cancel] at h4
    have h5 : gam (ps.length + 4) * S ≤ 1 * S := mul_le_mul_of_nonneg_right hgam h3
    linarith
  unfold totalQ
  beta_reduce
  refine (Finset.sum_le_sum fun (k' : ℕ) _ => k (k' : ℤ)).trans ?_
  rw [← Finset.mul_sum, b2, show 4 * absCharge ps = 2 * (2 * absCharge ps) by ring]
  refine mul_le_mul_of_nonneg_left ?_ (by norm_num)
  rw [← list_scale]
  apply list_le
  intro p hp
  have := mul_le_mul_of_nonneg_left (dxi_bound hs hi (hx p hp)).2.1 (abs_nonneg p.q)
  linarith

/-! ### The density -/

/-- Specification: the volume a radial node stands for (as in C08). -/
def volume (h : ℚ) (k : ℤ) : ℚ := if k = 0 then h * h / 6 else k * (h * h)

theorem div_rounded {y : ℚ} (hy : 0 < y) : Rel 2 (1 / fl y) (1 / y) := by
  have h1 := abs_le.mp (fl_abs_err y)
  rw [abs_of_pos hy] at h1
  have hf := fl_pos hy
  have hu := u_pos
  have hu1 : u ≤ 1 / 4 := by unfold u; norm_num
  unfold Rel
  have e : 1 / fl y - 1 / y = (y - fl y) / fl y * (1 / y) := by field_simp
  rw [e, abs_mul]
  refine mul_le_mul_of_nonneg_right ?_ (abs_nonneg _)
  rw [abs_div, abs_of_pos hf, div_le_iff₀ hf]
  have h3 : |y - fl y| ≤ u * y := by rw [abs_sub_comm]; exact (abs_le.mpr h1)
  refine h3.trans ?_
  have g : gam 2 = 2 * u + u * u := by unfold gam; ring
  have h4 : (1 - u) * y ≤ fl y := by linarith [h1.1]
  have h5 : gam 2 * ((1 - u) * y) ≤ gam 2 * fl y := mul_le_mul_of_nonneg_left h4 (gam_nonneg 2)
  refine le_trans ?_ h5
  rw [g]
  have : u ≤ (2 * u + u * u) * (1 - u) := by nlinarith
  calc u * y ≤ ((2 * u + u * u) * (1 - u)) * y := mul_le_mul_of_nonneg_right this hy.le
    _ = _ := by ring

/-- The density times the volume of the node is the deposited charge up to four roundings. -/
theorem density_doubles (h s : ℚ) (hh : 0 < h) (rho : ℤ → ℚ) (ps : List PF) (i : ℕ) (k : ℕ) :
    |volume h k * (layoutF h s rho ps i).1 k - (depositF ps rho (fun _ => 0) (xiEndF s i) h s).1 k| ≤ gam 4 * |(depositF ps rho (fun _ => 0) (xiEndF s i) h s).1 k| := by
  unfold layoutF
  simp only
  generalize (depositF ps rho (fun _ => 0) (xiEndF s i) h s).1 (k : ℤ) = R
  have hhh : 0 < h * h := mul_pos hh hh
  have h1 : Rel 3 (fl (R / fl (h * h))) (R / (h * h)) := by
    have := ((Rel.refl R).mul (div_rounded hhh)).fl
    rw [mul_one_div, mul_one_div] at this
    exact this
  have fin : ∀ a v : ℚ, v ≠ 0 → Rel 4 a (R / v) → |v * a - R| ≤ gam 4 * |R| := by
    intro a v hv hr
    unfold Rel at hr
    have e : v * a - R = v * (a - R / v) := by field_simp
    rw [e, abs_mul]
    have := mul_le_mul_of_nonneg_left hr (abs_nonneg v)
    refine this.trans_eq ?_
    rw [abs_div]
    have : |v| ≠ 0 := abs_ne_zero.mpr hv
    field_simp
  by_cases hk : k = 0
  · subst hk
    have g : ¬ ((0 : ℤ) ≥ 1) := by norm_num
    simp only [Nat.cast_zero, g, if_false, if_true, volume]
    apply fin _ _ (by positivity)
    have := (h1.mul (Rel.refl 6)).fl
    have e : R / (h * h / 6) = R / (h * h) * 6 := by field_simp
    rw [e]; exact this
  · have g : ((k : ℤ) ≥ 1) := by omega
    have g0 : ¬ ((k : ℤ) = 0) := by omega
    have hk' : (k : ℚ) ≠ 0 := by exact_mod_cast hk
    simp only [g, g0, if_false, if_true, volume]
    push_cast
    apply fin _ _ (by positivity)
    have := (h1.mul (Rel.refl (1 / (k : ℚ)))).fl
    have e : R / ((k : ℚ) * (h * h)) = R / (h * h) * (1 / (k : ℚ)) := by field_simp
    rw [e]
    rw [mul_one_div, mul_one_div] at this
    rw [mul_one_div]
    exact this

/-- Specification: the charge the density of a layer stands for. -/
def densityCharge (n : ℕ) (h : ℚ) (f : ℤ → ℚ) : ℚ := ∑ k ∈ range n, volume h k * f k

/-- C70, one layer: charge of the density plus charge handed on, against charge inherited plus charge of the particles. -/
theorem layer_doubles (n : ℕ) (h s : ℚ) (hh : 0 < h) (hs : 0 < s) (i : ℕ) (hi : i < 2 ^ 40) (rho : ℤ → ℚ) (ps : List PF)
    (hg : ∀ p ∈ ps, InGrid n h p) (hx : ∀ p ∈ ps, InSlab s i p) :
    |densityCharge n h (layoutF h s rho ps i).1 + totalQ n (layoutF h s rho ps i).2 - (totalQ n rho + charge ps)| ≤
      gam (ps.length + 8) * (totalQ n (fun k => |rho k|) + 3 * absCharge ps) := by
  have h1 := charge_doubles n h s hh hs i hi rho ps hg hx
  have e2 : (layoutF h s rho ps i).2 = (depositF ps rho (fun _ => 0) (xiEndF s i) h s).2 := rfl
  rw [e2]
  have hd := deposit_doubles ps rho (fun _ => 0) (xiEndF s i) h s hh (fun p hp => (hg p hp).1)
  obtain ⟨-, a2⟩ := sum_shares n h hh ps hg (fun p => dxiF (xiEndF s i) s p)
  have h2 : |densityCharge n h (layoutF h s rho ps i).1 - totalQ n (depositF ps rho (fun _ => 0) (xiEndF s i) h s).1| ≤
      gam 4 * totalQ n (fun k => |(depositF ps rho (fun _ => 0) (xiEndF s i) h s).1 k|) := by
    unfold densityCharge totalQ
    rw [← Finset.sum_sub_distrib, Finset.mul_sum]
    exact (Finset.abs_sum_le_sum_abs _ _).trans (Finset.sum_le_sum fun k _ => density_doubles h s hh rho ps i k)
  have h3 : totalQ n (fun k => |(depositF ps rho (fun _ => 0) (xiEndF s i) h s).1 k|) ≤
      (1 + gam (ps.length + 4)) * (totalQ n (fun k => |rho k|) + 3 * absCharge ps) := by
    have h4 : ∀ k : ℤ, |(depositF ps rho (fun _ => 0) (xiEndF s i) h s).1 k| ≤ (1 + gam (ps.length + 4)) * (|rho k| + absSum (ps.map fun p => p.q * (cloud (cellF h p - (k : ℚ)) * dxiF (xiEndF s i) s p))) := by
      intro k
      have g1 := (hd k).1
      have g2 := abs_sum_le (ps.map fun p => p.q * (cloud (cellF h p - (k : ℚ)) * dxiF (xiEndF s i) s p))
      generalize absSum (ps.map fun p => p.q * (cloud (cellF h p - (k : ℚ)) * dxiF (xiEndF s i) s p)) = S at *
      generalize (ps.map fun p => p.q * (cloud (cellF h p - (k : ℚ)) * dxiF (xiEndF s i) s p)).sum = T at *
      generalize (depositF ps rho (fun _ => 0) (xiEndF s i) h s).1 k = A at *
      have g3 := abs_add_le (A - (rho k + T)) (rho k + T)
      rw [sub_add_cancel] at g3
      have g4 := abs_add_le (rho k) T
      linarith
    have h5 : totalQ n (fun k => |(depositF ps rho (fun _ => 0) (xiEndF s i) h s).1 k|) ≤
        (1 + gam (ps.length + 4)) * (totalQ n (fun k => |rho k|) + (ps.map fun p => |p.q| * |dxiF (xiEndF s i) s p|).sum) := by
      unfold totalQ
      rw [← a2, ← Finset.sum_add_distrib, Finset.mul_sum]
      exact Finset.sum_le_sum fun k _ => h4 k
    refine h5.trans (mul_le_mul_of_nonneg_left ?_ (by linarith [gam_nonneg (ps.length + 4)]))
    have : (ps.map fun p => |p.q| * |dxiF (xiEndF s i) s p|).sum ≤ 3 * absCharge ps := by
      rw [← list_scale]
      apply list_le
      intro p hp
      have := mul_le_mul_of_nonneg_left (dxi_bound hs hi (hx p hp)).1 (abs_nonneg p.q)
      linarith [abs_nonneg p.q]
    linarith
  have h6 := mul_le_mul_of_nonneg_left h3 (gam_nonneg 4)
  have h7 : gam (ps.length + 8) = gam (ps.length + 4) + gam 4 * (1 + gam (ps.length + 4)) := by
    have := gam_add (ps.length + 4) 4
    rw [show ps.length + 8 = ps.length + 4 + 4 by ring]
    linarith [(by ring : (1 + gam (ps.length + 4)) * (1 + gam 4) = 1 + gam (ps.length + 4) + gam 4 * (1 + gam (ps.length + 4)))]
  rw [h7]
  generalize totalQ n (depositF ps rho (fun _ => 0) (xiEndF s i) h s).1 = A at *
  generalize totalQ n (depositF ps rho (fun _ => 0) (xiEndF s i) h s).2 = B at *
  generalize densityCharge n h (layoutF h s rho ps i).1 = D at *
  generalize totalQ n (fun k => |rho k|) + 3 * absCharge ps = S at *
  rw [show D + B - (totalQ n rho + charge ps) = (D - A) + (A + B - (totalQ n rho + charge ps)) by ring]
  refine (abs_add_le _ _).trans ?_
  linarith [(by ring : (gam (ps.length + 4) + gam 4 * (1 + gam (ps.length + 4))) * S = gam (ps.length + 4) * S + gam 4 * ((1 + gam (ps.length + 4)) * S))]

/-- The densities of consecutive layers of one time step, and what is left over (beam/beam_calculate.py:374-378, :381-413 called by push_solver.py for every layer), in doubles. -/
def sweepF (h s : ℚ) : (ℤ → ℚ) → ℕ → List (List PF) → List (ℤ → ℚ) × (ℤ → ℚ)
  | rho, _, [] => ([], rho)
  | rho, i, ps :: rest =>
    let r := layoutF h s rho ps i
    let t := sweepF h s r.2 (i + 1) rest
    (r.1 :: t.1, t.2)

/-- C70: the whole beam over one time step. No layer has more than `m` particles. -/
theorem sweep_doubles (n : ℕ) (h s : ℚ) (hh : 0 < h) (hs : 0 < s) (m : ℕ) (hm : m + 4 ≤ 2 ^ 52) (layers : List (List PF)) (i : ℕ) (rho : ℤ → ℚ)
    (hi : i + layers.length ≤ 2 ^ 40) (hl : ∀ ps ∈ layers, ps.length ≤ m) (hg : ∀ ps ∈ layers, ∀ p ∈ ps, InGrid n h p)
    (hx : ∀ k, (hk : k < layers.length) → ∀ p ∈ layers[k], InSlab s (i + k) p) :
    |((sweepF h s rho i layers).1.map (densityCharge n h)).sum + totalQ n (sweepF h s rho i layers).2 - (totalQ n rho + (layers.map charge).sum)| ≤
      gam (m + 8) * (totalQ n (fun k => |rho k|) + 7 * (layers.map absCharge).sum) := by
  induction layers generalizing i rho with
  | nil =>
    simp only [sweepF, List.map_nil, List.sum_nil, zero_add, add_zero, mul_zero, sub_self, abs_zero]
    refine mul_nonneg (gam_nonneg _) ?_
    unfold totalQ
    exact Finset.sum_nonneg fun k _ => abs_nonneg _
  | cons ps rest ih =>
    simp only [List.length_cons] at hi
    have hps := hl ps List.mem_cons_self
    have hgp := hg ps List.mem_cons_self
    have hxp : ∀ p ∈ ps, InSlab s i p := fun p hp => hx 0 (by simp) p (by simpa using hp)
    have h1 := layer_doubles n h s hh hs i (by omega) rho ps hgp hxp
    have h2 := handed_on n h s hh hs i (by omega) rho ps (by omega) hgp hxp
    have h3 := ih (i + 1) (layoutF h s rho ps i).2 (by omega) (fun q hq => hl q (List.mem_cons_of_mem _ hq)) (fun q hq => hg q (List.mem_cons_of_mem _ hq))
      (fun k hk p hp => by
        have := hx (k + 1) (by simpa using hk) p (by simpa using hp)
        rwa [show i + (k + 1) = i + 1 + k by omega] at this)
    have e2 : (layoutF h s rho ps i).2 = (depositF ps rho (fun _ => 0) (xiEndF s i) h s).2 := rfl
    rw [← e2] at h2
    simp only [sweepF, List.map_cons, List.sum_cons]
    have g := gam_nonneg (m + 8)
    have h4 : gam (ps.length + 8) * (totalQ n (fun k => |rho k|) + 3 * absCharge ps) ≤ gam (m + 8) * (totalQ n (fun k => |rho k|) + 3 * absCharge ps) := by
      refine mul_le_mul_of_nonneg_right (gam_mono (by omega)) (add_nonneg ?_ (by linarith [absCharge_nonneg ps]))
      unfold totalQ
      exact Finset.sum_nonneg fun k _ => abs_nonneg _
    have h5 := mul_le_mul_of_nonneg_left h2 g
    generalize ((sweepF h s (layoutF h s rho ps i).2 (i + 1) rest).1.map (densityCharge n h)).sum = A at *
    generalize totalQ n (sweepF h s (layoutF h s rho ps i).2 (i + 1) rest).2 = B at *
    generalize densityCharge n h (layoutF h s rho ps i).1 = C at *
    generalize totalQ n (fun k => |(layoutF h s rho ps i).2 k|) = E at *
    generalize totalQ n (layoutF h s rho ps i).2 = F at *
    generalize (rest.map charge).sum = G at *
    generalize (rest.map absCharge).sum = H at *
    rw [show C + A + B - (totalQ n rho + (charge ps + G)) = (C + F - (totalQ n rho + charge ps)) + (A + B - (F + G)) by ring]
    refine (abs_add_le _ _).trans ?_
    linarith

/-- C70 in plain numbers: a time step with at most a million particles in every layer reproduces the charge of the beam to eight digits. -/
theorem beam_charge_doubles (n : ℕ) (h s : ℚ) (hh : 0 < h) (hs : 0 < s) (layers : List (List PF)) (hi : layers.length ≤ 2 ^ 40) (hl : ∀ ps ∈ layers, ps.length ≤ 10 ^ 6)
    (hg : ∀ ps ∈ layers, ∀ p ∈ ps, InGrid n h p) (hx : ∀ k, (hk : k < layers.length) → ∀ p ∈ layers[k], InSlab s k p) :
    |((sweepF h s (fun _ => 0) 0 layers).1.map (densityCharge n h)).sum + totalQ n (sweepF h s (fun _ => 0) 0 layers).2 - (layers.map charge).sum| ≤
      (layers.map absCharge).sum / 10 ^ 8 := by
  have h1 := sweep_doubles n h s hh hs (10 ^ 6) (by norm_num) layers 0 (fun _ => 0) (by omega) hl hg (fun k hk p hp => by simpa using hx k hk p hp)
  have e : totalQ n (fun _ => 0) = 0 := by simp [totalQ]
  have e' : totalQ n (fun k => |(fun _ : ℤ => (0 : ℚ)) k|) = 0 := by simp [totalQ]
  rw [e, e', zero_add, zero_add] at h1
  refine h1.trans ?_
  have hS : 0 ≤ (layers.map absCharge).sum := by
    apply List.sum_nonneg
    intro x hx
    obtain ⟨y, -, rfl⟩ := List.mem_map.mp hx
    exact absCharge_nonneg y
  have h2 : gam (10 ^ 6 + 8) ≤ ((10 ^ 6 + 8 : ℕ) : ℚ) / 2 ^ 52 := gam_le (by norm_num)
  have h3 : gam (10 ^ 6 + 8) * 7 ≤ 1 / 10 ^ 8 := by
    refine (mul_le_mul_of_nonneg_right h2 (by norm_num)).trans ?_
    push_cast
    norm_num
  calc gam (10 ^ 6 + 8) * (7 * (layers.map absCharge).sum) = gam (10 ^ 6 + 8) * 7 * (layers.map absCharge).sum := by ring
    _ ≤ 1 / 10 ^ 8 * (layers.map absCharge).sum := mul_le_mul_of_nonneg_right h3 hS
    _ = _ := by ring

end Lcode.Fp
