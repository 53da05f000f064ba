import Verif.Fp.Sums
import Verif.Beam2D.Strong

/-!
C70: the density of a 2D beam computed in doubles.
-/

namespace Lcode.Fp

open Lcode.Py

/-- One beam particle, as far as the deposit looks at it: radius, longitudinal position, charge (floats). -/
structure PF where
  r : ℚ
  xi : ℚ
  q : ℚ

/-- `r / r_step`, beam/weights.py:12. -/
def cellF (h : ℚ) (p : PF) : ℚ := fl (p.r / h)

/-- `dxi`, beam/weights.py:13. -/
def dxiF (xiEnd s : ℚ) (p : PF) : ℚ := fl (-fl (xiEnd - p.xi) / s)

/-- beam_particle_weights, beam/weights.py:11-23, in doubles: `j` and `(a00, a01, a10, a11)`. -/
def weightsF (p : PF) (xiEnd h s : ℚ) : ℤ × ℚ × ℚ × ℚ × ℚ :=
  let j := ⌊cellF h p⌋
  let dxi := dxiF xiEnd s p
  let dr := fl (cellF h p - j)
  let a0xi := dxi
  let a1xi := fl (1 - dxi)
  let a0r := fl (1 - dr)
  let a1r := dr
  (j, fl (a0xi * a0r), fl (a0xi * a1r), fl (a1xi * a0r), fl (a1xi * a1r))

/-- deposit_particles, beam/weights.py:40-45 (weights from get_layer_weights, :26-37), in doubles. -/
def depositF (ps : List PF) (out0 out1 : ℤ → ℚ) (xiEnd h s : ℚ) : (ℤ → ℚ) × (ℤ → ℚ) :=
  let ws := ps.map (fun p => (p.q, weightsF p xiEnd h s))
  let out0 := addAtF out0 (ws.map (fun t => (t.2.1 + 0, fl (t.2.2.1 * t.1))))
  let out0 := addAtF out0 (ws.map (fun t => (t.2.1 + 1, fl (t.2.2.2.1 * t.1))))
  let out1 := addAtF out1 (ws.map (fun t => (t.2.1 + 0, fl (t.2.2.2.2.1 * t.1))))
  let out1 := addAtF out1 (ws.map (fun t => (t.2.1 + 1, fl (t.2.2.2.2.2 * t.1))))
  (out0, out1)

/-- `(xi_i+1) * (-self.xi_step)`, beam/beam_calculate.py:398. -/
def xiEndF (s : ℚ) (i : ℕ) : ℚ := fl (((i : ℚ) + 1) * -s)

/-- layout_beam_layer, beam/beam_calculate.py:381-413, in doubles; `r_step ** 2` is taken as the rounded square. -/
def layoutF (h s : ℚ) (rho : ℤ → ℚ) (ps : List PF) (i : ℕ) : (ℤ → ℚ) × (ℤ → ℚ) :=
  let r := depositF ps rho (fun _ => 0) (xiEndF s i) h s
  let cur := fun k => fl (r.1 k / fl (h * h))
  let cur := fun k => if k = 0 then fl (cur k * 6) else cur k
  let cur := fun k => if k ≥ 1 then fl (cur k / (k : ℚ)) else cur k
  (cur, r.2)

/-! ### The weights -/

/-- The fractional part of a float is a float. -/
theorem frac_float {q : ℚ} (hq : IsFloat q) (h0 : 0 ≤ q) : IsFloat (q - ⌊q⌋) := by
  obtain ⟨m, e, hm, rfl⟩ := hq
  have he := two_zpow_pos e
  have hm0 : 0 ≤ m := by
    by_contra hc
    push Not at hc
    have : (m : ℚ) < 0 := by exact_mod_cast hc
    have := mul_neg_of_neg_of_pos this he
    linarith
  rcases le_total 0 e with h | h
  · obtain ⟨n, rfl⟩ := Int.eq_ofNat_of_zero_le h
    refine ⟨0, 0, by norm_num, ?_⟩
    have e1 : (m : ℚ) * 2 ^ (n : ℤ) = ((m * 2 ^ n : ℤ) : ℚ) := by push_cast; rw [zpow_natCast]
    have e2 : ⌊(m : ℚ) * 2 ^ (n : ℤ)⌋ = m * 2 ^ n := by rw [e1, Int.floor_intCast]
    rw [e2, e1]; simp
  · obtain ⟨n, hn⟩ := Int.eq_ofNat_of_zero_le (by omega : 0 ≤ -e)
    have e0 : e = -(n : ℤ) := by omega
    subst e0
    have hp : (0 : ℚ) < 2 ^ n := by positivity
    have e1 : (m : ℚ) * 2 ^ (-(n : ℤ)) = m / 2 ^ n := by rw [zpow_neg, zpow_natCast]; rfl
    have hf := Int.floor_le ((m : ℚ) * 2 ^ (-(n : ℤ)))
    have hf0 : 0 ≤ ⌊(m : ℚ) * 2 ^ (-(n : ℤ))⌋ := Int.floor_nonneg.mpr h0
    generalize ⌊(m : ℚ) * 2 ^ (-(n : ℤ))⌋ = f at hf hf0
    refine ⟨m - f * 2 ^ n, -(n : ℤ), ?_, ?_⟩
    · rw [e1, le_div_iff₀ hp] at hf
      have hf' : f * 2 ^ n ≤ m := by exact_mod_cast hf
      have : 0 ≤ f * 2 ^ n := by positivity
      rw [abs_of_nonneg (by linarith)]
      rw [abs_of_nonneg hm0] at hm
      linarith
    · push_cast
      rw [e1, zpow_neg, zpow_natCast]
      field_simp

theorem cellF_nonneg {h : ℚ} (hh : 0 < h) {p : PF} (hr : 0 ≤ p.r) : 0 ≤ cellF h p := fl_nonneg (div_nonneg hr hh.le)

theorem dr_exact {h : ℚ} (hh : 0 < h) {p : PF} (hr : 0 ≤ p.r) : fl (cellF h p - ⌊cellF h p⌋) = cellF h p - ⌊cellF h p⌋ :=
  fl_exact (frac_float (isFloat_fl _) (cellF_nonneg hh hr))

/-- A rounded value is within a relative error. -/
def Rel (n : ℕ) (a b : ℚ) : Prop := |a - b| ≤ gam n * |b|

theorem Rel.fl {n : ℕ} {a b : ℚ} (h : Rel n a b) : Rel (n + 1) (Lcode.Fp.fl a) b := by
  unfold Rel at *
  have h1 := fl_abs_err a
  have h2 : |a| ≤ (1 + gam n) * |b| := by
    have := abs_add_le (a - b) b
    rw [sub_add_cancel] at this
    linarith
  have h3 := abs_sub_le (Lcode.Fp.fl a) a b
  have h4 : u * |a| ≤ u * ((1 + gam n) * |b|) := mul_le_mul_of_nonneg_left h2 u_pos.le
  rw [gam_succ]
  linarith [(by ring : (gam n + u * (1 + gam n)) * |b| = gam n * |b| + u * ((1 + gam n) * |b|))]

theorem Rel.refl (a : ℚ) : Rel 0 a a := by unfold Rel; simp [gam]

theorem Rel.mono {m n : ℕ} (h : m ≤ n) {a b : ℚ} (hr : Rel m a b) : Rel n a b :=
  le_trans hr (mul_le_mul_of_nonneg_right (gam_mono h) (abs_nonneg b))

theorem Rel.mul {m n : ℕ} {a b c d : ℚ} (h1 : Rel m a b) (h2 : Rel n c d) : Rel (m + n) (a * c) (b * d) := by
  unfold Rel at *
  have e : a * c - b * d = (a - b) * (c - d) + (a - b) * d + b * (c - d) := by ring
  have e2 : gam (m + n) = gam m * gam n + gam m + gam n := by linarith [gam_add m n, (by ring : (1 + gam m) * (1 + gam n) = 1 + gam m + gam n + gam m * gam n)]
  rw [e, e2, abs_mul]
  refine (abs_add_three _ _ _).trans ?_
  rw [abs_mul, abs_mul, abs_mul]
  have ha := abs_nonneg b
  have hd := abs_nonneg d
  have k1 : |a - b| * |c - d| ≤ (gam m * |b|) * (gam n * |d|) := mul_le_mul h1 h2 (abs_nonneg _) (mul_nonneg (gam_nonneg m) ha)
  have k2 : |a - b| * |d| ≤ (gam m * |b|) * |d| := mul_le_mul_of_nonneg_right h1 hd
  have k3 : |b| * |c - d| ≤ |b| * (gam n * |d|) := mul_le_mul_of_nonneg_left h2 ha
  linarith [(by ring : (gam m * gam n + gam m + gam n) * (|b| * |d|) = (gam m * |b|) * (gam n * |d|) + (gam m * |b|) * |d| + |b| * (gam n * |d|))]

theorem Rel.abs_le {n : ℕ} {a b : ℚ} (h : Rel n a b) : |a| ≤ (1 + gam n) * |b| := by
  unfold Rel at h
  have := abs_add_le (a - b) b
  rw [sub_add_cancel] at this
  linarith

/-- Specification: the share of a node at distance `x` (in cells). -/
def cloud (x : ℚ) : ℚ := max 0 (1 - |x|)

theorem cloud_nonneg (x : ℚ) : 0 ≤ cloud x := le_max_left _ _

theorem cloud_le (x : ℚ) : cloud x ≤ 1 := max_le zero_le_one (by linarith [abs_nonneg x])

theorem cloud_lip (x y : ℚ) : |cloud x - cloud y| ≤ |x - y| := by
  unfold cloud
  have h1 := abs_sub_abs_le_abs_sub x y
  have h2 := abs_sub_abs_le_abs_sub y x
  rw [abs_sub_comm] at h2
  have h3 := abs_nonneg (x - y)
  rw [abs_le]
  generalize |x| = a at *
  generalize |y| = b at *
  rcases max_cases 0 (1 - a) with ⟨e1, e2⟩ | ⟨e1, e2⟩ <;> rcases max_cases 0 (1 - b) with ⟨e3, e4⟩ | ⟨e3, e4⟩ <;> rw [e1, e3] <;> constructor <;> linarith

theorem cloud_left (x : ℚ) : cloud (x - ⌊x⌋) = 1 - (x - ⌊x⌋) := by
  have h0 := Int.floor_le x
  have h1 := Int.lt_floor_add_one x
  unfold cloud
  rw [abs_of_nonneg (by linarith), max_eq_right (by linarith)]

theorem cloud_right (x : ℚ) : cloud (x - ((⌊x⌋ + 1 : ℤ) : ℚ)) = x - ⌊x⌋ := by
  have h0 := Int.floor_le x
  have h1 := Int.lt_floor_add_one x
  unfold cloud
  push_cast
  rw [abs_of_nonpos (by linarith), max_eq_right (by linarith)]; ring

theorem cloud_other (x : ℚ) (i : ℤ) (h0 : ⌊x⌋ ≠ i) (h1 : ⌊x⌋ + 1 ≠ i) : cloud (x - i) = 0 := by
  have g0 := Int.floor_le x
  have g1 := Int.lt_floor_add_one x
  unfold cloud
  apply max_eq_left
  rcases lt_or_gt_of_ne h0 with h | h
  · have : ((⌊x⌋ : ℤ) : ℚ) + 2 ≤ i := by exact_mod_cast (by omega : ⌊x⌋ + 2 ≤ i)
    rw [abs_of_nonpos (by linarith)]; linarith
  · have : (i : ℚ) + 1 ≤ ⌊x⌋ := by exact_mod_cast h
    rw [abs_of_nonneg (by linarith)]; linarith

/-! ### One node -/

theorem pair_node (ps : List PF) (j : PF → ℤ) (a b ideal : PF → ℚ) (g : ℕ) (i : ℤ)
    (hi : ∀ p ∈ ps, (j p + 0 = i → Rel g (a p) (ideal p)) ∧ (j p + 1 = i → Rel g (b p) (ideal p)) ∧ (j p + 0 ≠ i → j p + 1 ≠ i → ideal p = 0)) :
    (atNode i (ps.map fun p => (j p + 0, a p)) ++ atNode i (ps.map fun p => (j p + 1, b p))).length ≤ ps.length ∧
    |(atNode i (ps.map fun p => (j p + 0, a p)) ++ atNode i (ps.map fun p => (j p + 1, b p))).sum - (ps.map ideal).sum| ≤ gam g * absSum (ps.map ideal) ∧
    absSum (atNode i (ps.map fun p => (j p + 0, a p)) ++ atNode i (ps.map fun p => (j p + 1, b p))) ≤ (1 + gam g) * absSum (ps.map ideal) := by
  induction ps with
  | nil => simp [atNode, absSum]
  | cons p ps ih =>
    obtain ⟨h1, h2, h3⟩ := ih (fun q hq => hi q (List.mem_cons_of_mem _ hq))
    obtain ⟨k1, k2, k3⟩ := hi p List.mem_cons_self
    have e1 : ∀ (k : ℤ) (v : ℚ) (l : List (ℤ × ℚ)), atNode i ((k, v) :: l) = if k = i then v :: atNode i l else atNode i l := by
      intro k v l
      unfold atNode
      rw [List.filter_cons]
      by_cases hk : k = i <;> simp [hk]
    simp only [List.map_cons, e1]
    generalize atNode i (ps.map fun p => (j p + 0, a p)) = A at h1 h2 h3 ⊢
    generalize atNode i (ps.map fun p => (j p + 1, b p)) = B at h1 h2 h3 ⊢
    have ea : absSum (ideal p :: ps.map ideal) = |ideal p| + absSum (ps.map ideal) := by simp [absSum]
    rw [ea]
    simp only [absSum, List.map_append, List.sum_append, List.length_append, List.sum_cons, List.length_cons] at h1 h2 h3 ⊢
    have hs := absSum_nonneg (ps.map ideal)
    simp only [absSum] at hs
    have hg := gam_nonneg g
    generalize (List.map (fun x => |x|) (List.map ideal ps)).sum = S at h2 h3 hs ⊢
    generalize (List.map ideal ps).sum = T at h2 ⊢
    by_cases c0 : j p + 0 = i
    · have c1 : ¬ (j p + 1 = i) := by omega
      have r := k1 c0
      have ra := r.abs_le
      unfold Rel at r
      simp only [c0, c1, if_true, if_false, List.map_cons, List.sum_cons, List.length_cons]
      refine ⟨by omega, ?_, by linarith⟩
      have := abs_add_le (A.sum + B.sum - T) (a p - ideal p)
      rw [show a p + A.sum + B.sum - (ideal p + T) = A.sum + B.sum - T + (a p - ideal p) by ring]
      linarith
    · by_cases c1 : j p + 1 = i
      · have r := k2 c1
        have ra := r.abs_le
        unfold Rel at r
        simp only [c0, c1, if_true, if_false, List.map_cons, List.sum_cons, List.length_cons]
        refine ⟨by omega, ?_, by linarith⟩
        have := abs_add_le (A.sum + B.sum - T) (b p - ideal p)
        rw [show A.sum + (b p + B.sum) - (ideal p + T) = A.sum + B.sum - T + (b p - ideal p) by ring]
        linarith
      · have r := k3 c0 c1
        simp only [c0, c1, if_false, r, abs_zero, zero_add]
        exact ⟨by omega, h2, h3⟩

theorem addAtF_append {ι : Type} [DecidableEq ι] (out : ι → ℚ) (l l' : List (ι × ℚ)) : addAtF (addAtF out l) l' = addAtF out (l ++ l') := by
  unfold addAtF; rw [List.foldl_append]

theorem atNode_append {ι : Type} [DecidableEq ι] (i : ι) (l l' : List (ι × ℚ)) : atNode i (l ++ l') = atNode i l ++ atNode i l' := by
  unfold atNode; rw [List.filter_append, List.map_append]

theorem node_sum (ps : List PF) (j : PF → ℤ) (a b ideal : PF → ℚ) (g : ℕ) (i : ℤ) (out : ℤ → ℚ)
    (hi : ∀ p ∈ ps, (j p + 0 = i → Rel g (a p) (ideal p)) ∧ (j p + 1 = i → Rel g (b p) (ideal p)) ∧ (j p + 0 ≠ i → j p + 1 ≠ i → ideal p = 0)) :
    |addAtF (addAtF out (ps.map fun p => (j p + 0, a p))) (ps.map fun p => (j p + 1, b p)) i - (out i + (ps.map ideal).sum)| ≤
      gam (ps.length + g) * (|out i| + absSum (ps.map ideal)) := by
  obtain ⟨h1, h2, h3⟩ := pair_node ps j a b ideal g i hi
  rw [addAtF_append, addAtF_apply, atNode_append]
  generalize atNode i (ps.map fun p => (j p + 0, a p)) ++ atNode i (ps.map fun p => (j p + 1, b p)) = L at h1 h2 h3 ⊢
  have h4 := sumF_err L (out i)
  have h5 : gam L.length * (|out i| + absSum L) ≤ gam ps.length * (|out i| + (1 + gam g) * absSum (ps.map ideal)) :=
    mul_le_mul (gam_mono h1) (by linarith) (add_nonneg (abs_nonneg _) (absSum_nonneg L)) (gam_nonneg _)
  generalize absSum (ps.map ideal) = S at *
  generalize (ps.map ideal).sum = T at *
  have h6 := abs_sub_le (sumF (out i) L) (out i + L.sum) (out i + T)
  rw [add_sub_add_left_eq_sub] at h6
  have h7 : 0 ≤ gam g * (1 + gam ps.length) * |out i| := mul_nonneg (mul_nonneg (gam_nonneg _) (by linarith [gam_nonneg ps.length])) (abs_nonneg _)
  have h8 := gam_add ps.length g
  have h9 : gam (ps.length + g) = gam ps.length + gam g + gam ps.length * gam g := by linarith [(by ring : (1 + gam ps.length) * (1 + gam g) = 1 + gam ps.length + gam g + gam ps.length * gam g)]
  rw [h9]
  linarith [(by ring : (gam ps.length + gam g + gam ps.length * gam g) * (|out i| + S) = gam ps.length * (|out i| + (1 + gam g) * S) + gam g * S + gam g * (1 + gam ps.length) * |out i|)]

/-- C70: on every node the computed deposit is the sum of `charge × share` for the positions as the code sees them, up to `n + 4` roundings. -/
theorem deposit_doubles (ps : List PF) (out0 out1 : ℤ → ℚ) (xiEnd h s : ℚ) (hh : 0 < h) (hr : ∀ p ∈ ps, 0 ≤ p.r) (i : ℤ) :
    |(depositF ps out0 out1 xiEnd h s).1 i - (out0 i + (ps.map fun p => p.q * (cloud (cellF h p - i) * dxiF xiEnd s p)).sum)| ≤
      gam (ps.length + 4) * (|out0 i| + absSum (ps.map fun p => p.q * (cloud (cellF h p - i) * dxiF xiEnd s p))) ∧
    |(depositF ps out0 out1 xiEnd h s).2 i - (out1 i + (ps.map fun p => p.q * (cloud (cellF h p - i) * (1 - dxiF xiEnd s p))).sum)| ≤
      gam (ps.length + 4) * (|out1 i| + absSum (ps.map fun p => p.q * (cloud (cellF h p - i) * (1 - dxiF xiEnd s p)))) := by
  have key : ∀ p ∈ ps, ∀ d, (⌊cellF h p⌋ + 0 = i → Rel 1 (fl (1 - fl (cellF h p - ⌊cellF h p⌋))) (cloud (cellF h p - i))) ∧
      (⌊cellF h p⌋ + 1 = i → fl (cellF h p - ⌊cellF h p⌋) = cloud (cellF h p - i)) ∧
      (⌊cellF h p⌋ + 0 ≠ i → ⌊cellF h p⌋ + 1 ≠ i → p.q * (cloud (cellF h p - i) * d) = 0) := by
    intro p hp d
    refine ⟨fun e => ?_, fun e => ?_, fun e0 e1 => ?_⟩
    · rw [dr_exact hh (hr p hp), ← e, add_zero, cloud_left]
      exact (Rel.refl _).fl
    · rw [dr_exact hh (hr p hp), ← e, cloud_right]
    · rw [cloud_other _ _ (by simpa using e0) e1]; ring
  constructor
  · refine node_sum ps (fun p => ⌊cellF h p⌋) (fun p => fl (fl (dxiF xiEnd s p * fl (1 - fl (cellF h p - ⌊cellF h p⌋))) * p.q))
      (fun p => fl (fl (dxiF xiEnd s p * fl (cellF h p - ⌊cellF h p⌋)) * p.q)) _ 4 i out0 ?_ |>.trans_eq' ?_
    · intro p hp
      obtain ⟨k1, k2, k3⟩ := key p hp (dxiF xiEnd s p)
      refine ⟨fun e => ?_, fun e => ?_, k3⟩
      · have := ((((Rel.refl (dxiF xiEnd s p)).mul (k1 e)).fl).mul (Rel.refl p.q)).fl
        refine Rel.mono (by norm_num : 0 + 1 + 1 + 0 + 1 ≤ 4) ?_
        convert this using 1; ring
      · rw [k2 e]
        have := ((((Rel.refl (dxiF xiEnd s p)).mul (Rel.refl (cloud (cellF h p - i)))).fl).mul (Rel.refl p.q)).fl
        refine Rel.mono (by norm_num : 0 + 0 + 1 + 0 + 1 ≤ 4) ?_
        convert this using 1; ring
    · simp only [depositF, weightsF, List.map_map, Function.comp_def]
  · refine node_sum ps (fun p => ⌊cellF h p⌋) (fun p => fl (fl (fl (1 - dxiF xiEnd s p) * fl (1 - fl (cellF h p - ⌊cellF h p⌋))) * p.q))
      (fun p => fl (fl (fl (1 - dxiF xiEnd s p) * fl (cellF h p - ⌊cellF h p⌋)) * p.q)) _ 4 i out1 ?_ |>.trans_eq' ?_
    · intro p hp
      obtain ⟨k1, k2, k3⟩ := key p hp (1 - dxiF xiEnd s p)
      refine ⟨fun e => ?_, fun e => ?_, k3⟩
      · have := (((((Rel.refl (1 - dxiF xiEnd s p)).fl).mul (k1 e)).fl).mul (Rel.refl p.q)).fl
        refine Rel.mono (by norm_num : 0 + 1 + 1 + 1 + 0 + 1 ≤ 4) ?_
        convert this using 1; ring
      · rw [k2 e]
        have := (((((Rel.refl (1 - dxiF xiEnd s p)).fl).mul (Rel.refl (cloud (cellF h p - i)))).fl).mul (Rel.refl p.q)).fl
        refine Rel.mono (by norm_num : 0 + 1 + 0 + 1 + 0 + 1 ≤ 4) ?_
        convert this using 1; ring
    · simp only [depositF, weightsF, List.map_map, Function.comp_def]

end Lcode.Fp
