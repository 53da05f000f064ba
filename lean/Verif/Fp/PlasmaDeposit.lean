import Verif.Fp.PlasmaStep
import Verif.Fp.Deposit3D

/-!
C73: the deposition of the 2D plasma (lcode/plasma/rhoj.py) in doubles keeps the charge.
-/

namespace Lcode.Fp

open Lcode.Py Finset

/-! ### Weights -/

/-- Specification: the quadratic weights without rounding. -/
def shape2 (l : ℚ) (place : ℤ) : ℚ := if place = -1 then (l - 1 / 2) ^ 2 / 2 else if place = 0 then 3 / 4 - l ^ 2 else (l + 1 / 2) ^ 2 / 2

theorem shape2_total (l : ℚ) : shape2 l (-1) + shape2 l 0 + shape2 l 1 = 1 := by
  unfold shape2; norm_num; ring

theorem shape2_nonneg {l : ℚ} (hl : |l| ≤ 3 / 4) (k : ℤ) : 0 ≤ shape2 l k := by
  rw [abs_le] at hl
  unfold shape2
  split_ifs
  · positivity
  · nlinarith [hl.1, hl.2]
  · positivity

/-- The rounded weights are the exact ones up to four roundings. -/
theorem weight2_doubles {l : ℚ} (hl : |l| ≤ 3 / 4) (k : ℤ) : Rel 4 (weight2F l k) (shape2 l k) := by
  have sq : ∀ y : ℚ, Rel 4 (fl (fl (fl y * fl y) / 2)) (y ^ 2 / 2) := by
    intro y
    have h1 : Rel 1 (fl y) y := (Rel.refl y).fl
    have h2 : Rel 3 (fl (fl y * fl y)) (y * y) := (h1.mul h1).fl
    rw [fl_half (isFloat_fl _)]
    have h3 : Rel 4 (fl (fl y * fl y)) (y * y) := h2.mono (by norm_num)
    have e2 : y ^ 2 = y * y := by ring
    rw [e2]
    unfold Rel at h3 ⊢
    rw [show fl (fl y * fl y) / 2 - y * y / 2 = (fl (fl y * fl y) - y * y) / 2 by ring, abs_div, abs_div]
    rw [abs_of_nonneg (mul_self_nonneg y)] at h3 ⊢
    norm_num
    linarith
  unfold weight2F shape2
  split_ifs
  · exact sq _
  · have hsq : l ^ 2 ≤ 9 / 16 := by rw [abs_le] at hl; nlinarith [hl.1, hl.2]
    have h1 := fl_abs_err (l * l)
    rw [abs_of_nonneg (mul_self_nonneg l)] at h1
    have h3 : Rel 3 (3 / 4 - fl (l * l)) (3 / 4 - l ^ 2) := by
      unfold Rel
      rw [show 3 / 4 - fl (l * l) - (3 / 4 - l ^ 2) = -(fl (l * l) - l * l) by ring, abs_neg, abs_of_nonneg (show (0 : ℚ) ≤ 3 / 4 - l ^ 2 by linarith)]
      have hg : 3 * u ≤ gam 3 := by unfold gam; nlinarith [u_pos, pow_pos u_pos 2, pow_pos u_pos 3]
      have h4 : u * (l * l) ≤ 3 * u * (3 / 4 - l ^ 2) := by nlinarith [u_pos]
      have h5 := mul_le_mul_of_nonneg_right hg (show (0 : ℚ) ≤ 3 / 4 - l ^ 2 by linarith)
      linarith
    exact h3.fl
  · exact sq _

/-! ### Cells -/

theorem cell_close {x : ℚ} (h0 : 0 ≤ x) (hx : fl (x + 1 / 2) < 2 ^ 40) : |fl (x - ⌊fl (x + 1 / 2)⌋)| ≤ 3 / 4 := by
  have h1 : x + 1 / 2 < 2 ^ 40 := by
    by_contra h
    have := fl_mono (not_lt.mp h)
    rw [fl_exact (x := 2 ^ 40) ⟨1, 40, by norm_num, by norm_num⟩] at this
    linarith
  have h2 := fl_abs_err (x + 1 / 2)
  rw [abs_of_nonneg (by linarith : (0 : ℚ) ≤ x + 1 / 2)] at h2
  have h3 : u * (x + 1 / 2) ≤ 1 / 8 := by unfold u; linarith
  have h4 := abs_le.mp (h2.trans h3)
  have h5 := Int.floor_le (fl (x + 1 / 2))
  have h6 := Int.lt_floor_add_one (fl (x + 1 / 2))
  have e : fl (3 / 4) = 3 / 4 := fl_exact ⟨3, -2, by norm_num, by norm_num⟩
  generalize (⌊fl (x + 1 / 2)⌋ : ℚ) = c at *
  rw [abs_le]
  constructor
  · have := fl_mono (show -(3 / 4) ≤ x - c by linarith [h4.1])
    rw [fl_neg, e] at this
    exact this
  · have := fl_mono (show x - c ≤ 3 / 4 by linarith [h4.2])
    rw [e] at this
    exact this

/-- The particle deposits inside a grid of `n` nodes (`plasma_safe_iff` of C61 says when). -/
def InCells (n : ℤ) (h : ℚ) (r : ℚ) : Prop := 0 ≤ fl (r / h) ∧ ⌊fl (fl (r / h) + 1 / 2)⌋ ≤ n - 1

/-- What one particle deposits: three shares that add up to the whole, up to five roundings. -/
theorem contrib_total {n : ℤ} (hn : n ≤ 2 ^ 40) {h r : ℚ} (hr : InCells n h r) (a : ℚ) :
    |((contribF n (fl (r / h))).map fun t : ℤ × ℚ × ℚ => fl (a * t.2.1)).sum - a| ≤ gam 5 * |a| ∧
      absSum ((contribF n (fl (r / h))).map fun t : ℤ × ℚ × ℚ => fl (a * t.2.1)) ≤ (1 + gam 5) * |a| := by
  obtain ⟨h0, h1⟩ := hr
  generalize fl (r / h) = x at *
  have hx : fl (x + 1 / 2) < 2 ^ 40 := by
    have h2 := Int.lt_floor_add_one (fl (x + 1 / 2))
    have h3 : ((⌊fl (x + 1 / 2)⌋ : ℤ) : ℚ) + 1 ≤ 2 ^ 40 := by exact_mod_cast (by omega : ⌊fl (x + 1 / 2)⌋ + 1 ≤ 2 ^ 40)
    linarith
  have hl := cell_close h0 hx
  have hlist : (contribF n x).map (fun t : ℤ × ℚ × ℚ => fl (a * t.2.1)) = [fl (a * weight2F (fl (x - ⌊fl (x + 1 / 2)⌋)) (-1)), fl (a * weight2F (fl (x - ⌊fl (x + 1 / 2)⌋)) 0), fl (a * weight2F (fl (x - ⌊fl (x + 1 / 2)⌋)) 1)] := by
    unfold contribF
    dsimp only
    generalize ⌊fl (x + 1 / 2)⌋ = c
    by_cases hc : c = 0
    · subst hc; simp
    · simp [hc]
  rw [hlist]
  clear hlist
  generalize fl (x - ⌊fl (x + 1 / 2)⌋) = l at *
  have hr : ∀ k : ℤ, |fl (a * weight2F l k) - a * shape2 l k| ≤ gam 5 * |a| * shape2 l k := by
    intro k
    have h2 : Rel 5 (fl (a * weight2F l k)) (a * shape2 l k) := by
      have := ((Rel.refl a).mul (weight2_doubles hl k)).fl
      exact this.mono (by norm_num)
    unfold Rel at h2
    rw [abs_mul, abs_of_nonneg (shape2_nonneg hl k), ← mul_assoc] at h2
    exact h2
  have m1 := hr (-1)
  have m2 := hr 0
  have m3 := hr 1
  have ht := shape2_total l
  have n1 := shape2_nonneg hl (-1)
  have n2 := shape2_nonneg hl 0
  have n3 := shape2_nonneg hl 1
  generalize fl (a * weight2F l (-1)) = w1 at *
  generalize fl (a * weight2F l 0) = w2 at *
  generalize fl (a * weight2F l 1) = w3 at *
  generalize shape2 l (-1) = s1 at *
  generalize shape2 l 0 = s2 at *
  generalize shape2 l 1 = s3 at *
  simp only [List.sum_cons, List.sum_nil, absSum, List.map_cons, List.map_nil]
  have t1 := abs_add_le (w1 - a * s1) (a * s1)
  have t2 := abs_add_le (w2 - a * s2) (a * s2)
  have t3 := abs_add_le (w3 - a * s3) (a * s3)
  rw [sub_add_cancel, abs_mul, abs_of_nonneg n1] at t1
  rw [sub_add_cancel, abs_mul, abs_of_nonneg n2] at t2
  rw [sub_add_cancel, abs_mul, abs_of_nonneg n3] at t3
  have es : gam 5 * |a| * s1 + gam 5 * |a| * s2 + gam 5 * |a| * s3 = gam 5 * |a| := by rw [← mul_add, ← mul_add, ht, mul_one]
  have ea : |a| * s1 + |a| * s2 + |a| * s3 = |a| := by rw [← mul_add, ← mul_add, ht, mul_one]
  constructor
  · have e : w1 + (w2 + (w3 + 0)) - a = (w1 - a * s1) + (w2 - a * s2) + (w3 - a * s3) := by linear_combination a * ht
    rw [e]
    refine (abs_add_le _ _).trans ?_
    linarith [abs_add_le (w1 - a * s1) (w2 - a * s2)]
  · linarith

/-- The nodes 0, ..., n - 1. -/
def nodeSet (n : ℕ) : Finset ℤ := (range n).map Nat.castEmbedding

theorem mem_nodeSet {n : ℕ} {k : ℤ} : k ∈ nodeSet n ↔ 0 ≤ k ∧ k < n := by
  unfold nodeSet
  simp only [Finset.mem_map, Finset.mem_range, Nat.castEmbedding_apply]
  constructor
  · rintro ⟨m, hm, rfl⟩; omega
  · rintro ⟨h0, h1⟩; exact ⟨k.toNat, by omega, by omega⟩

theorem contrib_in {n : ℕ} (h2 : 2 ≤ n) {h r : ℚ} (hr : InCells n h r) : ∀ t ∈ contribF n (fl (r / h)), t.1 ∈ nodeSet n := by
  obtain ⟨h0, h1⟩ := hr
  generalize fl (r / h) = x at *
  have hc : 0 ≤ ⌊fl (x + 1 / 2)⌋ := Int.floor_nonneg.mpr (fl_nonneg (by linarith))
  intro t ht
  unfold contribF at ht
  simp only at ht
  generalize ⌊fl (x + 1 / 2)⌋ = c at *
  rw [mem_nodeSet]
  rw [List.mem_append] at ht
  rcases ht with ht | ht
  · split at ht
    · simp only [List.mem_singleton] at ht; rw [ht]; dsimp only; omega
    · simp at ht
  · obtain ⟨k, hk, rfl⟩ := List.mem_map.mp ht
    have hk' : (k = -1 ∧ c ≠ 0) ∨ k = 0 ∨ k = 1 := by
      split at hk
      · simp only [List.mem_cons, List.not_mem_nil, or_false] at hk; tauto
      · simp only [List.mem_cons, List.not_mem_nil, or_false] at hk; tauto
    dsimp only
    split
    · omega
    · rename_i hw
      omega

/-- All increments of an even quantity. -/
def evenIncs (h : ℚ) (n : ℤ) (amount : PPF → ℚ) (ps : List PPF) : List (ℤ × ℚ) :=
  ps.flatMap fun p => (contribF n (fl (p.r / h))).map fun t : ℤ × ℚ × ℚ => (t.1, fl (amount p * t.2.1))

theorem accumulate_even (h : ℚ) (n : ℤ) (amount : PPF → ℚ) (ps : List PPF) : accumulateF h n true amount ps = addAtF (fun _ => 0) (evenIncs h n amount ps) := by
  unfold accumulateF evenIncs
  simp

theorem incs_sum {n : ℕ} (hn : n ≤ 2 ^ 40) {h : ℚ} (amount : PPF → ℚ) (ps : List PPF) (hp : ∀ p ∈ ps, InCells n h p.r) :
    |((evenIncs h n amount ps).map Prod.snd).sum - (ps.map amount).sum| ≤ gam 5 * (ps.map fun p => |amount p|).sum ∧
      absSum ((evenIncs h n amount ps).map Prod.snd) ≤ (1 + gam 5) * (ps.map fun p => |amount p|).sum ∧ (evenIncs h n amount ps).length ≤ 3 * ps.length := by
  induction ps with
  | nil => simp [evenIncs, absSum]
  | cons p ps ih =>
    obtain ⟨i1, i2, i3⟩ := ih fun q hq => hp q (List.mem_cons_of_mem _ hq)
    obtain ⟨c1, c2⟩ := contrib_total (n := n) (by exact_mod_cast hn) (hp p List.mem_cons_self) (amount p)
    have hlen : (contribF n (fl (p.r / h))).length ≤ 3 := by
      unfold contribF
      dsimp only
      generalize ⌊fl (fl (p.r / h) + 1 / 2)⌋ = c
      by_cases hc : c = 0 <;> simp [hc]
    have e : evenIncs h n amount (p :: ps) = ((contribF n (fl (p.r / h))).map fun t : ℤ × ℚ × ℚ => (t.1, fl (amount p * t.2.1))) ++ evenIncs h n amount ps := by
      unfold evenIncs; rw [List.flatMap_cons]
    have e2 : ((contribF n (fl (p.r / h))).map fun t : ℤ × ℚ × ℚ => (t.1, fl (amount p * t.2.1))).map Prod.snd = (contribF n (fl (p.r / h))).map fun t : ℤ × ℚ × ℚ => fl (amount p * t.2.1) := by
      rw [List.map_map]; rfl
    rw [e]
    simp only [List.map_append, List.sum_append, absSum, List.map_cons, List.sum_cons, List.length_append, List.length_cons] at *
    rw [e2]
    refine ⟨?_, ?_, ?_⟩
    · generalize (List.map (fun t : ℤ × ℚ × ℚ => fl (amount p * t.2.1)) (contribF n (fl (p.r / h)))).sum = A at *
      generalize (List.map Prod.snd (evenIncs h n amount ps)).sum = B at *
      generalize (ps.map amount).sum = C at *
      rw [show A + B - (amount p + C) = (A - amount p) + (B - C) by ring]
      refine (abs_add_le _ _).trans ?_
      linarith
    · linarith
    · rw [List.length_map]; omega

/-- C73: for every list of particles inside the grid and every amount carried by them (charge, longitudinal current), with every operation rounded the sum over the nodes of what is accumulated is the sum of the amounts
up to 3 N + 5 roundings of the sum of their sizes, `N` the number of particles. -/
theorem accumulated_doubles {n : ℕ} (h2 : 2 ≤ n) (hn : n ≤ 2 ^ 40) {h : ℚ} (amount : PPF → ℚ) (ps : List PPF) (hp : ∀ p ∈ ps, InCells n h p.r) :
    |∑ i ∈ range n, accumulateF h n true amount ps i - (ps.map amount).sum| ≤ gam (3 * ps.length + 5) * (ps.map fun p => |amount p|).sum ∧
      ∑ i ∈ range n, |accumulateF h n true amount ps i| ≤ (1 + gam (3 * ps.length + 5)) * (ps.map fun p => |amount p|).sum := by
  obtain ⟨i1, i2, i3⟩ := incs_sum hn amount ps hp
  have hin : ∀ t ∈ evenIncs h n amount ps, t.1 ∈ nodeSet n := by
    intro t ht
    unfold evenIncs at ht
    obtain ⟨p, hp', ht⟩ := List.mem_flatMap.mp ht
    obtain ⟨s, hs, rfl⟩ := List.mem_map.mp ht
    exact contrib_in h2 (hp p hp') s hs
  have hlen : ∀ i ∈ nodeSet n, (atNode i (evenIncs h n amount ps)).length ≤ 3 * ps.length := by
    intro i _
    unfold atNode
    rw [List.length_map]
    exact (List.length_filter_le _ _).trans i3
  have ht := deposit_total (nodeSet n) (fun _ => 0) (evenIncs h n amount ps) _ hin hlen
  have hsum : ∀ f : ℤ → ℚ, ∑ i ∈ nodeSet n, f i = ∑ i ∈ range n, f i := by
    intro f; unfold nodeSet; rw [Finset.sum_map]; rfl
  simp only [Finset.sum_const_zero, abs_zero, zero_add, hsum] at ht
  rw [accumulate_even]
  have ga := gam_add (3 * ps.length) 5
  have g0 := gam_nonneg (3 * ps.length)
  generalize (ps.map fun p => |amount p|).sum = B at *
  generalize (ps.map amount).sum = C at *
  have m := mul_le_mul_of_nonneg_left i2 g0
  have e1 : gam (3 * ps.length + 5) = gam 5 + gam (3 * ps.length) * (1 + gam 5) := by linarith
  constructor
  · rw [e1]
    have t := abs_add_le (∑ i ∈ range n, addAtF (fun _ => 0) (evenIncs h n amount ps) (i : ℤ) - ((evenIncs h n amount ps).map Prod.snd).sum) (((evenIncs h n amount ps).map Prod.snd).sum - C)
    rw [sub_add_sub_cancel] at t
    linarith [(by ring : (gam 5 + gam (3 * ps.length) * (1 + gam 5)) * B = gam 5 * B + gam (3 * ps.length) * ((1 + gam 5) * B))]
  · have hs : ∑ i ∈ range n, |addAtF (fun _ => 0) (evenIncs h n amount ps) (i : ℤ)| ≤ (1 + gam (3 * ps.length)) * absSum ((evenIncs h n amount ps).map Prod.snd) := by
      have key : ∑ i ∈ nodeSet n, absSum (atNode i (evenIncs h n amount ps)) = absSum ((evenIncs h n amount ps).map Prod.snd) := by
        generalize evenIncs h n amount ps = l at hin
        clear * - hin
        induction l with
        | nil => simp [atNode, absSum]
        | cons a l ih =>
          have h2 := ih fun t ht => hin t (List.mem_cons_of_mem _ ht)
          have ha := hin a List.mem_cons_self
          have e : ∀ i, atNode i (a :: l) = (if a.1 = i then [a.2] else []) ++ atNode i l := by
            intro i; unfold atNode; rw [List.filter_cons]
            by_cases hk : a.1 = i <;> simp [hk]
          simp only [absSum, e, List.map_append, List.sum_append, Finset.sum_add_distrib, List.map_cons, List.sum_cons] at h2 ⊢
          rw [h2]
          congr 1
          rw [Finset.sum_eq_single a.1]
          · simp
          · intro b _ hb; rw [if_neg (Ne.symm hb)]; simp
          · intro hc; exact absurd ha hc
      rw [← key, ← hsum fun i => |addAtF (fun _ => 0) (evenIncs h n amount ps) i|, Finset.mul_sum]
      refine Finset.sum_le_sum fun i hi => ?_
      rw [addAtF_apply]
      have := sumF_abs_le (atNode i (evenIncs h n amount ps)) 0
      rw [abs_zero, zero_add] at this
      exact this.trans (mul_le_mul_of_nonneg_right (by linarith [gam_mono (hlen i hi)]) (absSum_nonneg _))
    refine hs.trans ?_
    rw [ga, mul_assoc]
    exact mul_le_mul_of_nonneg_left i2 (by linarith)

/-- Specification: a cell beyond the axis or beyond the wall is the cell at the same distance on the near side. -/
def mirrorCell (n k : ℤ) : ℤ := if k < 0 then -k else if n ≤ k then 2 * (n - 1) - k else k

/-- C73: where the three shares go: to the nearest node and its neighbours, mirrored at the axis and at the wall, with the weights of their places; only what is mirrored at the axis changes the sign of the radial and azimuthal currents. -/
theorem contrib_cells {n : ℤ} (h2 : 2 ≤ n) (x : ℚ) (h0 : 0 ≤ ⌊fl (x + 1 / 2)⌋) (h1 : ⌊fl (x + 1 / 2)⌋ ≤ n - 1) :
    contribF n x = ([-1, 0, 1] : List ℤ).map fun place => (mirrorCell n (⌊fl (x + 1 / 2)⌋ + place), weight2F (fl (x - ⌊fl (x + 1 / 2)⌋)) place, if ⌊fl (x + 1 / 2)⌋ + place < 0 then -1 else 1) := by
  unfold contribF mirrorCell
  simp only
  generalize fl (x - ⌊fl (x + 1 / 2)⌋) = l
  generalize ⌊fl (x + 1 / 2)⌋ = c at *
  rcases lt_or_ge 0 c with hc | hc
  · rw [if_neg (by omega), if_neg (by omega)]
    simp only [List.nil_append, List.map_cons, List.map_nil, List.cons.injEq, Prod.mk.injEq, and_true, true_and]
    refine ⟨⟨?_, ?_⟩, ⟨?_, ?_⟩, ?_, ?_⟩ <;> split_ifs <;> first | rfl | omega
  · have : c = 0 := by omega
    subst this
    simp only [if_true, List.cons_append, List.nil_append, List.map_cons, List.map_nil, List.cons.injEq, Prod.mk.injEq, and_true, true_and]
    refine ⟨⟨?_, ?_⟩, ⟨?_, ?_⟩, ?_, ?_⟩ <;> split_ifs <;> first | rfl | omega

/-- Non-vacuity: next to the wall of four nodes. -/
example : contribF 4 (13 / 4) = [(2, weight2F (1 / 4) (-1), 1), (3, weight2F (1 / 4) 0, 1), (2, weight2F (1 / 4) 1, 1)] := by
  rw [contrib_cells (by norm_num) _ (by decide +kernel) (by decide +kernel)]
  decide +kernel

/-! ### The density -/

/-- Specification: the volumes by which the densities are divided (rhoj.py:86-92), with the rational np.pi: `2 π h² k`, except on the axis, next to it and at the wall. -/
def volume2 (h : ℚ) (ppc n k : ℕ) : ℚ :=
  if k + 1 = n then piF * h ^ 2 * (n - 45 / 32)
  else if k = 0 then piF * h ^ 2 * ((13 + 2 * (1 / (ppc : ℚ)) ^ 2) / 32)
  else if k = 1 then 2 * piF * h ^ 2 * ((193 + 2 * (1 / (ppc : ℚ)) ^ 2) / 192)
  else 2 * piF * h ^ 2 * k

/-- C73: the volumes in doubles, up to twelve roundings. -/
theorem volume2_doubles (h : ℚ) (ppc : ℕ) {n : ℕ} (h2 : 2 ≤ n) (k : ℕ) : Rel 12 (cellVolumeF h ppc n k) (volume2 h ppc n k) := by
  have hp : Rel 1 (fl (h * h)) (h ^ 2) := by rw [sq]; exact (Rel.refl _).fl
  have hq : Rel 2 (fl (piF * fl (h * h))) (piF * h ^ 2) := by
    have := ((Rel.refl piF).mul hp).fl
    exact this.mono (by norm_num)
  have h2p : Rel 3 (fl (fl (2 * piF) * fl (h * h))) (2 * piF * h ^ 2) := by
    have := ((Rel.refl (2 * piF)).fl.mul hp).fl
    exact this.mono (by norm_num)
  have hv : Rel 4 (fl (fl (fl (2 * piF) * fl (h * h)) * k)) (2 * piF * h ^ 2 * k) := by
    have := (h2p.mul (Rel.refl (k : ℚ))).fl
    exact this.mono (by norm_num)
  have hc : Rel 4 (fl (2 * fl (fl (1 / (ppc : ℚ)) * fl (1 / (ppc : ℚ))))) (2 * (1 / (ppc : ℚ)) ^ 2) := by
    have h1 : Rel 1 (fl (1 / (ppc : ℚ))) (1 / (ppc : ℚ)) := (Rel.refl _).fl
    have h3 := ((Rel.refl 2).mul (h1.mul h1).fl).fl
    rw [sq]
    exact h3.mono (by norm_num)
  have corr : ∀ a d : ℚ, 0 ≤ a → Rel 6 (fl (fl (a + fl (2 * fl (fl (1 / (ppc : ℚ)) * fl (1 / (ppc : ℚ))))) / d)) ((a + 2 * (1 / (ppc : ℚ)) ^ 2) / d) := by
    intro a d ha
    have h1 := (((Rel.refl a).mono (Nat.zero_le 4)).add hc ha (by positivity)).fl
    have h3 := (h1.mul (Rel.refl (1 / d))).fl
    rw [mul_one_div, mul_one_div] at h3
    exact h3.mono (by norm_num)
  unfold cellVolumeF volume2
  simp only
  by_cases e1 : k + 1 = n
  · rw [if_pos (by omega), if_pos e1]
    have := (hq.mul (Rel.refl ((n : ℚ) - 45 / 32)).fl).fl
    exact this.mono (by norm_num)
  · rw [if_neg (by omega), if_neg e1]
    split
    · exact (hq.mul (corr 13 32 (by norm_num))).fl.mono (by norm_num)
    · split
      · rename_i hk
        have := (hv.mul (corr 193 192 (by norm_num))).fl
        rw [hk, Nat.cast_one, mul_one] at this
        rw [hk]
        push_cast
        simp only [mul_one] at this ⊢
        exact this.mono (by norm_num)
      · exact hv.mono (by norm_num)

/-- Non-vacuity: the four kinds of cells. -/
example : (List.range 5).map (fun k => Rel 12 (cellVolumeF (fl (1 / 10)) 10 5 k) (volume2 (fl (1 / 10)) 10 5 k)) = List.replicate 5 True := by
  simp [volume2_doubles, List.range_succ, List.replicate]


theorem cellVolume_pos {h : ℚ} (hh : 0 < h) {ppc : ℕ} {n : ℕ} (h2 : 2 ≤ n) (k : ℕ) : 0 < cellVolumeF h ppc n k := by
  have hpi : (0 : ℚ) < piF := by unfold piF; norm_num
  have hs : 0 < fl (h * h) := fl_pos (mul_pos hh hh)
  have hn : (2 : ℚ) ≤ n := by exact_mod_cast h2
  have hc : 0 ≤ fl (2 * fl (fl (1 / (ppc : ℚ)) * fl (1 / (ppc : ℚ)))) := fl_nonneg (mul_nonneg (by norm_num) (fl_nonneg (mul_self_nonneg _)))
  unfold cellVolumeF
  simp only
  have hv : 0 < k → 0 < fl (fl (fl (2 * piF) * fl (h * h)) * k) := fun hk =>
    fl_pos (mul_pos (fl_pos (mul_pos (fl_pos (by linarith)) hs)) (by exact_mod_cast hk))
  split_ifs
  · exact fl_pos (mul_pos (fl_pos (mul_pos hpi hs)) (fl_pos (by linarith)))
  · exact fl_pos (mul_pos (fl_pos (mul_pos hpi hs)) (fl_pos (div_pos (fl_pos (by linarith)) (by norm_num))))
  · exact fl_pos (mul_pos (hv (by omega)) (fl_pos (div_pos (fl_pos (by linarith)) (by norm_num))))
  · exact hv (by omega)

/-- C73: the charge on the grid (density times the volume of the cell, summed over the nodes) is the deposited charge up to 3 N + 6 roundings. -/
theorem density_charge_doubles {n : ℕ} (h2 : 2 ≤ n) (hn : n ≤ 2 ^ 40) {h : ℚ} (hh : 0 < h) (ppc : ℕ) (ps : List PPF) (hp : ∀ p ∈ ps, InCells n h p.r) :
    |∑ i ∈ range n, cellVolumeF h ppc n i * (rhojRowF h ppc n ps).rho i - (ps.map fun p => fl (chargeF p * gammaF p.m p.pr p.pf p.pz)).sum| ≤
      gam (3 * ps.length + 6) * (ps.map fun p => |fl (chargeF p * gammaF p.m p.pr p.pf p.pz)|).sum := by
  obtain ⟨a1, a2⟩ := accumulated_doubles h2 hn (fun p => fl (chargeF p * gammaF p.m p.pr p.pf p.pz)) ps hp
  have hrow : ∀ i : ℕ, |cellVolumeF h ppc n i * (rhojRowF h ppc n ps).rho i - accumulateF h n true (fun p => fl (chargeF p * gammaF p.m p.pr p.pf p.pz)) ps i| ≤
      u * |accumulateF h n true (fun p => fl (chargeF p * gammaF p.m p.pr p.pf p.pz)) ps i| := by
    intro i
    unfold rhojRowF
    simp only
    generalize accumulateF h n true (fun p => fl (chargeF p * gammaF p.m p.pr p.pf p.pz)) ps i = A
    have hv := cellVolume_pos hh (ppc := ppc) h2 i
    generalize cellVolumeF h ppc n i = v at *
    have h1 := fl_abs_err (A / v)
    have e : v * fl (A / v) - A = v * (fl (A / v) - A / v) := by field_simp
    rw [e, abs_mul, abs_of_pos hv]
    refine (mul_le_mul_of_nonneg_left h1 hv.le).trans (le_of_eq ?_)
    rw [abs_div, abs_of_pos hv]; field_simp
  have hsum : |∑ i ∈ range n, cellVolumeF h ppc n i * (rhojRowF h ppc n ps).rho i - ∑ i ∈ range n, accumulateF h n true (fun p => fl (chargeF p * gammaF p.m p.pr p.pf p.pz)) ps i| ≤
      u * ∑ i ∈ range n, |accumulateF h n true (fun p => fl (chargeF p * gammaF p.m p.pr p.pf p.pz)) ps i| := by
    rw [← Finset.sum_sub_distrib, Finset.mul_sum]
    exact (Finset.abs_sum_le_sum_abs _ _).trans (Finset.sum_le_sum fun i _ => hrow i)
  have m := mul_le_mul_of_nonneg_left a2 u_pos.le
  rw [show 3 * ps.length + 6 = (3 * ps.length + 5) + 1 from rfl, gam_succ]
  have t := abs_sub_le (∑ i ∈ range n, cellVolumeF h ppc n i * (rhojRowF h ppc n ps).rho i) (∑ i ∈ range n, accumulateF h n true (fun p => fl (chargeF p * gammaF p.m p.pr p.pf p.pz)) ps i)
    ((ps.map fun p => fl (chargeF p * gammaF p.m p.pr p.pf p.pz)).sum)
  generalize (ps.map fun p => |fl (chargeF p * gammaF p.m p.pr p.pf p.pz)|).sum = B at *
  linarith [(by ring : (gam (3 * ps.length + 5) + u * (1 + gam (3 * ps.length + 5))) * B = gam (3 * ps.length + 5) * B + u * ((1 + gam (3 * ps.length + 5)) * B))]

/-- C73: for particles at rest, of any masses, the charge on the grid is the sum of the charges up to 3 N + 8 roundings. -/
theorem rest_charge_doubles {n : ℕ} (h2 : 2 ≤ n) (hn : n ≤ 2 ^ 40) {h : ℚ} (hh : 0 < h) (ppc : ℕ) (ps : List PPF) (hp : ∀ p ∈ ps, InCells n h p.r)
    (hr : ∀ p ∈ ps, IsFloat p.m ∧ 0 < p.m ∧ p.pr = 0 ∧ p.pf = 0 ∧ p.pz = 0) :
    |∑ i ∈ range n, cellVolumeF h ppc n i * (rhojRowF h ppc n ps).rho i - (ps.map PPF.q).sum| ≤ gam (3 * ps.length + 8) * (ps.map fun p => |p.q|).sum := by
  have hq : ∀ p ∈ ps, Rel 2 (fl (chargeF p * gammaF p.m p.pr p.pf p.pz)) p.q := by
    intro p hp'
    obtain ⟨f, m0, e1, e2, e3⟩ := hr p hp'
    unfold chargeF
    rw [e1, e2, e3, gamma_at_rest f m0.le, sub_zero, fl_exact f]
    have h1 : Rel 1 (fl (p.q / p.m)) (p.q / p.m) := (Rel.refl _).fl
    have h3 : Rel 2 (fl (fl (p.q / p.m) * p.m)) (p.q / p.m * p.m) := (h1.mul (Rel.refl p.m)).fl
    rwa [div_mul_cancel₀ _ m0.ne'] at h3
  have hd := density_charge_doubles h2 hn hh ppc ps hp
  generalize ∑ i ∈ range n, cellVolumeF h ppc n i * (rhojRowF h ppc n ps).rho i = X at *
  have key : ∀ l : List PPF, (∀ p ∈ l, Rel 2 (fl (chargeF p * gammaF p.m p.pr p.pf p.pz)) p.q) →
      |(l.map fun p => fl (chargeF p * gammaF p.m p.pr p.pf p.pz)).sum - (l.map PPF.q).sum| ≤ gam 2 * (l.map fun p => |p.q|).sum ∧
      (l.map fun p => |fl (chargeF p * gammaF p.m p.pr p.pf p.pz)|).sum ≤ (1 + gam 2) * (l.map fun p => |p.q|).sum := by
    intro l
    induction l with
    | nil => intro _; simp
    | cons p l ih =>
      intro hl
      obtain ⟨i1, i2⟩ := ih fun x hx => hl x (List.mem_cons_of_mem _ hx)
      have ha := hl p List.mem_cons_self
      have hb := ha.abs_le
      unfold Rel at ha
      simp only [List.map_cons, List.sum_cons]
      generalize fl (chargeF p * gammaF p.m p.pr p.pf p.pz) = a at *
      generalize (l.map fun p => fl (chargeF p * gammaF p.m p.pr p.pf p.pz)).sum = A at *
      generalize (l.map PPF.q).sum = C at *
      constructor
      · rw [show a + A - (p.q + C) = (a - p.q) + (A - C) by ring]
        exact (abs_add_le _ _).trans (by linarith)
      · linarith
  obtain ⟨k1, k2⟩ := key ps hq
  have ga := gam_add (3 * ps.length + 6) 2
  have m := mul_le_mul_of_nonneg_left k2 (gam_nonneg (3 * ps.length + 6))
  have e1 : gam (3 * ps.length + 8) = gam 2 + gam (3 * ps.length + 6) * (1 + gam 2) := by
    rw [show 3 * ps.length + 8 = 3 * ps.length + 6 + 2 from rfl]; linarith
  rw [e1]
  generalize (ps.map fun p => fl (chargeF p * gammaF p.m p.pr p.pf p.pz)).sum = A at *
  generalize (ps.map fun p => |p.q|).sum = B at *
  have t := abs_sub_le X A (ps.map PPF.q).sum
  linarith [(by ring : (gam 2 + gam (3 * ps.length + 6) * (1 + gam 2)) * B = gam 2 * B + gam (3 * ps.length + 6) * ((1 + gam 2) * B))]

/-! ### A whole run -/

theorem inCells_iff {R h r : ℚ} (hh : 0 < h) (hr : 0 ≤ r) {n : ℕ} (hn : (n : ℤ) = nodes R h) (h2 : 2 ≤ n) : InCells n h r ↔ AllIn (nodes R h) (plasmaTouched (nodes R h) (cellOf h r)) := by
  rw [touched_iff _ _ (cellOf_nonneg hh hr), ← hn]
  unfold InCells cellOf
  constructor
  · rintro ⟨-, b⟩; exact ⟨by omega, b⟩
  · rintro ⟨-, b⟩; exact ⟨fl_nonneg (div_nonneg hr hh.le), b⟩

/-- C73: in a whole run with rounding, with any beam, any number of layers and all options (refinement depth at most 15), if the window is a whole number of cells up to less than half a cell, then the plasma of every
layer deposits inside the arrays, and the charge on the grid of the layer is the deposited charge of its particles up to 3 N + 6 roundings, electrons and mobile ions alike. -/
theorem run_charge_doubles (c : CfgF) (hR : IsFloat c.R) (hh : 0 < c.h) (hq1 : 1 ≤ fl (c.R / c.h)) (hq2 : fl (c.R / c.h) < 2 ^ 39) (hq : fl (c.R / c.h) < pyInt (fl (c.R / c.h)) + 1 / 2) (hm : c.depth ≤ 15)
    (L : ℚ) (hL : 0 < L) (hf : IsFloat L) (rhos : List (ℕ → ℚ)) (w : WorldF) (hw : InWinF c.R w.el ∧ IonsInWinF c.R w.ions) :
    ∃ w', layersWF c L rhos w = some w' ∧
      ∀ ps, (ps = w'.el ∨ w'.ions = .mobile ps) →
        (∀ p ∈ ps, AllIn (nodes c.R c.h) (plasmaTouched (nodes c.R c.h) (cellOf c.h p.r))) ∧
        |∑ i ∈ range (c.M + 1), cellVolumeF c.h c.ppc (c.M + 1) i * (rhojRowF c.h c.ppc (c.M + 1) ps).rho i - (ps.map fun p => fl (chargeF p * gammaF p.m p.pr p.pf p.pz)).sum| ≤
          gam (3 * ps.length + 6) * (ps.map fun p => |fl (chargeF p * gammaF p.m p.pr p.pf p.pz)|).sum := by
  have hR0 : 0 ≤ c.R := by
    by_contra hc
    have := fl_mono (div_nonpos_of_nonpos_of_nonneg (le_of_lt (not_le.mp hc)) hh.le)
    rw [fl_zero'] at this
    linarith
  obtain ⟨w', e, h1, h2⟩ := layers_in_window_doubles c hR hR0 hm L hL hf rhos w hw
  have hk := pyInt_le (show (0 : ℚ) ≤ fl (c.R / c.h) by linarith)
  have hk1 := lt_pyInt_add_one (show (0 : ℚ) ≤ fl (c.R / c.h) by linarith)
  have hM1 : (1 : ℤ) ≤ pyInt (fl (c.R / c.h)) := by
    have : (0 : ℚ) < pyInt (fl (c.R / c.h)) := by linarith
    have : 0 < pyInt (fl (c.R / c.h)) := by exact_mod_cast this
    omega
  have hM2 : pyInt (fl (c.R / c.h)) < 2 ^ 39 := by
    have : (pyInt (fl (c.R / c.h)) : ℚ) < 2 ^ 39 := by linarith
    exact_mod_cast this
  have hn : ((c.M + 1 : ℕ) : ℤ) = nodes c.R c.h := by unfold CfgF.M nodes; push_cast; omega
  have hn2 : 2 ≤ c.M + 1 := by unfold nodes at hn; omega
  have hn40 : c.M + 1 ≤ 2 ^ 40 := by unfold nodes at hn; omega
  have safe := (plasma_safe_iff hR hh hq1 (hq2.trans (by norm_num))).mpr hq
  refine ⟨w', e, fun ps hps => ?_⟩
  have hin : InWinF c.R ps := by
    rcases hps with rfl | hps
    · exact h1
    · rw [hps] at h2; exact h2
  have hall : ∀ p ∈ ps, AllIn (nodes c.R c.h) (plasmaTouched (nodes c.R c.h) (cellOf c.h p.r)) := fun p hp => safe p.r (hin p hp).1 (hin p hp).2.1 (hin p hp).2.2
  exact ⟨hall, density_charge_doubles hn2 hn40 hh c.ppc ps fun p hp => (inCells_iff hh (hin p hp).2.1 hn hn2).mpr (hall p hp)⟩

/-- Non-vacuity: the tiny plasma of C72 with a beam of density 1 in three layers. -/
example : ∃ w, layersWF tinyCfg (fl (1 / 10)) (List.replicate 3 fun _ => 1) (initWorldF tinyCfg fun _ => 1) = some w ∧
    ∀ p ∈ w.el, AllIn (nodes tinyCfg.R tinyCfg.h) (plasmaTouched (nodes tinyCfg.R tinyCfg.h) (cellOf tinyCfg.h p.r)) := by
  have hR : IsFloat tinyCfg.R := ⟨1, 0, by norm_num, by norm_num [tinyCfg]⟩
  have hM : tinyCfg.M * tinyCfg.ppc = 2 := by decide +kernel
  have hrest := init_rest_doubles tinyCfg hR (by decide +kernel) (by omega) (by omega) (fun _ => 1) (fun _ => zero_le_one)
  obtain ⟨w, h1, h2⟩ := run_charge_doubles tinyCfg hR (by decide +kernel) (by decide +kernel) (by decide +kernel) (by decide +kernel) (by decide +kernel) (fl (1 / 10)) (fl_pos (by norm_num)) (isFloat_fl _)
    (List.replicate 3 fun _ => 1) (initWorldF tinyCfg fun _ => 1) ⟨fun p hp => ⟨(hrest p hp).2.2.2.1, (hrest p hp).2.2.2.2.1, (hrest p hp).2.2.2.2.2.1⟩, trivial⟩
  exact ⟨w, h1, (h2 w.el (Or.inl rfl)).1⟩

end Lcode.Fp
