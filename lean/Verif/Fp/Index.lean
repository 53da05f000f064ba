import Verif.Fp.Counts

/-!
C61: which elements of the arrays of the axisymmetric code are touched, with the rounding of floats.

numba does not check indices, so an index outside an array is not an error message but a read or write of foreign memory.
`R` (window-width) and `h` (transverse-step) are the floats of the configuration.
-/

namespace Lcode.Fp

open Lcode.Py

/-- Number of nodes of the radial arrays: plasma/rhoj.py:98, plasma/initialization.py:25, beam/beam_calculate.py:371. -/
def nodes (R h : ℚ) : ℤ := pyInt (fl (R / h)) + 1

/-- Cell of a plasma particle: plasma/rhoj.py:43-44 (deposition), plasma/move.py:102 (fields). -/
def cellOf (h r : ℚ) : ℤ := ⌊fl (fl (r / h) + 1 / 2)⌋

/-- Elements of the density and current arrays of length `n` written for a particle of cell `c`: plasma/rhoj.py:47-71. -/
def plasmaTouched (n c : ℤ) : List ℤ :=
  (if c = 0 then [1] else []) ++
  ((if c = 0 then [0, 1] else [-1, 0, 1] : List ℤ).map fun place => if c = n - 1 ∧ place = 1 then n - 2 else c + place)

/-- Elements of field arrays of length `n` read for a particle of cell `c`: plasma/move.py:16-34 (`jm`, `jc`, `jp`). -/
def plasmaRead (n c : ℤ) : List ℤ :=
  if c = n - 1 then [c - 1, c, c - 1] else if c = 0 then [c + 1, c, c + 1] else if c ≥ n then [] else [c - 1, c, c + 1]

/-- Elements touched for a beam particle at radius `r`: beam/weights.py:13, :41-53. -/
def beamTouched (h r : ℚ) : List ℤ := [⌊fl (r / h)⌋, ⌊fl (r / h)⌋ + 1]

/-- Specification: all indices address elements of an array of length `n`. -/
def AllIn (n : ℤ) (l : List ℤ) : Prop := ∀ i ∈ l, 0 ≤ i ∧ i < n

/-! ### The plasma -/

theorem touched_iff (n c : ℤ) (hc : 0 ≤ c) : AllIn n (plasmaTouched n c) ↔ 2 ≤ n ∧ c ≤ n - 1 := by
  unfold AllIn plasmaTouched
  by_cases h0 : c = 0
  · subst h0
    simp only [if_true, List.map_cons, List.map_nil, List.mem_append, List.mem_cons, List.not_mem_nil, or_false]
    constructor
    · intro h
      have := h 1 (Or.inl rfl)
      omega
    · rintro ⟨h1, h2⟩ i hi
      have e1 : ¬ ((0 : ℤ) = n - 1 ∧ (0 : ℤ) = 1) := by omega
      have e2 : ¬ ((0 : ℤ) = n - 1 ∧ (1 : ℤ) = 1) := by omega
      simp only [e1, e2, if_false, and_true] at hi e2
      rw [if_neg e2] at hi
      omega
  · simp only [h0, if_false, List.map_cons, List.map_nil, List.nil_append, List.mem_cons, List.not_mem_nil, or_false]
    have e1 : ¬ (c = n - 1 ∧ (-1 : ℤ) = 1) := by omega
    have e2 : ¬ (c = n - 1 ∧ (0 : ℤ) = 1) := by omega
    rw [if_neg e1, if_neg e2]
    constructor
    · intro h
      have := h (c + 0) (by simp)
      omega
    · rintro ⟨h1, h2⟩ i hi
      by_cases e3 : c = n - 1
      · rw [if_pos ⟨e3, trivial⟩] at hi
        omega
      · rw [if_neg (fun h => e3 h.1)] at hi
        omega

/-- C61: reading fields is safe for every cell. -/
theorem read_safe (n c : ℤ) (hn : 2 ≤ n) (hc : 0 ≤ c) : AllIn n (plasmaRead n c) := by
  unfold AllIn plasmaRead
  intro i hi
  split_ifs at hi with h1 h2 h3
  all_goals (simp only [List.mem_cons, List.not_mem_nil, or_false] at hi; try omega)

theorem cellOf_mono {h r s : ℚ} (hh : 0 < h) (hrs : r ≤ s) : cellOf h r ≤ cellOf h s := by
  unfold cellOf
  apply Int.floor_mono
  apply fl_mono
  have : fl (r / h) ≤ fl (s / h) := fl_mono (div_le_div_of_nonneg_right hrs hh.le)
  linarith

theorem cellOf_nonneg {h r : ℚ} (hh : 0 < h) (hr : 0 ≤ r) : 0 ≤ cellOf h r := by
  unfold cellOf
  apply Int.floor_nonneg.mpr
  apply fl_nonneg
  have := fl_nonneg (div_nonneg hr hh.le)
  linarith

/-- Adding one half to a float that is not below one does not carry it over the next integer by rounding. -/
theorem half_keeps {q : ℚ} (hq : IsFloat q) {k : ℤ} (h1 : 1 ≤ k) (hk : (k : ℚ) ≤ q) (hlt : q < k + 1 / 2) (hk2 : k < 2 ^ 51) : fl (q + 1 / 2) < k + 1 := by
  have hq1 : (1 : ℚ) ≤ q := le_trans (by exact_mod_cast h1) hk
  have hq0 : q ≠ 0 := by linarith
  have hab : |q| = q := abs_of_pos (by linarith)
  obtain ⟨a, ha⟩ : ∃ a, a = Int.log 2 |q| := ⟨_, rfl⟩
  have g1 : (2 : ℚ) ^ a ≤ q := by have := log_le hq0; rwa [← ha, hab] at this
  have g2 : q < (2 : ℚ) ^ (a + 1) := by have := lt_log q; rwa [← ha, hab] at this
  have ha0 : 0 ≤ a := by
    by_contra hc
    have : (2 : ℚ) ^ (a + 1) ≤ 2 ^ (0 : ℤ) := two_zpow_le (by omega)
    rw [zpow_zero] at this
    linarith
  have ha1 : a ≤ 51 := by
    by_contra hc
    have h3 : (2 : ℚ) ^ (52 : ℤ) ≤ 2 ^ a := two_zpow_le (by omega)
    have h4 : (k : ℚ) + 1 ≤ 2 ^ 51 := by exact_mod_cast hk2
    have h5 : (2 : ℚ) ^ (52 : ℤ) = 2 * 2 ^ 51 := by norm_num
    rw [h5] at h3
    have : (0 : ℚ) < 2 ^ 51 := by positivity
    linarith
  -- the next integer is in the same binade
  obtain ⟨b, rfl⟩ := Int.eq_ofNat_of_zero_le ha0
  have hkb : k + 1 ≤ 2 ^ (b + 1) := by
    have h3 : (k : ℚ) < 2 ^ (b + 1) := lt_of_le_of_lt hk (by
      have := g2; rw [show ((b : ℤ) + 1) = ((b + 1 : ℕ) : ℤ) by push_cast; rfl, zpow_natCast] at this; exact this)
    have h4 : k < 2 ^ (b + 1) := by exact_mod_cast h3
    omega
  obtain ⟨m, hm⟩ := float_multiple hq ((b : ℤ) - 52) (by
    rw [← zpow_natCast, ← zpow_add₀ (by norm_num)]
    have : (2 : ℚ) ^ (((52 : ℕ) : ℤ) + ((b : ℤ) - 52)) = 2 ^ (b : ℤ) := by congr 1; push_cast; ring
    rw [this]; exact g1)
  have hu := two_zpow_pos ((b : ℤ) - 52)
  have hhalf : (1 / 2 : ℚ) = ((2 : ℤ) ^ (51 - b) : ℤ) * 2 ^ ((b : ℤ) - 52) := by
    push_cast
    rw [← zpow_natCast, ← zpow_add₀ (by norm_num)]
    have : (((51 - b : ℕ) : ℤ) + ((b : ℤ) - 52)) = -1 := by omega
    rw [this]; norm_num
  have hy : q + 1 / 2 = ((m + 2 ^ (51 - b) : ℤ) : ℚ) * 2 ^ ((b : ℤ) - 52) := by
    rw [hhalf]; nth_rewrite 1 [hm]; push_cast; ring
  have hfl : IsFloat (q + 1 / 2) := by
    refine ⟨m + 2 ^ (51 - b), (b : ℤ) - 52, ?_, hy⟩
    have h6 : q + 1 / 2 < (2 : ℚ) ^ (b + 1) := by
      have : ((k + 1 : ℤ) : ℚ) ≤ 2 ^ (b + 1) := by exact_mod_cast hkb
      push_cast at this
      linarith
    rw [hy] at h6
    have h7 : (2 : ℚ) ^ (b + 1) = 2 ^ 53 * 2 ^ ((b : ℤ) - 52) := by
      rw [← zpow_natCast, ← zpow_natCast, ← zpow_add₀ (by norm_num)]
      congr 1; push_cast; ring
    rw [h7] at h6
    have h8 := lt_of_mul_lt_mul_right h6 hu.le
    have h9 : m + 2 ^ (51 - b) < 2 ^ 53 := by exact_mod_cast h8
    have h10 : 0 < m + 2 ^ (51 - b) := by
      have : (0 : ℚ) < q + 1 / 2 := by linarith
      rw [hy] at this
      have := (pos_iff_pos_of_mul_pos this).mpr hu
      exact_mod_cast this
    rw [abs_of_pos h10]; omega
  rw [fl_exact hfl]
  linarith


/-- C61: every plasma particle of the window writes inside the arrays exactly if the computed quotient of window-width and transverse-step exceeds the integer it is cut to by less than one half. -/
theorem plasma_safe_iff {R h : ℚ} (hR : IsFloat R) (hh : 0 < h) (h1 : 1 ≤ fl (R / h)) (h2 : fl (R / h) < 2 ^ 51) :
    (∀ r, IsFloat r → 0 ≤ r → r ≤ R → AllIn (nodes R h) (plasmaTouched (nodes R h) (cellOf h r))) ↔ fl (R / h) < pyInt (fl (R / h)) + 1 / 2 := by
  have hq0 : 0 ≤ fl (R / h) := by linarith
  have hk := pyInt_le hq0
  have hk1 := lt_pyInt_add_one hq0
  have hR0 : 0 ≤ R := by
    by_contra hc
    have := fl_mono (div_nonpos_of_nonpos_of_nonneg (le_of_lt (not_le.mp hc)) hh.le)
    rw [fl_zero] at this
    linarith
  have g1 : (1 : ℤ) ≤ pyInt (fl (R / h)) := by
    have : (0 : ℚ) < pyInt (fl (R / h)) := by linarith
    have : (0 : ℤ) < pyInt (fl (R / h)) := by exact_mod_cast this
    omega
  constructor
  · intro hs
    have := (touched_iff _ _ (cellOf_nonneg hh hR0)).mp (hs R hR hR0 le_rfl)
    have hc := this.2
    unfold nodes at hc
    by_contra hx
    push Not at hx
    have h3 : ((pyInt (fl (R / h)) + 1 : ℤ) : ℚ) ≤ fl (fl (R / h) + 1 / 2) := by
      have e : fl ((pyInt (fl (R / h)) + 1 : ℤ) : ℚ) = ((pyInt (fl (R / h)) + 1 : ℤ) : ℚ) := by
        apply fl_int
        rw [abs_of_nonneg (by omega)]
        have : (pyInt (fl (R / h)) : ℚ) < 2 ^ 51 := by linarith
        have : pyInt (fl (R / h)) < 2 ^ 51 := by exact_mod_cast this
        omega
      rw [← e]
      apply fl_mono
      push_cast
      linarith
    have h4 := Int.le_floor.mpr h3
    unfold cellOf at hc
    omega
  · intro hlt r _ hr hrR
    refine (touched_iff _ _ (cellOf_nonneg hh hr)).mpr ⟨by unfold nodes; omega, ?_⟩
    refine le_trans (cellOf_mono hh hrR) ?_
    have h3 := half_keeps (isFloat_fl _) g1 hk hlt (by
      have : (pyInt (fl (R / h)) : ℚ) < 2 ^ 51 := by linarith
      exact_mod_cast this)
    unfold cellOf nodes
    have h4 : ⌊fl (fl (R / h) + 1 / 2)⌋ < pyInt (fl (R / h)) + 1 := by
      rw [Int.floor_lt]; push_cast; exact h3
    omega

theorem quot_close {w h : ℚ} {n : ℕ} (hh : 0 < h) (hw : w = n * h) (hn : n < 2 ^ 46) : |quot w h - n| < 1 / 32 := by
  have hw0 : 0 ≤ w := by rw [hw]; positivity
  have e : w / h = n := by rw [hw]; field_simp
  have h1 := quot_err hw0 hh
  rw [e] at h1
  have hn' : (n : ℚ) < 2 ^ 46 := by exact_mod_cast hn
  refine lt_of_le_of_lt h1 ?_
  rw [div_lt_iff₀ (by norm_num)]; norm_num at hn' ⊢; linarith

/-- C61: for a window of `n` whole steps that means that no cell was lost to rounding. -/
theorem whole_window_safe_iff {w h : ℚ} {n : ℕ} (hh : 0 < h) (hw : w = n * h) (h2 : 2 ≤ n) (hn : n < 2 ^ 46) :
    (∀ r, IsFloat r → 0 ≤ r → r ≤ fl w → AllIn (nodes (fl w) (fl h)) (plasmaTouched (nodes (fl w) (fl h)) (cellOf (fl h) r))) ↔ intCount w h = n := by
  have hc := abs_lt.mp (quot_close hh hw hn)
  have hn2 : (2 : ℚ) ≤ n := by exact_mod_cast h2
  have hn' : (n : ℚ) < 2 ^ 46 := by exact_mod_cast hn
  have e : fl (fl w / fl h) = quot w h := rfl
  rw [plasma_safe_iff (isFloat_fl w) (fl_pos hh) (by rw [e]; linarith) (lt_trans (by rw [e]; linarith) (lt_trans (add_lt_add_left hn' 1) (by norm_num : (2 : ℚ) ^ 46 + 1 < 2 ^ 51))), e]
  show quot w h < (intCount w h : ℚ) + 1 / 2 ↔ _
  constructor
  · intro hx
    rcases intCount_or hh hw (by omega) with h3 | h3
    · exact h3
    · rw [h3] at hx; push_cast at hx; linarith
  · intro h3
    rw [h3]; push_cast; linarith

/-! ### The initial plasma -/

/-- plasma/initialization.py:9-12: the position of particle `i`, `k` being `int(window_width / r_step)`. -/
def placeF (R h : ℚ) (ppc i : ℕ) : ℚ := fl (((i : ℚ) + 1 / 2) * fl (R / ((pyInt (fl (R / h)) * ppc : ℤ) : ℚ)))

/-- C61, finding: if a cell is lost to rounding, then already the outermost particle of the initial plasma (two or more particles per cell) writes beyond the end of the arrays: it is in cell `n` and there are `n` nodes. -/
theorem initial_plasma_outside {w h : ℚ} {n ppc : ℕ} (hh : 0 < h) (hw : w = n * h) (h3 : 3 ≤ n) (hn : n < 2 ^ 46) (hp : 2 ≤ ppc) (hl : intCount w h = n - 1) :
    ¬ AllIn (nodes (fl w) (fl h)) (plasmaTouched (nodes (fl w) (fl h)) (cellOf (fl h) (placeF (fl w) (fl h) ppc ((n - 1) * ppc - 1)))) := by
  have hk : pyInt (fl (fl w / fl h)) = (n : ℤ) - 1 := hl
  have hfh := fl_pos hh
  have hw0 : 0 < w := by rw [hw]; have : (0 : ℚ) < n := by exact_mod_cast (by omega : 0 < n)
                         positivity
  have hfw := fl_pos hw0
  obtain ⟨m, rfl⟩ : ∃ m, n = m + 1 := ⟨n - 1, by omega⟩
  have hkm : pyInt (fl (fl w / fl h)) = (m : ℤ) := by rw [hk]; push_cast; ring
  obtain ⟨M, hM⟩ : ∃ M, m * ppc = M + 1 := ⟨m * ppc - 1, by
    have : 1 ≤ m * ppc := Nat.one_le_iff_ne_zero.mpr (Nat.mul_ne_zero (by omega) (by omega))
    omega⟩
  have hMm : 2 * m ≤ M + 1 := by rw [← hM, Nat.mul_comm 2]; exact Nat.mul_le_mul_left _ hp
  set x := placeF (fl w) (fl h) ppc ((m + 1 - 1) * ppc - 1) with hx
  have hxe : x = fl (((M : ℚ) + 1 / 2) * fl (fl w / ((M : ℚ) + 1))) := by
    rw [hx]; unfold placeF; rw [hkm]
    have e1 : (m + 1 - 1) * ppc - 1 = M := by rw [Nat.add_sub_cancel, hM]; omega
    have e2 : (((m : ℤ) * ppc : ℤ) : ℚ) = (M : ℚ) + 1 := by
      have : ((m * ppc : ℕ) : ℚ) = ((M + 1 : ℕ) : ℚ) := by rw [hM]
      push_cast at this ⊢; exact this
    rw [e1, e2]
  have hM0 : (0 : ℚ) < (M : ℚ) + 1 := by positivity
  have hmq : (2 : ℚ) * m ≤ (M : ℚ) + 1 := by exact_mod_cast hMm
  have hm2 : (2 : ℚ) ≤ m := by exact_mod_cast (by omega : 2 ≤ m)
  have hmn : (m : ℚ) + 1 < 2 ^ 46 := by exact_mod_cast hn
  -- lower bound of the position
  have b1 := (fl_between (x := fl w / ((M : ℚ) + 1)) (by positivity)).1
  have b2 := (fl_between (x := ((M : ℚ) + 1 / 2) * fl (fl w / ((M : ℚ) + 1))) (mul_nonneg (by positivity) (fl_nonneg (by positivity)))).1
  rw [← hxe] at b2
  have r1 := (ratio_between hw0.le hh).1
  have e : w / h = (m : ℚ) + 1 := by rw [hw]; push_cast; field_simp
  rw [e] at r1
  have c1 : ((M : ℚ) + 1 / 2) * (fl w / ((M : ℚ) + 1) * (1 - 1 / 2 ^ 53)) * (1 - 1 / 2 ^ 53) ≤ x :=
    le_trans (mul_le_mul_of_nonneg_right (mul_le_mul_of_nonneg_left b1 (by positivity)) (by norm_num)) b2
  have hshare : 1 - 1 / (4 * (m : ℚ)) ≤ ((M : ℚ) + 1 / 2) / ((M : ℚ) + 1) := by
    have hm0 : (0 : ℚ) < 4 * m := by linarith
    rw [le_div_iff₀ hM0, sub_mul, one_mul, div_mul_eq_mul_div, one_mul]
    have : (1 : ℚ) / 2 ≤ ((M : ℚ) + 1) / (4 * m) := by rw [le_div_iff₀ hm0]; linarith
    linarith
  have c2 : fl w / fl h * (((M : ℚ) + 1 / 2) / ((M : ℚ) + 1)) * (1 - 1 / 2 ^ 53) ^ 2 ≤ x / fl h := by
    rw [le_div_iff₀ hfh]
    refine le_trans (le_of_eq ?_) c1
    field_simp
  have hm4 : 1 / (4 * (m : ℚ)) ≤ 1 / 8 := by
    apply one_div_le_one_div_of_le <;> linarith
  have c3 : ((m : ℚ) + 1) * (1 - 2 / 2 ^ 53) * (1 - 1 / (4 * (m : ℚ))) * (1 - 1 / 2 ^ 53) ^ 2 ≤ x / fl h := by
    refine le_trans (mul_le_mul_of_nonneg_right ?_ (by norm_num)) c2
    exact mul_le_mul r1 hshare (by linarith) (by positivity)
  have c4 : ((m : ℚ) + 1) * (1 - 1 / (4 * (m : ℚ))) = m + 3 / 4 - 1 / (4 * m) := by
    have : (m : ℚ) ≠ 0 := by linarith
    field_simp; ring
  have c5 : ((m : ℚ) + 5 / 8) * ((1 - 2 / 2 ^ 53) * (1 - 1 / 2 ^ 53) ^ 2) ≤ x / fl h := by
    refine le_trans ?_ c3
    have e2 : ((m : ℚ) + 1) * (1 - 2 / 2 ^ 53) * (1 - 1 / (4 * (m : ℚ))) * (1 - 1 / 2 ^ 53) ^ 2 =
      (m + 3 / 4 - 1 / (4 * m)) * ((1 - 2 / 2 ^ 53) * (1 - 1 / 2 ^ 53) ^ 2) := by rw [← c4]; ring
    rw [e2]
    exact mul_le_mul_of_nonneg_right (by linarith) (by norm_num)
  have c6 : (m : ℚ) + 1 / 2 ≤ x / fl h := by
    refine le_trans ?_ c5
    have e3 : (1 : ℚ) - 5 / 2 ^ 53 ≤ (1 - 2 / 2 ^ 53) * (1 - 1 / 2 ^ 53) ^ 2 := by norm_num
    refine le_trans ?_ (mul_le_mul_of_nonneg_left e3 (by linarith))
    have e4 : (5 : ℚ) / 2 ^ 53 * 2 ^ 46 ≤ 1 / 8 := by norm_num
    have e5 : ((m : ℚ) + 5 / 8) * (5 / 2 ^ 53) ≤ 2 ^ 46 * (5 / 2 ^ 53) := mul_le_mul_of_nonneg_right (by linarith) (by norm_num)
    have e6 : (2 : ℚ) ^ 46 * (5 / 2 ^ 53) ≤ 1 / 8 := by norm_num
    have e7 : ((m : ℚ) + 5 / 8) * (1 - 5 / 2 ^ 53) = m + 5 / 8 - (m + 5 / 8) * (5 / 2 ^ 53) := by ring
    linarith
  have hf : fl ((m : ℚ) + 1 / 2) = m + 1 / 2 := by
    apply fl_exact
    refine ⟨2 * m + 1, -1, ?_, by push_cast; rw [zpow_neg_one]; ring⟩
    rw [abs_of_nonneg (by positivity)]
    omega
  have c7 : (m : ℚ) + 1 / 2 ≤ fl (x / fl h) := by rw [← hf]; exact fl_mono c6
  have c8 : ((m + 1 : ℤ) : ℚ) ≤ fl (fl (x / fl h) + 1 / 2) := by
    have : fl ((m + 1 : ℤ) : ℚ) = ((m + 1 : ℤ) : ℚ) := fl_int (by rw [abs_of_nonneg (by positivity)]; omega)
    rw [← this]
    apply fl_mono
    push_cast; linarith
  have c9 : (m : ℤ) + 1 ≤ cellOf (fl h) x := Int.le_floor.mpr c8
  rw [touched_iff _ _ (by omega)]
  unfold nodes
  rw [hkm]
  omega

/-- C61, on concrete values: window-width 5.1 with the default transverse-step 0.05 and the default ten particles per cell. There are 102 nodes, the outermost initial particle is in cell 102 and writes into elements 101, 102 and 103. The same happens with window-width 5.03, which is not a multiple of the step, without any rounding: 101 nodes, elements 100, 101 and 102. With window-width 5 no particle of the window writes outside. -/
theorem window_51 : nodes (fl (51 / 10)) (fl (1 / 20)) = 102 ∧
    plasmaTouched 102 (cellOf (fl (1 / 20)) (placeF (fl (51 / 10)) (fl (1 / 20)) 10 1009)) = [101, 102, 103] ∧
    nodes (fl (503 / 100)) (fl (1 / 20)) = 101 ∧
    plasmaTouched 101 (cellOf (fl (1 / 20)) (placeF (fl (503 / 100)) (fl (1 / 20)) 10 999)) = [100, 101, 102] ∧
    ∀ r, IsFloat r → 0 ≤ r → r ≤ fl 5 → AllIn (nodes (fl 5) (fl (1 / 20))) (plasmaTouched (nodes (fl 5) (fl (1 / 20))) (cellOf (fl (1 / 20)) r)) := by
  refine ⟨by decide +kernel, by decide +kernel, by decide +kernel, by decide +kernel, ?_⟩
  exact (whole_window_safe_iff (n := 100) (by norm_num) (by norm_num) (by norm_num) (by norm_num)).mpr (by decide +kernel)

/-- The hypotheses of `initial_plasma_outside` are met by window-width 5.1 and transverse-step 0.05. -/
example : (51 / 10 : ℚ) = (102 : ℕ) * (1 / 20) ∧ intCount (51 / 10) (1 / 20) = ((102 : ℕ) : ℤ) - 1 := ⟨by norm_num, by decide +kernel⟩

/-! ### The beam -/

/-- beam/beam_calculate.py:115: the radius beyond which a beam particle is lost. `0.9` is the float nearest to nine tenths. -/
def lostF (R : ℚ) : ℚ := max (fl (fl (9 / 10) * R)) (fl (R - 1))

/-- beam/beam_calculate.py:58-59, beam3d/move.py:20-22. -/
def notLostF (x y L : ℚ) : Prop := fl (fl (x * x) + fl (y * y)) < fl (L * L)

/-- `s` is the computed square root of `y`. Only faithfulness is used: the computed root of `y` is not beyond a float whose square is at least `y`, and not below a float whose square is at most `y` (IEEE 754 asks for more). -/
structure SqrtF (y s : ℚ) : Prop where
  float : IsFloat s
  nonneg : 0 ≤ s
  le : ∀ t, IsFloat t → 0 ≤ t → y ≤ t * t → s ≤ t
  ge : ∀ t, IsFloat t → 0 ≤ t → t * t ≤ y → t ≤ s

/-- A float below the rounded square is not above the square. -/
theorem below_rounded {s y : ℚ} (hs : IsFloat s) (h : s < fl y) : s ≤ y := by
  by_contra hc
  push Not at hc
  have h1 := fl_nearest (x := y) hs
  rw [abs_of_pos (by linarith), abs_of_pos (by linarith)] at h1
  linarith

/-- C61: a particle that is not lost has a computed radius (beam_calculate.py:79-81, weights.py:59) of at most the lost boundary, in spite of the four roundings in between. -/
theorem radius_le_lost {x y L r : ℚ} (hL : IsFloat L) (hL0 : 0 ≤ L) (h : notLostF x y L) (hr : SqrtF (fl (fl (x * x) + fl (y * y))) r) : r ≤ L :=
  hr.le L hL hL0 (below_rounded (isFloat_fl _) h)

/-- C61: deposition and interpolation of a beam particle stay inside the arrays exactly if the computed quotient is below the number of cells. -/
theorem beam_safe_iff {R h r : ℚ} (hh : 0 < h) (hr : 0 ≤ r) : AllIn (nodes R h) (beamTouched h r) ↔ fl (r / h) < pyInt (fl (R / h)) := by
  have h0 : 0 ≤ fl (r / h) := fl_nonneg (div_nonneg hr hh.le)
  have h1 : 0 ≤ ⌊fl (r / h)⌋ := Int.floor_nonneg.mpr h0
  rw [← Int.floor_lt]
  unfold AllIn beamTouched nodes
  constructor
  · intro hs
    have := hs (⌊fl (r / h)⌋ + 1) (by simp)
    omega
  · intro hs i hi
    simp only [List.mem_cons, List.not_mem_nil, or_false] at hi
    omega

/-- C61: with at least eleven cells and a transverse step below 0.999, no beam particle inside the lost boundary touches anything outside the arrays. -/
theorem beam_safe {R h r : ℚ} (hh : 0 < h) (hR : 11 * h ≤ R) (hR2 : R ≤ 2 ^ 40 * h) (hs : h ≤ 999 / 1000) (hr : 0 ≤ r) (hrL : r ≤ lostF R) :
    AllIn (nodes R h) (beamTouched h r) := by
  rw [beam_safe_iff hh hr]
  have hR0 : 0 ≤ R := by nlinarith
  set q := R / h with hq
  have hq1 : 11 ≤ q := by rw [hq, le_div_iff₀ hh]; exact hR
  have hq2 : q ≤ 2 ^ 40 := by rw [hq, div_le_iff₀ hh]; exact hR2
  have hk := lt_pyInt_add_one (fl_nonneg (by linarith : 0 ≤ q))
  have h1 := (fl_between (by linarith : 0 ≤ q)).1
  have h2 := (fl_between (div_nonneg hr hh.le)).2
  have h3 : r / h ≤ lostF R / h := div_le_div_of_nonneg_right hrL hh.le
  suffices hmain : lostF R / h * (1 + 1 / 2 ^ 53) ≤ q * (1 - 1 / 2 ^ 53) - 1 by
    have h4 : r / h * (1 + 1 / 2 ^ 53) ≤ lostF R / h * (1 + 1 / 2 ^ 53) := mul_le_mul_of_nonneg_right h3 (by norm_num)
    linarith
  unfold lostF
  rcases max_choice (fl (fl (9 / 10) * R)) (fl (R - 1)) with hm | hm <;> rw [hm]
  · have g1 := (fl_between (x := (9 / 10 : ℚ)) (by norm_num)).2
    have g2 := (fl_between (x := fl (9 / 10) * R) (mul_nonneg (fl_nonneg (by norm_num)) hR0)).2
    have g3 : fl (9 / 10) * R ≤ 9 / 10 * (1 + 1 / 2 ^ 53) * R := mul_le_mul_of_nonneg_right g1 hR0
    have g4 : fl (fl (9 / 10) * R) ≤ 9 / 10 * (1 + 1 / 2 ^ 53) ^ 2 * R := by
      refine g2.trans (le_trans (mul_le_mul_of_nonneg_right g3 (by norm_num)) (le_of_eq (by ring)))
    have g5 : fl (fl (9 / 10) * R) / h ≤ 9 / 10 * (1 + 1 / 2 ^ 53) ^ 2 * q := by
      rw [hq, ← mul_div_assoc]; exact div_le_div_of_nonneg_right g4 hh.le
    have g6 := mul_le_mul_of_nonneg_right g5 (by norm_num : (0 : ℚ) ≤ 1 + 1 / 2 ^ 53)
    refine g6.trans ?_
    have g7 : (9 / 10 : ℚ) * (1 + 1 / 2 ^ 53) ^ 2 * (1 + 1 / 2 ^ 53) ≤ 901 / 1000 := by norm_num
    have g8 : (9 / 10 : ℚ) * (1 + 1 / 2 ^ 53) ^ 2 * q * (1 + 1 / 2 ^ 53) = (9 / 10 : ℚ) * (1 + 1 / 2 ^ 53) ^ 2 * (1 + 1 / 2 ^ 53) * q := by ring
    rw [g8]
    have g9 := mul_le_mul_of_nonneg_right g7 (by linarith : 0 ≤ q)
    have g10 : (999 / 1000 : ℚ) ≤ 1 - 1 / 2 ^ 53 := by norm_num
    have g11 := mul_le_mul_of_nonneg_left g10 (by linarith : 0 ≤ q)
    linarith
  · by_cases hR1 : 0 ≤ R - 1
    · have g1 := (fl_between hR1).2
      have g2 : fl (R - 1) / h ≤ (q - 1 / h) * (1 + 1 / 2 ^ 53) := by
        rw [hq, ← sub_div, div_mul_eq_mul_div]; exact div_le_div_of_nonneg_right g1 hh.le
      have g3 := mul_le_mul_of_nonneg_right g2 (by norm_num : (0 : ℚ) ≤ 1 + 1 / 2 ^ 53)
      refine g3.trans ?_
      have g4 : (1000 / 999 : ℚ) ≤ 1 / h := by rw [le_div_iff₀ hh]; linarith
      have g5 : q * (1 / 2 ^ 51) ≤ 2 ^ 40 * (1 / 2 ^ 51) := mul_le_mul_of_nonneg_right hq2 (by norm_num)
      have g6 : (2 : ℚ) ^ 40 * (1 / 2 ^ 51) ≤ 1 / 2000 := by norm_num
      have g7 : (0 : ℚ) ≤ q - 1 / h := by
        rw [hq, ← sub_div]; exact div_nonneg hR1 hh.le
      have g8 : (1 + 1 / 2 ^ 53 : ℚ) * (1 + 1 / 2 ^ 53) ≤ 1 + 1 / 2 ^ 52 + 1 / 2 ^ 53 := by norm_num
      have g9 := mul_le_mul_of_nonneg_left g8 g7
      have g10 : (q - 1 / h) * (1 / 2 ^ 52 + 1 / 2 ^ 53) ≤ q * (1 / 2 ^ 52 + 1 / 2 ^ 53) := mul_le_mul_of_nonneg_right (by linarith [one_div_pos.mpr hh]) (by norm_num)
      have e1 : q * (1 / 2 ^ 52 + 1 / 2 ^ 53) + q * (1 / 2 ^ 53) = q * (1 / 2 ^ 51) := by ring
      have e2 : q * (1 - 1 / 2 ^ 53) = q - q * (1 / 2 ^ 53) := by ring
      have e3 : (q - 1 / h) * (1 + 1 / 2 ^ 53) * (1 + 1 / 2 ^ 53) ≤ (q - 1 / h) + (q - 1 / h) * (1 / 2 ^ 52 + 1 / 2 ^ 53) := by
        refine le_trans (le_of_eq (by ring)) (g9.trans (le_of_eq (by ring)))
      rw [e2]
      linarith
    · have g1 : fl (R - 1) ≤ 0 := by
        have := fl_mono (le_of_lt (not_le.mp hR1)); rwa [fl_zero] at this
      have g2 : fl (R - 1) / h ≤ 0 := div_nonpos_of_nonpos_of_nonneg g1 hh.le
      have g3 := mul_nonpos_of_nonpos_of_nonneg g2 (by norm_num : (0 : ℚ) ≤ 1 + 1 / 2 ^ 53)
      refine g3.trans ?_
      have g10 : (999 / 1000 : ℚ) ≤ 1 - 1 / 2 ^ 53 := by norm_num
      have g11 := mul_le_mul_of_nonneg_left g10 (by linarith : 0 ≤ q)
      linarith

theorem lostF_float (R : ℚ) : IsFloat (lostF R) := by
  unfold lostF
  rcases max_choice (fl (fl (9 / 10) * R)) (fl (R - 1)) with hm | hm <;> rw [hm] <;> exact isFloat_fl _

/-- C61, the two together: a 2D beam particle that passed the wall check is interpolated and deposited inside the arrays. -/
theorem kept_beam_safe {R h x y r : ℚ} (hh : 0 < h) (hR : 11 * h ≤ R) (hR2 : R ≤ 2 ^ 40 * h) (hs : h ≤ 999 / 1000)
    (hk : notLostF x y (lostF R)) (hr : SqrtF (fl (fl (x * x) + fl (y * y))) r) : AllIn (nodes R h) (beamTouched h r) := by
  have hR0 : 0 ≤ R := by nlinarith
  refine beam_safe hh hR hR2 hs hr.nonneg (radius_le_lost (lostF_float R) ?_ hk hr)
  exact le_max_of_le_left (fl_nonneg (mul_nonneg (fl_nonneg (by norm_num)) hR0))

/-- C61: the number of cells is not a formality: with window-width 0.3 and transverse-step 0.05 a beam particle at radius 0.26, inside the lost boundary 0.27, touches elements 5 and 6 of arrays with 6 elements. -/
theorem small_window : nodes (fl (3 / 10)) (fl (1 / 20)) = 6 ∧ fl (26 / 100) < lostF (fl (3 / 10)) ∧ beamTouched (fl (1 / 20)) (fl (26 / 100)) = [5, 6] := by
  decide +kernel

/-- A case that meets the hypotheses of `kept_beam_safe`: the default window, a particle at radius 3 off the axis. -/
example : ∃ r, 11 * fl (1 / 20) ≤ fl 5 ∧ fl 5 ≤ 2 ^ 40 * fl (1 / 20) ∧ fl (1 / 20) ≤ 999 / 1000 ∧ notLostF 3 0 (lostF (fl 5)) ∧ SqrtF (fl (fl (3 * 3) + fl (0 * 0))) r := by
  refine ⟨3, by decide +kernel, by decide +kernel, by decide +kernel, by unfold notLostF; decide +kernel, ?_⟩
  have e : fl (fl (3 * 3) + fl (0 * 0)) = 9 := by decide +kernel
  rw [e]
  refine ⟨⟨3, 0, by norm_num, by norm_num⟩, by norm_num, fun t _ h0 h => ?_, fun t _ h0 h => ?_⟩
  · nlinarith
  · nlinarith

end Lcode.Fp
