import Verif.Plasma3D.Init

/-!
C76: the dual plasma: coarse particles that move, fine ones interpolated between them (initialization.py:138-272, weights.py:70-122 and 213-247), in exact arithmetic. The option is listed as unfinished and no run with it gets past its first layer (C63).
-/

namespace Lcode.Plasma3D

/-! ### Model -/

/-- make_coarse_plasma_grid, initialization.py:140-151, for a whole coarseness. -/
noncomputable def coarseGrid (steps c : ℕ) (h : ℝ) : List ℝ :=
  let right := (List.range (steps / (c * 2))).map fun k : ℕ => (k : ℝ) * (h * c)
  (right.tail.reverse.map fun x => -x) ++ right

/-- make_fine_plasma_grid, initialization.py:154-184, for a whole fineness. -/
noncomputable def fineGrid (steps f : ℕ) (h : ℝ) : List ℝ :=
  if f % 2 ≠ 0 then
    let right := (List.range (steps / 2 * f)).map fun k : ℕ => (k : ℝ) * (h / f)
    (right.tail.reverse.map fun x => -x) ++ right
  else
    let right := (List.range (steps / 2 * f)).map fun k : ℕ => (1 / 2 + (k : ℝ)) * (h / f)
    (right.reverse.map fun x => -x) ++ right

open Classical in
/-- np.searchsorted(coarse_grid, x) of a sorted array (side left): the number of elements below `x`, initialization.py:223. -/
noncomputable def searchsorted (g : List ℝ) (x : ℝ) : ℕ := (g.filter fun y => decide (y < x)).length

/-- influence_prev, influence_next of a fine coordinate (initialization.py:223-243) with the coarse grid `g`. -/
noncomputable def influence (g : List ℝ) (step x : ℝ) : ℝ × ℝ := influences g.length (fun k => g.getD k 0) step x (searchsorted g x)

/-- indices_prev, indices_next. -/
noncomputable def prevOf (g : List ℝ) (x : ℝ) : ℕ := idxPrev g.length (searchsorted g x)
noncomputable def nextOf (g : List ℝ) (x : ℝ) : ℕ := idxNext g.length (searchsorted g x)

/-- The bilinear mix of a flat coarse array `a` at the fine coordinates (x, y), weights.py:90-103. -/
noncomputable def mix (g : List ℝ) (step : ℝ) (a : ℕ → ℝ) (x y : ℝ) : ℝ :=
  let wx := influence g step x
  let wy := influence g step y
  let n := g.length
  wx.1 * wy.1 * a (n * prevOf g x + prevOf g y) + wx.1 * wy.2 * a (n * prevOf g x + nextOf g y) + wx.2 * wy.1 * a (n * nextOf g x + prevOf g y) + wx.2 * wy.2 * a (n * nextOf g x + nextOf g y)

/-- The coarse particles: arrays of g.length squared entries. -/
structure Coarse where
  x : ℕ → ℝ
  y : ℕ → ℝ
  px : ℕ → ℝ
  py : ℕ → ℝ
  pz : ℕ → ℝ
  q : ℕ → ℝ
  m : ℕ → ℝ

/-- The coarse particles of make_plasma_dual, initialization.py:205-215. -/
noncomputable def coarseRest (c : ℕ) (h : ℝ) : Coarse := ⟨fun _ => 0, fun _ => 0, fun _ => 0, fun _ => 0, fun _ => 0, fun _ => -1 * (c : ℝ) ^ 2 * h ^ 2, fun _ => 1 * (c : ℝ) ^ 2 * h ^ 2⟩

/-- One virtual particle, weights.py:86-119: `smallness` is 1 / (coarseness * fineness)**2, weights.py:219-220; its initial place is (fine_x_init, fine_y_init), weights.py:243-244. -/
noncomputable def fineOne (g : List ℝ) (step smallness : ℝ) (s : Coarse) (x y : ℝ) : Ptl :=
  ⟨x, y, mix g step s.x x y, mix g step s.y x y, smallness * mix g step s.px x y, smallness * mix g step s.py x y, smallness * mix g step s.pz x y, smallness * mix g step s.q x y, smallness * mix g step s.m x y⟩

/-- coarse_to_fine, weights.py:213-247: fine particle number i has fi = i // fine_grid_size and fj = i % fine_grid_size, so the list runs over the rows. -/
noncomputable def coarseToFine (steps c f : ℕ) (h : ℝ) (s : Coarse) : List Ptl :=
  (fineGrid steps f h).flatMap fun x => (fineGrid steps f h).map fun y => fineOne (coarseGrid steps c h) (h * c) (1 / ((c : ℝ) * f) ^ 2) s x y

/-! ### The grids -/

theorem coarseGrid_eq (steps c : ℕ) (h : ℝ) : coarseGrid steps c h = (List.range (2 * (steps / (c * 2)) - 1)).map fun k : ℕ => ((k : ℝ) - ((steps / (c * 2) - 1 : ℕ) : ℝ)) * (h * c) := by
  unfold coarseGrid
  simp only
  generalize steps / (c * 2) = M
  apply List.ext_getElem
  · simp; omega
  · intro i h1 h2
    simp at h2
    rw [List.getElem_append]
    split_ifs with hlt
    · simp at hlt
      simp [List.getElem_reverse, List.getElem_tail]
      rw [show M - 1 - 1 - i = M - 1 - (i + 1) by omega, Nat.cast_sub (by omega)]; push_cast; ring
    · simp at hlt
      simp
      left
      rw [Nat.cast_sub (by omega)]

/-- C76: the fine grid is the grid of the ordinary plasma with the same fineness (C26). -/
theorem fineGrid_eq (steps f : ℕ) (hf : 1 ≤ f) (h : ℝ) : fineGrid steps f h = makePlasmaGrid steps h f := by
  unfold fineGrid makePlasmaGrid
  have hc : (((((steps : ℕ) : ℤ) / 2 : ℤ)) : ℝ) * (f : ℝ) = ((steps / 2 * f : ℕ) : ℝ) := by push_cast; congr 1
  simp only
  rw [hc, arange_nat, pyMod2_nat]
  by_cases ho : f % 2 = 1
  · rw [if_pos (by omega), if_pos (by rw [ho]; norm_num), List.map_map]
    rfl
  · have he : f % 2 = 0 := by omega
    rw [if_neg (by omega), if_neg (by rw [he]; norm_num), if_neg, List.map_map]
    · rfl
    · rintro ⟨-, h2⟩
      have : (1 : ℝ) ≤ f := by exact_mod_cast hf
      linarith

/-- C76: the coarse grid is symmetric; the assertion at its end never fails. -/
theorem coarseGrid_antisymm (steps c : ℕ) (h : ℝ) : ((coarseGrid steps c h).reverse.map fun x => -x) = coarseGrid steps c h := by
  rw [coarseGrid_eq]
  apply List.ext_getElem
  · simp
  · intro i h1 h2
    simp at h2
    simp [List.getElem_reverse]
    generalize steps / (c * 2) = M at *
    rw [show (2 * M - 1 - 1 - i : ℕ) = 2 * (M - 1) - i by omega, Nat.cast_sub (by omega)]
    push_cast
    ring

theorem coarse_length (steps c : ℕ) (h : ℝ) : (coarseGrid steps c h).length = 2 * (steps / (c * 2)) - 1 := by rw [coarseGrid_eq]; simp

theorem coarse_at (steps c : ℕ) (h : ℝ) {k : ℕ} (hk : k < (coarseGrid steps c h).length) : (coarseGrid steps c h).getD k 0 = ((k : ℝ) - ((steps / (c * 2) - 1 : ℕ) : ℝ)) * (h * c) := by
  rw [List.getD_eq_getElem?_getD, List.getElem?_eq_getElem hk]
  simp only [Option.getD_some, coarseGrid_eq, List.getElem_map, List.getElem_range]

/-! ### The search -/

/-- In an increasing list everything before the number returned is below `x`, everything from it on is not. -/
theorem searchsorted_spec (g : List ℝ) (hs : g.Pairwise (· < ·)) (x : ℝ) :
    searchsorted g x ≤ g.length ∧ (∀ k, k < searchsorted g x → g.getD k 0 < x) ∧ ∀ k, searchsorted g x ≤ k → k < g.length → x ≤ g.getD k 0 := by
  classical
  induction g with
  | nil => simp [searchsorted]
  | cons a g ih =>
    rw [List.pairwise_cons] at hs
    obtain ⟨i1, i2, i3⟩ := ih hs.2
    by_cases ha : a < x
    · have e : searchsorted (a :: g) x = searchsorted g x + 1 := by
        unfold searchsorted
        rw [List.filter_cons]
        simp [ha]
      rw [e]
      refine ⟨by simpa using i1, ?_, ?_⟩
      · intro k hk
        cases k with
        | zero => simpa using ha
        | succ k => rw [List.getD_cons_succ]; exact i2 k (by omega)
      · intro k hk hk2
        cases k with
        | zero => omega
        | succ k => rw [List.getD_cons_succ]; exact i3 k (by omega) (by simpa using hk2)
    · have hall : ∀ y ∈ g, ¬ y < x := fun y hy hlt => ha ((hs.1 y hy).trans hlt)
      have e0 : g.filter (fun y => decide (y < x)) = [] := by
        rw [List.filter_eq_nil_iff]
        intro y hy
        simpa using hall y hy
      have e : searchsorted (a :: g) x = 0 := by
        unfold searchsorted
        rw [List.filter_cons]
        simp only [ha, decide_false]
        simpa using hall
      rw [e]
      refine ⟨by omega, by intro k hk; omega, ?_⟩
      intro k _ hk2
      cases k with
      | zero => simpa using ha
      | succ k =>
        rw [List.getD_cons_succ, List.getD_eq_getElem?_getD, List.getElem?_eq_getElem (by simpa using hk2)]
        exact not_lt.mp (hall _ (List.getElem_mem _))

theorem coarse_sorted (steps c : ℕ) {h : ℝ} (hh : 0 < h) (hc : 1 ≤ c) : (coarseGrid steps c h).Pairwise (· < ·) := by
  rw [coarseGrid_eq, List.pairwise_map]
  have hcp : (0 : ℝ) < c := by exact_mod_cast hc
  refine List.pairwise_lt_range.imp ?_
  intro a b hab
  have : (a : ℝ) < b := by exact_mod_cast hab
  exact mul_lt_mul_of_pos_right (by linarith) (by positivity)

/-- The influences found by the search, with all the properties of C27. -/
theorem influence_spec {steps c : ℕ} {h : ℝ} (hh : 0 < h) (hc : 1 ≤ c) (hM : 1 ≤ steps / (c * 2)) (x : ℝ) :
    0 ≤ (influence (coarseGrid steps c h) (h * c) x).1 ∧ 0 ≤ (influence (coarseGrid steps c h) (h * c) x).2 ∧ (influence (coarseGrid steps c h) (h * c) x).1 + (influence (coarseGrid steps c h) (h * c) x).2 = 1 ∧
    prevOf (coarseGrid steps c h) x < (coarseGrid steps c h).length ∧ nextOf (coarseGrid steps c h) x < (coarseGrid steps c h).length ∧
    (influence (coarseGrid steps c h) (h * c) x).1 * (coarseGrid steps c h).getD (prevOf (coarseGrid steps c h) x) 0 + (influence (coarseGrid steps c h) (h * c) x).2 * (coarseGrid steps c h).getD (nextOf (coarseGrid steps c h) x) 0 =
      max (-(((steps / (c * 2) - 1 : ℕ) : ℝ) * (h * c))) (min (((steps / (c * 2) - 1 : ℕ) : ℝ) * (h * c)) x) := by
  have hlen := coarse_length steps c h
  have hcp : (0 : ℝ) < c := by exact_mod_cast hc
  have hs : 0 < h * c := by positivity
  obtain ⟨s1, s2, s3⟩ := searchsorted_spec _ (coarse_sorted steps c hh hc) x
  have hat : ∀ {k : ℕ}, k < (coarseGrid steps c h).length → (coarseGrid steps c h).getD k 0 = ((k : ℝ) - ((steps / (c * 2) - 1 : ℕ) : ℝ)) * (h * c) := fun hk => coarse_at steps c h hk
  have H := influences_spec (coarseGrid steps c h).length (by omega) (fun k => (coarseGrid steps c h).getD k 0) (h * c) hs
    (by intro k hk; rw [hat hk, hat (by omega)]; push_cast; ring) x (searchsorted (coarseGrid steps c h) x) s1 s2 s3
  obtain ⟨a1, a2, a3, a4, a5, a6, a7, a8⟩ := H
  refine ⟨a1, a2, a3, a4, a5, ?_⟩
  unfold influence prevOf nextOf
  beta_reduce at a6 a7 a8
  have e0 : (coarseGrid steps c h).getD 0 0 = -(((steps / (c * 2) - 1 : ℕ) : ℝ) * (h * c)) := by rw [hat (by omega)]; push_cast; ring
  have e1 : (coarseGrid steps c h).getD ((coarseGrid steps c h).length - 1) 0 = ((steps / (c * 2) - 1 : ℕ) : ℝ) * (h * c) := by
    rw [hat (by omega), hlen]
    congr 1
    have : (2 * (steps / (c * 2)) - 1 - 1 : ℕ) = 2 * (steps / (c * 2) - 1) := by omega
    rw [this]; push_cast; ring
  have hE : 0 ≤ ((steps / (c * 2) - 1 : ℕ) : ℝ) * (h * c) := by positivity
  rcases Nat.eq_zero_or_pos (searchsorted (coarseGrid steps c h) x) with hz | hz
  · rw [a7 hz, e0]
    have := s3 0 (by omega) (by omega)
    rw [e0] at this
    rw [max_eq_left]
    exact (min_le_right _ _).trans this
  · have lo := s2 0 hz
    rw [e0] at lo
    rcases Nat.lt_or_ge (searchsorted (coarseGrid steps c h) x) (coarseGrid steps c h).length with hl | hl
    · rw [a6 ⟨hz, hl⟩]
      have hi := s3 ((coarseGrid steps c h).length - 1) (by omega) (by omega)
      rw [e1] at hi
      rw [min_eq_right hi, max_eq_right lo.le]
    · have he : searchsorted (coarseGrid steps c h) x = (coarseGrid steps c h).length := by omega
      rw [a8 he, e1]
      have hi := s2 ((coarseGrid steps c h).length - 1) (by omega)
      rw [e1] at hi
      rw [min_eq_left hi.le, max_eq_right (by linarith)]

/-! ### The mix -/

/-- Specification: `x` cut off at the outermost coarse coordinates. -/
noncomputable def cutOff (steps c : ℕ) (h x : ℝ) : ℝ := max (-(((steps / (c * 2) - 1 : ℕ) : ℝ) * (h * c))) (min (((steps / (c * 2) - 1 : ℕ) : ℝ) * (h * c)) x)

/-- Specification: the place of the coarse particle number `k` in row-major order. -/
noncomputable def coarsePlace (steps c : ℕ) (h : ℝ) (k : ℕ) : ℝ × ℝ :=
  ((coarseGrid steps c h).getD (k / (coarseGrid steps c h).length) 0, (coarseGrid steps c h).getD (k % (coarseGrid steps c h).length) 0)

theorem flat_place {n a b : ℕ} (hb : b < n) : (n * a + b) / n = a ∧ (n * a + b) % n = b := by
  have hn : 0 < n := by omega
  constructor
  · rw [Nat.mul_add_div hn, Nat.div_eq_of_lt hb, add_zero]
  · rw [Nat.mul_add_mod, Nat.mod_eq_of_lt hb]

/-- C76: a virtual particle is a mix of four coarse ones with weights between zero and one that add up to one: what all coarse particles are at most, no virtual one exceeds. -/
theorem mix_between {steps c : ℕ} {h : ℝ} (hh : 0 < h) (hc : 1 ≤ c) (hM : 1 ≤ steps / (c * 2)) (a : ℕ → ℝ) (lo hi : ℝ)
    (ha : ∀ k, k < (coarseGrid steps c h).length * (coarseGrid steps c h).length → lo ≤ a k ∧ a k ≤ hi) (x y : ℝ) : lo ≤ mix (coarseGrid steps c h) (h * c) a x y ∧ mix (coarseGrid steps c h) (h * c) a x y ≤ hi := by
  obtain ⟨x1, x2, x3, x4, x5, -⟩ := influence_spec hh hc hM x
  obtain ⟨y1, y2, y3, y4, y5, -⟩ := influence_spec hh hc hM y
  unfold mix
  simp only
  have hk : ∀ {p q : ℕ}, p < (coarseGrid steps c h).length → q < (coarseGrid steps c h).length → (coarseGrid steps c h).length * p + q < (coarseGrid steps c h).length * (coarseGrid steps c h).length := by
    intro p q hp hq
    calc (coarseGrid steps c h).length * p + q < (coarseGrid steps c h).length * p + (coarseGrid steps c h).length := by omega
      _ = (coarseGrid steps c h).length * (p + 1) := by ring
      _ ≤ _ := Nat.mul_le_mul_left _ hp
  have b1 := ha _ (hk x4 y4)
  have b2 := ha _ (hk x4 y5)
  have b3 := ha _ (hk x5 y4)
  have b4 := ha _ (hk x5 y5)
  generalize a ((coarseGrid steps c h).length * prevOf (coarseGrid steps c h) x + prevOf (coarseGrid steps c h) y) = A1 at *
  generalize a ((coarseGrid steps c h).length * prevOf (coarseGrid steps c h) x + nextOf (coarseGrid steps c h) y) = A2 at *
  generalize a ((coarseGrid steps c h).length * nextOf (coarseGrid steps c h) x + prevOf (coarseGrid steps c h) y) = A3 at *
  generalize a ((coarseGrid steps c h).length * nextOf (coarseGrid steps c h) x + nextOf (coarseGrid steps c h) y) = A4 at *
  generalize (influence (coarseGrid steps c h) (h * c) x).1 = u at *
  generalize (influence (coarseGrid steps c h) (h * c) x).2 = u' at *
  generalize (influence (coarseGrid steps c h) (h * c) y).1 = v at *
  generalize (influence (coarseGrid steps c h) (h * c) y).2 = v' at *
  have w1 := mul_nonneg x1 y1
  have w2 := mul_nonneg x1 y2
  have w3 := mul_nonneg x2 y1
  have w4 := mul_nonneg x2 y2
  have tot : u * v + u * v' + u' * v + u' * v' = 1 := by
    have : u * v + u * v' + u' * v + u' * v' = (u + u') * (v + v') := by ring
    rw [this, x3, y3, one_mul]
  constructor
  · have := mul_le_mul_of_nonneg_left b1.1 w1
    have := mul_le_mul_of_nonneg_left b2.1 w2
    have := mul_le_mul_of_nonneg_left b3.1 w3
    have := mul_le_mul_of_nonneg_left b4.1 w4
    linarith [(by rw [← tot]; ring : lo * 1 = u * v * lo + u * v' * lo + u' * v * lo + u' * v' * lo)]
  · have := mul_le_mul_of_nonneg_left b1.2 w1
    have := mul_le_mul_of_nonneg_left b2.2 w2
    have := mul_le_mul_of_nonneg_left b3.2 w3
    have := mul_le_mul_of_nonneg_left b4.2 w4
    linarith [(by rw [← tot]; ring : hi * 1 = u * v * hi + u * v' * hi + u' * v * hi + u' * v' * hi)]

/-- C76: every bilinear deformation of the coarse particles (shift, stretch, shear, rotation) is carried over to the virtual ones exactly; beyond the outermost coarse particles the deformation of the nearest edge is used. -/
theorem mix_bilinear {steps c : ℕ} {h : ℝ} (hh : 0 < h) (hc : 1 ≤ c) (hM : 1 ≤ steps / (c * 2)) (a : ℕ → ℝ) (A B C D : ℝ)
    (ha : ∀ k, k < (coarseGrid steps c h).length * (coarseGrid steps c h).length → a k = A + B * (coarsePlace steps c h k).1 + C * (coarsePlace steps c h k).2 + D * (coarsePlace steps c h k).1 * (coarsePlace steps c h k).2) (x y : ℝ) :
    mix (coarseGrid steps c h) (h * c) a x y = A + B * cutOff steps c h x + C * cutOff steps c h y + D * cutOff steps c h x * cutOff steps c h y := by
  obtain ⟨x1, x2, x3, x4, x5, x6⟩ := influence_spec hh hc hM x
  obtain ⟨y1, y2, y3, y4, y5, y6⟩ := influence_spec hh hc hM y
  have hk : ∀ {p q : ℕ}, p < (coarseGrid steps c h).length → q < (coarseGrid steps c h).length → (coarseGrid steps c h).length * p + q < (coarseGrid steps c h).length * (coarseGrid steps c h).length := by
    intro p q hp hq
    calc (coarseGrid steps c h).length * p + q < (coarseGrid steps c h).length * p + (coarseGrid steps c h).length := by omega
      _ = (coarseGrid steps c h).length * (p + 1) := by ring
      _ ≤ _ := Nat.mul_le_mul_left _ hp
  have val : ∀ {p q : ℕ}, p < (coarseGrid steps c h).length → q < (coarseGrid steps c h).length →
      a ((coarseGrid steps c h).length * p + q) = A + B * (coarseGrid steps c h).getD p 0 + C * (coarseGrid steps c h).getD q 0 + D * (coarseGrid steps c h).getD p 0 * (coarseGrid steps c h).getD q 0 := by
    intro p q hp hq
    rw [ha _ (hk hp hq)]
    unfold coarsePlace
    rw [(flat_place hq).1, (flat_place hq).2]
  unfold mix
  simp only
  rw [val x4 y4, val x4 y5, val x5 y4, val x5 y5]
  unfold cutOff
  rw [← x6, ← y6]
  generalize (coarseGrid steps c h).getD (prevOf (coarseGrid steps c h) x) 0 = X1
  generalize (coarseGrid steps c h).getD (nextOf (coarseGrid steps c h) x) 0 = X2
  generalize (coarseGrid steps c h).getD (prevOf (coarseGrid steps c h) y) 0 = Y1
  generalize (coarseGrid steps c h).getD (nextOf (coarseGrid steps c h) y) 0 = Y2
  generalize (influence (coarseGrid steps c h) (h * c) x).1 = u at *
  generalize (influence (coarseGrid steps c h) (h * c) x).2 = u' at *
  generalize (influence (coarseGrid steps c h) (h * c) y).1 = v at *
  generalize (influence (coarseGrid steps c h) (h * c) y).2 = v' at *
  have e1 : u' = 1 - u := by linarith
  have e2 : v' = 1 - v := by linarith
  rw [e1, e2]
  ring

theorem mix_const {steps c : ℕ} {h : ℝ} (hh : 0 < h) (hc : 1 ≤ c) (hM : 1 ≤ steps / (c * 2)) (A x y : ℝ) : mix (coarseGrid steps c h) (h * c) (fun _ => A) x y = A := by
  have := mix_bilinear hh hc hM (fun _ => A) A 0 0 0 (by intro k _; ring) x y
  rw [this]; ring

/-! ### The virtual plasma -/

/-- C76: the virtual particles of the undisturbed dual plasma are, one by one, the particles of the ordinary plasma of the same fineness, whatever the coarseness. So its density is uniform and neutralised by the same background (C26). -/
theorem dual_undisturbed {steps c f : ℕ} {h : ℝ} (hh : 0 < h) (hc : 1 ≤ c) (hf : 1 ≤ f) (hM : 1 ≤ steps / (c * 2)) :
    coarseToFine steps c f h (coarseRest c h) = makePlasmaSingle steps h f fun _ _ => 1 := by
  have hcp : (0 : ℝ) < c := by exact_mod_cast hc
  have hfp : (0 : ℝ) < f := by exact_mod_cast hf
  unfold coarseToFine makePlasmaSingle
  rw [fineGrid_eq steps f hf]
  simp only
  refine List.flatMap_congr fun x _ => List.map_congr_left fun y _ => ?_
  unfold fineOne coarseRest
  simp only [mix_const hh hc hM]
  congr 1 <;> first | (simp; done) | field_simp

/-- C76: virtual particles move with the coarse ones: if all coarse particles have the same velocity (momentum over mass) and the same charge to mass ratio, so do the virtual ones. -/
theorem virtual_ratio {steps c f : ℕ} {h : ℝ} (hh : 0 < h) (hc : 1 ≤ c) (hM : 1 ≤ steps / (c * 2)) (s : Coarse) (vx vy vz r : ℝ)
    (hs : ∀ k, s.px k = vx * s.m k ∧ s.py k = vy * s.m k ∧ s.pz k = vz * s.m k ∧ s.q k = r * s.m k) (p : Ptl) (hp : p ∈ coarseToFine steps c f h s) :
    p.px = vx * p.m ∧ p.py = vy * p.m ∧ p.pz = vz * p.m ∧ p.q = r * p.m := by
  unfold coarseToFine at hp
  simp only [List.mem_flatMap, List.mem_map] at hp
  obtain ⟨x, -, y, -, rfl⟩ := hp
  have lin : ∀ (a : ℕ → ℝ) (t : ℝ), (∀ k, a k = t * s.m k) → mix (coarseGrid steps c h) (h * c) a x y = t * mix (coarseGrid steps c h) (h * c) s.m x y := by
    intro a t ht
    unfold mix
    simp only [ht]
    ring
  unfold fineOne
  simp only
  rw [lin s.px vx fun k => (hs k).1, lin s.py vy fun k => (hs k).2.1, lin s.pz vz fun k => (hs k).2.2.1, lin s.q r fun k => (hs k).2.2.2]
  refine ⟨?_, ?_, ?_, ?_⟩ <;> ring

/-- C76: how far virtual particles get. If every coarse particle is within `b` of the axis, a virtual one is within `b` plus its initial distance to the outermost coarse coordinate, which is below twice the coarseness (in cells). -/
theorem virtual_reach {steps c f : ℕ} {h : ℝ} (hh : 0 < h) (hc : 1 ≤ c) (hf : 1 ≤ f) (hM : 1 ≤ steps / (c * 2)) (s : Coarse) (b : ℝ)
    (hs : ∀ k, k < (coarseGrid steps c h).length * (coarseGrid steps c h).length → |(coarsePlace steps c h k).1 + s.x k| ≤ b) (p : Ptl) (hp : p ∈ coarseToFine steps c f h s) :
    |p.x0 + p.x| ≤ b + |p.x0 - cutOff steps c h p.x0| ∧ |p.x0 - cutOff steps c h p.x0| < 2 * c * h := by
  unfold coarseToFine at hp
  simp only [List.mem_flatMap, List.mem_map] at hp
  obtain ⟨x, hx, y, -, rfl⟩ := hp
  unfold fineOne
  simp only
  have m1 := mix_between hh hc hM (fun k => (coarsePlace steps c h k).1 + s.x k) (-b) b (fun k hk => abs_le.mp (hs k hk)) x y
  have m2 := mix_bilinear hh hc hM (fun k => (coarsePlace steps c h k).1) 0 1 0 0 (by intro k _; ring) x y
  have lin : mix (coarseGrid steps c h) (h * c) (fun k => (coarsePlace steps c h k).1 + s.x k) x y = mix (coarseGrid steps c h) (h * c) (fun k => (coarsePlace steps c h k).1) x y + mix (coarseGrid steps c h) (h * c) s.x x y := by
    unfold mix; simp only; ring
  rw [lin, m2] at m1
  constructor
  · have e : x + mix (coarseGrid steps c h) (h * c) s.x x y = (x - cutOff steps c h x) + (cutOff steps c h x + mix (coarseGrid steps c h) (h * c) s.x x y) := by ring
    rw [e]
    refine (abs_add_le _ _).trans ?_
    have : |cutOff steps c h x + mix (coarseGrid steps c h) (h * c) s.x x y| ≤ b := by
      rw [abs_le]
      constructor
      · linarith [m1.1]
      · linarith [m1.2]
    linarith
  · rw [fineGrid_eq steps f hf] at hx
    have hb := makePlasmaGrid_lattice steps (steps / 2) f rfl hf h
    rw [hb] at hx
    obtain ⟨k, hk, rfl⟩ := List.mem_map.mp hx
    have hx' : |lattice f h k| < h * ((steps / 2 : ℕ) : ℝ) := by
      have h2 := makePlasmaGrid_inside (2 * (steps / 2)) f hf h hh (lattice f h k) (by
        rw [makePlasmaGrid_lattice (2 * (steps / 2)) (steps / 2) f (by omega) hf h]
        exact List.mem_map.mpr ⟨k, hk, rfl⟩)
      push_cast at h2
      have e : h * (2 * ((steps / 2 : ℕ) : ℝ) / 2) = h * ((steps / 2 : ℕ) : ℝ) := by ring
      rw [e] at h2
      exact h2
    generalize lattice f h k = t at *
    have hM' : steps / 2 < c * (steps / (c * 2)) + c := by
      have h1 := Nat.div_add_mod (steps / 2) c
      have h2 := Nat.mod_lt (steps / 2) hc
      rw [Nat.div_div_eq_div_mul, Nat.mul_comm 2 c] at h1
      omega
    have hq : ((steps / 2 : ℕ) : ℝ) ≤ c * ((steps / (c * 2) : ℕ) : ℝ) + c := by exact_mod_cast hM'.le
    have hE : ((steps / (c * 2) - 1 : ℕ) : ℝ) = ((steps / (c * 2) : ℕ) : ℝ) - 1 := by rw [Nat.cast_sub hM]; norm_num
    unfold cutOff
    rw [hE]
    have hM1 : (1 : ℝ) ≤ ((steps / (c * 2) : ℕ) : ℝ) := by exact_mod_cast hM
    generalize ((steps / (c * 2) : ℕ) : ℝ) = M at *
    generalize ((steps / 2 : ℕ) : ℝ) = n at *
    have hcp : (0 : ℝ) < c := by exact_mod_cast hc
    have hEn : 0 ≤ (M - 1) * (h * c) := mul_nonneg (by linarith) (by positivity)
    have hn : h * n ≤ (M - 1) * (h * c) + 2 * c * h := by
      have := mul_le_mul_of_nonneg_left hq hh.le
      linarith [(by ring : (M - 1) * (h * c) + 2 * c * h = h * (c * M + c))]
    obtain ⟨l1, l2⟩ := abs_lt.mp hx'
    generalize (M - 1) * (h * c) = E at *
    rw [abs_lt]
    rcases le_total E t with h1 | h1
    · rw [min_eq_left h1, max_eq_right (by linarith)]
      have : 0 < 2 * c * h := by positivity
      constructor <;> linarith
    · rw [min_eq_right h1]
      have : 0 < 2 * c * h := by positivity
      rcases le_total (-E) t with h2 | h2
      · rw [max_eq_right h2]; constructor <;> linarith
      · rw [max_eq_left h2]; constructor <;> linarith

/-- C76: so with bound-padding-steps of at least twice the coarseness plus three, virtual particles are deposited inside the grid, however the coarse particles move inside their boundary. -/
theorem virtual_safe {steps c f pad N : ℕ} {h : ℝ} (hh : 0 < h) (hc : 1 ≤ c) (hf : 1 ≤ f) (hM : 1 ≤ steps / (c * 2)) (s : Coarse) (hpad : 2 * c + 3 ≤ pad)
    (hs : ∀ k, k < (coarseGrid steps c h).length * (coarseGrid steps c h).length → |(coarsePlace steps c h k).1 + s.x k| ≤ h * (N / 2 - pad)) (p : Ptl) (hp : p ∈ coarseToFine steps c f h s) :
    |p.x0 + p.x| < h * (N / 2 - 3) := by
  obtain ⟨h1, h2⟩ := virtual_reach hh hc hf hM s _ hs p hp
  have : (2 * c + 3 : ℝ) ≤ pad := by exact_mod_cast hpad
  nlinarith

/-- The coarse plasma of the counterexample: every particle shifted along x by 4.25 cells. -/
noncomputable def shifted23 : Coarse := ⟨fun _ => 17 / 4, fun _ => 0, fun _ => 0, fun _ => 0, fun _ => 0, fun _ => -4, fun _ => 4⟩

/-- C76 (finding): the assertion of init_plasma, bound-padding-steps > coarseness + 1 (initialization.py:310), is not enough. With 33 cells, coarseness 2, fineness 2, bound-padding-steps 4 and plasma-padding-steps 5 a shift of the coarse plasma by 4.25 cells
leaves every coarse particle strictly inside its boundary (8 + 4.25 < 12.5 cells from the axis), but takes the outermost virtual particles to 10.75 + 4.25 = 15 cells, while only those within 14 cells have all of their 25 nodes inside the grid. -/
theorem virtual_unsafe : ∃ s : Coarse, (∀ k, k < (coarseGrid 23 2 1).length * (coarseGrid 23 2 1).length → |(coarsePlace 23 2 1 k).1 + s.x k| < (33 : ℝ) / 2 - 4 ∧ |(coarsePlace 23 2 1 k).2 + s.y k| < (33 : ℝ) / 2 - 4) ∧
    ∃ p ∈ coarseToFine 23 2 2 1 s, (33 : ℝ) / 2 - 5 / 2 < p.x0 + p.x := by
  refine ⟨shifted23, ?_, ?_⟩
  · intro k hk
    have hl := coarse_length 23 2 1
    norm_num at hl
    rw [hl] at hk
    unfold coarsePlace
    rw [hl]
    have a : k / 9 < 9 := by omega
    have b : k % 9 < 9 := Nat.mod_lt _ (by norm_num)
    have at' : ∀ j, j < 9 → (coarseGrid 23 2 1).getD j 0 = ((j : ℝ) - 4) * 2 := by
      intro j hj
      rw [coarse_at 23 2 1 (by rw [hl]; exact hj)]
      norm_num
    rw [at' _ a, at' _ b]
    have a' : ((k / 9 : ℕ) : ℝ) ≤ 8 := by exact_mod_cast (by omega : k / 9 ≤ 8)
    have b' : ((k % 9 : ℕ) : ℝ) ≤ 8 := by exact_mod_cast (by omega : k % 9 ≤ 8)
    have a0 : (0 : ℝ) ≤ ((k / 9 : ℕ) : ℝ) := Nat.cast_nonneg _
    have b0 : (0 : ℝ) ≤ ((k % 9 : ℕ) : ℝ) := Nat.cast_nonneg _
    generalize ((k / 9 : ℕ) : ℝ) = K at *
    generalize ((k % 9 : ℕ) : ℝ) = J at *
    simp only [shifted23]
    constructor <;> rw [abs_lt] <;> constructor <;> linarith
  · have hmem : (43 / 4 : ℝ) ∈ fineGrid 23 2 1 := by
      unfold fineGrid
      rw [if_neg (by decide)]
      simp only
      refine List.mem_append_right _ (List.mem_map.mpr ⟨21, by simp, by norm_num⟩)
    refine ⟨fineOne (coarseGrid 23 2 1) (1 * (2 : ℕ)) (1 / (((2 : ℕ) : ℝ) * (2 : ℕ)) ^ 2) shifted23 (43 / 4) (43 / 4), ?_, ?_⟩
    · unfold coarseToFine
      exact List.mem_flatMap.mpr ⟨43 / 4, hmem, List.mem_map.mpr ⟨43 / 4, hmem, rfl⟩⟩
    · unfold fineOne shifted23
      simp only
      rw [mix_const (by norm_num) (by norm_num) (by decide)]
      norm_num

/-! ### Cases that meet the hypotheses -/

example : coarseToFine 71 2 2 (1 / 10) (coarseRest 2 (1 / 10)) = makePlasmaSingle ((71 : ℕ) : ℤ) (1 / 10) (2 : ℕ) fun _ _ => 1 := dual_undisturbed (by norm_num) (by norm_num) (by norm_num) (by decide)

/-- A stretched plasma: every coarse particle displaced by a tenth of its distance. -/
example (x y : ℝ) (hx : |x| ≤ 3) : mix (coarseGrid 71 2 (1 / 10)) (1 / 10 * (2 : ℕ)) (fun k => (coarsePlace 71 2 (1 / 10) k).1 / 10) x y = x / 10 := by
  rw [mix_bilinear (by norm_num) (by norm_num) (by decide) _ 0 (1 / 10) 0 0 (by intro k _; ring)]
  have : cutOff 71 2 (1 / 10) x = x := by
    unfold cutOff
    have h := abs_le.mp hx
    rw [min_eq_right (by norm_num; linarith [h.2]), max_eq_right (by norm_num; linarith [h.1])]
  rw [this]; ring

end Lcode.Plasma3D
