import Mathlib.Analysis.SpecialFunctions.Exp
import Mathlib.Analysis.Real.Pi.Bounds
import Mathlib.Tactic.Linarith
import Mathlib.Tactic.Ring
import Mathlib.Tactic.FieldSimp
import Mathlib.Algebra.Order.Floor.Ring

/-!
C75: lcode/plasma/profiles.py, the radial density profiles of a cylindrical plasma, in exact arithmetic. (Nothing in the package imports that file; the running code uses plasma3d/profile.py, C30.)
-/

namespace Lcode.Profiles2D

/-! ### Model -/

/-- The five classes of profiles.py:67-119. -/
inductive Shape
  | uniform | stepwise | gaussian | channel | subChannel
  deriving DecidableEq

/-- What the constructors read, profiles.py:46-47, 75, 82, 88, 102-104: window-width, transverse-step, plasma-width, plasma-width-2, plasma-density-2. -/
structure ProfCfg where
  R : ℝ
  h : ℝ
  width : ℝ
  width2 : ℝ
  dens2 : ℝ

open Classical in
/-- min_plasma_radius, profiles.py:57, 82 and 105-106. -/
noncomputable def rMin (s : Shape) (c : ProfCfg) : ℝ :=
  match s with
  | .channel => c.width
  | .subChannel => if c.dens2 = 0 then c.width2 else 0
  | _ => 0

/-- max_plasma_radius, profiles.py:58, 76 and 89-92. -/
noncomputable def rMax (s : Shape) (c : ProfCfg) : ℝ :=
  match s with
  | .stepwise => min c.width c.R
  | .gaussian => min (5 * c.width) c.R
  | _ => c.R

/-- Python `int(x)`: truncation towards zero. -/
noncomputable def truncR (x : ℝ) : ℤ := if 0 ≤ x then ⌊x⌋ else ⌈x⌉

/-- n_particles, profiles.py:61-62. -/
noncomputable def nParticles (s : Shape) (c : ProfCfg) (ppc : ℤ) : ℤ := truncR ((rMax s c - rMin s c) / c.h) * ppc

open Classical in
/-- place_particles, profiles.py:60-64; `none` is ZeroDivisionError; `np.arange` of a negative number is empty. -/
noncomputable def placed (s : Shape) (c : ProfCfg) (ppc : ℤ) : Option (List ℝ) :=
  if c.h = 0 ∨ nParticles s c ppc = 0 then none
  else some ((List.range (nParticles s c ppc).toNat).map fun k : ℕ => ((k : ℝ) + 0.5) * ((rMax s c - rMin s c) / nParticles s c ppc) + rMin s c)

open Classical in
/-- The factor by which weigh_particles multiplies the cylindrical weights, profiles.py:69, 95, 109-118 (the later assignment wins). Division by zero in the last line (width = width2 and a particle exactly there) is 0 here. -/
noncomputable def factor (s : Shape) (c : ProfCfg) (r : ℝ) : ℝ :=
  match s with
  | .gaussian => Real.exp (-r ^ 2 / 2 / c.width ^ 2)
  | .subChannel =>
    if c.width2 ≤ r ∧ r ≤ c.width then c.dens2 * ((c.width - r) / (c.width - c.width2)) + (1 - (c.width - r) / (c.width - c.width2))
    else if r > c.width then 1
    else if r < c.width2 then c.dens2
    else r
  | _ => 1

/-- weigh_particles, profiles.py:49-51 with 69, 94-96, 108-119; `none` is the IndexError of `particle_positions[1]`. -/
noncomputable def weighed (s : Shape) (c : ProfCfg) : List ℝ → Option (List ℝ)
  | a :: b :: l => some ((a :: b :: l).map fun r => 2 * Real.pi * (b - a) * r * factor s c r)
  | _ => none

/-- The keys of _cylindrical_profiles that are names, profiles.py:122-133. -/
def byName (name : String) : Option Shape :=
  if name = "uniform" then some .uniform else if name = "stepwise" then some .stepwise else if name = "gaussian" then some .gaussian
  else if name = "channel" then some .channel else if name = "sub-channel" then some .subChannel else none

/-- The keys that are numerals. -/
def byNumber (n : ℤ) : Option Shape :=
  if n = 1 then some .uniform else if n = 2 then some .stepwise else if n = 3 then some .gaussian else if n = 5 then some .channel else if n = 6 then some .subChannel else none

/-- get_plasma_profile, profiles.py:136-142: `parse` is Python's `float` (`none`: it or the following `int` raises); a numeral is never a name. `none` is KeyError. -/
noncomputable def getProfile (parse : String → Option ℝ) (name : String) : Option Shape :=
  match parse name with
  | some v => byNumber (truncR v)
  | none => byName name

/-! ### Specification -/

/-- The density a profile stands for, as a function of the radius. -/
noncomputable def density (s : Shape) (c : ProfCfg) (r : ℝ) : ℝ :=
  match s with
  | .uniform => 1
  | .stepwise => if r ≤ c.width then 1 else 0
  | .gaussian => Real.exp (-(r / c.width) ^ 2 / 2)
  | .channel => if c.width ≤ r then 1 else 0
  | .subChannel => if r < c.width2 then c.dens2 else if c.width < r then 1 else c.dens2 + (1 - c.dens2) * ((r - c.width2) / (c.width - c.width2))

/-- The area of the ring of inner radius `a` and outer radius `b`. -/
noncomputable def ringArea (a b : ℝ) : ℝ := Real.pi * (b ^ 2 - a ^ 2)

/-- A usable configuration: at least one cell between the radii, at least two particles in all. -/
structure Usable (s : Shape) (c : ProfCfg) (ppc : ℤ) : Prop where
  h : 0 < c.h
  width : 0 < c.width
  width2 : 0 ≤ c.width2
  order : c.width2 < c.width
  room : rMin s c + c.h ≤ rMax s c
  two : 2 ≤ nParticles s c ppc

/-! ### Theorems -/

theorem rMin_nonneg {s : Shape} {c : ProfCfg} {ppc : ℤ} (hu : Usable s c ppc) : 0 ≤ rMin s c := by
  cases s <;> simp only [rMin] <;> first | exact le_rfl | exact hu.width.le | skip
  split
  · exact hu.width2
  · exact le_rfl

/-- The step between the particles is that of the grid divided by the particles per cell, or up to twice as much. -/
theorem spacing {s : Shape} {c : ProfCfg} {ppc : ℤ} (hu : Usable s c ppc) (hp : 0 < ppc) :
    c.h / ppc ≤ (rMax s c - rMin s c) / nParticles s c ppc ∧ (rMax s c - rMin s c) / nParticles s c ppc < 2 * (c.h / ppc) := by
  have hW : c.h ≤ rMax s c - rMin s c := by linarith [hu.room]
  have hh := hu.h
  unfold nParticles
  generalize rMax s c - rMin s c = W at *
  have hx : 1 ≤ W / c.h := by rw [le_div_iff₀ hh]; linarith
  have e : truncR (W / c.h) = ⌊W / c.h⌋ := by unfold truncR; rw [if_pos (by linarith)]
  rw [e]
  have f1 := Int.floor_le (W / c.h)
  have f2 := Int.lt_floor_add_one (W / c.h)
  have f3 : (1 : ℤ) ≤ ⌊W / c.h⌋ := Int.le_floor.mpr (by exact_mod_cast hx)
  have f3' : (1 : ℝ) ≤ (⌊W / c.h⌋ : ℝ) := by exact_mod_cast f3
  have hp' : (0 : ℝ) < ppc := by exact_mod_cast hp
  push_cast
  generalize (⌊W / c.h⌋ : ℝ) = n at *
  have n0 : 0 < n := by linarith
  rw [le_div_iff₀ hh] at f1
  rw [div_lt_iff₀ hh] at f2
  constructor
  · rw [div_le_div_iff₀ hp' (by positivity)]
    nlinarith
  · rw [show 2 * (c.h / (ppc : ℝ)) = 2 * c.h / ppc by ring, div_lt_div_iff₀ (by positivity) hp']
    have : W < 2 * c.h * n := by nlinarith
    nlinarith

/-- For every usable configuration the profile is a list of macroparticles. -/
theorem placed_usable {s : Shape} {c : ProfCfg} {ppc : ℤ} (hu : Usable s c ppc) :
    ∃ n : ℕ, 2 ≤ n ∧ (n : ℤ) = nParticles s c ppc ∧ placed s c ppc = some ((List.range n).map fun k : ℕ => ((k : ℝ) + 0.5) * ((rMax s c - rMin s c) / n) + rMin s c) := by
  have h2 := hu.two
  obtain ⟨n, hn⟩ : ∃ n : ℕ, (n : ℤ) = nParticles s c ppc := ⟨(nParticles s c ppc).toNat, by omega⟩
  refine ⟨n, by omega, hn, ?_⟩
  unfold placed
  rw [if_neg (by push Not; exact ⟨hu.h.ne', by omega⟩), ← hn, Int.toNat_natCast, Int.cast_natCast]

/-- The factor is the density at every radius between the two radii. -/
theorem factor_density {s : Shape} {c : ProfCfg} {ppc : ℤ} (hu : Usable s c ppc) {r : ℝ} (h0 : rMin s c ≤ r) (h1 : r ≤ rMax s c) : factor s c r = density s c r := by
  cases s with
  | uniform => rfl
  | stepwise =>
    simp only [factor, density]
    rw [if_pos (h1.trans (min_le_left _ _))]
  | gaussian =>
    simp only [factor, density]
    congr 1
    have := hu.width.ne'
    field_simp
  | channel =>
    simp only [factor, density, rMin] at h0 ⊢
    rw [if_pos h0]
  | subChannel =>
    simp only [factor, density]
    have hd : c.width - c.width2 ≠ 0 := by have := hu.order; linarith
    rcases lt_or_ge r c.width2 with a | a
    · rw [if_neg (by push Not; intro h; linarith), if_neg (by have := hu.order; linarith), if_pos a, if_pos a]
    · have na : ¬ r < c.width2 := not_lt.mpr a
      rcases lt_or_ge c.width r with b | b
      · rw [if_neg (by push Not; intro h; linarith), if_pos b, if_neg na, if_pos b]
      · rw [if_pos ⟨a, b⟩, if_neg na, if_neg (not_lt.mpr b)]
        field_simp
        ring

/-- C75: the particles sit in the middle of equal rings that tile the interval between the two radii, and the weight of each is the density at it times the area of its ring. -/
theorem weights_are_rings {s : Shape} {c : ProfCfg} {ppc : ℤ} (hu : Usable s c ppc) :
    ∃ (n : ℕ) (δ : ℝ) (ps ws : List ℝ), 0 < δ ∧ n * δ = rMax s c - rMin s c ∧ placed s c ppc = some ps ∧ weighed s c ps = some ws ∧ ps.length = n ∧ ws.length = n ∧
      ∀ k, k < n → ps[k]? = some (rMin s c + (k + 1 / 2) * δ) ∧ ws[k]? = some (density s c (rMin s c + (k + 1 / 2) * δ) * ringArea (rMin s c + k * δ) (rMin s c + (k + 1) * δ)) := by
  obtain ⟨n, h2, hn, hp⟩ := placed_usable hu
  have hW : 0 < rMax s c - rMin s c := by linarith [hu.room, hu.h]
  have hn0 : (0 : ℝ) < n := by exact_mod_cast (by omega : 0 < n)
  have hnd : (n : ℝ) * ((rMax s c - rMin s c) / n) = rMax s c - rMin s c := by field_simp
  have hδ : 0 < (rMax s c - rMin s c) / n := by positivity
  generalize hd : (rMax s c - rMin s c) / n = δ at *
  obtain ⟨m, rfl⟩ : ∃ m, n = m + 2 := ⟨n - 2, by omega⟩
  have hmap : ∀ f : ℕ → ℝ, (List.range (m + 2)).map f = f 0 :: f 1 :: (List.range m).map fun k => f (k + 2) := by
    intro f
    rw [List.range_succ_eq_map, List.range_succ_eq_map]
    simp [Function.comp_def]
  refine ⟨m + 2, δ, _, ((List.range (m + 2)).map fun k : ℕ => ((k : ℝ) + 0.5) * δ + rMin s c).map fun r => 2 * Real.pi * δ * r * factor s c r, hδ, hnd, hp, ?_, by simp, by simp, ?_⟩
  · rw [hmap]
    simp only [weighed, Option.some.injEq]
    congr 1
    funext r
    norm_num
    left; left
    ring
  · intro k hk
    have e : ((k : ℝ) + 0.5) * δ + rMin s c = rMin s c + (k + 1 / 2) * δ := by norm_num; ring
    have hk' : (k : ℝ) + 1 ≤ (m + 2 : ℕ) := by exact_mod_cast hk
    constructor
    · rw [List.getElem?_map, List.getElem?_range hk]
      simp only [Option.map_some, e]
    · rw [List.map_map, List.getElem?_map, List.getElem?_range hk]
      simp only [Option.map_some, Function.comp_apply, e]
      rw [factor_density hu]
      · unfold ringArea
        congr 1
        ring
      · have : 0 ≤ ((k : ℝ) + 1 / 2) * δ := by positivity
        linarith
      · have : ((k : ℝ) + 1 / 2) * δ ≤ (m + 2 : ℕ) * δ := mul_le_mul_of_nonneg_right (by linarith) hδ.le
        linarith

theorem sum_range_get (ws : List ℝ) (g : ℕ → ℝ) (h : ∀ k, k < ws.length → ws[k]? = some (g k)) : ws.sum = ((List.range ws.length).map g).sum := by
  congr 1
  refine List.ext_getElem? fun k => ?_
  by_cases hk : k < ws.length
  · rw [h k hk, List.getElem?_map, List.getElem?_range hk]; rfl
  · rw [List.getElem?_eq_none (by omega), List.getElem?_eq_none (by simpa using hk)]

theorem rings_telescope (a δ : ℝ) (n : ℕ) : ((List.range n).map fun k : ℕ => ringArea (a + k * δ) (a + (k + 1) * δ)).sum = ringArea a (a + n * δ) := by
  induction n with
  | zero => simp [ringArea]
  | succ n ih =>
    rw [List.range_succ, List.map_append, List.sum_append, ih]
    simp only [List.map_cons, List.map_nil, List.sum_cons, List.sum_nil, ringArea]
    push_cast
    ring

/-- C75: in total a uniform plasma, a plasma cut off at plasma-width and one with a channel of that radius weigh exactly the area they occupy: nothing is lost to the discretisation, whatever the step and the number of particles. -/
theorem flat_total {s : Shape} (hs : s = .uniform ∨ s = .stepwise ∨ s = .channel) {c : ProfCfg} {ppc : ℤ} (hu : Usable s c ppc) :
    ∃ ps ws, placed s c ppc = some ps ∧ weighed s c ps = some ws ∧ ws.sum = ringArea (rMin s c) (rMax s c) := by
  obtain ⟨n, δ, ps, ws, hδ, hnd, h1, h2, -, h4, h5⟩ := weights_are_rings hu
  refine ⟨ps, ws, h1, h2, ?_⟩
  have hw := sum_range_get ws (fun k => ringArea (rMin s c + k * δ) (rMin s c + (k + 1) * δ)) (by
    intro k hk
    rw [h4] at hk
    have hk' : (k : ℝ) + 1 ≤ n := by exact_mod_cast hk
    have b0 : 0 ≤ ((k : ℝ) + 1 / 2) * δ := by positivity
    have b1 : ((k : ℝ) + 1 / 2) * δ ≤ n * δ := mul_le_mul_of_nonneg_right (by linarith) hδ.le
    rw [(h5 k hk).2, ← factor_density hu (by linarith) (by linarith)]
    rcases hs with rfl | rfl | rfl <;> simp [factor])
  rw [hw, h4, rings_telescope, hnd]
  congr 1; ring

/-- C75: no profile gives a negative weight or more than the uniform plasma, if plasma-density-2 is between zero and one; so the total is at most the area. -/
theorem weights_bounded {s : Shape} {c : ProfCfg} {ppc : ℤ} (hu : Usable s c ppc) (h0 : 0 ≤ c.dens2) (h1 : c.dens2 ≤ 1) :
    ∃ ps ws, placed s c ppc = some ps ∧ weighed s c ps = some ws ∧ (∀ w ∈ ws, 0 ≤ w) ∧ ws.sum ≤ ringArea (rMin s c) (rMax s c) := by
  have hd : ∀ r, 0 ≤ density s c r ∧ density s c r ≤ 1 := by
    intro r
    cases s with
    | uniform => simp [density]
    | stepwise => simp only [density]; split <;> simp
    | gaussian => exact ⟨(Real.exp_pos _).le, Real.exp_le_one_iff.mpr (by have := sq_nonneg (r / c.width); linarith)⟩
    | channel => simp only [density]; split <;> simp
    | subChannel =>
      simp only [density]
      split
      · exact ⟨h0, h1⟩
      · split
        · simp
        · rename_i a b
          have hD : 0 < c.width - c.width2 := by have := hu.order; linarith
          have t0 : 0 ≤ (r - c.width2) / (c.width - c.width2) := div_nonneg (by linarith) hD.le
          have t1 : (r - c.width2) / (c.width - c.width2) ≤ 1 := by rw [div_le_one hD]; linarith
          constructor
          · have := mul_nonneg (by linarith : 0 ≤ 1 - c.dens2) t0; linarith
          · have := mul_le_mul_of_nonneg_left t1 (by linarith : 0 ≤ 1 - c.dens2); linarith
  obtain ⟨n, δ, ps, ws, hδ, hnd, e1, e2, -, h4, h5⟩ := weights_are_rings hu
  have hr : ∀ k : ℕ, 0 ≤ ringArea (rMin s c + k * δ) (rMin s c + (k + 1) * δ) := by
    intro k
    unfold ringArea
    have := rMin_nonneg hu
    have hpi := Real.pi_pos
    have : 0 ≤ (rMin s c + ((k : ℝ) + 1) * δ) ^ 2 - (rMin s c + k * δ) ^ 2 := by
      have e : (rMin s c + ((k : ℝ) + 1) * δ) ^ 2 - (rMin s c + k * δ) ^ 2 = δ * (2 * rMin s c + (2 * k + 1) * δ) := by ring
      rw [e]; positivity
    positivity
  refine ⟨ps, ws, e1, e2, ?_, ?_⟩
  · intro w hw
    obtain ⟨k, hk, rfl⟩ := List.getElem_of_mem hw
    have := (h5 k (by omega)).2
    rw [List.getElem?_eq_getElem hk, Option.some.injEq] at this
    rw [this]
    exact mul_nonneg (hd _).1 (hr k)
  · have hw := sum_range_get ws _ (fun k hk => (h5 k (by omega)).2)
    rw [hw, h4]
    have e : ringArea (rMin s c) (rMax s c) = ringArea (rMin s c) (rMin s c + n * δ) := by rw [hnd]; congr 1; ring
    rw [e, ← rings_telescope]
    refine List.sum_le_sum fun k _ => ?_
    exact mul_le_of_le_one_left (hr k) (hd _).2

/-- C75: what is left out has no plasma: outside the two radii the density is zero, or, for a gaussian, below exp(-25/2). -/
theorem left_out {s : Shape} {c : ProfCfg} {ppc : ℤ} (hu : Usable s c ppc) {r : ℝ} (h0 : 0 ≤ r) (hR : r ≤ c.R) (hr : r < rMin s c ∨ rMax s c < r) :
    density s c r = 0 ∨ (s = .gaussian ∧ density s c r ≤ Real.exp (-(25 / 2))) := by
  cases s with
  | uniform => simp only [rMin, rMax] at hr; rcases hr with hr | hr <;> linarith
  | stepwise =>
    simp only [rMin, rMax] at hr
    rcases hr with hr | hr
    · linarith
    · left
      simp only [density]
      rw [if_neg]
      intro hc
      rcases min_lt_iff.mp hr with h | h <;> linarith
  | gaussian =>
    right
    refine ⟨rfl, ?_⟩
    simp only [rMin, rMax] at hr
    rcases hr with hr | hr
    · linarith
    · have h5 : 5 * c.width < r := by rcases min_lt_iff.mp hr with h | h <;> linarith
      simp only [density]
      apply Real.exp_le_exp.mpr
      have : 5 ≤ r / c.width := by rw [le_div_iff₀ hu.width]; linarith
      nlinarith
  | channel =>
    simp only [rMin, rMax] at hr
    rcases hr with hr | hr
    · left; simp only [density]; rw [if_neg (by linarith)]
    · linarith
  | subChannel =>
    simp only [rMin, rMax] at hr
    rcases hr with hr | hr
    · by_cases hz : c.dens2 = 0
      · rw [if_pos hz] at hr
        left; simp only [density]; rw [if_pos hr, hz]
      · rw [if_neg hz] at hr; linarith
    · linarith

/-- C75: the edges of the sub-channel are continuous: at plasma-width-2 and at plasma-width the middle formula gives the two constants. -/
theorem subChannel_edges (c : ProfCfg) (h : c.width2 < c.width) : density .subChannel c c.width2 = c.dens2 ∧ density .subChannel c c.width = 1 := by
  have : c.width - c.width2 ≠ 0 := by linarith
  simp only [density]
  constructor
  · rw [if_neg (lt_irrefl _), if_neg (by linarith)]; simp
  · rw [if_neg (by linarith), if_neg (lt_irrefl _), div_self this]; ring

/-- C75: a plasma narrower than one cell (plasma-width below transverse-step, a channel as wide as the window) is ZeroDivisionError, not an empty plasma. -/
theorem narrow_fails {s : Shape} {c : ProfCfg} (hh : 0 < c.h) (hw : |rMax s c - rMin s c| < c.h) (ppc : ℤ) : placed s c ppc = none := by
  unfold placed nParticles
  rw [if_pos]
  right
  have h := abs_lt.mp hw
  have hx : |(rMax s c - rMin s c) / c.h| < 1 := by rw [abs_div, abs_of_pos hh, div_lt_one hh]; exact hw
  generalize (rMax s c - rMin s c) / c.h = x at *
  obtain ⟨a, b⟩ := abs_lt.mp hx
  have : truncR x = 0 := by
    unfold truncR
    split
    · rw [Int.floor_eq_zero_iff]; exact ⟨by assumption, b⟩
    · rw [Int.ceil_eq_zero_iff]; exact ⟨a, by linarith⟩
  rw [this, zero_mul]

/-- C75: a channel wider than the window by a cell or more: no particles, and weigh_particles raises IndexError; so does one particle in all. -/
theorem inverted_fails {s : Shape} {c : ProfCfg} (hh : 0 < c.h) (hw : rMax s c + c.h ≤ rMin s c) {ppc : ℤ} (hp : 0 < ppc) : ∃ ps, placed s c ppc = some ps ∧ ps = [] ∧ weighed s c ps = none := by
  have hx : (rMax s c - rMin s c) / c.h ≤ -1 := by rw [div_le_iff₀ hh]; linarith
  have ht : truncR ((rMax s c - rMin s c) / c.h) ≤ -1 := by
    unfold truncR
    rw [if_neg (by linarith)]
    exact Int.ceil_le.mpr (by exact_mod_cast hx)
  have hn : nParticles s c ppc ≤ -1 := by unfold nParticles; nlinarith
  refine ⟨[], ?_, rfl, rfl⟩
  unfold placed
  rw [if_neg (by push Not; exact ⟨hh.ne', by omega⟩), show (nParticles s c ppc).toNat = 0 by omega]
  rfl

theorem one_particle_fails (s : Shape) (c : ProfCfg) (r : ℝ) : weighed s c [r] = none := rfl

/-- C75: a numeral is read as a number and truncated: `1`, `1.0` and `1.9` are all the uniform plasma; `4` (the `arbitrary` of the configuration files) and everything outside 1..6 is KeyError; a name must match exactly. -/
theorem getProfile_number (parse : String → Option ℝ) (name : String) (v : ℝ) (h : parse name = some v) :
    (1 ≤ v ∧ v < 2 → getProfile parse name = some .uniform) ∧ (2 ≤ v ∧ v < 3 → getProfile parse name = some .stepwise) ∧ (3 ≤ v ∧ v < 4 → getProfile parse name = some .gaussian) ∧
    (4 ≤ v ∧ v < 5 → getProfile parse name = none) ∧ (5 ≤ v ∧ v < 6 → getProfile parse name = some .channel) ∧ (6 ≤ v ∧ v < 7 → getProfile parse name = some .subChannel) ∧ (v < 1 ∨ 7 ≤ v → getProfile parse name = none) := by
  unfold getProfile
  rw [h]
  have t : ∀ n : ℤ, 0 < n → (n : ℝ) ≤ v → v < n + 1 → truncR v = n := by
    intro n hn h1 h2
    unfold truncR
    have : (0 : ℝ) < n := by exact_mod_cast hn
    rw [if_pos (by linarith), Int.floor_eq_iff]
    exact ⟨h1, h2⟩
  refine ⟨fun hv => ?_, fun hv => ?_, fun hv => ?_, fun hv => ?_, fun hv => ?_, fun hv => ?_, fun hv => ?_⟩
  · simp only [t 1 (by norm_num) (by exact_mod_cast hv.1) (by push_cast; linarith [hv.2])]; rfl
  · simp only [t 2 (by norm_num) (by exact_mod_cast hv.1) (by push_cast; linarith [hv.2])]; rfl
  · simp only [t 3 (by norm_num) (by exact_mod_cast hv.1) (by push_cast; linarith [hv.2])]; rfl
  · simp only [t 4 (by norm_num) (by exact_mod_cast hv.1) (by push_cast; linarith [hv.2])]; rfl
  · simp only [t 5 (by norm_num) (by exact_mod_cast hv.1) (by push_cast; linarith [hv.2])]; rfl
  · simp only [t 6 (by norm_num) (by exact_mod_cast hv.1) (by push_cast; linarith [hv.2])]; rfl
  · have : truncR v ≤ 0 ∨ 7 ≤ truncR v := by
      unfold truncR
      rcases hv with hv | hv
      · left
        split
        · exact Int.lt_add_one_iff.mp (Int.floor_lt.mpr (by push_cast; linarith))
        · exact Int.ceil_le.mpr (by push_cast; linarith)
      · right
        rw [if_pos (by linarith)]
        exact Int.le_floor.mpr (by exact_mod_cast hv)
    simp only [byNumber]
    generalize truncR v = k at *
    rw [if_neg (by omega), if_neg (by omega), if_neg (by omega), if_neg (by omega), if_neg (by omega)]

theorem getProfile_name (parse : String → Option ℝ) (name : String) (s : Shape) (h : parse name = none) :
    getProfile parse name = some s ↔ (name, s) ∈ [("uniform", Shape.uniform), ("stepwise", .stepwise), ("gaussian", .gaussian), ("channel", .channel), ("sub-channel", .subChannel)] := by
  unfold getProfile
  rw [h]
  simp only [byName, List.mem_cons, Prod.mk.injEq, List.not_mem_nil, or_false]
  constructor
  · intro hs
    split_ifs at hs <;> simp only [Option.some.injEq] at hs <;> subst hs <;> simp_all
  · rintro (⟨rfl, rfl⟩ | ⟨rfl, rfl⟩ | ⟨rfl, rfl⟩ | ⟨rfl, rfl⟩ | ⟨rfl, rfl⟩) <;> decide

/-! ### Cases that meet the hypotheses -/

/-- A window of 5 with step 0.5, widths 3 and 1, density 0.2 in the channel, 2 particles in a cell. -/
noncomputable def someProf : ProfCfg := ⟨5, 1 / 2, 3, 1, 1 / 5⟩

theorem trunc_nat (n : ℕ) : truncR (n : ℝ) = n := by
  unfold truncR
  rw [if_pos (by positivity), Int.floor_natCast]

theorem someProf_usable (s : Shape) : Usable s someProf 2 := by
  have two : ∀ a b : ℝ, (b - a) / someProf.h = 10 ∨ (b - a) / someProf.h = 6 ∨ (b - a) / someProf.h = 4 → 2 ≤ truncR ((b - a) / someProf.h) * 2 := by
    intro a b h
    rcases h with h | h | h <;> rw [h]
    · have := trunc_nat 10; norm_num at this; rw [this]; norm_num
    · have := trunc_nat 6; norm_num at this; rw [this]; norm_num
    · have := trunc_nat 4; norm_num at this; rw [this]; norm_num
  refine ⟨by norm_num [someProf], by norm_num [someProf], by norm_num [someProf], by norm_num [someProf], ?_, two _ _ ?_⟩ <;> cases s <;> norm_num [someProf, rMin, rMax]

example : ∃ ps ws, placed .stepwise someProf 2 = some ps ∧ weighed .stepwise someProf ps = some ws ∧ ws.sum = Real.pi * 9 := by
  obtain ⟨ps, ws, h1, h2, h3⟩ := flat_total (Or.inr (Or.inl rfl)) (someProf_usable .stepwise)
  refine ⟨ps, ws, h1, h2, h3.trans ?_⟩
  norm_num [ringArea, rMin, rMax, someProf]

example : ∃ ps ws, placed .channel someProf 2 = some ps ∧ weighed .channel someProf ps = some ws ∧ ws.sum = Real.pi * 16 := by
  obtain ⟨ps, ws, h1, h2, h3⟩ := flat_total (Or.inr (Or.inr rfl)) (someProf_usable .channel)
  refine ⟨ps, ws, h1, h2, h3.trans ?_⟩
  norm_num [ringArea, rMin, rMax, someProf]

example : ∃ ps ws, placed .gaussian someProf 2 = some ps ∧ weighed .gaussian someProf ps = some ws ∧ (∀ w ∈ ws, 0 ≤ w) ∧ ws.sum ≤ ringArea 0 5 := by
  obtain ⟨ps, ws, h1, h2, h3, h4⟩ := weights_bounded (someProf_usable .gaussian) (by norm_num [someProf]) (by norm_num [someProf])
  refine ⟨ps, ws, h1, h2, h3, h4.trans (le_of_eq ?_)⟩
  norm_num [ringArea, rMin, rMax, someProf]

/-- A window of 5 with step 0.5 and a plasma of width 0.4. -/
example : placed .stepwise ⟨5, 1 / 2, 2 / 5, 0, 0⟩ 10 = none := narrow_fails (by norm_num) (by norm_num [rMin, rMax]) _
example : ∃ ps, placed .channel ⟨5, 1 / 2, 6, 0, 0⟩ 10 = some ps ∧ ps = [] ∧ weighed .channel ⟨5, 1 / 2, 6, 0, 0⟩ ps = none := inverted_fails (by norm_num) (by norm_num [rMin, rMax]) (by norm_num)
example : getProfile (fun t => if t = "1.9" then some (19 / 10) else none) "1.9" = some .uniform := (getProfile_number _ _ (19 / 10) (by simp)).1 (by norm_num)

end Lcode.Profiles2D
