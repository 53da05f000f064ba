import Verif.Plasma2D.Deposit
import Mathlib.Algebra.BigOperators.Intervals

/-!
Model of lcode/plasma/initialization.py and properties C18, C22.
-/

namespace Lcode.Plasma2D

open Finset

/-! ### Model -/

/-- initialization.py:10 (and :25): number of radial cells, `int(window_width / r_step)`. -/
noncomputable def cellCount (R h : ℝ) : ℕ := ⌊R / h⌋₊

/-- _place_particles, initialization.py:9-12. -/
noncomputable def placeParticles (R h : ℝ) (ppc : ℕ) : List ℝ :=
  let n := cellCount R h * ppc
  let step := R / n
  (List.range n).map fun k : ℕ => ((k : ℝ) + 1 / 2) * step

/-- _weight_particles, initialization.py:14-16 (`particle_positions[1]` raises when there are fewer than two particles; the default value stands for that). -/
noncomputable def weightParticles (pos : List ℝ) : List ℝ :=
  let step := pos.getD 1 0 - pos.getD 0 0
  pos.map fun r => 2 * Real.pi * step * r

/-- The electrons of init_plasma, initialization.py:27-43. `coef` is the density profile (profile_initial_plasma), evaluated at the radius;
particles of zero charge are dropped; `age` is the initial age (path limit). -/
noncomputable def initElectrons (R h : ℝ) (ppc : ℕ) (coef : ℝ → ℝ) (age : ℝ) : List PPart :=
  let pos := placeParticles R h ppc
  let w := weightParticles pos
  let ps := (pos.zip w).map fun t : ℝ × ℝ => PPart.mk t.1 0 0 0 (-t.2 * coef t.1) (t.2 * coef t.1) age
  ps.filter fun p => p.q ≠ 0

/-- The mobile ions, initialization.py:74-84. -/
noncomputable def initIons (ionMass : ℝ) (el : List PPart) : List PPart :=
  el.map fun p => PPart.mk p.r 0 0 0 (-p.q) (ionMass * -p.q) 0

/-- The ion part of init_plasma, initialization.py:66-86. -/
noncomputable def initBackground (h : ℝ) (ppc n : ℕ) (el : List PPart) : ℕ → ℝ :=
  fun i => -(computeRhoj h ppc n el (.background fun _ => 0)).el.rho i

/-! ### C22 -/

/-- The area of the ring `a < r < b`. -/
noncomputable def ringArea (a b : ℝ) : ℝ := Real.pi * (b ^ 2 - a ^ 2)

theorem placeParticles_get (R h : ℝ) (ppc k : ℕ) (hk : k < cellCount R h * ppc) :
    (placeParticles R h ppc)[k]? = some (((k : ℝ) + 1 / 2) * (R / (cellCount R h * ppc : ℕ))) := by
  unfold placeParticles
  simp [hk]

/-- What the profile-free part of the initialisation produces: one particle in the middle of each of `n` rings of equal width, carrying its ring's area. -/
theorem weights_ring (R h : ℝ) (ppc : ℕ) (hn : 2 ≤ cellCount R h * ppc) :
    (placeParticles R h ppc).zip (weightParticles (placeParticles R h ppc)) =
      (List.range (cellCount R h * ppc)).map fun k : ℕ =>
        (((k : ℝ) + 1 / 2) * (R / (cellCount R h * ppc : ℕ)),
          ringArea (k * (R / (cellCount R h * ppc : ℕ))) ((k + 1) * (R / (cellCount R h * ppc : ℕ)))) := by
  unfold weightParticles
  simp only [List.getD_eq_getElem?_getD, placeParticles_get R h ppc 0 (by omega), placeParticles_get R h ppc 1 (by omega), Option.getD_some]
  unfold placeParticles
  simp only
  generalize cellCount R h * ppc = n
  generalize R / (n : ℝ) = d
  rw [List.map_map]
  rw [List.zip_map']
  apply List.map_congr_left
  intro k _
  simp only [Function.comp, Prod.mk.injEq, true_and]
  unfold ringArea
  push_cast
  ring

/-- C22. For every window and number of particles per cell, every electron sits at the middle of its ring, strictly inside the window, at rest,
and its charge (mass) is minus (plus) the profile times the area of the ring. -/
theorem electrons_placed (R h : ℝ) (hR : 0 < R) (ppc : ℕ) (coef : ℝ → ℝ) (age : ℝ) (hn : 2 ≤ cellCount R h * ppc) (p : PPart)
    (hp : p ∈ initElectrons R h ppc coef age) :
    ∃ k < cellCount R h * ppc, p.r = (k + 1 / 2) * (R / (cellCount R h * ppc : ℕ)) ∧ 0 < p.r ∧ p.r < R ∧
      p.m = coef p.r * ringArea (k * (R / (cellCount R h * ppc : ℕ))) ((k + 1) * (R / (cellCount R h * ppc : ℕ))) ∧
      p.q = -p.m ∧ p.pr = 0 ∧ p.pf = 0 ∧ p.pz = 0 ∧ p.age = age ∧ p.q ≠ 0 := by
  unfold initElectrons at hp
  simp only [weights_ring R h ppc hn] at hp
  rw [List.mem_filter] at hp
  obtain ⟨hp, hq⟩ := hp
  rw [List.map_map, List.mem_map] at hp
  obtain ⟨k, hk, rfl⟩ := hp
  rw [List.mem_range] at hk
  have hn0 : (0 : ℝ) < ((cellCount R h * ppc : ℕ) : ℝ) := by exact_mod_cast (show 0 < cellCount R h * ppc by omega)
  have hk' : (k : ℝ) + 1 ≤ ((cellCount R h * ppc : ℕ) : ℝ) := by exact_mod_cast hk
  have hk0 : (0 : ℝ) ≤ k := Nat.cast_nonneg k
  refine ⟨k, hk, rfl, ?_, ?_, ?_, ?_, rfl, rfl, rfl, rfl, ?_⟩
  · show 0 < ((k : ℝ) + 1 / 2) * _
    positivity
  · show ((k : ℝ) + 1 / 2) * _ < R
    rw [mul_div_assoc', div_lt_iff₀ hn0]
    nlinarith
  · exact mul_comm _ _
  · show -_ * _ = -(_ * _)
    ring
  · simpa using hq

theorem sum_ring (n : ℕ) (d : ℝ) : ((List.range n).map fun k : ℕ => ringArea (k * d) ((k + 1) * d)).sum = Real.pi * (n * d) ^ 2 := by
  induction n with
  | zero => simp
  | succ n ih =>
    rw [List.range_succ, List.map_append, List.sum_append, ih]
    simp only [List.map_cons, List.map_nil, List.sum_cons, List.sum_nil, ringArea]
    push_cast; ring

/-- The electrons of the uniform plasma, one by one. -/
theorem uniform_electrons_eq (R h : ℝ) (hR : 0 < R) (ppc : ℕ) (age : ℝ) (hn : 2 ≤ cellCount R h * ppc) :
    initElectrons R h ppc (fun _ => 1) age = (List.range (cellCount R h * ppc)).map fun k : ℕ =>
      PPart.mk (((k : ℝ) + 1 / 2) * (R / (cellCount R h * ppc : ℕ))) 0 0 0
        (-ringArea (k * (R / (cellCount R h * ppc : ℕ))) ((k + 1) * (R / (cellCount R h * ppc : ℕ))))
        (ringArea (k * (R / (cellCount R h * ppc : ℕ))) ((k + 1) * (R / (cellCount R h * ppc : ℕ)))) age := by
  have hn0 : (0 : ℝ) < ((cellCount R h * ppc : ℕ) : ℝ) := by exact_mod_cast (show 0 < cellCount R h * ppc by omega)
  unfold initElectrons
  simp only [weights_ring R h ppc hn]
  rw [List.map_map, List.filter_eq_self.mpr]
  · apply List.map_congr_left
    intro k _
    simp only [Function.comp, mul_one]
  · intro p hp
    rw [List.mem_map] at hp
    obtain ⟨k, -, rfl⟩ := hp
    simp only [Function.comp, mul_one, decide_eq_true_eq, ne_eq, neg_eq_zero]
    have : ringArea (k * (R / (cellCount R h * ppc : ℕ))) ((k + 1) * (R / (cellCount R h * ppc : ℕ)))
        = Real.pi * (2 * k + 1) * (R / (cellCount R h * ppc : ℕ)) ^ 2 := by unfold ringArea; ring
    rw [this]
    have := Real.pi_pos
    positivity

/-- C22: an unperturbed uniform plasma holds `n` electrons with strictly increasing radii and total charge minus the area of the window. -/
theorem uniform_electrons (R h : ℝ) (hR : 0 < R) (ppc : ℕ) (age : ℝ) (hn : 2 ≤ cellCount R h * ppc) :
    let el := initElectrons R h ppc (fun _ => 1) age
    el.length = cellCount R h * ppc ∧ (el.map PPart.r).Pairwise (· < ·) ∧
    (el.map PPart.q).sum = -(Real.pi * R ^ 2) ∧ (el.map PPart.m).sum = Real.pi * R ^ 2 := by
  intro el
  have hn0 : (0 : ℝ) < ((cellCount R h * ppc : ℕ) : ℝ) := by exact_mod_cast (show 0 < cellCount R h * ppc by omega)
  have hel := uniform_electrons_eq R h hR ppc age hn
  rw [show el = _ from hel]
  refine ⟨by simp, ?_, ?_, ?_⟩
  · rw [List.map_map, List.pairwise_map]
    refine List.Pairwise.imp ?_ List.pairwise_lt_range
    intro a b hab
    have : (a : ℝ) < b := by exact_mod_cast hab
    simp only [Function.comp]
    have h2 : 0 < R / ((cellCount R h * ppc : ℕ) : ℝ) := by positivity
    nlinarith
  · rw [List.map_map]
    have := sum_ring (cellCount R h * ppc) (R / (cellCount R h * ppc : ℕ))
    rw [mul_div_cancel₀ _ hn0.ne'] at this
    rw [← this, List.sum_neg, List.map_map]
    rfl
  · rw [List.map_map]
    have := sum_ring (cellCount R h * ppc) (R / (cellCount R h * ppc : ℕ))
    rw [mul_div_cancel₀ _ hn0.ne'] at this
    rw [← this]
    rfl

/-- C22: mobile ions sit on top of the electrons, at rest, with opposite charge and a mass proportional to the charge. -/
theorem ions_neutralise (ionMass : ℝ) (el : List PPart) :
    let ions := initIons ionMass el
    ions.length = el.length ∧ ions.map PPart.r = el.map PPart.r ∧ ions.map PPart.q = el.map (fun p => -p.q) ∧
    ions.map PPart.m = el.map (fun p => ionMass * -p.q) ∧ (el.map PPart.q).sum + (ions.map PPart.q).sum = 0 ∧
    ∀ p ∈ ions, p.pr = 0 ∧ p.pf = 0 ∧ p.pz = 0 := by
  intro ions
  have hq : ions.map PPart.q = el.map (fun p => -p.q) := by simp [ions, initIons]
  refine ⟨by simp [ions, initIons], by simp [ions, initIons], hq, by simp [ions, initIons], ?_, ?_⟩
  · rw [hq]
    have := List.sum_neg (el.map PPart.q)
    rw [List.map_map] at this
    change _ = (el.map fun p => -p.q).sum at this
    rw [← this]; ring
  · intro p hp
    unfold ions initIons at hp
    rw [List.mem_map] at hp
    obtain ⟨x, -, rfl⟩ := hp
    exact ⟨rfl, rfl, rfl⟩

end Lcode.Plasma2D
