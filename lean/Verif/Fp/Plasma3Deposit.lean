import Verif.Fp.Plasma3Quiet
import Verif.Fp.PlasmaStep

/-!
C74: the charge density of the 3D plasma in doubles: its integral over the grid is the charge of the particles.
-/

namespace Lcode.Fp

open Finset
open Lcode.Plasma3D (weight4 places)

/-! ### One particle -/

/-- One more rounding, measured after scaling. -/
theorem Near.flMul {x k b e B : ℚ} (h : Near (x * k) b e B) (he : e ≤ 1000) : Near (Lcode.Fp.fl x * k) b (e + B + 1 / 1000) B := by
  have hu := u_pos
  have h1 := h.err; have h2 := h.size
  refine ⟨?_, h2⟩
  have h3 := mul_le_mul_of_nonneg_right (fl_abs_err x) (abs_nonneg k)
  rw [← abs_mul, mul_assoc, ← abs_mul, sub_mul] at h3
  have h4 := abs_sub_le (Lcode.Fp.fl x * k) (x * k) b
  have h5 : |x * k| ≤ B + 1000 * u := by
    have := abs_add_le (x * k - b) b
    rw [sub_add_cancel] at this
    have := mul_le_mul_of_nonneg_right he hu.le
    linarith
  have h6 := mul_le_mul_of_nonneg_left h5 hu.le
  have h7 : u * (1000 * u) ≤ 1 / 1000 * u := by unfold u; norm_num
  linarith

/-- One of the 25 shares of a particle, times the area of a cell. -/
theorem share_close {h : ℚ} (hh : 0 < h) {x y : ℚ} (hx : |x| ≤ 1 / 2) (hy : |y| ≤ 1 / 2) {kx ky : ℤ} (h1 : kx ∈ places) (h2 : ky ∈ places) (a : ℚ) :
    |h ^ 2 * fl (a * fl (fl (fl (weight4F x kx / h) * weight4F y ky) / h)) - a * (weight4 x kx * weight4 y ky)| ≤ 17 * u * |a| := by
  have hu := u_pos
  have nx := weight4_nonneg hx h1
  have ny := weight4_nonneg hy h2
  have A : Near (weight4F x kx) (weight4 x kx) 6 1 := ⟨weight4_doubles x hx kx h1, by rw [abs_of_nonneg nx.1]; exact nx.2⟩
  have B : Near (weight4F y ky) (weight4 y ky) 6 1 := ⟨weight4_doubles y hy ky h2, by rw [abs_of_nonneg ny.1]; exact ny.2⟩
  generalize weight4F x kx = wx at *
  generalize weight4F y ky = wy at *
  generalize weight4 x kx = Wx at *
  generalize weight4 y ky = Wy at *
  rw [show wx = wx / h * h by field_simp] at A
  have A1 := A.flMul (by norm_num)
  generalize fl (wx / h) = v at *
  have P := A1.mul B (by norm_num) (by norm_num)
  rw [show v * h * wy = v * wy * h by ring] at P
  have P1 := P.flMul (by norm_num)
  generalize fl (v * wy) = s at *
  rw [show s * h = s / h * h ^ 2 by field_simp] at P1
  have P2 := P1.flMul (by norm_num)
  have P3 : Near (fl (s / h) * h ^ 2) (Wx * Wy) (151 / 10) 1 := P2.mono (by norm_num) (by simpa using P2.size)
  obtain ⟨pe, ps⟩ := P3
  generalize fl (s / h) = f at *
  generalize Wx * Wy = W at *
  have e := fl_abs_err (a * f)
  have hh2 : (0 : ℚ) ≤ h ^ 2 := by positivity
  have e1 := mul_le_mul_of_nonneg_left e hh2
  rw [show h ^ 2 * fl (a * f) - a * W = h ^ 2 * (fl (a * f) - a * f) + a * (f * h ^ 2 - W) by ring]
  refine (abs_add_le _ _).trans ?_
  rw [abs_mul, abs_of_nonneg hh2, abs_mul a]
  have e2 : h ^ 2 * (u * |a * f|) = u * (|a| * |f * h ^ 2|) := by
    rw [abs_mul, abs_mul, abs_of_nonneg hh2]; ring
  have fb : |f * h ^ 2| ≤ 11 / 10 := by
    have := abs_add_le (f * h ^ 2 - W) W
    rw [sub_add_cancel] at this
    have : 151 / 10 * u ≤ 1 / 10 := by unfold u; norm_num
    linarith
  have ha := abs_nonneg a
  have k1 := mul_le_mul_of_nonneg_left (mul_le_mul_of_nonneg_left fb ha) hu.le
  have k2 := mul_le_mul_of_nonneg_left pe ha
  have k3 := mul_nonneg hu.le ha
  linarith

/-- All shares of one charged particle add up to its amount over the area of a cell. -/
theorem particle3_close (N : ℤ) {h : ℚ} (hh : 0 < h) (amount : P3F → ℚ) (p : P3F) (hq : p.q ≠ 0) :
    |h ^ 2 * ((incsP3F N h amount p).map Prod.snd).sum - amount p| ≤ 425 * u * |amount p| ∧ h ^ 2 * absSum ((incsP3F N h amount p).map Prod.snd) ≤ (1 + 425 * u) * |amount p| := by
  unfold incsP3F
  simp only [if_neg hq, flat_sum]
  have hx := local_bound (halfCellF h (fl (p.x0 + p.x)))
  have hy := local_bound (halfCellF h (fl (p.y0 + p.y)))
  generalize localF (halfCellF h (fl (p.x0 + p.x))) = x at *
  generalize localF (halfCellF h (fl (p.y0 + p.y))) = y at *
  generalize amount p = a
  have hh2 : (0 : ℚ) ≤ h ^ 2 := by positivity
  obtain ⟨c1, c2⟩ := flat_close (fun kx ky => h ^ 2 * fl (a * fl (fl (fl (weight4F x kx / h) * weight4F y ky) / h))) (fun kx ky => a * (weight4 x kx * weight4 y ky)) (17 * u * |a|)
    (fun kx h1 ky h2 => share_close hh hx hy h1 h2 a)
  have tx := weight4_total x
  have ty := weight4_total y
  have e1 : (places.flatMap fun kx => places.map fun ky => a * (weight4 x kx * weight4 y ky)).sum = a := by
    have : (places.flatMap fun kx => places.map fun ky => a * (weight4 x kx * weight4 y ky)).sum = a * ((places.map (weight4 x)).sum * (places.map (weight4 y)).sum) := by
      simp only [places, List.flatMap_cons, List.flatMap_nil, List.map_cons, List.map_nil, List.sum_append, List.sum_cons, List.sum_nil, List.cons_append, List.nil_append]
      ring
    rw [this, tx, ty]; ring
  have e2 : absSum (places.flatMap fun kx => places.map fun ky => a * (weight4 x kx * weight4 y ky)) = |a| := by
    have b : ∀ kx ∈ places, ∀ ky ∈ places, |a * (weight4 x kx * weight4 y ky)| = |a| * (weight4 x kx * weight4 y ky) := by
      intro kx h1 ky h2
      rw [abs_mul, abs_mul, abs_of_nonneg (weight4_nonneg hx h1).1, abs_of_nonneg (weight4_nonneg hy h2).1]
    have : absSum (places.flatMap fun kx => places.map fun ky => a * (weight4 x kx * weight4 y ky)) = |a| * ((places.map (weight4 x)).sum * (places.map (weight4 y)).sum) := by
      unfold absSum
      rw [List.map_flatMap]
      simp only [List.map_map, Function.comp_def]
      rw [List.flatMap_congr (g := fun kx => places.map fun ky => |a| * (weight4 x kx * weight4 y ky)) (fun kx h1 => List.map_congr_left fun ky h2 => b kx h1 ky h2)]
      simp only [places, List.flatMap_cons, List.flatMap_nil, List.map_cons, List.map_nil, List.sum_append, List.sum_cons, List.sum_nil, List.cons_append, List.nil_append]
      ring
    rw [this, tx, ty]; ring
  have s1 : ∀ g : ℤ → ℤ → ℚ, (places.flatMap fun kx => places.map fun ky => h ^ 2 * g kx ky).sum = h ^ 2 * (places.flatMap fun kx => places.map fun ky => g kx ky).sum := by
    intro g
    simp only [places, List.flatMap_cons, List.flatMap_nil, List.map_cons, List.map_nil, List.sum_append, List.sum_cons, List.sum_nil, List.cons_append, List.nil_append]
    ring
  have s2 : ∀ g : ℤ → ℤ → ℚ, absSum (places.flatMap fun kx => places.map fun ky => h ^ 2 * g kx ky) = h ^ 2 * absSum (places.flatMap fun kx => places.map fun ky => g kx ky) := by
    intro g
    unfold absSum
    rw [List.map_flatMap, List.map_flatMap]
    simp only [List.map_map, Function.comp_def, abs_mul, abs_of_nonneg hh2]
    exact s1 fun kx ky => |g kx ky|
  beta_reduce at c1 c2
  rw [e1, s1] at c1
  rw [e2, s2] at c2
  exact ⟨by linarith, by linarith⟩

/-! ### All particles -/

theorem incsP3_in {N : ℤ} {h : ℚ} (amount : P3F → ℚ) (p : P3F) (hp : p.q ≠ 0 → AllIn N (touched3 N h (fl (p.x0 + p.x))) ∧ AllIn N (touched3 N h (fl (p.y0 + p.y)))) : ∀ t ∈ incsP3F N h amount p, t.1 ∈ gridNodes N := by
  intro t ht
  unfold incsP3F at ht
  simp only at ht
  by_cases hq : p.q = 0
  · rw [if_pos hq] at ht; cases ht
  · obtain ⟨hx, hy⟩ := hp hq
    rw [if_neg hq] at ht
    rw [touched3_iff] at hx hy
    simp only [List.mem_flatMap, List.mem_map] at ht
    obtain ⟨kx, hkx, ky, hky, rfl⟩ := ht
    unfold cell3 at hx hy
    unfold halfCellF gridNodes
    simp only [places, List.mem_cons, List.not_mem_nil, or_false] at hkx hky
    simp only [Finset.mem_product, Finset.mem_Ico]
    omega

theorem incsP3_once (N : ℤ) (h : ℚ) (amount : P3F → ℚ) (p : P3F) (k : ℤ × ℤ) : (atNode k (incsP3F N h amount p)).length ≤ 1 := by
  have nd : ((incsP3F N h amount p).map Prod.fst).Nodup := by
    unfold incsP3F
    simp only
    split
    · simp
    · simp only [List.map_flatMap, List.map_map, Function.comp_def]
      generalize ⌊halfCellF h (fl (p.x0 + p.x))⌋ + N / 2 = a
      generalize ⌊halfCellF h (fl (p.y0 + p.y))⌋ + N / 2 = b
      have e : (places.flatMap fun kx => places.map fun ky => (a + kx, b + ky)) = (places.flatMap fun kx => places.map fun ky => (kx, ky)).map fun t => (a + t.1, b + t.2) := by
        simp [List.map_flatMap, List.map_map, Function.comp_def]
      rw [e]
      apply List.Nodup.map
      · rintro ⟨x, y⟩ ⟨x', y'⟩ hxy
        simp only [Prod.mk.injEq, add_right_inj] at hxy
        exact Prod.ext hxy.1 hxy.2
      · decide
  unfold atNode
  rw [List.length_map]
  generalize incsP3F N h amount p = l at nd ⊢
  induction l with
  | nil => simp
  | cons t l ih =>
    rw [List.map_cons, List.nodup_cons] at nd
    rw [List.filter_cons]
    by_cases ht : t.1 = k
    · have : l.filter (fun iv => iv.1 = k) = [] := by
        rw [List.filter_eq_nil_iff]
        intro t' ht' hk
        simp only [decide_eq_true_eq] at hk
        exact nd.1 (List.mem_map.mpr ⟨t', ht', by rw [hk, ht]⟩)
      simp [ht, this]
    · simp only [ht, decide_false]
      exact ih nd.2

/-- Specification: the particles that take part. -/
def charged (ps : List P3F) : List P3F := ps.filter fun p => p.q ≠ 0

theorem incsP3_sum (N : ℤ) {h : ℚ} (hh : 0 < h) (amount : P3F → ℚ) (ps : List P3F) :
    |h ^ 2 * ((ps.flatMap (incsP3F N h amount)).map Prod.snd).sum - ((charged ps).map amount).sum| ≤ 425 * u * ((charged ps).map fun p => |amount p|).sum ∧
      h ^ 2 * absSum ((ps.flatMap (incsP3F N h amount)).map Prod.snd) ≤ (1 + 425 * u) * ((charged ps).map fun p => |amount p|).sum ∧
      ∀ k, (atNode k (ps.flatMap (incsP3F N h amount))).length ≤ (charged ps).length := by
  induction ps with
  | nil => simp [charged, absSum, atNode]
  | cons p ps ih =>
    obtain ⟨i1, i2, i3⟩ := ih
    rw [List.flatMap_cons]
    by_cases hq : p.q = 0
    · have e : charged (p :: ps) = charged ps := by unfold charged; rw [List.filter_cons]; simp [hq]
      have e2 : incsP3F N h amount p = [] := by unfold incsP3F; simp only [if_pos hq]
      rw [e, e2, List.nil_append]
      exact ⟨i1, i2, i3⟩
    · have e : charged (p :: ps) = p :: charged ps := by unfold charged; rw [List.filter_cons]; simp [hq]
      obtain ⟨c1, c2⟩ := particle3_close N hh amount p hq
      rw [e]
      simp only [absSum, List.map_append, List.sum_append, List.map_cons, List.sum_cons] at *
      generalize ((incsP3F N h amount p).map Prod.snd).sum = A at *
      generalize ((ps.flatMap (incsP3F N h amount)).map Prod.snd).sum = B at *
      generalize (((incsP3F N h amount p).map Prod.snd).map fun x => |x|).sum = A' at *
      generalize (((ps.flatMap (incsP3F N h amount)).map Prod.snd).map fun x => |x|).sum = B' at *
      refine ⟨?_, by linarith, ?_⟩
      · rw [show h ^ 2 * (A + B) - (amount p + ((charged ps).map amount).sum) = (h ^ 2 * A - amount p) + (h ^ 2 * B - ((charged ps).map amount).sum) by ring]
        refine (abs_add_le _ _).trans ?_
        linarith
      · intro k
        have h1 := incsP3_once N h amount p k
        have h2 := i3 k
        rw [atNode_append, List.length_append, List.length_cons]
        omega

/-- Specification: the integral of an array over the grid. -/
noncomputable def integral3 (N : ℤ) (h : ℚ) (a : Arr) : ℚ := h ^ 2 * ∑ t ∈ gridNodes N, a t.1 t.2

/-- C74: for every list of particles whose cells exist, of whatever charges and momenta, and for the density and each component of the current: with every operation rounded, the integral over the grid of what is deposited is what the charged particles carry,
up to `n` roundings (`n` the number of charged particles) and the 425 roundings of the shares of one particle. -/
theorem deposited3_doubles {N : ℤ} {h : ℚ} (hh : 0 < h) (amount : P3F → ℚ) (ps : List P3F)
    (hp : ∀ p ∈ ps, p.q ≠ 0 → AllIn N (touched3 N h (fl (p.x0 + p.x))) ∧ AllIn N (touched3 N h (fl (p.y0 + p.y)))) :
    |integral3 N h (depositP3F N h amount ps) - ((charged ps).map amount).sum| ≤ ((1 + 425 * u) * gam (charged ps).length + 425 * u) * ((charged ps).map fun p => |amount p|).sum := by
  obtain ⟨i1, i2, i3⟩ := incsP3_sum N hh amount ps
  have hin : ∀ t ∈ ps.flatMap (incsP3F N h amount), t.1 ∈ gridNodes N := by
    intro t ht
    obtain ⟨p, hp', ht⟩ := List.mem_flatMap.mp ht
    exact incsP3_in amount p (hp p hp') t ht
  have d := deposit_total (gridNodes N) (fun _ => 0) (ps.flatMap (incsP3F N h amount)) (charged ps).length hin (fun k _ => i3 k)
  simp only [abs_zero, Finset.sum_const_zero, zero_add] at d
  have hh2 : (0 : ℚ) ≤ h ^ 2 := by positivity
  have d' := mul_le_mul_of_nonneg_left d hh2
  rw [← abs_of_nonneg hh2, ← abs_mul, abs_of_nonneg hh2, mul_sub] at d'
  have hg : 0 ≤ gam (charged ps).length := by
    have := gam_mono (Nat.zero_le (charged ps).length)
    unfold gam at this ⊢
    simpa using this
  have m := mul_le_mul_of_nonneg_left i2 hg
  have e : integral3 N h (depositP3F N h amount ps) = h ^ 2 * ∑ i ∈ gridNodes N, addAtF (fun _ => 0) (ps.flatMap (incsP3F N h amount)) i := rfl
  rw [e]
  generalize h ^ 2 * ∑ i ∈ gridNodes N, addAtF (fun _ => 0) (ps.flatMap (incsP3F N h amount)) i = I at *
  generalize h ^ 2 * ((ps.flatMap (incsP3F N h amount)).map Prod.snd).sum = S at *
  generalize absSum ((ps.flatMap (incsP3F N h amount)).map Prod.snd) = T at *
  generalize ((charged ps).map amount).sum = C at *
  have := abs_sub_le I S C
  linarith [(by ring : h ^ 2 * (gam (charged ps).length * T) = gam (charged ps).length * (h ^ 2 * T))]

/-! ### What a particle carries -/

/-- Specification: `1 - v_z` and the charge a particle shows per unit length of the window, in exact arithmetic. -/
noncomputable def lag (p : P3F) : ℝ := 1 - (p.pz : ℝ) / Real.sqrt ((p.m : ℝ) ^ 2 + (p.px : ℝ) ^ 2 + (p.py : ℝ) ^ 2 + (p.pz : ℝ) ^ 2)
noncomputable def shown (p : P3F) : ℝ := (p.q : ℝ) / lag p

/-- C74: the computed charge of a particle is off by at most 14 roundings over `1 - v_z`: it is the particles that move along with the window that lose digits. -/
theorem dro_doubles (p : P3F) (hm : 0 < p.m ^ 2 + p.px ^ 2 + p.py ^ 2 + p.pz ^ 2) (hd : (1000 * u : ℚ) ≤ lag p) :
    |(dro3F p : ℝ) - shown p| ≤ 14 * (u : ℚ) / lag p * |shown p| := by
  have g := gamma_doubles p.m p.px p.py p.pz
  have hu : (0 : ℝ) < (u : ℚ) := by exact_mod_cast u_pos
  have hu1 : ((u : ℚ) : ℝ) ≤ 1 / 1000000 := by
    have : u ≤ 1 / 1000000 := by unfold u; norm_num
    have := (Rat.cast_le (K := ℝ)).mpr this
    push_cast at this
    exact this
  have g5 : ((gam 5 : ℚ) : ℝ) ≤ 501 / 100 * (u : ℚ) := by
    have : gam 5 ≤ 501 / 100 * u := by unfold gam u; norm_num
    have := (Rat.cast_le (K := ℝ)).mpr this
    push_cast at this
    exact this
  have hm' : (0 : ℝ) < (p.m : ℝ) ^ 2 + (p.px : ℝ) ^ 2 + (p.py : ℝ) ^ 2 + (p.pz : ℝ) ^ 2 := by exact_mod_cast hm
  have hG := Real.sqrt_pos.mpr hm'
  have hz : |(p.pz : ℝ)| ≤ Real.sqrt ((p.m : ℝ) ^ 2 + (p.px : ℝ) ^ 2 + (p.py : ℝ) ^ 2 + (p.pz : ℝ) ^ 2) :=
    Real.abs_le_sqrt (by nlinarith [sq_nonneg (p.m : ℝ), sq_nonneg (p.px : ℝ), sq_nonneg (p.py : ℝ)])
  unfold shown
  have hl : lag p = 1 - (p.pz : ℝ) / Real.sqrt ((p.m : ℝ) ^ 2 + (p.px : ℝ) ^ 2 + (p.py : ℝ) ^ 2 + (p.pz : ℝ) ^ 2) := rfl
  push_cast at hd
  unfold dro3F gamma3F
  generalize Real.sqrt ((p.m : ℝ) ^ 2 + (p.px : ℝ) ^ 2 + (p.py : ℝ) ^ 2 + (p.pz : ℝ) ^ 2) = G at *
  generalize gammaF p.m p.px p.py p.pz = γ at *
  have errR : ∀ x : ℚ, |((fl x : ℚ) : ℝ) - (x : ℝ)| ≤ (u : ℚ) * |(x : ℝ)| := fun x => by exact_mod_cast fl_abs_err x
  have r1 := errR (p.pz / γ)
  generalize fl (p.pz / γ) = v at *
  have r2 := errR (1 - v)
  generalize fl (1 - v) = d at *
  have r3 := errR (p.q / d)
  generalize fl (p.q / d) = f at *
  push_cast at r1 r2 r3
  generalize (γ : ℝ) = γ at *
  generalize (p.pz : ℝ) = z at *
  generalize (v : ℝ) = v at *
  generalize (d : ℝ) = d at *
  generalize (p.q : ℝ) = q at *
  generalize (f : ℝ) = f at *
  generalize lag p = D at *
  generalize ((u : ℚ) : ℝ) = e at *
  clear hm hm'
  have gG : |γ - G| ≤ 501 / 100 * e * G := g.trans (mul_le_mul_of_nonneg_right g5 hG.le)
  clear g g5
  have gl := abs_le.mp gG
  have hγ : 9 / 10 * G ≤ γ := by nlinarith
  have hγ0 : 0 < γ := by linarith
  -- the velocity
  have v1 : |z / γ - z / G| ≤ 6 * e := by
    have e1 : z / γ - z / G = z / G * ((G - γ) / γ) := by field_simp
    rw [e1, abs_mul, abs_div z, abs_div, abs_of_pos hG, abs_of_pos hγ0, abs_sub_comm]
    have a1 : |z| / G ≤ 1 := by rw [div_le_one hG]; exact hz
    have a2 : |γ - G| / γ ≤ 6 * e := by
      rw [div_le_iff₀ hγ0]
      refine gG.trans ?_
      nlinarith
    calc |z| / G * (|γ - G| / γ) ≤ 1 * (6 * e) := mul_le_mul a1 a2 (by positivity) zero_le_one
      _ = 6 * e := one_mul _
  have zg : |z / G| ≤ 1 := by rw [abs_div, abs_of_pos hG, div_le_one hG]; exact hz
  generalize z / γ = a at *
  generalize z / G = b at *
  have hb := abs_le.mp zg
  have av : |a| ≤ 101 / 100 := by
    have := abs_add_le (a - b) b
    rw [sub_add_cancel] at this
    linarith
  have v2 : |v - b| ≤ 702 / 100 * e := by
    have := abs_sub_le v a b
    have := mul_le_mul_of_nonneg_left av hu.le
    linarith
  have dv : |1 - v| ≤ 201 / 100 := by
    have h1 := abs_le.mp v2
    rw [abs_le]; constructor <;> linarith [h1.1, h1.2]
  have dd : |d - D| ≤ 10 * e := by
    have e1 : d - D = (d - (1 - v)) - (v - b) := by rw [hl]; ring
    rw [e1]
    have := abs_sub (d - (1 - v)) (v - b)
    have := mul_le_mul_of_nonneg_left dv hu.le
    linarith
  have hD0 : 0 < D := by linarith
  have hD2 : D ≤ 2 := by rw [hl]; linarith [hb.1]
  have dl := abs_le.mp dd
  have hd1 : 99 / 100 * D ≤ d := by linarith [dl.1]
  have hd0 : 0 < d := by linarith
  have q1 : |q / d - q / D| ≤ 1011 / 100 * e / D * |q / D| := by
    have e1 : q / d - q / D = q / D * ((D - d) / d) := by field_simp
    rw [e1, abs_mul, abs_div (D - d), abs_of_pos hd0, abs_sub_comm D d, mul_comm]
    refine mul_le_mul_of_nonneg_right ?_ (abs_nonneg _)
    rw [div_le_div_iff₀ hd0 hD0]
    have t1 := mul_le_mul_of_nonneg_right dd hD0.le
    have t2 := mul_le_mul_of_nonneg_left hd1 hu.le
    nlinarith
  have eD : e / D ≤ 1 / 1000 := by rw [div_le_iff₀ hD0]; linarith
  have eD2 : e ≤ 2 * (e / D) := by
    have : e / D * D = e := by field_simp
    have h0 : 0 ≤ e / D := by positivity
    nlinarith
  have Q := abs_nonneg (q / D)
  rw [show 1011 / 100 * e / D = 1011 / 100 * (e / D) by ring] at q1
  rw [show 14 * e / D = 14 * (e / D) by ring]
  have h0 : 0 ≤ e / D := by positivity
  generalize e / D = k at *
  generalize q / D = X at *
  generalize q / d = Y at *
  have hY : |Y| ≤ 11 / 10 * |X| := by
    have := abs_add_le (Y - X) X
    rw [sub_add_cancel] at this
    nlinarith
  have t := abs_sub_le f Y X
  have t2 : e * |Y| ≤ 2 * k * (11 / 10 * |X|) := mul_le_mul eD2 hY (abs_nonneg _) (by linarith)
  nlinarith

/-- The sums. -/
theorem dro_sum {K : ℝ} (ps : List P3F) (h : ∀ p ∈ ps, |(dro3F p : ℝ) - shown p| ≤ K * |shown p|) :
    |(((ps.map dro3F).sum : ℚ) : ℝ) - (ps.map shown).sum| ≤ K * (ps.map fun p => |shown p|).sum ∧ (((ps.map fun p => |dro3F p|).sum : ℚ) : ℝ) ≤ (1 + K) * (ps.map fun p => |shown p|).sum := by
  induction ps with
  | nil => simp
  | cons p ps ih =>
    obtain ⟨i1, i2⟩ := ih fun x hx => h x (List.mem_cons_of_mem _ hx)
    have hp := h p List.mem_cons_self
    simp only [List.map_cons, List.sum_cons, Rat.cast_add, Rat.cast_abs]
    clear ih
    constructor
    · generalize (ps.map shown).sum = A at *
      generalize (((ps.map dro3F).sum : ℚ) : ℝ) = B at *
      rw [show (dro3F p : ℝ) + B - (shown p + A) = (dro3F p - shown p) + (B - A) by ring]
      exact (abs_add_le _ _).trans (by linarith)
    · have := abs_add_le ((dro3F p : ℝ) - shown p) (shown p)
      rw [sub_add_cancel] at this
      linarith

/-! ### The run -/

/-- The currents kept after a layer are those of the particles kept after it. -/
theorem layers3_currents (c : S3F) (w : W3F) (b0 b : Arr) (bs : List Arr) :
    (layers3W c w b0 (b :: bs)).cur = rhojSorts3F c ((layers3W c w b0 (b :: bs)).el, (layers3W c w b0 (b :: bs)).ions) := by
  have step : ∀ w b b0, (stepDxi3F c w b b0).cur = rhojSorts3F c ((stepDxi3F c w b b0).el, (stepDxi3F c w b b0).ions) := by
    intro w b b0
    unfold stepDxi3F
    cases c.decl <;> dsimp only
  induction bs generalizing w b0 b with
  | nil => rw [layers3W, layers3W]; exact step w b b0
  | cons b' bs ih => rw [layers3W]; exact ih (stepDxi3F c w b b0) b b'

/-- C74: whatever the beam and the transforms, after every layer the integral over the grid of the electron density (and of the ion density, if the ions move) is the charge the charged particles show, `q / (1 - v_z)` summed, up to rounding:
`n` roundings for `n` particles, 425 for the shares of one, `14 / δ` for what a particle carries if `1 - v_z ≥ δ` for all. -/
theorem run3_charge_doubles (c : S3F) (hN : c.m.N % 2 = 1) (hN2 : c.m.N < 2 ^ 45) (hh : 0 < c.m.h) (hp : 2 < c.m.pad) (w : W3F) (b0 b : Arr) (bs : List Arr) (hw : Inside3S c.m.b (w.el, w.ions)) (ps : List P3F) (cur : Cur3F)
    (hps : (ps = (layers3W c w b0 (b :: bs)).el ∧ cur = (layers3W c w b0 (b :: bs)).cur.1) ∨ ((layers3W c w b0 (b :: bs)).ions = some ps ∧ cur = (layers3W c w b0 (b :: bs)).cur.2))
    (δ : ℝ) (hδ : (1000 * u : ℚ) ≤ δ) (hd : ∀ p ∈ charged ps, 0 < p.m ∧ δ ≤ lag p) :
    |((integral3 c.m.N c.m.h cur.ro : ℚ) : ℝ) - ((charged ps).map shown).sum| ≤
      (((1 + 425 * u) * gam (charged ps).length + 425 * u : ℚ) * (1 + 14 * (u : ℚ) / δ) + 14 * (u : ℚ) / δ) * ((charged ps).map fun p => |shown p|).sum := by
  obtain ⟨-, i1, i2⟩ := layers3_inside_doubles c w b0 (b :: bs) hw
  have hc := layers3_currents c w b0 b bs
  have hro : cur.ro = depositP3F c.m.N c.m.h dro3F ps := by
    rcases hps with ⟨rfl, rfl⟩ | ⟨h1, rfl⟩
    · rw [hc]; rfl
    · rw [hc]; unfold rhojSorts3F rhoj3F; rw [h1]; rfl
  have hin : ∀ p ∈ ps, Inside3F c.m.b p := by
    rcases hps with ⟨rfl, -⟩ | ⟨h1, -⟩
    · exact i1
    · exact i2 ps h1
  have hu : (0 : ℝ) < (u : ℚ) := by exact_mod_cast u_pos
  push_cast at hδ
  have hδ0 : 0 < δ := by linarith
  have hdro : ∀ p ∈ charged ps, |(dro3F p : ℝ) - shown p| ≤ 14 * (u : ℚ) / δ * |shown p| := by
    intro p hp'
    obtain ⟨m0, hl⟩ := hd p hp'
    refine (dro_doubles p (by positivity) (by push_cast; linarith)).trans (mul_le_mul_of_nonneg_right ?_ (abs_nonneg _))
    exact div_le_div_of_nonneg_left (by positivity) hδ0 hl
  obtain ⟨s1, s2⟩ := dro_sum (charged ps) hdro
  have d := deposited3_doubles (N := c.m.N) hh dro3F ps (fun p hp' hq => inside3_touches hN hN2 hh hp (hin p hp') hq)
  rw [← hro] at d
  have d' : |((integral3 c.m.N c.m.h cur.ro : ℚ) : ℝ) - (((charged ps).map dro3F).sum : ℚ)| ≤ ((1 + 425 * u) * gam (charged ps).length + 425 * u : ℚ) * ((((charged ps).map fun p => |dro3F p|).sum : ℚ) : ℝ) := by exact_mod_cast d
  have hA : (0 : ℝ) ≤ ((1 + 425 * u) * gam (charged ps).length + 425 * u : ℚ) := by
    have : (0 : ℚ) ≤ (1 + 425 * u) * gam (charged ps).length + 425 * u := by
      have := gam_nonneg (charged ps).length
      have := u_pos
      positivity
    exact_mod_cast this
  generalize (((1 + 425 * u) * gam (charged ps).length + 425 * u : ℚ) : ℝ) = A at *
  have m := mul_le_mul_of_nonneg_left s2 hA
  have t := abs_sub_le ((integral3 c.m.N c.m.h cur.ro : ℚ) : ℝ) ((((charged ps).map dro3F).sum : ℚ) : ℝ) (((charged ps).map shown).sum)
  generalize 14 * ((u : ℚ) : ℝ) / δ = K at *
  linarith [(by ring : (A * (1 + K) + K) * ((charged ps).map fun p => |shown p|).sum = A * ((1 + K) * ((charged ps).map fun p => |shown p|).sum) + K * ((charged ps).map fun p => |shown p|).sum)]

/-! ### Cases that meet the hypotheses -/

/-- Stand-ins for the transforms that do not forget their arguments. -/
def someLib : LibF := ⟨fun a => a, fun a i j => fl (a i j / 3), fun a => a, fun a => a 3 4, fun a i j => fl (a i j / 2)⟩

theorem someLib_zero : someLib.Zero := by
  refine ⟨rfl, ?_, rfl, rfl, ?_⟩ <;> · funext i j; simp [someLib, zeroArr, fl_zero']

/-- 21 nodes, step 0.1, bound-padding-steps 5, plasma-padding-steps 6, fineness 2, declustering on, a density that varies; `cfg3 el` takes its ion background from `el`. -/
def cfg3 (el : List P3F) : S3F := ⟨⟨fl (1 / 20), fl (1 / 10), 21, 5⟩, 1, roInitial3F 21 (fl (1 / 10)) el, some ⟨16, fl (1 / 20), 1, 1, fl (1 / 100)⟩, someLib⟩
def el3 : List P3F := plasma3F 4 2 (fl (1 / 10)) fun x _ => fl (1 + x)

example : el3.length = 256 := by
  unfold el3 plasma3F grid3F
  simp only [show ¬(2 % 2 = 1) by decide, if_false, List.length_flatMap, List.length_append, List.length_map, List.length_reverse, List.length_range]
  simp [Function.comp_def, List.map_const', List.sum_replicate]

/-- Non-vacuity: the plasma of `cfg3` never moves without a beam, with mobile ions or without. -/
example : (layers3W (cfg3 el3) (init3F el3 none) zeroArr (List.replicate 1000 zeroArr)).el = el3 ∧
    (layers3W (cfg3 el3) (init3F el3 (some (ions3F 1836 el3))) zeroArr (List.replicate 1000 zeroArr)).ions = some (ions3F 1836 el3) := by
  have := quiet3_start_doubles (cfg3 el3) someLib_zero (ppad := 6) (f := 2) (by decide) (by decide) (fl_pos (by norm_num)) (by norm_num) (by decide) (by decide) (by decide) (fun x _ => fl (1 + x)) el3 rfl rfl 1836 1000
  exact ⟨this.1.1, this.2.2.1⟩

/-- Non-vacuity: whatever three beam layers do to it, it stays inside. -/
example (b1 b2 b3 : Arr) : Inside3S (cfg3 el3).m.b ((layers3W (cfg3 el3) (init3F el3 none) zeroArr [b1, b2, b3]).el, (layers3W (cfg3 el3) (init3F el3 none) zeroArr [b1, b2, b3]).ions) := by
  have r : ∀ p ∈ el3, Rest3F (cfg3 el3).m.b p := plasma3_rest (c := (cfg3 el3).m) (ppad := 6) (f := 2) (by decide) (by decide) (fl_pos (by norm_num)) (by norm_num) (by decide) (by decide) (by decide) _
  refine (layers3_inside_doubles (cfg3 el3) (init3F el3 none) zeroArr [b1, b2, b3] ⟨fun p hp => ?_, by simp [init3F]⟩).2
  obtain ⟨x0, y0, ins, pos, -⟩ := r p hp
  refine ins.imp id fun h => ?_
  rw [pos.1, pos.2, add_zero, add_zero, fl_exact x0, fl_exact y0]
  exact h

/-- Non-vacuity: an electron (m = 4, p_z = 3) shows its charge over 1 - 3/5. -/
example : lag ⟨0, 0, 0, 0, 0, 0, 3, -1, 4⟩ = 2 / 5 ∧ |(dro3F ⟨0, 0, 0, 0, 0, 0, 3, -1, 4⟩ : ℝ) + 5 / 2| ≤ 14 * (u : ℚ) / (2 / 5) * (5 / 2) := by
  have hs : Real.sqrt ((((4 : ℚ) : ℝ)) ^ 2 + ((0 : ℚ) : ℝ) ^ 2 + ((0 : ℚ) : ℝ) ^ 2 + ((3 : ℚ) : ℝ) ^ 2) = 5 := by
    rw [show (((4 : ℚ) : ℝ)) ^ 2 + ((0 : ℚ) : ℝ) ^ 2 + ((0 : ℚ) : ℝ) ^ 2 + ((3 : ℚ) : ℝ) ^ 2 = 5 ^ 2 by norm_num]
    exact Real.sqrt_sq (by norm_num)
  have hl : lag ⟨0, 0, 0, 0, 0, 0, 3, -1, 4⟩ = 2 / 5 := by
    unfold lag
    simp only [hs]
    norm_num
  refine ⟨hl, ?_⟩
  have hu : (1000 * u : ℚ) ≤ 2 / 5 := by unfold u; norm_num
  have h := dro_doubles ⟨0, 0, 0, 0, 0, 0, 3, -1, 4⟩ (by norm_num) (by rw [hl]; have := (Rat.cast_le (K := ℝ)).mpr hu; push_cast at this ⊢; exact this)
  unfold shown at h
  rw [hl] at h
  norm_num at h ⊢
  exact h

/-- Non-vacuity: the charge on the grid after five layers without beam. -/
example : |((integral3 21 (fl (1 / 10)) (layers3W (cfg3 el3) (init3F el3 none) zeroArr (List.replicate 5 zeroArr)).cur.1.ro : ℚ) : ℝ) - ((charged el3).map shown).sum| ≤
    (((1 + 425 * u) * gam (charged el3).length + 425 * u : ℚ) * (1 + 14 * (u : ℚ) / 1) + 14 * (u : ℚ) / 1) * ((charged el3).map fun p => |shown p|).sum := by
  have r : ∀ p ∈ el3, Rest3F (cfg3 el3).m.b p := plasma3_rest (c := (cfg3 el3).m) (ppad := 6) (f := 2) (by decide) (by decide) (fl_pos (by norm_num)) (by norm_num) (by decide) (by decide) (by decide) _
  have q := quiet3_start_doubles (cfg3 el3) someLib_zero (ppad := 6) (f := 2) (by decide) (by decide) (fl_pos (by norm_num)) (by norm_num) (by decide) (by decide) (by decide) (fun x _ => fl (1 + x)) el3 rfl rfl 1836 5
  have hu : (1000 * u : ℚ) ≤ 1 := by unfold u; norm_num
  refine run3_charge_doubles (cfg3 el3) (by decide) (by decide) (fl_pos (by norm_num)) (by decide) (init3F el3 none) zeroArr zeroArr (List.replicate 4 zeroArr) ⟨fun p hp => ?_, by simp [init3F]⟩ el3 _
    (Or.inl ⟨q.1.1.symm, rfl⟩) 1 (by have := (Rat.cast_le (K := ℝ)).mpr hu; push_cast at this ⊢; exact this) ?_
  · obtain ⟨x0, y0, ins, pos, -⟩ := r p hp
    refine ins.imp id fun h => ?_
    rw [pos.1, pos.2, add_zero, add_zero, fl_exact x0, fl_exact y0]
    exact h
  · intro p hp
    have hp' : p ∈ el3 := (List.mem_filter.mp hp).1
    have hm := (r p hp').mom
    refine ⟨?_, by unfold lag; rw [hm.2.2]; simp⟩
    unfold el3 plasma3F at hp'
    simp only [List.mem_flatMap, List.mem_map] at hp'
    obtain ⟨x, hx, y, hy, rfl⟩ := hp'
    have g := grid3_inside (N := 21) (pad := 5) (ppad := 6) (h := fl (1 / 10)) (f := 2) (by decide) (by decide) (fl_pos (by norm_num)) (by norm_num) (by decide) (by decide) (by decide) x hx
    have hb : boundaryF 21 5 (fl (1 / 10)) < 1 := by decide +kernel
    have hx1 := abs_lt.mp (g.2.trans hb)
    exact fl_pos (mul_pos (fl_pos (mul_pos (fl_pos (by norm_num)) (fl_pos (mul_pos (fl_pos (by norm_num)) (fl_pos (by norm_num)))))) (fl_pos (by linarith [hx1.1])))

end Lcode.Fp
