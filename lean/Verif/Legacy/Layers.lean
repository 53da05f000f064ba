import Verif.Legacy.Segments
import Verif.Beam2D.Data
import Mathlib.Analysis.SpecialFunctions.Log.Basic
import Mathlib.Data.List.Sort
import Mathlib.Data.List.GetD

/-!
Model of the particle distributions of the old beam generator, lcode/beam_generator/beam_profiles.py:29-80, :141-183. Property C57. Real arithmetic.
-/

namespace Lcode.Legacy

/-! ### Random numbers -/

/-- What is used of numpy.random: uniform deviates and shuffle. -/
structure Rand (S : Type) where
  sample : S → ℕ → List ℝ × S
  shuffle : S → List ℝ → List ℝ × S

/-- What numpy documents. -/
structure Rand.Valid {S : Type} (g : Rand S) : Prop where
  sample_length : ∀ s n, (g.sample s n).1.length = n
  sample_range : ∀ s n, ∀ u ∈ (g.sample s n).1, 0 ≤ u ∧ u < 1
  shuffle_perm : ∀ s l, (g.shuffle s l).1.Perm l

variable {S : Type}

/-- Python's `int` of a float. -/
noncomputable def pyInt (x : ℝ) : ℤ := if 0 ≤ x then ⌊x⌋ else ⌈x⌉

/-- `stats.uniform.rvs(loc=l, scale=d, size=n)`, beam_profiles.py:69: a negative size raises. -/
noncomputable def uniformRvs (g : Rand S) (s : S) (l d : ℝ) (n : ℤ) : Except Err (List ℝ × S) :=
  if n < 0 then .error .valueError else .ok ((g.sample s n.toNat).1.map fun u => l + d * u, (g.sample s n.toNat).2)

/-! ### Longitudinal distribution -/

/-- `cosine`, beam_profiles.py:141 -/
noncomputable def cosine (x med L : ℝ) : ℝ := 1 / 2 * (1 + Real.cos (2 * Real.pi * (x - med) / L))

/-- `gauss`, beam_profiles.py:142 -/
noncomputable def gauss (x med sigma : ℝ) : ℝ := Real.exp (-(x - med) ^ 2 / 2 / sigma ^ 2)

/-- The functions of xishape_to_distr, beam_profiles.py:145-152: begin of the segment, length, coordinate. -/
noncomputable def xiProfile : String → Option (ℝ → ℝ → ℝ → ℝ)
  | "g" => some fun xi0 length x => gauss x xi0 (length / 6)
  | "c" => some fun xi0 length x => cosine x xi0 (2 * length)
  | "cos" => some fun xi0 length x => cosine x xi0 (2 * length)
  | _ => none

/-- `(v // d) * d`, beam_profiles.py:62-63 -/
noncomputable def alignDown (v d : ℝ) : ℝ := (⌊v / d⌋ : ℝ) * d

/-- `np.arange(start, stop, step)` -/
noncomputable def arange (start stop step : ℝ) : List ℝ := (List.range ⌈(stop - start) / step⌉.toNat).map fun i : ℕ => start + i * step

/-- `layers_borders`, beam_profiles.py:64 -/
noncomputable def borders (vmin vmax dxi : ℝ) : List ℝ := arange (alignDown vmax dxi) (alignDown vmin dxi - dxi) (-dxi)

/-- `zip(layers_borders[1:], layers_borders)`, beam_profiles.py:65 -/
noncomputable def intervals (vmin vmax dxi : ℝ) : List (ℝ × ℝ) := (borders vmin vmax dxi).tail.zip (borders vmin vmax dxi)

/-- `N(xi)`, beam_profiles.py:66 -/
noncomputable def layerCount (f : ℝ → ℝ) (xiMax p xi : ℝ) : ℤ := pyInt (p * f xi / f xiMax)

/-- The loop over the layers, beam_profiles.py:67-70: the list `out`. -/
noncomputable def drawLayers (g : Rand S) (f : ℝ → ℝ) (xiMax p dxi : ℝ) : List (ℝ × ℝ) → S → Except Err (List (List ℝ) × S)
  | [], s => .ok ([], s)
  | (l, r) :: t, s => do
    let (flat, s) ← uniformRvs g s l dxi (layerCount f xiMax p ((l + r) / 2))
    let (out, s) ← drawLayers g f xiMax p dxi t s
    pure (flat :: out, s)

/-- The function made by StepwiseXiDistr, beam_profiles.py:61-71: `np.hstack` of an empty list raises. -/
noncomputable def stepwiseXi (g : Rand S) (f : ℝ → ℝ) (xiMax vmin vmax p dxi : ℝ) (s : S) : Except Err (List ℝ × S) := do
  let (out, s) ← drawLayers g f xiMax p dxi (intervals vmin vmax dxi) s
  if out = [] then .error .valueError else pure (out.flatten, s)

/-- The attribute `amp`, beam_profiles.py:75-78: zero counts as not given. -/
noncomputable def ampOf (f : ℝ → ℝ) (xiMax amp : ℝ) : ℝ := if amp ≠ 0 then amp else f xiMax

/-! ### Other distributions -/

/-- The function made by SmoothDistr for `step = None`, beam_profiles.py:40-45: `N` quantiles between `p1` and `p2`, both excluded. -/
noncomputable def quantiles (ppf : ℝ → ℝ) (p1 p2 : ℝ) (n : ℕ) : List ℝ := (List.range n).map fun i : ℕ => ppf (p1 + (p2 - p1) * ((i : ℝ) + 1) / ((n : ℝ) + 1))

/-- `stats.weibull_min.ppf(p, 2, 0, sqrt(2) * radius)`, beam_profiles.py:153-156. Its cdf at 0 is 0. -/
noncomputable def rPpf (radius p : ℝ) : ℝ := Real.sqrt 2 * radius * Real.sqrt (-Real.log (1 - p))

/-! ### Specification of the layers -/

/-- The layers of the grid between `kmax` and `kmin`, from the head: layer `k` is the interval from `(k - 1) dxi` to `k dxi`. -/
def layersOf (kmax kmin : ℤ) : List ℤ := (List.range (kmax - kmin).toNat).map fun i : ℕ => kmax - i

theorem borders_eq (vmin vmax dxi : ℝ) (hd : 0 < dxi) : borders vmin vmax dxi = (List.range (⌊vmax / dxi⌋ - ⌊vmin / dxi⌋ + 1).toNat).map fun i : ℕ => ((⌊vmax / dxi⌋ - (i : ℤ) : ℤ) : ℝ) * dxi := by
  unfold borders arange alignDown
  have h : ((⌊vmin / dxi⌋ : ℝ) * dxi - dxi - (⌊vmax / dxi⌋ : ℝ) * dxi) / -dxi = ((⌊vmax / dxi⌋ - ⌊vmin / dxi⌋ + 1 : ℤ) : ℝ) := by
    have := hd.ne'
    push_cast
    field_simp
    ring
  rw [h, Int.ceil_intCast]
  apply List.map_congr_left
  intro i _
  push_cast
  ring

/-- The layers of a segment are the grid layers between its rounded ends. -/
theorem intervals_eq (vmin vmax dxi : ℝ) (hd : 0 < dxi) : intervals vmin vmax dxi = (layersOf ⌊vmax / dxi⌋ ⌊vmin / dxi⌋).map fun k : ℤ => (((k : ℝ) - 1) * dxi, (k : ℝ) * dxi) := by
  unfold intervals layersOf
  rw [borders_eq vmin vmax dxi hd]
  generalize ⌊vmax / dxi⌋ = a
  generalize ⌊vmin / dxi⌋ = b
  apply List.ext_getElem
  · simp only [List.length_zip, List.length_tail, List.length_map, List.length_range]; omega
  · intro i h1 h2
    simp only [List.getElem_zip, List.getElem_tail, List.getElem_map, List.getElem_range]
    push_cast
    congr 1
    ring

theorem mem_layersOf (a b k : ℤ) : k ∈ layersOf a b ↔ b < k ∧ k ≤ a := by
  unfold layersOf
  simp only [List.mem_map, List.mem_range]
  constructor
  · rintro ⟨i, hi, rfl⟩; omega
  · intro h; exact ⟨(a - k).toNat, by omega, by omega⟩

theorem layersOf_nodup (a b : ℤ) : (layersOf a b).Nodup := by
  unfold layersOf
  refine List.Nodup.map ?_ List.nodup_range
  intro i j h
  simp only at h
  omega

/-- Two segments, one behind the other, have together the layers of one long segment: no layer is left out and none is filled twice. -/
theorem layersOf_append (a b c : ℤ) (h1 : b ≤ a) (h2 : c ≤ b) : layersOf a b ++ layersOf b c = layersOf a c := by
  unfold layersOf
  rw [show (a - c).toNat = (a - b).toNat + (b - c).toNat by omega, List.range_add, List.map_append, List.map_map]
  congr 1
  apply List.map_congr_left
  intro i _
  simp only [Function.comp]
  push_cast
  omega

/-! ### What is drawn -/

/-- The loop gives one list per layer, of the prescribed length, inside the layer. -/
theorem drawLayers_spec (g : Rand S) (hg : g.Valid) (f : ℝ → ℝ) (xiMax p dxi : ℝ) (hd : 0 < dxi) (ks : List ℤ) (s : S) (out : List (List ℝ)) (s' : S)
    (h : drawLayers g f xiMax p dxi (ks.map fun k : ℤ => (((k : ℝ) - 1) * dxi, (k : ℝ) * dxi)) s = .ok (out, s')) :
    List.Forall₂ (fun (k : ℤ) (l : List ℝ) => (l.length : ℤ) = layerCount f xiMax p (((k : ℝ) - 1 / 2) * dxi) ∧ ∀ x ∈ l, ((k : ℝ) - 1) * dxi ≤ x ∧ x < (k : ℝ) * dxi) ks out := by
  induction ks generalizing s out s' with
  | nil =>
    simp only [List.map_nil, drawLayers, Except.ok.injEq, Prod.mk.injEq] at h
    rw [← h.1]; exact .nil
  | cons k ks ih =>
    rw [List.map_cons, drawLayers] at h
    have hm : (((k : ℝ) - 1) * dxi + (k : ℝ) * dxi) / 2 = ((k : ℝ) - 1 / 2) * dxi := by ring
    rw [hm] at h
    generalize hc : layerCount f xiMax p (((k : ℝ) - 1 / 2) * dxi) = c at h ⊢
    unfold uniformRvs at h
    by_cases hn : c < 0
    · rw [if_pos hn] at h; cases h
    rw [if_neg hn] at h
    simp only [bind, Except.bind] at h
    generalize hr : drawLayers g f xiMax p dxi (ks.map fun k : ℤ => (((k : ℝ) - 1) * dxi, (k : ℝ) * dxi)) (g.sample s c.toNat).2 = res at h
    cases res with
    | error e => cases h
    | ok o =>
      obtain ⟨o, so⟩ := o
      simp only [pure, Except.pure, Except.ok.injEq, Prod.mk.injEq] at h
      rw [← h.1]
      refine .cons ⟨?_, ?_⟩ (ih _ _ _ hr)
      · rw [List.length_map, hg.sample_length, hc]; omega
      · intro x hx
        obtain ⟨u, hu, rfl⟩ := List.mem_map.mp hx
        obtain ⟨h0, h1⟩ := hg.sample_range _ _ u hu
        constructor
        · nlinarith
        · nlinarith

/-- If the profile is nowhere negative, drawing succeeds. -/
theorem drawLayers_ok (g : Rand S) (f : ℝ → ℝ) (hf : ∀ x, 0 ≤ f x) (xiMax p dxi : ℝ) (hp : 0 ≤ p) (t : List (ℝ × ℝ)) (s : S) : ∃ r, drawLayers g f xiMax p dxi t s = .ok r := by
  induction t generalizing s with
  | nil => exact ⟨_, rfl⟩
  | cons a t ih =>
    obtain ⟨l, r⟩ := a
    have hc : ¬ layerCount f xiMax p ((l + r) / 2) < 0 := by
      unfold layerCount pyInt
      have : 0 ≤ p * f ((l + r) / 2) / f xiMax := div_nonneg (mul_nonneg hp (hf _)) (hf _)
      rw [if_pos this, not_lt]
      exact Int.floor_nonneg.mpr this
    rw [drawLayers, uniformRvs, if_neg hc]
    obtain ⟨q, hq⟩ := ih (g.sample s (layerCount f xiMax p ((l + r) / 2)).toNat).2
    refine ⟨((g.sample s (layerCount f xiMax p ((l + r) / 2)).toNat).1.map (fun u => l + dxi * u) :: q.1, q.2), ?_⟩
    simp only [bind, Except.bind, hq]
    rfl

theorem profile_range (name : String) (f : ℝ → ℝ → ℝ → ℝ) (h : xiProfile name = some f) (xi0 len x : ℝ) : 0 ≤ f xi0 len x ∧ f xi0 len x ≤ 1 ∧ f xi0 len xi0 = 1 := by
  have hcos : ∀ x, 0 ≤ cosine x xi0 (2 * len) ∧ cosine x xi0 (2 * len) ≤ 1 := by
    intro x
    have h1 := Real.neg_one_le_cos (2 * Real.pi * (x - xi0) / (2 * len))
    have h2 := Real.cos_le_one (2 * Real.pi * (x - xi0) / (2 * len))
    unfold cosine
    constructor <;> linarith
  have hcos0 : cosine xi0 xi0 (2 * len) = 1 := by unfold cosine; simp; norm_num
  unfold xiProfile at h
  split at h
  · simp only [Option.some.injEq] at h
    subst h
    refine ⟨(Real.exp_pos _).le, ?_, by simp [gauss]⟩
    refine Real.exp_le_one_iff.mpr ?_
    refine div_nonpos_of_nonpos_of_nonneg ?_ (sq_nonneg _)
    have := sq_nonneg (x - xi0)
    linarith
  · simp only [Option.some.injEq] at h
    subst h
    exact ⟨(hcos x).1, (hcos x).2, hcos0⟩
  · simp only [Option.some.injEq] at h
    subst h
    exact ⟨(hcos x).1, (hcos x).2, hcos0⟩
  · cases h

/-- C57: the number of particles of a layer is the number per layer times the profile in the middle of the layer, rounded down. -/
theorem layerCount_profile (name : String) (f : ℝ → ℝ → ℝ → ℝ) (h : xiProfile name = some f) (xi0 len p x : ℝ) (hp : 0 ≤ p) : layerCount (f xi0 len) xi0 p x = ⌊p * f xi0 len x⌋ := by
  obtain ⟨h0, -, h1⟩ := profile_range name f h xi0 len x
  unfold layerCount pyInt
  rw [h1, div_one, if_pos (mul_nonneg hp h0)]

/-- C57: the particles of a layer together carry twice the prescribed current in the middle of the layer, to within the charge of one particle. -/
theorem layer_current (name : String) (f : ℝ → ℝ → ℝ → ℝ) (h : xiProfile name = some f) (xi0 len p x amp : ℝ) (hp : 0 < p) :
    |2 * amp * f xi0 len x - (2 * amp / p) * (layerCount (f xi0 len) xi0 p x : ℝ)| ≤ |2 * amp / p| := by
  rw [layerCount_profile name f h xi0 len p x hp.le]
  have e : 2 * amp * f xi0 len x - (2 * amp / p) * (⌊p * f xi0 len x⌋ : ℝ) = (2 * amp / p) * Int.fract (p * f xi0 len x) := by
    unfold Int.fract
    have := hp.ne'
    field_simp
  rw [e, abs_mul, abs_of_nonneg (Int.fract_nonneg (p * f xi0 len x))]
  exact mul_le_of_le_one_right (abs_nonneg _) (Int.fract_lt_one _).le

/-- C57, finding: a segment that begins and ends in the same layer of the grid raises an exception. -/
theorem short_segment (g : Rand S) (f : ℝ → ℝ) (xiMax vmin vmax p dxi : ℝ) (hd : 0 < dxi) (h : ⌊vmax / dxi⌋ ≤ ⌊vmin / dxi⌋) (s : S) : stepwiseXi g f xiMax vmin vmax p dxi s = .error .valueError := by
  unfold stepwiseXi
  rw [intervals_eq vmin vmax dxi hd]
  have : layersOf ⌊vmax / dxi⌋ ⌊vmin / dxi⌋ = [] := by unfold layersOf; rw [show (⌊vmax / dxi⌋ - ⌊vmin / dxi⌋).toNat = 0 by omega]; rfl
  rw [this]
  rfl

/-- C57, finding: a segment with amplitude zero gets amplitude one. -/
theorem amp_zero (name : String) (f : ℝ → ℝ → ℝ → ℝ) (h : xiProfile name = some f) (xi0 len : ℝ) : ampOf (f xi0 len) xi0 0 = 1 := by
  unfold ampOf
  rw [if_neg (by simp), (profile_range name f h xi0 len xi0).2.2]

/-! ### Quantiles -/

theorem quantiles_length (ppf : ℝ → ℝ) (p1 p2 : ℝ) (n : ℕ) : (quantiles ppf p1 p2 n).length = n := by simp [quantiles]

theorem rPpf_nonneg (radius p : ℝ) (h : 0 ≤ radius) : 0 ≤ rPpf radius p := mul_nonneg (mul_nonneg (Real.sqrt_nonneg _) h) (Real.sqrt_nonneg _)

/-- C57: the radii are the quantiles of a Gaussian beam: the fraction of the beam that is nearer to the axis than the i-th radius is `1 - exp (-r² / 2 radius²)`, that is `i / (n + 1)`. -/
theorem radius_quantile (radius p : ℝ) (hr : 0 < radius) (h0 : 0 ≤ p) (h1 : p < 1) : 1 - Real.exp (-(rPpf radius p) ^ 2 / (2 * radius ^ 2)) = p := by
  have hl : 0 ≤ -Real.log (1 - p) := by
    have := Real.log_nonpos (by linarith : (0 : ℝ) ≤ 1 - p) (by linarith)
    linarith
  have : -(rPpf radius p) ^ 2 / (2 * radius ^ 2) = Real.log (1 - p) := by
    unfold rPpf
    rw [mul_pow, mul_pow, Real.sq_sqrt (by norm_num), Real.sq_sqrt hl]
    have := hr.ne'
    field_simp
  rw [this, Real.exp_log (by linarith)]
  ring

end Lcode.Legacy
