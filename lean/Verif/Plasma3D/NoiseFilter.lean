import Verif.Plasma3D.Move
import Verif.Config.Props
import Mathlib.RingTheory.RootsOfUnity.Complex
import Mathlib.Algebra.BigOperators.Field
import Mathlib.Algebra.Order.Interval.Finset.SuccPred

/-!
Model of lcode/plasma3d/noise_filter.py (CPU branch, declustering of the 3D plasma). Property C29.
Particle arrays are n x n (n rows of the coordinate x_init, n columns of y_init); indices run from 0 to n - 1, n >= 3.
-/

namespace Lcode.Plasma3D

open Finset

/-! ### Model -/

/-- One row of calculate_inhomogeneity_numba with `axis = 0`, noise_filter.py:57-73 (the code needs n >= 3). -/
noncomputable def inhomRow (n : ℤ) (d : ℤ → ℝ) (j : ℤ) : ℝ :=
  if j = 0 then (if d 0 ≠ 0 ∧ d 1 ≠ 0 ∧ d 2 ≠ 0 then d 0 - 2 * d 1 + d 2 else 0)
  else if j = n - 1 then (if d (n - 1) ≠ 0 ∧ d (n - 2) ≠ 0 ∧ d (n - 3) ≠ 0 then d (n - 1) - 2 * d (n - 2) + d (n - 3) else 0)
  else if d j ≠ 0 ∧ d (j - 1) ≠ 0 ∧ d (j + 1) ≠ 0 then d j - (d (j - 1) + d (j + 1)) / 2 else 0

/-- `(calculate_inhomogeneity(d, 0) + calculate_inhomogeneity(d, 1)) / 2`, noise_filter.py:54-77 and 123-124 (the order of the sum is swapped for y). -/
noncomputable def inhom (n : ℤ) (d : ℤ → ℤ → ℝ) (i j : ℤ) : ℝ := (inhomRow n (fun j => d i j) j + inhomRow n (fun i => d i j) i) / 2

/-- Gaussian factor of scipy.ndimage.fourier_gaussian for the frequency number `k`: `exp(-2 pi^2 sigma^2 f^2)` with `f = fftfreq(n)[k]`. -/
noncomputable def gaussFactor (n : ℕ) (σ : ℝ) (k : ℕ) : ℝ :=
  let f : ℝ := if k < (n + 1) / 2 then (k : ℝ) / n else ((k : ℝ) - n) / n
  Real.exp (-2 * Real.pi ^ 2 * σ ^ 2 * f ^ 2)

/-- `exp(2 pi i / n)`. -/
noncomputable def root (n : ℕ) : ℂ := Complex.exp (2 * Real.pi * Complex.I / n)

/-- `xp.fft.fft2`, by its definition. -/
noncomputable def fft2 (n : ℕ) (u : ℤ → ℤ → ℝ) (k l : ℕ) : ℂ := ∑ i ∈ range n, ∑ j ∈ range n, (u i j : ℂ) * ((root n)⁻¹ ^ (k * i) * (root n)⁻¹ ^ (l * j))

/-- `xp.fft.ifft2`, by its definition. -/
noncomputable def ifft2 (n : ℕ) (v : ℕ → ℕ → ℂ) (a b : ℕ) : ℂ := (∑ k ∈ range n, ∑ l ∈ range n, v k l * (root n ^ (k * a) * root n ^ (l * b))) / (n : ℂ) ^ 2

/-- `ifft2(fourier_gaussian(fft2(u), sigma)).real`, noise_filter.py:140-141. -/
noncomputable def smooth (n : ℕ) (σ : ℝ) (u : ℤ → ℤ → ℝ) (a b : ℤ) : ℝ :=
  (ifft2 n (fun k l => fft2 n u k l * ((gaussFactor n σ k * gaussFactor n σ l : ℝ) : ℂ)) a.toNat b.toNat).re

/-- The constants of get_noise_filter, noise_filter.py:85-90, and the number of particles in a row. -/
structure NCfg where
  n : ℕ
  dxi : ℝ
  σ : ℝ
  coef : ℝ
  damp : ℝ
  lim : ℝ

/-- dx_chaotic, dy_chaotic, noise_filter.py:164-165. -/
noncomputable def chaotic (c : NCfg) (d : ℤ → ℤ → ℝ) (i j : ℤ) : ℝ := inhom c.n d i j - smooth c.n c.σ (inhom c.n d) i j

/-- d_limit, noise_filter.py:174-176. -/
noncomputable def dLimit (c : NCfg) (chx chy : ℤ → ℤ → ℝ) (i j : ℤ) : ℝ :=
  let d := chx i j * chx i j + chy i j * chy i j
  if d < c.lim ^ 2 then 1 - d / c.lim ^ 2 else 0

/-- force_x, force_y, noise_filter.py:179-180. -/
noncomputable def force (c : NCfg) (ch lim : ℤ → ℤ → ℝ) (i j : ℤ) : ℝ := -c.coef * ch i j * lim i j

/-- `p[1:-1] += s f[1:-1] / 2; p[2:] -= s f[1:-1] / 4; p[:-2] -= s f[1:-1] / 4` along one axis, noise_filter.py:214-216 (and 217-219 for the other axis). -/
noncomputable def kickAxis (n : ℤ) (s : ℝ) (f p : ℤ → ℝ) : ℤ → ℝ :=
  let p1 : ℤ → ℝ := fun i => if 1 ≤ i ∧ i < n - 1 then p i + s * f i / 2 else p i
  let p2 : ℤ → ℝ := fun i => if 2 ≤ i then p1 i - s * f (i - 1) / 4 else p1 i
  fun i => if i < n - 2 then p2 i - s * f (i + 1) / 4 else p2 i

/-- The new px (or py): rows, columns, then damping, noise_filter.py:214-220 (222-228). -/
noncomputable def kicked (c : NCfg) (f lim ch chPrev p : ℤ → ℤ → ℝ) : ℤ → ℤ → ℝ :=
  let p1 : ℤ → ℤ → ℝ := fun i j => kickAxis c.n c.dxi (fun i => f i j) (fun i => p i j) i
  let p2 : ℤ → ℤ → ℝ := fun i j => kickAxis c.n c.dxi (fun j => f i j) (fun j => p1 i j) j
  fun i j => p2 i j - c.dxi * c.damp * lim i j * (ch i j - chPrev i j)

/-- The arrays of one sort that the filter reads or changes; the others (x_offt, y_offt, pz, q, m, x_init, y_init) are handed on. -/
structure NState where
  px : ℤ → ℤ → ℝ
  py : ℤ → ℤ → ℝ
  chx : ℤ → ℤ → ℝ
  chy : ℤ → ℤ → ℝ

/-- noise_filter, noise_filter.py:102-238: `x`, `y` are the offsets of `particles`, `s.chx`, `s.chy` the chaotic displacements of `particles_prev`. -/
noncomputable def noiseFilter (c : NCfg) (x y : ℤ → ℤ → ℝ) (s : NState) : NState :=
  let chx := chaotic c x
  let chy := chaotic c y
  let lim := dLimit c chx chy
  { px := kicked c (force c chx lim) lim chx s.chx s.px
    py := kicked c (force c chy lim) lim chy s.chy s.py
    chx := chx
    chy := chy }

/-! ### Specification -/

/-- Sum over the particles of a quantity times a weight. -/
noncomputable def total (n : ℕ) (w u : ℤ → ℤ → ℝ) : ℝ := ∑ i ∈ range n, ∑ j ∈ range n, w i j * u i j

/-- Affine in the two particle numbers. -/
def Affine (u : ℤ → ℤ → ℝ) : Prop := ∃ a b c : ℝ, ∀ i j : ℤ, u i j = a + b * i + c * j

/-! ### C29 -/

theorem sum_range_int (n : ℕ) (f : ℤ → ℝ) : ∑ i ∈ range n, f (i : ℤ) = ∑ i ∈ Finset.Ico 0 (n : ℤ), f i := by
  symm
  apply Finset.sum_nbij' (fun i : ℤ => i.toNat) (fun i : ℕ => (i : ℤ))
  · intro i hi; simp only [Finset.mem_Ico] at hi; simp only [Finset.mem_range]; omega
  · intro i hi; simp only [Finset.mem_range] at hi; simp only [Finset.mem_Ico]; omega
  · intro i hi; simp only [Finset.mem_Ico] at hi; omega
  · intro i hi; omega
  · intro i hi; simp only [Finset.mem_Ico] at hi; rw [Int.toNat_of_nonneg hi.1]

/-- The kick along one axis does not change any sum with weights affine in the index. -/
theorem kickAxis_total (n : ℕ) (s : ℝ) (f p : ℤ → ℝ) (a b : ℝ) :
    ∑ i ∈ range n, (a + b * (i : ℤ)) * kickAxis n s f p i = ∑ i ∈ range n, (a + b * (i : ℤ)) * p i := by
  rw [sum_range_int n (fun i => (a + b * i) * kickAxis n s f p i), sum_range_int n (fun i => (a + b * i) * p i)]
  have e : ∀ i ∈ Finset.Ico 0 (n : ℤ), (a + b * (i : ℝ)) * kickAxis n s f p i = (a + b * i) * p i +
      ((if 1 ≤ i ∧ i < (n : ℤ) - 1 then (a + b * i) * (s * f i / 2) else 0) - (if 2 ≤ i then (a + b * i) * (s * f (i - 1) / 4) else 0)
        - (if i < (n : ℤ) - 2 then (a + b * i) * (s * f (i + 1) / 4) else 0)) := by
    intro i _
    unfold kickAxis
    simp only
    split <;> split <;> split <;> ring
  rw [Finset.sum_congr rfl e, Finset.sum_add_distrib, Finset.sum_sub_distrib, Finset.sum_sub_distrib]
  rw [← Finset.sum_filter, ← Finset.sum_filter, ← Finset.sum_filter]
  have f1 : (Finset.Ico 0 (n : ℤ)).filter (fun i => 1 ≤ i ∧ i < (n : ℤ) - 1) = Finset.Ico 1 ((n : ℤ) - 1) := by
    ext k; simp only [Finset.mem_filter, Finset.mem_Ico]; omega
  have f2 : (Finset.Ico 0 (n : ℤ)).filter (fun i => 2 ≤ i) = Finset.Ico (1 + 1) ((n : ℤ) - 1 + 1) := by
    ext k; simp only [Finset.mem_filter, Finset.mem_Ico]; omega
  have f3 : (Finset.Ico 0 (n : ℤ)).filter (fun i => i < (n : ℤ) - 2) = Finset.Ico (1 + -1) ((n : ℤ) - 1 + -1) := by
    ext k; simp only [Finset.mem_filter, Finset.mem_Ico]; omega
  rw [f1, f2, f3, ← Finset.sum_Ico_add', ← Finset.sum_Ico_add', ← Finset.sum_sub_distrib, ← Finset.sum_sub_distrib]
  have : ∑ i ∈ Finset.Ico 1 ((n : ℤ) - 1), ((a + b * (i : ℝ)) * (s * f i / 2) - (a + b * ((i + 1 : ℤ) : ℝ)) * (s * f (i + 1 - 1) / 4) - (a + b * ((i + -1 : ℤ) : ℝ)) * (s * f (i + -1 + 1) / 4)) = 0 := by
    apply Finset.sum_eq_zero
    intro i _
    rw [show i + 1 - 1 = i by ring, show i + -1 + 1 = i by ring]
    push_cast; ring
  rw [this, add_zero]

/-- C29: the filter leaves the total momentum, and any total with weights affine in the two particle numbers, unchanged, except for the damping term. -/
theorem filter_conserves (c : NCfg) (x y : ℤ → ℤ → ℝ) (s : NState) (w : ℤ → ℤ → ℝ) (hw : Affine w) :
    total c.n w (noiseFilter c x y s).px = total c.n w s.px -
      c.dxi * c.damp * total c.n w (fun i j => dLimit c (noiseFilter c x y s).chx (noiseFilter c x y s).chy i j * ((noiseFilter c x y s).chx i j - s.chx i j)) ∧
    total c.n w (noiseFilter c x y s).py = total c.n w s.py -
      c.dxi * c.damp * total c.n w (fun i j => dLimit c (noiseFilter c x y s).chx (noiseFilter c x y s).chy i j * ((noiseFilter c x y s).chy i j - s.chy i j)) := by
  obtain ⟨a, b, d, hw⟩ := hw
  have key : ∀ f lim ch chPrev p : ℤ → ℤ → ℝ, total c.n w (kicked c f lim ch chPrev p) = total c.n w p - c.dxi * c.damp * total c.n w (fun i j => lim i j * (ch i j - chPrev i j)) := by
    intro f lim ch chPrev p
    unfold total kicked
    simp only [hw]
    have e1 : ∀ i j : ℕ, (a + b * ((i : ℤ) : ℝ) + d * ((j : ℤ) : ℝ)) * (kickAxis c.n c.dxi (fun j => f i j) (fun j => kickAxis c.n c.dxi (fun i => f i j) (fun i => p i j) i) j - c.dxi * c.damp * lim i j * (ch i j - chPrev i j))
        = ((a + b * (i : ℤ)) + d * (j : ℤ)) * kickAxis c.n c.dxi (fun j => f i j) (fun j => kickAxis c.n c.dxi (fun i => f i j) (fun i => p i j) i) j
          - c.dxi * c.damp * ((a + b * ((i : ℤ) : ℝ) + d * ((j : ℤ) : ℝ)) * (lim i j * (ch i j - chPrev i j))) := by intro i j; ring
    simp only [e1, Finset.sum_sub_distrib, ← Finset.mul_sum]
    congr 1
    calc ∑ i ∈ range c.n, ∑ j ∈ range c.n, ((a + b * ((i : ℤ) : ℝ)) + d * ((j : ℤ) : ℝ)) * kickAxis c.n c.dxi (fun j => f i j) (fun j => kickAxis c.n c.dxi (fun i => f i j) (fun i => p i j) i) j
        = ∑ i ∈ range c.n, ∑ j ∈ range c.n, ((a + b * ((i : ℤ) : ℝ)) + d * ((j : ℤ) : ℝ)) * kickAxis c.n c.dxi (fun i => f i j) (fun i => p i j) i :=
          Finset.sum_congr rfl fun i _ => kickAxis_total c.n c.dxi (fun j => f i j) (fun j => kickAxis c.n c.dxi (fun i => f i j) (fun i => p i j) i) (a + b * (i : ℤ)) d
      _ = ∑ j ∈ range c.n, ∑ i ∈ range c.n, ((a + d * ((j : ℤ) : ℝ)) + b * ((i : ℤ) : ℝ)) * kickAxis c.n c.dxi (fun i => f i j) (fun i => p i j) i := by
          rw [Finset.sum_comm]
          exact Finset.sum_congr rfl fun j _ => Finset.sum_congr rfl fun i _ => by ring
      _ = ∑ j ∈ range c.n, ∑ i ∈ range c.n, ((a + d * ((j : ℤ) : ℝ)) + b * ((i : ℤ) : ℝ)) * p i j :=
          Finset.sum_congr rfl fun j _ => kickAxis_total c.n c.dxi (fun i => f i j) (fun i => p i j) (a + d * (j : ℤ)) b
      _ = _ := by
          rw [Finset.sum_comm]
          exact Finset.sum_congr rfl fun j _ => Finset.sum_congr rfl fun i _ => by ring
  unfold noiseFilter
  exact ⟨key _ _ _ _ _, key _ _ _ _ _⟩

/-- C29: with zero damping the total momentum is conserved exactly. -/
theorem momentum_conserved (c : NCfg) (hd : c.damp = 0) (x y : ℤ → ℤ → ℝ) (s : NState) :
    ∑ i ∈ range c.n, ∑ j ∈ range c.n, (noiseFilter c x y s).px i j = ∑ i ∈ range c.n, ∑ j ∈ range c.n, s.px i j ∧
    ∑ i ∈ range c.n, ∑ j ∈ range c.n, (noiseFilter c x y s).py i j = ∑ i ∈ range c.n, ∑ j ∈ range c.n, s.py i j := by
  have := filter_conserves c x y s (fun _ _ => 1) ⟨1, 0, 0, by intro i j; ring⟩
  simpa [total, hd] using this

/-- C29 (finding): the damping coefficient is read from an option that neither the defaults nor the documentation has ('damping-declustering'), so it is zero whatever the user writes into 'declustering-damping'. -/
theorem damping_option_ignored (env : Cfg.Env) (defaults new : List (String × Cfg.PyVal)) (h1 : ∀ kv ∈ defaults, kv.1 ≠ "damping-declustering") (h2 : ∀ kv ∈ new, kv.1 ≠ "damping-declustering") :
    Cfg.Config.getfloat env (Cfg.Config.init env defaults true (some new)) "damping-declustering" = 0 := by
  have hn : Cfg.Table.lookup (Cfg.Config.init env defaults true (some new)).values "damping-declustering" = none := by
    have key : ∀ (l : List (String × Cfg.PyVal)) (c : Cfg.Config), (∀ kv ∈ l, kv.1 ≠ "damping-declustering") → Cfg.Table.lookup (Cfg.Config.update env c l).values "damping-declustering" = Cfg.Table.lookup c.values "damping-declustering" := by
      intro l
      induction l with
      | nil => intro c _; rfl
      | cons kv l ih =>
        intro c hl
        have := ih (Cfg.Config.set env c kv.1 kv.2) fun x hx => hl x (List.mem_cons_of_mem _ hx)
        unfold Cfg.Config.update at this ⊢
        rw [List.foldl_cons, this, Cfg.lookup_set, if_neg]
        exact fun e => hl kv List.mem_cons_self e
    unfold Cfg.Config.init
    simp only [if_true]
    rw [key new _ h2, key defaults _ h1]
    rfl
  unfold Cfg.Config.getfloat
  rw [hn]

theorem inhomRow_affine (n : ℤ) (a b : ℝ) (d : ℤ → ℝ) (hd : ∀ j, d j = a + b * j) (j : ℤ) : inhomRow n d j = 0 := by
  unfold inhomRow
  have e0 : d 0 - 2 * d 1 + d 2 = 0 := by rw [hd, hd, hd]; push_cast; ring
  have e1 : d (n - 1) - 2 * d (n - 2) + d (n - 3) = 0 := by rw [hd, hd, hd]; push_cast; ring
  have e2 : d j - (d (j - 1) + d (j + 1)) / 2 = 0 := by rw [hd, hd, hd]; push_cast; ring
  rw [e0, e1, e2]; simp

theorem inhom_affine (n : ℤ) (d : ℤ → ℤ → ℝ) (hd : Affine d) : inhom n d = fun _ _ => 0 := by
  obtain ⟨a, b, c, hd⟩ := hd
  funext i j
  unfold inhom
  rw [inhomRow_affine n (a + b * i) c (fun j => d i j) (fun j => hd i j) j, inhomRow_affine n (a + c * j) b (fun i => d i j) (fun i => by rw [hd]; ring) i]
  norm_num

theorem smooth_zero (n : ℕ) (σ : ℝ) : smooth n σ (fun _ _ => 0) = fun _ _ => 0 := by
  funext a b
  simp [smooth, ifft2, fft2]

theorem kickAxis_zero (n : ℤ) (s : ℝ) (p : ℤ → ℝ) : kickAxis n s (fun _ => 0) p = p := by
  funext i; unfold kickAxis; simp

/-- C29: a displacement that is affine in the particle numbers (in particular none) is not touched: the momenta stay, apart from the damping of the earlier chaotic displacement, and the chaotic displacement is zero. -/
theorem affine_untouched (c : NCfg) (hl : c.lim ≠ 0) (x y : ℤ → ℤ → ℝ) (hx : Affine x) (hy : Affine y) (s : NState) :
    noiseFilter c x y s = ⟨fun i j => s.px i j + c.dxi * c.damp * s.chx i j, fun i j => s.py i j + c.dxi * c.damp * s.chy i j, fun _ _ => 0, fun _ _ => 0⟩ := by
  have hch : ∀ d, Affine d → chaotic c d = fun _ _ => 0 := by
    intro d hd; funext i j; unfold chaotic; rw [inhom_affine c.n d hd, smooth_zero]; simp
  have hlim : dLimit c (fun _ _ => 0) (fun _ _ => 0) = fun _ _ => 1 := by
    funext i j; unfold dLimit; simp only [mul_zero, add_zero, zero_div, sub_zero]; rw [if_pos (by positivity)]
  unfold noiseFilter
  simp only [hch x hx, hch y hy, hlim]
  have hf : force c (fun _ _ => 0) (fun _ _ => 1) = fun _ _ => 0 := by funext i j; unfold force; ring
  simp only [hf, kicked, kickAxis_zero, NState.mk.injEq]
  refine ⟨?_, ?_, trivial, trivial⟩ <;> funext i j <;> ring

/-- The restoring force never exceeds `2/(3 sqrt 3)` of the coefficient times the limit. -/
theorem force_bound (c : NCfg) (hl : 0 < c.lim) (chx chy : ℤ → ℤ → ℝ) (i j : ℤ) :
    (force c chx (dLimit c chx chy) i j) ^ 2 + (force c chy (dLimit c chx chy) i j) ^ 2 ≤ 4 / 27 * (c.coef * c.lim) ^ 2 := by
  unfold force dLimit
  simp only
  set d := chx i j * chx i j + chy i j * chy i j with hd
  have hd0 : 0 ≤ d := by rw [hd]; exact add_nonneg (mul_self_nonneg _) (mul_self_nonneg _)
  split
  · rename_i h
    have e : (-c.coef * chx i j * (1 - d / c.lim ^ 2)) ^ 2 + (-c.coef * chy i j * (1 - d / c.lim ^ 2)) ^ 2 = (c.coef * c.lim) ^ 2 * ((d / c.lim ^ 2) * (1 - d / c.lim ^ 2) ^ 2) := by
      rw [show (-c.coef * chx i j * (1 - d / c.lim ^ 2)) ^ 2 + (-c.coef * chy i j * (1 - d / c.lim ^ 2)) ^ 2 = c.coef ^ 2 * d * (1 - d / c.lim ^ 2) ^ 2 by rw [hd]; ring]
      field_simp
    rw [e]
    have ht0 : 0 ≤ d / c.lim ^ 2 := by positivity
    have ht1 : d / c.lim ^ 2 < 1 := by rw [div_lt_one (by positivity)]; exact h
    generalize d / c.lim ^ 2 = t at ht0 ht1 ⊢
    have : t * (1 - t) ^ 2 ≤ 4 / 27 := by nlinarith [mul_nonneg (sq_nonneg (1 / 3 - t)) (by linarith : (0 : ℝ) ≤ 4 / 3 - t)]
    nlinarith [sq_nonneg (c.coef * c.lim)]
  · simp only [mul_zero]; nlinarith [sq_nonneg (c.coef * c.lim)]

theorem force_abs (c : NCfg) (hl : 0 < c.lim) (hc : 0 ≤ c.coef) (chx chy : ℤ → ℤ → ℝ) (i j : ℤ) :
    |force c chx (dLimit c chx chy) i j| ≤ c.coef * c.lim / 2 ∧ |force c chy (dLimit c chx chy) i j| ≤ c.coef * c.lim / 2 := by
  have := force_bound c hl chx chy i j
  have p : 0 ≤ c.coef * c.lim := by positivity
  constructor <;> apply abs_le_of_sq_le_sq _ (by linarith) <;> nlinarith [sq_nonneg (force c chx (dLimit c chx chy) i j), sq_nonneg (force c chy (dLimit c chx chy) i j)]

theorem kickAxis_bound (n : ℤ) (s M : ℝ) (hs : 0 ≤ s) (hM : 0 ≤ M) (f p : ℤ → ℝ) (hf : ∀ i, |f i| ≤ M) (i : ℤ) : |kickAxis n s f p i - p i| ≤ s * M := by
  have h0 := abs_le.mp (hf i)
  have h1 := abs_le.mp (hf (i - 1))
  have h2 := abs_le.mp (hf (i + 1))
  have sM : 0 ≤ s * M := by positivity
  have a0 : -(s * M) ≤ s * f i := by nlinarith
  have b0 : s * f i ≤ s * M := by nlinarith
  have a1 : -(s * M) ≤ s * f (i - 1) := by nlinarith
  have b1 : s * f (i - 1) ≤ s * M := by nlinarith
  have a2 : -(s * M) ≤ s * f (i + 1) := by nlinarith
  have b2 : s * f (i + 1) ≤ s * M := by nlinarith
  unfold kickAxis
  simp only
  rw [abs_le]
  split <;> split <;> split <;> constructor <;> linarith

/-- C29: without damping one filter step changes no momentum component by more than `dxi * force * limit`, whatever the displacements. -/
theorem kick_bounded (c : NCfg) (hl : 0 < c.lim) (hc : 0 ≤ c.coef) (hs : 0 ≤ c.dxi) (hd : c.damp = 0) (x y : ℤ → ℤ → ℝ) (s : NState) (i j : ℤ) :
    |(noiseFilter c x y s).px i j - s.px i j| ≤ c.dxi * (c.coef * c.lim) ∧ |(noiseFilter c x y s).py i j - s.py i j| ≤ c.dxi * (c.coef * c.lim) := by
  have key : ∀ f lim ch chPrev p : ℤ → ℤ → ℝ, (∀ i j, |f i j| ≤ c.coef * c.lim / 2) → |kicked c f lim ch chPrev p i j - p i j| ≤ c.dxi * (c.coef * c.lim) := by
    intro f lim ch chPrev p hf
    have k1 := kickAxis_bound c.n c.dxi (c.coef * c.lim / 2) hs (by positivity) (fun j => f i j) (fun j => kickAxis c.n c.dxi (fun i => f i j) (fun i => p i j) i) (fun j => hf i j) j
    have k2 := kickAxis_bound c.n c.dxi (c.coef * c.lim / 2) hs (by positivity) (fun i => f i j) (fun i => p i j) (fun i => hf i j) i
    unfold kicked
    simp only [hd, mul_zero, zero_mul, sub_zero]
    rw [abs_le] at k1 k2 ⊢
    constructor <;> linarith
  unfold noiseFilter
  exact ⟨key _ _ _ _ _ fun i j => (force_abs c hl hc _ _ i j).1, key _ _ _ _ _ fun i j => (force_abs c hl hc _ _ i j).2⟩

/-- Restoring force on a particle with chaotic displacement `(a, b)`, along `a`: opposite to the displacement, weakened quadratically up to the limit and zero beyond it. -/
noncomputable def restoring (k lim a b : ℝ) : ℝ := if a ^ 2 + b ^ 2 < lim ^ 2 then -k * a * (1 - (a ^ 2 + b ^ 2) / lim ^ 2) else 0

/-- One axis of the filter: an inner particle gets half of its force, each neighbour of an inner particle recoils with a quarter of it. -/
noncomputable def withRecoil (n : ℤ) (g : ℤ → ℝ) (i : ℤ) : ℝ :=
  let inner := fun k : ℤ => if 1 ≤ k ∧ k < n - 1 then g k else 0
  inner i / 2 - inner (i - 1) / 4 - inner (i + 1) / 4

/-- C29: exactly what the filter does to the momenta: along both array axes a restoring force with recoil of the neighbours, and friction proportional to the change of the chaotic displacement. -/
theorem filter_formula (c : NCfg) (x y : ℤ → ℤ → ℝ) (s r : NState) (hr : r = noiseFilter c x y s) (i j : ℤ) (hi : 0 ≤ i ∧ i < c.n) (hj : 0 ≤ j ∧ j < c.n) :
    (r.px i j = s.px i j + c.dxi * (withRecoil c.n (fun a => restoring c.coef c.lim (r.chx a j) (r.chy a j)) i + withRecoil c.n (fun b => restoring c.coef c.lim (r.chx i b) (r.chy i b)) j)
      - c.dxi * c.damp * (if r.chx i j ^ 2 + r.chy i j ^ 2 < c.lim ^ 2 then 1 - (r.chx i j ^ 2 + r.chy i j ^ 2) / c.lim ^ 2 else 0) * (r.chx i j - s.chx i j)) ∧
    (r.py i j = s.py i j + c.dxi * (withRecoil c.n (fun a => restoring c.coef c.lim (r.chy a j) (r.chx a j)) i + withRecoil c.n (fun b => restoring c.coef c.lim (r.chy i b) (r.chx i b)) j)
      - c.dxi * c.damp * (if r.chx i j ^ 2 + r.chy i j ^ 2 < c.lim ^ 2 then 1 - (r.chx i j ^ 2 + r.chy i j ^ 2) / c.lim ^ 2 else 0) * (r.chy i j - s.chy i j)) := by
  have lim : ∀ a b, dLimit c (chaotic c x) (chaotic c y) a b = if chaotic c x a b ^ 2 + chaotic c y a b ^ 2 < c.lim ^ 2 then 1 - (chaotic c x a b ^ 2 + chaotic c y a b ^ 2) / c.lim ^ 2 else 0 := by
    intro a b
    unfold dLimit
    simp only [sq]
  have fx : ∀ a b, force c (chaotic c x) (dLimit c (chaotic c x) (chaotic c y)) a b = restoring c.coef c.lim (chaotic c x a b) (chaotic c y a b) := by
    intro a b; unfold force restoring; rw [lim]; split <;> ring
  have fy : ∀ a b, force c (chaotic c y) (dLimit c (chaotic c x) (chaotic c y)) a b = restoring c.coef c.lim (chaotic c y a b) (chaotic c x a b) := by
    intro a b; unfold force restoring; rw [lim, add_comm (chaotic c x a b ^ 2)]; split <;> ring
  have ax : ∀ (n : ℤ) (f p : ℤ → ℝ) (k : ℤ), 0 ≤ k ∧ k < n → kickAxis n c.dxi f p k = p k + c.dxi * withRecoil n f k := by
    intro n f p k hk
    unfold kickAxis withRecoil
    simp only
    by_cases h1 : 1 ≤ k ∧ k < n - 1
    · by_cases h2 : 2 ≤ k <;> by_cases h3 : k < n - 2 <;> simp (disch := omega) only [if_pos, if_neg] <;> ring
    · by_cases h2 : 2 ≤ k <;> by_cases h3 : k < n - 2 <;> simp (disch := omega) only [if_pos, if_neg] <;> ring
  have key : ∀ (f lm ch chP p : ℤ → ℤ → ℝ), kicked c f lm ch chP p i j = p i j + c.dxi * (withRecoil c.n (fun a => f a j) i + withRecoil c.n (fun b => f i b) j) - c.dxi * c.damp * lm i j * (ch i j - chP i j) := by
    intro f lm ch chP p
    unfold kicked
    simp only
    rw [ax c.n _ _ j hj, ax c.n _ _ i hi]; ring
  subst hr
  unfold noiseFilter
  simp only
  rw [key, key]
  simp only [fx, fy, lim]
  exact ⟨trivial, trivial⟩

example : restoring 2 1 (1 / 2) 0 = -3 / 4 := by norm_num [restoring]

/-- C29: a particle whose chaotic displacement and those of its neighbours in the array exceed the limit is not kicked. -/
theorem trapped_free (c : NCfg) (hd : c.damp = 0) (x y : ℤ → ℤ → ℝ) (s : NState) (i j : ℤ) (hi : 0 ≤ i ∧ i < c.n) (hj : 0 ≤ j ∧ j < c.n)
    (h : ∀ a b : ℤ, (0 ≤ a ∧ a < c.n) → (0 ≤ b ∧ b < c.n) → |a - i| + |b - j| ≤ 1 → c.lim ^ 2 ≤ (noiseFilter c x y s).chx a b ^ 2 + (noiseFilter c x y s).chy a b ^ 2) :
    (noiseFilter c x y s).px i j = s.px i j ∧ (noiseFilter c x y s).py i j = s.py i j := by
  have l0 : ∀ a b : ℤ, (0 ≤ a ∧ a < c.n) → (0 ≤ b ∧ b < c.n) → |a - i| + |b - j| ≤ 1 → dLimit c (chaotic c x) (chaotic c y) a b = 0 := by
    intro a b ha hb hab
    have := h a b ha hb hab
    unfold noiseFilter at this
    simp only at this
    unfold dLimit
    simp only
    rw [if_neg]
    nlinarith
  have axis : ∀ (k : ℤ) (f p : ℤ → ℝ), 0 ≤ k ∧ k < c.n → (∀ a : ℤ, (0 ≤ a ∧ a < c.n) → |a - k| ≤ 1 → f a = 0) → kickAxis c.n c.dxi f p k = p k := by
    intro k f p hk hf
    unfold kickAxis
    simp only
    have h0 := hf k hk (by simp)
    split
    · rw [hf (k + 1) (by omega) (by simp)]
      split
      · rw [hf (k - 1) (by omega) (by simp)]; split <;> simp [h0]
      · split <;> simp [h0]
    · split
      · rw [hf (k - 1) (by omega) (by simp)]; split <;> simp [h0]
      · split
        · rw [h0]; ring
        · rfl
  have key : ∀ ch lim chPrev p : ℤ → ℤ → ℝ, (∀ a b : ℤ, (0 ≤ a ∧ a < c.n) → (0 ≤ b ∧ b < c.n) → |a - i| + |b - j| ≤ 1 → lim a b = 0) → kicked c (force c ch lim) lim ch chPrev p i j = p i j := by
    intro ch lim chPrev p hl
    have f0 : ∀ a b : ℤ, (0 ≤ a ∧ a < c.n) → (0 ≤ b ∧ b < c.n) → |a - i| + |b - j| ≤ 1 → force c ch lim a b = 0 := by intro a b ha hb hab; unfold force; rw [hl a b ha hb hab, mul_zero]
    unfold kicked
    simp only [hd, mul_zero, zero_mul, sub_zero]
    rw [axis j (fun j => force c ch lim i j) _ hj (fun a ha hb => f0 i a hi ha (by simpa using hb))]
    exact axis i (fun i => force c ch lim i j) _ hi (fun a ha hb => f0 a j ha hj (by simpa using hb))
  unfold noiseFilter
  exact ⟨key _ _ _ _ l0, key _ _ _ _ l0⟩

theorem root_pow_sum (n : ℕ) (hn : 0 < n) (k : ℕ) (hk : k < n) : ∑ a ∈ range n, root n ^ (k * a) = if k = 0 then (n : ℂ) else 0 := by
  by_cases h0 : k = 0
  · simp [h0]
  · rw [if_neg h0]
    have hp : IsPrimitiveRoot (root n) n := Complex.isPrimitiveRoot_exp n hn.ne'
    have h1 : root n ^ k ≠ 1 := hp.pow_ne_one_of_pos_of_lt h0 hk
    have h2 : (root n ^ k) ^ n = 1 := by rw [← pow_mul, mul_comm, pow_mul, hp.pow_eq_one, one_pow]
    have := geom_sum_eq h1 n
    rw [h2, sub_self, zero_div] at this
    rw [← this]
    exact Finset.sum_congr rfl fun a _ => pow_mul _ _ _

/-- C29: the average that is subtracted has the same sum as the inhomogeneity itself, so the chaotic displacement has zero mean. -/
theorem smooth_total (n : ℕ) (hn : 0 < n) (σ : ℝ) (u : ℤ → ℤ → ℝ) : ∑ a ∈ range n, ∑ b ∈ range n, smooth n σ u a b = ∑ a ∈ range n, ∑ b ∈ range n, u a b := by
  have hnc : (n : ℂ) ≠ 0 := by exact_mod_cast hn.ne'
  have e : ∀ v : ℕ → ℕ → ℂ, ∑ a ∈ range n, ∑ b ∈ range n, ifft2 n v a b = v 0 0 := by
    intro v
    unfold ifft2
    simp only [← Finset.sum_div]
    have : ∑ a ∈ range n, ∑ b ∈ range n, ∑ k ∈ range n, ∑ l ∈ range n, v k l * (root n ^ (k * a) * root n ^ (l * b)) = v 0 0 * (n : ℂ) ^ 2 := by
      calc ∑ a ∈ range n, ∑ b ∈ range n, ∑ k ∈ range n, ∑ l ∈ range n, v k l * (root n ^ (k * a) * root n ^ (l * b))
          = ∑ k ∈ range n, ∑ l ∈ range n, v k l * ((∑ a ∈ range n, root n ^ (k * a)) * ∑ b ∈ range n, root n ^ (l * b)) := by
            have ex : ∀ k l, v k l * ((∑ a ∈ range n, root n ^ (k * a)) * ∑ b ∈ range n, root n ^ (l * b)) = ∑ a ∈ range n, ∑ b ∈ range n, v k l * (root n ^ (k * a) * root n ^ (l * b)) := by
              intro k l
              rw [Finset.sum_mul_sum, Finset.mul_sum]
              exact Finset.sum_congr rfl fun a _ => by rw [Finset.mul_sum]
            simp only [ex]
            rw [show ∑ a ∈ range n, ∑ b ∈ range n, ∑ k ∈ range n, ∑ l ∈ range n, v k l * (root n ^ (k * a) * root n ^ (l * b)) = ∑ a ∈ range n, ∑ k ∈ range n, ∑ l ∈ range n, ∑ b ∈ range n, v k l * (root n ^ (k * a) * root n ^ (l * b)) from
              Finset.sum_congr rfl fun a _ => by rw [Finset.sum_comm]; exact Finset.sum_congr rfl fun k _ => Finset.sum_comm]
            rw [Finset.sum_comm]
            exact Finset.sum_congr rfl fun k _ => Finset.sum_comm
        _ = ∑ k ∈ range n, ∑ l ∈ range n, if k = 0 then (if l = 0 then v k l * (n : ℂ) ^ 2 else 0) else 0 := by
            apply Finset.sum_congr rfl; intro k hk
            apply Finset.sum_congr rfl; intro l hl
            rw [root_pow_sum n hn k (Finset.mem_range.mp hk), root_pow_sum n hn l (Finset.mem_range.mp hl)]
            split <;> split <;> ring
        _ = v 0 0 * (n : ℂ) ^ 2 := by
            simp [Finset.sum_ite_eq', hn]
    rw [this]
    field_simp
  have : ∑ a ∈ range n, ∑ b ∈ range n, smooth n σ u a b = (∑ a ∈ range n, ∑ b ∈ range n, ifft2 n (fun k l => fft2 n u k l * ((gaussFactor n σ k * gaussFactor n σ l : ℝ) : ℂ)) a b).re := by
    simp only [Complex.re_sum]
    rfl
  rw [this, e]
  have g0 : gaussFactor n σ 0 = 1 := by
    unfold gaussFactor
    rw [if_pos (by omega)]; simp
  simp only [g0, mul_one, Complex.ofReal_one]
  unfold fft2
  simp

theorem chaotic_mean (c : NCfg) (hn : 0 < c.n) (x y : ℤ → ℤ → ℝ) (s : NState) :
    ∑ i ∈ range c.n, ∑ j ∈ range c.n, (noiseFilter c x y s).chx i j = 0 ∧ ∑ i ∈ range c.n, ∑ j ∈ range c.n, (noiseFilter c x y s).chy i j = 0 := by
  unfold noiseFilter chaotic
  simp only [Finset.sum_sub_distrib, smooth_total c.n hn, sub_self, and_self]

end Lcode.Plasma3D
