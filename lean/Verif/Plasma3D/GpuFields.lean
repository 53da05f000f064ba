import Verif.Plasma3D.Gpu

/-!
Model of the GPU transforms of lcode/plasma3d/fields.py:33-107 and of the field solver that uses them. Property C47.
Arrays handed to the transforms are indexed from 0 here, as in the code.
-/

namespace Lcode.Plasma3D

open Finset

/-! ### Model -/

/-- `p[r0:r1, c0:c1] = src`. -/
noncomputable def setSlice (p : ℤ → ℤ → ℝ) (r0 r1 c0 c1 : ℤ) (src : ℤ → ℤ → ℝ) : ℤ → ℤ → ℝ :=
  fun a b => if (r0 ≤ a ∧ a < r1) ∧ c0 ≤ b ∧ b < c1 then src (a - r0) (b - c0) else p a b

/-- `cp.flipud(u)` for an array with `n` rows, `cp.fliplr(u)` for one with `n` columns, and `-u`. -/
def flipud (n : ℤ) (u : ℤ → ℤ → ℝ) : ℤ → ℤ → ℝ := fun i j => u (n - 1 - i) j
def fliplr (n : ℤ) (u : ℤ → ℤ → ℝ) : ℤ → ℤ → ℝ := fun i j => u i (n - 1 - j)
def negArr (u : ℤ → ℤ → ℝ) : ℤ → ℤ → ℝ := fun i j => -u i j

/-- `cp.fft.rfft2(p)[k, l]` for an A x B array, by its definition (columns 0 .. B/2 are stored). -/
noncomputable def rfft2 (A B : ℕ) (p : ℤ → ℤ → ℝ) (k l : ℤ) : ℂ :=
  ∑ a ∈ range A, ∑ b ∈ range B, (p a b : ℂ) * Complex.exp (-((2 * Real.pi * (k * a / A + l * b / B) : ℝ) : ℂ) * Complex.I)

/-- The padded array of the GPU dst2d, fields.py:49-52. -/
noncomputable def padDst (N : ℤ) (arr : ℤ → ℤ → ℝ) : ℤ → ℤ → ℝ :=
  let p0 : ℤ → ℤ → ℝ := fun _ _ => 0
  let p1 := setSlice p0 1 (N + 1) 1 (N + 1) arr
  let p2 := setSlice p1 1 (N + 1) (N + 2) (2 * N + 2) (negArr (fliplr N arr))
  let p3 := setSlice p2 (N + 2) (2 * N + 2) 1 (N + 1) (negArr (flipud N arr))
  setSlice p3 (N + 2) (2 * N + 2) (N + 2) (2 * N + 2) (fliplr N (flipud N arr))

/-- dst2d of the GPU, fields.py:36-56: an N x N array. -/
noncomputable def gpuDst2d (N : ℕ) (arr : ℤ → ℤ → ℝ) (i j : ℤ) : ℝ := -(rfft2 (2 * N + 2) (2 * N + 2) (padDst N arr) (i + 1) (j + 1)).re

/-- The padded array of the GPU dct2d, fields.py:70-78. -/
noncomputable def padDct (N : ℤ) (arr : ℤ → ℤ → ℝ) : ℤ → ℤ → ℝ :=
  let p0 : ℤ → ℤ → ℝ := fun _ _ => 0
  let p1 := setSlice p0 0 N 0 N arr
  let p2 := setSlice p1 N (2 * N - 2) 0 N (fun i j => flipud N arr (i + 1) j)
  let p3 := setSlice p2 0 N N (2 * N - 2) (fun i j => fliplr N arr i (j + 1))
  setSlice p3 N (2 * N - 2) N (2 * N - 2) (fun i j => flipud N (fliplr N arr) (i + 1) (j + 1))

/-- dct2d of the GPU, fields.py:58-80: an N x N array. -/
noncomputable def gpuDct2d (N : ℕ) (arr : ℤ → ℤ → ℝ) (i j : ℤ) : ℝ := -(rfft2 (2 * N - 2) (2 * N - 2) (padDct N arr) i j).re

/-- The padded array of the GPU mix2d, fields.py:97-105. -/
noncomputable def padMix (M N : ℤ) (arr : ℤ → ℤ → ℝ) : ℤ → ℤ → ℝ :=
  let p0 : ℤ → ℤ → ℝ := fun _ _ => 0
  let p1 := setSlice p0 1 (M + 1) 0 N arr
  let p2 := setSlice p1 (M + 2) (2 * M + 2) 0 N (negArr (flipud M arr))
  let p3 := setSlice p2 1 (M + 1) (N - 1) (2 * N - 2) (fliplr N arr)
  setSlice p3 (M + 2) (2 * M + 2) (N - 1) (2 * N - 2) (negArr (flipud M (fliplr N arr)))

/-- mix2d of the GPU, fields.py:82-109: an M x N array, the result has M + 2 rows. -/
noncomputable def gpuMix2d (M N : ℕ) (arr : ℤ → ℤ → ℝ) (i j : ℤ) : ℝ := -(rfft2 (2 * M + 2) (2 * N - 2) (padMix M N arr) i j).im

/-- The same transforms on arrays that keep the indices of the grid: `a[1:-1, 1:-1]` for dst2d, the whole array for dct2d, `a[1:-1, :]` for mix2d (which returns a whole array). `L` is the number of nodes minus one. -/
noncomputable def dstG (L : ℕ) (u : ℤ → ℤ → ℝ) (k l : ℤ) : ℝ := gpuDst2d (L - 1) (fun i j => u (i + 1) (j + 1)) (k - 1) (l - 1)
noncomputable def dctG (L : ℕ) (u : ℤ → ℤ → ℝ) (k l : ℤ) : ℝ := gpuDct2d (L + 1) u k l
noncomputable def mixG (L : ℕ) (u : ℤ → ℤ → ℝ) (k l : ℤ) : ℝ := gpuMix2d (L - 1) (L + 1) (fun i j => u (i + 1) j) k l

/-- calculate_Ez and calculate_Phi with the GPU transforms, fields.py:112-159. -/
noncomputable def gpuDirichletSolve (L : ℕ) (h : ℝ) (rhs : ℤ → ℤ → ℝ) : ℤ → ℤ → ℝ := pad1 L (dstG L fun k l => dstG L rhs k l * dirichletMatrix L h k l)
noncomputable def gpuCalcEz (L : ℕ) (h : ℝ) (c : Cur) : ℤ → ℤ → ℝ := gpuDirichletSolve L h (ezRhs h c.jx c.jy)
noncomputable def gpuCalcPhi (L : ℕ) (h : ℝ) (c : Cur) : ℤ → ℤ → ℝ := gpuDirichletSolve L h fun i j => c.ro i j - c.jz i j

/-- `mix2d(mix_mat * mix2d(rhs[1:-1, :])[1:-1, :])` with the GPU transform, fields.py:216-228. -/
noncomputable def gpuMixSolve (L : ℕ) (h κ : ℝ) (rhs : ℤ → ℤ → ℝ) : ℤ → ℤ → ℝ := mixG L fun k l => mixedMatrix L h κ k l * mixG L rhs k l

/-- calculate_Ex_Ey_Bx_By with the GPU transform, fields.py:176-230. -/
noncomputable def gpuCalcEx (c : FCfg) (F : Fields3) (bFull bPrev : ℤ → ℤ → ℝ) (full prev : Cur) : ℤ → ℤ → ℝ :=
  let rhs : ℤ → ℤ → ℝ := fun i j => -(dxArr c.L c.h (roHalf full prev bFull bPrev) i j - djDxi c.dxi prev.jx full.jx i j - c.κ * F.Ex i j)
  fun i j => gpuMixSolve c.L c.h c.κ (fun a b => rhs b a) j i
noncomputable def gpuCalcEy (c : FCfg) (F : Fields3) (bFull bPrev : ℤ → ℤ → ℝ) (full prev : Cur) : ℤ → ℤ → ℝ :=
  let rhs : ℤ → ℤ → ℝ := fun i j => -(dyArr c.L c.h (roHalf full prev bFull bPrev) i j - djDxi c.dxi prev.jy full.jy i j - c.κ * F.Ey i j)
  gpuMixSolve c.L c.h c.κ rhs
noncomputable def gpuCalcBx (c : FCfg) (F : Fields3) (bFull bPrev : ℤ → ℤ → ℝ) (full prev : Cur) : ℤ → ℤ → ℝ :=
  let rhs : ℤ → ℤ → ℝ := fun i j => dyArr c.L c.h (jzHalf full prev bFull bPrev) i j - djDxi c.dxi prev.jy full.jy i j + c.κ * F.Bx i j
  gpuMixSolve c.L c.h c.κ rhs
noncomputable def gpuCalcBy (c : FCfg) (F : Fields3) (bFull bPrev : ℤ → ℤ → ℝ) (full prev : Cur) : ℤ → ℤ → ℝ :=
  let rhs : ℤ → ℤ → ℝ := fun i j => -(dxArr c.L c.h (jzHalf full prev bFull bPrev) i j - djDxi c.dxi prev.jx full.jx i j - c.κ * F.By i j)
  fun i j => gpuMixSolve c.L c.h c.κ (fun a b => rhs b a) j i

/-- calculate_Bz with the GPU transform, fields.py:233-266. -/
noncomputable def gpuNeumannSolve (L : ℕ) (h : ℝ) (rhs : ℤ → ℤ → ℝ) : ℤ → ℤ → ℝ := dctG L fun k l => dctG L rhs k l * neumannMatrix L h k l
noncomputable def gpuCalcBz (L : ℕ) (h : ℝ) (c : Cur) : ℤ → ℤ → ℝ :=
  let u := gpuNeumannSolve L h (bzRhs L h c.jx c.jy)
  fun i j => u i j - meanAll L u

/-- compute_fields with the GPU transforms, fields.py:276-322; returns (fields_full, fields_half). -/
noncomputable def gpuComputeFields (c : FCfg) (F Fprev : Fields3) (bFull bPrev : ℤ → ℤ → ℝ) (curPrev curFull : Cur × Cur) : Fields3 × Fields3 :=
  let full := Cur.total curFull
  let prev := Cur.total curPrev
  let ex := gpuCalcEx c F bFull bPrev full prev
  let ey := gpuCalcEy c F bFull bPrev full prev
  let bx := gpuCalcBx c F bFull bPrev full prev
  let by' := gpuCalcBy c F bFull bPrev full prev
  let ez := gpuCalcEz c.L c.h full
  let bz := gpuCalcBz c.L c.h full
  let phi := gpuCalcPhi c.L c.h full
  (⟨fun i j => 2 * ex i j - Fprev.Ex i j, fun i j => 2 * ey i j - Fprev.Ey i j, ez, fun i j => 2 * bx i j - Fprev.Bx i j, fun i j => 2 * by' i j - Fprev.By i j, bz, phi⟩,
   ⟨ex, ey, fun i j => (ez i j + Fprev.Ez i j) / 2, bx, by', fun i j => (bz i j + Fprev.Bz i j) / 2, phi⟩)

/-! ### Sums over a padded period -/

theorem rfft2_re (A B : ℕ) (p : ℤ → ℤ → ℝ) (k l : ℤ) :
    (rfft2 A B p k l).re = ∑ a ∈ range A, ∑ b ∈ range B, p a b * Real.cos (2 * Real.pi * (k * a / A + l * b / B)) := by
  unfold rfft2
  rw [Complex.re_sum]
  refine Finset.sum_congr rfl fun a _ => ?_
  rw [Complex.re_sum]
  refine Finset.sum_congr rfl fun b _ => ?_
  rw [← Complex.ofReal_neg, Complex.re_ofReal_mul, Complex.exp_ofReal_mul_I_re, Real.cos_neg]

theorem rfft2_im (A B : ℕ) (p : ℤ → ℤ → ℝ) (k l : ℤ) :
    (rfft2 A B p k l).im = -∑ a ∈ range A, ∑ b ∈ range B, p a b * Real.sin (2 * Real.pi * (k * a / A + l * b / B)) := by
  unfold rfft2
  rw [Complex.im_sum, ← Finset.sum_neg_distrib]
  refine Finset.sum_congr rfl fun a _ => ?_
  rw [Complex.im_sum, ← Finset.sum_neg_distrib]
  refine Finset.sum_congr rfl fun b _ => ?_
  rw [← Complex.ofReal_neg, Complex.im_ofReal_mul, Complex.exp_ofReal_mul_I_im, Real.sin_neg, mul_neg]

/-- A period of 2L, folded at L. -/
theorem sum_period (L : ℕ) (hL : 1 ≤ L) (f : ℤ → ℝ) : ∑ a ∈ range (2 * L), f a = f 0 + f L + ∑ n ∈ Finset.Ico 1 (L : ℤ), (f n + f (2 * L - n)) := by
  have h1 : ∑ a ∈ range (2 * L), f (a : ℤ) = ∑ a ∈ Finset.Ico 0 ((2 * L : ℕ) : ℤ), f a := sum_range_int _ f
  have s1 : Finset.Ico (0 : ℤ) ((2 * L : ℕ) : ℤ) = insert 0 (insert (L : ℤ) (Finset.Ico 1 (L : ℤ) ∪ Finset.Ico ((L : ℤ) + 1) (2 * L))) := by
    ext k; simp only [Finset.mem_Ico, Finset.mem_insert, Finset.mem_union]; push_cast; omega
  rw [h1, s1, Finset.sum_insert (by simp only [Finset.mem_Ico, Finset.mem_insert, Finset.mem_union]; omega), Finset.sum_insert (by simp only [Finset.mem_Ico, Finset.mem_union]; omega),
    Finset.sum_union (by rw [Finset.disjoint_left]; intro k; simp only [Finset.mem_Ico]; omega), Finset.sum_add_distrib]
  have : ∑ k ∈ Finset.Ico ((L : ℤ) + 1) (2 * L), f k = ∑ n ∈ Finset.Ico 1 (L : ℤ), f (2 * L - n) := by
    refine Finset.sum_bij' (fun k _ => 2 * (L : ℤ) - k) (fun n _ => 2 * (L : ℤ) - n) ?_ ?_ ?_ ?_ ?_ <;> intro k hk <;> simp only [Finset.mem_Ico] at hk ⊢ <;> try omega
    rw [sub_sub_cancel]
  rw [this]; ring

theorem cos_fold (L : ℕ) (hL : 1 ≤ L) (k n : ℤ) : Real.cos (Real.pi * k * ((2 * L - n : ℤ) : ℝ) / L) = Real.cos (Real.pi * k * n / L) ∧
    Real.sin (Real.pi * k * ((2 * L - n : ℤ) : ℝ) / L) = -Real.sin (Real.pi * k * n / L) := by
  have hLr : (L : ℝ) ≠ 0 := by positivity
  have e : Real.pi * k * ((2 * L - n : ℤ) : ℝ) / L = k * (2 * Real.pi) - Real.pi * k * n / L := by push_cast; field_simp
  rw [e, Real.cos_int_mul_two_pi_sub, Real.sin_int_mul_two_pi_sub]
  exact ⟨rfl, rfl⟩

theorem trig_ends (L : ℕ) (hL : 1 ≤ L) (k : ℤ) : Real.cos (Real.pi * k * ((0 : ℤ) : ℝ) / L) = 1 ∧ Real.cos (Real.pi * k * ((L : ℤ) : ℝ) / L) = (-1) ^ k ∧
    Real.sin (Real.pi * k * ((0 : ℤ) : ℝ) / L) = 0 ∧ Real.sin (Real.pi * k * ((L : ℤ) : ℝ) / L) = 0 := by
  have hLr : (L : ℝ) ≠ 0 := by positivity
  have e : Real.pi * k * ((L : ℤ) : ℝ) / L = k * Real.pi := by rw [Int.cast_natCast]; field_simp
  refine ⟨by simp, ?_, by simp, ?_⟩
  · rw [e]; exact Real.cos_int_mul_pi k
  · rw [e]; exact Real.sin_int_mul_pi k

/-- Odd continuation: the cosine sum vanishes and the sine sum is the sine transform. -/
theorem odd_period (L : ℕ) (hL : 1 ≤ L) (p : ℤ → ℝ) (h0 : p 0 = 0) (h1 : p L = 0) (ho : ∀ n : ℤ, 1 ≤ n → n < L → p (2 * L - n) = -p n) (k : ℤ) :
    ∑ a ∈ range (2 * L), p a * Real.cos (Real.pi * k * a / L) = 0 ∧ ∑ a ∈ range (2 * L), p a * Real.sin (Real.pi * k * a / L) = dst1 L p k := by
  have c := sum_period L hL fun a => p a * Real.cos (Real.pi * k * a / L)
  have s := sum_period L hL fun a => p a * Real.sin (Real.pi * k * a / L)
  simp only [Int.cast_natCast] at c s
  rw [c, s, h0, h1]
  unfold dst1
  constructor
  · rw [Finset.sum_eq_zero]
    · ring
    · intro n hn
      rw [Finset.mem_Ico] at hn
      rw [ho n hn.1 hn.2, (cos_fold L hL k n).1]; ring
  · rw [Finset.mul_sum]
    simp only [zero_mul, zero_add]
    refine Finset.sum_congr rfl fun n hn => ?_
    rw [Finset.mem_Ico] at hn
    rw [ho n hn.1 hn.2, (cos_fold L hL k n).2]; ring

/-- Even continuation: the sine sum vanishes and the cosine sum is the cosine transform. -/
theorem even_period (L : ℕ) (hL : 1 ≤ L) (p : ℤ → ℝ) (he : ∀ n : ℤ, 1 ≤ n → n < L → p (2 * L - n) = p n) (k : ℤ) :
    ∑ a ∈ range (2 * L), p a * Real.cos (Real.pi * k * a / L) = dct1 L p k ∧ ∑ a ∈ range (2 * L), p a * Real.sin (Real.pi * k * a / L) = 0 := by
  have c := sum_period L hL fun a => p a * Real.cos (Real.pi * k * a / L)
  have s := sum_period L hL fun a => p a * Real.sin (Real.pi * k * a / L)
  obtain ⟨t1, t2, t3, t4⟩ := trig_ends L hL k
  rw [t1, t2] at c
  rw [t3, t4] at s
  simp only [Int.cast_natCast] at c s
  rw [c, s]
  unfold dct1
  constructor
  · rw [Finset.mul_sum]
    congr 1
    · ring
    · refine Finset.sum_congr rfl fun n hn => ?_
      rw [Finset.mem_Ico] at hn
      rw [he n hn.1 hn.2, (cos_fold L hL k n).1]; ring
  · rw [Finset.sum_eq_zero]
    · ring
    · intro n hn
      rw [Finset.mem_Ico] at hn
      rw [he n hn.1 hn.2, (cos_fold L hL k n).2]; ring

/-- The two-dimensional sums, split. -/
theorem sum_cos_split (L : ℕ) (hL : 1 ≤ L) (p : ℤ → ℤ → ℝ) (k l : ℤ) :
    ∑ a ∈ range (2 * L), ∑ b ∈ range (2 * L), p a b * Real.cos (2 * Real.pi * (k * a / (2 * L : ℕ) + l * b / (2 * L : ℕ))) =
      ∑ a ∈ range (2 * L), (∑ b ∈ range (2 * L), p a b * Real.cos (Real.pi * l * b / L)) * Real.cos (Real.pi * k * a / L) -
      ∑ a ∈ range (2 * L), (∑ b ∈ range (2 * L), p a b * Real.sin (Real.pi * l * b / L)) * Real.sin (Real.pi * k * a / L) := by
  have hLr : (L : ℝ) ≠ 0 := by positivity
  rw [← Finset.sum_sub_distrib]
  refine Finset.sum_congr rfl fun a _ => ?_
  rw [Finset.sum_mul, Finset.sum_mul, ← Finset.sum_sub_distrib]
  refine Finset.sum_congr rfl fun b _ => ?_
  have e : 2 * Real.pi * (k * a / (2 * L : ℕ) + l * b / (2 * L : ℕ)) = Real.pi * k * a / L + Real.pi * l * b / L := by push_cast; field_simp
  rw [e, Real.cos_add]; ring

theorem sum_sin_split (L : ℕ) (hL : 1 ≤ L) (p : ℤ → ℤ → ℝ) (k l : ℤ) :
    ∑ a ∈ range (2 * L), ∑ b ∈ range (2 * L), p a b * Real.sin (2 * Real.pi * (k * a / (2 * L : ℕ) + l * b / (2 * L : ℕ))) =
      ∑ a ∈ range (2 * L), (∑ b ∈ range (2 * L), p a b * Real.cos (Real.pi * l * b / L)) * Real.sin (Real.pi * k * a / L) +
      ∑ a ∈ range (2 * L), (∑ b ∈ range (2 * L), p a b * Real.sin (Real.pi * l * b / L)) * Real.cos (Real.pi * k * a / L) := by
  have hLr : (L : ℝ) ≠ 0 := by positivity
  rw [← Finset.sum_add_distrib]
  refine Finset.sum_congr rfl fun a _ => ?_
  rw [Finset.sum_mul, Finset.sum_mul, ← Finset.sum_add_distrib]
  refine Finset.sum_congr rfl fun b _ => ?_
  have e : 2 * Real.pi * (k * a / (2 * L : ℕ) + l * b / (2 * L : ℕ)) = Real.pi * k * a / L + Real.pi * l * b / L := by push_cast; field_simp
  rw [e, Real.sin_add]; ring

/-! ### C47: the transforms -/

theorem padDst_odd (L : ℕ) (hL : 1 ≤ L) (u : ℤ → ℤ → ℝ) :
    (∀ a b : ℤ, 1 ≤ a → a < L → 1 ≤ b → b < L → padDst ((L - 1 : ℕ) : ℤ) (fun i j => u (i + 1) (j + 1)) a b = u a b) ∧
    (∀ a b : ℤ, (a = 0 ∨ a = L ∨ b = 0 ∨ b = L) → padDst ((L - 1 : ℕ) : ℤ) (fun i j => u (i + 1) (j + 1)) a b = 0) ∧
    (∀ a n : ℤ, 0 ≤ a → a < 2 * L → 1 ≤ n → n < L → padDst ((L - 1 : ℕ) : ℤ) (fun i j => u (i + 1) (j + 1)) a (2 * L - n) = -padDst ((L - 1 : ℕ) : ℤ) (fun i j => u (i + 1) (j + 1)) a n) ∧
    (∀ n b : ℤ, 0 ≤ b → b < 2 * L → 1 ≤ n → n < L → padDst ((L - 1 : ℕ) : ℤ) (fun i j => u (i + 1) (j + 1)) (2 * L - n) b = -padDst ((L - 1 : ℕ) : ℤ) (fun i j => u (i + 1) (j + 1)) n b) := by
  have hc : ((L - 1 : ℕ) : ℤ) = (L : ℤ) - 1 := by omega
  rw [hc]
  generalize (L : ℤ) = M at *
  unfold padDst setSlice negArr flipud fliplr
  refine ⟨?_, ?_, ?_, ?_⟩
  · intro a b h1 h2 h3 h4
    simp (disch := omega) only [if_pos, if_neg]
    congr 1 <;> ring
  · intro a b h
    simp (disch := omega) only [if_neg]
  · intro a n h1 h2 h3 h4
    rcases lt_trichotomy a M with ha | ha | ha
    · by_cases h0 : a = 0
      · simp (disch := omega) only [if_neg]; simp
      · simp (disch := omega) only [if_pos, if_neg]
        congr 2; ring
    · simp (disch := omega) only [if_neg]; simp
    · simp (disch := omega) only [if_pos, if_neg, neg_neg]
      congr 1; ring
  · intro n b h1 h2 h3 h4
    rcases lt_trichotomy b M with ha | ha | ha
    · by_cases h0 : b = 0
      · simp (disch := omega) only [if_neg]; simp
      · simp (disch := omega) only [if_pos, if_neg]
        congr 2; ring
    · simp (disch := omega) only [if_neg]; simp
    · simp (disch := omega) only [if_pos, if_neg, neg_neg]
      congr 1; ring

/-- C47: the sine transform of the GPU, made of a padded complex transform, is the sine transform of the CPU. -/
theorem dstG_eq (L : ℕ) (hL : 1 ≤ L) (u : ℤ → ℤ → ℝ) (k l : ℤ) : dstG L u k l = dst2 L u k l := by
  obtain ⟨h1, h2, h3, h4⟩ := padDst_odd L hL u
  unfold dstG gpuDst2d
  rw [show 2 * (L - 1) + 2 = 2 * L by omega, rfft2_re, sub_add_cancel, sub_add_cancel]
  generalize padDst ((L - 1 : ℕ) : ℤ) (fun i j => u (i + 1) (j + 1)) = p at *
  rw [sum_cos_split L hL]
  have row : ∀ a : ℤ, 0 ≤ a → a < 2 * L → ∑ b ∈ range (2 * L), p a b * Real.cos (Real.pi * l * b / L) = 0 ∧ ∑ b ∈ range (2 * L), p a b * Real.sin (Real.pi * l * b / L) = dst1 L (p a) l :=
    fun a a0 a1 => odd_period L hL (p a) (h2 a 0 (by omega)) (h2 a L (by omega)) (fun n n0 n1 => h3 a n a0 a1 n0 n1) l
  have e1 : ∑ a ∈ range (2 * L), (∑ b ∈ range (2 * L), p a b * Real.cos (Real.pi * l * b / L)) * Real.cos (Real.pi * k * a / L) = 0 :=
    Finset.sum_eq_zero fun a ha => by rw [Finset.mem_range] at ha; rw [(row a (by omega) (by omega)).1, zero_mul]
  have e2 : ∑ a ∈ range (2 * L), (∑ b ∈ range (2 * L), p a b * Real.sin (Real.pi * l * b / L)) * Real.sin (Real.pi * k * a / L) =
      ∑ a ∈ range (2 * L), (fun a : ℤ => dst1 L (p a) l) a * Real.sin (Real.pi * k * a / L) :=
    Finset.sum_congr rfl fun a ha => by rw [Finset.mem_range] at ha; rw [(row a (by omega) (by omega)).2]
  have e3 := (odd_period L hL (fun a : ℤ => dst1 L (p a) l)
    (by rw [dst1_congr L (p 0) (fun _ => 0) l (fun n n0 n1 => h2 0 n (by omega)), dst1_zero])
    (by rw [dst1_congr L (p L) (fun _ => 0) l (fun n n0 n1 => h2 L n (by omega)), dst1_zero])
    (fun n n0 n1 => by
      rw [dst1_congr L (p (2 * L - n)) (fun b => -1 * p n b) l (fun b b0 b1 => by rw [h4 n b (by omega) (by omega) n0 n1]; ring), dst1_mul]; ring) k).2
  rw [e1, e2, e3]
  unfold dst2
  rw [zero_sub, neg_neg]
  exact dst1_congr L _ _ k fun n n0 n1 => dst1_congr L _ _ l fun m m0 m1 => h1 n m n0 n1 m0 m1

theorem padDct_even (L : ℕ) (hL : 1 ≤ L) (u : ℤ → ℤ → ℝ) :
    (∀ a b : ℤ, 0 ≤ a → a ≤ L → 0 ≤ b → b ≤ L → padDct ((L + 1 : ℕ) : ℤ) u a b = u a b) ∧
    (∀ a n : ℤ, 0 ≤ a → a < 2 * L → 1 ≤ n → n < L → padDct ((L + 1 : ℕ) : ℤ) u a (2 * L - n) = padDct ((L + 1 : ℕ) : ℤ) u a n) ∧
    (∀ n b : ℤ, 0 ≤ b → b < 2 * L → 1 ≤ n → n < L → padDct ((L + 1 : ℕ) : ℤ) u (2 * L - n) b = padDct ((L + 1 : ℕ) : ℤ) u n b) := by
  push_cast
  generalize (L : ℤ) = M at *
  unfold padDct setSlice flipud fliplr
  refine ⟨?_, ?_, ?_⟩
  · intro a b h1 h2 h3 h4
    simp (disch := omega) only [if_pos, if_neg]
    congr 1 <;> ring
  · intro a n h1 h2 h3 h4
    rcases le_or_gt a M with ha | ha
    · simp (disch := omega) only [if_pos, if_neg]
      congr 1; ring
    · simp (disch := omega) only [if_pos, if_neg]
      congr 1; ring
  · intro n b h1 h2 h3 h4
    rcases le_or_gt b M with ha | ha
    · simp (disch := omega) only [if_pos, if_neg]
      congr 1; ring
    · simp (disch := omega) only [if_pos, if_neg]
      congr 1; ring

/-- C47, finding: the cosine transform of the GPU has the opposite sign of that of the CPU (the code takes minus the real part, as for the sines, where the minus belongs). -/
theorem dctG_eq (L : ℕ) (hL : 1 ≤ L) (u : ℤ → ℤ → ℝ) (k l : ℤ) : dctG L u k l = -dct2 L u k l := by
  obtain ⟨h1, h3, h4⟩ := padDct_even L hL u
  unfold dctG gpuDct2d
  rw [show 2 * (L + 1) - 2 = 2 * L by omega, rfft2_re]
  generalize padDct ((L + 1 : ℕ) : ℤ) u = p at *
  rw [sum_cos_split L hL]
  have row : ∀ a : ℤ, 0 ≤ a → a < 2 * L → ∑ b ∈ range (2 * L), p a b * Real.cos (Real.pi * l * b / L) = dct1 L (p a) l ∧ ∑ b ∈ range (2 * L), p a b * Real.sin (Real.pi * l * b / L) = 0 :=
    fun a a0 a1 => even_period L hL (p a) (fun n n0 n1 => h3 a n a0 a1 n0 n1) l
  have e1 : ∑ a ∈ range (2 * L), (∑ b ∈ range (2 * L), p a b * Real.sin (Real.pi * l * b / L)) * Real.sin (Real.pi * k * a / L) = 0 :=
    Finset.sum_eq_zero fun a ha => by rw [Finset.mem_range] at ha; rw [(row a (by omega) (by omega)).2, zero_mul]
  have e2 : ∑ a ∈ range (2 * L), (∑ b ∈ range (2 * L), p a b * Real.cos (Real.pi * l * b / L)) * Real.cos (Real.pi * k * a / L) =
      ∑ a ∈ range (2 * L), (fun a : ℤ => dct1 L (p a) l) a * Real.cos (Real.pi * k * a / L) :=
    Finset.sum_congr rfl fun a ha => by rw [Finset.mem_range] at ha; rw [(row a (by omega) (by omega)).1]
  have e3 := (even_period L hL (fun a : ℤ => dct1 L (p a) l)
    (fun n n0 n1 => dct1_congr L hL _ _ l fun b b0 b1 => h4 n b (by omega) (by omega) n0 n1) k).1
  rw [e1, e2, e3, sub_zero]
  unfold dct2
  congr 1
  exact dct1_congr L hL _ _ k fun n n0 n1 => dct1_congr L hL _ _ l fun m m0 m1 => h1 n m n0 n1 m0 m1

theorem padMix_sym (L : ℕ) (hL : 1 ≤ L) (u : ℤ → ℤ → ℝ) :
    (∀ a b : ℤ, 1 ≤ a → a < L → 0 ≤ b → b ≤ L → padMix ((L - 1 : ℕ) : ℤ) ((L + 1 : ℕ) : ℤ) (fun i j => u (i + 1) j) a b = u a b) ∧
    (∀ a b : ℤ, (a = 0 ∨ a = L) → padMix ((L - 1 : ℕ) : ℤ) ((L + 1 : ℕ) : ℤ) (fun i j => u (i + 1) j) a b = 0) ∧
    (∀ a n : ℤ, 0 ≤ a → a < 2 * L → 1 ≤ n → n < L → padMix ((L - 1 : ℕ) : ℤ) ((L + 1 : ℕ) : ℤ) (fun i j => u (i + 1) j) a (2 * L - n) = padMix ((L - 1 : ℕ) : ℤ) ((L + 1 : ℕ) : ℤ) (fun i j => u (i + 1) j) a n) ∧
    (∀ n b : ℤ, 0 ≤ b → b < 2 * L → 1 ≤ n → n < L → padMix ((L - 1 : ℕ) : ℤ) ((L + 1 : ℕ) : ℤ) (fun i j => u (i + 1) j) (2 * L - n) b = -padMix ((L - 1 : ℕ) : ℤ) ((L + 1 : ℕ) : ℤ) (fun i j => u (i + 1) j) n b) := by
  have hc : ((L - 1 : ℕ) : ℤ) = (L : ℤ) - 1 := by omega
  have hc' : ((L + 1 : ℕ) : ℤ) = (L : ℤ) + 1 := by omega
  rw [hc, hc']
  generalize (L : ℤ) = M at *
  unfold padMix setSlice negArr flipud fliplr
  refine ⟨?_, ?_, ?_, ?_⟩
  · intro a b h1 h2 h3 h4
    rcases eq_or_lt_of_le h4 with hb | hb
    · subst hb
      simp (disch := omega) only [if_pos, if_neg]
      congr 1 <;> ring
    · simp (disch := omega) only [if_pos, if_neg]
      congr 1 <;> ring
  · intro a b h
    simp (disch := omega) only [if_neg]
  · intro a n h1 h2 h3 h4
    rcases lt_trichotomy a M with ha | ha | ha
    · by_cases h0 : a = 0
      · simp (disch := omega) only [if_neg]
      · simp (disch := omega) only [if_pos, if_neg]
        congr 1; ring
    · simp (disch := omega) only [if_neg]
    · simp (disch := omega) only [if_pos, if_neg]
      congr 2; ring
  · intro n b h1 h2 h3 h4
    rcases lt_or_ge b M with ha | ha
    · simp (disch := omega) only [if_pos, if_neg]
      congr 2; ring
    · simp (disch := omega) only [if_pos, if_neg]
      congr 2; ring

/-- C47: the mixed transform of the GPU is that of the CPU, zero rows included, on all nodes of the grid. -/
theorem mixG_eq (L : ℕ) (hL : 1 ≤ L) (u : ℤ → ℤ → ℝ) (k l : ℤ) : mixG L u k l = mixT L u k l := by
  obtain ⟨h1, h2, h3, h4⟩ := padMix_sym L hL u
  unfold mixG gpuMix2d
  rw [show 2 * (L - 1) + 2 = 2 * L by omega, show 2 * (L + 1) - 2 = 2 * L by omega, rfft2_im]
  generalize padMix ((L - 1 : ℕ) : ℤ) ((L + 1 : ℕ) : ℤ) (fun i j => u (i + 1) j) = p at *
  rw [neg_neg, sum_sin_split L hL]
  have row : ∀ a : ℤ, 0 ≤ a → a < 2 * L → ∑ b ∈ range (2 * L), p a b * Real.cos (Real.pi * l * b / L) = dct1 L (p a) l ∧ ∑ b ∈ range (2 * L), p a b * Real.sin (Real.pi * l * b / L) = 0 :=
    fun a a0 a1 => even_period L hL (p a) (fun n n0 n1 => h3 a n a0 a1 n0 n1) l
  have e1 : ∑ a ∈ range (2 * L), (∑ b ∈ range (2 * L), p a b * Real.sin (Real.pi * l * b / L)) * Real.cos (Real.pi * k * a / L) = 0 :=
    Finset.sum_eq_zero fun a ha => by rw [Finset.mem_range] at ha; rw [(row a (by omega) (by omega)).2, zero_mul]
  have e2 : ∑ a ∈ range (2 * L), (∑ b ∈ range (2 * L), p a b * Real.cos (Real.pi * l * b / L)) * Real.sin (Real.pi * k * a / L) =
      ∑ a ∈ range (2 * L), (fun a : ℤ => dct1 L (p a) l) a * Real.sin (Real.pi * k * a / L) :=
    Finset.sum_congr rfl fun a ha => by rw [Finset.mem_range] at ha; rw [(row a (by omega) (by omega)).1]
  have e3 := (odd_period L hL (fun a : ℤ => dct1 L (p a) l)
    (by rw [dct1_congr L hL (p 0) (fun _ => 0) l (fun n n0 n1 => h2 0 n (by omega)), dct1_zero])
    (by rw [dct1_congr L hL (p L) (fun _ => 0) l (fun n n0 n1 => h2 L n (by omega)), dct1_zero])
    (fun n n0 n1 => by
      rw [dct1_congr L hL (p (2 * L - n)) (fun b => -1 * p n b) l (fun b b0 b1 => by rw [h4 n b (by omega) (by omega) n0 n1]; ring), dct1_mul]; ring) k).2
  rw [e1, e2, e3, add_zero]
  unfold mixT
  rw [← dst1_dct1_comm L hL]
  exact dst1_congr L _ _ k fun n n0 n1 => dct1_congr L hL _ _ l fun m m0 m1 => h1 n m n0 n1 m0 m1

/-! ### C47: the field solver -/

theorem gpuDirichletSolve_same (L : ℕ) (hL : 1 ≤ L) (h : ℝ) (r s : ℤ → ℤ → ℝ) (hrs : ∀ i j, Inner L i → Inner L j → r i j = s i j) : gpuDirichletSolve L h r = dirichletSolve L h s := by
  unfold gpuDirichletSolve dirichletSolve
  congr 1
  funext i j
  rw [dstG_eq L hL]
  refine dst2_congr L _ _ i j fun k l hk hl => ?_
  rw [dstG_eq L hL, dst2_congr L r s k l hrs]

theorem gpuMixSolve_same (L : ℕ) (hL : 1 ≤ L) (h κ : ℝ) (r s : ℤ → ℤ → ℝ) (hrs : ∀ i j, Inner L i → OnGrid L j → r i j = s i j) (i j : ℤ) (hi : OnGrid L i) :
    gpuMixSolve L h κ r i j = mixSolve L h κ s i j := by
  unfold gpuMixSolve mixSolve
  rw [mixG_eq L hL, mix2d_mixT L hL _ i j hi]
  refine mixT_congr L hL _ _ i j fun k l hk hl => ?_
  rw [mixG_eq L hL, mix2d_mixT L hL _ k l ⟨by have := hk.1; omega, by have := hk.2; omega⟩, mixT_congr L hL r s k l hrs]

theorem gpuNeumannSolve_same (L : ℕ) (hL : 1 ≤ L) (h : ℝ) (r s : ℤ → ℤ → ℝ) (hrs : ∀ i j, OnGrid L i → OnGrid L j → r i j = s i j) (i j : ℤ) : gpuNeumannSolve L h r i j = neumannSolve L h s i j := by
  unfold gpuNeumannSolve neumannSolve
  rw [dctG_eq L hL]
  have : ∀ k l, OnGrid L k → OnGrid L l → dctG L r k l * neumannMatrix L h k l = -1 * (dct2 L s k l * neumannMatrix L h k l) := by
    intro k l _ _
    rw [dctG_eq L hL, dct2_congr L hL r s k l hrs]; ring
  rw [dct2_congr L hL _ _ i j this]
  unfold dct2
  simp only [dct1_mul]
  ring

/-- The same currents at the nodes of the grid. -/
def SameCur (N : ℤ) (a b : Cur) : Prop := SameOn N a.ro b.ro ∧ SameOn N a.jx b.jx ∧ SameOn N a.jy b.jy ∧ SameOn N a.jz b.jz

theorem SameOn.symm {N : ℤ} {a b : ℤ → ℤ → ℝ} (h : SameOn N a b) : SameOn N b a := fun i j h1 h2 h3 h4 => (h i j h1 h2 h3 h4).symm
theorem SameOn.refl (N : ℤ) (a : ℤ → ℤ → ℝ) : SameOn N a a := fun _ _ _ _ _ _ => rfl
theorem SameCur.refl (N : ℤ) (a : Cur) : SameCur N a a := ⟨.refl _ _, .refl _ _, .refl _ _, .refl _ _⟩
theorem SameFields.refl (N : ℤ) (F : Fields3) : SameFields N F F := ⟨.refl _ _, .refl _ _, .refl _ _, .refl _ _, .refl _ _, .refl _ _, .refl _ _⟩

theorem SameCur.total {N : ℤ} {a b : Cur × Cur} (h1 : SameCur N a.1 b.1) (h2 : SameCur N a.2 b.2) : SameCur N (Cur.total a) (Cur.total b) := by
  obtain ⟨p1, p2, p3, p4⟩ := h1
  obtain ⟨q1, q2, q3, q4⟩ := h2
  refine ⟨?_, ?_, ?_, ?_⟩ <;> intro i j i0 i1 j0 j1 <;> simp only [Cur.total]
  · rw [p1 i j i0 i1 j0 j1, q1 i j i0 i1 j0 j1]
  · rw [p2 i j i0 i1 j0 j1, q2 i j i0 i1 j0 j1]
  · rw [p3 i j i0 i1 j0 j1, q3 i j i0 i1 j0 j1]
  · rw [p4 i j i0 i1 j0 j1, q4 i j i0 i1 j0 j1]

/-- C47: from the same densities, currents and earlier fields at the nodes, the GPU solver finds the fields the CPU solver finds, at every node. -/
theorem gpu_fields_same (c : FCfg) (hL : 1 ≤ c.L) (F G Fp Gp : Fields3) (hF : SameFields (c.L + 1) F G) (hp : SameFields (c.L + 1) Fp Gp) (b1 b1' b0 b0' : ℤ → ℤ → ℝ)
    (hb1 : SameOn (c.L + 1) b1 b1') (hb0 : SameOn (c.L + 1) b0 b0') (cp cp' cf cf' : Cur × Cur)
    (hcp : SameCur (c.L + 1) cp.1 cp'.1 ∧ SameCur (c.L + 1) cp.2 cp'.2) (hcf : SameCur (c.L + 1) cf.1 cf'.1 ∧ SameCur (c.L + 1) cf.2 cf'.2) :
    SameFields (c.L + 1) (gpuComputeFields c F Fp b1 b0 cp cf).1 (computeFields c G Gp b1' b0' cp' cf').1 ∧
    SameFields (c.L + 1) (gpuComputeFields c F Fp b1 b0 cp cf).2 (computeFields c G Gp b1' b0' cp' cf').2 := by
  obtain ⟨f1, f2, f3, f4⟩ := SameCur.total hcf.1 hcf.2
  obtain ⟨p1, p2, p3, p4⟩ := SameCur.total hcp.1 hcp.2
  obtain ⟨x1, x2, x3, x4, x5, x6, x7⟩ := hF
  obtain ⟨y1, y2, y3, y4, y5, y6, y7⟩ := hp
  have ro : SameOn (c.L + 1) (roHalf (Cur.total cf) (Cur.total cp) b1 b0) (roHalf (Cur.total cf') (Cur.total cp') b1' b0') := by
    intro i j i0 i1 j0 j1
    simp only [roHalf]
    rw [f1 i j i0 i1 j0 j1, p1 i j i0 i1 j0 j1, hb1 i j i0 i1 j0 j1, hb0 i j i0 i1 j0 j1]
  have jz : SameOn (c.L + 1) (jzHalf (Cur.total cf) (Cur.total cp) b1 b0) (jzHalf (Cur.total cf') (Cur.total cp') b1' b0') := by
    intro i j i0 i1 j0 j1
    simp only [jzHalf]
    rw [f4 i j i0 i1 j0 j1, p4 i j i0 i1 j0 j1, hb1 i j i0 i1 j0 j1, hb0 i j i0 i1 j0 j1]
  have dx : ∀ a b : ℤ → ℤ → ℝ, SameOn (c.L + 1) a b → ∀ i j, dxArr c.L c.h a i j = dxArr c.L c.h b i j := by
    intro a b hab i j
    unfold dxArr
    split_ifs with h
    · rw [hab (i + 1) j (by omega) (by omega) (by omega) (by omega), hab (i - 1) j (by omega) (by omega) (by omega) (by omega)]
    · rfl
  have dy : ∀ a b : ℤ → ℤ → ℝ, SameOn (c.L + 1) a b → ∀ i j, dyArr c.L c.h a i j = dyArr c.L c.h b i j := by
    intro a b hab i j
    unfold dyArr
    split_ifs with h
    · rw [hab i (j + 1) (by omega) (by omega) (by omega) (by omega), hab i (j - 1) (by omega) (by omega) (by omega) (by omega)]
    · rfl
  have on : ∀ {i : ℤ}, OnGrid c.L i → 0 ≤ i ∧ i < c.L + 1 := fun h => ⟨h.1, by have := h.2; omega⟩
  have inn : ∀ {i : ℤ}, Inner c.L i → 0 ≤ i ∧ i < c.L + 1 := fun h => ⟨by have := h.1; omega, by have := h.2; omega⟩
  have ex : SameOn (c.L + 1) (gpuCalcEx c F b1 b0 (Cur.total cf) (Cur.total cp)) (calcEx c G b1' b0' (Cur.total cf') (Cur.total cp')) := by
    intro i j i0 i1 j0 j1
    unfold gpuCalcEx calcEx
    refine gpuMixSolve_same c.L hL c.h c.κ _ _ (fun a b ha hb => ?_) j i ⟨j0, by omega⟩
    obtain ⟨a0, a1⟩ := inn ha
    obtain ⟨b0, b1⟩ := on hb
    simp only [djDxi]
    rw [dx _ _ ro, f2 b a b0 b1 a0 a1, p2 b a b0 b1 a0 a1, x1 b a b0 b1 a0 a1]
  have ey : SameOn (c.L + 1) (gpuCalcEy c F b1 b0 (Cur.total cf) (Cur.total cp)) (calcEy c G b1' b0' (Cur.total cf') (Cur.total cp')) := by
    intro i j i0 i1 j0 j1
    unfold gpuCalcEy calcEy
    refine gpuMixSolve_same c.L hL c.h c.κ _ _ (fun a b ha hb => ?_) i j ⟨i0, by omega⟩
    obtain ⟨a0, a1⟩ := inn ha
    obtain ⟨b0, b1⟩ := on hb
    simp only [djDxi]
    rw [dy _ _ ro, f3 a b a0 a1 b0 b1, p3 a b a0 a1 b0 b1, x2 a b a0 a1 b0 b1]
  have bx : SameOn (c.L + 1) (gpuCalcBx c F b1 b0 (Cur.total cf) (Cur.total cp)) (calcBx c G b1' b0' (Cur.total cf') (Cur.total cp')) := by
    intro i j i0 i1 j0 j1
    unfold gpuCalcBx calcBx
    refine gpuMixSolve_same c.L hL c.h c.κ _ _ (fun a b ha hb => ?_) i j ⟨i0, by omega⟩
    obtain ⟨a0, a1⟩ := inn ha
    obtain ⟨b0, b1⟩ := on hb
    simp only [djDxi]
    rw [dy _ _ jz, f3 a b a0 a1 b0 b1, p3 a b a0 a1 b0 b1, x4 a b a0 a1 b0 b1]
  have by' : SameOn (c.L + 1) (gpuCalcBy c F b1 b0 (Cur.total cf) (Cur.total cp)) (calcBy c G b1' b0' (Cur.total cf') (Cur.total cp')) := by
    intro i j i0 i1 j0 j1
    unfold gpuCalcBy calcBy
    refine gpuMixSolve_same c.L hL c.h c.κ _ _ (fun a b ha hb => ?_) j i ⟨j0, by omega⟩
    obtain ⟨a0, a1⟩ := inn ha
    obtain ⟨b0, b1⟩ := on hb
    simp only [djDxi]
    rw [dx _ _ jz, f2 b a b0 b1 a0 a1, p2 b a b0 b1 a0 a1, x5 b a b0 b1 a0 a1]
  have ez : gpuCalcEz c.L c.h (Cur.total cf) = calcEz c.L c.h (Cur.total cf') := by
    refine gpuDirichletSolve_same c.L hL c.h _ _ fun i j hi hj => ?_
    have hi := hi; have hj := hj
    unfold Inner at hi hj
    unfold ezRhs
    rw [f2 (i + 1) j (by omega) (by omega) (by omega) (by omega), f2 (i - 1) j (by omega) (by omega) (by omega) (by omega),
      f3 i (j + 1) (by omega) (by omega) (by omega) (by omega), f3 i (j - 1) (by omega) (by omega) (by omega) (by omega)]
  have phi : gpuCalcPhi c.L c.h (Cur.total cf) = calcPhi c.L c.h (Cur.total cf') := by
    refine gpuDirichletSolve_same c.L hL c.h _ _ fun i j hi hj => ?_
    obtain ⟨i0, i1⟩ := inn hi
    obtain ⟨j0, j1⟩ := inn hj
    rw [f1 i j i0 i1 j0 j1, f4 i j i0 i1 j0 j1]
  have bz : gpuCalcBz c.L c.h (Cur.total cf) = calcBz c.L c.h (Cur.total cf') := by
    have : gpuNeumannSolve c.L c.h (bzRhs c.L c.h (Cur.total cf).jx (Cur.total cf).jy) = neumannSolve c.L c.h (bzRhs c.L c.h (Cur.total cf').jx (Cur.total cf').jy) := by
      funext i j
      refine gpuNeumannSolve_same c.L hL c.h _ _ (fun i j hi hj => ?_) i j
      unfold bzRhs pad1
      split_ifs with h
      · beta_reduce
        rw [f2 i (j + 1) (by omega) (by omega) (by omega) (by omega), f2 i (j - 1) (by omega) (by omega) (by omega) (by omega),
          f3 (i + 1) j (by omega) (by omega) (by omega) (by omega), f3 (i - 1) j (by omega) (by omega) (by omega) (by omega)]
      · rfl
    unfold gpuCalcBz calcBz
    simp only [this]
  unfold gpuComputeFields computeFields
  simp only [ez, phi, bz]
  refine ⟨⟨?_, ?_, .refl _ _, ?_, ?_, .refl _ _, .refl _ _⟩, ⟨ex, ey, ?_, bx, by', ?_, .refl _ _⟩⟩ <;> intro i j i0 i1 j0 j1 <;> simp only
  · rw [ex i j i0 i1 j0 j1, y1 i j i0 i1 j0 j1]
  · rw [ey i j i0 i1 j0 j1, y2 i j i0 i1 j0 j1]
  · rw [bx i j i0 i1 j0 j1, y4 i j i0 i1 j0 j1]
  · rw [by' i j i0 i1 j0 j1, y5 i j i0 i1 j0 j1]
  · rw [y3 i j i0 i1 j0 j1]
  · rw [y6 i j i0 i1 j0 j1]

end Lcode.Plasma3D
