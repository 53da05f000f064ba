import Verif.Plasma3D.Step

/-!
Model of the GPU kernels of lcode/plasma3d/weights.py:131-190, lcode/plasma3d/move.py:169-313 and lcode/plasma3d/noise_filter.py:8-50. Property C47.
The kernels index two-dimensional arrays with one number (cupy's `raw` arguments: the row-major number of the element, whatever the strides of the array), and add to the density arrays with
`atomicAdd`, in an order that nothing fixes. Numbers are real: the order matters for nothing but rounding.
-/

namespace Lcode.Plasma3D

/-! ### Model -/

/-- The device function weight4, weights.py:131-153. -/
noncomputable def weight4G (x : ℝ) (place : ℤ) : ℝ :=
  if place = -2 then (1 / 2 - x) * (1 / 2 - x) * (1 / 2 - x) * (1 / 2 - x) / 24
  else if place = -1 then 19 / 96 - 11 / 24 * x + x * x / 4 + x * x * x / 6 - x * x * x * x / 6
  else if place = 0 then 115 / 192 - 5 / 8 * x * x + x * x * x * x / 4
  else if place = 1 then 19 / 96 + 11 / 24 * x + x * x / 4 - x * x * x / 6 - x * x * x * x / 6
  else if place = 2 then (1 / 2 + x) * (1 / 2 + x) * (1 / 2 + x) * (1 / 2 + x) / 24
  else 0

/-- `a[idx]` for an N x N array passed as `raw`: element number `idx` in row-major order. Numbers outside 0 .. N*N-1 name no element; the model gives them rows outside 0 .. N-1. -/
def rawAt (N : ℤ) (a : ℤ → ℤ → ℝ) (idx : ℤ) : ℝ := a (idx / N) (idx % N)

/-- `atomicAdd(&a[idx], v)`, weights.py:182-185. -/
noncomputable def atomicAdd (N : ℤ) (a : ℤ → ℤ → ℝ) (t : ℤ × ℝ) : ℤ → ℤ → ℝ := addAt2 a (t.1 / N) (t.1 % N) t.2

/-- `idx = (iy + ky) + (int) grid_steps * (ix + kx)` with `ix = floor(x_h) + floor(grid_steps / 2)`, weights.py:173-174 and 180, move.py:219-220 and 227. -/
noncomputable def gpuIdx (N : ℤ) (xh yh : ℝ) (kx ky : ℤ) : ℤ := (⌊yh⌋ + N / 2 + ky) + N * (⌊xh⌋ + N / 2 + kx)

/-- The 25 additions of the amount `v` of one particle, weights.py:171-187. -/
noncomputable def gpuIncs (N : ℤ) (h xh yh v : ℝ) : List (ℤ × ℝ) :=
  places.flatMap fun kx => places.map fun ky =>
    (gpuIdx N xh yh kx ky, v * (weight4G (xh - ⌊xh⌋ - 0.5) kx / h * weight4G (yh - ⌊yh⌋ - 0.5) ky / h))

/-- gamma_m and dro of the kernel, weights.py:166-168. -/
noncomputable def gammaG (p : Ptl) : ℝ := Real.sqrt (p.m * p.m + p.px * p.px + p.py * p.py + p.pz * p.pz)
noncomputable def droG (p : Ptl) : ℝ := p.q / (1 - p.pz / gammaG p)

/-- All additions of one kernel call to one array: `amount` is dro, djx, djy or djz; x_h and y_h of weights.py:268-271. -/
noncomputable def sortIncs (N : ℤ) (h : ℝ) (amount : Ptl → ℝ) (ps : List Ptl) : List (ℤ × ℝ) :=
  ps.flatMap fun p => if p.q = 0 then [] else gpuIncs N h ((p.x0 + p.x) / h + 0.5) ((p.y0 + p.y) / h + 0.5) (amount p)

/-- The arrays `o` can be left behind by the deposition kernel, weights.py:155-190: the additions to each of the four arrays have been done, in some order. -/
def GpuDeposited (N : ℤ) (h : ℝ) (ps : List Ptl) (o : Cur) : Prop :=
  ∃ s1 s2 s3 s4 : List (ℤ × ℝ),
    s1.Perm (sortIncs N h droG ps) ∧ s2.Perm (sortIncs N h (fun p => p.px * (droG p / gammaG p)) ps) ∧
    s3.Perm (sortIncs N h (fun p => p.py * (droG p / gammaG p)) ps) ∧ s4.Perm (sortIncs N h (fun p => p.pz * (droG p / gammaG p)) ps) ∧
    o = ⟨s1.foldl (atomicAdd N) (fun _ _ => 0), s2.foldl (atomicAdd N) (fun _ _ => 0), s3.foldl (atomicAdd N) (fun _ _ => 0), s4.foldl (atomicAdd N) (fun _ _ => 0)⟩

/-- Interpolation of one field to a position, move.py:214-233. -/
noncomputable def gpuInterp (N : ℤ) (h x y : ℝ) (F : ℤ → ℤ → ℝ) : ℝ :=
  let xh := x / h + 0.5
  let yh := y / h + 0.5
  (places.flatMap fun kx => places.map fun ky => (gpuIdx N xh yh kx ky, weight4G (xh - ⌊xh⌋ - 0.5) kx * weight4G (yh - ⌊yh⌋ - 0.5) ky)).foldl
    (fun s t => s + rawAt N F t.1 * t.2) 0

/-- x_halfstep, y_halfstep and px, py, pz while they are reflected, move.py:195-212. -/
structure HalfG where
  x : ℝ
  y : ℝ
  p : Vec3

/-- The four `if`s, move.py:198-212. -/
noncomputable def halfRight (b : ℝ) (s : HalfG) : HalfG := if s.x > b then ⟨2 * b - s.x, s.y, ⟨0, 0, 0⟩⟩ else s
noncomputable def halfLeft (b : ℝ) (s : HalfG) : HalfG := if s.x < -b then ⟨-2 * b - s.x, s.y, ⟨0, 0, 0⟩⟩ else s
noncomputable def halfTop (b : ℝ) (s : HalfG) : HalfG := if s.y > b then ⟨s.x, 2 * b - s.y, ⟨0, 0, 0⟩⟩ else s
noncomputable def halfBottom (b : ℝ) (s : HalfG) : HalfG := if s.y < -b then ⟨s.x, -2 * b - s.y, ⟨0, 0, 0⟩⟩ else s
noncomputable def gpuHalf (c : MCfg) (prev full : Ptl) : HalfG :=
  halfBottom c.boundary (halfTop c.boundary (halfLeft c.boundary (halfRight c.boundary
    ⟨prev.x0 + (prev.x + full.x) / 2, prev.y0 + (prev.y + full.y) / 2, ⟨prev.px, prev.py, prev.pz⟩⟩)))

/-- dpx, dpy, dpz from the momentum `p`, move.py:238-243 and 246-251. -/
noncomputable def kickG (q m dxi : ℝ) (E B p : Vec3) : Vec3 :=
  let gm := Real.sqrt (m * m + p.x * p.x + p.y * p.y + p.z * p.z)
  let vx := p.x / gm
  let vy := p.y / gm
  let vz := p.z / gm
  let factor := q * dxi / (1 - p.z / gm)
  ⟨factor * (E.x + vy * B.z - vz * B.y), factor * (E.y - vx * B.z + vz * B.x), factor * (E.z + vx * B.y - vy * B.x)⟩

/-- x, y, x_offt, y_offt and px, py, pz while they are reflected, move.py:259-279. -/
structure EndG where
  x : ℝ
  y : ℝ
  xo : ℝ
  yo : ℝ
  p : Vec3

noncomputable def endRight (b x0 : ℝ) (s : EndG) : EndG := if s.x > b then ⟨2 * b - s.x, s.y, 2 * b - s.x - x0, s.yo, ⟨0, 0, 0⟩⟩ else s
noncomputable def endLeft (b x0 : ℝ) (s : EndG) : EndG := if s.x < -b then ⟨-2 * b - s.x, s.y, -2 * b - s.x - x0, s.yo, ⟨0, 0, 0⟩⟩ else s
noncomputable def endTop (b y0 : ℝ) (s : EndG) : EndG := if s.y > b then ⟨s.x, 2 * b - s.y, s.xo, 2 * b - s.y - y0, ⟨0, 0, 0⟩⟩ else s
noncomputable def endBottom (b y0 : ℝ) (s : EndG) : EndG := if s.y < -b then ⟨s.x, -2 * b - s.y, s.xo, -2 * b - s.y - y0, ⟨0, 0, 0⟩⟩ else s

/-- From the increments to the arrays, move.py:254-290. -/
noncomputable def finishG (c : MCfg) (prev full : Ptl) (op mid d : Vec3) : Ptl :=
  let b := c.boundary
  let gm := Real.sqrt (full.m * full.m + mid.x * mid.x + mid.y * mid.y + mid.z * mid.z)
  let xo := prev.x + mid.x / (gm - mid.z) * c.dxi
  let yo := prev.y + mid.y / (gm - mid.z) * c.dxi
  let s := endBottom b prev.y0 (endTop b prev.y0 (endLeft b prev.x0 (endRight b prev.x0 ⟨prev.x0 + xo, prev.y0 + yo, xo, yo, ⟨op.x + d.x, op.y + d.y, op.z + d.z⟩⟩)))
  if s.x ≥ b ∨ s.x ≤ -b ∨ s.y ≥ b ∨ s.y ≤ -b then { full with x := 0, y := 0, px := 0, py := 0, pz := 0, q := 0 }
  else { full with x := s.xo, y := s.yo, px := s.p.x, py := s.p.y, pz := s.p.z }

/-- One thread of move_smart_cupy, move.py:190-290. -/
noncomputable def gpuMoveOne (c : MCfg) (F : Fields3) (prev full : Ptl) : Ptl :=
  if full.q = 0 then full
  else
    let s := gpuHalf c prev full
    let E : Vec3 := ⟨gpuInterp c.N c.h s.x s.y F.Ex, gpuInterp c.N c.h s.x s.y F.Ey, gpuInterp c.N c.h s.x s.y F.Ez⟩
    let B : Vec3 := ⟨gpuInterp c.N c.h s.x s.y F.Bx, gpuInterp c.N c.h s.x s.y F.By, gpuInterp c.N c.h s.x s.y F.Bz⟩
    let op : Vec3 := ⟨prev.px, prev.py, prev.pz⟩
    let d1 := kickG full.q full.m c.dxi E B s.p
    let p1 : Vec3 := ⟨op.x + d1.x / 2, op.y + d1.y / 2, op.z + d1.z / 2⟩
    let d := kickG full.q full.m c.dxi E B p1
    finishG c prev full op ⟨op.x + d.x / 2, op.y + d.y / 2, op.z + d.z / 2⟩ d

/-- One thread of move_wo_fields_cupy, move.py:303-311. -/
noncomputable def gpuMoveFree (dxi : ℝ) (p : Ptl) : Ptl :=
  if p.m = 0 then p
  else
    let gm := Real.sqrt (p.m * p.m + p.px * p.px + p.py * p.py + p.pz * p.pz)
    { p with x := p.x + p.px / (gm - p.pz) * dxi, y := p.y + p.py / (gm - p.pz) * dxi }

open Classical in
/-- One thread of calculate_inhomogeneity_kernel, noise_filter.py:18-35: the element number `i` of d_inhom, which starts at zero (noise_filter.py:42). -/
noncomputable def gpuInhomThread (size : ℤ) (d : ℤ → ℝ) (i : ℤ) : ℝ :=
  if i % size ≠ 0 ∧ (i + 1) % size ≠ 0 then
    (if d (i - 1) ≠ 0 ∧ d i ≠ 0 ∧ d (i + 1) ≠ 0 then d i - (d (i - 1) + d (i + 1)) / 2 else 0)
  else if i % size = 0 then
    (if d i ≠ 0 ∧ d (i + 1) ≠ 0 ∧ d (i + 2) ≠ 0 then d i - 2 * d (i + 1) + d (i + 2) else 0)
  else (if d i ≠ 0 ∧ d (i - 1) ≠ 0 ∧ d (i - 2) ≠ 0 then d i - 2 * d (i - 1) + d (i - 2) else 0)

/-- calculate_inhomogeneity_cupy with axis 0, noise_filter.py:37-50: ravel, kernel, reshape. -/
noncomputable def gpuInhom0 (n : ℤ) (d : ℤ → ℤ → ℝ) (i j : ℤ) : ℝ := gpuInhomThread n (fun k => d (k / n) (k % n)) (i * n + j)
/-- calculate_inhomogeneity_cupy with axis 1, noise_filter.py:37-50: the same on the transposed array, transposed back. -/
noncomputable def gpuInhom1 (n : ℤ) (d : ℤ → ℤ → ℝ) (i j : ℤ) : ℝ := gpuInhom0 n (fun a b => d b a) j i

/-! ### Specification -/

/-- The same values at the nodes of the N x N grid. -/
def SameOn (N : ℤ) (a b : ℤ → ℤ → ℝ) : Prop := ∀ i j : ℤ, 0 ≤ i → i < N → 0 ≤ j → j < N → a i j = b i j

/-- The same values of all fields at the nodes of the grid. -/
def SameFields (N : ℤ) (F G : Fields3) : Prop :=
  SameOn N F.Ex G.Ex ∧ SameOn N F.Ey G.Ey ∧ SameOn N F.Ez G.Ez ∧ SameOn N F.Bx G.Bx ∧ SameOn N F.By G.By ∧ SameOn N F.Bz G.Bz ∧ SameOn N F.Phi G.Phi

/-! ### C47: weights and numbering -/

/-- C47: the weights of both versions are the same polynomials. -/
theorem weight4G_eq (x : ℝ) (k : ℤ) (hk : k ∈ places) : weight4G x k = weight4 x k := by
  simp only [places, List.mem_cons, List.not_mem_nil, or_false] at hk
  rcases hk with rfl | rfl | rfl | rfl | rfl <;> norm_num [weight4G, weight4] <;> ring

/-- The number of a node of the grid determines the node. -/
theorem flat_node (N i j : ℤ) (h0 : 0 ≤ j) (h1 : j < N) : (j + N * i) / N = i ∧ (j + N * i) % N = j := by
  have hN : N ≠ 0 := by omega
  constructor
  · rw [Int.add_mul_ediv_left _ _ hN, Int.ediv_eq_zero_of_lt h0 h1, zero_add]
  · rw [Int.add_mul_emod_self_left, Int.emod_eq_of_lt h0 h1]

/-- C47, finding: a column number that is out of range is not noticed: it names a node of the next row. -/
theorem flat_wraps (N i : ℤ) (hN : 0 < N) : (N + N * i) / N = i + 1 ∧ (N + N * i) % N = 0 := by
  constructor
  · rw [Int.add_mul_ediv_left _ _ hN.ne', Int.ediv_self hN.ne', add_comm]
  · simp

theorem gpuIncs_stencil (N : ℤ) (h xh yh v : ℝ) : gpuIncs N h xh yh v = (stencil N h xh yh).map fun t => (t.2.1 + N * t.1, v * t.2.2) := by
  unfold gpuIncs stencil
  rw [List.map_flatMap]
  refine List.flatMap_congr fun kx hkx => ?_
  rw [List.map_map]
  refine List.map_congr_left fun ky hky => ?_
  simp only [Function.comp, Prod.mk.injEq]
  constructor
  · unfold gpuIdx cellOf; ring
  · rw [weight4G_eq _ _ hkx, weight4G_eq _ _ hky]
    unfold localOf
    norm_num

/-! ### C47: deposition -/

theorem foldl_atomicAdd (N : ℤ) (l : List (ℤ × ℝ)) (a : ℤ → ℤ → ℝ) (i j : ℤ) :
    l.foldl (atomicAdd N) a i j = a i j + (l.map fun t => if i = t.1 / N ∧ j = t.1 % N then t.2 else 0).sum := by
  induction l generalizing a with
  | nil => simp
  | cons t l ih =>
    rw [List.foldl_cons, ih]
    simp only [List.map_cons, List.sum_cons, atomicAdd, addAt2]
    split_ifs <;> ring

/-- The additions of the CPU loop to one array, in program order. -/
theorem foldl_cpu (N : ℤ) (h : ℝ) (f : Ptl → ℝ) (ps : List Ptl) (a : ℤ → ℤ → ℝ) (i j : ℤ) :
    ps.foldl (fun a p => if p.q = 0 then a else depositAmount N h ((p.x0 + p.x) / h + 1 / 2) ((p.y0 + p.y) / h + 1 / 2) (f p) a) a i j =
      a i j + ((ps.flatMap fun p => if p.q = 0 then [] else (stencil N h ((p.x0 + p.x) / h + 1 / 2) ((p.y0 + p.y) / h + 1 / 2)).map fun t => (t.1, t.2.1, f p * t.2.2)).map
        fun t => if i = t.1 ∧ j = t.2.1 then t.2.2 else 0).sum := by
  induction ps generalizing a with
  | nil => simp
  | cons p ps ih =>
    rw [List.foldl_cons, ih, List.flatMap_cons, List.map_append, List.sum_append]
    split_ifs with hq
    · simp
    · rw [depositAmount, foldl_addAt2, List.map_map]
      simp only [Function.comp_def]
      ring

theorem depositSort_fields (N : ℤ) (h : ℝ) (ps : List Ptl) (c : Cur) :
    ps.foldl (depositOne N h) c =
      ⟨ps.foldl (fun a p => if p.q = 0 then a else depositAmount N h ((p.x0 + p.x) / h + 1 / 2) ((p.y0 + p.y) / h + 1 / 2) (dro p) a) c.ro,
       ps.foldl (fun a p => if p.q = 0 then a else depositAmount N h ((p.x0 + p.x) / h + 1 / 2) ((p.y0 + p.y) / h + 1 / 2) (p.px * (dro p / gammaM p.m p.px p.py p.pz)) a) c.jx,
       ps.foldl (fun a p => if p.q = 0 then a else depositAmount N h ((p.x0 + p.x) / h + 1 / 2) ((p.y0 + p.y) / h + 1 / 2) (p.py * (dro p / gammaM p.m p.px p.py p.pz)) a) c.jy,
       ps.foldl (fun a p => if p.q = 0 then a else depositAmount N h ((p.x0 + p.x) / h + 1 / 2) ((p.y0 + p.y) / h + 1 / 2) (p.pz * (dro p / gammaM p.m p.px p.py p.pz)) a) c.jz⟩ := by
  induction ps generalizing c with
  | nil => rfl
  | cons p ps ih =>
    simp only [List.foldl_cons]
    rw [ih]
    by_cases hq : p.q = 0
    · simp only [depositOne, if_pos hq]
    · simp only [depositOne, if_neg hq]

theorem gammaG_eq (p : Ptl) : gammaG p = gammaM p.m p.px p.py p.pz := by unfold gammaG gammaM; congr 1; ring
theorem droG_eq (p : Ptl) : droG p = dro p := by unfold droG dro; rw [gammaG_eq]

/-- One array: any order of the additions gives what the CPU loop gives, at every node, if all nodes touched exist. -/
theorem atomic_array (N : ℤ) (h : ℝ) (f g : Ptl → ℝ) (hfg : ∀ p, f p = g p) (ps : List Ptl) (hin : ∀ t ∈ touched N h ps, 0 ≤ t.2 ∧ t.2 < N) (s : List (ℤ × ℝ)) (hs : s.Perm (sortIncs N h f ps)) :
    s.foldl (atomicAdd N) (fun _ _ => 0) =
      ps.foldl (fun a p => if p.q = 0 then a else depositAmount N h ((p.x0 + p.x) / h + 1 / 2) ((p.y0 + p.y) / h + 1 / 2) (g p) a) (fun _ _ => 0) := by
  funext i j
  rw [foldl_atomicAdd, foldl_cpu]
  congr 1
  rw [(hs.map _).sum_eq]
  unfold sortIncs
  clear hs
  induction ps with
  | nil => simp
  | cons p ps ih =>
    rw [List.flatMap_cons, List.flatMap_cons, List.map_append, List.map_append, List.sum_append, List.sum_append,
      ih (fun t ht => hin t (by unfold touched at ht ⊢; rw [List.flatMap_cons]; exact List.mem_append_right _ ht))]
    congr 1
    split_ifs with hq
    · rfl
    · have e : ((p.x0 + p.x) / h + 0.5 : ℝ) = (p.x0 + p.x) / h + 1 / 2 := by norm_num
      have e' : ((p.y0 + p.y) / h + 0.5 : ℝ) = (p.y0 + p.y) / h + 1 / 2 := by norm_num
      rw [e, e', gpuIncs_stencil, List.map_map, List.map_map]
      congr 1
      refine List.map_congr_left fun t ht => ?_
      obtain ⟨b0, b1⟩ := hin (t.1, t.2.1) (by
        unfold touched
        rw [List.flatMap_cons, if_neg hq]
        exact List.mem_append_left _ (List.mem_map.mpr ⟨t, ht, rfl⟩))
      obtain ⟨e1, e2⟩ := flat_node N t.1 t.2.1 b0 b1
      simp only [Function.comp, e1, e2, hfg]

/-- C47: whatever the order in which the threads add, the GPU leaves the charge density and the currents of the CPU, as long as all nodes touched exist (touched_inside says when). -/
theorem gpu_deposit_same (N : ℤ) (h : ℝ) (ps : List Ptl) (hin : ∀ t ∈ touched N h ps, 0 ≤ t.2 ∧ t.2 < N) (o : Cur) (ho : GpuDeposited N h ps o) : o = depositSort N h ps := by
  obtain ⟨s1, s2, s3, s4, h1, h2, h3, h4, rfl⟩ := ho
  unfold depositSort
  rw [depositSort_fields]
  simp only [Cur.zero]
  rw [atomic_array N h _ dro droG_eq ps hin s1 h1,
    atomic_array N h _ (fun p => p.px * (dro p / gammaM p.m p.px p.py p.pz)) (fun p => by rw [droG_eq, gammaG_eq]) ps hin s2 h2,
    atomic_array N h _ (fun p => p.py * (dro p / gammaM p.m p.px p.py p.pz)) (fun p => by rw [droG_eq, gammaG_eq]) ps hin s3 h3,
    atomic_array N h _ (fun p => p.pz * (dro p / gammaM p.m p.px p.py p.pz)) (fun p => by rw [droG_eq, gammaG_eq]) ps hin s4 h4]

/-- Some result always exists: the program order is one of the orders. -/
theorem gpu_deposit_exists (N : ℤ) (h : ℝ) (ps : List Ptl) : ∃ o, GpuDeposited N h ps o := ⟨_, _, _, _, _, .refl _, .refl _, .refl _, .refl _, rfl⟩

/-! ### C47: the pusher -/

/-- C47: interpolation reads the same nodes with the same weights, if they exist. -/
theorem gpuInterp_same (c : MCfg) (x y : ℝ) (F G : ℤ → ℤ → ℝ) (hFG : SameOn c.N F G) (hin : ∀ t ∈ readNodes c x y, 0 ≤ t.1 ∧ t.1 < c.N ∧ 0 ≤ t.2 ∧ t.2 < c.N) :
    gpuInterp c.N c.h x y F = interpolate c.N (x / c.h + 1 / 2) (y / c.h + 1 / 2) G := by
  have e : (places.flatMap fun kx => places.map fun ky => (gpuIdx c.N (x / c.h + 0.5) (y / c.h + 0.5) kx ky,
      weight4G (x / c.h + 0.5 - ⌊x / c.h + 0.5⌋ - 0.5) kx * weight4G (y / c.h + 0.5 - ⌊y / c.h + 0.5⌋ - 0.5) ky)) =
      (stencil c.N 1 (x / c.h + 1 / 2) (y / c.h + 1 / 2)).map fun t => (t.2.1 + c.N * t.1, t.2.2) := by
    have := gpuIncs_stencil c.N 1 (x / c.h + 1 / 2) (y / c.h + 1 / 2) 1
    simp only [one_mul] at this
    rw [← this]
    unfold gpuIncs
    norm_num
  unfold gpuInterp
  simp only
  rw [e, List.foldl_map]
  unfold interpolate
  unfold readNodes at hin
  generalize stencil c.N 1 (x / c.h + 1 / 2) (y / c.h + 1 / 2) = l at hin
  have key : ∀ (l : List (ℤ × ℤ × ℝ)) (s : ℝ), (∀ t ∈ l.map fun t => (t.1, t.2.1), 0 ≤ t.1 ∧ t.1 < c.N ∧ 0 ≤ t.2 ∧ t.2 < c.N) →
      l.foldl (fun s t => s + rawAt c.N F (t.2.1 + c.N * t.1) * t.2.2) s = l.foldl (fun s t => s + G t.1 t.2.1 * t.2.2) s := by
    intro l
    induction l with
    | nil => intro s _; rfl
    | cons t l ih =>
      intro s hl
      simp only [List.map_cons, List.forall_mem_cons] at hl
      obtain ⟨⟨a1, a2, a3, a4⟩, hl⟩ := hl
      simp only [List.foldl_cons]
      rw [ih _ hl]
      obtain ⟨e1, e2⟩ := flat_node c.N t.1 t.2.1 a3 a4
      simp only [rawAt, e1, e2, hFG _ _ a1 a2 a3 a4]
  exact key l 0 hin

theorem gpuHalf_eq (c : MCfg) (prev full : Ptl) : gpuHalf c prev full = ⟨(half3 c prev full).x, (half3 c prev full).y, (half3 c prev full).p⟩ := by
  have h1 : ∀ b x0 (s : Corr), (⟨(reflRight b x0 s).x, (reflRight b x0 s).y, (reflRight b x0 s).p⟩ : HalfG) = halfRight b ⟨s.x, s.y, s.p⟩ := by
    intro b x0 s; unfold reflRight halfRight; simp only; split_ifs <;> rfl
  have h2 : ∀ b x0 (s : Corr), (⟨(reflLeft b x0 s).x, (reflLeft b x0 s).y, (reflLeft b x0 s).p⟩ : HalfG) = halfLeft b ⟨s.x, s.y, s.p⟩ := by
    intro b x0 s; unfold reflLeft halfLeft; simp only; split_ifs <;> rfl
  have h3 : ∀ b y0 (s : Corr), (⟨(reflTop b y0 s).x, (reflTop b y0 s).y, (reflTop b y0 s).p⟩ : HalfG) = halfTop b ⟨s.x, s.y, s.p⟩ := by
    intro b y0 s; unfold reflTop halfTop; simp only; split_ifs <;> rfl
  have h4 : ∀ b y0 (s : Corr), (⟨(reflBottom b y0 s).x, (reflBottom b y0 s).y, (reflBottom b y0 s).p⟩ : HalfG) = halfBottom b ⟨s.x, s.y, s.p⟩ := by
    intro b y0 s; unfold reflBottom halfBottom; simp only; split_ifs <;> rfl
  unfold gpuHalf half3 correctBoundary
  rw [h4, h3, h2, h1]

theorem kickG_eq (q m dxi : ℝ) (E B p : Vec3) : kickG q m dxi E B p = kick3 q m dxi E B p := by
  unfold kickG kick3
  rw [show m * m + p.x * p.x + p.y * p.y + p.z * p.z = m ^ 2 + p.z ^ 2 + p.x ^ 2 + p.y ^ 2 by ring]

theorem finishG_eq (c : MCfg) (prev full : Ptl) (op mid d : Vec3) : finishG c prev full op mid d = finish3 c prev full op mid d := by
  have h1 : ∀ b x0 (s : Corr), (⟨(reflRight b x0 s).x, (reflRight b x0 s).y, (reflRight b x0 s).xo, (reflRight b x0 s).yo, (reflRight b x0 s).p⟩ : EndG) = endRight b x0 ⟨s.x, s.y, s.xo, s.yo, s.p⟩ := by
    intro b x0 s; unfold reflRight endRight; simp only; split_ifs <;> rfl
  have h2 : ∀ b x0 (s : Corr), (⟨(reflLeft b x0 s).x, (reflLeft b x0 s).y, (reflLeft b x0 s).xo, (reflLeft b x0 s).yo, (reflLeft b x0 s).p⟩ : EndG) = endLeft b x0 ⟨s.x, s.y, s.xo, s.yo, s.p⟩ := by
    intro b x0 s; unfold reflLeft endLeft; simp only; split_ifs <;> rfl
  have h3 : ∀ b y0 (s : Corr), (⟨(reflTop b y0 s).x, (reflTop b y0 s).y, (reflTop b y0 s).xo, (reflTop b y0 s).yo, (reflTop b y0 s).p⟩ : EndG) = endTop b y0 ⟨s.x, s.y, s.xo, s.yo, s.p⟩ := by
    intro b y0 s; unfold reflTop endTop; simp only; split_ifs <;> rfl
  have h4 : ∀ b y0 (s : Corr), (⟨(reflBottom b y0 s).x, (reflBottom b y0 s).y, (reflBottom b y0 s).xo, (reflBottom b y0 s).yo, (reflBottom b y0 s).p⟩ : EndG) = endBottom b y0 ⟨s.x, s.y, s.xo, s.yo, s.p⟩ := by
    intro b y0 s; unfold reflBottom endBottom; simp only; split_ifs <;> rfl
  unfold finishG finish3
  rw [show full.m * full.m + mid.x * mid.x + mid.y * mid.y + mid.z * mid.z = full.m ^ 2 + mid.z ^ 2 + mid.x ^ 2 + mid.y ^ 2 by ring]
  simp only
  generalize Real.sqrt (full.m ^ 2 + mid.z ^ 2 + mid.x ^ 2 + mid.y ^ 2) = gm
  generalize prev.x + mid.x / (gm - mid.z) * c.dxi = xo
  generalize prev.y + mid.y / (gm - mid.z) * c.dxi = yo
  generalize (⟨op.x + d.x, op.y + d.y, op.z + d.z⟩ : Vec3) = p
  obtain ⟨m1, m2, m3, m4, -⟩ := correctBoundary_mirror prev.x0 prev.y0 xo yo p c.boundary
  have e := h4 c.boundary prev.y0 (reflTop c.boundary prev.y0 (reflLeft c.boundary prev.x0 (reflRight c.boundary prev.x0 ⟨prev.x0 + xo, prev.y0 + yo, xo, yo, p⟩)))
  rw [h3, h2, h1] at e
  simp only at e
  rw [← e]
  change (if (correctBoundary prev.x0 prev.y0 xo yo p c.boundary).x ≥ c.boundary ∨ (correctBoundary prev.x0 prev.y0 xo yo p c.boundary).x ≤ -c.boundary ∨
    (correctBoundary prev.x0 prev.y0 xo yo p c.boundary).y ≥ c.boundary ∨ (correctBoundary prev.x0 prev.y0 xo yo p c.boundary).y ≤ -c.boundary then _ else _) = _
  rw [m1, m2, m3, m4]
  rfl

/-- C47: the GPU pusher moves a particle as the CPU pusher does, if the nodes it reads exist. -/
theorem gpu_move_same (c : MCfg) (F G : Fields3) (hFG : SameFields c.N F G) (prev full : Ptl)
    (hin : full.q ≠ 0 → ∀ t ∈ readNodes c (half3 c prev full).x (half3 c prev full).y, 0 ≤ t.1 ∧ t.1 < c.N ∧ 0 ≤ t.2 ∧ t.2 < c.N) :
    gpuMoveOne c F prev full = moveOne c G prev full := by
  by_cases hq : full.q = 0
  · unfold gpuMoveOne moveOne; rw [if_pos hq, if_pos hq]
  · have hin := hin hq
    obtain ⟨s1, s2, s3, s4, s5, s6, -⟩ := hFG
    unfold gpuMoveOne moveOne
    rw [if_neg hq, if_neg hq]
    simp only [gpuHalf_eq, finishG_eq, kickG_eq, gpuInterp_same c _ _ _ _ s1 hin, gpuInterp_same c _ _ _ _ s2 hin, gpuInterp_same c _ _ _ _ s3 hin,
      gpuInterp_same c _ _ _ _ s4 hin, gpuInterp_same c _ _ _ _ s5 hin, gpuInterp_same c _ _ _ _ s6 hin]
    rfl

/-- C47: the free motion is the same. -/
theorem gpu_free_same (dxi : ℝ) (p : Ptl) : gpuMoveFree dxi p = moveFree dxi p := by
  unfold gpuMoveFree moveFree
  rw [show p.m * p.m + p.px * p.px + p.py * p.py + p.pz * p.pz = p.m ^ 2 + p.pz ^ 2 + p.px ^ 2 + p.py ^ 2 by ring]

/-! ### C47: the inhomogeneity of the noise filter -/

theorem gpu_inhom0 (n : ℤ) (hn : 3 ≤ n) (d : ℤ → ℤ → ℝ) (i j : ℤ) (hj : 0 ≤ j ∧ j < n) : gpuInhom0 n d i j = inhomRow n (fun j => d i j) j := by
  obtain ⟨h0, h1⟩ := hj
  have at' : ∀ k, 0 ≤ k → k < n → (fun k => d (k / n) (k % n)) (i * n + k) = d i k := by
    intro k a b
    obtain ⟨e1, e2⟩ := flat_node n i k a b
    simp only [show i * n + k = k + n * i by ring, e1, e2]
  have m0 : (i * n + j) % n = j := by rw [show i * n + j = j + n * i by ring]; exact (flat_node n i j h0 h1).2
  unfold gpuInhom0
  generalize (fun k => d (k / n) (k % n)) = e at at'
  unfold gpuInhomThread inhomRow
  rw [m0]
  rcases eq_or_lt_of_le h0 with hz | hz
  · obtain rfl := hz.symm
    rw [if_neg (by simp), if_pos rfl, if_pos rfl]
    rw [at' 0 le_rfl (by omega), show i * n + 0 + 1 = i * n + 1 by ring, show i * n + 0 + 2 = i * n + 2 by ring, at' 1 (by omega) (by omega), at' 2 (by omega) (by omega)]
  · rcases eq_or_lt_of_le (show j ≤ n - 1 by omega) with hl | hl
    · subst hl
      have m1 : (i * n + (n - 1) + 1) % n = 0 := by rw [show i * n + (n - 1) + 1 = n * (i + 1) by ring]; simp
      rw [m1, if_neg (by simp)]
      have g : ¬ (n - 1 = 0) := by omega
      simp only [g, if_false, if_true]
      rw [at' (n - 1) (by omega) (by omega), show i * n + (n - 1) - 1 = i * n + (n - 2) by ring, show i * n + (n - 1) - 2 = i * n + (n - 3) by ring, at' (n - 2) (by omega) (by omega), at' (n - 3) (by omega) (by omega)]
    · have m1 : (i * n + j + 1) % n = j + 1 := by rw [show i * n + j + 1 = (j + 1) + n * i by ring]; exact (flat_node n i (j + 1) (by omega) (by omega)).2
      rw [m1, if_pos (by omega)]
      have g : ¬ (j = 0) := by omega
      have g' : ¬ (j = n - 1) := by omega
      simp only [g, g', if_false]
      rw [at' j h0 h1, show i * n + j - 1 = i * n + (j - 1) by ring, show i * n + j + 1 = i * n + (j + 1) by ring, at' (j - 1) (by omega) (by omega), at' (j + 1) (by omega) (by omega)]
      have : (d i (j - 1) ≠ 0 ∧ d i j ≠ 0 ∧ d i (j + 1) ≠ 0) ↔ (d i j ≠ 0 ∧ d i (j - 1) ≠ 0 ∧ d i (j + 1) ≠ 0) := by tauto
      simp only [this]

/-- C47: with at least three particles in a row the noise filter of the GPU sees the inhomogeneity the CPU sees. -/
theorem gpu_inhom_same (n : ℤ) (hn : 3 ≤ n) (d : ℤ → ℤ → ℝ) (i j : ℤ) (hi : 0 ≤ i ∧ i < n) (hj : 0 ≤ j ∧ j < n) : (gpuInhom0 n d i j + gpuInhom1 n d i j) / 2 = inhom n d i j := by
  unfold gpuInhom1 inhom
  rw [gpu_inhom0 n hn d i j hj, gpu_inhom0 n hn _ j i hi]

/-- C47, finding: with two particles in a row the filter of the GPU does not fail: it takes the third value from the next row (the CPU version has no third column to read). -/
theorem gpu_inhom_two (d : ℤ → ℤ → ℝ) (h : d 0 0 ≠ 0 ∧ d 0 1 ≠ 0 ∧ d 1 0 ≠ 0) : gpuInhom0 2 d 0 0 = d 0 0 - 2 * d 0 1 + d 1 0 := by
  unfold gpuInhom0 gpuInhomThread
  norm_num [h]

end Lcode.Plasma3D
