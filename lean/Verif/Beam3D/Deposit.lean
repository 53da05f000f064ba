import Verif.Beam3D.Data
import Verif.Plasma3D.Weights
import Mathlib.Algebra.BigOperators.Field

/-!
Model of lcode/beam3d/weights.py (CPU branch) and BeamCalculator.layout_beam_layer of lcode/beam3d/beam_calculator.py. Property C31.
Charge densities on the N x N grid are functions of two integers.
-/

namespace Lcode.Beam3D

open Lcode.Plasma3D (stencil addAt2 bspline4 nodeOf depositAmount depositAmount_shape weight4 places cellOf localOf cell_inside stencil_inside axis_total)
open Finset

/-! ### Model -/

abbrev Grid := ℤ → ℤ → ℝ

/-- Numerical parameters of the 3D beam calculator: grid steps, transverse step, xi step. -/
structure BCfg where
  N : ℤ
  h : ℝ
  dxi : ℝ

/-- weight1, weights.py:9-14 -/
def weight1 (x : ℝ) (place : ℤ) : ℝ := if place = 0 then x else 1 - x

/-- One particle of deposit_beam_numba, weights.py:49-64 (`stencil N 1` lists the 25 nodes and weights `wx * wy`). -/
noncomputable def depositOne (N : ℤ) (xh yh xiLoc q : ℝ) (out : Grid × Grid) : Grid × Grid :=
  (stencil N 1 xh yh).foldl (fun o t =>
    (addAt2 o.1 t.1 t.2.1 (q * (t.2.2 * weight1 xiLoc 0)), addAt2 o.2 t.1 t.2.1 (q * (t.2.2 * weight1 xiLoc 1)))) out

/-- deposit_beam, weights.py:152-163, for the rows of a layer; `i` is plasma_layer_idx. -/
noncomputable def depositBeam (c : BCfg) (i : ℕ) (ps : List (Row ℝ)) (out0 out1 : Grid) : Grid × Grid :=
  ps.foldl (fun o p => depositOne c.N (p.x / c.h + 1 / 2) (p.y / c.h + 1 / 2) ((-c.dxi * i - p.xi) / c.dxi) p.qnorm o) (out0, out1)

/-- layout_beam_layer, beam_calculator.py:82-93: returns the density of layer `i` and the new `self.rho_layout`. -/
noncomputable def layoutBeamLayer (c : BCfg) (rhoLayout : Grid) (ps : List (Row ℝ)) (i : ℕ) : Grid × Grid :=
  let out := if ps.length ≠ 0 then depositBeam c i ps rhoLayout (fun _ _ => 0) else (rhoLayout, fun _ _ => 0)
  (fun a b => out.1 a b / c.h ^ 2, out.2)

/-- The densities a time step lays out for the layers `i, i+1, ...` with the given particles, and the charge kept for the layer after the last (push_solver.py:225, :236-241). -/
noncomputable def layoutSweep (c : BCfg) (rho : Grid) : ℕ → List (List (Row ℝ)) → List Grid × Grid
  | _, [] => ([], rho)
  | i, l :: ls =>
    let out := layoutBeamLayer c rho l i
    let rest := layoutSweep c out.2 (i + 1) ls
    (out.1 :: rest.1, rest.2)

/-! ### Specification -/

/-- Transverse shape of a particle on the node `(a, b)`: the product of two quartic splines of the distances in cells. -/
noncomputable def shape3 (c : BCfg) (p : Row ℝ) (a b : ℤ) : ℝ := bspline4 (p.x / c.h - nodeOf c.N a) * bspline4 (p.y / c.h - nodeOf c.N b)

/-- Piecewise linear weight of a layer at distance `z` layers. -/
noncomputable def hat (z : ℝ) : ℝ := max 0 (1 - |z|)

/-- Position of layer `k`. -/
def layerXi (c : BCfg) (k : ℕ) : ℝ := -(c.dxi * k)

/-- The particle mirrored about the middle of layer `i`. -/
noncomputable def mirrorXi (c : BCfg) (i : ℕ) (xi : ℝ) : ℝ := layerXi c i + layerXi c (i + 1) - xi

/-- The transverse position is far enough from the edge of the grid for the stencil (two nodes) to fit. -/
def FitsGrid (c : BCfg) (p : Row ℝ) : Prop := |p.x| < c.h * (c.N / 2 - 2) ∧ |p.y| < c.h * (c.N / 2 - 2)

/-- Charge represented by a density. -/
noncomputable def totalCharge (c : BCfg) (rho : Grid) : ℝ := ∑ a ∈ Finset.Ico 0 c.N, ∑ b ∈ Finset.Ico 0 c.N, rho a b * c.h ^ 2

/-! ### C31 -/

theorem hat_of_mem (x : ℝ) (h : |x| ≤ 1) : hat x = 1 - |x| := max_eq_right (by linarith)
theorem hat_of_far (x : ℝ) (h : 1 ≤ |x|) : hat x = 0 := max_eq_left (by linarith)

theorem depositOne_split (N : ℤ) (xh yh s q : ℝ) (out : Grid × Grid) :
    depositOne N xh yh s q out = (depositAmount N 1 xh yh (q * s) out.1, depositAmount N 1 xh yh (q * (1 - s)) out.2) := by
  unfold depositOne depositAmount
  generalize stencil N 1 xh yh = l
  induction l generalizing out with
  | nil => rfl
  | cons t l ih =>
    simp only [List.foldl_cons]
    rw [ih]
    have e0 : q * (t.2.2 * weight1 s 0) = q * s * t.2.2 := by simp [weight1]; ring
    have e1 : q * (t.2.2 * weight1 s 1) = q * (1 - s) * t.2.2 := by simp [weight1]; ring
    simp only [e0, e1]

theorem depositBeam_shape (c : BCfg) (i : ℕ) (ps : List (Row ℝ)) (out0 out1 : Grid) (a b : ℤ) :
    (depositBeam c i ps out0 out1).1 a b = out0 a b + (ps.map fun p => p.qnorm * ((layerXi c i - p.xi) / c.dxi) * shape3 c p a b).sum ∧
    (depositBeam c i ps out0 out1).2 a b = out1 a b + (ps.map fun p => p.qnorm * (1 - (layerXi c i - p.xi) / c.dxi) * shape3 c p a b).sum := by
  unfold depositBeam
  induction ps generalizing out0 out1 with
  | nil => simp
  | cons p ps ih =>
    rw [List.foldl_cons, depositOne_split]
    obtain ⟨h1, h2⟩ := ih (depositAmount c.N 1 (p.x / c.h + 1 / 2) (p.y / c.h + 1 / 2) (p.qnorm * ((-c.dxi * i - p.xi) / c.dxi)) out0)
      (depositAmount c.N 1 (p.x / c.h + 1 / 2) (p.y / c.h + 1 / 2) (p.qnorm * (1 - (-c.dxi * i - p.xi) / c.dxi)) out1)
    rw [h1, h2, depositAmount_shape, depositAmount_shape]
    simp only [List.map_cons, List.sum_cons, shape3, layerXi]
    constructor <;> ring_nf

/-- C31, one layer: on every node the density handed to the plasma stands for the charge kept from the previous layer plus each particle's charge times its transverse shape times the share `(xi_i - xi) / dxi`, and the rest of each particle's charge is kept for the next layer. -/
theorem layout_pointwise (c : BCfg) (hh : c.h ≠ 0) (rho : Grid) (ps : List (Row ℝ)) (i : ℕ) (a b : ℤ) :
    (layoutBeamLayer c rho ps i).1 a b * c.h ^ 2 = rho a b + (ps.map fun p => p.qnorm * ((layerXi c i - p.xi) / c.dxi) * shape3 c p a b).sum ∧
    (layoutBeamLayer c rho ps i).2 a b = (ps.map fun p => p.qnorm * (1 - (layerXi c i - p.xi) / c.dxi) * shape3 c p a b).sum := by
  unfold layoutBeamLayer
  by_cases h0 : ps.length ≠ 0
  · simp only [h0, if_true, ne_eq, not_false_eq_true]
    obtain ⟨h1, h2⟩ := depositBeam_shape c i ps rho (fun _ _ => 0) a b
    rw [h1, h2]
    constructor
    · field_simp
    · simp
  · have : ps = [] := by simpa using h0
    subst this
    simp [hh]

/-- The share a layer gets, in terms of the distance: it is the piecewise linear weight of the particle mirrored about the middle of its layer. -/
theorem share_mirrored (c : BCfg) (hd : 0 < c.dxi) (i : ℕ) (xi : ℝ) (h : InLayer c.dxi i xi) :
    (layerXi c i - xi) / c.dxi = hat ((mirrorXi c i xi - layerXi c i) / c.dxi) ∧
    1 - (layerXi c i - xi) / c.dxi = hat ((mirrorXi c i xi - layerXi c (i + 1)) / c.dxi) := by
  obtain ⟨h1, h2⟩ := h
  unfold mirrorXi layerXi
  have e1 : -(c.dxi * i) + -(c.dxi * ((i + 1 : ℕ) : ℝ)) - xi - -(c.dxi * i) = -(c.dxi * (i + 1) + xi) := by push_cast; ring
  have e2 : -(c.dxi * i) + -(c.dxi * ((i + 1 : ℕ) : ℝ)) - xi - -(c.dxi * ((i + 1 : ℕ) : ℝ)) = -(c.dxi * i + xi) := by push_cast; ring
  rw [e1, e2]
  have a1 : |-(c.dxi * (i + 1) + xi) / c.dxi| = (c.dxi * (i + 1) + xi) / c.dxi := by
    rw [abs_div, abs_neg, abs_of_pos hd, abs_of_nonneg (by linarith)]
  have a2 : |-(c.dxi * i + xi) / c.dxi| = -(c.dxi * i + xi) / c.dxi := by
    rw [abs_of_nonneg]; apply div_nonneg _ hd.le; linarith
  constructor
  · rw [hat_of_mem _ (by rw [a1, div_le_one hd]; linarith), a1]; field_simp; ring
  · rw [hat_of_mem _ (by rw [a2, div_le_one hd]; linarith), a2]; field_simp; ring

/-- The charge a list of particles of layer `i` puts on node `(a, b)` of layer `k`, spread linearly between the two nearest layers, each particle taken at its mirrored position. -/
noncomputable def mirroredCic (c : BCfg) (i k : ℕ) (a b : ℤ) (ps : List (Row ℝ)) : ℝ :=
  (ps.map fun p => p.qnorm * hat ((mirrorXi c i p.xi - layerXi c k) / c.dxi) * shape3 c p a b).sum

theorem mirroredCic_far (c : BCfg) (hd : 0 < c.dxi) (i k : ℕ) (a b : ℤ) (ps : List (Row ℝ)) (hps : ∀ p ∈ ps, InLayer c.dxi i p.xi) (hk : k < i ∨ i + 1 < k) :
    mirroredCic c i k a b ps = 0 := by
  unfold mirroredCic
  apply List.sum_eq_zero
  intro v hv
  obtain ⟨p, hp, rfl⟩ := List.mem_map.mp hv
  obtain ⟨h1, h2⟩ := hps p hp
  have : hat ((mirrorXi c i p.xi - layerXi c k) / c.dxi) = 0 := by
    apply hat_of_far
    rw [abs_div, abs_of_pos hd, le_div_iff₀ hd, one_mul]
    unfold mirrorXi layerXi
    rcases hk with hk | hk
    · have : (k : ℝ) + 1 ≤ i := by exact_mod_cast hk
      have h3 : c.dxi * (k + 1) ≤ c.dxi * i := mul_le_mul_of_nonneg_left this hd.le
      rw [abs_of_nonpos (by push_cast; linarith)]; push_cast; linarith
    · have : (i : ℝ) + 1 + 1 ≤ k := by exact_mod_cast hk
      have h3 : c.dxi * (i + 1 + 1) ≤ c.dxi * k := mul_le_mul_of_nonneg_left this hd.le
      rw [abs_of_nonneg (by push_cast; linarith)]; push_cast; linarith
  rw [this]; ring

theorem layoutSweep_aux (c : BCfg) (hh : c.h ≠ 0) (hd : 0 < c.dxi) (layers : List (List (Row ℝ))) (rho : Grid) (i₀ : ℕ)
    (hps : ∀ k (hk : k < layers.length), ∀ p ∈ layers[k], InLayer c.dxi (i₀ + k) p.xi) (k : ℕ) (hk : k < layers.length) (a b : ℤ) :
    ∃ d, (layoutSweep c rho i₀ layers).1[k]? = some d ∧
      d a b * c.h ^ 2 = (if k = 0 then rho a b else 0) + ∑ i ∈ Finset.range layers.length, mirroredCic c (i₀ + i) (i₀ + k) a b (layers[i]?.getD []) := by
  induction layers generalizing rho i₀ k with
  | nil => simp at hk
  | cons l ls ih =>
    have hl : ∀ p ∈ l, InLayer c.dxi i₀ p.xi := fun p hp => hps 0 (Nat.succ_pos _) p hp
    have hls : ∀ k (hk : k < ls.length), ∀ p ∈ ls[k], InLayer c.dxi (i₀ + 1 + k) p.xi := by
      intro k hk p hp
      have := hps (k + 1) (by simpa using hk) p (by simpa using hp)
      rwa [show i₀ + 1 + k = i₀ + (k + 1) by omega]
    have hfar : ∀ i < ls.length, ∀ k, k < i + 1 → mirroredCic c (i₀ + (i + 1)) (i₀ + k) a b (ls[i]?.getD []) = 0 := by
      intro i hi k hk
      apply mirroredCic_far c hd
      · intro p hp
        rw [List.getElem?_eq_getElem hi, Option.getD_some] at hp
        have := hls i hi p hp
        rwa [show i₀ + (i + 1) = i₀ + 1 + i by omega]
      · left; omega
    obtain ⟨e1, e2⟩ := layout_pointwise c hh rho l i₀ a b
    rw [List.length_cons, Finset.sum_range_succ']
    simp only [List.getElem?_cons_zero, List.getElem?_cons_succ, Option.getD_some, Nat.add_zero]
    cases k with
    | zero =>
      refine ⟨(layoutBeamLayer c rho l i₀).1, by simp [layoutSweep], ?_⟩
      rw [e1, Finset.sum_eq_zero (fun i hi => hfar i (Finset.mem_range.mp hi) 0 (by omega))]
      simp only [if_true, zero_add, Nat.add_zero]
      congr 1
      unfold mirroredCic
      congr 1
      apply List.map_congr_left
      intro p hp
      rw [(share_mirrored c hd i₀ p.xi (hl p hp)).1]
    | succ k =>
      obtain ⟨d, hd1, hd2⟩ := ih (layoutBeamLayer c rho l i₀).2 (i₀ + 1) hls k (by simpa using hk)
      refine ⟨d, by simp [layoutSweep, hd1], ?_⟩
      rw [hd2]
      have es : ∑ i ∈ Finset.range ls.length, mirroredCic c (i₀ + 1 + i) (i₀ + 1 + k) a b (ls[i]?.getD []) =
          ∑ i ∈ Finset.range ls.length, mirroredCic c (i₀ + (i + 1)) (i₀ + (k + 1)) a b (ls[i]?.getD []) := by
        apply Finset.sum_congr rfl
        intro i _
        rw [show i₀ + 1 + i = i₀ + (i + 1) by omega, show i₀ + 1 + k = i₀ + (k + 1) by omega]
      rw [es]
      by_cases hk0 : k = 0
      · subst hk0
        simp only [if_true, Nat.zero_add, Nat.succ_ne_zero, if_false, Nat.add_eq_zero_iff, one_ne_zero, and_false, zero_add]
        rw [e2, add_comm]
        congr 1
        unfold mirroredCic
        congr 1
        apply List.map_congr_left
        intro p hp
        rw [(share_mirrored c hd i₀ p.xi (hl p hp)).2]
      · have hz : mirroredCic c i₀ (i₀ + (k + 1)) a b l = 0 := mirroredCic_far c hd _ _ a b l hl (Or.inr (by omega))
        rw [hz]
        simp [hk0]

/-- C31, pointwise for a whole time step: the density laid out for layer `k` is the linear spreading of ALL particles of the window between the two layers next to them, but with every particle mirrored about the middle of its own layer. -/
theorem sweep_pointwise (c : BCfg) (hh : c.h ≠ 0) (hd : 0 < c.dxi) (layers : List (List (Row ℝ)))
    (hps : ∀ k (hk : k < layers.length), ∀ p ∈ layers[k], InLayer c.dxi k p.xi) (k : ℕ) (hk : k < layers.length) (a b : ℤ) :
    ∃ d, (layoutSweep c (fun _ _ => 0) 0 layers).1[k]? = some d ∧
      d a b * c.h ^ 2 = ∑ i ∈ Finset.range layers.length,
        ((layers[i]?.getD []).map fun p => p.qnorm * hat ((mirrorXi c i p.xi - layerXi c k) / c.dxi) * shape3 c p a b).sum := by
  obtain ⟨d, h1, h2⟩ := layoutSweep_aux c hh hd layers (fun _ _ => 0) 0 (by simpa using hps) k hk a b
  refine ⟨d, h1, ?_⟩
  rw [h2]
  simp [mirroredCic]

/-! ### Charge -/

theorem fits_units {c : BCfg} (hh : 0 < c.h) {Z : ℝ} (h : |Z| < c.h * (c.N / 2 - 2)) : |Z / c.h| < c.N / 2 - (2 : ℤ) := by
  rw [abs_div, abs_of_pos hh, div_lt_iff₀ hh]; push_cast; linarith

/-- C31: a particle away from the grid edge has its whole shape on the grid, centred at the particle. -/
theorem shape3_total (c : BCfg) (hN : c.N % 2 = 1) (hh : 0 < c.h) (p : Row ℝ) (hp : FitsGrid c p) :
    ∑ a ∈ Finset.Ico 0 c.N, ∑ b ∈ Finset.Ico 0 c.N, shape3 c p a b = 1 ∧
    ∑ a ∈ Finset.Ico 0 c.N, ∑ b ∈ Finset.Ico 0 c.N, c.h * nodeOf c.N a * shape3 c p a b = p.x ∧
    ∑ a ∈ Finset.Ico 0 c.N, ∑ b ∈ Finset.Ico 0 c.N, c.h * nodeOf c.N b * shape3 c p a b = p.y := by
  obtain ⟨x0, x1⟩ := axis_total c.N (p.x / c.h) _ (cell_inside c.N 2 hN le_rfl _ (fits_units hh hp.1))
  obtain ⟨y0, y1⟩ := axis_total c.N (p.y / c.h) _ (cell_inside c.N 2 hN le_rfl _ (fits_units hh hp.2))
  unfold shape3
  refine ⟨?_, ?_, ?_⟩
  · simp only [← Finset.mul_sum, y0, mul_one, x0]
  · have : ∀ a b : ℤ, c.h * nodeOf c.N a * (bspline4 (p.x / c.h - nodeOf c.N a) * bspline4 (p.y / c.h - nodeOf c.N b)) =
        c.h * (nodeOf c.N a * bspline4 (p.x / c.h - nodeOf c.N a)) * bspline4 (p.y / c.h - nodeOf c.N b) := fun a b => by ring
    simp only [this, ← Finset.mul_sum, y0, mul_one, x1]
    field_simp
  · have : ∀ a b : ℤ, c.h * nodeOf c.N b * (bspline4 (p.x / c.h - nodeOf c.N a) * bspline4 (p.y / c.h - nodeOf c.N b)) =
        c.h * bspline4 (p.x / c.h - nodeOf c.N a) * (nodeOf c.N b * bspline4 (p.y / c.h - nodeOf c.N b)) := fun a b => by ring
    simp only [this, ← Finset.mul_sum, y1]
    rw [← Finset.sum_mul, ← Finset.mul_sum, x0]
    field_simp

theorem sum_shapes (c : BCfg) (hN : c.N % 2 = 1) (hh : 0 < c.h) (f : Row ℝ → ℝ) (ps : List (Row ℝ)) (hps : ∀ p ∈ ps, FitsGrid c p) :
    ∑ a ∈ Finset.Ico 0 c.N, ∑ b ∈ Finset.Ico 0 c.N, (ps.map fun p => f p * shape3 c p a b).sum = (ps.map f).sum := by
  induction ps with
  | nil => simp
  | cons p ps ih =>
    simp only [List.map_cons, List.sum_cons, Finset.sum_add_distrib, ← Finset.mul_sum]
    rw [(shape3_total c hN hh p (hps p (by simp))).1, mul_one, ih (fun q hq => hps q (by simp [hq]))]

/-- Charge waiting for the next layer. -/
noncomputable def keptCharge (c : BCfg) (rho : Grid) : ℝ := ∑ a ∈ Finset.Ico 0 c.N, ∑ b ∈ Finset.Ico 0 c.N, rho a b

/-- C31: laying out a layer neither creates nor loses charge: what the density of the layer carries plus what is kept for the next layer is what was kept plus the charge of the particles. -/
theorem layout_conserves (c : BCfg) (hN : c.N % 2 = 1) (hh : 0 < c.h) (rho : Grid) (ps : List (Row ℝ)) (i : ℕ) (hps : ∀ p ∈ ps, FitsGrid c p) :
    totalCharge c (layoutBeamLayer c rho ps i).1 + keptCharge c (layoutBeamLayer c rho ps i).2 = keptCharge c rho + (ps.map Row.qnorm).sum := by
  unfold totalCharge keptCharge
  simp only [(layout_pointwise c hh.ne' rho ps i _ _).1, (layout_pointwise c hh.ne' rho ps i _ _).2, Finset.sum_add_distrib]
  rw [sum_shapes c hN hh (fun p => p.qnorm * ((layerXi c i - p.xi) / c.dxi)) ps hps, sum_shapes c hN hh (fun p => p.qnorm * (1 - (layerXi c i - p.xi) / c.dxi)) ps hps]
  rw [add_assoc]
  congr 1
  clear hps
  induction ps with
  | nil => simp
  | cons p ps ih => simp only [List.map_cons, List.sum_cons]; linarith

/-- C31: over a whole time step the charges of all layers add up to the charge of all particles handed out, up to what is left for the layer behind the window. -/
theorem sweep_conserves (c : BCfg) (hN : c.N % 2 = 1) (hh : 0 < c.h) (layers : List (List (Row ℝ))) (hps : ∀ l ∈ layers, ∀ p ∈ l, FitsGrid c p) (rho : Grid) (i : ℕ) :
    ((layoutSweep c rho i layers).1.map (totalCharge c)).sum + keptCharge c (layoutSweep c rho i layers).2 =
      keptCharge c rho + (layers.flatten.map Row.qnorm).sum := by
  induction layers generalizing rho i with
  | nil => simp [layoutSweep]
  | cons l ls ih =>
    simp only [layoutSweep, List.map_cons, List.sum_cons, List.flatten_cons, List.map_append, List.sum_append]
    have h1 := layout_conserves c hN hh rho l i (hps l (by simp))
    have h2 := ih (fun l hl => hps l (by simp [hl])) (layoutBeamLayer c rho l i).2 (i + 1)
    linarith

/-- C31: deposition of a particle away from the edge only touches existing nodes. -/
theorem deposit_inside (c : BCfg) (hN : c.N % 2 = 1) (hh : 0 < c.h) (p : Row ℝ) (hp : FitsGrid c p) :
    ∀ t ∈ stencil c.N 1 (p.x / c.h + 1 / 2) (p.y / c.h + 1 / 2), 0 ≤ t.1 ∧ t.1 < c.N ∧ 0 ≤ t.2.1 ∧ t.2.1 < c.N := by
  intro t ht
  have := stencil_inside c.N 2 hN 1 (p.x / c.h) (p.y / c.h) (fits_units hh hp.1) (fits_units hh hp.2) t ht
  omega

/-- C31, refutation of the share claim: the layer a particle is closer to gets the SMALLER share. For a particle of layer `i` let `d0`, `d1` be its distances to layers `i` and `i + 1`; the shares are `d0 / dxi` and `d1 / dxi`. So a particle (almost) on a layer gives (almost) all of its charge to the other one, and the centre of the deposited charge is the mirror image of the particle, which is the particle only in the middle of the layer. -/
theorem share_is_reversed (c : BCfg) (hd : 0 < c.dxi) (i : ℕ) (xi : ℝ) :
    (layerXi c i - xi) / c.dxi * c.dxi = layerXi c i - xi ∧
    (1 - (layerXi c i - xi) / c.dxi) * c.dxi = xi - layerXi c (i + 1) ∧
    (layerXi c i - xi) / c.dxi * layerXi c i + (1 - (layerXi c i - xi) / c.dxi) * layerXi c (i + 1) = mirrorXi c i xi ∧
    (mirrorXi c i xi = xi ↔ xi = (layerXi c i + layerXi c (i + 1)) / 2) := by
  have hne := hd.ne'
  unfold mirrorXi layerXi
  refine ⟨by field_simp, by push_cast; field_simp; ring, by push_cast; field_simp; ring, ?_⟩
  constructor
  · intro h; linarith
  · intro h; linarith

/-- C31, a concrete case of the refutation: a unit charge a quarter of a step behind layer 0 gives a quarter to layer 0 and three quarters to layer 1. -/
theorem share_reversed_example :
    ∃ (c : BCfg) (p : Row ℝ), c.N % 2 = 1 ∧ FitsGrid c p ∧ InLayer c.dxi 0 p.xi ∧ p.qnorm = 1 ∧ p.xi = layerXi c 0 - c.dxi / 4 ∧
      totalCharge c (layoutBeamLayer c (fun _ _ => 0) [p] 0).1 = 1 / 4 ∧ keptCharge c (layoutBeamLayer c (fun _ _ => 0) [p] 0).2 = 3 / 4 := by
  have hf : FitsGrid ⟨7, 1, 1⟩ ⟨-1 / 4, 0, 0, 0, 0, 5, 1, 1, 1, 0, 0⟩ := by constructor <;> norm_num
  refine ⟨⟨7, 1, 1⟩, ⟨-1 / 4, 0, 0, 0, 0, 5, 1, 1, 1, 0, 0⟩, by norm_num, hf, ?_, rfl, ?_, ?_, ?_⟩
  · constructor <;> norm_num
  · norm_num [layerXi]
  · unfold totalCharge
    simp only [(layout_pointwise ⟨7, 1, 1⟩ one_ne_zero (fun _ _ => 0) _ 0 _ _).1]
    simp only [zero_add]
    rw [sum_shapes ⟨7, 1, 1⟩ (by norm_num) (by norm_num) (fun p => p.qnorm * ((layerXi ⟨7, 1, 1⟩ 0 - p.xi) / 1)) _ (by simpa using hf)]
    norm_num [layerXi]
  · unfold keptCharge
    simp only [(layout_pointwise ⟨7, 1, 1⟩ one_ne_zero (fun _ _ => 0) _ 0 _ _).2]
    rw [sum_shapes ⟨7, 1, 1⟩ (by norm_num) (by norm_num) (fun p => p.qnorm * (1 - (layerXi ⟨7, 1, 1⟩ 0 - p.xi) / 1)) _ (by simpa using hf)]
    norm_num [layerXi]

end Lcode.Beam3D
