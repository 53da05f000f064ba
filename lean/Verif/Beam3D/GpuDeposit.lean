import Verif.Beam3D.Sweep
import Verif.Plasma3D.Gpu

/-!
Model of the GPU kernels of lcode/beam3d/weights.py:68-147 and of lcode/beam3d/beam_calculator.py:29-47. Property C47.
Array elements are named by their row-major number, and nothing fixes the order of the atomic additions (see Verif/Plasma3D/Gpu.lean).
-/

namespace Lcode.Beam3D

open Lcode.Plasma3D (stencil places weight4G gpuIdx atomicAdd gpuIncs gpuIncs_stencil foldl_atomicAdd flat_node depositAmount foldl_addAt2)

/-! ### Model -/

/-- The device function weight1, weights.py:70-79. -/
def weight1G (x : ℝ) (place : ℤ) : ℝ := if place = 0 then x else if place = 1 then 1 - x else 0

/-- The 25 additions of one particle to one of the two arrays, weights.py:119-136: `place` is 0 for out_ro0 and 1 for out_ro1. -/
noncomputable def beamIncsOne (N : ℤ) (xh yh xiLoc q : ℝ) (place : ℤ) : List (ℤ × ℝ) :=
  places.flatMap fun kx => places.map fun ky =>
    (gpuIdx N xh yh kx ky, q * (weight4G (xh - ⌊xh⌋ - 0.5) kx * weight4G (yh - ⌊yh⌋ - 0.5) ky * weight1G xiLoc place))

/-- All additions of a call of deposit_beam to one of the two arrays, weights.py:152-165. -/
noncomputable def beamIncs (c : BCfg) (i : ℕ) (ps : List (Row ℝ)) (place : ℤ) : List (ℤ × ℝ) :=
  ps.flatMap fun p => beamIncsOne c.N (p.x / c.h + 0.5) (p.y / c.h + 0.5) ((-c.dxi * i - p.xi) / c.dxi) p.qnorm place

/-- `out` can be what layout_beam_layer returns and keeps on the GPU, beam_calculator.py:82-93: all additions done in some order. -/
def GpuLayout (c : BCfg) (rhoLayout : Grid) (ps : List (Row ℝ)) (i : ℕ) (out : Grid × Grid) : Prop :=
  if ps.length ≠ 0 then
    ∃ s0 s1 : List (ℤ × ℝ), s0.Perm (beamIncs c i ps 0) ∧ s1.Perm (beamIncs c i ps 1) ∧
      out = (fun a b => s0.foldl (atomicAdd c.N) rhoLayout a b / c.h ^ 2, s1.foldl (atomicAdd c.N) (fun _ _ => 0))
  else out = (fun a b => rhoLayout a b / c.h ^ 2, fun _ _ => 0)

/-- The densities of all layers of a time step, as layoutSweep has them. -/
inductive GpuLayouts (c : BCfg) : Grid → ℕ → List (List (Row ℝ)) → List Grid × Grid → Prop
  | nil (rho : Grid) (i : ℕ) : GpuLayouts c rho i [] ([], rho)
  | cons (rho : Grid) (i : ℕ) (l : List (Row ℝ)) (ls : List (List (Row ℝ))) (out : Grid × Grid) (rest : List Grid × Grid) :
      GpuLayout c rho l i out → GpuLayouts c out.2 (i + 1) ls rest → GpuLayouts c rho i (l :: ls) (out.1 :: rest.1, rest.2)

/-- max_dt of the substepping kernel, beam_calculator.py:36. -/
noncomputable def maxSubstepG (qm pz energy : ℝ) : ℝ := Real.sqrt (Real.sqrt (1 / (qm * qm) + pz * pz) / energy)

/-- The substepping kernel, beam_calculator.py:32-45, run for at most `fuel` turns. -/
noncomputable def substepsG (fuel : ℕ) (qm pz energy : ℝ) : Option ℝ := Lcode.Beam2D.halvingLoop (maxSubstepG qm pz energy) fuel 1

/-! ### C47 -/

theorem beamIncsOne_stencil (N : ℤ) (xh yh s q : ℝ) (place : ℤ) :
    beamIncsOne N xh yh s q place = (stencil N 1 xh yh).map fun t => (t.2.1 + N * t.1, q * (t.2.2 * weight1G s place)) := by
  have h := gpuIncs_stencil N 1 xh yh 1
  have e : beamIncsOne N xh yh s q place = (gpuIncs N 1 xh yh 1).map fun t => (t.1, q * (t.2 * weight1G s place)) := by
    unfold beamIncsOne gpuIncs
    rw [List.map_flatMap]
    refine List.flatMap_congr fun kx _ => ?_
    rw [List.map_map]
    refine List.map_congr_left fun ky _ => ?_
    simp
  rw [e, h, List.map_map]
  refine List.map_congr_left fun t _ => ?_
  simp

theorem cpu_array (c : BCfg) (i : ℕ) (f : Row ℝ → ℝ) (ps : List (Row ℝ)) (a : Grid) (x y : ℤ) :
    ps.foldl (fun a p => depositAmount c.N 1 (p.x / c.h + 1 / 2) (p.y / c.h + 1 / 2) (f p) a) a x y =
      a x y + ((ps.flatMap fun p => (stencil c.N 1 (p.x / c.h + 1 / 2) (p.y / c.h + 1 / 2)).map fun t => (t.1, t.2.1, f p * t.2.2)).map fun t => if x = t.1 ∧ y = t.2.1 then t.2.2 else 0).sum := by
  induction ps generalizing a with
  | nil => simp
  | cons p ps ih =>
    rw [List.foldl_cons, ih, List.flatMap_cons, List.map_append, List.sum_append, depositAmount, foldl_addAt2, List.map_map]
    simp only [Function.comp_def]
    ring

theorem beam_array (c : BCfg) (hN : c.N % 2 = 1) (hh : 0 < c.h) (i : ℕ) (place : ℤ) (f : Row ℝ → ℝ) (ps : List (Row ℝ)) (hps : ∀ p ∈ ps, FitsGrid c p)
    (hf : ∀ p w, p.qnorm * (w * weight1G ((-c.dxi * i - p.xi) / c.dxi) place) = f p * w) (s : List (ℤ × ℝ)) (hs : s.Perm (beamIncs c i ps place)) (a : Grid) :
    s.foldl (atomicAdd c.N) a = ps.foldl (fun a p => depositAmount c.N 1 (p.x / c.h + 1 / 2) (p.y / c.h + 1 / 2) (f p) a) a := by
  funext x y
  rw [foldl_atomicAdd, cpu_array c i]
  congr 1
  rw [(hs.map _).sum_eq]
  unfold beamIncs
  clear hs
  induction ps with
  | nil => simp
  | cons p ps ih =>
    rw [List.flatMap_cons, List.flatMap_cons, List.map_append, List.map_append, List.sum_append, List.sum_append, ih fun p hp => hps p (List.mem_cons_of_mem _ hp)]
    congr 1
    have e : (p.x / c.h + 0.5 : ℝ) = p.x / c.h + 1 / 2 := by norm_num
    have e' : (p.y / c.h + 0.5 : ℝ) = p.y / c.h + 1 / 2 := by norm_num
    rw [e, e', beamIncsOne_stencil, List.map_map, List.map_map]
    congr 1
    refine List.map_congr_left fun t ht => ?_
    obtain ⟨-, -, b0, b1⟩ := deposit_inside c hN hh p (hps p List.mem_cons_self) t ht
    obtain ⟨e1, e2⟩ := flat_node c.N t.1 t.2.1 b0 b1
    simp only [Function.comp, e1, e2, hf]

theorem depositBeam_split (c : BCfg) (i : ℕ) (ps : List (Row ℝ)) (o0 o1 : Grid) :
    depositBeam c i ps o0 o1 = (ps.foldl (fun a p => depositAmount c.N 1 (p.x / c.h + 1 / 2) (p.y / c.h + 1 / 2) (p.qnorm * ((-c.dxi * i - p.xi) / c.dxi)) a) o0,
      ps.foldl (fun a p => depositAmount c.N 1 (p.x / c.h + 1 / 2) (p.y / c.h + 1 / 2) (p.qnorm * (1 - (-c.dxi * i - p.xi) / c.dxi)) a) o1) := by
  unfold depositBeam
  induction ps generalizing o0 o1 with
  | nil => rfl
  | cons p ps ih => simp only [List.foldl_cons]; rw [depositOne_split, ih]

/-- C47: whatever the order of the additions, the GPU hands the plasma the density of the CPU and keeps the same charge for the next layer, if the particles are two steps away from the edge of the grid. -/
theorem gpu_layout_same (c : BCfg) (hN : c.N % 2 = 1) (hh : 0 < c.h) (rho : Grid) (ps : List (Row ℝ)) (hps : ∀ p ∈ ps, FitsGrid c p) (i : ℕ) (out : Grid × Grid) (h : GpuLayout c rho ps i out) :
    out = layoutBeamLayer c rho ps i := by
  unfold GpuLayout at h
  unfold layoutBeamLayer
  by_cases h0 : ps.length ≠ 0
  · rw [if_pos h0] at h
    obtain ⟨s0, s1, p0, p1, rfl⟩ := h
    rw [beam_array c hN hh i 0 (fun p => p.qnorm * ((-c.dxi * i - p.xi) / c.dxi)) ps hps (by intro p w; simp only [weight1G, if_true]; ring) s0 p0,
      beam_array c hN hh i 1 (fun p => p.qnorm * (1 - (-c.dxi * i - p.xi) / c.dxi)) ps hps (by intro p w; simp only [weight1G, one_ne_zero, if_false, if_true]; ring) s1 p1]
    simp only [if_pos h0, depositBeam_split]
  · rw [if_neg h0] at h
    rw [h]
    simp only [if_neg h0]

/-- C47: so the densities of all layers of a time step are those of the CPU. -/
theorem gpu_layouts_same (c : BCfg) (hN : c.N % 2 = 1) (hh : 0 < c.h) (rho : Grid) (i : ℕ) (layers : List (List (Row ℝ))) (hps : ∀ l ∈ layers, ∀ p ∈ l, FitsGrid c p) (r : List Grid × Grid) (h : GpuLayouts c rho i layers r) :
    r = layoutSweep c rho i layers := by
  induction h with
  | nil => rfl
  | cons rho i l ls out rest h1 _ ih =>
    have e := gpu_layout_same c hN hh rho l (hps l List.mem_cons_self) i out h1
    subst e
    rw [ih fun l hl => hps l (List.mem_cons_of_mem _ hl)]
    rfl

/-- Some result always exists. -/
theorem gpu_layouts_exist (c : BCfg) (rho : Grid) (i : ℕ) (layers : List (List (Row ℝ))) : ∃ r, GpuLayouts c rho i layers r := by
  induction layers generalizing rho i with
  | nil => exact ⟨_, .nil rho i⟩
  | cons l ls ih =>
    have : ∃ out, GpuLayout c rho l i out := by
      unfold GpuLayout
      split_ifs
      · exact ⟨_, _, _, .refl _, .refl _, rfl⟩
      · exact ⟨_, rfl⟩
    obtain ⟨out, ho⟩ := this
    obtain ⟨rest, hr⟩ := ih out.2 (i + 1)
    exact ⟨_, .cons rho i l ls out rest ho hr⟩

/-- C47: the substeps a particle is given are the same. -/
theorem gpu_substeps_same (fuel : ℕ) (qm pz energy : ℝ) : substepsG fuel qm pz energy = Lcode.Beam2D.beamSubsteppingStep fuel qm pz energy := by
  unfold substepsG Lcode.Beam2D.beamSubsteppingStep maxSubstepG Lcode.Beam2D.maxSubstep
  rw [pow_two, pow_two]

/-- C47, finding: near the edge the deposition of the GPU goes wrong without any error: for a particle whose stencil sticks out of the grid on one side, charge is added to nodes of the next row at the opposite side. -/
theorem gpu_deposit_wraps : ∃ t ∈ beamIncsOne 7 (1 + 0.5 : ℝ) (3 + 0.5 : ℝ) 0 1 1, t.1 / 7 = 5 ∧ t.1 % 7 = 0 ∧ t.2 ≠ 0 := by
  refine ⟨(gpuIdx 7 (1 + 0.5) (3 + 0.5) 0 1, 1 * (weight4G (1 + 0.5 - ⌊(1 + 0.5 : ℝ)⌋ - 0.5) 0 * weight4G (3 + 0.5 - ⌊(3 + 0.5 : ℝ)⌋ - 0.5) 1 * weight1G 0 1)), ?_, ?_⟩
  · unfold beamIncsOne
    exact List.mem_flatMap.mpr ⟨0, by simp [places], List.mem_map.mpr ⟨1, by simp [places], rfl⟩⟩
  · have f1 : ⌊(1 + 0.5 : ℝ)⌋ = 1 := by rw [Int.floor_eq_iff]; norm_num
    have f3 : ⌊(3 + 0.5 : ℝ)⌋ = 3 := by rw [Int.floor_eq_iff]; norm_num
    refine ⟨by simp only [gpuIdx, f1, f3]; norm_num, by simp only [gpuIdx, f1, f3]; norm_num, ?_⟩
    simp only [f1, f3]
    norm_num [weight4G, weight1G]

end Lcode.Beam3D
