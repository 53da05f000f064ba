import Verif.Mpi.Causality
import Verif.Mpi.Causality3D

/-!
Continuing from a stored plasma state (C46): `Simulation.external_plasmastate` (simulation.py:71-72, :190-192, :154-168) makes every time step start from the loaded state, in the layer after the one the state was stored in
(push_solver.py:97-98, :234-236), with a fresh beam source.
-/

namespace Lcode.Mpi

/-! ### Model -/

section Start
variable {K : Type} [Field K] [LinearOrder K] [IsStrictOrderedRing K] [FloorRing K]

/-- First layer of a time step that starts from a plasma state stored at `xi`, push_solver.py:97 and :234-235. -/
def startLayer (xi h : K) : ℤ := Lcode.Py.pyRound (-xi / h) + 1

/-- plasma/initialization.py:117-120: the coordinate of a loaded 2D state; 0 if the file has none. -/
def loadedXi2D (file : Option K) : K := file.getD 0

/-- plasma3d/initialization.py:418-419, :455-458: the coordinate of a loaded 3D state; that of a fresh plasma, init_plasma :412, if the file has none. -/
def loadedXi3D (h : K) (file : Option K) : K := file.getD h

end Start

variable {K P : Type} (W : World K P)

/-- A beam source after `n` pulls, when the first layer asked for is `k`. -/
def srcFrom (s : W.Src) (k : ℕ) : ℕ → W.Src
  | 0 => s
  | n + 1 => (W.pullSrc (srcFrom s k n) (k + n)).2

/-- What iteration `n` (layer `k + n`) of a time step that starts in layer `k` receives, push_solver.py:98-101. -/
def contLayer (s : W.Src) (k n : ℕ) : List P := (W.pullSrc (srcFrom W s k n) (k + n)).1

/-- Variables of the layer loop before iteration `n`, push_solver.py:98-129. -/
def contSt (st : W.St) (k : ℕ) (inp : ℕ → List P) : ℕ → W.St
  | 0 => st
  | n + 1 => (W.layer (contSt st k inp n) (k + n) (inp n)).1

/-- What finishes in iteration `n`. -/
def contOut (st : W.St) (k : ℕ) (inp : ℕ → List P) (n : ℕ) : List P := (W.layer (contSt W st k inp n) (k + n) (inp n)).2

/-- The beam drained by a time step with the layers `k .. N`. -/
def contAll (N : ℕ) (st : W.St) (k : ℕ) (inp : ℕ → List P) : List P := ((List.range (N + 1 - k)).map (contOut W st k inp)).flatten

/-- The beam at the start of time step `g` of a single-process run in which every time step starts from the same loaded state (simulation.py:163-164, :249-258). -/
def contBeam (N : ℕ) (st : W.St) (k : ℕ) (b0 : List P) : ℕ → List P
  | 0 => b0
  | g + 1 => contAll W N st k (contLayer W (W.mkSrc (contBeam N st k b0 g)) k)

/-- The beam at the start of time step `g` of the uninterrupted single-process run. -/
def seqBeam [Field K] (N : ℕ) (dt : K) (b0 : List P) : ℕ → List P
  | 0 => b0
  | g + 1 => allFinished W N dt g (seqLayers W N dt b0 g)

/-! ### General facts -/

section Start
variable {K : Type} [Field K] [LinearOrder K] [IsStrictOrderedRing K] [FloorRing K]

/-- A state stored in layer `k`, at `xi = -k h` up to an error of less than half a step, is continued in layer `k + 1`. -/
theorem startLayer_stored (h xi : K) (hh : 0 < h) (k : ℕ) (hxi : |xi + k * h| < h / 2) : startLayer xi h = k + 1 := by
  unfold startLayer
  have h1 := Lcode.Py.abs_pyRound_sub_le (-xi / h)
  have h2 : |-xi / h - k| < 1 / 2 := by
    have : -xi / h - k = -(xi + k * h) / h := by field_simp; ring
    rw [this, abs_div, abs_neg, abs_of_pos hh, div_lt_iff₀ hh]
    linarith
  rw [abs_le] at h1
  rw [abs_lt] at h2
  have a : ((Lcode.Py.pyRound (-xi / h) : ℤ) : K) < k + 1 := by linarith [h1.2, h2.2]
  have b : ((k : ℤ) : K) - 1 < ((Lcode.Py.pyRound (-xi / h) : ℤ) : K) := by push_cast; linarith [h1.1, h2.1]
  have a' : Lcode.Py.pyRound (-xi / h) < (k : ℤ) + 1 := by exact_mod_cast a
  have b' : (k : ℤ) - 1 < Lcode.Py.pyRound (-xi / h) := by exact_mod_cast b
  omega

/-- A fresh plasma starts in layer 0. A file without a coordinate is taken for a state stored in layer 0 in 2D, and for a fresh plasma in 3D. -/
theorem startLayer_missing (h : K) (hh : 0 < h) : startLayer h h = 0 ∧ startLayer (loadedXi2D (none : Option K)) h = 1 ∧ startLayer (loadedXi3D h (none : Option K)) h = 0 := by
  have e : startLayer h h = 0 := by
    unfold startLayer
    rw [neg_div, div_self hh.ne']
    have := Lcode.Py.pyRound_intCast (K := K) (-1)
    push_cast at this
    rw [this]; rfl
  refine ⟨e, ?_, e⟩
  have := startLayer_stored h 0 hh 0 (by simp; linarith)
  simpa [loadedXi2D] using this

end Start

variable {W}

theorem srcAt_skip (s : W.Src) (k : ℕ) (h : ∀ j, j < k → W.pullSrc s j = ([], s)) (j : ℕ) (hj : j ≤ k) : srcAt W s j = s := by
  induction j with
  | zero => rfl
  | succ j ih =>
    show (W.pullSrc (srcAt W s j) j).2 = s
    rw [ih (by omega), h j (by omega)]

theorem srcLayer_skip (s : W.Src) (k : ℕ) (h : ∀ j, j < k → W.pullSrc s j = ([], s)) (j : ℕ) (hj : j < k) : srcLayer W s j = [] := by
  unfold srcLayer
  rw [srcAt_skip s k h j hj.le, h j hj]

theorem srcLayer_cont (s : W.Src) (k : ℕ) (h : ∀ j, j < k → W.pullSrc s j = ([], s)) (n : ℕ) : srcLayer W s (k + n) = contLayer W s k n := by
  have e : ∀ n, srcAt W s (k + n) = srcFrom W s k n := by
    intro n
    induction n with
    | zero => exact srcAt_skip s k h k le_rfl
    | succ n ih =>
      show (W.pullSrc (srcAt W s (k + n)) (k + n)).2 = (W.pullSrc (srcFrom W s k n) (k + n)).2
      rw [ih]
  unfold srcLayer contLayer
  rw [e]

theorem stAt_cont (st st' : W.St) (k : ℕ) (inp inp' : ℕ → List P) (h : stAt W st inp k = st') (hi : ∀ n, inp (k + n) = inp' n) (n : ℕ) :
    stAt W st inp (k + n) = contSt W st' k inp' n ∧ outAt W st inp (k + n) = contOut W st' k inp' n := by
  have e : ∀ n, stAt W st inp (k + n) = contSt W st' k inp' n := by
    intro n
    induction n with
    | zero => exact h
    | succ n ih =>
      show (W.layer (stAt W st inp (k + n)) (k + n) (inp (k + n))).1 = (W.layer (contSt W st' k inp' n) (k + n) (inp' n)).1
      rw [ih, hi]
  refine ⟨e n, ?_⟩
  unfold outAt contOut
  rw [e, hi]

theorem allFinished_cont [Field K] (N k : ℕ) (hk : k ≤ N + 1) (dt : K) (g : ℕ) (st' : W.St) (inp inp' : ℕ → List P) (h : stAt W (W.init (timeOf dt g)) inp k = st') (hi : ∀ n, inp (k + n) = inp' n)
    (h0 : ∀ j, j < k → finished W dt g inp j = []) : allFinished W N dt g inp = contAll W N st' k inp' := by
  unfold allFinished contAll
  obtain ⟨d, hd⟩ : ∃ d, N + 1 = k + d := ⟨N + 1 - k, by omega⟩
  rw [hd, List.range_add, List.map_append, List.flatten_append, Nat.add_sub_cancel_left]
  have e0 : ((List.range k).map (finished W dt g inp)).flatten = [] := by
    rw [List.flatten_eq_nil_iff]
    intro l hl
    rw [List.mem_map] at hl
    obtain ⟨j, hj, rfl⟩ := hl
    exact h0 j (List.mem_range.1 hj)
  rw [e0, List.nil_append, List.map_map]
  congr 1
  apply List.map_congr_left
  intro n _
  exact (stAt_cont _ st' k inp inp' h hi n).2

/-- The layers of time step `g` come from a source made of the beam at its start. -/
theorem seqLayers_seqBeam [Field K] (N : ℕ) (dt : K) (b0 : List P) (g : ℕ) : seqLayers W N dt b0 g = srcLayer W (W.mkSrc (seqBeam W N dt b0 g)) := by
  cases g <;> rfl

/-- C46, general form. `ahead`: a source made of particles behind layer `k - 1` skips the layers before `k`. `quiet`: without a beam the first `k` layers finish nothing and leave the variables of the layer loop as a continuation from
the state `st'` finds them, in every time step. `stays`: what is behind layer `k - 1` stays there. Then continuing is exact in every time step. -/
theorem continued_run [Field K] (N k : ℕ) (hk : k ≤ N + 1) (dt : K) (b : List P) (st' : W.St) (behind : P → Prop)
    (ahead : ∀ b : List P, (∀ p ∈ b, behind p) → ∀ j, j < k → W.pullSrc (W.mkSrc b) j = ([], W.mkSrc b))
    (quiet : ∀ g inp, (∀ j, j < k → inp j = []) → stAt W (W.init (timeOf dt g)) inp k = st' ∧ ∀ j, j < k → finished W dt g inp j = [])
    (stays : ∀ g, (∀ p ∈ seqBeam W N dt b g, behind p) → ∀ p ∈ seqBeam W N dt b (g + 1), behind p)
    (hb : ∀ p ∈ b, behind p) (g : ℕ) :
    contBeam W N st' k b g = seqBeam W N dt b g ∧
    ∀ n, contLayer W (W.mkSrc (contBeam W N st' k b g)) k n = seqLayers W N dt b g (k + n) ∧
      contSt W st' k (contLayer W (W.mkSrc (contBeam W N st' k b g)) k) n = stAt W (W.init (timeOf dt g)) (seqLayers W N dt b g) (k + n) ∧
      contOut W st' k (contLayer W (W.mkSrc (contBeam W N st' k b g)) k) n = finished W dt g (seqLayers W N dt b g) (k + n) := by
  have hbh : ∀ g, ∀ p ∈ seqBeam W N dt b g, behind p := by
    intro g
    induction g with
    | zero => exact hb
    | succ g ih => exact stays g ih
  have step : ∀ g, (∀ n, seqLayers W N dt b g (k + n) = contLayer W (W.mkSrc (seqBeam W N dt b g)) k n) ∧ (∀ j, j < k → seqLayers W N dt b g j = []) := by
    intro g
    rw [seqLayers_seqBeam]
    exact ⟨fun n => srcLayer_cont _ k (ahead _ (hbh g)) n, fun j hj => srcLayer_skip _ k (ahead _ (hbh g)) j hj⟩
  have beams : ∀ g, contBeam W N st' k b g = seqBeam W N dt b g := by
    intro g
    induction g with
    | zero => rfl
    | succ g ih =>
      obtain ⟨q1, q2⟩ := quiet g _ (step g).2
      show contAll W N st' k (contLayer W (W.mkSrc (contBeam W N st' k b g)) k) = allFinished W N dt g (seqLayers W N dt b g)
      rw [ih, allFinished_cont N k hk dt g st' _ _ q1 (step g).1 q2]
  refine ⟨beams g, fun n => ?_⟩
  obtain ⟨q1, q2⟩ := quiet g _ (step g).2
  obtain ⟨c1, c2⟩ := stAt_cont _ st' k _ _ q1 (step g).1 n
  rw [beams g]
  exact ⟨((step g).1 n).symm, c1.symm, c2.symm⟩

/-! ### 2D -/

section TwoD
open Lcode.Beam2D

variable {σ : Type}

/-- Variables of the layer loop of a time step that starts from the plasma state `s`, push_solver.py:87-96. -/
def resume2D (s : σ) : St2D σ := ⟨s, fun _ => 0, fun _ => 0, ⟨[], [], [], []⟩⟩

/-- The plasma `n` layers later if there is no beam. -/
def withoutBeam2D (env : Env2D σ) (s : σ) : ℕ → σ
  | 0 => s
  | n + 1 => env.plasma (withoutBeam2D env s n) (fun _ => 0) (fun _ => 0)

theorem layer2D_quiet (env : Env2D σ) (hs : IsArgsort boolLe env.argsortB) (s : σ) (j : ℕ) :
    layer2D env (resume2D s) j [] = (resume2D (env.plasma s (fun _ => 0) (fun _ => 0)), []) := by
  have hnil : env.argsortB [] = [] := by
    have := (hs []).1
    simpa using this
  have hm : ∀ f0 f1, moveBeamLayer env ⟨[], [], [], []⟩ j f0 f1 = (⟨[], [], [], []⟩, ⟨[], [], [], []⟩, ⟨[], [], [], []⟩) := by
    intro f0 f1
    simp [moveBeamLayer, splitBeamSlice, hnil, Beam.reorder, Beam.getSubslice, gather, slice]
  have hl : layoutBeamLayer env.cfg.rStep env.cfg.xiStep (fun _ => 0) [] j = (fun _ => 0, fun _ => 0) := by
    simp [layoutBeamLayer, depositParticles, addAt]
  unfold layer2D
  simp only [resume2D, Beam.fresh, List.map_nil, hl, hm]
  rfl

theorem quiet2D (env : Env2D σ) (hs : IsArgsort boolLe env.argsortB) (plasma0 : ℝ → σ) (t : ℝ) (inp : ℕ → List (Particle ℝ)) (k : ℕ) (h : ∀ j, j < k → inp j = []) (j : ℕ) (hj : j ≤ k) :
    stAt (world2D env plasma0) ((world2D env plasma0).init t) inp j = resume2D (withoutBeam2D env (plasma0 t) j) ∧
    (j < k → outAt (world2D env plasma0) ((world2D env plasma0).init t) inp j = []) := by
  have e : ∀ j, j ≤ k → stAt (world2D env plasma0) ((world2D env plasma0).init t) inp j = resume2D (withoutBeam2D env (plasma0 t) j) := by
    intro j
    induction j with
    | zero => intro _; rfl
    | succ j ih =>
      intro hj
      show (layer2D env (stAt (world2D env plasma0) ((world2D env plasma0).init t) inp j) j (inp j)).1 = _
      rw [ih (by omega), h j (by omega), layer2D_quiet env hs]
      rfl
  refine ⟨e j hj, fun hlt => ?_⟩
  show (layer2D env (stAt (world2D env plasma0) ((world2D env plasma0).init t) inp j) j (inp j)).2 = _
  rw [e j hj, h j hlt, layer2D_quiet env hs]

theorem mkSrc_sorted (env : Env2D σ) (plasma0 : ℝ → σ) (hf : IsArgsort (· ≤ ·) env.argsortF) (b : List (Particle ℝ)) :
    ∃ S : List (Particle ℝ), S.Perm b ∧ S.Pairwise (fun p q => q.xi ≤ p.xi) ∧ ((world2D env plasma0).mkSrc b : Source ℝ).xi = S.map Particle.xi ∧
      ((world2D env plasma0).mkSrc b : Source ℝ).used = 0 := by
  obtain ⟨h1, h2, h3⟩ := sort_rows env.argsortF hf (Beam.fresh b) (wf_fresh b)
  have hperm : ((Beam.fresh b).sort env.argsortF).particles.Perm b := by
    have := h1.map (fun t => t.1)
    rwa [rows_particles h2, rows_particles (wf_fresh b)] at this
  refine ⟨_, hperm, h3, ?_, ?_⟩
  · show (Source.init env.argsortF (Beam.fresh b)).xi = _
    unfold Source.init
    split_ifs with h
    · have hb : b = [] := h
      subst hb
      rw [hperm.eq_nil]; rfl
    · rfl
  · show (Source.init env.argsortF (Beam.fresh b)).used = _
    unfold Source.init
    split <;> rfl

/-- A 2D source made of particles behind layer `k - 1` hands out nothing before layer `k`, and is not changed by being asked. -/
theorem skip2D (env : Env2D σ) (plasma0 : ℝ → σ) (hf : IsArgsort (· ≤ ·) env.argsortF) (hx : 0 < env.cfg.xiStep) (k : ℕ) (b : List (Particle ℝ))
    (hb : ∀ p ∈ b, p.xi < -(k * env.cfg.xiStep)) (j : ℕ) (hj : j < k) :
    (world2D env plasma0).pullSrc ((world2D env plasma0).mkSrc b) j = ([], (world2D env plasma0).mkSrc b) := by
  obtain ⟨S, hS, -, hxi, hu⟩ := mkSrc_sorted env plasma0 hf b
  set s : Source ℝ := (world2D env plasma0).mkSrc b with hs
  have hjk : ((j : ℝ) + 1) * env.cfg.xiStep ≤ k * env.cfg.xiStep := by
    have : (j : ℝ) + 1 ≤ k := by exact_mod_cast hj
    nlinarith
  have hend : findEnd (j * -env.cfg.xiStep) ((j + 1) * -env.cfg.xiStep) 0 s.xi 0 = (0, false) := by
    rw [hxi]
    cases hc : S with
    | nil => rfl
    | cons x xs =>
      have hm : x ∈ b := hS.mem_iff.1 (by rw [hc]; simp)
      have := hb x hm
      simp only [List.map_cons, findEnd]
      rw [if_pos (by linarith)]
  show ((s.getBeamLayer env.cfg.xiStep j).1.particles, (s.getBeamLayer env.cfg.xiStep j).2) = ([], s)
  have hsub : findSubSlice s.xi s.used (j * -env.cfg.xiStep) ((j + 1) * -env.cfg.xiStep) = (0, 0, 0, false) := by
    unfold findSubSlice
    rw [hu, List.drop_zero, hend]
    rfl
  unfold Source.getBeamLayer Source.getBeamSlice
  rw [hsub]
  refine Prod.ext rfl ?_
  show ({ s with used := 0 } : Source ℝ) = s
  rw [← hu]
  rfl

/-- C46 in 2D: if the whole beam is behind the layer in which the plasma state was stored (layer `k - 1`, stored in any time step `g0`), the continuation is exact: in every time step the same beam, and in every layer
from `k` on the same slice, the same variables of the layer loop (plasma, beam density, particles to move) and the same finished particles as in the uninterrupted run. The initial plasma must be the same in every time step. -/
theorem continued_run_2D (env : Env2D σ) (hs : IsArgsort boolLe env.argsortB) (hf : IsArgsort (· ≤ ·) env.argsortF) (hx : 0 < env.cfg.xiStep) (hts : 0 ≤ env.timeStep)
    (p0 : σ) (N k : ℕ) (hk : k ≤ N) (dt : ℝ) (b : List (Particle ℝ)) (hb : ∀ p ∈ b, p.xi < -(k * env.cfg.xiStep)) (s : σ) (g0 : ℕ)
    (hstored : s = (stAt (world2D env fun _ => p0) ((world2D env fun _ => p0).init (timeOf dt g0)) (seqLayers (world2D env fun _ => p0) N dt b g0) k).plasma) (g : ℕ) :
    contBeam (world2D env fun _ => p0) N (resume2D s) k b g = seqBeam (world2D env fun _ => p0) N dt b g ∧
    ∀ n, contLayer (world2D env fun _ => p0) ((world2D env fun _ => p0).mkSrc (contBeam (world2D env fun _ => p0) N (resume2D s) k b g)) k n = seqLayers (world2D env fun _ => p0) N dt b g (k + n) ∧
      contSt (world2D env fun _ => p0) (resume2D s) k (contLayer (world2D env fun _ => p0) ((world2D env fun _ => p0).mkSrc (contBeam (world2D env fun _ => p0) N (resume2D s) k b g)) k) n =
        stAt (world2D env fun _ => p0) ((world2D env fun _ => p0).init (timeOf dt g)) (seqLayers (world2D env fun _ => p0) N dt b g) (k + n) ∧
      contOut (world2D env fun _ => p0) (resume2D s) k (contLayer (world2D env fun _ => p0) ((world2D env fun _ => p0).mkSrc (contBeam (world2D env fun _ => p0) N (resume2D s) k b g)) k) n =
        finished (world2D env fun _ => p0) dt g (seqLayers (world2D env fun _ => p0) N dt b g) (k + n) := by
  have stays : ∀ g, (∀ p ∈ seqBeam (world2D env fun _ => p0) N dt b g, p.xi < -(k * env.cfg.xiStep)) → ∀ p ∈ seqBeam (world2D env fun _ => p0) N dt b (g + 1), p.xi < -(k * env.cfg.xiStep) := by
    intro g ih p hp
    obtain ⟨j, -, hp⟩ := mem_allFinished hp
    refine finished_down (fun x => x < -(k * env.cfg.xiStep)) (fun _ _ h h' => lt_of_le_of_lt h h') env hs hts (fun _ => p0) dt g _ (fun j q hq => ?_) j p hp
    rw [seqLayers_seqBeam] at hq
    exact ih q (mem_srcLayer env _ hf _ j q hq)
  have hbh : ∀ p ∈ seqBeam (world2D env fun _ => p0) N dt b g0, p.xi < -(k * env.cfg.xiStep) := by
    induction g0 with
    | zero => exact hb
    | succ g ih =>
      clear hstored
      have : ∀ g, ∀ p ∈ seqBeam (world2D env fun _ => p0) N dt b g, p.xi < -(k * env.cfg.xiStep) := by
        intro g
        induction g with
        | zero => exact hb
        | succ g ih => exact stays g ih
      exact this (g + 1)
  have h0 : s = withoutBeam2D env p0 k := by
    rw [hstored, (quiet2D env hs (fun _ => p0) (timeOf dt g0) _ k (fun j hj => ?_) k le_rfl).1]
    · rfl
    · rw [seqLayers_seqBeam]
      exact srcLayer_skip _ k (skip2D env _ hf hx k _ hbh) j hj
  refine continued_run N k (by omega) dt b (resume2D s : St2D σ) (fun p => p.xi < -(k * env.cfg.xiStep)) (skip2D env _ hf hx k) ?_ stays hb g
  intro g inp hinp
  refine ⟨?_, fun j hj => (quiet2D env hs _ _ inp k hinp j hj.le).2 hj⟩
  rw [(quiet2D env hs (fun _ => p0) (timeOf dt g) inp k hinp k le_rfl).1, h0]

/-- C46 in 2D, refutation: one particle ahead of layer `k` is enough for the continuation to see no beam at all, in any layer and any time step, to drain nothing, and to compute the plasma of an empty window. -/
theorem continuation_loses_beam_2D (env : Env2D σ) (plasma0 : ℝ → σ) (hs : IsArgsort boolLe env.argsortB) (hf : IsArgsort (· ≤ ·) env.argsortF) (hx : 0 < env.cfg.xiStep)
    (N k : ℕ) (b : List (Particle ℝ)) (hb : ∃ p ∈ b, -(k * env.cfg.xiStep) < p.xi) (s : σ) (g : ℕ) :
    (∀ n, contLayer (world2D env plasma0) ((world2D env plasma0).mkSrc (contBeam (world2D env plasma0) N (resume2D s) k b g)) k n = [] ∧
      (contSt (world2D env plasma0) (resume2D s) k (contLayer (world2D env plasma0) ((world2D env plasma0).mkSrc (contBeam (world2D env plasma0) N (resume2D s) k b g)) k) n).plasma = withoutBeam2D env s n) ∧
    contBeam (world2D env plasma0) N (resume2D s) k b (g + 1) = [] := by
  -- a blocked or empty source
  have src : ∀ b : List (Particle ℝ), (b = [] ∨ ∃ p ∈ b, -(k * env.cfg.xiStep) < p.xi) → ∀ n, contLayer (world2D env plasma0) ((world2D env plasma0).mkSrc b) k n = [] := by
    intro b hb
    obtain ⟨S, hS, hSs, hxi, hu⟩ := mkSrc_sorted env plasma0 hf b
    set s0 : Source ℝ := (world2D env plasma0).mkSrc b with hs0
    have hstep : ∀ n : ℕ, s0.getBeamLayer env.cfg.xiStep (k + n) = (Beam.fresh [], s0) := by
      intro n
      have hend : ∃ fl, findEnd ((k + n : ℕ) * -env.cfg.xiStep) (((k + n : ℕ) + 1) * -env.cfg.xiStep) 0 s0.xi 0 = (0, fl) := by
        rw [hxi]
        rcases hb with rfl | ⟨p, hp, hpx⟩
        · rw [hS.eq_nil]; exact ⟨false, rfl⟩
        · have hmem : p ∈ S := hS.mem_iff.2 hp
          obtain ⟨x, xs, hxs⟩ := List.exists_cons_of_ne_nil (List.ne_nil_of_mem hmem)
          have hx0 : -(k * env.cfg.xiStep) < x.xi := by
            rw [hxs] at hSs hmem
            rcases List.mem_cons.1 hmem with h | h
            · rw [← h]; exact hpx
            · exact lt_of_lt_of_le hpx ((List.pairwise_cons.1 hSs).1 p h)
          have hn : (0 : ℝ) ≤ n * env.cfg.xiStep := by positivity
          rw [hxs]
          simp only [List.map_cons, findEnd]
          rw [if_neg (by push_cast; push Not; nlinarith), if_pos (by push_cast; nlinarith)]
          exact ⟨true, rfl⟩
      obtain ⟨fl, hend⟩ := hend
      have hsub : findSubSlice s0.xi s0.used ((k + n : ℕ) * -env.cfg.xiStep) (((k + n : ℕ) + 1) * -env.cfg.xiStep) = (0, 0, 0, fl) := by
        unfold findSubSlice
        rw [hu, List.drop_zero, hend]
        rfl
      unfold Source.getBeamLayer Source.getBeamSlice
      rw [hsub]
      refine Prod.ext rfl ?_
      show ({ s0 with used := 0 } : Source ℝ) = s0
      rw [← hu]
      rfl
    have hfrom : ∀ n, srcFrom (world2D env plasma0) s0 k n = s0 := by
      intro n
      induction n with
      | zero => rfl
      | succ n ih =>
        show (Source.getBeamLayer (srcFrom (world2D env plasma0) s0 k n) env.cfg.xiStep (k + n)).2 = s0
        rw [ih, hstep]
    intro n
    show (Source.getBeamLayer (srcFrom (world2D env plasma0) s0 k n) env.cfg.xiStep (k + n)).1.particles = []
    rw [hfrom, hstep]
    rfl
  have run : ∀ inp : ℕ → List (Particle ℝ), (∀ n, inp n = []) → ∀ n, contSt (world2D env plasma0) (resume2D s) k inp n = resume2D (withoutBeam2D env s n) ∧ contOut (world2D env plasma0) (resume2D s) k inp n = [] := by
    intro inp hinp
    have e : ∀ n, contSt (world2D env plasma0) (resume2D s) k inp n = resume2D (withoutBeam2D env s n) := by
      intro n
      induction n with
      | zero => rfl
      | succ n ih =>
        show (layer2D env (contSt (world2D env plasma0) (resume2D s) k inp n) (k + n) (inp n)).1 = _
        rw [ih, hinp, layer2D_quiet env hs]; rfl
    refine fun n => ⟨e n, ?_⟩
    show (layer2D env (contSt (world2D env plasma0) (resume2D s) k inp n) (k + n) (inp n)).2 = _
    rw [e, hinp, layer2D_quiet env hs]
  have all : ∀ inp : ℕ → List (Particle ℝ), (∀ n, inp n = []) → contAll (world2D env plasma0) N (resume2D s) k inp = [] := by
    intro inp hinp
    unfold contAll
    rw [List.flatten_eq_nil_iff]
    intro l hl
    rw [List.mem_map] at hl
    obtain ⟨n, -, rfl⟩ := hl
    exact (run inp hinp n).2
  have hbeam : contBeam (world2D env plasma0) N (resume2D s) k b g = [] ∨ ∃ p ∈ contBeam (world2D env plasma0) N (resume2D s) k b g, -(k * env.cfg.xiStep) < p.xi := by
    have key : ∀ g, (contBeam (world2D env plasma0) N (resume2D s) k b g = [] ∨ ∃ p ∈ contBeam (world2D env plasma0) N (resume2D s) k b g, -(k * env.cfg.xiStep) < p.xi) := by
      intro g
      induction g with
      | zero => exact Or.inr hb
      | succ g ih => exact Or.inl (all _ (src _ ih))
    exact key g
  refine ⟨fun n => ⟨src _ hbeam n, ?_⟩, all _ (src _ hbeam)⟩
  rw [(run _ (src _ hbeam) n).1]
  rfl

end TwoD

/-! ### 3D -/

section ThreeD
open Lcode.Beam3D
open Lcode.Beam2D (IsArgsort gather npArgsort npArgsort_correct)

variable {σ : Type}

/-- Variables of the 3D layer loop of a time step that starts from the plasma state `s`, push_solver.py:225-232. -/
noncomputable def resume3D (s : σ) : St3D σ := ⟨s, fun _ _ => 0, fun _ _ => 0, Beam.empty, 0⟩

/-- The plasma `n` layers later if there is no beam. -/
noncomputable def withoutBeam3D (env : Env3 σ) (s : σ) : ℕ → σ
  | 0 => s
  | n + 1 => env.plasma (withoutBeam3D env s n) (fun _ _ => 0) (fun _ _ => 0)

theorem layer3D_quiet (env : Env3 σ) (s : σ) (j : ℕ) :
    layer3D env (resume3D s) j [] = (resume3D (env.plasma s (fun _ _ => 0) (fun _ _ => 0)), []) := by
  have e := layer3D_rows env (resume3D s) [] [] rfl rfl j []
  simp only at e
  have hl : layoutBeamLayer env.cfg (fun _ _ => 0) [] j = (fun _ _ => 0, fun _ _ => 0) := by
    simp [layoutBeamLayer]
  rw [e]
  simp only [resume3D, plasma3D, hl, moved3D, List.map_nil, List.append_nil, List.filter_nil, List.length_nil]
  rfl

theorem quiet3D (env : Env3 σ) (argsort : List ℝ → List ℕ) (plasma0 : ℝ → σ) (t : ℝ) (inp : ℕ → List (Row ℝ)) (k : ℕ) (h : ∀ j, j < k → inp j = []) (j : ℕ) (hj : j ≤ k) :
    stAt (world3D env argsort plasma0) ((world3D env argsort plasma0).init t) inp j = resume3D (withoutBeam3D env (plasma0 t) j) ∧
    (j < k → outAt (world3D env argsort plasma0) ((world3D env argsort plasma0).init t) inp j = []) := by
  have e : ∀ j, j ≤ k → stAt (world3D env argsort plasma0) ((world3D env argsort plasma0).init t) inp j = resume3D (withoutBeam3D env (plasma0 t) j) := by
    intro j
    induction j with
    | zero => intro _; rfl
    | succ j ih =>
      intro hj
      show (layer3D env (stAt (world3D env argsort plasma0) ((world3D env argsort plasma0).init t) inp j) j (inp j)).1 = _
      rw [ih (by omega), h j (by omega), layer3D_quiet env]
      rfl
  refine ⟨e j hj, fun hlt => ?_⟩
  show (layer3D env (stAt (world3D env argsort plasma0) ((world3D env argsort plasma0).init t) inp j) j (inp j)).2 = _
  rw [e j hj, h j hlt, layer3D_quiet env]

theorem mkSrc3_sorted (env : Env3 σ) (argsort : List ℝ → List ℕ) (hs : IsArgsort (· ≤ ·) argsort) (plasma0 : ℝ → σ) (b : List (Row ℝ)) :
    ∃ S : List (Row ℝ), S.Perm (b.map strip) ∧ S.Pairwise (fun p q => q.xi ≤ p.xi) ∧ ((world3D env argsort plasma0).mkSrc b : Beam ℝ) = Beam.ofRows S := by
  show ∃ S : List (Row ℝ), S.Perm (b.map strip) ∧ S.Pairwise (fun p q => q.xi ≤ p.xi) ∧ sourceInit argsort (Beam.initGenerated b) = Beam.ofRows S
  rw [initGenerated_ofRows]
  obtain ⟨h1, h2, h3⟩ := source_sorted argsort hs (Beam.ofRows (b.map strip)) _ (wf_ofRows _)
  rw [rows_ofRows] at h1
  exact ⟨_, h1, h2, (ofRows_rows h3).symm⟩

/-- A 3D source made of particles behind layer `k - 1` hands out nothing before layer `k`, and is not changed by being asked. -/
theorem skip3D (env : Env3 σ) (argsort : List ℝ → List ℕ) (hs : IsArgsort (· ≤ ·) argsort) (hd : 0 < env.cfg.dxi) (plasma0 : ℝ → σ) (k : ℕ) (b : List (Row ℝ))
    (hb : ∀ p ∈ b, p.xi < -(k * env.cfg.dxi)) (j : ℕ) (hj : j < k) :
    (world3D env argsort plasma0).pullSrc ((world3D env argsort plasma0).mkSrc b) j = ([], (world3D env argsort plasma0).mkSrc b) := by
  obtain ⟨S, hS, -, e⟩ := mkSrc3_sorted env argsort hs plasma0 b
  rw [e]
  have h0 : inLayer env.cfg.dxi j S = 0 := by
    unfold inLayer
    rw [List.countP_eq_zero]
    intro r hr
    obtain ⟨p, hp, rfl⟩ := List.mem_map.1 (hS.mem_iff.1 hr)
    have h1 := hb p hp
    have : ((j : ℝ) + 1) * env.cfg.dxi ≤ k * env.cfg.dxi := by
      have : (j : ℝ) + 1 ≤ k := by exact_mod_cast hj
      nlinarith
    rw [decide_eq_true_eq]
    intro h
    have h2 := h.1
    simp only [strip] at h2
    linarith
  show (particles3 (getBeamLayerToLayout env.cfg.dxi (Beam.ofRows S) j).1, (getBeamLayerToLayout env.cfg.dxi (Beam.ofRows S) j).2) = ([], Beam.ofRows S)
  rw [getBeamLayer_ofRows, h0]
  rfl

/-- C46 in 3D: if the whole beam is behind the layer in which the plasma state was stored, the continuation is exact. -/
theorem continued_run_3D (env : Env3 σ) (argsort : List ℝ → List ℕ) (hs : IsArgsort (· ≤ ·) argsort) (hd : 0 < env.cfg.dxi) (hts : 0 ≤ env.timeStep)
    (p0 : σ) (N k : ℕ) (hk : k ≤ N) (dt : ℝ) (b : List (Row ℝ)) (hb : ∀ p ∈ b, p.xi < -(k * env.cfg.dxi)) (s : σ) (g0 : ℕ)
    (hstored : s = (stAt (world3D env argsort fun _ => p0) ((world3D env argsort fun _ => p0).init (timeOf dt g0)) (seqLayers (world3D env argsort fun _ => p0) N dt b g0) k).plasma) (g : ℕ) :
    contBeam (world3D env argsort fun _ => p0) N (resume3D s) k b g = seqBeam (world3D env argsort fun _ => p0) N dt b g ∧
    ∀ n, contLayer (world3D env argsort fun _ => p0) ((world3D env argsort fun _ => p0).mkSrc (contBeam (world3D env argsort fun _ => p0) N (resume3D s) k b g)) k n = seqLayers (world3D env argsort fun _ => p0) N dt b g (k + n) ∧
      contSt (world3D env argsort fun _ => p0) (resume3D s) k (contLayer (world3D env argsort fun _ => p0) ((world3D env argsort fun _ => p0).mkSrc (contBeam (world3D env argsort fun _ => p0) N (resume3D s) k b g)) k) n =
        stAt (world3D env argsort fun _ => p0) ((world3D env argsort fun _ => p0).init (timeOf dt g)) (seqLayers (world3D env argsort fun _ => p0) N dt b g) (k + n) ∧
      contOut (world3D env argsort fun _ => p0) (resume3D s) k (contLayer (world3D env argsort fun _ => p0) ((world3D env argsort fun _ => p0).mkSrc (contBeam (world3D env argsort fun _ => p0) N (resume3D s) k b g)) k) n =
        finished (world3D env argsort fun _ => p0) dt g (seqLayers (world3D env argsort fun _ => p0) N dt b g) (k + n) := by
  have stays : ∀ g, (∀ p ∈ seqBeam (world3D env argsort fun _ => p0) N dt b g, p.xi < -(k * env.cfg.dxi)) → ∀ p ∈ seqBeam (world3D env argsort fun _ => p0) N dt b (g + 1), p.xi < -(k * env.cfg.dxi) := by
    intro g ih p hp
    obtain ⟨j, -, hp⟩ := mem_allFinished hp
    refine (stAt_behindOf _ env argsort hts (fun _ => p0) (timeOf dt g) _ (fun j q hq => ?_) j).2 p hp
    rw [seqLayers_seqBeam] at hq
    have hkd : (0 : ℝ) ≤ k * env.cfg.dxi := by positivity
    have := (source3D env argsort hs hd (fun _ => p0) _ (fun p hp => by linarith [ih p hp]) j).mem_iff.mp hq
    obtain ⟨q', hq', rfl⟩ := List.mem_map.mp this
    exact ih q' (List.mem_filter.mp hq').1
  have hbh : ∀ g, ∀ p ∈ seqBeam (world3D env argsort fun _ => p0) N dt b g, p.xi < -(k * env.cfg.dxi) := by
    intro g
    induction g with
    | zero => exact hb
    | succ g ih => exact stays g ih
  have h0 : s = withoutBeam3D env p0 k := by
    rw [hstored, (quiet3D env argsort (fun _ => p0) (timeOf dt g0) _ k (fun j hj => ?_) k le_rfl).1]
    · rfl
    · rw [seqLayers_seqBeam]
      exact srcLayer_skip _ k (skip3D env argsort hs hd _ k _ (hbh g0)) j hj
  refine continued_run N k (by omega) dt b (resume3D s : St3D σ) (fun p => p.xi < -(k * env.cfg.dxi)) (skip3D env argsort hs hd _ k) ?_ stays hb g
  intro g inp hinp
  refine ⟨?_, fun j hj => (quiet3D env argsort _ _ inp k hinp j hj.le).2 hj⟩
  rw [(quiet3D env argsort (fun _ => p0) (timeOf dt g) inp k hinp k le_rfl).1, h0]

/-- C46 in 3D, refutation: the continuation counts the particles of layer `k` but hands out that many from the head of the beam. If at least as many particles are ahead of layer `k` as are in it, none of the particles handed out as
layer `k` is in layer `k`: all are ahead of it. -/
theorem continuation_displaced_3D (env : Env3 σ) (argsort : List ℝ → List ℕ) (hs : IsArgsort (· ≤ ·) argsort) (plasma0 : ℝ → σ) (k : ℕ) (b : List (Row ℝ))
    (hmany : (b.countP fun p => decide (InLayer env.cfg.dxi k p.xi)) ≤ b.countP fun p => decide (-(k * env.cfg.dxi) ≤ p.xi)) :
    (contLayer (world3D env argsort plasma0) ((world3D env argsort plasma0).mkSrc b) k 0).length = (b.countP fun p => decide (InLayer env.cfg.dxi k p.xi)) ∧
    ∀ p ∈ contLayer (world3D env argsort plasma0) ((world3D env argsort plasma0).mkSrc b) k 0, -(k * env.cfg.dxi) ≤ p.xi := by
  obtain ⟨S, hS, hSs, e⟩ := mkSrc3_sorted env argsort hs plasma0 b
  have hcnt : ∀ f : ℝ → Bool, S.countP (fun r => f r.xi) = b.countP fun p => f p.xi := by
    intro f
    rw [hS.countP_eq, List.countP_map]
    rfl
  have hin : inLayer env.cfg.dxi k S = b.countP fun p => decide (InLayer env.cfg.dxi k p.xi) := hcnt fun x => decide (InLayer env.cfg.dxi k x)
  have hlay : contLayer (world3D env argsort plasma0) ((world3D env argsort plasma0).mkSrc b) k 0 = (S.take (b.countP fun p => decide (InLayer env.cfg.dxi k p.xi))).map strip := by
    show particles3 (getBeamLayerToLayout env.cfg.dxi ((world3D env argsort plasma0).mkSrc b) k).1 = _
    rw [e, getBeamLayer_ofRows, hin]
    unfold particles3
    rw [rows_ofRows]
  have pre : ∀ (S : List (Row ℝ)) (c : ℝ) (n : ℕ), S.Pairwise (fun p q => q.xi ≤ p.xi) → n ≤ S.countP (fun r => decide (c ≤ r.xi)) → ∀ p ∈ S.take n, c ≤ p.xi := by
    intro S c
    induction S with
    | nil => intro n _ _ p hp; simp at hp
    | cons x xs ih =>
      intro n hp hn p hm
      rw [List.pairwise_cons] at hp
      cases n with
      | zero => simp at hm
      | succ n =>
        have hx : c ≤ x.xi := by
          by_contra hc
          have : (x :: xs).countP (fun r => decide (c ≤ r.xi)) = 0 := by
            rw [List.countP_eq_zero]
            intro r hr
            rw [decide_eq_true_eq]
            rcases List.mem_cons.1 hr with rfl | h
            · exact hc
            · have := hp.1 r h
              linarith
          omega
        rw [List.take_succ_cons] at hm
        rcases List.mem_cons.1 hm with rfl | h
        · exact hx
        · refine ih n hp.2 ?_ p h
          rw [List.countP_cons, if_pos (by simpa using hx)] at hn
          omega
  rw [hlay]
  constructor
  · rw [List.length_map, List.length_take, Nat.min_eq_left]
    rw [← hin]
    exact List.countP_le_length
  · intro p hp
    obtain ⟨q, hq, rfl⟩ := List.mem_map.1 hp
    refine pre S _ _ hSs ?_ q hq
    have := hcnt fun x => decide (-(k * env.cfg.dxi) ≤ x)
    rw [this]
    exact hmany

/-- C46 in 3D, refutation on two particles at rest, at xi = -1/2 and xi = -3/2, with a state stored in layer 0: the uninterrupted time step receives the second particle in layer 1; the continued one receives the first particle in
layer 1, and the second one never. -/
theorem continuation_differs_3D (argsort : List ℝ → List ℕ) (hs : IsArgsort (· ≤ ·) argsort) :
    srcLayer (restWorld argsort) ((restWorld argsort).mkSrc [rest (-1 / 2), rest (-3 / 2)]) 1 = [rest (-3 / 2)] ∧
    contLayer (restWorld argsort) ((restWorld argsort).mkSrc [rest (-1 / 2), rest (-3 / 2)]) 1 0 = [rest (-1 / 2)] ∧
    ∀ n, 0 < n → contLayer (restWorld argsort) ((restWorld argsort).mkSrc [rest (-1 / 2), rest (-3 / 2)]) 1 n = [] := by
  have ed : emptyWindow.cfg.dxi = 1 := rfl
  have esrc : ((restWorld argsort).mkSrc [rest (-1 / 2), rest (-3 / 2)] : Beam ℝ) = Beam.ofRows [rest (-1 / 2), rest (-3 / 2)] := by
    show sourceInit argsort (Beam.initGenerated [rest (-1 / 2), rest (-3 / 2)]) = _
    rw [initGenerated_ofRows]
    refine sourceInit_unique argsort hs _ _ (List.Perm.of_eq rfl) ?_
    simp [restRow]; norm_num
  have n0 : ∀ k : ℕ, decide (InLayer (1 : ℝ) k (rest (-1 / 2)).xi) = decide (k = 0) := by
    intro k
    rw [decide_eq_decide]
    constructor
    · intro h
      have h2 := h.2
      simp only [restRow] at h2
      by_contra hk
      have : (1 : ℝ) ≤ k := by exact_mod_cast Nat.one_le_iff_ne_zero.2 hk
      linarith
    · rintro rfl; constructor <;> norm_num [restRow]
  have n1 : ∀ k : ℕ, decide (InLayer (1 : ℝ) k (rest (-3 / 2)).xi) = decide (k = 1) := by
    intro k
    rw [decide_eq_decide]
    constructor
    · intro h
      have h1 := h.1
      have h2 := h.2
      simp only [restRow] at h1 h2
      have a : k < 2 := by
        by_contra hk
        have : (2 : ℝ) ≤ k := by exact_mod_cast (by omega : 2 ≤ k)
        linarith
      have b : 0 < k := by
        by_contra hk
        have : k = 0 := by omega
        subst this
        norm_num at h1
      omega
    · rintro rfl; constructor <;> norm_num [restRow]
  have pull : ∀ (S : List (Row ℝ)) (j : ℕ), (restWorld argsort).pullSrc (Beam.ofRows S : Beam ℝ) j =
      ((S.take (S.countP fun r => decide (InLayer (1 : ℝ) j r.xi))).map strip, (Beam.ofRows (S.drop (S.countP fun r => decide (InLayer (1 : ℝ) j r.xi))) : Beam ℝ)) := by
    intro S j
    show (particles3 (getBeamLayerToLayout emptyWindow.cfg.dxi (Beam.ofRows S) j).1, (getBeamLayerToLayout emptyWindow.cfg.dxi (Beam.ofRows S) j).2) = _
    rw [getBeamLayer_ofRows]
    unfold particles3
    rw [rows_ofRows, ed]
    rfl
  have c1 : ∀ j : ℕ, [rest (-1 / 2), rest (-3 / 2)].countP (fun r => decide (InLayer (1 : ℝ) j r.xi)) = if j ≤ 1 then 1 else 0 := by
    intro j
    rw [List.countP_cons, List.countP_singleton, n0, n1]
    rcases j with _ | _ | j
    · rfl
    · rfl
    · rw [if_neg (by simp), if_neg (by simp), if_neg (by omega)]
  have c2 : ∀ j : ℕ, [rest (-3 / 2)].countP (fun r => decide (InLayer (1 : ℝ) j r.xi)) = if j = 1 then 1 else 0 := by
    intro j
    rw [List.countP_singleton, n1]
    by_cases h : j = 1 <;> simp [h]
  rw [esrc]
  have p1 : ∀ j, j ≤ 1 → (restWorld argsort).pullSrc (Beam.ofRows [rest (-1 / 2), rest (-3 / 2)] : Beam ℝ) j = ([rest (-1 / 2)], (Beam.ofRows [rest (-3 / 2)] : Beam ℝ)) := by
    intro j hj
    rw [pull, c1, if_pos hj]; rfl
  have hfrom : ∀ n, srcFrom (restWorld argsort) (Beam.ofRows [rest (-1 / 2), rest (-3 / 2)] : Beam ℝ) 1 (n + 1) = (Beam.ofRows [rest (-3 / 2)] : Beam ℝ) := by
    intro n
    induction n with
    | zero =>
      show ((restWorld argsort).pullSrc (Beam.ofRows [rest (-1 / 2), rest (-3 / 2)] : Beam ℝ) (1 + 0)).2 = _
      rw [p1 (1 + 0) le_rfl]
    | succ n ih =>
      show ((restWorld argsort).pullSrc (srcFrom (restWorld argsort) (Beam.ofRows [rest (-1 / 2), rest (-3 / 2)] : Beam ℝ) 1 (n + 1)) (1 + (n + 1))).2 = _
      rw [ih, pull, c2, if_neg (by omega)]; rfl
  refine ⟨?_, ?_, ?_⟩
  · show ((restWorld argsort).pullSrc ((restWorld argsort).pullSrc (Beam.ofRows [rest (-1 / 2), rest (-3 / 2)] : Beam ℝ) 0).2 1).1 = _
    rw [p1 0 (by omega), pull, c2, if_pos rfl]; rfl
  · show ((restWorld argsort).pullSrc (Beam.ofRows [rest (-1 / 2), rest (-3 / 2)] : Beam ℝ) (1 + 0)).1 = _
    rw [p1 (1 + 0) le_rfl]
  · intro n hn
    obtain ⟨m, rfl⟩ : ∃ m, n = m + 1 := ⟨n - 1, by omega⟩
    show ((restWorld argsort).pullSrc (srcFrom (restWorld argsort) (Beam.ofRows [rest (-1 / 2), rest (-3 / 2)] : Beam ℝ) 1 (m + 1)) (1 + (m + 1))).1 = _
    rw [hfrom, pull, c2, if_neg (by omega)]; rfl

end ThreeD
end Lcode.Mpi
