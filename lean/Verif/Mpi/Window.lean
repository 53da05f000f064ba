import Verif.Mpi.Causality3D
import Verif.Mpi.Held3D

/-!
The length of the window. Property C64: a run in a longer window computes the same in the layers that the end of the shorter window cannot have reached.

The model is that of C45 (Verif/Mpi/Causality.lean): single-process runs `seqLayers` with the last layer `N`; here the numbers of layers of two runs differ.
-/

namespace Lcode.Mpi

variable {K P : Type} [Field K] {W : World K P}

/-- Two runs in windows with last layers `N ≤ N'`: if in each earlier time step the end of the shorter window does not show in the layers before it (`hdec`), then layer `j` of time step `g` is the same as long as `j + g ≤ N`. -/
theorem longer_window {N N' : ℕ} (hNN : N ≤ N') {inLayer : ℕ → P → Bool} {ok : P → Prop} {same : W.St → W.St → Prop}
    (F : Faithful W N' inLayer ok same) (dt : K) (b b' : List P) (T : ℕ) (hb : ∀ p ∈ b, ok p) (hb' : ∀ p ∈ b', ok p)
    (hok : ∀ g, g < T → ∀ p ∈ allFinished W N dt g (seqLayers W N dt b g), ok p) (hok' : ∀ g, g < T → ∀ p ∈ allFinished W N' dt g (seqLayers W N' dt b' g), ok p)
    (hdec : ∀ g, g < T → ∀ i, i + 1 ≤ N → (∀ k, k ≤ i + 1 → (seqLayers W N dt b g k).Perm (seqLayers W N' dt b' g k)) →
      ((allFinished W N dt g (seqLayers W N dt b g)).filter (inLayer i)).Perm ((allFinished W N' dt g (seqLayers W N' dt b' g)).filter (inLayer i)))
    (J : ℕ) (hJN : J ≤ N) (hJ : ∀ j, j ≤ J → SameLayer inLayer b b' j) (g : ℕ) (hg : g ≤ T) (j : ℕ) (hjg : j + g ≤ J) :
    (seqLayers W N dt b g j).Perm (seqLayers W N' dt b' g j) ∧
    same (stAt W (W.init (timeOf dt g)) (seqLayers W N dt b g) (j + 1)) (stAt W (W.init (timeOf dt g)) (seqLayers W N' dt b' g) (j + 1)) ∧
    (finished W dt g (seqLayers W N dt b g) j).Perm (finished W dt g (seqLayers W N' dt b' g) j) := by
  have key : ∀ g, g ≤ T → ∀ j, j + g ≤ J → (seqLayers W N dt b g j).Perm (seqLayers W N' dt b' g j) := by
    intro g
    induction g with
    | zero =>
      intro _ j hjJ
      exact ((F.source b hb j (by omega)).trans (hJ j (by omega))).trans (F.source b' hb' j (by omega)).symm
    | succ g ih =>
      intro hg j hjJ
      refine ((F.source _ (hok g (by omega)) j (by omega)).trans ?_).trans (F.source _ (hok' g (by omega)) j (by omega)).symm
      exact hdec g (by omega) j (by omega) fun k hk => ih (by omega) k (by omega)
  have hk := fun i (hi : i ≤ j) => key g hg i (by omega)
  exact ⟨hk j le_rfl, stAt_same F _ _ _ (j + 1) (fun i hi => hk i (by omega)) (j + 1) le_rfl, finished_same F dt g _ _ j hk j le_rfl⟩

theorem faithful_shorter {N N' : ℕ} (hNN : N ≤ N') {inLayer : ℕ → P → Bool} {ok : P → Prop} {same : W.St → W.St → Prop} (F : Faithful W N' inLayer ok same) : Faithful W N inLayer ok same :=
  ⟨F.disjoint, fun b hb j hj => F.source b hb j (by omega), F.init, F.layer⟩

/-- If no particle gets ahead of the layer in which it is finished, the end of the window does not show in the layers before it. -/
theorem end_unseen {N N' : ℕ} (hNN : N ≤ N') {inLayer : ℕ → P → Bool} {ok : P → Prop} {same : W.St → W.St → Prop}
    (F : Faithful W N' inLayer ok same) (dt : K) (b b' : List P) (T : ℕ) (hC : NotAhead W N dt b T inLayer ok) (hC' : NotAhead W N' dt b' T inLayer ok) (g : ℕ) (hg : g < T) (i : ℕ) (hi : i + 1 ≤ N)
    (h : ∀ k, k ≤ i + 1 → (seqLayers W N dt b g k).Perm (seqLayers W N' dt b' g k)) :
    ((allFinished W N dt g (seqLayers W N dt b g)).filter (inLayer i)).Perm ((allFinished W N' dt g (seqLayers W N' dt b' g)).filter (inLayer i)) := by
  rw [filter_drained dt b T g hg hC i, filter_drained dt b' T g hg hC' i, Nat.min_eq_right hi, Nat.min_eq_right (hi.trans hNN)]
  apply perm_flatten_map
  intro k hk
  rw [List.mem_range] at hk
  exact (finished_same F dt g _ _ (i + 1) h k (by omega)).filter _

section TwoD
open Lcode.Beam2D
variable {σ : Type}

/-- C64 in 2D: two runs with last layers `N ≤ N'`, whose beams lie behind the window head and have the same particles in the layers `0 .. j + g`; if `j + g ≤ N` and no particle overtakes, layer `j` of time step `g` is the same in both: the beam received,
plasma and fields, beam density, and the particles that finish there. -/
theorem window_length_2D (env : Env2D σ) (plasma0 : ℝ → σ) (hs : IsArgsort boolLe env.argsortB) (hf : IsArgsort (· ≤ ·) env.argsortF) (hx : 0 < env.cfg.xiStep)
    (N N' : ℕ) (hNN : N ≤ N') (hlim : ((N' : ℝ) + 1) * env.cfg.xiStep ≤ 99999) (dt : ℝ) (b b' : List (Particle ℝ)) (hb : ∀ p ∈ b, p.xi ≤ 0) (hb' : ∀ p ∈ b', p.xi ≤ 0)
    (hno : NoOvertaking env plasma0 N dt b) (hno' : NoOvertaking env plasma0 N' dt b') (g j : ℕ) (hj : j + g ≤ N)
    (hsame : ∀ i, i ≤ j + g → (b.filter fun p => decide (InLayer env.cfg.xiStep i p.xi)).Perm (b'.filter fun p => decide (InLayer env.cfg.xiStep i p.xi))) :
    (seqLayers (world2D env plasma0) N dt b g j).Perm (seqLayers (world2D env plasma0) N' dt b' g j) ∧
    (stAt (world2D env plasma0) ((world2D env plasma0).init (timeOf dt g)) (seqLayers (world2D env plasma0) N dt b g) (j + 1)).plasma =
      (stAt (world2D env plasma0) ((world2D env plasma0).init (timeOf dt g)) (seqLayers (world2D env plasma0) N' dt b' g) (j + 1)).plasma ∧
    (stAt (world2D env plasma0) ((world2D env plasma0).init (timeOf dt g)) (seqLayers (world2D env plasma0) N dt b g) (j + 1)).rhoPrev =
      (stAt (world2D env plasma0) ((world2D env plasma0).init (timeOf dt g)) (seqLayers (world2D env plasma0) N' dt b' g) (j + 1)).rhoPrev ∧
    (finished (world2D env plasma0) dt g (seqLayers (world2D env plasma0) N dt b g) j).Perm (finished (world2D env plasma0) dt g (seqLayers (world2D env plasma0) N' dt b' g) j) := by
  have F := faithful2D env plasma0 hs hf hx N' hlim
  have C := notAhead_of_causal (faithful_shorter hNN F) (causal2D env plasma0 hs N dt b hno g)
  have C' := notAhead_of_causal F (causal2D env plasma0 hs N' dt b' hno' g)
  obtain ⟨h1, h2, h3⟩ := longer_window hNN F dt b b' g hb hb'
    (fun g' hg p hp => by obtain ⟨i, hi, hp⟩ := mem_allFinished hp; exact (C g' hg i hi p hp).1)
    (fun g' hg p hp => by obtain ⟨i, hi, hp⟩ := mem_allFinished hp; exact (C' g' hg i hi p hp).1)
    (fun g' hg i hi h => end_unseen hNN F dt b b' g C C' g' hg i hi h) (j + g) hj (fun i hi => hsame i hi) g le_rfl j le_rfl
  exact ⟨h1, h2.1, h2.2.2.1, h3⟩

/-- C64 in 2D, first time step, without any condition on the motion: a longer window changes nothing in the layers of the shorter one. -/
theorem window_length_first_2D (env : Env2D σ) (plasma0 : ℝ → σ) (hs : IsArgsort boolLe env.argsortB) (hf : IsArgsort (· ≤ ·) env.argsortF) (hx : 0 < env.cfg.xiStep)
    (N N' : ℕ) (hNN : N ≤ N') (hlim : ((N' : ℝ) + 1) * env.cfg.xiStep ≤ 99999) (dt : ℝ) (b b' : List (Particle ℝ)) (hb : ∀ p ∈ b, p.xi ≤ 0) (hb' : ∀ p ∈ b', p.xi ≤ 0) (j : ℕ) (hj : j ≤ N)
    (hsame : ∀ i, i ≤ j → (b.filter fun p => decide (InLayer env.cfg.xiStep i p.xi)).Perm (b'.filter fun p => decide (InLayer env.cfg.xiStep i p.xi))) :
    (stAt (world2D env plasma0) ((world2D env plasma0).init (timeOf dt 0)) (seqLayers (world2D env plasma0) N dt b 0) (j + 1)).plasma =
      (stAt (world2D env plasma0) ((world2D env plasma0).init (timeOf dt 0)) (seqLayers (world2D env plasma0) N' dt b' 0) (j + 1)).plasma ∧
    (finished (world2D env plasma0) dt 0 (seqLayers (world2D env plasma0) N dt b 0) j).Perm (finished (world2D env plasma0) dt 0 (seqLayers (world2D env plasma0) N' dt b' 0) j) := by
  obtain ⟨-, h2, h3⟩ := longer_window hNN (faithful2D env plasma0 hs hf hx N' hlim) dt b b' 0 hb hb' (fun g hg => absurd hg (by omega)) (fun g hg => absurd hg (by omega))
    (fun g hg => absurd hg (by omega)) j hj (fun i hi => hsame i hi) 0 le_rfl j le_rfl
  exact ⟨h2.1, h3⟩

end TwoD

section ThreeD
open Lcode.Beam3D
open Lcode.Beam2D (IsArgsort)
variable {σ : Type}

/-- If nothing is held back after layer `N`, nothing of the layers before it is finished later. -/
theorem none_later (env : Env3 σ) (argsort : List ℝ → List ℕ) (hr : NoRush3 env) (hd : 0 < env.cfg.dxi) (hts : 0 ≤ env.timeStep) (plasma0 : ℝ → σ) (dt : ℝ) (g N : ℕ) (inp : ℕ → List (Row ℝ))
    (hin : Placed N (inLayer3 env) ok3 inp) (i m : ℕ) (him : i + 1 ≤ m)
    (h0 : doneIn env i (stAt (world3D env argsort plasma0) ((world3D env argsort plasma0).init (timeOf dt g)) inp (m + 1)) = []) (j : ℕ) (hmj : m < j) (hj : j ≤ N) :
    (finished (world3D env argsort plasma0) dt g inp j).filter (inLayer3 env i) = [] := by
  have key : ∀ k, m < k → k ≤ N + 1 → doneIn env i (stAt (world3D env argsort plasma0) ((world3D env argsort plasma0).init (timeOf dt g)) inp k) = [] := by
    intro k hk
    induction k with
    | zero => omega
    | succ k ih =>
      intro hkN
      by_cases hmk : m = k
      · rw [← hmk]; exact h0
      · rw [(late_iteration env argsort hr hd hts plasma0 dt g N inp hin i k (by omega) (by omega)).2, ih (by omega) (by omega)]; rfl
  rw [(late_iteration env argsort hr hd hts plasma0 dt g N inp hin i j (by omega) hj).1, key j hmj (by omega)]; rfl

/-- In 3D the end of the window does not show if nothing is held back when the time step ends. -/
theorem end_unseen_3D (env : Env3 σ) (argsort : List ℝ → List ℕ) (hs : IsArgsort (· ≤ ·) argsort) (hd : 0 < env.cfg.dxi) (hts : 0 ≤ env.timeStep) (hr : NoRush3 env) (plasma0 : ℝ → σ) (N N' : ℕ) (hNN : N ≤ N') (dt : ℝ) (g : ℕ)
    (a b : ℕ → List (Row ℝ)) (ha : Placed N (inLayer3 env) ok3 a) (hb : Placed N' (inLayer3 env) ok3 b)
    (hheld : heldBack (stAt (world3D env argsort plasma0) ((world3D env argsort plasma0).init (timeOf dt g)) a (N + 1)) = [])
    (i : ℕ) (hi : i + 1 ≤ N) (hab : ∀ k, k ≤ i + 1 → (a k).Perm (b k)) :
    ((allFinished (world3D env argsort plasma0) N dt g a).filter (inLayer3 env i)).Perm ((allFinished (world3D env argsort plasma0) N' dt g b).filter (inLayer3 env i)) := by
  have F := faithful3D env argsort hs hd plasma0 N
  set W := world3D env argsort plasma0 with hW
  have early : ∀ j, j ≤ i + 1 → ((finished W dt g a j).filter (inLayer3 env i)).Perm ((finished W dt g b j).filter (inLayer3 env i)) := by
    intro j hji
    exact (finished_same F dt g a b j (fun k hk => hab k (by omega)) j le_rfl).filter _
  have hb' : Placed N (inLayer3 env) ok3 b := fun j hj => hb j (by omega)
  have hfin : ∀ j, j ≤ N → ((finished W dt g a j).filter (inLayer3 env i)).Perm ((finished W dt g b j).filter (inLayer3 env i)) ∧
      (i + 1 ≤ j → (doneIn env i (stAt W (W.init (timeOf dt g)) a (j + 1))).Perm (doneIn env i (stAt W (W.init (timeOf dt g)) b (j + 1)))) := by
    intro j
    induction j with
    | zero => intro h; exact ⟨early 0 (by omega), fun h => absurd h (by omega)⟩
    | succ j ih =>
      intro hj
      by_cases hji : j + 1 ≤ i + 1
      · refine ⟨early _ hji, fun h => ?_⟩
        have hst := stAt_same F (timeOf dt g) a b (j + 1 + 1) (fun k hk => hab k (by omega)) (j + 1 + 1) le_rfl
        obtain ⟨-, -, -, fr, fe, fr', fe', a1, a2, b1, b2, -, p2⟩ := hst
        rw [doneIn_eq env i _ fr fe a1 a2, doneIn_eq env i _ fr' fe' b1 b2]
        exact p2.filter _
      · have hD := (ih (by omega)).2 (by omega)
        obtain ⟨x1, x2⟩ := late_iteration env argsort hr hd hts plasma0 dt g N a ha i (j + 1) (by omega) hj
        obtain ⟨y1, y2⟩ := late_iteration env argsort hr hd hts plasma0 dt g N b hb' i (j + 1) (by omega) hj
        rw [x1, y1]
        refine ⟨(hD.filter _).map _, fun _ => ?_⟩
        rw [x2, y2]
        exact hD.filter _
  have hdone : doneIn env i (stAt W (W.init (timeOf dt g)) a (N + 1)) = [] := by
    have : doneIn env i (stAt W (W.init (timeOf dt g)) a (N + 1)) = (heldBack (stAt W (W.init (timeOf dt g)) a (N + 1))).filter fun r => decide (InLayer env.cfg.dxi i r.xi) := by
      unfold doneIn heldBack
      rw [List.filter_filter]
      congr 1; funext r; exact Bool.and_comm _ _
    rw [this, hheld]; rfl
  have hdone' : doneIn env i (stAt W (W.init (timeOf dt g)) b (N + 1)) = [] := by
    have := (hfin N le_rfl).2 (by omega)
    rw [hdone] at this
    exact this.symm.eq_nil
  unfold allFinished
  obtain ⟨d, rfl⟩ : ∃ d, N' = N + d := ⟨N' - N, by omega⟩
  have hlast : ((List.range d).map ((List.filter (inLayer3 env i) ∘ finished W dt g b) ∘ fun x => N + 1 + x)).flatten = [] := by
    rw [List.flatten_eq_nil_iff]
    intro l hl
    obtain ⟨x, hx, rfl⟩ := List.mem_map.mp hl
    rw [List.mem_range] at hx
    exact none_later env argsort hr hd hts plasma0 dt g (N + d) b hb i N (by omega) hdone' (N + 1 + x) (by omega) (by omega)
  have hR : ((List.range (N + d + 1)).map (finished W dt g b)).flatten.filter (inLayer3 env i) = ((List.range (N + 1)).map (List.filter (inLayer3 env i) ∘ finished W dt g b)).flatten := by
    rw [show N + d + 1 = (N + 1) + d by omega, List.range_add (n := N + 1), List.filter_flatten, List.map_map, List.map_append, List.flatten_append, List.map_map, hlast, List.append_nil]
  rw [hR, List.filter_flatten, List.map_map]
  apply perm_flatten_map
  intro j hj
  rw [List.mem_range] at hj
  exact (hfin j (by omega)).1

/-- C64 in 3D: two runs with last layers `N ≤ N'`, whose beams lie behind the window head and have the same particles in the layers `0 .. j + g`; if `j + g ≤ N`, no substep carries a particle ahead of its half-step point, and in the shorter window no
finished particle is still held back when an earlier time step ends, layer `j` of time step `g` is the same in both. -/
theorem window_length_3D (env : Env3 σ) (argsort : List ℝ → List ℕ) (hs : IsArgsort (· ≤ ·) argsort) (hd : 0 < env.cfg.dxi) (hts : 0 ≤ env.timeStep) (hr : NoRush3 env) (plasma0 : ℝ → σ) (N N' : ℕ) (hNN : N ≤ N') (dt : ℝ)
    (b b' : List (Row ℝ)) (hb : ∀ p ∈ b, p.xi < 0 ∧ strip p = p) (hb' : ∀ p ∈ b', p.xi < 0 ∧ strip p = p) (g j : ℕ) (hj : j + g ≤ N)
    (hkept : ∀ g', g' < g → heldBack (stAt (world3D env argsort plasma0) ((world3D env argsort plasma0).init (timeOf dt g')) (seqLayers (world3D env argsort plasma0) N dt b g') (N + 1)) = [])
    (hsame : ∀ i, i ≤ j + g → (b.filter fun p => decide (InLayer env.cfg.dxi i p.xi)).Perm (b'.filter fun p => decide (InLayer env.cfg.dxi i p.xi))) :
    (seqLayers (world3D env argsort plasma0) N dt b g j).Perm (seqLayers (world3D env argsort plasma0) N' dt b' g j) ∧
    (stAt (world3D env argsort plasma0) ((world3D env argsort plasma0).init (timeOf dt g)) (seqLayers (world3D env argsort plasma0) N dt b g) (j + 1)).plasma =
      (stAt (world3D env argsort plasma0) ((world3D env argsort plasma0).init (timeOf dt g)) (seqLayers (world3D env argsort plasma0) N' dt b' g) (j + 1)).plasma ∧
    (stAt (world3D env argsort plasma0) ((world3D env argsort plasma0).init (timeOf dt g)) (seqLayers (world3D env argsort plasma0) N dt b g) (j + 1)).rhoPrev =
      (stAt (world3D env argsort plasma0) ((world3D env argsort plasma0).init (timeOf dt g)) (seqLayers (world3D env argsort plasma0) N' dt b' g) (j + 1)).rhoPrev ∧
    (finished (world3D env argsort plasma0) dt g (seqLayers (world3D env argsort plasma0) N dt b g) j).Perm (finished (world3D env argsort plasma0) dt g (seqLayers (world3D env argsort plasma0) N' dt b' g) j) := by
  have F := faithful3D env argsort hs hd plasma0 N'
  have L := local3D env argsort hs hd hts hr plasma0 N dt
  have L' := local3D env argsort hs hd hts hr plasma0 N' dt
  have P := fun g => seqLayers_placed (faithful3D env argsort hs hd plasma0 N) L b hb g
  have P' := fun g => seqLayers_placed F L' b' hb' g
  obtain ⟨h1, h2, h3⟩ := longer_window hNN F dt b b' g hb hb' (fun g' _ => L.okFinished g' _ (P g')) (fun g' _ => L'.okFinished g' _ (P' g'))
    (fun g' hg i hi h => end_unseen_3D env argsort hs hd hts hr plasma0 N N' hNN dt g' _ _ (P g') (P' g') (hkept g' hg) i hi h) (j + g) hj (fun i hi => hsame i hi) g le_rfl j le_rfl
  exact ⟨h1, h2.1, h2.2.2.1, h3⟩

/-- C64 in 3D in terms of the initial beam: nothing is held back if every particle has x above xi by the length of the run. -/
theorem window_length_narrow_3D (env : Env3 σ) (argsort : List ℝ → List ℕ) (hs : IsArgsort (· ≤ ·) argsort) (hd : 0 < env.cfg.dxi) (hts : 0 ≤ env.timeStep) (he : 0 < env.energy) (hr : NoRush3 env) (plasma0 : ℝ → σ) (N N' : ℕ) (hNN : N ≤ N') (dt : ℝ)
    (b b' : List (Row ℝ)) (hb : ∀ p ∈ b, p.xi < 0 ∧ strip p = p) (hb' : ∀ p ∈ b', p.xi < 0 ∧ strip p = p) (g j : ℕ) (hj : j + g ≤ N) (hq : ∀ p ∈ b, p.qm ≠ 0 ∧ (g + 1 : ℕ) * env.timeStep ≤ p.x - p.xi)
    (hsame : ∀ i, i ≤ j + g → (b.filter fun p => decide (InLayer env.cfg.dxi i p.xi)).Perm (b'.filter fun p => decide (InLayer env.cfg.dxi i p.xi))) :
    (seqLayers (world3D env argsort plasma0) N dt b g j).Perm (seqLayers (world3D env argsort plasma0) N' dt b' g j) ∧
    (stAt (world3D env argsort plasma0) ((world3D env argsort plasma0).init (timeOf dt g)) (seqLayers (world3D env argsort plasma0) N dt b g) (j + 1)).plasma =
      (stAt (world3D env argsort plasma0) ((world3D env argsort plasma0).init (timeOf dt g)) (seqLayers (world3D env argsort plasma0) N' dt b' g) (j + 1)).plasma :=
  have h := window_length_3D env argsort hs hd hts hr plasma0 N N' hNN dt b b' hb hb' g j hj
    (fun g' hg => nothing_held_3D env argsort hs plasma0 hd hts he N dt b (fun p hp => (hb p hp).1) g hq g' (by omega) (N + 1) le_rfl) hsame
  ⟨h.1, h.2.1⟩

/-- C64 in 3D, first time step, without any condition on the motion. -/
theorem window_length_first_3D (env : Env3 σ) (argsort : List ℝ → List ℕ) (hs : IsArgsort (· ≤ ·) argsort) (hd : 0 < env.cfg.dxi) (plasma0 : ℝ → σ) (N N' : ℕ) (hNN : N ≤ N') (dt : ℝ)
    (b b' : List (Row ℝ)) (hb : ∀ p ∈ b, p.xi < 0 ∧ strip p = p) (hb' : ∀ p ∈ b', p.xi < 0 ∧ strip p = p) (j : ℕ) (hj : j ≤ N)
    (hsame : ∀ i, i ≤ j → (b.filter fun p => decide (InLayer env.cfg.dxi i p.xi)).Perm (b'.filter fun p => decide (InLayer env.cfg.dxi i p.xi))) :
    (stAt (world3D env argsort plasma0) ((world3D env argsort plasma0).init (timeOf dt 0)) (seqLayers (world3D env argsort plasma0) N dt b 0) (j + 1)).plasma =
      (stAt (world3D env argsort plasma0) ((world3D env argsort plasma0).init (timeOf dt 0)) (seqLayers (world3D env argsort plasma0) N' dt b' 0) (j + 1)).plasma ∧
    (finished (world3D env argsort plasma0) dt 0 (seqLayers (world3D env argsort plasma0) N dt b 0) j).Perm (finished (world3D env argsort plasma0) dt 0 (seqLayers (world3D env argsort plasma0) N' dt b' 0) j) := by
  obtain ⟨-, h2, h3⟩ := longer_window hNN (faithful3D env argsort hs hd plasma0 N') dt b b' 0 hb hb' (fun g hg => absurd hg (by omega)) (fun g hg => absurd hg (by omega))
    (fun g hg => absurd hg (by omega)) j hj (fun i hi => hsame i hi) 0 le_rfl j le_rfl
  exact ⟨h2.1, h3⟩

end ThreeD

end Lcode.Mpi

namespace Lcode.Beam3D

/-- C64, refutation in 3D without the condition: one particle at rest in the first layer, at x = -4, without fields. In a window of 3 layers behind the first the beam after a time step is empty; in a window of 4 it contains the particle. -/
theorem window_length_fails_3D :
    (stepDt emptyWindow () (Beam.ofRows [restRow (-4) (-1 / 2) 0 0]) 3).drain.rows = [] ∧
    (stepDt emptyWindow () (Beam.ofRows [restRow (-4) (-1 / 2) 0 0]) 4).drain.rows = [restRow (-4) (-6 / 10) (1 / 10) 0] := by
  refine ⟨step_drops_particle.1.1, ?_⟩
  have hrun : stepDt emptyWindow () (Beam.ofRows [restRow (-4) (-1 / 2) 0 0]) 4 =
      sweepStep emptyWindow (sweepStep emptyWindow (sweepStep emptyWindow (sweepStep emptyWindow (sweepStep emptyWindow (sweepInit () (Beam.ofRows [restRow (-4) (-1 / 2) 0 0])) 0) 1) 2) 3) 4 := by
    have hr : List.range (4 + 1) = [0, 1, 2, 3, 4] := rfl
    simp only [stepDt, hr, List.foldl_cons, List.foldl_nil]
  rw [hrun]
  obtain ⟨h1, -⟩ := (sweep_rest (-4) (by norm_num) _ rfl).1 (by norm_num)
  obtain ⟨h2, -⟩ := sweep_wait emptyWindow _ 2 _ _ h1 rfl (by norm_num [restRow, emptyWindow])
  obtain ⟨h3, -⟩ := sweep_wait emptyWindow _ 3 _ _ h2 rfl (by norm_num [restRow, emptyWindow])
  have h4 := sweep_release emptyWindow _ 4 _ _ h3 rfl (by norm_num [restRow, emptyWindow])
  rw [h4.drain, rows_ofRows]
  rfl

/-- C64, the bound is sharp: one particle at rest in the last layer of a window of one layer is not in the beam after a time step; in a window of two layers it is. -/
theorem last_layer_lost :
    (stepDt emptyWindow () (Beam.ofRows [restRow 4 (-1 / 2) 0 0]) 0).drain.rows = [] ∧
    (stepDt emptyWindow () (Beam.ofRows [restRow 4 (-1 / 2) 0 0]) 1).drain.rows = [restRow 4 (-6 / 10) (1 / 10) 0] := by
  have h0 : RowsOf (sweepInit () (Beam.ofRows [restRow 4 (-1 / 2) 0 0])) [] [] [restRow 4 (-1 / 2) 0 0] [] := ⟨rfl, rfl, rfl, rfl⟩
  constructor
  · have hrun : stepDt emptyWindow () (Beam.ofRows [restRow 4 (-1 / 2) 0 0]) 0 = sweepStep emptyWindow (sweepInit () (Beam.ofRows [restRow 4 (-1 / 2) 0 0])) 0 := rfl
    rw [hrun]
    obtain ⟨h1, -, -⟩ := sweepStep_rows emptyWindow _ 0 [] [] _ [] h0
    rw [h1.drain, rows_ofRows]
    rfl
  · have hrun : stepDt emptyWindow () (Beam.ofRows [restRow 4 (-1 / 2) 0 0]) 1 = sweepStep emptyWindow (sweepStep emptyWindow (sweepInit () (Beam.ofRows [restRow 4 (-1 / 2) 0 0])) 0) 1 := rfl
    rw [hrun, ((sweep_rest 4 (by norm_num) _ rfl).2 (by norm_num)).drain, rows_ofRows]

end Lcode.Beam3D
