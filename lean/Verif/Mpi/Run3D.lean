import Verif.Mpi.World3D

/-!
C12 in 3D: when a parallel 3D run shows what the single-process run shows, and a parallel run that does not.
-/

namespace Lcode.Mpi

open Lcode.Beam3D
open Lcode.Beam2D (substepFraction IsArgsort gather)
open Lcode.Plasma3D (Fields3)

variable {σ : Type}

/-! ### The 3D source -/

theorem srcAt_layers (env : Env3 σ) (argsort : List ℝ → List ℕ) (plasma0 : ℝ → σ) (src : Beam ℝ) (n i : ℕ) :
    sourceLayers env.cfg.dxi (srcAt (world3D env argsort plasma0) src i) i n =
      ((List.range' i n).map (fun j => (getBeamLayerToLayout env.cfg.dxi (srcAt (world3D env argsort plasma0) src j) j).1), srcAt (world3D env argsort plasma0) src (i + n)) := by
  induction n generalizing i with
  | zero => rfl
  | succ n ih =>
    simp only [sourceLayers]
    have e : (getBeamLayerToLayout env.cfg.dxi (srcAt (world3D env argsort plasma0) src i) i).2 = srcAt (world3D env argsort plasma0) src (i + 1) := rfl
    rw [e, ih (i + 1), List.range'_succ, List.map_cons]
    simp only [show i + 1 + n = i + (n + 1) by omega]
    rfl

theorem mkSrc_rows (env : Env3 σ) (argsort : List ℝ → List ℕ) (plasma0 : ℝ → σ) (b : List (Row ℝ)) :
    (world3D env argsort plasma0).mkSrc b = sourceInit argsort (Beam.ofRows (b.map strip)) := by
  show sourceInit argsort (Beam.initGenerated b) = _
  rw [initGenerated_ofRows]

/-- The 3D source hands out in layer `j` the particles of layer `j`, if all particles are behind the window head. -/
theorem source3D (env : Env3 σ) (argsort : List ℝ → List ℕ) (hs : IsArgsort (· ≤ ·) argsort) (hd : 0 < env.cfg.dxi) (plasma0 : ℝ → σ)
    (b : List (Row ℝ)) (hb : ∀ p ∈ b, p.xi < 0) (j : ℕ) :
    (srcLayer (world3D env argsort plasma0) ((world3D env argsort plasma0).mkSrc b) j).Perm
      ((b.filter fun p => decide (InLayer env.cfg.dxi j p.xi)).map strip) := by
  set W := world3D env argsort plasma0
  have hmk := mkSrc_rows env argsort plasma0 b
  have hneg : ∀ r ∈ (Beam.ofRows (b.map strip)).rows, r.xi < 0 := by
    intro r hr
    rw [rows_ofRows, List.mem_map] at hr
    obtain ⟨p, hp, rfl⟩ := hr
    exact hb p hp
  have h1 := (source_layers argsort hs _ _ (wf_ofRows (b.map strip)) env.cfg.dxi hd hneg (j + 1)).1
  have h2 := srcAt_layers env argsort plasma0 (W.mkSrc b) (j + 1) 0
  have e0 : srcAt W (W.mkSrc b) 0 = sourceInit argsort (Beam.ofRows (b.map strip)) := hmk
  rw [e0] at h2
  rw [h2] at h1
  simp only [List.map_map] at h1
  have h3 := congrArg (fun l => l[j]?) h1
  simp only [List.getElem?_map, List.getElem?_range' (show j < j + 1 by omega), List.getElem?_range (show j < j + 1 by omega), Option.map_some, Option.some.injEq, Function.comp, one_mul, Nat.zero_add] at h3
  have h4 : srcLayer W (W.mkSrc b) j = ((getBeamLayerToLayout env.cfg.dxi (srcAt W (W.mkSrc b) j) j).1.rows).map strip := rfl
  rw [h4, h3]
  have hp := (source_sorted argsort hs _ _ (wf_ofRows (b.map strip))).1
  rw [rows_ofRows] at hp
  refine ((hp.filter _).map strip).trans (List.Perm.of_eq ?_)
  rw [List.filter_map, List.map_map]
  rfl

/-! ### Order of particles does not matter -/

/-- States of the 3D layer loop that differ only in the order of the particles still to be moved. -/
def Good3 (s s' : St3D σ) : Prop :=
  s.plasma = s'.plasma ∧ s.rhoLayout = s'.rhoLayout ∧ s.rhoPrev = s'.rhoPrev ∧
    ∃ fresh fell fresh' fell', s.toMove = Beam.ofRows (fresh ++ fell) ∧ s.fellSize = fell.length ∧
      s'.toMove = Beam.ofRows (fresh' ++ fell') ∧ s'.fellSize = fell'.length ∧ fresh.Perm fresh' ∧ fell.Perm fell'

theorem layer3D_perm (env : Env3 σ) (s s' : St3D σ) (j : ℕ) (l l' : List (Row ℝ)) (h : Good3 s s') (hl : l.Perm l') :
    Good3 (layer3D env s j l).1 (layer3D env s' j l').1 ∧ (layer3D env s j l).2.Perm (layer3D env s' j l').2 := by
  obtain ⟨h1, h2, h3, fresh, fell, fresh', fell', a1, a2, b1, b2, p1, p2⟩ := h
  have hlay : layoutBeamLayer env.cfg s.rhoLayout l j = layoutBeamLayer env.cfg s'.rhoLayout l' j := by
    rw [h2]; exact layout_congr env.cfg _ j l l' (hl.map _)
  have hpl : plasma3D env s j l = plasma3D env s' j l' := by
    unfold plasma3D; rw [hlay, h1, h3]
  have e1 := layer3D_rows env s fresh fell a1 a2 j l
  have e2 := layer3D_rows env s' fresh' fell' b1 b2 j l'
  simp only [hpl, h1] at e1
  have hres : (moved3D env j (env.fields s'.plasma) (env.fields (plasma3D env s' j l')) fresh fell).Perm
      (moved3D env j (env.fields s'.plasma) (env.fields (plasma3D env s' j l')) fresh' fell') := by
    unfold moved3D
    exact ((p1.map _).append p2).map _
  simp only at e2
  rw [e1, e2, hlay]
  refine ⟨⟨rfl, rfl, rfl, l.map strip, _, l'.map strip, _, rfl, rfl, rfl, rfl, hl.map _, (hres.filter _).map _⟩, ?_⟩
  exact (((hres.filter _).map _).map _)

theorem faithful3D (env : Env3 σ) (argsort : List ℝ → List ℕ) (hs : IsArgsort (· ≤ ·) argsort) (hd : 0 < env.cfg.dxi) (plasma0 : ℝ → σ) (N : ℕ) :
    Faithful (world3D env argsort plasma0) N (fun j p => decide (InLayer env.cfg.dxi j p.xi)) (fun p => p.xi < 0 ∧ strip p = p) Good3 where
  disjoint i j p h1 h2 := by
    have h1 := of_decide_eq_true h1
    have h2 := of_decide_eq_true h2
    have key : ∀ a b : ℕ, -(env.cfg.dxi * ((a : ℝ) + 1)) < -(env.cfg.dxi * b) → b ≤ a := by
      intro a b hab
      have : env.cfg.dxi * (b : ℝ) < env.cfg.dxi * ((a : ℝ) + 1) := by linarith
      have : (b : ℝ) < (a : ℝ) + 1 := lt_of_mul_lt_mul_left this hd.le
      have : b < a + 1 := by exact_mod_cast this
      omega
    have := key i j (lt_of_le_of_lt h1.1 h2.2)
    have := key j i (lt_of_le_of_lt h2.1 h1.2)
    omega
  source b hb j _ := by
    refine (source3D env argsort hs hd plasma0 b (fun p hp => (hb p hp).1) j).trans (List.Perm.of_eq ?_)
    conv_rhs => rw [← List.map_id (b.filter _)]
    apply List.map_congr_left
    intro p hp
    exact (hb p (List.mem_filter.mp hp).1).2
  init _ := ⟨rfl, rfl, rfl, [], [], [], [], rfl, rfl, rfl, rfl, List.Perm.refl _, List.Perm.refl _⟩
  layer s s' j l l' h hl := layer3D_perm env s s' j l l' h hl

theorem stAt_rows (env : Env3 σ) (argsort : List ℝ → List ℕ) (plasma0 : ℝ → σ) (time : ℝ) (inp : ℕ → List (Row ℝ)) (j : ℕ) :
    ∃ fresh fell, (stAt (world3D env argsort plasma0) ((world3D env argsort plasma0).init time) inp j).toMove = Beam.ofRows (fresh ++ fell) ∧
      (stAt (world3D env argsort plasma0) ((world3D env argsort plasma0).init time) inp j).fellSize = fell.length := by
  induction j with
  | zero => exact ⟨[], [], rfl, rfl⟩
  | succ j ih =>
    obtain ⟨fresh, fell, h1, h2⟩ := ih
    have e := layer3D_rows env _ fresh fell h1 h2 j (inp j)
    simp only at e
    have e' : stAt (world3D env argsort plasma0) ((world3D env argsort plasma0).init time) inp (j + 1) = (layer3D env (stAt (world3D env argsort plasma0) ((world3D env argsort plasma0).init time) inp j) j (inp j)).1 := rfl
    rw [e', e]
    exact ⟨_, _, rfl, rfl⟩

/-- What finishes carries no `dt` and `remaining_steps`, and nothing finishes in iteration 0. -/
theorem finished_strip (env : Env3 σ) (argsort : List ℝ → List ℕ) (plasma0 : ℝ → σ) (dt : ℝ) (g : ℕ) (inp : ℕ → List (Row ℝ)) (j : ℕ) :
    (∀ p ∈ finished (world3D env argsort plasma0) dt g inp j, strip p = p) ∧ finished (world3D env argsort plasma0) dt g inp 0 = [] := by
  constructor
  · intro p hp
    obtain ⟨fresh, fell, h1, h2⟩ := stAt_rows env argsort plasma0 (timeOf dt g) inp j
    have e := layer3D_rows env _ fresh fell h1 h2 j (inp j)
    simp only at e
    have e' : finished (world3D env argsort plasma0) dt g inp j = (layer3D env (stAt (world3D env argsort plasma0) ((world3D env argsort plasma0).init (timeOf dt g)) inp j) j (inp j)).2 := rfl
    rw [e', e] at hp
    simp only [List.mem_map] at hp
    obtain ⟨a, -, rfl⟩ := hp
    rfl
  · have e := layer3D_rows env ((world3D env argsort plasma0).init (timeOf dt g)) [] [] rfl rfl 0 (inp 0)
    simp only at e
    have e' : finished (world3D env argsort plasma0) dt g inp 0 = (layer3D env ((world3D env argsort plasma0).init (timeOf dt g)) 0 (inp 0)).2 := rfl
    rw [e', e]
    rfl

/-- In the single-process run every particle that finishes moving in iteration `j` of one of the first `T` time steps has its coordinate in layer `j - 1`, the layer whose fields moved it. The 3D pusher does not enforce this
(it compares x, not xi, with the layer boundary, beam3d/move.py:120-127). -/
def FinishesInLayer (env : Env3 σ) (argsort : List ℝ → List ℕ) (plasma0 : ℝ → σ) (N : ℕ) (dt : ℝ) (b0 : List (Row ℝ)) (T : ℕ) : Prop :=
  ∀ g, g < T → ∀ j, 1 ≤ j → j ≤ N → ∀ p ∈ finished (world3D env argsort plasma0) dt g (seqLayers (world3D env argsort plasma0) N dt b0 g) j,
    InLayer env.cfg.dxi (j - 1) p.xi

theorem causal3D (env : Env3 σ) (argsort : List ℝ → List ℕ) (hd : 0 < env.cfg.dxi) (plasma0 : ℝ → σ) (N : ℕ) (dt : ℝ) (b0 : List (Row ℝ)) (T : ℕ)
    (h : FinishesInLayer env argsort plasma0 N dt b0 T) :
    Causal (world3D env argsort plasma0) N dt b0 T (fun j p => decide (InLayer env.cfg.dxi j p.xi)) (fun p => p.xi < 0 ∧ strip p = p) := by
  intro g hg j hj p hp
  have hf := finished_strip env argsort plasma0 dt g (seqLayers (world3D env argsort plasma0) N dt b0 g) j
  have hj1 : 1 ≤ j := by
    by_contra h0
    have : j = 0 := by omega
    subst this
    rw [hf.2] at hp
    simp at hp
  have hl := h g hg j hj1 hj p hp
  refine ⟨⟨?_, hf.1 p hp⟩, hj1, by rw [decide_eq_true_eq]; exact_mod_cast hl⟩
  have : (0 : ℝ) ≤ env.cfg.dxi * ((j - 1 : ℕ) : ℝ) := by positivity
  have h2 : p.xi < -(env.cfg.dxi * ((j - 1 : ℕ) : ℝ)) := hl.2
  linarith

/-- C12 for 3D simulations: with any plasma solver, any number of processes and any schedule, when the parallel run ends every time step shows the
physical time, the layers and the final beam of the single-process run, up to the order of particles within a layer, provided that the particles finish moving in the layer in which they are. -/
theorem parallel_equals_sequential_3D (env : Env3 σ) (argsort : List ℝ → List ℕ) (hs : IsArgsort (· ≤ ·) argsort) (hd : 0 < env.cfg.dxi) (plasma0 : ℝ → σ)
    (N size steps : ℕ) (dt : ℝ) (b0 : List (Row ℝ)) (hC : FinishesInLayer env argsort plasma0 N dt b0 steps) (k : ℕ)
    (n : Net (List (Row ℝ)) (List (Entry ℝ (Row ℝ)))) (hn : Steps size k (start (world3D env argsort plasma0) size steps N dt b0) n)
    (hend : ∀ n', ¬ Step size n n') (r : ℕ) (hr : r < size) :
    ∃ log : List (Entry ℝ (Row ℝ)), n.procs r = .done log ∧
      ∀ g, g < steps → g % size = r → ∃ e, log[g / size]? = some e ∧ e.time = dt * ((g : ℝ) + 1) ∧
        List.Forall₂ List.Perm e.layers ((List.range (N + 1)).map (seqLayers (world3D env argsort plasma0) N dt b0 g)) ∧
        e.drained.Perm (allFinished (world3D env argsort plasma0) N dt g (seqLayers (world3D env argsort plasma0) N dt b0 g)) :=
  parallel_equals_sequential (faithful3D env argsort hs hd plasma0 N) size steps dt b0 (causal3D env argsort hd plasma0 N dt b0 steps hC) k n hn hend r hr

/-! ### A beam of one particle at rest, without fields

The window of `emptyWindow`: layers of width 1, a time step of 1/10 in which a particle at rest falls back by 1/10. -/

noncomputable abbrev restWorld (argsort : List ℝ → List ℕ) : World ℝ (Row ℝ) := world3D emptyWindow argsort fun _ => ()

/-- One particle at rest on the axis. -/
noncomputable abbrev rest (xi : ℝ) : Row ℝ := restRow 0 xi 0 0

theorem rest_source (argsort : List ℝ → List ℕ) (hs : IsArgsort (· ≤ ·) argsort) (xi : ℝ) (h0 : xi < 0) (i : ℕ) (hi : InLayer 1 i xi) (j : ℕ) :
    srcLayer (restWorld argsort) ((restWorld argsort).mkSrc [rest xi]) j = if j = i then [rest xi] else [] := by
  have h := source3D emptyWindow argsort hs (by norm_num [emptyWindow]) (fun _ => ()) [rest xi] (by simpa [restRow] using h0) j
  have ed : emptyWindow.cfg.dxi = 1 := rfl
  rw [ed] at h
  by_cases hj : j = i
  · subst hj
    have hd : decide (InLayer 1 j (rest xi).xi) = true := decide_eq_true hi
    rw [if_pos rfl]
    rw [List.filter_cons, if_pos hd] at h
    exact List.perm_singleton.mp h
  · rw [if_neg hj]
    have hd : ¬ decide (InLayer 1 j (rest xi).xi) = true := by
      intro hc
      exact hj ((faithful3D emptyWindow argsort hs (by norm_num [emptyWindow]) (fun _ => ()) 0).disjoint j i (rest xi) hc (decide_eq_true hi))
    rw [List.filter_cons, if_neg hd] at h
    exact h.eq_nil

theorem rest_push (xi : ℝ) (h1 : -1 ≤ xi - 1 / 20) :
    pushRow emptyWindow.cfg 0 noFields noFields (initRow emptyWindow.timeStep emptyWindow.energy (rest xi)) = ⟨restRow 0 (xi - 1 / 10) (1 / 10) 0, false, true, false⟩ := by
  rw [initRow_rest]
  unfold pushRow
  have e1 : (restRow 0 xi (1 / 10) 1).remaining.toNat = 1 := rfl
  have hl : pushLoop emptyWindow.cfg 0 noFields noFields 1 (restRow 0 xi (1 / 10) 1) = (restRow 0 (xi - 1 / 10) (1 / 10) 0, false, false) := by
    simp only [pushLoop, turn_rest 0 xi 1 0 (by norm_num; linarith) (by norm_num)]
    norm_num
  rw [e1, hl]
  have ed : emptyWindow.cfg.dxi = 1 := rfl
  simp only [notInLayer, ed, restRow]
  norm_num

/-- A time step that finds the particle in layer 0 finishes it in iteration 1, wherever its coordinate then is. -/
theorem rest_step (argsort : List ℝ → List ℕ) (dt : ℝ) (g : ℕ) (xi : ℝ) (h1 : -1 ≤ xi - 1 / 20) (inp : ℕ → List (Row ℝ)) (hinp : ∀ j, inp j = if j = 0 then [rest xi] else []) (j : ℕ) :
    finished (restWorld argsort) dt g inp j = if j = 1 then [rest (xi - 1 / 10)] else [] := by
  set W := restWorld argsort
  have hst : ∀ j, ∃ fresh : List (Row ℝ), (stAt W (W.init (timeOf dt g)) inp j).toMove = Beam.ofRows (fresh ++ []) ∧ (stAt W (W.init (timeOf dt g)) inp j).fellSize = 0 ∧
      fresh = if j = 1 then [rest xi] else [] := by
    intro j
    induction j with
    | zero => exact ⟨[], rfl, rfl, rfl⟩
    | succ j ih =>
      obtain ⟨fresh, a1, a2, a3⟩ := ih
      have e := layer3D_rows emptyWindow _ fresh [] a1 a2 j (inp j)
      simp only at e
      have e' : stAt W (W.init (timeOf dt g)) inp (j + 1) = (layer3D emptyWindow (stAt W (W.init (timeOf dt g)) inp j) j (inp j)).1 := rfl
      have hfell : ((moved3D emptyWindow j (emptyWindow.fields (stAt W (W.init (timeOf dt g)) inp j).plasma) (emptyWindow.fields (plasma3D emptyWindow (stAt W (W.init (timeOf dt g)) inp j) j (inp j))) fresh []).filter Moved.fell).map Moved.row = [] := by
        rw [a3]
        by_cases hj : j = 1
        · subst hj
          have hp : moved3D emptyWindow 1 noFields noFields [rest xi] [] = [⟨restRow 0 (xi - 1 / 10) (1 / 10) 0, false, true, false⟩] := by
            rw [← rest_push xi h1]; rfl
          rw [if_pos rfl]
          have : moved3D emptyWindow 1 (emptyWindow.fields (stAt W (W.init (timeOf dt g)) inp 1).plasma) (emptyWindow.fields (plasma3D emptyWindow (stAt W (W.init (timeOf dt g)) inp 1) 1 (inp 1))) [rest xi] [] = moved3D emptyWindow 1 noFields noFields [rest xi] [] := rfl
          rw [this, hp]; rfl
        · rw [if_neg hj]; rfl
      rw [e', e, hfell]
      refine ⟨(inp j).map strip, rfl, rfl, ?_⟩
      rw [hinp j]
      by_cases hj : j = 0
      · subst hj; rfl
      · rw [if_neg hj, if_neg (by omega)]; rfl
  obtain ⟨fresh, a1, a2, a3⟩ := hst j
  have e := layer3D_rows emptyWindow _ fresh [] a1 a2 j (inp j)
  simp only at e
  have e' : finished W dt g inp j = (layer3D emptyWindow (stAt W (W.init (timeOf dt g)) inp j) j (inp j)).2 := rfl
  rw [e', e, a3]
  by_cases hj : j = 1
  · subst hj
    have hp : moved3D emptyWindow 1 noFields noFields [rest xi] [] = [⟨restRow 0 (xi - 1 / 10) (1 / 10) 0, false, true, false⟩] := by
      rw [← rest_push xi h1]; rfl
    rw [if_pos rfl, if_pos rfl]
    have : moved3D emptyWindow 1 (emptyWindow.fields (stAt W (W.init (timeOf dt g)) inp 1).plasma) (emptyWindow.fields (plasma3D emptyWindow (stAt W (W.init (timeOf dt g)) inp 1) 1 (inp 1))) [rest xi] [] = moved3D emptyWindow 1 noFields noFields [rest xi] [] := rfl
    rw [this, hp]; rfl
  · rw [if_neg hj, if_neg hj]; rfl

theorem rest_allFinished (argsort : List ℝ → List ℕ) (N : ℕ) (hN : 1 ≤ N) (dt : ℝ) (g : ℕ) (xi : ℝ) (h1 : -1 ≤ xi - 1 / 20) (inp : ℕ → List (Row ℝ)) (hinp : ∀ j, inp j = if j = 0 then [rest xi] else []) :
    allFinished (restWorld argsort) N dt g inp = [rest (xi - 1 / 10)] := by
  unfold allFinished
  have : ∀ n, ((List.range n).map (finished (restWorld argsort) dt g inp)).flatten = if 1 < n then [rest (xi - 1 / 10)] else [] := by
    intro n
    induction n with
    | zero => rfl
    | succ n ih =>
      rw [List.range_succ, List.map_append, List.flatten_append, ih]
      simp only [List.map_cons, List.map_nil, List.flatten_cons, List.flatten_nil, List.append_nil]
      rw [rest_step argsort dt g xi h1 inp hinp n]
      rcases Nat.lt_trichotomy n 1 with h | h | h
      · simp (disch := omega) only [if_neg, List.append_nil]
      · subst h; rfl
      · simp (disch := omega) only [if_pos, if_neg, List.append_nil]
  rw [this, if_pos (by omega)]

/-- As long as the particle stays in layer 0, the single-process run finds it there, 1/10 further back in every time step. -/
theorem rest_seq (argsort : List ℝ → List ℕ) (hs : IsArgsort (· ≤ ·) argsort) (N : ℕ) (hN : 1 ≤ N) (dt xi : ℝ) (h0 : xi < 0) (g : ℕ) (hg : -1 ≤ xi - g / 10) (j : ℕ) :
    seqLayers (restWorld argsort) N dt [rest xi] g j = if j = 0 then [rest (xi - g / 10)] else [] := by
  induction g generalizing j with
  | zero =>
    have hx : xi - ((0 : ℕ) : ℝ) / 10 = xi := by norm_num
    rw [hx] at hg ⊢
    exact rest_source argsort hs xi h0 0 ⟨by norm_num; exact hg, by norm_num; exact h0⟩ j
  | succ g ih =>
    push_cast at hg
    have hx : xi - ((g + 1 : ℕ) : ℝ) / 10 = xi - g / 10 - 1 / 10 := by push_cast; ring
    have hg0 : (0 : ℝ) ≤ (g : ℝ) / 10 := by positivity
    have e : seqLayers (restWorld argsort) N dt [rest xi] (g + 1) = srcLayer (restWorld argsort) ((restWorld argsort).mkSrc (allFinished (restWorld argsort) N dt g (seqLayers (restWorld argsort) N dt [rest xi] g))) := rfl
    rw [e, rest_allFinished argsort N hN dt g (xi - g / 10) (by linarith) _ (ih (by linarith)), hx]
    refine rest_source argsort hs _ (by linarith) 0 ⟨by norm_num; linarith, by norm_num; linarith⟩ j

/-- The hypothesis of C12 in 3D holds as long as the particle stays in layer 0. -/
theorem rest_finishes (argsort : List ℝ → List ℕ) (hs : IsArgsort (· ≤ ·) argsort) (N : ℕ) (hN : 1 ≤ N) (dt xi : ℝ) (h0 : xi < 0) (T : ℕ) (hT : -1 ≤ xi - T / 10) :
    FinishesInLayer emptyWindow argsort (fun _ => ()) N dt [rest xi] T := by
  intro g hg j hj1 hj p hp
  have hgT : (g : ℝ) + 1 ≤ T := by exact_mod_cast hg
  have hg0 : (0 : ℝ) ≤ (g : ℝ) / 10 := by positivity
  rw [rest_step argsort dt g (xi - g / 10) (by linarith) _ (rest_seq argsort hs N hN dt xi h0 g (by linarith)) j] at hp
  split_ifs at hp with h
  · subst h
    rw [List.mem_singleton] at hp
    subst hp
    have ed : emptyWindow.cfg.dxi = 1 := rfl
    rw [ed]
    constructor
    · norm_num [restRow]; linarith
    · norm_num [restRow]; linarith
  · simp at hp

/-- Non-vacuity of C12 in 3D: one particle at rest at xi = -1/2, five time steps, any number of processes; nothing is left to assume. -/
example (size k : ℕ) (n : Net (List (Row ℝ)) (List (Entry ℝ (Row ℝ))))
    (hn : Steps size k (start (restWorld Lcode.Beam2D.npArgsort) size 5 3 (1 / 10) [rest (-1 / 2)]) n) (hend : ∀ n', ¬ Step size n n') (r : ℕ) (hr : r < size) :
    ∃ log : List (Entry ℝ (Row ℝ)), n.procs r = .done log ∧
      ∀ g, g < 5 → g % size = r → ∃ e, log[g / size]? = some e ∧ e.time = 1 / 10 * ((g : ℝ) + 1) ∧
        List.Forall₂ List.Perm e.layers ((List.range (3 + 1)).map (seqLayers (restWorld Lcode.Beam2D.npArgsort) 3 (1 / 10) [rest (-1 / 2)] g)) ∧
        e.drained.Perm (allFinished (restWorld Lcode.Beam2D.npArgsort) 3 (1 / 10) g (seqLayers (restWorld Lcode.Beam2D.npArgsort) 3 (1 / 10) [rest (-1 / 2)] g)) :=
  parallel_equals_sequential_3D emptyWindow _ Lcode.Beam2D.npArgsort_correct (by norm_num [emptyWindow]) _ 3 size 5 (1 / 10) _
    (rest_finishes _ Lcode.Beam2D.npArgsort_correct 3 (by norm_num) _ _ (by norm_num) 5 (by norm_num)) k n hn hend r hr

/-- C12 in 3D, refutation: the same window and a beam of one particle at rest at xi = -0.92. In the first time step it falls back to xi = -1.02, into layer 1, but it is drained with layer 0. In the single-process run the second time step finds it in layer 1;
in every parallel run with two processes that ends, the second time step found it in layer 0 and nothing in layer 1. So the plasma of the second time step reacts to another beam. -/
theorem parallel_differs_3D (argsort : List ℝ → List ℕ) (hs : IsArgsort (· ≤ ·) argsort) (k1 k2 : ℕ) (n1 n2 : Net (List (Row ℝ)) (List (Entry ℝ (Row ℝ))))
    (h1 : Steps 1 k1 (start (restWorld argsort) 1 2 3 (1 / 10) [rest (-92 / 100)]) n1)
    (h2 : Steps 2 k2 (start (restWorld argsort) 2 2 3 (1 / 10) [rest (-92 / 100)]) n2) (hend : ∀ n', ¬ Step 2 n2 n') :
    (∃ e0 e1, n1.procs 0 = .done [e0, e1] ∧ e1.time = 2 / 10 ∧ e1.layers = [[], [rest (-102 / 100)], [], []]) ∧
    (∃ e1, n2.procs 1 = .done [e1] ∧ e1.time = 2 / 10 ∧ e1.layers = [[rest (-102 / 100)], [], [], []]) := by
  set W := restWorld argsort
  have hx : (-92 / 100 - 1 / 10 : ℝ) = -102 / 100 := by norm_num
  have hs0 : ∀ j, seqLayers W 3 (1 / 10) [rest (-92 / 100)] 0 j = if j = 0 then [rest (-92 / 100)] else [] := by
    intro j
    have := rest_seq argsort hs 3 (by norm_num) (1 / 10) (-92 / 100) (by norm_num) 0 (by norm_num) j
    rw [show (-92 / 100 - ((0 : ℕ) : ℝ) / 10 : ℝ) = -92 / 100 by norm_num] at this
    exact this
  have hfin : ∀ j, finished W (1 / 10) 0 (seqLayers W 3 (1 / 10) [rest (-92 / 100)] 0) j = if j = 1 then [rest (-102 / 100)] else [] := by
    intro j
    rw [rest_step argsort (1 / 10) 0 (-92 / 100) (by norm_num) _ hs0 j, hx]
  constructor
  · have h := single_process_sequential W 2 3 (1 / 10) [rest (-92 / 100)] k1 n1 h1
    have hs1 : ∀ j, seqLayers W 3 (1 / 10) [rest (-92 / 100)] 1 j = if j = 1 then [rest (-102 / 100)] else [] := by
      intro j
      have e : seqLayers W 3 (1 / 10) [rest (-92 / 100)] 1 = srcLayer W (W.mkSrc (allFinished W 3 (1 / 10) 0 (seqLayers W 3 (1 / 10) [rest (-92 / 100)] 0))) := rfl
      rw [e, rest_allFinished argsort 3 (by norm_num) (1 / 10) 0 (-92 / 100) (by norm_num) _ hs0, hx]
      exact rest_source argsort hs _ (by norm_num) 1 ⟨by norm_num, by norm_num⟩ j
    rw [h]
    refine ⟨_, _, rfl, by norm_num, ?_⟩
    have hr : List.range (3 + 1) = [0, 1, 2, 3] := rfl
    simp only [hr, List.map_cons, List.map_nil, hs1]
    rfl
  · have h := ((runs W 2 2 3 (1 / 10) [rest (-92 / 100)] k2 n2 h2).2.1 hend 1 (by norm_num)).1
    refine ⟨entryOf W 2 2 3 (1 / 10) [rest (-92 / 100)] 1, h, ?_, ?_⟩
    · show timeOf (1 / 10 : ℝ) 1 = 2 / 10
      norm_num [timeOf]
    · have hr : List.range (3 + 1) = [0, 1, 2, 3] := rfl
      have hp : ∀ j, pipeLayers W 2 3 (1 / 10) [rest (-92 / 100)] 1 j = if j < 3 then finished W (1 / 10) 0 (seqLayers W 3 (1 / 10) [rest (-92 / 100)] 0) (j + 1) else [] := fun j => rfl
      show (List.range (3 + 1)).map (pipeLayers W 2 3 (1 / 10) [rest (-92 / 100)] 1) = _
      simp only [hr, List.map_cons, List.map_nil, hp, hfin]
      norm_num

/-! ### The second call of `step` (C13 in 3D) -/

theorem pyInt_nonneg (x : ℝ) (h : 0 ≤ x) : 0 ≤ Lcode.Py.pyInt x := by
  unfold Lcode.Py.pyInt
  rw [if_pos h]
  exact Int.floor_nonneg.mpr h

/-- A particle that is behind a point stays there: `r` waits to be moved. -/
def BehindOf (B : ℝ) (r : Row ℝ) : Prop := r.xi < B ∧ 0 ≤ r.remaining ∧ 0 ≤ r.dt

theorem push_behindOf (B : ℝ) (env : Env3 σ) (idx : ℤ) (F0 F1 : Fields3) (r : Row ℝ) (h : BehindOf B r) : BehindOf B (pushRow env.cfg idx F0 F1 r).row := by
  obtain ⟨h1, h2, h3⟩ := h
  obtain ⟨c1, -, -, c4, -⟩ := push_causal env.cfg idx F0 F1 r h2 h3
  refine ⟨lt_of_le_of_lt c1 h1, ?_, by rw [c4]; exact h3⟩
  obtain ⟨n, hn⟩ := Int.eq_ofNat_of_zero_le h2
  rcases push_outcomes env.cfg idx F0 F1 n r hn with ⟨k, hk, -, -, e, -⟩ | ⟨k, m, -, -, -, e, -⟩ | ⟨-, e, -⟩
  · rw [e]; omega
  · rw [e]
  · rw [e]

theorem stAt_behindOf (B : ℝ) (env : Env3 σ) (argsort : List ℝ → List ℕ) (hts : 0 ≤ env.timeStep) (plasma0 : ℝ → σ) (time : ℝ) (inp : ℕ → List (Row ℝ)) (hinp : ∀ j, ∀ p ∈ inp j, p.xi < B) (j : ℕ) :
    (∃ fresh fell, (stAt (world3D env argsort plasma0) ((world3D env argsort plasma0).init time) inp j).toMove = Beam.ofRows (fresh ++ fell) ∧
      (stAt (world3D env argsort plasma0) ((world3D env argsort plasma0).init time) inp j).fellSize = fell.length ∧ (∀ r ∈ fresh, r.xi < B) ∧ (∀ r ∈ fell, BehindOf B r)) ∧
    ∀ p ∈ outAt (world3D env argsort plasma0) ((world3D env argsort plasma0).init time) inp j, p.xi < B := by
  have hres : ∀ (fresh fell : List (Row ℝ)) (i : ℕ) (F0 F1 : Fields3), (∀ r ∈ fresh, r.xi < B) → (∀ r ∈ fell, BehindOf B r) → ∀ m ∈ moved3D env i F0 F1 fresh fell, BehindOf B m.row := by
    intro fresh fell i F0 F1 a b m hm
    unfold moved3D at hm
    obtain ⟨r, hr, rfl⟩ := List.mem_map.mp hm
    apply push_behindOf
    rcases List.mem_append.mp hr with hr | hr
    · obtain ⟨q, hq, rfl⟩ := List.mem_map.mp hr
      have hf : 0 ≤ substepFraction q.qm q.pz env.energy := by
        unfold substepFraction
        split_ifs with h
        · obtain ⟨fuel, hf⟩ := h.choose_spec
          obtain ⟨k, -, hk, -⟩ := Lcode.Beam2D.halvingLoop_spec _ _ _ _ hf
          rw [hk]; positivity
        · exact le_rfl
      exact ⟨a q hq, pyInt_nonneg _ (one_div_nonneg.mpr hf), mul_nonneg hf hts⟩
    · exact b r hr
  have hst : ∀ j, ∃ fresh fell, (stAt (world3D env argsort plasma0) ((world3D env argsort plasma0).init time) inp j).toMove = Beam.ofRows (fresh ++ fell) ∧
      (stAt (world3D env argsort plasma0) ((world3D env argsort plasma0).init time) inp j).fellSize = fell.length ∧ (∀ r ∈ fresh, r.xi < B) ∧ (∀ r ∈ fell, BehindOf B r) := by
    intro j
    induction j with
    | zero => exact ⟨[], [], rfl, rfl, by simp, by simp⟩
    | succ j ih =>
      obtain ⟨fresh, fell, h1, h2, h3, h4⟩ := ih
      have e := layer3D_rows env _ fresh fell h1 h2 j (inp j)
      simp only at e
      have e' : stAt (world3D env argsort plasma0) ((world3D env argsort plasma0).init time) inp (j + 1) = (layer3D env (stAt (world3D env argsort plasma0) ((world3D env argsort plasma0).init time) inp j) j (inp j)).1 := rfl
      rw [e', e]
      refine ⟨_, _, rfl, rfl, ?_, ?_⟩
      · intro r hr
        obtain ⟨q, hq, rfl⟩ := List.mem_map.mp hr
        exact hinp j q hq
      · intro r hr
        obtain ⟨m, hm, rfl⟩ := List.mem_map.mp hr
        exact hres _ _ _ _ _ h3 h4 m (List.mem_filter.mp hm).1
  refine ⟨hst j, ?_⟩
  obtain ⟨fresh, fell, h1, h2, h3, h4⟩ := hst j
  have e := layer3D_rows env _ fresh fell h1 h2 j (inp j)
  simp only at e
  intro p hp
  have e' : outAt (world3D env argsort plasma0) ((world3D env argsort plasma0).init time) inp j = (layer3D env (stAt (world3D env argsort plasma0) ((world3D env argsort plasma0).init time) inp j) j (inp j)).2 := rfl
  rw [e', e] at hp
  simp only [List.mem_map] at hp
  obtain ⟨r, ⟨m, hm, rfl⟩, rfl⟩ := hp
  exact (hres _ _ _ _ _ h3 h4 m (List.mem_filter.mp hm).1).1

/-- A particle that is behind the window head stays there. -/
abbrev Behind (r : Row ℝ) : Prop := BehindOf 0 r

theorem push_behind (env : Env3 σ) (idx : ℤ) (F0 F1 : Fields3) (r : Row ℝ) (h : Behind r) : Behind (pushRow env.cfg idx F0 F1 r).row := push_behindOf 0 env idx F0 F1 r h

theorem stAt_behind (env : Env3 σ) (argsort : List ℝ → List ℕ) (hts : 0 ≤ env.timeStep) (plasma0 : ℝ → σ) (time : ℝ) (inp : ℕ → List (Row ℝ)) (hinp : ∀ j, ∀ p ∈ inp j, p.xi < 0) (j : ℕ) :
    (∃ fresh fell, (stAt (world3D env argsort plasma0) ((world3D env argsort plasma0).init time) inp j).toMove = Beam.ofRows (fresh ++ fell) ∧
      (stAt (world3D env argsort plasma0) ((world3D env argsort plasma0).init time) inp j).fellSize = fell.length ∧ (∀ r ∈ fresh, r.xi < 0) ∧ (∀ r ∈ fell, Behind r)) ∧
    ∀ p ∈ outAt (world3D env argsort plasma0) ((world3D env argsort plasma0).init time) inp j, p.xi < 0 := stAt_behindOf 0 env argsort hts plasma0 time inp hinp j

/-- After a sweep a 3D source made of particles behind the window head keeps only particles behind the window, so it hands out nothing. -/
theorem exhausts3D (env : Env3 σ) (argsort : List ℝ → List ℕ) (hs : IsArgsort (· ≤ ·) argsort) (hd : 0 < env.cfg.dxi) (plasma0 : ℝ → σ) (N : ℕ)
    (b : List (Row ℝ)) (hb : ∀ p ∈ b, p.xi < 0) (j : ℕ) (hj : j ≤ N) :
    srcLayer (world3D env argsort plasma0) (srcAt (world3D env argsort plasma0) ((world3D env argsort plasma0).mkSrc b) (N + 1)) j = [] := by
  set W := world3D env argsort plasma0
  have hneg : ∀ r ∈ (Beam.ofRows (b.map strip)).rows, r.xi < 0 := by
    intro r hr
    rw [rows_ofRows, List.mem_map] at hr
    obtain ⟨p, hp, rfl⟩ := hr
    exact hb p hp
  have h1 := (source_layers argsort hs _ _ (wf_ofRows (b.map strip)) env.cfg.dxi hd hneg (N + 1)).2
  have h2 := srcAt_layers env argsort plasma0 (W.mkSrc b) (N + 1) 0
  have e0 : srcAt W (W.mkSrc b) 0 = sourceInit argsort (Beam.ofRows (b.map strip)) := mkSrc_rows env argsort plasma0 b
  rw [e0] at h2
  rw [h2] at h1
  simp only [Nat.zero_add] at h1
  have hwf : ∀ n, ∃ t, srcAt W (W.mkSrc b) n = Beam.ofRows t := by
    intro n
    induction n with
    | zero =>
      rw [e0, sourceInit, xiSorted_ofRows]
      exact ⟨_, rfl⟩
    | succ n ih =>
      obtain ⟨t, ht⟩ := ih
      have e : srcAt W (W.mkSrc b) (n + 1) = (getBeamLayerToLayout env.cfg.dxi (srcAt W (W.mkSrc b) n) n).2 := rfl
      rw [e, ht, getBeamLayer_ofRows]
      exact ⟨_, rfl⟩
  obtain ⟨t, ht⟩ := hwf (N + 1)
  rw [ht, rows_ofRows] at h1
  have hfar : ∀ r ∈ t, r.xi < -(env.cfg.dxi * ((N : ℝ) + 1)) := by
    intro r hr
    rw [h1, List.mem_filter, decide_eq_true_eq] at hr
    have := hr.2
    push_cast at this
    exact this
  have hz : ∀ j, j ≤ N → inLayer env.cfg.dxi j t = 0 := by
    intro j hj
    unfold inLayer
    rw [List.countP_eq_zero]
    intro r hr
    have h1 := hfar r hr
    have h2 : (j : ℝ) ≤ N := by exact_mod_cast hj
    rw [decide_eq_true_eq]
    intro hc
    have := hc.1
    nlinarith
  have hat : ∀ j, j ≤ N + 1 → srcAt W (Beam.ofRows t) j = Beam.ofRows t := by
    intro j
    induction j with
    | zero => intro _; rfl
    | succ j ih =>
      intro hj
      have e : srcAt W (Beam.ofRows t) (j + 1) = (getBeamLayerToLayout env.cfg.dxi (srcAt W (Beam.ofRows t) j) j).2 := rfl
      rw [e, ih (by omega), getBeamLayer_ofRows, hz j (by omega), List.drop_zero]
  rw [ht]
  have e : srcLayer W (Beam.ofRows t) j = particles3 (getBeamLayerToLayout env.cfg.dxi (srcAt W (Beam.ofRows t) j) j).1 := rfl
  rw [e, hat j (by omega), getBeamLayer_ofRows, hz j hj, List.take_zero]
  rfl

/-- C13 for 3D simulations: the first time step of a second call gets no beam (if the beam started behind the window head). -/
theorem second_call_starts_empty_3D (env : Env3 σ) (argsort : List ℝ → List ℕ) (hs : IsArgsort (· ≤ ·) argsort) (hd : 0 < env.cfg.dxi) (hts : 0 ≤ env.timeStep) (plasma0 : ℝ → σ) (N : ℕ)
    (dt : ℝ) (b0 : List (Row ℝ)) (hb : ∀ p ∈ b0, p.xi < 0) (a b : ℕ) (ha : 0 < a)
    (tr1 tr2 : List (Ev (List (Row ℝ)))) (s1 s2 : Sim (world3D env argsort plasma0)) (log1 log2 : List (Entry ℝ (Row ℝ)))
    (h1 : Follows (Sim.step (world3D env argsort plasma0) 1 0 N dt ⟨b0, none⟩ a) tr1 (s1, log1))
    (h2 : Follows (Sim.step (world3D env argsort plasma0) 1 0 N dt s1 b) tr2 (s2, log2)) :
    ∃ e rest, log2 = e :: rest ∧ e.layers = List.replicate (N + 1) [] := by
  refine second_call_starts_empty_of (world3D env argsort plasma0) (fun b => ∀ p ∈ b, p.xi < 0) N ?_ ?_ dt b0 hb a b ha tr1 tr2 s1 s2 log1 log2 h1 h2
  · intro b time hb p hp
    obtain ⟨l, hl, hp⟩ := List.mem_flatten.mp hp
    obtain ⟨j, -, rfl⟩ := List.mem_map.mp hl
    refine (stAt_behind env argsort hts plasma0 time _ ?_ j).2 p hp
    intro i q hq
    have := (source3D env argsort hs hd plasma0 b hb i).mem_iff.mp hq
    obtain ⟨q', hq', rfl⟩ := List.mem_map.mp this
    exact hb q' (List.mem_filter.mp hq').1
  · intro b hb j hj
    exact exhausts3D env argsort hs hd plasma0 N b hb j hj

end Lcode.Mpi
