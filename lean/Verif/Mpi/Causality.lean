import Verif.Mpi.Overtake
import Verif.Mpi.Run3D

/-!
Which part of the beam can influence what (C45): in a single-process run, layer `j` of time step `g` depends only on the particles of the
initial beam in layers `0 .. j + g`, and not on their order.
-/

namespace Lcode.Mpi

variable {K P : Type} {W : World K P} [Field K]

/-- What finishes moving in iteration `j` may be held by a source and is not in a layer ahead of `j - 1`. -/
def NotAhead (W : World K P) (N : ℕ) (dt : K) (b0 : List P) (T : ℕ) (inLayer : ℕ → P → Bool) (ok : P → Prop) : Prop :=
  ∀ g, g < T → ∀ j, j ≤ N → ∀ p ∈ finished W dt g (seqLayers W N dt b0 g) j, ok p ∧ ∀ i, inLayer i p = true → j ≤ i + 1

theorem notAhead_of_causal {N : ℕ} {inLayer : ℕ → P → Bool} {ok : P → Prop} {same : W.St → W.St → Prop}
    (F : Faithful W N inLayer ok same) {dt : K} {b0 : List P} {T : ℕ} (hC : Causal W N dt b0 T inLayer ok) :
    NotAhead W N dt b0 T inLayer ok := by
  intro g hg j hj p hp
  obtain ⟨h1, h2, h3⟩ := hC g hg j hj p hp
  refine ⟨h1, fun i hi => ?_⟩
  have := F.disjoint _ _ p hi h3
  omega

/-- Two beams have the same particles in layer `j`, in some order. -/
def SameLayer (inLayer : ℕ → P → Bool) (b b' : List P) (j : ℕ) : Prop := (b.filter (inLayer j)).Perm (b'.filter (inLayer j))

theorem stAt_same {N : ℕ} {inLayer : ℕ → P → Bool} {ok : P → Prop} {same : W.St → W.St → Prop}
    (F : Faithful W N inLayer ok same) (time : K) (a b : ℕ → List P) (J : ℕ) (h : ∀ j, j < J → (a j).Perm (b j)) (j : ℕ) (hj : j ≤ J) :
    same (stAt W (W.init time) a j) (stAt W (W.init time) b j) := by
  induction j with
  | zero => exact F.init _
  | succ j ih => exact (F.layer _ _ j _ _ (ih (by omega)) (h j (by omega))).1

theorem finished_same {N : ℕ} {inLayer : ℕ → P → Bool} {ok : P → Prop} {same : W.St → W.St → Prop}
    (F : Faithful W N inLayer ok same) (dt : K) (g : ℕ) (a b : ℕ → List P) (J : ℕ) (h : ∀ j, j ≤ J → (a j).Perm (b j)) (j : ℕ) (hj : j ≤ J) :
    (finished W dt g a j).Perm (finished W dt g b j) :=
  (F.layer _ _ j _ _ (stAt_same F _ a b J (fun i hi => h i (by omega)) j hj) (h j hj)).2

/-- Layer `j` of the beam drained in a time step comes from the iterations up to `j + 1`. -/
theorem filter_drained {N : ℕ} {inLayer : ℕ → P → Bool} {ok : P → Prop} (dt : K) (b0 : List P) (T g : ℕ) (hg : g < T)
    (hC : NotAhead W N dt b0 T inLayer ok) (j : ℕ) :
    (allFinished W N dt g (seqLayers W N dt b0 g)).filter (inLayer j) =
      ((List.range (min N (j + 1) + 1)).map fun i => (finished W dt g (seqLayers W N dt b0 g) i).filter (inLayer j)).flatten := by
  unfold allFinished
  rw [List.filter_flatten, List.map_map]
  obtain ⟨d, hd⟩ : ∃ d, N + 1 = (min N (j + 1) + 1) + d := ⟨N - min N (j + 1), by omega⟩
  rw [hd, List.range_add, List.map_append, List.flatten_append]
  have : ((List.map (fun x => min N (j + 1) + 1 + x) (List.range d)).map (List.filter (inLayer j) ∘ finished W dt g (seqLayers W N dt b0 g))).flatten = [] := by
    rw [List.flatten_eq_nil_iff]
    intro l hl
    simp only [List.map_map, List.mem_map, List.mem_range, Function.comp] at hl
    obtain ⟨x, hx, rfl⟩ := hl
    rw [List.filter_eq_nil_iff]
    intro p hp hin
    have := (hC g hg _ (by omega) p hp).2 j hin
    omega
  rw [this, List.append_nil]
  rfl

theorem perm_flatten_map {ι : Type} (l : List ι) (f f' : ι → List P) (h : ∀ i ∈ l, (f i).Perm (f' i)) : ((l.map f).flatten).Perm ((l.map f').flatten) := by
  induction l with
  | nil => exact List.Perm.refl _
  | cons a l ih =>
    simp only [List.map_cons, List.flatten_cons]
    exact (h a (by simp)).append (ih fun i hi => h i (by simp [hi]))

theorem mem_allFinished {N : ℕ} {dt : K} {g : ℕ} {inp : ℕ → List P} {p : P} (hp : p ∈ allFinished W N dt g inp) : ∃ j, j ≤ N ∧ p ∈ finished W dt g inp j := by
  unfold allFinished at hp
  rw [List.mem_flatten] at hp
  obtain ⟨l, hl, hp⟩ := hp
  rw [List.mem_map] at hl
  obtain ⟨i, hi, rfl⟩ := hl
  rw [List.mem_range] at hi
  exact ⟨i, by omega, hp⟩

/-- C45: two beams that have the same particles in the layers `0 .. J` (of the window) are indistinguishable, in time step `g` of a single-process run, in the layers `0 .. J - g`: the same
beam layers are received, the state of the layer loop (plasma, fields, beam density) is the same, and the same particles finish. -/
theorem domain_of_dependence {N : ℕ} {inLayer : ℕ → P → Bool} {ok : P → Prop} {same : W.St → W.St → Prop}
    (F : Faithful W N inLayer ok same) (dt : K) (b b' : List P) (T : ℕ) (hb : ∀ p ∈ b, ok p) (hb' : ∀ p ∈ b', ok p)
    (hC : NotAhead W N dt b T inLayer ok) (hC' : NotAhead W N dt b' T inLayer ok) (J : ℕ)
    (hJ : ∀ j, j ≤ J → j ≤ N → SameLayer inLayer b b' j) (g : ℕ) (hg : g ≤ T) (j : ℕ) (hj : j ≤ N) (hjg : j + g ≤ J) :
    (seqLayers W N dt b g j).Perm (seqLayers W N dt b' g j) ∧
    same (stAt W (W.init (timeOf dt g)) (seqLayers W N dt b g) (j + 1)) (stAt W (W.init (timeOf dt g)) (seqLayers W N dt b' g) (j + 1)) ∧
    (finished W dt g (seqLayers W N dt b g) j).Perm (finished W dt g (seqLayers W N dt b' g) j) := by
  have key : ∀ g, g ≤ T → ∀ j, j ≤ N → j + g ≤ J → (seqLayers W N dt b g j).Perm (seqLayers W N dt b' g j) := by
    intro g
    induction g with
    | zero =>
      intro _ j hj hjJ
      exact ((F.source b hb j hj).trans (hJ j (by omega) hj)).trans (F.source b' hb' j hj).symm
    | succ g ih =>
      intro hg j hj hjJ
      have ok1 : ∀ p ∈ allFinished W N dt g (seqLayers W N dt b g), ok p := by
        intro p hp
        obtain ⟨i, hi, hp⟩ := mem_allFinished hp
        exact (hC g (by omega) i hi p hp).1
      have ok2 : ∀ p ∈ allFinished W N dt g (seqLayers W N dt b' g), ok p := by
        intro p hp
        obtain ⟨i, hi, hp⟩ := mem_allFinished hp
        exact (hC' g (by omega) i hi p hp).1
      refine ((F.source _ ok1 j hj).trans ?_).trans (F.source _ ok2 j hj).symm
      rw [filter_drained dt b T g (by omega) hC j, filter_drained dt b' T g (by omega) hC' j]
      apply perm_flatten_map
      intro i hi
      rw [List.mem_range] at hi
      refine (finished_same F dt g _ _ (min N (j + 1)) (fun k hk => ?_) i (by omega)).filter _
      exact ih (by omega) k (by omega) (by omega)
  have hk := fun i (hi : i ≤ j) => key g hg i (by omega) (by omega)
  exact ⟨hk j le_rfl, stAt_same F _ _ _ (j + 1) (fun i hi => hk i (by omega)) (j + 1) le_rfl, finished_same F dt g _ _ j hk j le_rfl⟩

/-- Every layer received lies where it should. -/
def Placed (N : ℕ) (inLayer : ℕ → P → Bool) (ok : P → Prop) (inp : ℕ → List P) : Prop := ∀ j, j ≤ N → ∀ p ∈ inp j, ok p ∧ inLayer j p = true

/-- A property of the motion for all beams: the particles that end a time step in layer `i` are decided by the layers received up to `i + 1`. -/
structure Local (W : World K P) (N : ℕ) (dt : K) (inLayer : ℕ → P → Bool) (ok : P → Prop) : Prop where
  okFinished : ∀ g inp, Placed N inLayer ok inp → ∀ p ∈ allFinished W N dt g inp, ok p
  decided : ∀ g a b i, Placed N inLayer ok a → Placed N inLayer ok b → i ≤ N → (∀ k, k ≤ i + 1 → k ≤ N → (a k).Perm (b k)) →
    ((allFinished W N dt g a).filter (inLayer i)).Perm ((allFinished W N dt g b).filter (inLayer i))

theorem seqLayers_placed {N : ℕ} {inLayer : ℕ → P → Bool} {ok : P → Prop} {same : W.St → W.St → Prop}
    (F : Faithful W N inLayer ok same) {dt : K} (L : Local W N dt inLayer ok) (b : List P) (hb : ∀ p ∈ b, ok p) (g : ℕ) : Placed N inLayer ok (seqLayers W N dt b g) := by
  have hsrc : ∀ b : List P, (∀ p ∈ b, ok p) → Placed N inLayer ok (srcLayer W (W.mkSrc b)) := by
    intro b hb j hj p hp
    have := (F.source b hb j hj).mem_iff.1 hp
    rw [List.mem_filter] at this
    exact ⟨hb p this.1, this.2⟩
  induction g with
  | zero => exact hsrc b hb
  | succ g ih => exact hsrc _ (L.okFinished g _ ih)

/-- C45, with the requirement on the motion stated for all beams instead of for the two runs. -/
theorem domain_of_dependence_local {N : ℕ} {inLayer : ℕ → P → Bool} {ok : P → Prop} {same : W.St → W.St → Prop}
    (F : Faithful W N inLayer ok same) (dt : K) (L : Local W N dt inLayer ok) (b b' : List P) (hb : ∀ p ∈ b, ok p) (hb' : ∀ p ∈ b', ok p) (J : ℕ)
    (hJ : ∀ j, j ≤ J → j ≤ N → SameLayer inLayer b b' j) (g : ℕ) (j : ℕ) (hj : j ≤ N) (hjg : j + g ≤ J) :
    (seqLayers W N dt b g j).Perm (seqLayers W N dt b' g j) ∧
    same (stAt W (W.init (timeOf dt g)) (seqLayers W N dt b g) (j + 1)) (stAt W (W.init (timeOf dt g)) (seqLayers W N dt b' g) (j + 1)) ∧
    (finished W dt g (seqLayers W N dt b g) j).Perm (finished W dt g (seqLayers W N dt b' g) j) := by
  have key : ∀ g j, j ≤ N → j + g ≤ J → (seqLayers W N dt b g j).Perm (seqLayers W N dt b' g j) := by
    intro g
    induction g with
    | zero =>
      intro j hj hjJ
      exact ((F.source b hb j hj).trans (hJ j (by omega) hj)).trans (F.source b' hb' j hj).symm
    | succ g ih =>
      intro j hj hjJ
      have p1 := seqLayers_placed F L b hb g
      have p2 := seqLayers_placed F L b' hb' g
      refine ((F.source _ (L.okFinished g _ p1) j hj).trans ?_).trans (F.source _ (L.okFinished g _ p2) j hj).symm
      exact L.decided g _ _ j p1 p2 hj (fun k hk hkN => ih k hkN (by omega))
  have hk := fun i (hi : i ≤ j) => key g i (by omega) (by omega)
  exact ⟨hk j le_rfl, stAt_same F _ _ _ (j + 1) (fun i hi => hk i (by omega)) (j + 1) le_rfl, finished_same F dt g _ _ j hk j le_rfl⟩

/-- C45: if the source of a beam gives the same layers to two lists that differ in order, then beams with the same particles in the window give the same run, in every
time step and layer: neither the order of particles nor the particles behind the window matter. Nothing is required of the motion except that sources may hold what finishes. -/
theorem window_decides {N : ℕ} {inLayer : ℕ → P → Bool} {ok : P → Prop} {same : W.St → W.St → Prop}
    (F : Faithful W N inLayer ok same) (dt : K) (b b' : List P) (hb : ∀ p ∈ b, ok p) (hb' : ∀ p ∈ b', ok p)
    (hfin : ∀ g, ∀ p ∈ allFinished W N dt g (seqLayers W N dt b g), ok p)
    (hw : ∀ j, j ≤ N → SameLayer inLayer b b' j) (g : ℕ) :
    (∀ j, j ≤ N → (seqLayers W N dt b g j).Perm (seqLayers W N dt b' g j)) ∧
    (∀ j, j ≤ N + 1 → same (stAt W (W.init (timeOf dt g)) (seqLayers W N dt b g) j) (stAt W (W.init (timeOf dt g)) (seqLayers W N dt b' g) j)) ∧
    (allFinished W N dt g (seqLayers W N dt b g)).Perm (allFinished W N dt g (seqLayers W N dt b' g)) := by
  have key : ∀ g j, j ≤ N → (seqLayers W N dt b g j).Perm (seqLayers W N dt b' g j) := by
    intro g
    induction g with
    | zero =>
      intro j hj
      exact ((F.source b hb j hj).trans (hw j hj)).trans (F.source b' hb' j hj).symm
    | succ g ih =>
      intro j hj
      have hp := allFinished_perm F dt g _ _ ih
      exact ((F.source _ (hfin g) j hj).trans (hp.filter _)).trans (F.source _ (fun p hp' => hfin g p (hp.mem_iff.2 hp')) j hj).symm
  exact ⟨key g, fun j hj => stAt_same F _ _ _ (N + 1) (fun i hi => key g i (by omega)) j hj, allFinished_perm F dt g _ _ (key g)⟩

/-! ### 2D -/

section TwoD
open Lcode.Beam2D

variable {σ : Type}

/-- In 2D nothing that starts behind a point gets ahead of it. -/
theorem finished_down (Q : ℝ → Prop) (hQ : ∀ x y, y ≤ x → Q x → Q y) (env : Env2D σ) (hs : IsArgsort boolLe env.argsortB) (hts : 0 ≤ env.timeStep) (plasma0 : ℝ → σ) (dt : ℝ) (g : ℕ)
    (inp : ℕ → List (Particle ℝ)) (hin : ∀ j, ∀ p ∈ inp j, Q p.xi) (j : ℕ) (p : Particle ℝ) (hp : p ∈ finished (world2D env plasma0) dt g inp j) : Q p.xi := by
  have row : ∀ (i : ℕ) (s s' : Fields) (t : Row ℝ), 0 ≤ t.2.1 → Q t.1.xi →
      0 ≤ (pushRow env.cfg i s s' (initRow env.timeStep env.energy t)).2.1 ∧ Q (pushRow env.cfg i s s' (initRow env.timeStep env.energy t)).1.xi := by
    intro i s s' t h1 h2
    obtain ⟨i1, i2, -⟩ := initRow_facts env.timeStep env.energy hts t h1
    set u := initRow env.timeStep env.energy t with hu
    unfold pushRow
    split_ifs with h0
    · refine ⟨i1, hQ _ _ (push_causal env.cfg _ s s' u.2.1 i1 u.2.2.1.toNat u.1).1 ?_⟩
      rw [i2]; exact h2
    · exact ⟨i1, by rw [i2]; exact h2⟩
  have mv : ∀ (b : Beam ℝ), b.WF → (∀ t ∈ b.rows, 0 ≤ t.2.1 ∧ Q t.1.xi) → ∀ (i : ℕ) (f0 f1 : Fields),
      (∀ t ∈ (moveBeamLayer env b i f0 f1).2.1.rows, 0 ≤ t.2.1 ∧ Q t.1.xi) ∧ (∀ t ∈ (moveBeamLayer env b i f0 f1).2.2.rows, 0 ≤ t.2.1 ∧ Q t.1.xi) := by
    intro b hb hw i f0 f1
    simp only [moveBeamLayer]
    set b' := if b.particles.length = 0 then b
      else b.mapRows (fun t => pushRow env.cfg i f1 f0 (initRow env.timeStep env.energy t)) with hb'
    have hwf' : b'.WF := by
      rw [hb']; split_ifs
      · exact hb
      · exact wf_mapRows _ _
    have hrows : ∀ t' ∈ b'.rows, 0 ≤ t'.2.1 ∧ Q t'.1.xi := by
      intro t' ht'
      rw [hb'] at ht'
      split_ifs at ht' with h0
      · exact hw t' ht'
      · rw [rows_mapRows, List.mem_map] at ht'
        obtain ⟨t, ht, rfl⟩ := ht'
        exact row i f1 f0 t (hw t ht).1 (hw t ht).2
    obtain ⟨-, h2, h3, -, -, -⟩ := split_rows env.argsortB hs b' hwf' (i * -env.cfg.xiStep)
    exact ⟨fun t ht => hrows t (List.mem_filter.mp (h2.mem_iff.mp ht)).1, fun t ht => hrows t (List.mem_filter.mp (h3.mem_iff.mp ht)).1⟩
  have hinv : ∀ j, ∀ t ∈ (stAt (world2D env plasma0) ((world2D env plasma0).init (timeOf dt g)) inp j).toMove.rows, 0 ≤ t.2.1 ∧ Q t.1.xi := by
    intro j
    induction j with
    | zero => intro t ht; simp [stAt, world2D, Beam.rows] at ht
    | succ j ih =>
      intro t ht
      have hwf := stAt_wf env hs plasma0 (timeOf dt g) inp j
      set st := stAt (world2D env plasma0) ((world2D env plasma0).init (timeOf dt g)) inp j with hst
      have hwf2 := (moveBeamLayer_conserves env hs st.toMove hwf j (env.fields st.plasma)
        (env.fields (layer2D env st j (inp j)).1.plasma)).2.2.2
      have ht' : t ∈ ((Beam.fresh (inp j)).append (moveBeamLayer env st.toMove j (env.fields st.plasma)
        (env.fields (layer2D env st j (inp j)).1.plasma)).2.2).rows := ht
      rw [(append_rows _ _ (wf_fresh _) hwf2).1, List.mem_append] at ht'
      rcases ht' with h | h
      · rw [rows_fresh, List.mem_map] at h
        obtain ⟨q, hq, rfl⟩ := h
        exact ⟨le_rfl, hin j q hq⟩
      · exact (mv st.toMove hwf ih j _ _).2 t h
  have hwf := stAt_wf env hs plasma0 (timeOf dt g) inp j
  set st := stAt (world2D env plasma0) ((world2D env plasma0).init (timeOf dt g)) inp j with hst
  have hw2 := (moveBeamLayer_conserves env hs st.toMove hwf j (env.fields st.plasma)
        (env.fields (layer2D env st j (inp j)).1.plasma)).2.2.1
  have hp' : p ∈ (moveBeamLayer env st.toMove j (env.fields st.plasma)
        (env.fields (layer2D env st j (inp j)).1.plasma)).2.1.particles := hp
  rw [← rows_particles hw2, List.mem_map] at hp'
  obtain ⟨t, ht, rfl⟩ := hp'
  exact ((mv st.toMove hwf (hinv j) j _ _).1 t ht).2

/-- In 2D nothing that starts behind the window head gets ahead of it. -/
theorem finished_nonpos (env : Env2D σ) (hs : IsArgsort boolLe env.argsortB) (hts : 0 ≤ env.timeStep) (plasma0 : ℝ → σ) (dt : ℝ) (g : ℕ)
    (inp : ℕ → List (Particle ℝ)) (hin : ∀ j, ∀ p ∈ inp j, p.xi ≤ 0) (j : ℕ) (p : Particle ℝ) (hp : p ∈ finished (world2D env plasma0) dt g inp j) : p.xi ≤ 0 :=
  finished_down (fun x => x ≤ 0) (fun _ _ h h' => h.trans h') env hs hts plasma0 dt g inp hin j p hp

/-- A particle ahead of the window head makes the 2D source hand out nothing at all. -/
theorem blocked2D (env : Env2D σ) (plasma0 : ℝ → σ) (hf : IsArgsort (· ≤ ·) env.argsortF) (hx : 0 < env.cfg.xiStep) (b : List (Particle ℝ))
    (hb : ∃ p ∈ b, 0 < p.xi) (j : ℕ) : srcLayer (world2D env plasma0) ((world2D env plasma0).mkSrc b) j = [] := by
  obtain ⟨p, hp, hpx⟩ := hb
  obtain ⟨h1, h2, h3⟩ := sort_rows env.argsortF hf (Beam.fresh b) (wf_fresh b)
  have hperm : ((Beam.fresh b).sort env.argsortF).particles.Perm b := by
    have := h1.map (fun t => t.1)
    rwa [rows_particles h2, rows_particles (wf_fresh b)] at this
  have hne : b ≠ [] := fun h => by rw [h] at hp; simp at hp
  set S := ((Beam.fresh b).sort env.argsortF).particles with hS
  have hmem : p ∈ S := hperm.mem_iff.2 hp
  obtain ⟨x, xs, hxs⟩ := List.exists_cons_of_ne_nil (List.ne_nil_of_mem hmem)
  have hx0 : 0 < x.xi := by
    rw [hxs] at h3 hmem
    rcases List.mem_cons.1 hmem with h | h
    · rw [← h]; exact hpx
    · exact lt_of_lt_of_le hpx ((List.pairwise_cons.1 h3).1 p h)
  set s0 := (world2D env plasma0).mkSrc b with hs0
  have hs0x : s0.xi = x.xi :: xs.map Particle.xi := by
    show (Source.init env.argsortF (Beam.fresh b)).xi = _
    unfold Source.init
    rw [if_neg (by exact hne)]
    show S.map Particle.xi = _
    rw [hxs]; rfl
  have hs0u : s0.used = 0 := by
    show (Source.init env.argsortF (Beam.fresh b)).used = _
    unfold Source.init
    split <;> rfl
  have hstep : ∀ j, Source.getBeamLayer s0 env.cfg.xiStep j = (Beam.fresh [], s0) := by
    intro j
    have hb := source_blocked_by_head s0 env.cfg.xiStep hx x.xi (xs.map Particle.xi)
      (by rw [hs0u, hs0x]; rfl) hx0 j 1
    simp only [Source.layers, List.replicate_one, List.cons.injEq, and_true] at hb
    exact Prod.ext hb.1 hb.2
  have hat : ∀ j, srcAt (world2D env plasma0) s0 j = s0 := by
    intro j
    induction j with
    | zero => rfl
    | succ j ih =>
      show (Source.getBeamLayer (srcAt (world2D env plasma0) s0 j) env.cfg.xiStep j).2 = s0
      rw [ih, hstep j]
  show (Source.getBeamLayer (srcAt (world2D env plasma0) s0 j) env.cfg.xiStep j).1.particles = []
  rw [hat, hstep]
  rfl

/-- A 2D source hands out particles of the beam it is made of. -/
theorem mem_srcLayer (env : Env2D σ) (plasma0 : ℝ → σ) (hf : IsArgsort (· ≤ ·) env.argsortF) (b : List (Particle ℝ)) (j : ℕ) :
    ∀ p ∈ srcLayer (world2D env plasma0) ((world2D env plasma0).mkSrc b) j, p ∈ b := by
  intro p hp
  have hparts : ∀ j, (srcAt (world2D env plasma0) ((world2D env plasma0).mkSrc b) j).particles = (Source.init env.argsortF (Beam.fresh b)).particles := by
    intro j
    induction j with
    | zero => rfl
    | succ j ih => exact ih
  have hinit : ∀ p ∈ (Source.init env.argsortF (Beam.fresh b)).particles, p ∈ b := by
    intro p hp
    obtain ⟨h1, h2, -⟩ := sort_rows env.argsortF hf (Beam.fresh b) (wf_fresh b)
    have hperm : ((Beam.fresh b).sort env.argsortF).particles.Perm b := by
      have := h1.map (fun t => t.1)
      rwa [rows_particles h2, rows_particles (wf_fresh b)] at this
    have hps : p ∈ ((Beam.fresh b).sort env.argsortF).particles := by
      unfold Source.init at hp
      split_ifs at hp with h0
      · simp at hp
      · simp only at hp
        split at hp
        · split_ifs at hp
          · exact List.mem_of_mem_dropLast hp
          · exact hp
        · exact hp
    exact hperm.mem_iff.1 hps
  have hp' : p ∈ slice (srcAt (world2D env plasma0) ((world2D env plasma0).mkSrc b) j).particles
      (findSubSlice (srcAt (world2D env plasma0) ((world2D env plasma0).mkSrc b) j).xi (srcAt (world2D env plasma0) ((world2D env plasma0).mkSrc b) j).used (j * -env.cfg.xiStep) ((j + 1) * -env.cfg.xiStep)).1
      (findSubSlice (srcAt (world2D env plasma0) ((world2D env plasma0).mkSrc b) j).xi (srcAt (world2D env plasma0) ((world2D env plasma0).mkSrc b) j).used (j * -env.cfg.xiStep) ((j + 1) * -env.cfg.xiStep)).2.1 := hp
  rw [hparts j] at hp'
  unfold slice at hp'
  exact hinit p (List.mem_of_mem_take (List.mem_of_mem_drop hp'))

/-- Whatever beam a 2D source is made of, what it hands out is not ahead of the window head. -/
theorem srcLayer_nonpos (env : Env2D σ) (plasma0 : ℝ → σ) (hf : IsArgsort (· ≤ ·) env.argsortF) (hx : 0 < env.cfg.xiStep) (b : List (Particle ℝ)) (j : ℕ) :
    ∀ p ∈ srcLayer (world2D env plasma0) ((world2D env plasma0).mkSrc b) j, p.xi ≤ 0 := by
  intro p hp
  by_cases hb : ∃ q ∈ b, 0 < q.xi
  · rw [blocked2D env plasma0 hf hx b hb j] at hp; simp at hp
  · push Not at hb
    exact hb p (mem_srcLayer env plasma0 hf b j p hp)

theorem seqLayers_nonpos (env : Env2D σ) (plasma0 : ℝ → σ) (hf : IsArgsort (· ≤ ·) env.argsortF) (hx : 0 < env.cfg.xiStep) (N : ℕ) (dt : ℝ) (b : List (Particle ℝ)) (g j : ℕ) :
    ∀ p ∈ seqLayers (world2D env plasma0) N dt b g j, p.xi ≤ 0 := by
  cases g with
  | zero => exact srcLayer_nonpos env plasma0 hf hx b j
  | succ g => exact srcLayer_nonpos env plasma0 hf hx _ j

/-- C45 in 2D: layer `j` of time step `g` (the slice received, the plasma state and the beam density after it, the particles that finish) is the same for two beams behind the window head
that have the same particles in the layers `0 .. j + g` of the window, if no particle overtakes. -/
theorem causality_2D (env : Env2D σ) (plasma0 : ℝ → σ) (hs : IsArgsort boolLe env.argsortB) (hf : IsArgsort (· ≤ ·) env.argsortF) (hx : 0 < env.cfg.xiStep)
    (N : ℕ) (hlim : ((N : ℝ) + 1) * env.cfg.xiStep ≤ 99999) (dt : ℝ) (b b' : List (Particle ℝ)) (hb : ∀ p ∈ b, p.xi ≤ 0) (hb' : ∀ p ∈ b', p.xi ≤ 0)
    (hno : NoOvertaking env plasma0 N dt b) (hno' : NoOvertaking env plasma0 N dt b') (g j : ℕ) (hj : j ≤ N)
    (hsame : ∀ i, i ≤ j + g → i ≤ N → (b.filter fun p => decide (InLayer env.cfg.xiStep i p.xi)).Perm (b'.filter fun p => decide (InLayer env.cfg.xiStep i p.xi))) :
    (seqLayers (world2D env plasma0) N dt b g j).Perm (seqLayers (world2D env plasma0) N dt b' g j) ∧
    (stAt (world2D env plasma0) ((world2D env plasma0).init (timeOf dt g)) (seqLayers (world2D env plasma0) N dt b g) (j + 1)).plasma =
      (stAt (world2D env plasma0) ((world2D env plasma0).init (timeOf dt g)) (seqLayers (world2D env plasma0) N dt b' g) (j + 1)).plasma ∧
    (stAt (world2D env plasma0) ((world2D env plasma0).init (timeOf dt g)) (seqLayers (world2D env plasma0) N dt b g) (j + 1)).rhoPrev =
      (stAt (world2D env plasma0) ((world2D env plasma0).init (timeOf dt g)) (seqLayers (world2D env plasma0) N dt b' g) (j + 1)).rhoPrev ∧
    (finished (world2D env plasma0) dt g (seqLayers (world2D env plasma0) N dt b g) j).Perm (finished (world2D env plasma0) dt g (seqLayers (world2D env plasma0) N dt b' g) j) := by
  have F := faithful2D env plasma0 hs hf hx N hlim
  obtain ⟨h1, h2, h3⟩ := domain_of_dependence F dt b b' g hb hb' (notAhead_of_causal F (causal2D env plasma0 hs N dt b hno g))
    (notAhead_of_causal F (causal2D env plasma0 hs N dt b' hno' g)) (j + g) (fun i hi hi' => hsame i hi hi') g le_rfl j hj le_rfl
  exact ⟨h1, h2.1, h2.2.2.1, h3⟩

/-- C45 in 2D, first time step: without any condition on the motion, the plasma and the fields of layer `j` depend only on the particles in the layers `0 .. j`. -/
theorem causality_first_step_2D (env : Env2D σ) (plasma0 : ℝ → σ) (hs : IsArgsort boolLe env.argsortB) (hf : IsArgsort (· ≤ ·) env.argsortF) (hx : 0 < env.cfg.xiStep)
    (N : ℕ) (hlim : ((N : ℝ) + 1) * env.cfg.xiStep ≤ 99999) (dt : ℝ) (b b' : List (Particle ℝ)) (hb : ∀ p ∈ b, p.xi ≤ 0) (hb' : ∀ p ∈ b', p.xi ≤ 0) (j : ℕ) (hj : j ≤ N)
    (hsame : ∀ i, i ≤ j → (b.filter fun p => decide (InLayer env.cfg.xiStep i p.xi)).Perm (b'.filter fun p => decide (InLayer env.cfg.xiStep i p.xi))) :
    (stAt (world2D env plasma0) ((world2D env plasma0).init (timeOf dt 0)) (seqLayers (world2D env plasma0) N dt b 0) (j + 1)).plasma =
      (stAt (world2D env plasma0) ((world2D env plasma0).init (timeOf dt 0)) (seqLayers (world2D env plasma0) N dt b' 0) (j + 1)).plasma ∧
    (finished (world2D env plasma0) dt 0 (seqLayers (world2D env plasma0) N dt b 0) j).Perm (finished (world2D env plasma0) dt 0 (seqLayers (world2D env plasma0) N dt b' 0) j) := by
  have F := faithful2D env plasma0 hs hf hx N hlim
  obtain ⟨-, h2, h3⟩ := domain_of_dependence F dt b b' 0 hb hb' (fun g hg => absurd hg (by omega)) (fun g hg => absurd hg (by omega)) j (fun i hi _ => hsame i hi) 0 le_rfl j hj le_rfl
  exact ⟨h2.1, h3⟩

/-- C45 in 2D: two beams behind the window head with the same particles in the window (in any order, and whatever is behind the window) give the same run: in every time step the same layers,
the same plasma in every layer and the same beam. Nothing is required of the motion or of the plasma. -/
theorem window_decides_2D (env : Env2D σ) (plasma0 : ℝ → σ) (hs : IsArgsort boolLe env.argsortB) (hf : IsArgsort (· ≤ ·) env.argsortF) (hx : 0 < env.cfg.xiStep) (hts : 0 ≤ env.timeStep)
    (N : ℕ) (hlim : ((N : ℝ) + 1) * env.cfg.xiStep ≤ 99999) (dt : ℝ) (b b' : List (Particle ℝ)) (hb : ∀ p ∈ b, p.xi ≤ 0) (hb' : ∀ p ∈ b', p.xi ≤ 0)
    (hsame : ∀ i, i ≤ N → (b.filter fun p => decide (InLayer env.cfg.xiStep i p.xi)).Perm (b'.filter fun p => decide (InLayer env.cfg.xiStep i p.xi))) (g : ℕ) :
    (∀ j, j ≤ N → (seqLayers (world2D env plasma0) N dt b g j).Perm (seqLayers (world2D env plasma0) N dt b' g j)) ∧
    (∀ j, j ≤ N + 1 → (stAt (world2D env plasma0) ((world2D env plasma0).init (timeOf dt g)) (seqLayers (world2D env plasma0) N dt b g) j).plasma =
      (stAt (world2D env plasma0) ((world2D env plasma0).init (timeOf dt g)) (seqLayers (world2D env plasma0) N dt b' g) j).plasma) ∧
    (allFinished (world2D env plasma0) N dt g (seqLayers (world2D env plasma0) N dt b g)).Perm (allFinished (world2D env plasma0) N dt g (seqLayers (world2D env plasma0) N dt b' g)) := by
  have F := faithful2D env plasma0 hs hf hx N hlim
  obtain ⟨h1, h2, h3⟩ := window_decides F dt b b' hb hb' (fun g p hp => by
    obtain ⟨i, -, hp⟩ := mem_allFinished hp
    exact finished_nonpos env hs hts plasma0 dt g _ (fun j => seqLayers_nonpos env plasma0 hf hx N dt b g j) i p hp) (fun i hi => hsame i hi) g
  exact ⟨h1, fun j hj => (h2 j hj).1, h3⟩

/-- C45 in 2D: the order in which the particles of a beam are given never matters (any beam, also one with particles ahead of the window). -/
theorem order_irrelevant_2D (env : Env2D σ) (plasma0 : ℝ → σ) (hs : IsArgsort boolLe env.argsortB) (hf : IsArgsort (· ≤ ·) env.argsortF) (hx : 0 < env.cfg.xiStep) (hts : 0 ≤ env.timeStep)
    (N : ℕ) (hlim : ((N : ℝ) + 1) * env.cfg.xiStep ≤ 99999) (dt : ℝ) (b b' : List (Particle ℝ)) (hp : b.Perm b') (g : ℕ) :
    (∀ j, j ≤ N → (seqLayers (world2D env plasma0) N dt b g j).Perm (seqLayers (world2D env plasma0) N dt b' g j)) ∧
    (∀ j, j ≤ N + 1 → (stAt (world2D env plasma0) ((world2D env plasma0).init (timeOf dt g)) (seqLayers (world2D env plasma0) N dt b g) j).plasma =
      (stAt (world2D env plasma0) ((world2D env plasma0).init (timeOf dt g)) (seqLayers (world2D env plasma0) N dt b' g) j).plasma) ∧
    (allFinished (world2D env plasma0) N dt g (seqLayers (world2D env plasma0) N dt b g)).Perm (allFinished (world2D env plasma0) N dt g (seqLayers (world2D env plasma0) N dt b' g)) := by
  by_cases hb : ∃ q ∈ b, 0 < q.xi
  · have hb' : ∃ q ∈ b', 0 < q.xi := by
      obtain ⟨q, hq, h⟩ := hb
      exact ⟨q, hp.mem_iff.1 hq, h⟩
    have e : ∀ g, seqLayers (world2D env plasma0) N dt b g = seqLayers (world2D env plasma0) N dt b' g := by
      intro g
      induction g with
      | zero =>
        funext j
        exact (blocked2D env plasma0 hf hx b hb j).trans (blocked2D env plasma0 hf hx b' hb' j).symm
      | succ g ih => simp only [seqLayers, ih]
    rw [e g]
    exact ⟨fun _ _ => List.Perm.refl _, fun _ _ => rfl, List.Perm.refl _⟩
  · push Not at hb
    exact window_decides_2D env plasma0 hs hf hx hts N hlim dt b b' hb (fun p hpb => hb p (hp.mem_iff.2 hpb)) (fun i _ => hp.filter _) g

end TwoD

end Lcode.Mpi
