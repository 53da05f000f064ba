import Verif.Plasma3D.GpuFields

/-!
Model of step_dxi (lcode/plasma3d/solver.py:25-78) and of the plasma part of the xi-loop (push_solvers/push_solver.py:255-300) when processing-unit-type is gpu: the kernels of Gpu and GpuFields put together. Property C47.
The order of the atomic additions is not fixed, so a step is a relation between states, not a function.
-/

namespace Lcode.Plasma3D

open Finset

/-! ### Model -/

/-- dx_inhom on the GPU, noise_filter.py:37-50 and 123-124. -/
noncomputable def gpuInhom (n : ℤ) (d : ℤ → ℤ → ℝ) (i j : ℤ) : ℝ := (gpuInhom0 n d i j + gpuInhom1 n d i j) / 2

/-- dx_chaotic, dy_chaotic on the GPU, noise_filter.py:140-141 and 164-165: `xp` is cupy, the formulas are those of the CPU. -/
noncomputable def gpuChaotic (c : NCfg) (d : ℤ → ℤ → ℝ) (i j : ℤ) : ℝ := gpuInhom c.n d i j - smooth c.n c.σ (gpuInhom c.n d) i j

/-- noise_filter on the GPU, noise_filter.py:102-238: beyond the inhomogeneity both versions run the same array expressions. -/
noncomputable def gpuNoiseFilter (c : NCfg) (x y : ℤ → ℤ → ℝ) (s : NState) : NState :=
  let chx := gpuChaotic c x
  let chy := gpuChaotic c y
  let lim := dLimit c chx chy
  { px := kicked c (force c chx lim) lim chx s.chx s.px
    py := kicked c (force c chy lim) lim chy s.chy s.py
    chx := chx
    chy := chy }

/-- The noise filter applied to the electrons, solver.py:68-72. -/
noncomputable def gpuFilterSort (c : NCfg) (el : List Ptl) (chx chy : ℤ → ℤ → ℝ) : List Ptl × (ℤ → ℤ → ℝ) × (ℤ → ℤ → ℝ) :=
  let s := gpuNoiseFilter c (entry c.n el Ptl.x) (entry c.n el Ptl.y) ⟨entry c.n el Ptl.px, entry c.n el Ptl.py, chx, chy⟩
  (el.mapIdx fun k p => { p with px := s.px ((k / c.n : ℕ) : ℤ) ((k % c.n : ℕ) : ℤ), py := s.py ((k / c.n : ℕ) : ℤ) ((k % c.n : ℕ) : ℤ) }, s.chx, s.chy)

/-- One push of both sorts by the kernel, solver.py:34, 49, 64 and move.py:351-381 (one thread for each particle; no thread reads what another one writes). -/
noncomputable def gpuPush (c : SCfg) (F : Fields3) (w : W3) (full : List Ptl × Option (List Ptl)) : List Ptl × Option (List Ptl) :=
  (List.zipWith (gpuMoveOne c.m F) w.el full.1, match w.ions, full.2 with | some a, some b => some (List.zipWith (gpuMoveOne c.m F) a b) | _, _ => none)

/-- move_particles_wo_fields with the kernel, solver.py:29. -/
noncomputable def gpuFree (c : SCfg) (w : W3) : List Ptl × Option (List Ptl) := (w.el.map (gpuMoveFree c.m.dxi), w.ions.map fun l => l.map (gpuMoveFree c.m.dxi))

/-- `o` can be the result of compute_rhoj, rhoj.py:11-20 and weights.py:248-287: one kernel call for each sort; with a background row 1 is ro_initial. -/
def GpuRhoj (c : SCfg) (full : List Ptl × Option (List Ptl)) (o : Cur × Cur) : Prop :=
  GpuDeposited c.m.N c.m.h full.1 o.1 ∧ match full.2 with | some l => GpuDeposited c.m.N c.m.h l o.2 | none => o.2 = { Cur.zero with ro := c.roInit }

/-- `r` can be the result of step_dxi on the GPU, solver.py:25-78. `o1`, `o2`, `o3` are the results of the three depositions. -/
def GpuStep (c : SCfg) (w : W3) (bFull bPrev : ℤ → ℤ → ℝ) (r : W3) : Prop :=
  ∃ o1 o2 o3 : Cur × Cur, ∃ p1 p2 p3 : List Ptl × Option (List Ptl), ∃ a1 a2 : Fields3 × Fields3,
    p1 = gpuPush c w.F w (gpuFree c w) ∧ GpuRhoj c p1 o1 ∧ a1 = gpuComputeFields c.f w.F w.F bFull bPrev w.cur o1 ∧
    p2 = gpuPush c a1.2 w p1 ∧ GpuRhoj c p2 o2 ∧ a2 = gpuComputeFields c.f a1.2 w.F bFull bPrev w.cur o2 ∧
    p3 = gpuPush c a2.2 w p2 ∧
    match c.decl with
    | none => GpuRhoj c p3 o3 ∧ r = ⟨p3.1, p3.2, w.chx, w.chy, a2.1, o3⟩
    | some d =>
      GpuRhoj c ((gpuFilterSort d p3.1 w.chx w.chy).1, p3.2) o3 ∧
      r = ⟨(gpuFilterSort d p3.1 w.chx w.chy).1, p3.2, (gpuFilterSort d p3.1 w.chx w.chy).2.1, (gpuFilterSort d p3.1 w.chx w.chy).2.2, a2.1, o3⟩

/-- The plasma part of the xi-loop on the GPU, push_solver.py:255-300. -/
inductive GpuRun (c : SCfg) : W3 → (ℤ → ℤ → ℝ) → List (ℤ → ℤ → ℝ) → W3 → Prop
  | nil (w : W3) (b : ℤ → ℤ → ℝ) : GpuRun c w b [] w
  | cons (w v r : W3) (bPrev b : ℤ → ℤ → ℝ) (bs : List (ℤ → ℤ → ℝ)) : GpuStep c w b bPrev v → GpuRun c v b bs r → GpuRun c w bPrev (b :: bs) r

/-! ### Specification -/

/-- The same plasma: the same particles, and the same fields, densities and currents at every node of the grid (and the same chaotic displacements, if they are used). -/
structure SamePlasma (c : SCfg) (w v : W3) : Prop where
  el : w.el = v.el
  ions : w.ions = v.ions
  F : SameFields c.m.N w.F v.F
  cur : SameCur c.m.N w.cur.1 v.cur.1 ∧ SameCur c.m.N w.cur.2 v.cur.2
  ch : ∀ d, c.decl = some d → SameOn d.n w.chx v.chx ∧ SameOn d.n w.chy v.chy

/-- Every particle that has charge is strictly inside the boundary, and its free motion to the next layer leads no further than five boundaries from the axis. -/
def Calm (c : SCfg) (w : W3) : Prop :=
  ∀ p ∈ w.all, p.q = 0 ∨ (StrictlyInside c.m.boundary p ∧ |(moveFree c.m.dxi p).X| ≤ 5 * c.m.boundary ∧ |(moveFree c.m.dxi p).Y| ≤ 5 * c.m.boundary)

/-! ### C47: the noise filter -/

theorem smooth_congr (n : ℕ) (σ : ℝ) (u v : ℤ → ℤ → ℝ) (h : SameOn n u v) (a b : ℤ) : smooth n σ u a b = smooth n σ v a b := by
  have : fft2 n u = fft2 n v := by
    funext k l
    unfold fft2
    refine Finset.sum_congr rfl fun i hi => Finset.sum_congr rfl fun j hj => ?_
    rw [Finset.mem_range] at hi hj
    rw [h i j (by omega) (by omega) (by omega) (by omega)]
  unfold smooth
  rw [this]

theorem gpuChaotic_same (c : NCfg) (hn : 3 ≤ c.n) (d : ℤ → ℤ → ℝ) : SameOn c.n (gpuChaotic c d) (chaotic c d) := by
  have e : SameOn c.n (gpuInhom c.n d) (inhom c.n d) := fun i j i0 i1 j0 j1 => gpu_inhom_same c.n (by omega) d i j ⟨i0, i1⟩ ⟨j0, j1⟩
  intro i j i0 i1 j0 j1
  unfold gpuChaotic chaotic
  rw [e i j i0 i1 j0 j1, smooth_congr _ _ _ _ e]

theorem kickAxis_congr (n : ℤ) (s : ℝ) (f g p q : ℤ → ℝ) (hf : ∀ i, 0 ≤ i → i < n → f i = g i) (i : ℤ) (i0 : 0 ≤ i) (i1 : i < n) (hp : p i = q i) : kickAxis n s f p i = kickAxis n s g q i := by
  unfold kickAxis
  simp only
  have e1 : (if 1 ≤ i ∧ i < n - 1 then p i + s * f i / 2 else p i) = if 1 ≤ i ∧ i < n - 1 then q i + s * g i / 2 else q i := by
    rw [hp, hf i i0 i1]
  rw [e1]
  have e2 : ∀ z : ℝ, (if 2 ≤ i then z - s * f (i - 1) / 4 else z) = if 2 ≤ i then z - s * g (i - 1) / 4 else z := by
    intro z
    split_ifs
    · rw [hf (i - 1) (by omega) (by omega)]
    · rfl
  rw [e2]
  split_ifs with h
  all_goals first | rw [hf (i + 1) (by omega) (by omega)] | rfl

theorem kicked_congr (c : NCfg) (f f' lim lim' ch ch' cp cp' p p' : ℤ → ℤ → ℝ) (hf : SameOn c.n f f') (hl : SameOn c.n lim lim') (hc : SameOn c.n ch ch') (hcp : SameOn c.n cp cp') (hp : SameOn c.n p p') :
    SameOn c.n (kicked c f lim ch cp p) (kicked c f' lim' ch' cp' p') := by
  intro i j i0 i1 j0 j1
  unfold kicked
  simp only
  rw [hl i j i0 i1 j0 j1, hc i j i0 i1 j0 j1, hcp i j i0 i1 j0 j1]
  congr 1
  refine kickAxis_congr _ _ _ _ _ _ (fun k k0 k1 => hf i k i0 i1 k0 k1) j j0 j1 ?_
  exact kickAxis_congr _ _ _ _ _ _ (fun k k0 k1 => hf k j k0 k1 j0 j1) i i0 i1 (hp i j i0 i1 j0 j1)

/-- C47: with at least three particles in a row the noise filter of the GPU changes the momenta as that of the CPU does and hands on the same chaotic displacements. -/
theorem gpu_filter_same (c : NCfg) (hn : 3 ≤ c.n) (x y : ℤ → ℤ → ℝ) (s t : NState) (hpx : SameOn c.n s.px t.px) (hpy : SameOn c.n s.py t.py) (hcx : SameOn c.n s.chx t.chx) (hcy : SameOn c.n s.chy t.chy) :
    SameOn c.n (gpuNoiseFilter c x y s).px (noiseFilter c x y t).px ∧ SameOn c.n (gpuNoiseFilter c x y s).py (noiseFilter c x y t).py ∧
    SameOn c.n (gpuNoiseFilter c x y s).chx (noiseFilter c x y t).chx ∧ SameOn c.n (gpuNoiseFilter c x y s).chy (noiseFilter c x y t).chy := by
  have ex := gpuChaotic_same c hn x
  have ey := gpuChaotic_same c hn y
  have el : SameOn c.n (dLimit c (gpuChaotic c x) (gpuChaotic c y)) (dLimit c (chaotic c x) (chaotic c y)) := by
    intro i j i0 i1 j0 j1
    unfold dLimit
    simp only [ex i j i0 i1 j0 j1, ey i j i0 i1 j0 j1]
  have ef : ∀ a b : ℤ → ℤ → ℝ, SameOn c.n a b → SameOn c.n (force c a (dLimit c (gpuChaotic c x) (gpuChaotic c y))) (force c b (dLimit c (chaotic c x) (chaotic c y))) := by
    intro a b hab i j i0 i1 j0 j1
    unfold force
    rw [hab i j i0 i1 j0 j1, el i j i0 i1 j0 j1]
  exact ⟨kicked_congr c _ _ _ _ _ _ _ _ _ _ (ef _ _ ex) el ex hcx hpx, kicked_congr c _ _ _ _ _ _ _ _ _ _ (ef _ _ ey) el ey hcy hpy, ex, ey⟩

theorem gpuFilterSort_same (c : NCfg) (hn : 3 ≤ c.n) (el : List Ptl) (hel : el.length ≤ c.n * c.n) (chx chy chx' chy' : ℤ → ℤ → ℝ) (hx : SameOn c.n chx chx') (hy : SameOn c.n chy chy') :
    (gpuFilterSort c el chx chy).1 = (filterSort c el chx' chy').1 ∧ SameOn c.n (gpuFilterSort c el chx chy).2.1 (filterSort c el chx' chy').2.1 ∧
    SameOn c.n (gpuFilterSort c el chx chy).2.2 (filterSort c el chx' chy').2.2 := by
  obtain ⟨h1, h2, h3, h4⟩ := gpu_filter_same c hn (entry c.n el Ptl.x) (entry c.n el Ptl.y) ⟨entry c.n el Ptl.px, entry c.n el Ptl.py, chx, chy⟩
    ⟨entry c.n el Ptl.px, entry c.n el Ptl.py, chx', chy'⟩ (.refl _ _) (.refl _ _) hx hy
  refine ⟨?_, h3, h4⟩
  unfold gpuFilterSort filterSort
  simp only
  apply List.ext_getElem
  · simp
  · intro k k1 k2
    simp only [List.length_mapIdx] at k1
    have a1 : k / c.n < c.n := Nat.div_lt_of_lt_mul (by omega)
    have a2 : k % c.n < c.n := Nat.mod_lt _ (by omega)
    simp only [List.getElem_mapIdx]
    rw [h1 _ _ (by positivity) (by exact_mod_cast a1) (by positivity) (by exact_mod_cast a2), h2 _ _ (by positivity) (by exact_mod_cast a1) (by positivity) (by exact_mod_cast a2)]

/-! ### C47: one step -/

/-- What the three pushes need: `full` estimates the particles of `w` and has not gone further than five boundaries. -/
def Near (c : SCfg) (p q : Ptl) : Prop := Kept p q ∧ (q.q = 0 ∨ (|q.X| ≤ 5 * c.m.boundary ∧ |q.Y| ≤ 5 * c.m.boundary))

theorem gpuMove_list (c : SCfg) (hN : c.m.N % 2 = 1) (hp : 2 < c.m.pad) (hh : 0 < c.m.h) (hb : 0 < c.m.boundary) (F G : Fields3) (hFG : SameFields c.m.N F G) (prev full : List Ptl)
    (hprev : ∀ p ∈ prev, p.q = 0 ∨ StrictlyInside c.m.boundary p) (hfull : List.Forall₂ (Near c) prev full) :
    List.zipWith (gpuMoveOne c.m F) prev full = moveSort c.m G prev full ∧ List.Forall₂ (Near c) prev (moveSort c.m G prev full) ∧
    ∀ p ∈ moveSort c.m G prev full, p.q = 0 ∨ StrictlyInside c.m.boundary p := by
  unfold moveSort
  induction hfull with
  | nil => exact ⟨rfl, List.Forall₂.nil, by simp⟩
  | cons ha _ ih =>
    rename_i a b l l' _
    obtain ⟨i1, i2, i3⟩ := ih fun p hp => hprev p (List.mem_cons_of_mem _ hp)
    obtain ⟨hk, hq⟩ := ha
    obtain ⟨k1, k2⟩ := moveOne_kept c.m G a a b (Kept.refl a) hk
    have hm : gpuMoveOne c.m F a b = moveOne c.m G a b := by
      refine gpu_move_same c.m F G hFG a b fun hbq => ?_
      have hs : StrictlyInside c.m.boundary a := by
        rcases hprev a List.mem_cons_self with h | h
        · exfalso; rcases hk.2.2.2 with g | g
          · exact hbq (g.trans h)
          · exact hbq g
        · exact h
      exact push_reads_inside c.m hN hp hh hb a b hs ⟨hk.1.symm, hk.2.1.symm⟩ (hq.resolve_left hbq)
    rw [List.zipWith_cons_cons, List.zipWith_cons_cons, i1, hm]
    refine ⟨rfl, List.Forall₂.cons ⟨k1, k2.imp_right fun h => ⟨?_, ?_⟩⟩ i2, ?_⟩
    · have := h.1; linarith
    · have := h.2; linarith
    · intro p hp
      rcases List.mem_cons.mp hp with rfl | hp
      · exact k2
      · exact i3 p hp

/-- Both sorts. -/
def NearPair (c : SCfg) (w : W3) (full : List Ptl × Option (List Ptl)) : Prop := List.Forall₂ (Near c) w.el full.1 ∧ Option.Rel (List.Forall₂ (Near c)) w.ions full.2

/-- All particles of a pair of lists are off or strictly inside. -/
def PairInside (c : SCfg) (full : List Ptl × Option (List Ptl)) : Prop := (∀ p ∈ full.1, p.q = 0 ∨ StrictlyInside c.m.boundary p) ∧ ∀ l, full.2 = some l → ∀ p ∈ l, p.q = 0 ∨ StrictlyInside c.m.boundary p

theorem gpuPush_same (c : SCfg) (hN : c.m.N % 2 = 1) (hp : 2 < c.m.pad) (hh : 0 < c.m.h) (hb : 0 < c.m.boundary) (F G : Fields3) (hFG : SameFields c.m.N F G) (w v : W3) (h1 : w.el = v.el) (h2 : w.ions = v.ions)
    (hw : PairInside c (v.el, v.ions)) (full : List Ptl × Option (List Ptl)) (hfull : NearPair c v full) :
    gpuPush c F w full = pushSorts c G v full ∧ NearPair c v (pushSorts c G v full) ∧ PairInside c (pushSorts c G v full) := by
  obtain ⟨e1, e2, e3⟩ := gpuMove_list c hN hp hh hb F G hFG v.el full.1 hw.1 hfull.1
  unfold gpuPush pushSorts NearPair PairInside
  simp only
  rw [h1, h2, e1]
  have hr := hfull.2
  cases hi : v.ions with
  | none =>
    exact ⟨rfl, ⟨e2, Option.Rel.none⟩, e3, by simp⟩
  | some a =>
    rw [hi] at hr
    obtain ⟨f1, f2⟩ := full
    simp only at hr
    cases hr with
    | some ha =>
      rename_i b
      obtain ⟨i1, i2, i3⟩ := gpuMove_list c hN hp hh hb F G hFG a b (hw.2 a hi) ha
      simp only
      rw [i1]
      exact ⟨rfl, ⟨e2, Option.Rel.some i2⟩, e3, by rintro l ⟨⟩; exact i3⟩

theorem touched_cols (c : SCfg) (hN : c.m.N % 2 = 1) (hp : 2 < c.m.pad) (hh : 0 < c.m.h) (ps : List Ptl) (hps : ∀ p ∈ ps, p.q = 0 ∨ StrictlyInside c.m.boundary p) :
    ∀ t ∈ touched c.m.N c.m.h ps, 0 ≤ t.2 ∧ t.2 < c.m.N := by
  intro t ht
  have := touched_inside c.m.N c.m.pad hN c.m.h hh ps hps t ht
  omega

/-- C47: in a contained plasma the deposition of both sorts has one result only: that of the CPU. -/
theorem gpuRhoj_same (c : SCfg) (hN : c.m.N % 2 = 1) (hp : 2 < c.m.pad) (hh : 0 < c.m.h) (full : List Ptl × Option (List Ptl)) (hf : PairInside c full) (o : Cur × Cur) (ho : GpuRhoj c full o) : o = rhojSorts c full := by
  obtain ⟨h1, h2⟩ := ho
  obtain ⟨o1, o2⟩ := o
  obtain ⟨f1, f2⟩ := full
  have e1 := gpu_deposit_same c.m.N c.m.h f1 (touched_cols c hN hp hh f1 hf.1) o1 h1
  unfold rhojSorts computeRhoj
  cases f2 with
  | none => simp only at h2 e1 ⊢; rw [e1, h2]
  | some l =>
    have e2 := gpu_deposit_same c.m.N c.m.h l (touched_cols c hN hp hh l (hf.2 l rfl)) o2 h2
    simp only at e1 ⊢
    rw [e1, e2]

theorem filter_inside (c : SCfg) (d : NCfg) (el : List Ptl) (ions : Option (List Ptl)) (chx chy : ℤ → ℤ → ℝ) (h : PairInside c (el, ions)) : PairInside c ((filterSort d el chx chy).1, ions) := by
  refine ⟨?_, h.2⟩
  intro p hp
  unfold filterSort at hp
  simp only at hp
  obtain ⟨k, hk, rfl⟩ := List.mem_mapIdx.mp hp
  have := h.1 _ (List.getElem_mem hk)
  exact this

theorem calm_free (c : SCfg) (v : W3) (h : Calm c v) : PairInside c (v.el, v.ions) ∧ NearPair c v (freeSorts c v) := by
  have near : ∀ l : List Ptl, (∀ p ∈ l, p.q = 0 ∨ (StrictlyInside c.m.boundary p ∧ |(moveFree c.m.dxi p).X| ≤ 5 * c.m.boundary ∧ |(moveFree c.m.dxi p).Y| ≤ 5 * c.m.boundary)) →
      List.Forall₂ (Near c) l (l.map (moveFree c.m.dxi)) := by
    intro l
    induction l with
    | nil => intro _; exact List.Forall₂.nil
    | cons a l ih =>
      intro hl
      refine List.Forall₂.cons ⟨(moveFree_kept c.m.dxi a).1, ?_⟩ (ih fun p hp => hl p (List.mem_cons_of_mem _ hp))
      rw [(moveFree_kept c.m.dxi a).2]
      exact (hl a List.mem_cons_self).imp_right And.right
  have hel : ∀ p ∈ v.el, _ := fun p hp => h p (List.mem_append_left _ hp)
  refine ⟨⟨fun p hp => (hel p hp).imp_right And.left, ?_⟩, near _ hel, ?_⟩
  · intro l hl p hp
    simp only at hl
    exact (h p (List.mem_append_right _ (by rw [hl]; exact hp))).imp_right And.left
  · unfold freeSorts
    simp only
    cases hi : v.ions with
    | none => exact Option.Rel.none
    | some l => exact Option.Rel.some (near l fun p hp => h p (List.mem_append_right _ (by rw [hi]; exact hp)))

/-- C47: one step. Whatever the order of the additions in its three depositions, a step of the GPU from the same plasma, with the same beam density at the nodes, gives the plasma that the step of the CPU gives. -/
theorem gpu_step_same (c : SCfg) (hN : c.m.N % 2 = 1) (hp : 2 < c.m.pad) (hh : 0 < c.m.h) (hb : 0 < c.m.boundary) (w v : W3) (hs : SamePlasma c w v) (hc : Calm c v)
    (hd : ∀ d, c.decl = some d → 3 ≤ d.n ∧ v.el.length ≤ d.n * d.n) (b1 b1' b0 b0' : ℤ → ℤ → ℝ) (hb1 : SameOn c.m.N b1 b1') (hb0 : SameOn c.m.N b0 b0') (r : W3) (hr : GpuStep c w b1 b0 r) :
    SamePlasma c r (stepDxi c v b1' b0') := by
  have hN1 : 2 ≤ c.m.N := by
    by_contra hlt
    have h1 : c.m.boundary = c.m.h * (c.m.N / 2 - c.m.pad) := rfl
    rw [h1] at hb
    have h2 := (mul_pos_iff_of_pos_left hh).mp hb
    have h3 : (c.m.N : ℝ) ≤ 1 := by exact_mod_cast (by omega : c.m.N ≤ 1)
    have h4 : (2 : ℝ) < c.m.pad := by exact_mod_cast hp
    linarith
  have hL : 1 ≤ c.f.L := by unfold SCfg.f; simp only; omega
  have hLN : ((c.f.L : ℤ) + 1) = c.m.N := by unfold SCfg.f; simp only; omega
  obtain ⟨hin, hnear⟩ := calm_free c v hc
  obtain ⟨s1, s2, s3, s4, s5⟩ := hs
  have free : gpuFree c w = freeSorts c v := by
    unfold gpuFree freeSorts
    rw [s1, s2]
    simp only [funext (gpu_free_same c.m.dxi)]
  obtain ⟨o1, o2, o3, p1, p2, p3, a1, a2, e1, r1, f1, e2, r2, f2, e3, hr⟩ := hr
  have flds : ∀ (F G : Fields3) (o o' : Cur × Cur), SameFields c.m.N F G → o = o' → ∀ a a', a = gpuComputeFields c.f F w.F b1 b0 w.cur o → a' = computeFields c.f G v.F b1' b0' v.cur o' →
      SameFields c.m.N a.1 a'.1 ∧ SameFields c.m.N a.2 a'.2 := by
    rintro F G o _ hFG rfl a a' rfl rfl
    have := gpu_fields_same c.f hL F G w.F v.F (hLN ▸ hFG) (hLN ▸ s3) b1 b1' b0 b0' (hLN ▸ hb1) (hLN ▸ hb0) w.cur v.cur o o (hLN ▸ s4) ⟨SameCur.refl _ _, SameCur.refl _ _⟩
    rwa [hLN] at this
  -- the CPU step, with names
  have hcpu : ∃ P1 P2 P3 : List Ptl × Option (List Ptl), ∃ A1 A2 : Fields3 × Fields3, P1 = pushSorts c v.F v (freeSorts c v) ∧ A1 = computeFields c.f v.F v.F b1' b0' v.cur (rhojSorts c P1) ∧
      P2 = pushSorts c A1.2 v P1 ∧ A2 = computeFields c.f A1.2 v.F b1' b0' v.cur (rhojSorts c P2) ∧ P3 = pushSorts c A2.2 v P2 ∧
      stepDxi c v b1' b0' = match c.decl with
        | none => ⟨P3.1, P3.2, v.chx, v.chy, A2.1, rhojSorts c P3⟩
        | some d => ⟨(filterSort d P3.1 v.chx v.chy).1, P3.2, (filterSort d P3.1 v.chx v.chy).2.1, (filterSort d P3.1 v.chx v.chy).2.2, A2.1, rhojSorts c ((filterSort d P3.1 v.chx v.chy).1, P3.2)⟩ :=
    ⟨_, _, _, _, _, rfl, rfl, rfl, rfl, rfl, rfl⟩
  obtain ⟨P1, P2, P3, A1, A2, E1, F1, E2, F2, E3, hcpu⟩ := hcpu
  obtain ⟨m1, n1, i1⟩ := gpuPush_same c hN hp hh hb w.F v.F s3 w v s1 s2 hin _ hnear
  rw [← E1] at m1 n1 i1
  rw [free, m1] at e1
  rw [e1] at r1 e2
  obtain ⟨-, g2⟩ := flds w.F v.F o1 _ s3 (gpuRhoj_same c hN hp hh _ i1 o1 r1) a1 A1 f1 F1
  obtain ⟨m2, n2, i2⟩ := gpuPush_same c hN hp hh hb a1.2 A1.2 g2 w v s1 s2 hin _ n1
  rw [← E2] at m2 n2 i2
  rw [m2] at e2
  rw [e2] at r2 e3
  obtain ⟨g3, g4⟩ := flds a1.2 A1.2 o2 _ g2 (gpuRhoj_same c hN hp hh _ i2 o2 r2) a2 A2 f2 F2
  obtain ⟨m3, n3, i3⟩ := gpuPush_same c hN hp hh hb a2.2 A2.2 g4 w v s1 s2 hin _ n2
  rw [← E3] at m3 n3 i3
  rw [m3] at e3
  rw [hcpu]
  clear hcpu E1 E2 E3 F1 F2 m1 m2 m3 e1 e2 f1 f2 r1 r2
  subst e3
  cases hdec : c.decl with
  | none =>
    rw [hdec] at hr
    obtain ⟨r3, rfl⟩ := hr
    have q3 := gpuRhoj_same c hN hp hh _ i3 o3 r3
    subst q3
    refine ⟨rfl, rfl, g3, ⟨SameCur.refl _ _, SameCur.refl _ _⟩, ?_⟩
    intro d hd'; rw [hdec] at hd'; cases hd'
  | some d =>
    rw [hdec] at hr
    obtain ⟨r3, rfl⟩ := hr
    obtain ⟨hn, hl⟩ := hd d hdec
    obtain ⟨sx, sy⟩ := s5 d hdec
    have hlen := n3.1.length_eq
    obtain ⟨t1, t2, t3⟩ := gpuFilterSort_same d hn p3.1 (le_trans (le_of_eq hlen.symm) hl) w.chx w.chy v.chx v.chy sx sy
    rw [t1] at r3
    have q3 := gpuRhoj_same c hN hp hh _ (filter_inside c d _ _ v.chx v.chy i3) o3 r3
    subst q3
    refine ⟨t1, rfl, g3, ⟨SameCur.refl _ _, SameCur.refl _ _⟩, ?_⟩
    intro d' hd'
    rw [hdec] at hd'
    cases hd'
    exact ⟨t2, t3⟩

/-- C47: a run. From the same plasma and with the same beam density on every layer, every run of the GPU ends with the plasma of the CPU run, provided the CPU run stays calm. -/
theorem gpu_run_same (c : SCfg) (hN : c.m.N % 2 = 1) (hp : 2 < c.m.pad) (hh : 0 < c.m.h) (hb : 0 < c.m.boundary) (w v r : W3) (bPrev bPrev' : ℤ → ℤ → ℝ) (bs bs' : List (ℤ → ℤ → ℝ))
    (hs : SamePlasma c w v) (hb0 : SameOn c.m.N bPrev bPrev') (hbs : List.Forall₂ (SameOn c.m.N) bs bs') (hc : ∀ k < bs'.length, Calm c (runLayers c v bPrev' (bs'.take k)))
    (hd : ∀ d, c.decl = some d → 3 ≤ d.n ∧ v.el.length ≤ d.n * d.n) (hr : GpuRun c w bPrev bs r) : SamePlasma c r (runLayers c v bPrev' bs') := by
  induction hr generalizing v bPrev' bs' with
  | nil => cases hbs; exact hs
  | cons w u r b0 b bs hstep hrun ih =>
    cases hbs with
    | cons h1 h2 =>
      rename_i b' bs'
      have hc0 : Calm c v := hc 0 (by simp)
      have hu := gpu_step_same c hN hp hh hb w v hs hc0 hd b b' b0 bPrev' h1 hb0 u hstep
      refine ih (stepDxi c v b' bPrev') b' bs' hu h1 h2 ?_ ?_
      · intro k hk
        exact hc (k + 1) (by simpa using hk)
      · intro d hdec
        obtain ⟨k1, k2⟩ := hd d hdec
        refine ⟨k1, ?_⟩
        have : (stepDxi c v b' bPrev').el.length = v.el.length := by
          have hkp : KeptPair v.el v.ions (v.el, v.ions) := by
            have rl : ∀ l : List Ptl, List.Forall₂ Kept l l := fun l => by
              induction l with
              | nil => exact List.Forall₂.nil
              | cons a l ih => exact List.Forall₂.cons (Kept.refl a) ih
            refine ⟨rl _, ?_⟩
            simp only
            cases v.ions with
            | none => exact Option.Rel.none
            | some l => exact Option.Rel.some (rl l)
          exact (stepDxi_contained c v.el v.ions v b' bPrev' hkp).el.length_eq.symm
        omega

/-- Some result of a step always exists: the additions in program order. -/
theorem gpu_step_exists (c : SCfg) (w : W3) (b1 b0 : ℤ → ℤ → ℝ) : ∃ r, GpuStep c w b1 b0 r := by
  have rh : ∀ full, ∃ o, GpuRhoj c full o := by
    intro full
    obtain ⟨o1, h1⟩ := gpu_deposit_exists c.m.N c.m.h full.1
    cases hf : full.2 with
    | none => exact ⟨(o1, { Cur.zero with ro := c.roInit }), h1, by rw [hf]⟩
    | some l =>
      obtain ⟨o2, h2⟩ := gpu_deposit_exists c.m.N c.m.h l
      exact ⟨(o1, o2), h1, by rw [hf]; exact h2⟩
  obtain ⟨o1, h1⟩ := rh (gpuPush c w.F w (gpuFree c w))
  obtain ⟨o2, h2⟩ := rh (gpuPush c (gpuComputeFields c.f w.F w.F b1 b0 w.cur o1).2 w (gpuPush c w.F w (gpuFree c w)))
  generalize hp3 : gpuPush c (gpuComputeFields c.f (gpuComputeFields c.f w.F w.F b1 b0 w.cur o1).2 w.F b1 b0 w.cur o2).2 w
    (gpuPush c (gpuComputeFields c.f w.F w.F b1 b0 w.cur o1).2 w (gpuPush c w.F w (gpuFree c w))) = p3
  cases hdec : c.decl with
  | none =>
    obtain ⟨o3, h3⟩ := rh p3
    exact ⟨_, o1, o2, o3, _, _, p3, _, _, rfl, h1, rfl, rfl, h2, rfl, hp3.symm, by rw [hdec]; exact ⟨h3, rfl⟩⟩
  | some d =>
    obtain ⟨o3, h3⟩ := rh ((gpuFilterSort d p3.1 w.chx w.chy).1, p3.2)
    exact ⟨_, o1, o2, o3, _, _, p3, _, _, rfl, h1, rfl, rfl, h2, rfl, hp3.symm, by rw [hdec]; exact ⟨h3, rfl⟩⟩

/-- Every list of beam layers has a run. -/
theorem gpu_run_exists (c : SCfg) (w : W3) (b0 : ℤ → ℤ → ℝ) (bs : List (ℤ → ℤ → ℝ)) : ∃ r, GpuRun c w b0 bs r := by
  induction bs generalizing w b0 with
  | nil => exact ⟨w, .nil w b0⟩
  | cons b bs ih =>
    obtain ⟨u, hu⟩ := gpu_step_exists c w b b0
    obtain ⟨r, hr⟩ := ih u b
    exact ⟨r, .cons w u r b0 b bs hu hr⟩

/-- C47: a particle that is strictly inside and moves towards the next layer by at most four boundaries is calm: at rest, for example. -/
theorem calm_of_slow (c : SCfg) (w : W3) (h : ∀ p ∈ w.all, p.q = 0 ∨ (StrictlyInside c.m.boundary p ∧ |(moveFree c.m.dxi p).x - p.x| ≤ 4 * c.m.boundary ∧ |(moveFree c.m.dxi p).y - p.y| ≤ 4 * c.m.boundary)) : Calm c w := by
  intro p hp
  refine (h p hp).imp_right fun ⟨h1, h2, h3⟩ => ⟨h1, ?_, ?_⟩
  · have k := (moveFree_kept c.m.dxi p).1.1
    have := h1.1
    unfold Ptl.X at this ⊢
    rw [k]
    rw [abs_lt] at this; rw [abs_le] at h2 ⊢
    constructor <;> linarith
  · have k := (moveFree_kept c.m.dxi p).1.2.1
    have := h1.2
    unfold Ptl.Y at this ⊢
    rw [k]
    rw [abs_lt] at this; rw [abs_le] at h3 ⊢
    constructor <;> linarith

/-- C47: from the initial plasma (background or mobile ions) the first layer of the GPU is the first layer of the CPU, for every beam density: the hypotheses of gpu_step_same hold there. -/
theorem gpu_first_layer (N pad pp : ℕ) (hodd : N % 2 = 1) (hN : 2 * pp ≤ N) (hpp : pad ≤ pp) (hpad : 2 < pad) (f : ℕ) (hf : 1 ≤ f) (dxi h κ ionMass : ℝ) (hh : 0 < h) (coef : ℝ → ℝ → ℝ) (mobile : Bool)
    (el : List Ptl) (hel : el = makePlasmaSingle ((N - 2 * pp : ℕ) : ℤ) h f coef) (b : ℤ → ℤ → ℝ) (r : W3)
    (hr : GpuStep ⟨⟨dxi, h, N, pad⟩, κ, roInitial N h el, none⟩ ⟨el, if mobile then some (mobileIons ionMass el) else none, fun _ _ => 0, fun _ _ => 0, Fields3.zero, (Cur.zero, Cur.zero)⟩ b (fun _ _ => 0) r) :
    SamePlasma ⟨⟨dxi, h, N, pad⟩, κ, roInitial N h el, none⟩ r
      (stepDxi ⟨⟨dxi, h, N, pad⟩, κ, roInitial N h el, none⟩ ⟨el, if mobile then some (mobileIons ionMass el) else none, fun _ _ => 0, fun _ _ => 0, Fields3.zero, (Cur.zero, Cur.zero)⟩ b (fun _ _ => 0)) := by
  have hq := initial_quiet3 N pad pp hN hpp f hf dxi h κ ionMass hh coef none mobile el hel
  have hbd : 0 < MCfg.boundary ⟨dxi, h, N, pad⟩ := by
    unfold MCfg.boundary
    simp only
    apply mul_pos hh
    have : (2 * pad + 1 : ℝ) ≤ N := by exact_mod_cast (by omega : 2 * pad + 1 ≤ N)
    push_cast
    linarith
  refine gpu_step_same _ (by simp only; omega) (by simp only; omega) hh hbd _ _ ⟨rfl, rfl, .refl _ _, ⟨.refl _ _, .refl _ _⟩, by intro d hd; cases hd⟩ ?_ (by intro d hd; cases hd) _ _ _ _ (.refl _ _) (.refl _ _) r hr
  apply calm_of_slow
  intro p hp
  obtain ⟨h1, -, -, h4, h5, -⟩ := hq.rest p hp
  refine h1.imp_right fun h => ⟨h, ?_, ?_⟩ <;> rw [moveFree_rest _ _ ⟨h4, h5⟩] <;> simp only [sub_self, abs_zero] <;> linarith

end Lcode.Plasma3D
