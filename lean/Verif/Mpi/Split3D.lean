import Verif.Mpi.Split2D
import Verif.Mpi.Causality3D

/-!
Property C52, 3D beam and the whole 3D simulation: replacing beam particles by parts.
-/

namespace Lcode.Beam3D

open Lcode.Plasma3D (Fields3 Vec3)

/-! ### Specification -/

/-- The fraction `a` of a beam macroparticle: its charge scaled, everything else the same. -/
noncomputable def Row.part (a : ℝ) (p : Row ℝ) : Row ℝ := { p with qnorm := a * p.qnorm }

/-- A beam particle without its name. -/
def Row.anon (p : Row ℝ) : Row ℝ := { p with id := 0 }

/-- `b'` is the beam `b` with every macroparticle replaced by parts (whatever the parts are called), and reordered. -/
def SplitBeam (b b' : List (Row ℝ)) : Prop := IsSplit Row.part (b.map Row.anon) (b'.map Row.anon)

/-! ### Motion -/

/-- A relabelling of particles that the pusher does not see. -/
structure Unseen (g : Row ℝ → Row ℝ) : Prop where
  xi : ∀ r, (g r).xi = r.xi
  x : ∀ r, (g r).x = r.x
  y : ∀ r, (g r).y = r.y
  pz : ∀ r, (g r).pz = r.pz
  qm : ∀ r, (g r).qm = r.qm
  rem : ∀ r, (g r).remaining = r.remaining
  half : ∀ r, halfPos (g r) = halfPos r
  mom : ∀ r E B, halfMomentum (g r) E B = halfMomentum r E B
  full : ∀ r p, fullStep (g r) p = g (fullStep r p)
  lost : ∀ (r : Row ℝ) (x y xi : ℝ), { g r with x := x, y := y, xi := xi, id := (g r).id * -1, remaining := 0 } = g { r with x := x, y := y, xi := xi, id := r.id * -1, remaining := 0 }
  lost' : ∀ r : Row ℝ, { g r with id := (g r).id * -1, remaining := 0 } = g { r with id := r.id * -1, remaining := 0 }
  next : ∀ (r : Row ℝ) (n : ℤ), { g r with remaining := n } = g { r with remaining := n }
  start : ∀ (r : Row ℝ) (d : ℝ) (n : ℤ), { g r with dt := d, remaining := n } = g { r with dt := d, remaining := n }

theorem unseen_part (a : ℝ) : Unseen (Row.part a) := by constructor <;> intros <;> rfl

theorem unseen_anon : Unseen Row.anon := by constructor <;> intros <;> rfl

/-- What a relabelling does to the result of a turn. -/
def onTurn (g : Row ℝ → Row ℝ) : Turn → Turn
  | .fell => .fell
  | .lost r => .lost (g r)
  | .next r => .next (g r)

theorem turn_unseen {g : Row ℝ → Row ℝ} (hg : Unseen g) (c : BCfg) (idx : ℤ) (F0 F1 : Fields3) (r : Row ℝ) : turn c idx F0 F1 (g r) = onTurn g (turn c idx F0 F1 r) := by
  unfold turn
  rw [hg.half r]
  dsimp only
  rw [hg.mom, hg.full]
  set w := halfPos r
  set r' := fullStep r (halfMomentum r (fieldE3 c (idx * -c.dxi) F0 F1 w) (fieldB3 c (idx * -c.dxi) F0 F1 w))
  by_cases h1 : notInLayer w.z ((idx + 1) * -c.dxi)
  · rw [if_pos h1, if_pos h1]; rfl
  rw [if_neg h1, if_neg h1]
  by_cases h2 : isLost w.x w.y (lostRadius c)
  · rw [if_pos h2, if_pos h2]
    exact congrArg Turn.lost (hg.lost r _ _ _)
  rw [if_neg h2, if_neg h2]
  by_cases h3 : isLost r'.x r'.y (lostRadius c)
  · have h3' : isLost (g r').x (g r').y (lostRadius c) := by rw [hg.x, hg.y]; exact h3
    rw [if_pos h3, if_pos h3']
    exact congrArg Turn.lost (hg.lost' r')
  · have h3' : ¬ isLost (g r').x (g r').y (lostRadius c) := by rw [hg.x, hg.y]; exact h3
    rw [if_neg h3, if_neg h3']
    refine congrArg Turn.next ?_
    rw [hg.rem]
    exact hg.next r' _

theorem pushLoop_unseen {g : Row ℝ → Row ℝ} (hg : Unseen g) (c : BCfg) (idx : ℤ) (F0 F1 : Fields3) (n : ℕ) (r : Row ℝ) :
    pushLoop c idx F0 F1 n (g r) = (g (pushLoop c idx F0 F1 n r).1, (pushLoop c idx F0 F1 n r).2) := by
  induction n generalizing r with
  | zero => rfl
  | succ n ih =>
    simp only [pushLoop, turn_unseen hg]
    rcases turn c idx F0 F1 r with _ | r' | r'
    · rfl
    · rfl
    · exact ih r'

/-- A relabelling of the row of a moved particle. -/
def onMoved (g : Row ℝ → Row ℝ) (m : Moved) : Moved := { m with row := g m.row }

theorem pushRow_unseen {g : Row ℝ → Row ℝ} (hg : Unseen g) (c : BCfg) (idx : ℤ) (F0 F1 : Fields3) (r : Row ℝ) : pushRow c idx F0 F1 (g r) = onMoved g (pushRow c idx F0 F1 r) := by
  unfold pushRow onMoved
  rw [hg.rem, pushLoop_unseen hg]
  dsimp only
  rw [hg.rem, hg.x]

theorem initRow_unseen {g : Row ℝ → Row ℝ} (hg : Unseen g) (ts en : ℝ) (r : Row ℝ) : initRow ts en (g r) = g (initRow ts en r) := by
  unfold initRow
  refine (hg.start r _ _).trans ?_
  rw [hg.qm, hg.pz]

/-! ### Lists -/

theorem SplitBeam.map {l l' : List (Row ℝ)} (h : SplitBeam l l') (f : Row ℝ → Row ℝ) (hf : ∀ g, Unseen g → ∀ t, f (g t) = g (f t)) : SplitBeam (l.map f) (l'.map f) := by
  have e : ∀ m : List (Row ℝ), (m.map f).map Row.anon = (m.map Row.anon).map f := by
    intro m
    rw [List.map_map, List.map_map]
    exact List.map_congr_left fun t _ => (hf _ unseen_anon t).symm
  unfold SplitBeam
  rw [e l, e l']
  exact IsSplit.map h f fun a t _ => hf _ (unseen_part a) t

theorem SplitBeam.perm {l l' m m' : List (Row ℝ)} (h : SplitBeam l l') (h1 : l.Perm m) (h2 : l'.Perm m') : SplitBeam m m' :=
  IsSplit.perm h (h1.map _) (h2.map _)

theorem SplitBeam.append {l l' m m' : List (Row ℝ)} (h : SplitBeam l l') (h' : SplitBeam m m') : SplitBeam (l ++ m) (l' ++ m') := by
  unfold SplitBeam
  rw [List.map_append, List.map_append]
  exact IsSplit.append h h'

theorem SplitBeam.nil : SplitBeam [] [] := IsSplit.nil

theorem SplitBeam.filter {l l' : List (Row ℝ)} (h : SplitBeam l l') (q : Row ℝ → Bool) (hq : ∀ g, Unseen g → ∀ t, q (g t) = q t) : SplitBeam (l.filter q) (l'.filter q) := by
  have e : ∀ m : List (Row ℝ), (m.filter q).map Row.anon = (m.map Row.anon).filter q := by
    intro m
    rw [List.filter_map]
    congr 1
    apply List.filter_congr
    intro t _
    exact (hq _ unseen_anon t).symm
  unfold SplitBeam
  rw [e l, e l']
  exact IsSplit.filter h q fun a t _ => hq _ (unseen_part a) t

/-- The rows, of those chosen by a flag, of a beam pushed by the kernel. -/
theorem SplitBeam.moved {l l' : List (Row ℝ)} (h : SplitBeam l l') (f : Row ℝ → Moved) (hf : ∀ g, Unseen g → ∀ t, f (g t) = onMoved g (f t)) (q : Moved → Bool) (hq : ∀ g m, q (onMoved g m) = q m) :
    SplitBeam (((l.map f).filter q).map Moved.row) (((l'.map f).filter q).map Moved.row) := by
  have e : ∀ m : List (Row ℝ), ((m.map f).filter q).map Moved.row = (m.filter fun t => q (f t)).map fun t => (f t).row := by
    intro m
    rw [List.filter_map, List.map_map]; rfl
  rw [e l, e l']
  refine SplitBeam.map (h.filter _ fun g hg t => ?_) _ fun g hg t => ?_
  · rw [hf g hg, hq]
  · rw [hf g hg]; rfl

/-! ### Charge density -/

theorem SplitBeam.sum {l l' : List (Row ℝ)} (h : SplitBeam l l') (f : Row ℝ → ℝ) (h1 : ∀ p, f p.anon = f p) (h2 : ∀ a p, f (p.part a) = a * f p) : (l'.map f).sum = (l.map f).sum := by
  have e : ∀ m : List (Row ℝ), (m.map f).sum = ((m.map Row.anon).map f).sum := by
    intro m
    rw [List.map_map]
    congr 1
    exact List.map_congr_left fun p _ => (h1 p).symm
  rw [e l, e l']
  exact IsSplit.sum h f fun a p _ => h2 a p

theorem layout_split (c : BCfg) (rho : Grid) (l l' : List (Row ℝ)) (i : ℕ) (h : SplitBeam l l') : layoutBeamLayer c rho l i = layoutBeamLayer c rho l' i := by
  have hd : ∀ o0 o1, depositBeam c i l o0 o1 = depositBeam c i l' o0 o1 := by
    intro o0 o1
    refine Prod.ext ?_ ?_
    · funext a b
      rw [(depositBeam_shape c i l o0 o1 a b).1, (depositBeam_shape c i l' o0 o1 a b).1, h.sum _ (fun _ => rfl) (fun a p => by simp only [Row.part, shape3]; ring)]
    · funext a b
      rw [(depositBeam_shape c i l o0 o1 a b).2, (depositBeam_shape c i l' o0 o1 a b).2, h.sum _ (fun _ => rfl) (fun a p => by simp only [Row.part, shape3]; ring)]
  have e : ∀ m : List (Row ℝ), (if m.length ≠ 0 then depositBeam c i m rho (fun _ _ => 0) else (rho, fun _ _ => 0)) = depositBeam c i m rho (fun _ _ => 0) := by
    intro m
    rcases m with _ | ⟨r, m⟩
    · rfl
    · rw [if_pos (by simp)]
  unfold layoutBeamLayer
  simp only [e]
  rw [hd]

end Lcode.Beam3D

namespace Lcode.Mpi

open Lcode.Beam3D
open Lcode.Beam2D (substepFraction IsArgsort gather)
open Lcode.Plasma3D (Fields3)

variable {σ : Type}

/-- What a relation of plasma states needs: the plasma solver keeps it, and related states have the same fields. -/
structure PlasmaRel3D (env : Env3 σ) (R : σ → σ → Prop) : Prop where
  step : ∀ s s' rho prev, R s s' → R (env.plasma s rho prev) (env.plasma s' rho prev)
  fields : ∀ s s', R s s' → env.fields s = env.fields s'

/-- States of two layer loops: related plasmas, the same densities, the same beam up to splitting. -/
def SplitSt3D (R : σ → σ → Prop) (s s' : St3D σ) : Prop :=
  R s.plasma s'.plasma ∧ s.rhoLayout = s'.rhoLayout ∧ s.rhoPrev = s'.rhoPrev ∧
    ∃ fresh fell fresh' fell', s.toMove = Beam.ofRows (fresh ++ fell) ∧ s.fellSize = fell.length ∧
      s'.toMove = Beam.ofRows (fresh' ++ fell') ∧ s'.fellSize = fell'.length ∧ SplitBeam fresh fresh' ∧ SplitBeam fell fell'

theorem strip_unseen (l l' : List (Row ℝ)) (h : SplitBeam l l') : SplitBeam (l.map strip) (l'.map strip) :=
  h.map strip fun g hg t => (hg.start t 0 0)

theorem layer3D_split (env : Env3 σ) {R : σ → σ → Prop} (hR : PlasmaRel3D env R) (s s' : St3D σ) (j : ℕ) (l l' : List (Row ℝ)) (h : SplitSt3D R s s') (hl : SplitBeam l l') :
    SplitSt3D R (layer3D env s j l).1 (layer3D env s' j l').1 ∧ SplitBeam (layer3D env s j l).2 (layer3D env s' j l').2 := by
  obtain ⟨h1, h2, h3, fresh, fell, fresh', fell', a1, a2, b1, b2, p1, p2⟩ := h
  have hlay : layoutBeamLayer env.cfg s.rhoLayout l j = layoutBeamLayer env.cfg s'.rhoLayout l' j := by
    rw [h2]; exact layout_split env.cfg _ l l' j hl
  have hpl : R (plasma3D env s j l) (plasma3D env s' j l') := by
    unfold plasma3D; rw [hlay, h3]; exact hR.step _ _ _ _ h1
  have e1 := layer3D_rows env s fresh fell a1 a2 j l
  have e2 := layer3D_rows env s' fresh' fell' b1 b2 j l'
  simp only [hR.fields _ _ hpl, hR.fields _ _ h1] at e1
  have hres : ∀ q : Moved → Bool, (∀ g m, q (onMoved g m) = q m) → SplitBeam
      (((moved3D env j (env.fields s'.plasma) (env.fields (plasma3D env s' j l')) fresh fell).filter q).map Moved.row)
      (((moved3D env j (env.fields s'.plasma) (env.fields (plasma3D env s' j l')) fresh' fell').filter q).map Moved.row) := by
    intro q hq
    unfold moved3D
    exact SplitBeam.moved ((p1.map _ fun g hg t => initRow_unseen hg _ _ t).append p2) _ (fun g hg t => pushRow_unseen hg _ _ _ _ t) q hq
  simp only at e2
  rw [e1, e2, hlay]
  refine ⟨⟨hpl, rfl, rfl, l.map strip, _, l'.map strip, _, rfl, rfl, rfl, rfl, strip_unseen l l' hl, hres _ fun _ _ => rfl⟩, ?_⟩
  exact strip_unseen _ _ (hres _ fun _ _ => rfl)

theorem source_split_3D (env : Env3 σ) (argsort : List ℝ → List ℕ) (hs : IsArgsort (· ≤ ·) argsort) (hd : 0 < env.cfg.dxi) (plasma0 plasma0' : ℝ → σ)
    (b b' : List (Row ℝ)) (h : SplitBeam b b') (hb : ∀ p ∈ b, p.xi < 0) (hb' : ∀ p ∈ b', p.xi < 0) (j : ℕ) :
    SplitBeam (srcLayer (world3D env argsort plasma0) ((world3D env argsort plasma0).mkSrc b) j) (srcLayer (world3D env argsort plasma0') ((world3D env argsort plasma0').mkSrc b') j) := by
  refine SplitBeam.perm (strip_unseen _ _ (h.filter (fun p => decide (InLayer env.cfg.dxi j p.xi)) fun g hg t => by simp only [hg.xi])) (source3D env argsort hs hd plasma0 b hb j).symm
    (source3D env argsort hs hd plasma0' b' hb' j).symm

/-- What is finished in a 3D run is behind the window head if the beam is. -/
theorem finished_behind_3D (env : Env3 σ) (argsort : List ℝ → List ℕ) (hs : IsArgsort (· ≤ ·) argsort) (hd : 0 < env.cfg.dxi) (hts : 0 ≤ env.timeStep) (plasma0 : ℝ → σ) (N : ℕ) (dt : ℝ)
    (b : List (Row ℝ)) (hb : ∀ p ∈ b, p.xi < 0) (g : ℕ) : ∀ p ∈ allFinished (world3D env argsort plasma0) N dt g (seqLayers (world3D env argsort plasma0) N dt b g), p.xi < 0 := by
  have hsrc : ∀ b : List (Row ℝ), (∀ p ∈ b, p.xi < 0) → ∀ j, ∀ p ∈ srcLayer (world3D env argsort plasma0) ((world3D env argsort plasma0).mkSrc b) j, p.xi < 0 := by
    intro b hb j q hq
    have := (source3D env argsort hs hd plasma0 b hb j).mem_iff.mp hq
    obtain ⟨q', hq', rfl⟩ := List.mem_map.mp this
    exact hb q' (List.mem_filter.mp hq').1
  have hlay : ∀ g j, ∀ p ∈ seqLayers (world3D env argsort plasma0) N dt b g j, p.xi < 0 := by
    intro g
    induction g with
    | zero => exact hsrc b hb
    | succ g ih =>
      refine hsrc _ fun p hp => ?_
      obtain ⟨j, -, hp⟩ := mem_allFinished hp
      exact (stAt_behind env argsort hts plasma0 (timeOf dt g) _ ih j).2 p hp
  intro p hp
  obtain ⟨j, -, hp⟩ := mem_allFinished hp
  exact (stAt_behind env argsort hts plasma0 (timeOf dt g) _ (hlay g) j).2 p hp

/-- C52, whole 3D simulation: a beam behind the window head whose macroparticles are replaced by parts (and a plasma replaced by a related one) gives, in every time step, the same beam density and the same
fields in every layer, and layer by layer and after every time step the same beam, split. -/
theorem split_run_3D (env : Env3 σ) (argsort : List ℝ → List ℕ) (plasma0 plasma0' : ℝ → σ) {R : σ → σ → Prop} (hR : PlasmaRel3D env R) (h0 : ∀ t, R (plasma0 t) (plasma0' t))
    (hs : IsArgsort (· ≤ ·) argsort) (hd : 0 < env.cfg.dxi) (hts : 0 ≤ env.timeStep) (N : ℕ) (dt : ℝ) (b b' : List (Row ℝ)) (hb : SplitBeam b b') (hneg : ∀ p ∈ b, p.xi < 0) (hneg' : ∀ p ∈ b', p.xi < 0) (g : ℕ) :
    (∀ j, j ≤ N → SplitBeam (seqLayers (world3D env argsort plasma0) N dt b g j) (seqLayers (world3D env argsort plasma0') N dt b' g j)) ∧
    (∀ j, j ≤ N + 1 →
      R (stAt (world3D env argsort plasma0) ((world3D env argsort plasma0).init (timeOf dt g)) (seqLayers (world3D env argsort plasma0) N dt b g) j).plasma
        (stAt (world3D env argsort plasma0') ((world3D env argsort plasma0').init (timeOf dt g)) (seqLayers (world3D env argsort plasma0') N dt b' g) j).plasma ∧
      env.fields (stAt (world3D env argsort plasma0) ((world3D env argsort plasma0).init (timeOf dt g)) (seqLayers (world3D env argsort plasma0) N dt b g) j).plasma =
        env.fields (stAt (world3D env argsort plasma0') ((world3D env argsort plasma0').init (timeOf dt g)) (seqLayers (world3D env argsort plasma0') N dt b' g) j).plasma ∧
      (stAt (world3D env argsort plasma0) ((world3D env argsort plasma0).init (timeOf dt g)) (seqLayers (world3D env argsort plasma0) N dt b g) j).rhoPrev =
        (stAt (world3D env argsort plasma0') ((world3D env argsort plasma0').init (timeOf dt g)) (seqLayers (world3D env argsort plasma0') N dt b' g) j).rhoPrev) ∧
    SplitBeam (allFinished (world3D env argsort plasma0) N dt g (seqLayers (world3D env argsort plasma0) N dt b g)) (allFinished (world3D env argsort plasma0') N dt g (seqLayers (world3D env argsort plasma0') N dt b' g)) := by
  obtain ⟨h1, h2, h3⟩ := run_rel (W := world3D env argsort plasma0) (W' := world3D env argsort plasma0') (LR := SplitBeam) (SR := SplitSt3D R) N dt SplitBeam.nil (fun _ _ _ _ h h' => h.append h')
    (fun b b' => (∀ p ∈ b, p.xi < 0) ∧ ∀ p ∈ b', p.xi < 0)
    (fun b b' h ho j _ => source_split_3D env argsort hs hd plasma0 plasma0' b b' h ho.1 ho.2 j)
    (fun t => ⟨h0 t, rfl, rfl, [], [], [], [], rfl, rfl, rfl, rfl, IsSplit.nil, IsSplit.nil⟩)
    (fun s s' j l l' h hl => layer3D_split env hR s s' j l l' h hl) b b' hb ⟨hneg, hneg'⟩
    (fun g => ⟨finished_behind_3D env argsort hs hd hts plasma0 N dt b hneg g, finished_behind_3D env argsort hs hd hts plasma0' N dt b' hneg' g⟩) g
  exact ⟨h1, fun j hj => ⟨(h2 j hj).1, hR.fields _ _ (h2 j hj).1, (h2 j hj).2.2.1⟩, h3⟩

end Lcode.Mpi
