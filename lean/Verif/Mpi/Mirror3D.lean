import Verif.Mpi.FreeBeam3D
import Verif.Plasma3D.Mirror

/-!
Property C54: up and down are alike in a complete 3D simulation. If plasma, ion background and beam are reflected at y = 0, so is everything the simulation computes, in every layer of every time step.
Left and right are not alike: the beam pusher compares x, where it should compare xi, with the end of the layer.
-/

namespace Lcode.Beam3D

open Lcode.Plasma3D (Fields3 Vec3 my neg2 tr nodeOf bspline4 interpolate node_flip bspline4_even interpolate_mirror stencil_swap)

/-! ### Specification -/

/-- The reflection at y = 0 of a beam particle. -/
def Row.mirrorY (r : Row ℝ) : Row ℝ := { r with y := -r.y, py := -r.py }

/-- The reflection at x = 0 of a beam particle. -/
def Row.mirrorX (r : Row ℝ) : Row ℝ := { r with x := -r.x, px := -r.px }

/-! ### Charge density -/

theorem shape3_mirrorY (c : BCfg) (hN : c.N % 2 = 1) (L : ℕ) (hL : (L : ℤ) = c.N - 1) (p : Row ℝ) (a b : ℤ) : shape3 c p.mirrorY a b = shape3 c p a (L - b) := by
  unfold shape3
  have e : (p.mirrorY.y / c.h - nodeOf c.N b : ℝ) = -(p.y / c.h - nodeOf c.N (L - b)) := by
    rw [node_flip c.N hN L hL]
    show -p.y / c.h - _ = _
    ring
  rw [e, bspline4_even]
  rfl

theorem layout_mirrorY (c : BCfg) (hN : c.N % 2 = 1) (L : ℕ) (hL : (L : ℤ) = c.N - 1) (rho : Grid) (l : List (Row ℝ)) (i : ℕ) :
    layoutBeamLayer c (my L rho) (l.map Row.mirrorY) i = (my L (layoutBeamLayer c rho l i).1, my L (layoutBeamLayer c rho l i).2) := by
  have hd : depositBeam c i (l.map Row.mirrorY) (my L rho) (fun _ _ => 0) = (my L (depositBeam c i l rho (fun _ _ => 0)).1, my L (depositBeam c i l rho (fun _ _ => 0)).2) := by
    refine Prod.ext ?_ ?_
    · funext a b
      rw [(depositBeam_shape c i _ _ _ a b).1]
      show _ = (depositBeam c i l rho (fun _ _ => 0)).1 a (L - b)
      rw [(depositBeam_shape c i _ _ _ a (L - b)).1, List.map_map]
      congr 2
      apply List.map_congr_left
      intro p _
      simp only [Function.comp, shape3_mirrorY c hN L hL]
      rfl
    · funext a b
      rw [(depositBeam_shape c i _ _ _ a b).2]
      show _ = (depositBeam c i l rho (fun _ _ => 0)).2 a (L - b)
      rw [(depositBeam_shape c i _ _ _ a (L - b)).2, List.map_map]
      congr 2
      apply List.map_congr_left
      intro p _
      simp only [Function.comp, shape3_mirrorY c hN L hL]
      rfl
  have e : ∀ (m : List (Row ℝ)) (rho : Grid), (if m.length ≠ 0 then depositBeam c i m rho (fun _ _ => 0) else (rho, fun _ _ => 0)) = depositBeam c i m rho (fun _ _ => 0) := by
    intro m rho
    rcases m with _ | ⟨r, m⟩
    · rfl
    · rw [if_pos (by simp)]
  unfold layoutBeamLayer
  simp only [e]
  rw [hd]
  rfl

/-! ### Motion -/

theorem interpolate_mirrorY (N : ℤ) (hN : N % 2 = 1) (L : ℕ) (hL : (L : ℤ) = N - 1) (X Y : ℝ) (F : ℤ → ℤ → ℝ) :
    interpolate N (X + 1 / 2) (-Y + 1 / 2) (my L F) = interpolate N (X + 1 / 2) (Y + 1 / 2) F := by
  have h := interpolate_mirror N hN L hL Y X (tr F)
  rw [stencil_swap] at h
  rw [← h, ← stencil_swap]
  rfl

theorem interp3_mirrorY (N : ℤ) (hN : N % 2 = 1) (L : ℕ) (hL : (L : ℤ) = N - 1) (X Y s : ℝ) (F0 F1 : ℤ → ℤ → ℝ) :
    interp3 N (X + 1 / 2) (-Y + 1 / 2) s (my L F0) (my L F1) = interp3 N (X + 1 / 2) (Y + 1 / 2) s F0 F1 := by
  rw [interp3_split, interp3_split, interpolate_mirrorY N hN L hL, interpolate_mirrorY N hN L hL]

theorem interp3_neg (N : ℤ) (xh yh s : ℝ) (F0 F1 : ℤ → ℤ → ℝ) : interp3 N xh yh s (neg2 F0) (neg2 F1) = -interp3 N xh yh s F0 F1 := by
  rw [interp3_split, interp3_split, Lcode.Plasma3D.interpolate_neg, Lcode.Plasma3D.interpolate_neg]
  ring

theorem fieldE3_mirrorY (c : BCfg) (hN : c.N % 2 = 1) (L : ℕ) (hL : (L : ℤ) = c.N - 1) (xiK : ℝ) (F0 F1 : Fields3) (w : Vec3) :
    fieldE3 c xiK (F0.mirrorY L) (F1.mirrorY L) ⟨w.x, -w.y, w.z⟩ = ⟨(fieldE3 c xiK F0 F1 w).x, -(fieldE3 c xiK F0 F1 w).y, (fieldE3 c xiK F0 F1 w).z⟩ := by
  unfold fieldE3 Fields3.mirrorY
  dsimp only
  rw [neg_div, interp3_neg, interp3_mirrorY c.N hN L hL, interp3_mirrorY c.N hN L hL, interp3_mirrorY c.N hN L hL]

theorem fieldB3_mirrorY (c : BCfg) (hN : c.N % 2 = 1) (L : ℕ) (hL : (L : ℤ) = c.N - 1) (xiK : ℝ) (F0 F1 : Fields3) (w : Vec3) :
    fieldB3 c xiK (F0.mirrorY L) (F1.mirrorY L) ⟨w.x, -w.y, w.z⟩ = ⟨-(fieldB3 c xiK F0 F1 w).x, (fieldB3 c xiK F0 F1 w).y, -(fieldB3 c xiK F0 F1 w).z⟩ := by
  unfold fieldB3 Fields3.mirrorY
  dsimp only
  rw [neg_div, interp3_neg, interp3_neg, interp3_mirrorY c.N hN L hL, interp3_mirrorY c.N hN L hL, interp3_mirrorY c.N hN L hL]

theorem gammaM_mirrorY (qm : ℝ) (p : Vec3) : gammaM qm ⟨p.x, -p.y, p.z⟩ = gammaM qm p := by
  unfold gammaM; dsimp only; rw [neg_sq]

theorem halfPos_mirrorY (r : Row ℝ) : halfPos r.mirrorY = ⟨(halfPos r).x, -(halfPos r).y, (halfPos r).z⟩ := by
  have hg : gammaM r.qm ⟨r.px, -r.py, r.pz⟩ = gammaM r.qm ⟨r.px, r.py, r.pz⟩ := gammaM_mirrorY r.qm ⟨r.px, r.py, r.pz⟩
  unfold halfPos Row.mirrorY
  dsimp only
  rw [hg]
  congr 1
  ring

theorem halfMomentum_mirrorY (r : Row ℝ) (E B : Vec3) : halfMomentum r.mirrorY ⟨E.x, -E.y, E.z⟩ ⟨-B.x, B.y, -B.z⟩ = ⟨(halfMomentum r E B).x, -(halfMomentum r E B).y, (halfMomentum r E B).z⟩ := by
  have hg : gammaM r.qm ⟨r.px, -r.py, r.pz⟩ = gammaM r.qm ⟨r.px, r.py, r.pz⟩ := gammaM_mirrorY r.qm ⟨r.px, r.py, r.pz⟩
  unfold halfMomentum Row.mirrorY
  dsimp only
  rw [hg, Vec3.mk.injEq]
  refine ⟨?_, ?_, ?_⟩ <;> ring

theorem fullStep_mirrorY (r : Row ℝ) (p : Vec3) : fullStep r.mirrorY ⟨p.x, -p.y, p.z⟩ = (fullStep r p).mirrorY := by
  have hg : gammaM r.qm ⟨p.x, -p.y, p.z⟩ = gammaM r.qm p := gammaM_mirrorY r.qm p
  unfold fullStep
  dsimp only
  rw [show r.mirrorY.qm = r.qm from rfl, hg]
  unfold Row.mirrorY
  dsimp only
  rw [Row.mk.injEq]
  refine ⟨rfl, rfl, ?_, rfl, ?_, rfl, rfl, rfl, rfl, rfl, rfl⟩ <;> ring

theorem turn_mirrorY (c : BCfg) (hN : c.N % 2 = 1) (L : ℕ) (hL : (L : ℤ) = c.N - 1) (idx : ℤ) (F0 F1 : Fields3) (r : Row ℝ) :
    turn c idx (F0.mirrorY L) (F1.mirrorY L) r.mirrorY = onTurn Row.mirrorY (turn c idx F0 F1 r) := by
  unfold turn
  rw [halfPos_mirrorY]
  dsimp only
  rw [fieldE3_mirrorY c hN L hL, fieldB3_mirrorY c hN L hL, halfMomentum_mirrorY, fullStep_mirrorY]
  set w := halfPos r
  set r' := fullStep r (halfMomentum r (fieldE3 c (idx * -c.dxi) F0 F1 w) (fieldB3 c (idx * -c.dxi) F0 F1 w))
  have hl : ∀ x y R : ℝ, isLost x (-y) R = isLost x y R := by intro x y R; unfold isLost; rw [neg_sq]
  rw [hl, show isLost r'.mirrorY.x r'.mirrorY.y (lostRadius c) = isLost r'.x r'.y (lostRadius c) from hl _ _ _]
  by_cases h1 : notInLayer w.z ((idx + 1) * -c.dxi)
  · rw [if_pos h1, if_pos h1]; rfl
  rw [if_neg h1, if_neg h1]
  by_cases h2 : isLost w.x w.y (lostRadius c)
  · rw [if_pos h2, if_pos h2]; rfl
  rw [if_neg h2, if_neg h2]
  by_cases h3 : isLost r'.x r'.y (lostRadius c)
  · rw [if_pos h3, if_pos h3]; rfl
  rw [if_neg h3, if_neg h3]
  rfl

theorem pushLoop_mirrorY (c : BCfg) (hN : c.N % 2 = 1) (L : ℕ) (hL : (L : ℤ) = c.N - 1) (idx : ℤ) (F0 F1 : Fields3) (n : ℕ) (r : Row ℝ) :
    pushLoop c idx (F0.mirrorY L) (F1.mirrorY L) n r.mirrorY = ((pushLoop c idx F0 F1 n r).1.mirrorY, (pushLoop c idx F0 F1 n r).2) := by
  induction n generalizing r with
  | zero => rfl
  | succ n ih =>
    rw [pushLoop, pushLoop, turn_mirrorY c hN L hL]
    cases turn c idx F0 F1 r with
    | fell => rfl
    | lost r' => rfl
    | next r' => exact ih r'

/-- The kernel moves the mirror image as the mirror image of the particle, and puts it on the same pile. -/
theorem pushRow_mirrorY (c : BCfg) (hN : c.N % 2 = 1) (L : ℕ) (hL : (L : ℤ) = c.N - 1) (idx : ℤ) (F0 F1 : Fields3) (r : Row ℝ) :
    pushRow c idx (F0.mirrorY L) (F1.mirrorY L) r.mirrorY = onMoved Row.mirrorY (pushRow c idx F0 F1 r) := by
  unfold pushRow onMoved
  rw [show r.mirrorY.remaining = r.remaining from rfl, pushLoop_mirrorY c hN L hL]
  rfl

end Lcode.Beam3D

namespace Lcode.Mpi

open Lcode.Beam3D
open Lcode.Beam2D (IsArgsort gather gather_map)
open Lcode.Plasma3D (Fields3 my)

/-! ### Runs that stay related, as long as the first of them behaves -/

/-- `run_rel` with a condition on the layers that only has to hold in the first run. -/
theorem run_rel_at {P : Type} {W W' : World ℝ P} {LR : List P → List P → Prop} {SR : W.St → W'.St → Prop} (N : ℕ) (dt : ℝ) (hnil : LR [] []) (happ : ∀ a a' b b', LR a a' → LR b b' → LR (a ++ b) (a' ++ b'))
    (b b' : List P) (hb : LR b b')
    (hsrc : ∀ b b', LR b b' → ∀ j, j ≤ N → LR (srcLayer W (W.mkSrc b) j) (srcLayer W' (W'.mkSrc b') j))
    (hinit : ∀ t, SR (W.init t) (W'.init t)) (G : ℕ)
    (hlayer : ∀ g j, g ≤ G → j ≤ N → ∀ s' l', SR (stAt W (W.init (timeOf dt g)) (seqLayers W N dt b g) j) s' → LR (seqLayers W N dt b g j) l' →
      SR (W.layer (stAt W (W.init (timeOf dt g)) (seqLayers W N dt b g) j) j (seqLayers W N dt b g j)).1 (W'.layer s' j l').1 ∧
      LR (W.layer (stAt W (W.init (timeOf dt g)) (seqLayers W N dt b g) j) j (seqLayers W N dt b g j)).2 (W'.layer s' j l').2) (g : ℕ) (hg : g ≤ G) :
    (∀ j, j ≤ N → LR (seqLayers W N dt b g j) (seqLayers W' N dt b' g j)) ∧
    (∀ j, j ≤ N + 1 → SR (stAt W (W.init (timeOf dt g)) (seqLayers W N dt b g) j) (stAt W' (W'.init (timeOf dt g)) (seqLayers W' N dt b' g) j)) ∧
    LR (allFinished W N dt g (seqLayers W N dt b g)) (allFinished W' N dt g (seqLayers W' N dt b' g)) := by
  have key : ∀ g, g ≤ G → (∀ j, j ≤ N → LR (seqLayers W N dt b g j) (seqLayers W' N dt b' g j)) →
      (∀ j, j ≤ N + 1 → SR (stAt W (W.init (timeOf dt g)) (seqLayers W N dt b g) j) (stAt W' (W'.init (timeOf dt g)) (seqLayers W' N dt b' g) j)) ∧
      LR (allFinished W N dt g (seqLayers W N dt b g)) (allFinished W' N dt g (seqLayers W' N dt b' g)) := by
    intro g hg hl
    have hst : ∀ j, j ≤ N + 1 → SR (stAt W (W.init (timeOf dt g)) (seqLayers W N dt b g) j) (stAt W' (W'.init (timeOf dt g)) (seqLayers W' N dt b' g) j) := by
      intro j
      induction j with
      | zero => intro _; exact hinit _
      | succ j ih => intro hj; exact (hlayer g j hg (by omega) _ _ (ih (by omega)) (hl j (by omega))).1
    refine ⟨hst, ?_⟩
    apply rel_flatten hnil happ
    intro j hj
    rw [List.mem_range] at hj
    exact (hlayer g j hg (by omega) _ _ (hst j (by omega)) (hl j (by omega))).2
  induction g with
  | zero =>
    have h0 : ∀ j, j ≤ N → LR (seqLayers W N dt b 0 j) (seqLayers W' N dt b' 0 j) := fun j hj => hsrc b b' hb j hj
    exact ⟨h0, key 0 hg h0⟩
  | succ g ih =>
    have h0 : ∀ j, j ≤ N → LR (seqLayers W N dt b (g + 1) j) (seqLayers W' N dt b' (g + 1) j) := fun j hj => hsrc _ _ (ih (by omega)).2.2 j hj
    exact ⟨h0, key _ hg h0⟩

/-! ### Symmetries of a 3D simulation -/

variable {σ : Type}

/-- A transformation of beam particles, charge densities, fields and plasma states that the beam part of the 3D layer loop respects. -/
structure BeamSym (env env' : Env3 σ) (f : Row ℝ → Row ℝ) (T : Grid → Grid) (Φ : Fields3 → Fields3) (S : σ → σ) : Prop where
  dxi : env'.cfg.dxi = env.cfg.dxi
  xi : ∀ r, (f r).xi = r.xi
  strip : ∀ r, Mpi.strip (f r) = f (Mpi.strip r)
  start : ∀ r, initRow env'.timeStep env'.energy (f r) = f (initRow env.timeStep env.energy r)
  push : ∀ k F0 F1 r, pushRow env'.cfg k (Φ F0) (Φ F1) (f r) = onMoved f (pushRow env.cfg k F0 F1 r)
  layout : ∀ rho l i, layoutBeamLayer env'.cfg (T rho) (l.map f) i = (T (layoutBeamLayer env.cfg rho l i).1, T (layoutBeamLayer env.cfg rho l i).2)
  zero : T (fun _ _ => 0) = fun _ _ => 0
  fields : ∀ s, env'.fields (S s) = Φ (env.fields s)

/-- The image of a state of the layer loop. -/
def SymSt (f : Row ℝ → Row ℝ) (T : Grid → Grid) (S : σ → σ) (s s' : St3D σ) : Prop :=
  s'.plasma = S s.plasma ∧ s'.rhoLayout = T s.rhoLayout ∧ s'.rhoPrev = T s.rhoPrev ∧
    ∃ fresh fell, s.toMove = Beam.ofRows (fresh ++ fell) ∧ s.fellSize = fell.length ∧ s'.toMove = Beam.ofRows (fresh.map f ++ fell.map f) ∧ s'.fellSize = fell.length

theorem source_sym {env env' : Env3 σ} {f : Row ℝ → Row ℝ} {T : Grid → Grid} {Φ : Fields3 → Fields3} {S : σ → σ} (h : BeamSym env env' f T Φ S) (argsort : List ℝ → List ℕ) (plasma0 plasma0' : ℝ → σ)
    (b : List (Row ℝ)) (j : ℕ) :
    srcLayer (world3D env' argsort plasma0') ((world3D env' argsort plasma0').mkSrc (b.map f)) j = (srcLayer (world3D env argsort plasma0) ((world3D env argsort plasma0).mkSrc b) j).map f := by
  have hstr : ∀ t : List (Row ℝ), (t.map f).map strip = (t.map strip).map f := by
    intro t
    rw [List.map_map, List.map_map]
    exact List.map_congr_left fun r _ => h.strip r
  have hin : ∀ j (t : List (Row ℝ)), inLayer env'.cfg.dxi j (t.map f) = inLayer env.cfg.dxi j t := by
    intro j t
    unfold inLayer
    rw [h.dxi, List.countP_map]
    exact List.countP_congr fun r _ => by simp only [Function.comp, h.xi]
  have hat : ∀ j, ∃ t : List (Row ℝ), srcAt (world3D env argsort plasma0) ((world3D env argsort plasma0).mkSrc b) j = Beam.ofRows t ∧
      srcAt (world3D env' argsort plasma0') ((world3D env' argsort plasma0').mkSrc (b.map f)) j = Beam.ofRows (t.map f) := by
    intro j
    induction j with
    | zero =>
      refine ⟨gather (b.map strip) (argsort ((b.map strip).map fun r => -r.xi)), ?_, ?_⟩
      · show (world3D env argsort plasma0).mkSrc b = _
        rw [mkSrc_rows]
        exact xiSorted_ofRows argsort _
      · show (world3D env' argsort plasma0').mkSrc (b.map f) = _
        rw [mkSrc_rows, hstr]
        refine (xiSorted_ofRows argsort _).trans ?_
        rw [gather_map, List.map_map]
        congr 4
        apply List.map_congr_left
        intro r _
        simp only [Function.comp, h.xi]
    | succ j ih =>
      obtain ⟨t, h1, h2⟩ := ih
      refine ⟨t.drop (inLayer env.cfg.dxi j t), ?_, ?_⟩
      · show (getBeamLayerToLayout env.cfg.dxi (srcAt (world3D env argsort plasma0) ((world3D env argsort plasma0).mkSrc b) j) j).2 = _
        rw [h1, getBeamLayer_ofRows]
      · show (getBeamLayerToLayout env'.cfg.dxi (srcAt (world3D env' argsort plasma0') ((world3D env' argsort plasma0').mkSrc (b.map f)) j) j).2 = _
        rw [h2, getBeamLayer_ofRows, hin, List.map_drop]
  obtain ⟨t, h1, h2⟩ := hat j
  show particles3 (getBeamLayerToLayout env'.cfg.dxi (srcAt (world3D env' argsort plasma0') ((world3D env' argsort plasma0').mkSrc (b.map f)) j) j).1 =
    (particles3 (getBeamLayerToLayout env.cfg.dxi (srcAt (world3D env argsort plasma0) ((world3D env argsort plasma0).mkSrc b) j) j).1).map f
  rw [h1, h2, getBeamLayer_ofRows, getBeamLayer_ofRows, hin]
  unfold particles3
  rw [rows_ofRows, rows_ofRows, ← List.map_take, hstr]

theorem layer_sym {env env' : Env3 σ} {f : Row ℝ → Row ℝ} {T : Grid → Grid} {Φ : Fields3 → Fields3} {S : σ → σ} (h : BeamSym env env' f T Φ S) (s s' : St3D σ) (j : ℕ) (l : List (Row ℝ)) (hs : SymSt f T S s s')
    (hp : env'.plasma (S s.plasma) (T (layoutBeamLayer env.cfg s.rhoLayout l j).1) (T s.rhoPrev) = S (env.plasma s.plasma (layoutBeamLayer env.cfg s.rhoLayout l j).1 s.rhoPrev)) :
    SymSt f T S (layer3D env s j l).1 (layer3D env' s' j (l.map f)).1 ∧ (layer3D env' s' j (l.map f)).2 = (layer3D env s j l).2.map f := by
  obtain ⟨h1, h2, h3, fresh, fell, a1, a2, b1, b2⟩ := hs
  have hstr : ∀ t : List (Row ℝ), (t.map f).map strip = (t.map strip).map f := by
    intro t
    rw [List.map_map, List.map_map]
    exact List.map_congr_left fun r _ => h.strip r
  have hlay : layoutBeamLayer env'.cfg s'.rhoLayout (l.map f) j = (T (layoutBeamLayer env.cfg s.rhoLayout l j).1, T (layoutBeamLayer env.cfg s.rhoLayout l j).2) := by rw [h2]; exact h.layout _ _ _
  have hpl : plasma3D env' s' j (l.map f) = S (plasma3D env s j l) := by
    unfold plasma3D; rw [hlay, h1, h3]; exact hp
  have e1 := layer3D_rows env s fresh fell a1 a2 j l
  have e2 := layer3D_rows env' s' (fresh.map f) (fell.map f) b1 (by rw [b2, List.length_map]) j (l.map f)
  simp only at e1 e2
  have hmv : moved3D env' j (env'.fields s'.plasma) (env'.fields (plasma3D env' s' j (l.map f))) (fresh.map f) (fell.map f) =
      (moved3D env j (env.fields s.plasma) (env.fields (plasma3D env s j l)) fresh fell).map (onMoved f) := by
    unfold moved3D
    rw [hpl, h1, h.fields, h.fields]
    have hi : (fresh.map f).map (initRow env'.timeStep env'.energy) = (fresh.map (initRow env.timeStep env.energy)).map f := by
      rw [List.map_map, List.map_map]; exact List.map_congr_left fun r _ => h.start r
    rw [hi, ← List.map_append, List.map_map, List.map_map]
    exact List.map_congr_left fun r _ => h.push _ _ _ r
  have hflt : ∀ (m : List Moved) (q : Moved → Bool), (∀ m, q (onMoved f m) = q m) → ((m.map (onMoved f)).filter q).map Moved.row = ((m.filter q).map Moved.row).map f := by
    intro m q hq
    rw [List.filter_map, List.map_map, List.map_map]
    have : q ∘ onMoved f = q := funext hq
    rw [this]
    rfl
  rw [hmv, hflt _ Moved.fell (fun _ => rfl), hflt _ Moved.moved (fun _ => rfl), hstr] at e2
  rw [e1, e2, hlay, hpl]
  refine ⟨⟨rfl, rfl, rfl, l.map strip, _, rfl, rfl, ?_, ?_⟩, ?_⟩
  · rfl
  · simp only [List.length_map]
  · exact hstr _

/-- What an iteration does to the plasma, in terms of the particles received. -/
theorem layer3D_plasma (env : Env3 σ) (s : St3D σ) (j : ℕ) (ps : List (Row ℝ)) :
    (layer3D env s j ps).1.rhoPrev = (layoutBeamLayer env.cfg s.rhoLayout ps j).1 ∧ (layer3D env s j ps).1.plasma = plasma3D env s j ps := by
  have hl : layoutBeamLayer env.cfg s.rhoLayout (Beam.initGenerated ps).rows j = layoutBeamLayer env.cfg s.rhoLayout ps j := by
    apply layout_congr
    rw [initGenerated_ofRows, rows_ofRows, map_strip_strip]
  unfold layer3D plasma3D
  constructor
  · exact congrArg Prod.fst hl
  · show env.plasma s.plasma (layoutBeamLayer env.cfg s.rhoLayout (Beam.initGenerated ps).rows j).1 s.rhoPrev = _
    rw [hl]

/-- A symmetry of the beam part that is also one of the plasma solver, in the layers of the run up to the time step `G`, carries the whole run over. -/
theorem run_sym {env env' : Env3 σ} {f : Row ℝ → Row ℝ} {T : Grid → Grid} {Φ : Fields3 → Fields3} {S : σ → σ} (h : BeamSym env env' f T Φ S) (argsort : List ℝ → List ℕ) (plasma0 plasma0' : ℝ → σ)
    (h0 : ∀ t, plasma0' t = S (plasma0 t)) (N : ℕ) (dt : ℝ) (b : List (Row ℝ)) (G : ℕ)
    (hp : ∀ g j, g ≤ G → j ≤ N →
      env'.plasma (S (stAt (world3D env argsort plasma0) ((world3D env argsort plasma0).init (timeOf dt g)) (seqLayers (world3D env argsort plasma0) N dt b g) j).plasma)
        (T (stAt (world3D env argsort plasma0) ((world3D env argsort plasma0).init (timeOf dt g)) (seqLayers (world3D env argsort plasma0) N dt b g) (j + 1)).rhoPrev)
        (T (stAt (world3D env argsort plasma0) ((world3D env argsort plasma0).init (timeOf dt g)) (seqLayers (world3D env argsort plasma0) N dt b g) j).rhoPrev) =
      S (stAt (world3D env argsort plasma0) ((world3D env argsort plasma0).init (timeOf dt g)) (seqLayers (world3D env argsort plasma0) N dt b g) (j + 1)).plasma) (g : ℕ) (hg : g ≤ G) :
    (∀ j, j ≤ N → seqLayers (world3D env' argsort plasma0') N dt (b.map f) g j = (seqLayers (world3D env argsort plasma0) N dt b g j).map f) ∧
    (∀ j, j ≤ N + 1 → SymSt f T S (stAt (world3D env argsort plasma0) ((world3D env argsort plasma0).init (timeOf dt g)) (seqLayers (world3D env argsort plasma0) N dt b g) j)
      (stAt (world3D env' argsort plasma0') ((world3D env' argsort plasma0').init (timeOf dt g)) (seqLayers (world3D env' argsort plasma0') N dt (b.map f) g) j)) ∧
    allFinished (world3D env' argsort plasma0') N dt g (seqLayers (world3D env' argsort plasma0') N dt (b.map f) g) =
      (allFinished (world3D env argsort plasma0) N dt g (seqLayers (world3D env argsort plasma0) N dt b g)).map f := by
  refine run_rel_at (W := world3D env argsort plasma0) (W' := world3D env' argsort plasma0') (LR := fun l l' => l' = l.map f) (SR := SymSt f T S) N dt rfl
    (fun a a' b b' h1 h2 => by rw [h1, h2, List.map_append]) b (b.map f) rfl (fun b b' hb j _ => by rw [hb]; exact source_sym h argsort plasma0 plasma0' b j)
    (fun t => ⟨h0 t, h.zero.symm, h.zero.symm, [], [], rfl, rfl, rfl, rfl⟩) G ?_ g hg
  intro g j hg hj s' l' hs hl
  rw [hl]
  have hq := hp g j hg hj
  have e := layer3D_plasma env (stAt (world3D env argsort plasma0) ((world3D env argsort plasma0).init (timeOf dt g)) (seqLayers (world3D env argsort plasma0) N dt b g) j) j (seqLayers (world3D env argsort plasma0) N dt b g j)
  refine layer_sym h _ s' j _ hs ?_
  have e1 := e.1
  have e2 := e.2
  unfold plasma3D at e2
  rw [← e1]
  rw [← e1] at e2
  rw [← e2]
  exact hq

end Lcode.Mpi
