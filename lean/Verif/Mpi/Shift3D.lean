import Verif.Mpi.Shift2D
import Verif.Mpi.Split3D
import Verif.Mpi.FreeBeam3D

/-!
Translation of a 3D simulation along xi (C60): a beam moved back by a whole number of layers in a window longer by as many layers. In 3D the pusher compares the transverse coordinate x of a finished particle with the border of
the layer (beam3d/move.py:122-125), which depends on where the layer is in the window: a finished particle is held back while x is below the border, and may be dropped at the end of the window. So the translation is exact
up to the particles held back, and fails when one of them is dropped.
-/

namespace Lcode.Beam3D

open Lcode.Plasma3D (Fields3 Vec3)

/-- A particle moved back by the distance `d`. -/
def Row.shift (d : ℝ) (r : Row ℝ) : Row ℝ := { r with xi := r.xi - d }

theorem halfPos_shift (d : ℝ) (r : Row ℝ) : halfPos (r.shift d) = ⟨(halfPos r).x, (halfPos r).y, (halfPos r).z - d⟩ := by
  unfold halfPos Row.shift
  simp only [Vec3.mk.injEq, true_and]
  ring

theorem turn_shift (c : BCfg) (k : ℕ) (idx : ℤ) (F0 F1 : Fields3) (r : Row ℝ) :
    turn c (idx + k) F0 F1 (r.shift (k * c.dxi)) = onTurn (Row.shift (k * c.dxi)) (turn c idx F0 F1 r) := by
  unfold turn
  rw [halfPos_shift]
  dsimp only
  set w := halfPos r with hw
  have eb : (((idx + k : ℤ) : ℝ) + 1) * -c.dxi = ((idx : ℝ) + 1) * -c.dxi - k * c.dxi := by push_cast; ring
  have es : w.z - k * c.dxi - ((idx + k : ℤ) : ℝ) * -c.dxi = w.z - (idx : ℝ) * -c.dxi := by push_cast; ring
  have eE : fieldE3 c (((idx + k : ℤ) : ℝ) * -c.dxi) F0 F1 ⟨w.x, w.y, w.z - k * c.dxi⟩ = fieldE3 c ((idx : ℝ) * -c.dxi) F0 F1 w := by
    unfold fieldE3; simp only [es]
  have eB : fieldB3 c (((idx + k : ℤ) : ℝ) * -c.dxi) F0 F1 ⟨w.x, w.y, w.z - k * c.dxi⟩ = fieldB3 c ((idx : ℝ) * -c.dxi) F0 F1 w := by
    unfold fieldB3; simp only [es]
  rw [eE, eB]
  have em : ∀ E B, halfMomentum (r.shift (k * c.dxi)) E B = halfMomentum r E B := fun _ _ => rfl
  have ef : ∀ p, fullStep (r.shift (k * c.dxi)) p = (fullStep r p).shift (k * c.dxi) := by
    intro p
    unfold fullStep Row.shift gammaM
    simp only [Row.mk.injEq, true_and, and_true]
    ring
  rw [em, ef]
  set r' := fullStep r (halfMomentum r (fieldE3 c (idx * -c.dxi) F0 F1 w) (fieldB3 c (idx * -c.dxi) F0 F1 w))
  have hn : notInLayer (w.z - k * c.dxi) ((((idx + k : ℤ) : ℝ) + 1) * -c.dxi) ↔ notInLayer w.z (((idx : ℝ) + 1) * -c.dxi) := by
    unfold notInLayer; rw [eb]; constructor <;> intro h <;> linarith
  by_cases h1 : notInLayer w.z (((idx : ℝ) + 1) * -c.dxi)
  · rw [if_pos (hn.mpr h1), if_pos h1]; rfl
  rw [if_neg (mt hn.mp h1), if_neg h1]
  by_cases h2 : isLost w.x w.y (lostRadius c)
  · rw [if_pos h2, if_pos h2]; rfl
  rw [if_neg h2, if_neg h2]
  by_cases h3 : isLost r'.x r'.y (lostRadius c)
  · have h3' : isLost (r'.shift (k * c.dxi)).x (r'.shift (k * c.dxi)).y (lostRadius c) := h3
    rw [if_pos h3, if_pos h3']; rfl
  · have h3' : ¬ isLost (r'.shift (k * c.dxi)).x (r'.shift (k * c.dxi)).y (lostRadius c) := h3
    rw [if_neg h3, if_neg h3']; rfl

theorem pushLoop_shift (c : BCfg) (k : ℕ) (idx : ℤ) (F0 F1 : Fields3) (n : ℕ) (r : Row ℝ) :
    pushLoop c (idx + k) F0 F1 n (r.shift (k * c.dxi)) = ((pushLoop c idx F0 F1 n r).1.shift (k * c.dxi), (pushLoop c idx F0 F1 n r).2) := by
  induction n generalizing r with
  | zero => rfl
  | succ n ih =>
    simp only [pushLoop, turn_shift]
    rcases turn c idx F0 F1 r with _ | r' | r'
    · rfl
    · rfl
    · exact ih r'

theorem initRow_shift (d ts en : ℝ) (r : Row ℝ) : initRow ts en (r.shift d) = (initRow ts en r).shift d := rfl

theorem pushLoop_id (c : BCfg) (idx : ℤ) (F0 F1 : Fields3) (n : ℕ) (r : Row ℝ) :
    ((pushLoop c idx F0 F1 n r).2.1 = false → (pushLoop c idx F0 F1 n r).1.id = r.id) ∧
    ((pushLoop c idx F0 F1 n r).2.1 = true → (pushLoop c idx F0 F1 n r).1.id = -r.id ∧ (pushLoop c idx F0 F1 n r).1.remaining = 0) := by
  induction n generalizing r with
  | zero => exact ⟨fun _ => rfl, fun h => by simp [pushLoop] at h⟩
  | succ n ih =>
    simp only [pushLoop]
    have ht : (∀ r', turn c idx F0 F1 r = .lost r' → r'.id = -r.id ∧ r'.remaining = 0) ∧ ∀ r', turn c idx F0 F1 r = .next r' → r'.id = r.id := by
      unfold turn
      dsimp only
      set r'' := fullStep r (halfMomentum r (fieldE3 c (idx * -c.dxi) F0 F1 (halfPos r)) (fieldB3 c (idx * -c.dxi) F0 F1 (halfPos r))) with hr
      have hid : r''.id = r.id := rfl
      split_ifs
      · exact ⟨fun _ h => by simp at h, fun _ h => by simp at h⟩
      · refine ⟨fun r' h => ?_, fun _ h => by simp at h⟩
        rw [Turn.lost.injEq] at h; subst h; exact ⟨by simp, rfl⟩
      · refine ⟨fun r' h => ?_, fun _ h => by simp at h⟩
        rw [Turn.lost.injEq] at h; subst h; exact ⟨by simp [hid], rfl⟩
      · refine ⟨fun _ h => by simp at h, fun r' h => ?_⟩
        rw [Turn.next.injEq] at h; subst h; exact hid
    rcases h : turn c idx F0 F1 r with _ | r' | r'
    · exact ⟨fun _ => rfl, fun h => by simp at h⟩
    · exact ⟨fun h => by simp at h, fun _ => ht.1 r' h⟩
    · rw [← ht.2 r' h]; exact ih r'

/-- What the kernel says about a particle moved back by `k` layers, `k` layers further back: the same motion and the same losses, but it may be released where the other one is held back. -/
theorem pushRow_shift (c : BCfg) (hd : 0 < c.dxi) (k : ℕ) (idx : ℤ) (F0 F1 : Fields3) (r : Row ℝ) :
    (pushRow c (idx + k) F0 F1 (r.shift (k * c.dxi))).row = (pushRow c idx F0 F1 r).row.shift (k * c.dxi) ∧
    (pushRow c (idx + k) F0 F1 (r.shift (k * c.dxi))).lost = (pushRow c idx F0 F1 r).lost ∧
    ((pushRow c (idx + k) F0 F1 (r.shift (k * c.dxi))).fell = true → (pushRow c idx F0 F1 r).fell = true) ∧
    ((pushRow c idx F0 F1 r).fell = true → (pushRow c (idx + k) F0 F1 (r.shift (k * c.dxi))).fell = false → (pushRow c idx F0 F1 r).row.remaining = 0) := by
  have hrem : (r.shift (k * c.dxi)).remaining = r.remaining := rfl
  unfold pushRow
  rw [hrem, pushLoop_shift]
  dsimp only
  set o := pushLoop c idx F0 F1 r.remaining.toNat r
  have e1 : (o.1.shift (k * c.dxi)).remaining = o.1.remaining := rfl
  have e2 : (o.1.shift (k * c.dxi)).x = o.1.x := rfl
  have hb : notInLayer o.1.x ((((idx + k : ℤ) : ℝ) + 1) * -c.dxi) → notInLayer o.1.x (((idx : ℝ) + 1) * -c.dxi) := by
    unfold notInLayer
    intro h
    have : (0 : ℝ) ≤ k * c.dxi := by positivity
    push_cast at h
    nlinarith
  rw [e1, e2]
  refine ⟨rfl, rfl, ?_, ?_⟩
  · by_cases h : o.1.remaining = 0 ∧ notInLayer o.1.x (((idx : ℝ) + 1) * -c.dxi)
    · rw [if_pos h]; exact fun _ => rfl
    · rw [if_neg h, if_neg fun h' => h ⟨h'.1, hb h'.2⟩]; exact id
  · by_cases h : o.1.remaining = 0 ∧ notInLayer o.1.x (((idx : ℝ) + 1) * -c.dxi)
    · exact fun _ _ => h.1
    · rw [if_neg h, if_neg fun h' => h ⟨h'.1, hb h'.2⟩]
      intro a b
      rw [a] at b; simp at b

theorem pushRow_flags (c : BCfg) (idx : ℤ) (F0 F1 : Fields3) (r : Row ℝ) :
    ((pushRow c idx F0 F1 r).moved = true ↔ (pushRow c idx F0 F1 r).fell = false ∧ (pushRow c idx F0 F1 r).lost = false) ∧
    ((pushRow c idx F0 F1 r).lost = false → (pushRow c idx F0 F1 r).row.id = r.id) ∧
    ((pushRow c idx F0 F1 r).lost = true → (pushRow c idx F0 F1 r).row.id = -r.id ∧ (pushRow c idx F0 F1 r).row.remaining = 0) := by
  obtain ⟨h1, h2⟩ := pushLoop_id c idx F0 F1 r.remaining.toNat r
  refine ⟨?_, h1, h2⟩
  unfold pushRow
  dsimp only
  split_ifs <;> simp_all

theorem layout_shift (c : BCfg) (rho : Grid) (k : ℕ) (l l' : List (Row ℝ)) (i : ℕ) (h : (l.map (Row.shift (k * c.dxi))).Perm l') :
    layoutBeamLayer c rho l i = layoutBeamLayer c rho l' (i + k) := by
  have hd : ∀ o0 o1, depositBeam c i l o0 o1 = depositBeam c (i + k) l' o0 o1 := by
    intro o0 o1
    have q : ∀ p : Row ℝ, layerXi c (i + k) - (p.shift (k * c.dxi)).xi = layerXi c i - p.xi := fun p => by simp only [Row.shift, layerXi]; push_cast; ring
    have q2 : ∀ p : Row ℝ, (p.shift (k * c.dxi)).qnorm = p.qnorm := fun p => rfl
    have q3 : ∀ (p : Row ℝ) a b, shape3 c (p.shift (k * c.dxi)) a b = shape3 c p a b := fun p _ _ => rfl
    refine Prod.ext ?_ ?_
    · funext a b
      rw [(depositBeam_shape c i l o0 o1 a b).1, (depositBeam_shape c (i + k) l' o0 o1 a b).1, ← (h.map _).sum_eq]
      simp only [List.map_map, Function.comp_def, q, q2, q3]
    · funext a b
      rw [(depositBeam_shape c i l o0 o1 a b).2, (depositBeam_shape c (i + k) l' o0 o1 a b).2, ← (h.map _).sum_eq]
      simp only [List.map_map, Function.comp_def, q, q2, q3]
  have hlen : l.length = l'.length := by simpa using h.length_eq
  unfold layoutBeamLayer
  simp only [hd, hlen]

theorem inLayer_shift (h : ℝ) (k j : ℕ) (x : ℝ) : InLayer h (j + k) (x - k * h) ↔ InLayer h j x := by
  unfold InLayer
  push_cast
  constructor
  · rintro ⟨a, b⟩; exact ⟨by linarith, by linarith⟩
  · rintro ⟨a, b⟩; exact ⟨by linarith, by linarith⟩

end Lcode.Beam3D

namespace Lcode.Mpi

open Lcode.Beam3D
open Lcode.Beam2D (substepFraction IsArgsort gather)
open Lcode.Plasma3D (Fields3)

variable {σ : Type}

theorem filter_split {α : Type} (L : List α) (p q r : α → Bool) (h : ∀ t ∈ L, p t = true ↔ q t = true ∨ r t = true) (hd : ∀ t ∈ L, ¬ (q t = true ∧ r t = true)) : (L.filter p).Perm (L.filter q ++ L.filter r) := by
  induction L with
  | nil => exact List.Perm.refl _
  | cons t L ih =>
    have h1 := h t (by simp)
    have h2 := hd t (by simp)
    have ih := ih (fun t ht => h t (by simp [ht])) fun t ht => hd t (by simp [ht])
    cases hq : q t <;> cases hr : r t <;> simp only [hq, hr, Bool.false_eq_true, or_self, or_true, true_or, and_self, not_true, iff_true, iff_false, or_false, false_or] at h1 h2
    · rw [List.filter_cons_of_neg h1, List.filter_cons_of_neg (by simp [hq]), List.filter_cons_of_neg (by simp [hr])]; exact ih
    · rw [List.filter_cons_of_pos h1, List.filter_cons_of_neg (by simp [hq]), List.filter_cons_of_pos hr]
      exact (ih.cons t).trans List.perm_middle.symm
    · rw [List.filter_cons_of_pos h1, List.filter_cons_of_pos hq, List.filter_cons_of_neg (by simp [hr])]; exact ih.cons t

/-- The particles held back before a layer although their time step is complete: those of the particles not moved further that have no substeps left. -/
noncomputable def heldBack (s : St3D σ) : List (Row ℝ) := (s.toMove.rows.drop (s.toMove.rows.length - s.fellSize)).filter fun r => decide (r.remaining = 0)

theorem heldBack_rows (s : St3D σ) (fresh fell : List (Row ℝ)) (h1 : s.toMove = Beam.ofRows (fresh ++ fell)) (h2 : s.fellSize = fell.length) : heldBack s = fell.filter fun r => decide (r.remaining = 0) := by
  unfold heldBack
  rw [h1, rows_ofRows, h2, List.length_append, Nat.add_sub_cancel, List.drop_left]

theorem flags_moved : ∀ a b c : Bool, (b = true → a = true) → (a = true → c = false) → ((b = false ∧ c = false) ↔ (a = false ∧ c = false) ∨ (a && !b) = true) := by decide

theorem flags_fell : ∀ a b : Bool, (b = true → a = true) → (a = true ↔ b = true ∨ (a && !b) = true) := by decide

/-- States of two layer loops: alike plasmas, the same densities; the particles being moved are the same, moved back, except for the particles held back in the first run only, which are finished in the second run. -/
structure ShiftSt3D (d : ℝ) (R : σ → σ → Prop) (s s' : St3D σ) (outs outs' : List (Row ℝ)) : Prop where
  plasma : R s.plasma s'.plasma
  layout : s.rhoLayout = s'.rhoLayout
  prev : s.rhoPrev = s'.rhoPrev
  rows : ∃ fresh fell fresh' fell' common held, s.toMove = Beam.ofRows (fresh ++ fell) ∧ s.fellSize = fell.length ∧ s'.toMove = Beam.ofRows (fresh' ++ fell') ∧ s'.fellSize = fell'.length ∧
    (fresh.map (Row.shift d)).Perm fresh' ∧ fell.Perm (common ++ held) ∧ (common.map (Row.shift d)).Perm fell' ∧ (∀ r ∈ held, r.remaining = 0) ∧ (∀ r ∈ fresh ++ fell, 0 < r.id) ∧
    ((outs ++ held.map strip).map (Row.shift d)).Perm outs' ∧ ∀ r ∈ outs, 0 < r.id

theorem layer3D_shift (env : Env3 σ) (hd : 0 < env.cfg.dxi) (k : ℕ) {R : σ → σ → Prop} (hR : PlasmaRel3D env R) (s s' : St3D σ) (outs outs' : List (Row ℝ)) (j : ℕ) (l l' : List (Row ℝ))
    (h : ShiftSt3D (k * env.cfg.dxi) R s s' outs outs') (hl : (l.map (Row.shift (k * env.cfg.dxi))).Perm l') (hid : ∀ r ∈ l, 0 < r.id) (hheld : ∀ r ∈ heldBack (layer3D env s j l).1, 0 < r.id) :
    ShiftSt3D (k * env.cfg.dxi) R (layer3D env s j l).1 (layer3D env s' (j + k) l').1 (outs ++ (layer3D env s j l).2) (outs' ++ (layer3D env s' (j + k) l').2) := by
  obtain ⟨h1, h2, h3, fresh, fell, fresh', fell', common, held, a1, a2, b1, b2, p1, p2, p3, p4, p5, p6, p7⟩ := h
  set d := (k : ℝ) * env.cfg.dxi with hdd
  have hlay : layoutBeamLayer env.cfg s.rhoLayout l j = layoutBeamLayer env.cfg s'.rhoLayout l' (j + k) := by
    rw [h2]; exact layout_shift env.cfg _ k l l' j hl
  have hpl : R (plasma3D env s j l) (plasma3D env s' (j + k) l') := by
    unfold plasma3D; rw [hlay, h3]; exact hR.step _ _ _ _ h1
  have e1 := layer3D_rows env s fresh fell a1 a2 j l
  have e2 := layer3D_rows env s' fresh' fell' b1 b2 (j + k) l'
  simp only [hR.fields _ _ hpl, hR.fields _ _ h1] at e1
  simp only at e2
  set F0 := env.fields s'.plasma
  set F1 := env.fields (plasma3D env s' (j + k) l')
  set f : Row ℝ → Moved := pushRow env.cfg ((j : ℤ) - 1) F0 F1 with hf
  set f' : Row ℝ → Moved := fun t => pushRow env.cfg (((j + k : ℕ) : ℤ) - 1) F0 F1 (t.shift d) with hf'
  set L := fresh.map (initRow env.timeStep env.energy) ++ common with hL
  have sh : ∀ t, (f' t).row = (f t).row.shift d ∧ (f' t).lost = (f t).lost ∧ ((f' t).fell = true → (f t).fell = true) ∧ ((f t).fell = true → (f' t).fell = false → (f t).row.remaining = 0) := by
    intro t
    have := pushRow_shift env.cfg hd k ((j : ℤ) - 1) F0 F1 t
    have e : ((j : ℤ) - 1) + k = (((j + k : ℕ) : ℤ) - 1) := by push_cast; ring
    rw [e] at this
    exact this
  have fl := fun t => pushRow_flags env.cfg ((j : ℤ) - 1) F0 F1 t
  have fl' := fun t => pushRow_flags env.cfg (((j + k : ℕ) : ℤ) - 1) F0 F1 (Row.shift d t)
  -- the moved particles
  have hm : moved3D env j F0 F1 fresh fell = (fresh.map (initRow env.timeStep env.energy) ++ fell).map f := rfl
  have hmp : (moved3D env j F0 F1 fresh fell).Perm ((L ++ held).map f) := by
    rw [hm, hL, List.append_assoc]
    exact (List.Perm.append_left _ p2).map _
  have hmp' : (moved3D env (j + k) F0 F1 fresh' fell').Perm (L.map f') := by
    unfold moved3D
    have : (fresh'.map (initRow env.timeStep env.energy) ++ fell').Perm (L.map (Row.shift d)) := by
      rw [hL, List.map_append, List.map_map]
      refine List.Perm.append ?_ p3.symm
      have := p1.symm.map (initRow env.timeStep env.energy)
      rw [List.map_map] at this
      exact this
    refine (this.map _).trans ?_
    rw [List.map_map]
    exact List.Perm.refl _
  have sel : ∀ (q : Moved → Bool) (g : Row ℝ → Moved) (t : List (Row ℝ)), ((t.map g).filter q).map Moved.row = (t.filter fun r => q (g r)).map fun r => (g r).row := by
    intro q g t; rw [List.filter_map, List.map_map]; rfl
  -- what falls behind in the first run
  have hfellP : (((moved3D env j F0 F1 fresh fell).filter Moved.fell).map Moved.row).Perm ((L.filter fun r => (f r).fell).map (fun r => (f r).row) ++ (held.filter fun r => (f r).fell).map fun r => (f r).row) := by
    refine ((hmp.filter _).map _).trans ?_
    rw [sel, List.filter_append, List.map_append]
  have hmovP : (((moved3D env j F0 F1 fresh fell).filter Moved.moved).map Moved.row).Perm ((L.filter fun r => (f r).moved).map (fun r => (f r).row) ++ (held.filter fun r => (f r).moved).map fun r => (f r).row) := by
    refine ((hmp.filter _).map _).trans ?_
    rw [sel, List.filter_append, List.map_append]
  have hfellP' : (((moved3D env (j + k) F0 F1 fresh' fell').filter Moved.fell).map Moved.row).Perm ((L.filter fun r => (f' r).fell).map fun r => (f r).row.shift d) := by
    refine ((hmp'.filter _).map _).trans ?_
    rw [sel]
    exact List.Perm.of_eq (List.map_congr_left fun t _ => (sh t).1)
  have hmovP' : (((moved3D env (j + k) F0 F1 fresh' fell').filter Moved.moved).map Moved.row).Perm ((L.filter fun r => (f' r).moved).map fun r => (f r).row.shift d) := by
    refine ((hmp'.filter _).map _).trans ?_
    rw [sel]
    exact List.Perm.of_eq (List.map_congr_left fun t _ => (sh t).1)
  -- the particles held back
  have hhb : heldBack (layer3D env s j l).1 = (((moved3D env j F0 F1 fresh fell).filter Moved.fell).map Moved.row).filter fun r => decide (r.remaining = 0) :=
    heldBack_rows _ (l.map strip) _ (by rw [e1]) (by rw [e1])
  have hLid : ∀ t ∈ L, 0 < t.id := by
    intro t ht
    rcases List.mem_append.mp ht with ht | ht
    · obtain ⟨t0, ht0, rfl⟩ := List.mem_map.mp ht
      exact p5 t0 (List.mem_append_left _ ht0)
    · exact p5 t (List.mem_append_right _ (p2.mem_iff.mpr (List.mem_append_left _ ht)))
  have hheldW : ∀ t ∈ held, (f t).row = t ∧ (f t).lost = false ∧ ((f t).moved = true ↔ ¬ (f t).fell = true) := by
    intro t ht
    obtain ⟨w1, w2, w3, w4⟩ := push_waiting env.cfg ((j : ℤ) - 1) F0 F1 t (p4 t ht)
    refine ⟨w1, w2, ?_⟩
    rw [w3, w4, not_lt]
  have nolost : ∀ t ∈ L, (f t).fell = true → (f t).lost = false := by
    intro t ht hfe
    by_contra hlo
    rw [Bool.not_eq_false] at hlo
    obtain ⟨i1, i2⟩ := (fl t).2.2 hlo
    have hmem : (f t).row ∈ heldBack (layer3D env s j l).1 := by
      rw [hhb, List.mem_filter]
      refine ⟨hfellP.mem_iff.mpr (List.mem_append_left _ (List.mem_map.mpr ⟨t, List.mem_filter.mpr ⟨ht, hfe⟩, rfl⟩)), by simpa using i2⟩
    have := hheld _ hmem
    have := hLid t ht
    have i1' : (f t).row.id = -t.id := i1
    omega
  set new := L.filter fun t => (f t).fell && !(f' t).fell with hnew
  have mvsplit : (L.filter fun r => (f' r).moved).Perm ((L.filter fun r => (f r).moved) ++ new) := by
    apply filter_split
    · intro t ht
      have g1 := (fl t).1
      have g2 := (fl' t).1
      have s2 := (sh t).2.1
      have s3 := (sh t).2.2.1
      have g3 := nolost t ht
      change (f t).moved = true ↔ (f t).fell = false ∧ (f t).lost = false at g1
      change (f' t).moved = true ↔ (f' t).fell = false ∧ (f' t).lost = false at g2
      rw [g1, g2, s2]
      exact flags_moved _ _ _ s3 g3
    · intro t ht
      have g1 := (fl t).1
      change (f t).moved = true ↔ (f t).fell = false ∧ (f t).lost = false at g1
      rw [g1]
      rintro ⟨⟨h1, -⟩, h2⟩
      rw [h1] at h2; exact Bool.false_ne_true h2
  have fesplit : (L.filter fun r => (f r).fell).Perm ((L.filter fun r => (f' r).fell) ++ new) := by
    apply filter_split
    · intro t ht
      exact flags_fell _ _ (sh t).2.2.1
    · rintro t ht ⟨h1, h2⟩
      rw [h1] at h2
      simp only [Bool.not_true, Bool.and_false, Bool.false_eq_true] at h2
  have hesplit : held.Perm ((held.filter fun r => (f r).moved) ++ held.filter fun r => (f r).fell) := by
    have := filter_split held (fun _ => true) (fun r => (f r).moved) (fun r => (f r).fell) (fun t ht => by
      rw [(hheldW t ht).2.2]; simp only [true_iff]; exact (em ((f t).fell = true)).symm) (fun t ht => by rw [(hheldW t ht).2.2]; tauto)
    rwa [List.filter_true] at this
  have hmapW : ∀ q : Row ℝ → Bool, (held.filter q).map (fun r => (f r).row) = held.filter q := by
    intro q
    conv_rhs => rw [← List.map_id (held.filter q)]
    exact List.map_congr_left fun t ht => (hheldW t (List.mem_filter.mp ht).1).1
  rw [hmapW] at hfellP hmovP
  rw [e1, e2, hlay]
  refine ⟨hpl, rfl, rfl, l.map strip, _, l'.map strip, _, (L.filter fun r => (f' r).fell).map (fun r => (f r).row), new.map (fun r => (f r).row) ++ held.filter (fun r => (f r).fell), rfl, rfl, rfl, rfl, ?_, ?_, ?_, ?_, ?_, ?_, ?_⟩
  · rw [List.map_map]
    have := hl.map strip
    rw [List.map_map] at this
    exact this
  · refine hfellP.trans ?_
    rw [← List.append_assoc, ← List.map_append]
    exact (fesplit.map _).append_right _
  · rw [List.map_map]
    exact hfellP'.symm
  · intro r hr
    rcases List.mem_append.mp hr with hr | hr
    · obtain ⟨t, ht, rfl⟩ := List.mem_map.mp hr
      obtain ⟨-, ht2⟩ := List.mem_filter.mp ht
      simp only [Bool.and_eq_true, Bool.not_eq_true'] at ht2
      exact (sh t).2.2.2 ht2.1 ht2.2
    · exact p4 r (List.mem_filter.mp hr).1
  · intro r hr
    rcases List.mem_append.mp hr with hr | hr
    · obtain ⟨t, ht, rfl⟩ := List.mem_map.mp hr
      exact hid t ht
    · rcases List.mem_append.mp (hfellP.mem_iff.mp hr) with hr | hr
      · obtain ⟨t, ht, rfl⟩ := List.mem_map.mp hr
        obtain ⟨ht1, ht2⟩ := List.mem_filter.mp ht
        have := (fl t).2.1 (nolost t ht1 ht2)
        change (f t).row.id = t.id at this
        rw [this]
        exact hLid t ht1
      · exact p5 r (List.mem_append_right _ (p2.mem_iff.mpr (List.mem_append_right _ (List.mem_filter.mp hr).1)))
  · -- the slices finished so far
    have q1 : (((((moved3D env (j + k) F0 F1 fresh' fell').filter Moved.moved).map Moved.row).map strip)).Perm
        (((((L.filter fun r => (f r).moved) ++ new).map fun r => (f r).row).map strip).map (Row.shift d)) := by
      refine (hmovP'.map strip).trans ?_
      refine ((mvsplit.map _).map _).trans (List.Perm.of_eq ?_)
      simp only [List.map_map]
      rfl
    refine List.Perm.trans ?_ (List.Perm.append p6 q1.symm)
    rw [← List.map_append]
    refine List.Perm.map _ ?_
    have q2 := hmovP.map strip
    have q3 := hesplit.map strip
    simp only [List.map_append] at q2 q3 ⊢
    refine ((List.Perm.append_left outs q2).append_right _).trans ?_
    refine List.Perm.trans ?_ ((List.Perm.append_left outs q3.symm).append_right _)
    refine List.perm_iff_count.mpr fun a => ?_
    simp only [List.count_append]
    omega
  · intro r hr
    rcases List.mem_append.mp hr with hr | hr
    · exact p7 r hr
    · obtain ⟨t, ht, rfl⟩ := List.mem_map.mp hr
      rcases List.mem_append.mp (hmovP.mem_iff.mp ht) with ht | ht
      · obtain ⟨t0, ht0, rfl⟩ := List.mem_map.mp ht
        obtain ⟨ht1, ht2⟩ := List.mem_filter.mp ht0
        have := (fl t0).2.1 ((fl t0).1.mp ht2).2
        change (f t0).row.id = t0.id at this
        show 0 < (f t0).row.id
        rw [this]; exact hLid t0 ht1
      · exact p5 t (List.mem_append_right _ (p2.mem_iff.mpr (List.mem_append_right _ (List.mem_filter.mp ht).1)))

theorem range_snoc {α : Type} (f : ℕ → List α) (j : ℕ) : ((List.range (j + 1)).map f).flatten = ((List.range j).map f).flatten ++ f j := by
  rw [List.range_succ, List.map_append, List.flatten_append]; simp

theorem layout_nil_3D (c : BCfg) (j : ℕ) : layoutBeamLayer c (fun _ _ => 0) ([] : List (Row ℝ)) j = (fun _ _ => 0, fun _ _ => 0) := by
  unfold layoutBeamLayer
  simp only [List.length_nil, ne_eq, not_true_eq_false, if_false, zero_div]

/-- One time step whose layers are moved back by `k`. -/
theorem step_shift_3D (env : Env3 σ) (argsort : List ℝ → List ℕ) (w0 : σ) (hd : 0 < env.cfg.dxi) {R : σ → σ → Prop} (hR : PlasmaRel3D env R) (h0 : R w0 w0) (hempty : ∀ s, R w0 s → R w0 (env.plasma s (fun _ _ => 0) fun _ _ => 0))
    (N k : ℕ) (dt : ℝ) (g : ℕ) (inp inp' : ℕ → List (Row ℝ)) (hin0 : ∀ j, j < k → inp' j = []) (hin : ∀ j, j ≤ N → ((inp j).map (Row.shift (k * env.cfg.dxi))).Perm (inp' (j + k))) (hid : ∀ j, j ≤ N → ∀ r ∈ inp j, 0 < r.id)
    (hheld : ∀ j, j ≤ N + 1 → ∀ r ∈ heldBack (stAt (world3D env argsort fun _ => w0) ((world3D env argsort fun _ => w0).init (timeOf dt g)) inp j), 0 < r.id) :
    (∀ j, j ≤ k → R w0 (stAt (world3D env argsort fun _ => w0) ((world3D env argsort fun _ => w0).init (timeOf dt g)) inp' j).plasma ∧
      (stAt (world3D env argsort fun _ => w0) ((world3D env argsort fun _ => w0).init (timeOf dt g)) inp' j).rhoPrev = fun _ _ => 0) ∧
    ∀ j, j ≤ N + 1 → ShiftSt3D (k * env.cfg.dxi) R (stAt (world3D env argsort fun _ => w0) ((world3D env argsort fun _ => w0).init (timeOf dt g)) inp j)
      (stAt (world3D env argsort fun _ => w0) ((world3D env argsort fun _ => w0).init (timeOf dt g)) inp' (j + k))
      ((List.range j).map (finished (world3D env argsort fun _ => w0) dt g inp)).flatten ((List.range (j + k)).map (finished (world3D env argsort fun _ => w0) dt g inp')).flatten := by
  set W := world3D env argsort fun _ => w0 with hW
  have hlayer : ∀ s j l, W.layer s j l = layer3D env s j l := fun _ _ _ => rfl
  have idle : ∀ j, j ≤ k → R w0 (stAt W (W.init (timeOf dt g)) inp' j).plasma ∧ (stAt W (W.init (timeOf dt g)) inp' j).rhoPrev = (fun _ _ => 0) ∧ (stAt W (W.init (timeOf dt g)) inp' j).rhoLayout = (fun _ _ => 0) ∧
      (stAt W (W.init (timeOf dt g)) inp' j).toMove = Beam.ofRows ([] ++ []) ∧ (stAt W (W.init (timeOf dt g)) inp' j).fellSize = 0 ∧ ((List.range j).map (finished W dt g inp')).flatten = [] := by
    intro j
    induction j with
    | zero => intro _; exact ⟨h0, rfl, rfl, rfl, rfl, rfl⟩
    | succ j ih =>
      intro hj
      obtain ⟨i1, i2, i3, i4, i5, i6⟩ := ih (by omega)
      have e := layer3D_rows env (stAt W (W.init (timeOf dt g)) inp' j) [] [] i4 i5 j []
      have hm : ∀ F0 F1, moved3D env j F0 F1 [] [] = [] := fun _ _ => rfl
      have hp : plasma3D env (stAt W (W.init (timeOf dt g)) inp' j) j [] = env.plasma (stAt W (W.init (timeOf dt g)) inp' j).plasma (fun _ _ => 0) fun _ _ => 0 := by
        unfold plasma3D; rw [i3, i2, layout_nil_3D]
      rw [hp, i3, layout_nil_3D] at e
      simp only [hm, List.filter_nil, List.map_nil, List.length_nil] at e
      have hst : stAt W (W.init (timeOf dt g)) inp' (j + 1) = (layer3D env (stAt W (W.init (timeOf dt g)) inp' j) j []).1 := by
        show (W.layer _ j (inp' j)).1 = _
        rw [hin0 j (by omega)]; rfl
      rw [hst, e]
      refine ⟨hempty _ i1, rfl, rfl, rfl, rfl, ?_⟩
      rw [range_snoc, i6]
      show [] ++ (W.layer _ j (inp' j)).2 = []
      rw [hin0 j (by omega), hlayer, e]; rfl
  refine ⟨fun j hj => ⟨(idle j hj).1, (idle j hj).2.1⟩, ?_⟩
  intro j
  induction j with
  | zero =>
    intro _
    obtain ⟨i1, i2, i3, i4, i5, i6⟩ := idle k le_rfl
    rw [Nat.zero_add, i6]
    exact ⟨i1, i3.symm, i2.symm, [], [], [], [], [], [], rfl, rfl, i4, i5, List.Perm.refl _, List.Perm.refl _, List.Perm.refl _, by simp, by simp, List.Perm.refl _, by simp⟩
  | succ j ih =>
    intro hj
    rw [show j + 1 + k = (j + k) + 1 by omega, range_snoc, range_snoc]
    exact layer3D_shift env hd k hR _ _ _ _ j (inp j) (inp' (j + k)) (ih (by omega)) (hin j (by omega)) (hid j (by omega)) (hheld (j + 1) hj)

theorem source_shift_3D (env : Env3 σ) (argsort : List ℝ → List ℕ) (hs : IsArgsort (· ≤ ·) argsort) (hd : 0 < env.cfg.dxi) (plasma0 : ℝ → σ) (k : ℕ) (b b' : List (Row ℝ)) (h : (b.map (Row.shift (k * env.cfg.dxi))).Perm b')
    (hneg : ∀ p ∈ b, p.xi < 0) :
    (∀ j, j < k → srcLayer (world3D env argsort plasma0) ((world3D env argsort plasma0).mkSrc b') j = []) ∧
    ∀ j, ((srcLayer (world3D env argsort plasma0) ((world3D env argsort plasma0).mkSrc b) j).map (Row.shift (k * env.cfg.dxi))).Perm (srcLayer (world3D env argsort plasma0) ((world3D env argsort plasma0).mkSrc b') (j + k)) := by
  have hneg' : ∀ p ∈ b', p.xi < -(k * env.cfg.dxi) := by
    intro p hp
    obtain ⟨q, hq, rfl⟩ := List.mem_map.mp (h.mem_iff.mpr hp)
    have := hneg q hq
    show q.xi - k * env.cfg.dxi < _
    linarith
  have hk0 : 0 ≤ (k : ℝ) * env.cfg.dxi := by positivity
  have hn' : ∀ p ∈ b', p.xi < 0 := fun p hp => by have := hneg' p hp; linarith
  constructor
  · intro j hj
    have hsrc := source3D env argsort hs hd plasma0 b' hn' j
    have : b'.filter (fun p => decide (InLayer env.cfg.dxi j p.xi)) = [] := by
      rw [List.filter_eq_nil_iff]
      intro p hp
      have h1 := hneg' p hp
      simp only [decide_eq_true_eq]
      rintro ⟨h2, -⟩
      have : (j : ℝ) + 1 ≤ k := by exact_mod_cast hj
      have := mul_le_mul_of_nonneg_right this hd.le
      linarith
    rw [this] at hsrc
    exact hsrc.eq_nil
  · intro j
    have h1 := source3D env argsort hs hd plasma0 b hneg j
    have h2 := source3D env argsort hs hd plasma0 b' hn' (j + k)
    refine ((h1.map _).trans ?_).trans (((h.filter _).map strip).trans h2.symm)
    rw [List.filter_map, List.map_map, List.map_map]
    refine List.Perm.of_eq ?_
    have e : ∀ p : Row ℝ, InLayer env.cfg.dxi (j + k) (p.shift (k * env.cfg.dxi)).xi ↔ InLayer env.cfg.dxi j p.xi := fun p => Lcode.Beam3D.inLayer_shift _ k j p.xi
    simp only [Function.comp_def, e]
    rfl

/-- C60, 3D, with any plasma. The beam moved back by `k` layers in a window longer by `k` layers. If the plasma is not changed by empty layers, and in the first run no particle that hit the wall is held back and no particle
is held back at the end of an earlier time step (and so dropped): then in time step `g` the first `k` layers of the second run are empty, layer `j + k` of the second run receives the beam of layer `j` of the first run moved back,
with the same beam density and alike plasma states; and the beam after the time step is the beam of the first run moved back, with the particles held back at the end counted in. -/
theorem shift_run_3D (env : Env3 σ) (argsort : List ℝ → List ℕ) (hs : IsArgsort (· ≤ ·) argsort) (w0 : σ) (hd : 0 < env.cfg.dxi) (hts : 0 ≤ env.timeStep) {R : σ → σ → Prop} (hR : PlasmaRel3D env R) (h0 : R w0 w0)
    (hempty : ∀ s, R w0 s → R w0 (env.plasma s (fun _ _ => 0) fun _ _ => 0)) (N k : ℕ) (dt : ℝ) (b b' : List (Row ℝ)) (hb : (b.map (Row.shift (k * env.cfg.dxi))).Perm b') (hneg : ∀ p ∈ b, p.xi < 0) (hid : ∀ p ∈ b, 0 < p.id) (g : ℕ)
    (hheld : ∀ g', g' ≤ g → ∀ j, j ≤ N + 1 → ∀ r ∈ heldBack (stAt (world3D env argsort fun _ => w0) ((world3D env argsort fun _ => w0).init (timeOf dt g')) (seqLayers (world3D env argsort fun _ => w0) N dt b g') j), 0 < r.id)
    (hkept : ∀ g', g' < g → heldBack (stAt (world3D env argsort fun _ => w0) ((world3D env argsort fun _ => w0).init (timeOf dt g')) (seqLayers (world3D env argsort fun _ => w0) N dt b g') (N + 1)) = []) :
    (∀ j, j < k → seqLayers (world3D env argsort fun _ => w0) (N + k) dt b' g j = []) ∧
    (∀ j, j ≤ N → ((seqLayers (world3D env argsort fun _ => w0) N dt b g j).map (Row.shift (k * env.cfg.dxi))).Perm (seqLayers (world3D env argsort fun _ => w0) (N + k) dt b' g (j + k))) ∧
    (∀ j, j ≤ k → R w0 (stAt (world3D env argsort fun _ => w0) ((world3D env argsort fun _ => w0).init (timeOf dt g)) (seqLayers (world3D env argsort fun _ => w0) (N + k) dt b' g) j).plasma ∧
      (stAt (world3D env argsort fun _ => w0) ((world3D env argsort fun _ => w0).init (timeOf dt g)) (seqLayers (world3D env argsort fun _ => w0) (N + k) dt b' g) j).rhoPrev = fun _ _ => 0) ∧
    (∀ j, j ≤ N + 1 →
      R (stAt (world3D env argsort fun _ => w0) ((world3D env argsort fun _ => w0).init (timeOf dt g)) (seqLayers (world3D env argsort fun _ => w0) N dt b g) j).plasma
        (stAt (world3D env argsort fun _ => w0) ((world3D env argsort fun _ => w0).init (timeOf dt g)) (seqLayers (world3D env argsort fun _ => w0) (N + k) dt b' g) (j + k)).plasma ∧
      (stAt (world3D env argsort fun _ => w0) ((world3D env argsort fun _ => w0).init (timeOf dt g)) (seqLayers (world3D env argsort fun _ => w0) N dt b g) j).rhoPrev =
        (stAt (world3D env argsort fun _ => w0) ((world3D env argsort fun _ => w0).init (timeOf dt g)) (seqLayers (world3D env argsort fun _ => w0) (N + k) dt b' g) (j + k)).rhoPrev) ∧
    ((allFinished (world3D env argsort fun _ => w0) N dt g (seqLayers (world3D env argsort fun _ => w0) N dt b g) ++
        (heldBack (stAt (world3D env argsort fun _ => w0) ((world3D env argsort fun _ => w0).init (timeOf dt g)) (seqLayers (world3D env argsort fun _ => w0) N dt b g) (N + 1))).map strip).map (Row.shift (k * env.cfg.dxi))).Perm
      (allFinished (world3D env argsort fun _ => w0) (N + k) dt g (seqLayers (world3D env argsort fun _ => w0) (N + k) dt b' g) ++
        (heldBack (stAt (world3D env argsort fun _ => w0) ((world3D env argsort fun _ => w0).init (timeOf dt g)) (seqLayers (world3D env argsort fun _ => w0) (N + k) dt b' g) (N + 1 + k))).map strip) ∧
    (heldBack (stAt (world3D env argsort fun _ => w0) ((world3D env argsort fun _ => w0).init (timeOf dt g)) (seqLayers (world3D env argsort fun _ => w0) N dt b g) (N + 1)) = [] →
      ((allFinished (world3D env argsort fun _ => w0) N dt g (seqLayers (world3D env argsort fun _ => w0) N dt b g)).map (Row.shift (k * env.cfg.dxi))).Perm
        (allFinished (world3D env argsort fun _ => w0) (N + k) dt g (seqLayers (world3D env argsort fun _ => w0) (N + k) dt b' g))) ∧
    ∀ p ∈ allFinished (world3D env argsort fun _ => w0) N dt g (seqLayers (world3D env argsort fun _ => w0) N dt b g), 0 < p.id := by
  have hbehind := finished_behind_3D env argsort hs hd hts (fun _ => w0) N dt b hneg
  set W := world3D env argsort fun _ => w0 with hW
  have hsrc : ∀ b b' : List (Row ℝ), (b.map (Row.shift (k * env.cfg.dxi))).Perm b' → (∀ p ∈ b, p.xi < 0) →
      (∀ j, j < k → srcLayer W (W.mkSrc b') j = []) ∧ ∀ j, ((srcLayer W (W.mkSrc b) j).map (Row.shift (k * env.cfg.dxi))).Perm (srcLayer W (W.mkSrc b') (j + k)) :=
    fun b b' h hn => source_shift_3D env argsort hs hd _ k b b' h hn
  have hsid : ∀ b : List (Row ℝ), (∀ p ∈ b, p.xi < 0) → (∀ p ∈ b, 0 < p.id) → ∀ j, ∀ p ∈ srcLayer W (W.mkSrc b) j, 0 < p.id := by
    intro b hn hi j p hp
    have := (source3D env argsort hs hd (fun _ => w0) b hn j).mem_iff.mp hp
    obtain ⟨q, hq, rfl⟩ := List.mem_map.mp this
    exact hi q (List.mem_filter.mp hq).1
  have key : ∀ g, (∀ j, j < k → seqLayers W (N + k) dt b' g j = []) → (∀ j, j ≤ N → ((seqLayers W N dt b g j).map (Row.shift (k * env.cfg.dxi))).Perm (seqLayers W (N + k) dt b' g (j + k))) →
      (∀ j, j ≤ N → ∀ r ∈ seqLayers W N dt b g j, 0 < r.id) → (∀ j, j ≤ N + 1 → ∀ r ∈ heldBack (stAt W (W.init (timeOf dt g)) (seqLayers W N dt b g) j), 0 < r.id) →
      (∀ j, j ≤ k → R w0 (stAt W (W.init (timeOf dt g)) (seqLayers W (N + k) dt b' g) j).plasma ∧ (stAt W (W.init (timeOf dt g)) (seqLayers W (N + k) dt b' g) j).rhoPrev = fun _ _ => 0) ∧
      (∀ j, j ≤ N + 1 → R (stAt W (W.init (timeOf dt g)) (seqLayers W N dt b g) j).plasma (stAt W (W.init (timeOf dt g)) (seqLayers W (N + k) dt b' g) (j + k)).plasma ∧
        (stAt W (W.init (timeOf dt g)) (seqLayers W N dt b g) j).rhoPrev = (stAt W (W.init (timeOf dt g)) (seqLayers W (N + k) dt b' g) (j + k)).rhoPrev) ∧
      ((allFinished W N dt g (seqLayers W N dt b g) ++ (heldBack (stAt W (W.init (timeOf dt g)) (seqLayers W N dt b g) (N + 1))).map strip).map (Row.shift (k * env.cfg.dxi))).Perm
        (allFinished W (N + k) dt g (seqLayers W (N + k) dt b' g) ++ (heldBack (stAt W (W.init (timeOf dt g)) (seqLayers W (N + k) dt b' g) (N + 1 + k))).map strip) ∧
      (heldBack (stAt W (W.init (timeOf dt g)) (seqLayers W N dt b g) (N + 1)) = [] →
        ((allFinished W N dt g (seqLayers W N dt b g)).map (Row.shift (k * env.cfg.dxi))).Perm (allFinished W (N + k) dt g (seqLayers W (N + k) dt b' g))) ∧
      ∀ p ∈ allFinished W N dt g (seqLayers W N dt b g), 0 < p.id := by
    intro g k1 k2 k3 k4
    obtain ⟨s1, s2⟩ := step_shift_3D env argsort w0 hd hR h0 hempty N k dt g (seqLayers W N dt b g) (seqLayers W (N + k) dt b' g) k1 k2 k3 k4
    have hend := s2 (N + 1) le_rfl
    rw [show N + 1 + k = (N + k) + 1 by omega] at hend ⊢
    obtain ⟨-, -, -, fresh, fell, fresh', fell', common, held, a1, a2, b1, b2, p1, p2, p3, p4, p5, p6, p7⟩ := hend
    have hh := heldBack_rows _ _ _ a1 a2
    have hh' := heldBack_rows _ _ _ b1 b2
    have hfall : ∀ l : List (Row ℝ), (∀ r ∈ l, r.remaining = 0) → (l.filter fun r => decide (r.remaining = 0)) = l := by
      intro l hl
      rw [List.filter_eq_self]
      intro r hr; simpa using hl r hr
    have c1 : (heldBack (stAt W (W.init (timeOf dt g)) (seqLayers W N dt b g) (N + 1))).Perm ((common.filter fun r => decide (r.remaining = 0)) ++ held) := by
      rw [hh]
      refine (p2.filter _).trans ?_
      rw [List.filter_append, hfall held p4]
    have c2 : (heldBack (stAt W (W.init (timeOf dt g)) (seqLayers W (N + k) dt b' g) (N + k + 1))).Perm ((common.filter fun r => decide (r.remaining = 0)).map (Row.shift (k * env.cfg.dxi))) := by
      rw [hh']
      refine (p3.symm.filter _).trans ?_
      rw [List.filter_map]
      exact List.Perm.refl _
    refine ⟨s1, fun j hj => ⟨(s2 j hj).plasma, (s2 j hj).prev⟩, ?_, ?_, p7⟩
    · have c2' := c2.map strip
      refine List.Perm.trans ?_ (List.Perm.append p6 c2'.symm)
      have e : ((common.filter fun r => decide (r.remaining = 0)).map (Row.shift (k * env.cfg.dxi))).map strip = ((common.filter fun r => decide (r.remaining = 0)).map strip).map (Row.shift (k * env.cfg.dxi)) := by
        rw [List.map_map, List.map_map]; rfl
      rw [e, ← List.map_append]
      refine List.Perm.map _ ?_
      have c1' := c1.map strip
      rw [List.map_append] at c1'
      rw [List.append_assoc]
      exact List.Perm.append_left _ (c1'.trans List.perm_append_comm)
    · intro hnil
      rw [hnil] at c1
      have : held = [] := by
        have := c1.symm.eq_nil
        exact (List.append_eq_nil_iff.mp this).2
      rw [this, List.map_nil, List.append_nil] at p6
      exact p6
  induction g with
  | zero =>
    have k1 := (hsrc b b' hb hneg).1
    have k2 : ∀ j, j ≤ N → ((seqLayers W N dt b 0 j).map (Row.shift (k * env.cfg.dxi))).Perm (seqLayers W (N + k) dt b' 0 (j + k)) := fun j _ => (hsrc b b' hb hneg).2 j
    exact ⟨k1, k2, key 0 k1 k2 (fun j _ => hsid b hneg hid j) (hheld 0 le_rfl)⟩
  | succ g ih =>
    obtain ⟨-, -, -, -, -, hfin, hids⟩ := ih (fun g' hg' => hheld g' (by omega)) (fun g' hg' => hkept g' (by omega))
    have hfin := hfin (hkept g (by omega))
    have k1 := (hsrc _ _ hfin (hbehind g)).1
    have k2 : ∀ j, j ≤ N → ((seqLayers W N dt b (g + 1) j).map (Row.shift (k * env.cfg.dxi))).Perm (seqLayers W (N + k) dt b' (g + 1) (j + k)) := fun j _ => (hsrc _ _ hfin (hbehind g)).2 j
    exact ⟨k1, k2, key (g + 1) k1 k2 (fun j _ => hsid _ (hbehind g) hids j) (hheld (g + 1) le_rfl)⟩

/-! ### Complete simulations -/

/-- Plasma states that differ at most in how the charges and currents are shared between the two sorts. -/
structure Alike3 (w w' : Plasma3D.W3) : Prop where
  el : w.el = w'.el
  ions : w.ions = w'.ions
  chx : w.chx = w'.chx
  chy : w.chy = w'.chy
  fields : w.F = w'.F
  cur : Plasma3D.Cur.total w.cur = Plasma3D.Cur.total w'.cur

theorem stepDxi_alike3 (c : Plasma3D.SCfg) (w w' : Plasma3D.W3) (h : Alike3 w w') (bFull bPrev : ℤ → ℤ → ℝ) : Plasma3D.stepDxi c w bFull bPrev = Plasma3D.stepDxi c w' bFull bPrev := by
  obtain ⟨el, ions, chx, chy, F, cur⟩ := w
  obtain ⟨el', ions', chx', chy', F', cur'⟩ := w'
  obtain ⟨h1, h2, h3, h4, h5, h6⟩ := h
  dsimp only at h1 h2 h3 h4 h5 h6
  subst h1 h2 h3 h4 h5
  have hc : ∀ F Fp curF, Plasma3D.computeFields c.f F Fp bFull bPrev cur curF = Plasma3D.computeFields c.f F Fp bFull bPrev cur' curF := by
    intro F Fp curF
    unfold Plasma3D.computeFields
    rw [h6]
  have hp : Plasma3D.predictor c ⟨el, ions, chx, chy, F, cur⟩ bFull bPrev = Plasma3D.predictor c ⟨el, ions, chx, chy, F, cur'⟩ bFull bPrev := by
    unfold Plasma3D.predictor
    simp only [hc]
    rfl
  unfold Plasma3D.stepDxi
  rw [hp]
  rfl

theorem alike_plasma3 (c : Plasma3D.SCfg) (timeStep energy : ℝ) : PlasmaRel3D (sim3 c timeStep energy) Alike3 where
  step s s' rho prev h := by
    show Alike3 (Plasma3D.stepDxi c s rho prev) (Plasma3D.stepDxi c s' rho prev)
    rw [stepDxi_alike3 c s s' h]
    exact ⟨rfl, rfl, rfl, rfl, rfl, rfl⟩
  fields s s' h := h.fields

/-- C60 for complete 3D simulations, the plasma being at rest at first (as the initialization makes it), with or without declustering. The beam `b'` is the beam `b` moved back by `k` layers, and its window is longer by `k` layers.
Suppose that in the first run no particle that hit the wall is held back, and no finished particle is still held back when an earlier time step ends. Then in time step `g` of the second run the first `k` layers contain no beam, no
beam density and no fields; layer `j + k` contains the beam of layer `j` of the first run, moved back, with the same beam density, the same fields and the same plasma particles; and, if no particle is held back when the time step
ends, the beam after the time step is the beam of the first run moved back. -/
theorem shift_simulation_3D (c : Plasma3D.SCfg) (hdc : ∀ d, c.decl = some d → d.lim ≠ 0) (hx : 0 < c.m.dxi) (timeStep energy : ℝ) (hts : 0 ≤ timeStep) (argsort : List ℝ → List ℕ) (hs : IsArgsort (· ≤ ·) argsort)
    (N k : ℕ) (dt : ℝ) (w : Plasma3D.W3) (hw : Plasma3D.Quiet3 c w) (b b' : List (Row ℝ)) (hb : (b.map (Row.shift (k * c.m.dxi))).Perm b') (hneg : ∀ p ∈ b, p.xi < 0) (hid : ∀ p ∈ b, 0 < p.id) (g : ℕ)
    (hheld : ∀ g', g' ≤ g → ∀ j, j ≤ N + 1 → ∀ r ∈ heldBack (stAt (world3D (sim3 c timeStep energy) argsort fun _ => w) ((world3D (sim3 c timeStep energy) argsort fun _ => w).init (timeOf dt g')) (seqLayers (world3D (sim3 c timeStep energy) argsort fun _ => w) N dt b g') j), 0 < r.id)
    (hkept : ∀ g', g' < g → heldBack (stAt (world3D (sim3 c timeStep energy) argsort fun _ => w) ((world3D (sim3 c timeStep energy) argsort fun _ => w).init (timeOf dt g')) (seqLayers (world3D (sim3 c timeStep energy) argsort fun _ => w) N dt b g') (N + 1)) = []) :
    (∀ j, j < k → seqLayers (world3D (sim3 c timeStep energy) argsort fun _ => w) (N + k) dt b' g j = []) ∧
    (∀ j, j ≤ k → (stAt (world3D (sim3 c timeStep energy) argsort fun _ => w) ((world3D (sim3 c timeStep energy) argsort fun _ => w).init (timeOf dt g)) (seqLayers (world3D (sim3 c timeStep energy) argsort fun _ => w) (N + k) dt b' g) j).plasma.F = Plasma3D.Fields3.zero ∧
      (stAt (world3D (sim3 c timeStep energy) argsort fun _ => w) ((world3D (sim3 c timeStep energy) argsort fun _ => w).init (timeOf dt g)) (seqLayers (world3D (sim3 c timeStep energy) argsort fun _ => w) (N + k) dt b' g) j).rhoPrev = fun _ _ => 0) ∧
    (∀ j, j ≤ N → ((seqLayers (world3D (sim3 c timeStep energy) argsort fun _ => w) N dt b g j).map (Row.shift (k * c.m.dxi))).Perm (seqLayers (world3D (sim3 c timeStep energy) argsort fun _ => w) (N + k) dt b' g (j + k))) ∧
    (∀ j, j ≤ N + 1 →
      Alike3 (stAt (world3D (sim3 c timeStep energy) argsort fun _ => w) ((world3D (sim3 c timeStep energy) argsort fun _ => w).init (timeOf dt g)) (seqLayers (world3D (sim3 c timeStep energy) argsort fun _ => w) N dt b g) j).plasma
        (stAt (world3D (sim3 c timeStep energy) argsort fun _ => w) ((world3D (sim3 c timeStep energy) argsort fun _ => w).init (timeOf dt g)) (seqLayers (world3D (sim3 c timeStep energy) argsort fun _ => w) (N + k) dt b' g) (j + k)).plasma ∧
      (stAt (world3D (sim3 c timeStep energy) argsort fun _ => w) ((world3D (sim3 c timeStep energy) argsort fun _ => w).init (timeOf dt g)) (seqLayers (world3D (sim3 c timeStep energy) argsort fun _ => w) N dt b g) j).rhoPrev =
        (stAt (world3D (sim3 c timeStep energy) argsort fun _ => w) ((world3D (sim3 c timeStep energy) argsort fun _ => w).init (timeOf dt g)) (seqLayers (world3D (sim3 c timeStep energy) argsort fun _ => w) (N + k) dt b' g) (j + k)).rhoPrev) ∧
    (heldBack (stAt (world3D (sim3 c timeStep energy) argsort fun _ => w) ((world3D (sim3 c timeStep energy) argsort fun _ => w).init (timeOf dt g)) (seqLayers (world3D (sim3 c timeStep energy) argsort fun _ => w) N dt b g) (N + 1)) = [] →
      ((allFinished (world3D (sim3 c timeStep energy) argsort fun _ => w) N dt g (seqLayers (world3D (sim3 c timeStep energy) argsort fun _ => w) N dt b g)).map (Row.shift (k * c.m.dxi))).Perm
        (allFinished (world3D (sim3 c timeStep energy) argsort fun _ => w) (N + k) dt g (seqLayers (world3D (sim3 c timeStep energy) argsort fun _ => w) (N + k) dt b' g))) := by
  have hempty : ∀ s, Alike3 w s → Alike3 w ((sim3 c timeStep energy).plasma s (fun _ _ => 0) fun _ _ => 0) := by
    intro s h
    show Alike3 w (Plasma3D.stepDxi c s (fun _ _ => 0) fun _ _ => 0)
    rw [← stepDxi_alike3 c w s h, Plasma3D.quiet_step c w hw hdc]
    exact ⟨rfl, rfl, rfl, rfl, rfl, hw.cur.trans hw.neutral.symm⟩
  obtain ⟨r1, r2, r3, r4, -, r5, -⟩ := shift_run_3D (sim3 c timeStep energy) argsort hs w hx hts (alike_plasma3 c timeStep energy) ⟨rfl, rfl, rfl, rfl, rfl, rfl⟩ hempty N k dt b b' hb hneg hid g hheld hkept
  exact ⟨r1, fun j hj => ⟨(r3 j hj).1.fields.symm.trans hw.fields, (r3 j hj).2⟩, r2, r4, r5⟩

end Lcode.Mpi
