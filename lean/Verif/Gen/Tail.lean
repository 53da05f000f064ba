import Verif.Gen.Beam
import Verif.Mpi.Window

/-!
A longer beam. Property C64: adding segments at the tail of a generated beam leaves the particles of the layers before as they are, and so everything computed there.
-/

namespace Lcode.Gen

open Lcode.Beam2D (IsArgsort gather)
open Lcode.Beam3D (InLayer)

variable {S T : Type}

/-- The beam with further segments behind it. -/
def Shape.extend (b : Shape) (extra : List Segment) : Shape := { b with segs := b.segs ++ extra }

theorem getSegment_append (A B : List Segment) (start xi : ℝ) (r : Segment × ℝ) (h : getSegment A start xi = some r) : getSegment (A ++ B) start xi = some r := by
  induction A generalizing start with
  | nil => simp [getSegment] at h
  | cons p A ih =>
    rw [List.cons_append]
    unfold getSegment at h ⊢
    by_cases hc : 0 < start - xi ∧ start - xi < p.length
    · rw [if_pos hc] at h ⊢; exact h
    · rw [if_neg hc] at h ⊢; exact ih _ h

/-- A layer of the shorter beam is generated in the same way, from the same random numbers, in the longer beam. -/
theorem genLayer_extend (tv : Segment → Rng S → S → ℝ → ℝ → ℕ → Option (List T × S)) (b : Shape) (extra : List Segment) (g : Rng S) (s : S) (k : ℕ) (o : List (GRow T) × S) (h : genLayer tv b g s k = some o) :
    genLayer tv (b.extend extra) g s k = some o := by
  have hseg : ∃ r, getSegment b.segs 0 (-b.dxi * k - b.dxi / 2) = some r := by
    cases hs : getSegment b.segs 0 (-b.dxi * k - b.dxi / 2) with
    | none => unfold genLayer at h; simp only [hs, Option.bind_eq_bind, Option.bind_none, reduceCtorEq] at h
    | some r => exact ⟨r, rfl⟩
  obtain ⟨r, hr⟩ := hseg
  have hr' := getSegment_append _ extra _ _ _ hr
  have emid : -b.dxi / 2 + k * -b.dxi = -b.dxi * k - b.dxi / 2 := by ring
  have hcur : layerCurrent (b.extend extra) k = layerCurrent b k := by
    unfold layerCurrent initialCurrent Shape.extend
    dsimp only
    rw [emid, hr, hr']
  have hcnt : layerCount (b.extend extra) k = layerCount b k := by unfold layerCount; rw [hcur]; rfl
  have hel : elemCharge (b.extend extra) = elemCharge b := rfl
  rw [← h]
  unfold genLayer
  rw [hcnt, hcur, hel]
  have e1 : (b.extend extra).dxi = b.dxi := rfl
  have e2 : (b.extend extra).segs = b.segs ++ extra := rfl
  have e3 : (b.extend extra).rMax = b.rMax := rfl
  have e4 : (b.extend extra).current = b.current := rfl
  simp only [e1, e2, e3, e4, hr, hr']

theorem genLoop_extend (tv : Segment → Rng S → S → ℝ → ℝ → ℕ → Option (List T × S)) (b : Shape) (extra : List Segment) (g : Rng S) (n m : ℕ) (s : S) (k : ℕ) (ls ls' : List (List (GRow T)))
    (h : genLoop tv b g s k n = some ls) (h' : genLoop tv (b.extend extra) g s k (n + m) = some ls') : ∃ more, ls' = ls ++ more := by
  induction n generalizing s k ls ls' with
  | zero =>
    simp only [genLoop, Option.some.injEq] at h
    exact ⟨ls', by rw [← h]; rfl⟩
  | succ n ih =>
    rw [show n + 1 + m = (n + m) + 1 by omega] at h'
    simp only [genLoop, Option.bind_eq_bind, Option.bind_eq_some_iff, Option.pure_def, Option.some.injEq] at h h'
    obtain ⟨⟨l0, s1⟩, h0, rest, hrest, rfl⟩ := h
    obtain ⟨o, h0', rest', hrest', rfl⟩ := h'
    rw [genLayer_extend tv b extra g s k _ h0, Option.some.injEq] at h0'
    subst h0'
    obtain ⟨more, rfl⟩ := ih _ _ _ _ hrest hrest'
    exact ⟨more, rfl⟩

theorem totalLength_append (A B : List Segment) (hB : ∀ p ∈ B, 0 < p.length) : totalLength A ≤ totalLength (A ++ B) := by
  unfold totalLength
  rw [List.foldl_append]
  generalize A.foldl (fun x p => x + p.length) 0 = t
  induction B generalizing t with
  | nil => exact le_rfl
  | cons p B ih =>
    have h1 := hB p (by simp)
    have h2 := ih (fun q hq => hB q (by simp [hq])) (t + p.length)
    rw [List.foldl_cons]
    linarith

/-- C64: segments added behind a beam add particles behind its layers, with identifiers after its own, and change none of its particles, not even their identifiers or random numbers. -/
theorem longer_beam (tv : Segment → Rng S → S → ℝ → ℝ → ℕ → Option (List T × S)) (tok : Segment → ℝ → T → Prop) (eok : Segment → ℝ → ℝ → Prop) (b : Shape) (extra : List Segment) (g : Rng S) (hg : g.Valid)
    (hd : 0 < b.dxi) (hpos : ∀ p ∈ b.segs ++ extra, 0 < p.length) (ht : TransOk tv tok g (b.extend extra)) (he : EnergyOk eok g (b.extend extra)) (argsort : List ℝ → List ℕ) (hs : IsArgsort (· ≤ ·) argsort)
    (s : S) (beam beam' : List (GRow T)) (h : generateArray tv b g s argsort = some beam) (h' : generateArray tv (b.extend extra) g s argsort = some beam') :
    ∃ rest, beam'.Perm (beam ++ rest) ∧ ∀ r ∈ rest, (beam.length : ℤ) < r.id ∧ ∃ k : ℕ, totalLength b.segs ≤ (k + 1 / 2) * b.dxi ∧ InLayer b.dxi k r.xi := by
  unfold generateArray at h h'
  simp only [Option.bind_eq_bind, Option.bind_eq_some_iff, Option.pure_def, Option.some.injEq] at h h'
  obtain ⟨ls, hls, rfl⟩ := h
  obtain ⟨ls', hls', rfl⟩ := h'
  have hd' : 0 < (b.extend extra).dxi := hd
  have hnum : layersNumber b ≤ layersNumber (b.extend extra) := by
    by_contra hc
    push Not at hc
    rw [layersNumber_spec b hd] at hc
    have : ¬ layersNumber (b.extend extra) < layersNumber (b.extend extra) := lt_irrefl _
    rw [layersNumber_spec (b.extend extra) hd'] at this
    exact this (lt_of_lt_of_le hc (totalLength_append _ _ fun p hp => hpos p (by simp [hp])))
  obtain ⟨m, hm⟩ : ∃ m, layersNumber (b.extend extra) = layersNumber b + m := ⟨_, (Nat.add_sub_cancel' hnum).symm⟩
  obtain ⟨hlen', hlay'⟩ := genLoop_spec tv tok eok (b.extend extra) g hg hd' hpos ht he _ _ _ _ hls'
  rw [hm] at hls'
  obtain ⟨more, rfl⟩ := genLoop_extend tv b extra g _ m s 0 ls ls' hls hls'
  have hlen : ls.length = layersNumber b := by
    have hl : ∀ (n : ℕ) (s : S) (k : ℕ) (l : List (List (GRow T))), genLoop tv b g s k n = some l → l.length = n := by
      intro n
      induction n with
      | zero => intro s k l h; simp only [genLoop, Option.some.injEq] at h; subst h; rfl
      | succ n ih =>
        intro s k l h
        simp only [genLoop, Option.bind_eq_bind, Option.bind_eq_some_iff, Option.pure_def, Option.some.injEq] at h
        obtain ⟨o, _, rest, hrest, rfl⟩ := h
        rw [List.length_cons, ih _ _ _ hrest]
    exact hl _ _ _ _ hls
  have hsort : ∀ B : List (GRow T), (gather B (argsort (B.map fun r => -r.xi))).Perm B := fun B => Lcode.Beam2D.gather_perm (by simpa using (hs (B.map fun r => -r.xi)).1)
  rw [List.flatten_append, List.mapIdx_append]
  refine ⟨(more.flatten).mapIdx fun i r => ({ r with id := ((i + ls.flatten.length : ℕ) : ℤ) + 1 } : GRow T), (hsort _).trans ((hsort _).symm.append_right _), ?_⟩
  intro r hr
  obtain ⟨i, hi, rfl⟩ := List.mem_mapIdx.mp hr
  refine ⟨?_, ?_⟩
  · rw [(hsort _).length_eq, List.length_mapIdx]
    dsimp only
    push_cast
    omega
  · dsimp only
    have hmem : (more.flatten)[i] ∈ more.flatten := List.getElem_mem hi
    generalize (more.flatten)[i] = r0 at hmem
    obtain ⟨l, hl, hrl⟩ := List.mem_flatten.mp hmem
    obtain ⟨q, hq, rfl⟩ := List.mem_iff_getElem.mp hl
    have hlay := hlay' (ls.length + q) more[q] (by rw [List.getElem?_append_right (by omega), Nat.add_sub_cancel_left, List.getElem?_eq_getElem hq])
    refine ⟨ls.length + q, ?_, ?_⟩
    · have : ¬ ls.length + q < layersNumber b := by omega
      rw [layersNumber_spec b hd] at this
      exact not_lt.mp this
    · have := hlay.xi r0 hrl
      rw [Nat.zero_add] at this
      exact this

/-- In the layers of the shorter beam the two beams have the same particles. -/
theorem longer_beam_layer (b : Shape) (hd : 0 < b.dxi) (beam beam' rest : List (GRow T)) (hp : beam'.Perm (beam ++ rest)) (hr : ∀ r ∈ rest, (beam.length : ℤ) < r.id ∧ ∃ k : ℕ, totalLength b.segs ≤ (k + 1 / 2) * b.dxi ∧ InLayer b.dxi k r.xi)
    (i : ℕ) (hi : (i + 1 / 2) * b.dxi < totalLength b.segs) : (beam.filter fun r => decide (InLayer b.dxi i r.xi)).Perm (beam'.filter fun r => decide (InLayer b.dxi i r.xi)) := by
  refine List.Perm.symm ((hp.filter _).trans ?_)
  rw [List.filter_append]
  have : (rest.filter fun r => decide (InLayer b.dxi i r.xi)) = [] := by
    rw [List.filter_eq_nil_iff]
    intro r hr'
    simp only [decide_eq_true_eq]
    intro hin
    obtain ⟨-, k, h1, h2⟩ := hr r hr'
    rw [inLayer_unique hd h2 hin] at h1
    linarith
  rw [this, List.append_nil]

/-- C64 in 2D: a run with a generated beam in a window with last layer `N`, and a run with a beam that has further segments behind it, in a window with last layer `N' ≥ N` (the same seed). Layer `j` of time step `g` is the same in both as long as layer `j + g`
belongs to the shorter beam and to the shorter window, and no particle overtakes. -/
theorem longer_driver_2D {σ : Type} (env : Lcode.Beam2D.Env2D σ) (plasma0 : ℝ → σ) (hs : IsArgsort Lcode.Beam2D.boolLe env.argsortB) (hf : IsArgsort (· ≤ ·) env.argsortF) (b : Shape) (extra : List Segment) (hb : b.Valid) (hb' : (b.extend extra).Valid)
    (hx : env.cfg.xiStep = b.dxi) (g : Rng S) (hg : g.Valid) (argsort : List ℝ → List ℕ) (ha : IsArgsort (· ≤ ·) argsort) (s : S) (beam beam' : List (GRow Tr2)) (h : generateArray Segment.trans2 b g s argsort = some beam)
    (h' : generateArray Segment.trans2 (b.extend extra) g s argsort = some beam') (N N' : ℕ) (hNN : N ≤ N') (hlim : ((N' : ℝ) + 1) * b.dxi ≤ 99999) (dt : ℝ)
    (hno : Lcode.Mpi.NoOvertaking env plasma0 N dt (beam.map GRow.to2)) (hno' : Lcode.Mpi.NoOvertaking env plasma0 N' dt (beam'.map GRow.to2)) (t j : ℕ) (hj : j + t ≤ N) (hjb : ((j + t : ℕ) + 1 / 2) * b.dxi < totalLength b.segs) :
    (Lcode.Mpi.seqLayers (Lcode.Mpi.world2D env plasma0) N dt (beam.map GRow.to2) t j).Perm (Lcode.Mpi.seqLayers (Lcode.Mpi.world2D env plasma0) N' dt (beam'.map GRow.to2) t j) ∧
    (Lcode.Mpi.stAt (Lcode.Mpi.world2D env plasma0) ((Lcode.Mpi.world2D env plasma0).init (Lcode.Mpi.timeOf dt t)) (Lcode.Mpi.seqLayers (Lcode.Mpi.world2D env plasma0) N dt (beam.map GRow.to2) t) (j + 1)).plasma =
      (Lcode.Mpi.stAt (Lcode.Mpi.world2D env plasma0) ((Lcode.Mpi.world2D env plasma0).init (Lcode.Mpi.timeOf dt t)) (Lcode.Mpi.seqLayers (Lcode.Mpi.world2D env plasma0) N' dt (beam'.map GRow.to2) t) (j + 1)).plasma := by
  obtain ⟨-, -, hin, -⟩ := generated_2d b hb g hg argsort ha s beam h
  obtain ⟨-, -, hin', -⟩ := generated_2d _ hb' g hg argsort ha s beam' h'
  have hneg : ∀ r ∈ beam, r.xi < 0 := fun r hr => by obtain ⟨k, -, h2⟩ := hin r hr; exact inLayer_neg hb.dxi h2
  have hneg' : ∀ r ∈ beam', r.xi < 0 := fun r hr => by obtain ⟨k, -, h2⟩ := hin' r hr; exact inLayer_neg hb'.dxi h2
  obtain ⟨rest, hp, hr⟩ := longer_beam Segment.trans2 (Ok2 b.rMax) OkE b extra g hg hb.dxi hb'.length
    (fun p hp s d n o ho => trans2_ok g hg b.rMax hb.rMax p (hb'.radius p hp) s d n o ho) (fun p hp s d n o ho => energy_ok g hg p (hb'.levels p hp) s d n o ho) argsort ha s beam beam' h h'
  have key : ∀ (l : List (GRow Tr2)) (i : ℕ), (∀ r ∈ l, r.xi < 0) → (l.map GRow.to2).filter (fun p => decide (Lcode.Beam2D.InLayer env.cfg.xiStep i p.xi)) = (l.filter fun r => decide (InLayer b.dxi i r.xi)).map GRow.to2 := by
    intro l i hl
    rw [List.filter_map]
    congr 1
    apply List.filter_congr
    intro r hr
    rw [hx]
    exact decide_eq_decide.mpr (inLayer2_iff (hl r hr))
  have := Lcode.Mpi.window_length_2D env plasma0 hs hf (by rw [hx]; exact hb.dxi) N N' hNN (by rw [hx]; exact hlim) dt (beam.map GRow.to2) (beam'.map GRow.to2)
    (fun p hp => by obtain ⟨r, hr, rfl⟩ := List.mem_map.mp hp; exact (hneg r hr).le) (fun p hp => by obtain ⟨r, hr, rfl⟩ := List.mem_map.mp hp; exact (hneg' r hr).le) hno hno' t j hj (fun i hi => by
      rw [key beam i hneg, key beam' i hneg']
      refine (longer_beam_layer b hb.dxi beam beam' rest hp hr i ?_).map _
      have : (i : ℝ) ≤ (j + t : ℕ) := by exact_mod_cast hi
      nlinarith [hb.dxi])
  exact ⟨this.1, this.2.1⟩

/-- C64 in 3D, the same; here the condition is that no substep carries a particle ahead of its half-step point, and that no finished particle is still held back when an earlier time step of the run in the shorter window ends. -/
theorem longer_driver_3D {σ : Type} (env : Lcode.Beam3D.Env3 σ) (hts : 0 ≤ env.timeStep) (hr3 : Lcode.Mpi.NoRush3 env) (srt : List ℝ → List ℕ) (hsrt : IsArgsort (· ≤ ·) srt) (plasma0 : ℝ → σ) (b : Shape) (extra : List Segment) (hb : b.Valid) (hb' : (b.extend extra).Valid)
    (hx : env.cfg.dxi = b.dxi) (g : Rng S) (hg : g.Valid) (argsort : List ℝ → List ℕ) (ha : IsArgsort (· ≤ ·) argsort) (s : S) (beam beam' : List (GRow Tr3)) (h : generateArray Segment.trans3 b g s argsort = some beam)
    (h' : generateArray Segment.trans3 (b.extend extra) g s argsort = some beam') (N N' : ℕ) (hNN : N ≤ N') (dt : ℝ) (t j : ℕ)
    (hkept : ∀ g', g' < t → Lcode.Mpi.heldBack (Lcode.Mpi.stAt (Lcode.Mpi.world3D env srt plasma0) ((Lcode.Mpi.world3D env srt plasma0).init (Lcode.Mpi.timeOf dt g')) (Lcode.Mpi.seqLayers (Lcode.Mpi.world3D env srt plasma0) N dt (beam.map GRow.to3) g') (N + 1)) = [])
    (hj : j + t ≤ N) (hjb : ((j + t : ℕ) + 1 / 2) * b.dxi < totalLength b.segs) :
    (Lcode.Mpi.seqLayers (Lcode.Mpi.world3D env srt plasma0) N dt (beam.map GRow.to3) t j).Perm (Lcode.Mpi.seqLayers (Lcode.Mpi.world3D env srt plasma0) N' dt (beam'.map GRow.to3) t j) ∧
    (Lcode.Mpi.stAt (Lcode.Mpi.world3D env srt plasma0) ((Lcode.Mpi.world3D env srt plasma0).init (Lcode.Mpi.timeOf dt t)) (Lcode.Mpi.seqLayers (Lcode.Mpi.world3D env srt plasma0) N dt (beam.map GRow.to3) t) (j + 1)).plasma =
      (Lcode.Mpi.stAt (Lcode.Mpi.world3D env srt plasma0) ((Lcode.Mpi.world3D env srt plasma0).init (Lcode.Mpi.timeOf dt t)) (Lcode.Mpi.seqLayers (Lcode.Mpi.world3D env srt plasma0) N' dt (beam'.map GRow.to3) t) (j + 1)).plasma := by
  obtain ⟨-, -, hin, -⟩ := generated_3d b hb g hg argsort ha s beam h
  obtain ⟨-, -, hin', -⟩ := generated_3d _ hb' g hg argsort ha s beam' h'
  have hneg : ∀ r ∈ beam, r.xi < 0 := fun r hr => by obtain ⟨k, -, h2⟩ := hin r hr; exact inLayer_neg hb.dxi h2
  have hneg' : ∀ r ∈ beam', r.xi < 0 := fun r hr => by obtain ⟨k, -, h2⟩ := hin' r hr; exact inLayer_neg hb'.dxi h2
  obtain ⟨rest, hp, hr⟩ := longer_beam Segment.trans3 (Ok3 b.rMax) OkE b extra g hg hb.dxi hb'.length
    (fun p hp s d n o ho => trans3_ok g hg b.rMax hb.rMax p (hb'.radius p hp) s d n o ho) (fun p hp s d n o ho => energy_ok g hg p (hb'.levels p hp) s d n o ho) argsort ha s beam beam' h h'
  have key : ∀ (l : List (GRow Tr3)) (i : ℕ), (l.map GRow.to3).filter (fun p => decide (InLayer env.cfg.dxi i p.xi)) = (l.filter fun r => decide (InLayer b.dxi i r.xi)).map GRow.to3 := by
    intro l i
    rw [List.filter_map, hx]
    rfl
  have := Lcode.Mpi.window_length_3D env srt hsrt (by rw [hx]; exact hb.dxi) hts hr3 plasma0 N N' hNN dt (beam.map GRow.to3) (beam'.map GRow.to3)
    (fun p hp => by obtain ⟨r, hr, rfl⟩ := List.mem_map.mp hp; exact ⟨hneg r hr, rfl⟩) (fun p hp => by obtain ⟨r, hr, rfl⟩ := List.mem_map.mp hp; exact ⟨hneg' r hr, rfl⟩) t j hj hkept (fun i hi => by
      rw [key beam i, key beam' i]
      refine (longer_beam_layer b hb.dxi beam beam' rest hp hr i ?_).map _
      have : (i : ℝ) ≤ (j + t : ℕ) := by exact_mod_cast hi
      nlinarith [hb.dxi])
  exact ⟨this.1, this.2.1⟩

end Lcode.Gen
