import Verif.Beam2D.DataProps

/-!
C04 without hypotheses on the beam: what the 2D beam source hands out for *every* beam and every window length.

The loader drops the last particle of the sorted beam if it lies below `-99999` (the stub row of old beam files, beam_io.py:91-93); here this is
part of the statement instead of a bound on the window.
-/

namespace Lcode.Beam2D

variable {K : Type*} [Field K] [LinearOrder K] [IsStrictOrderedRing K]

/-- beam_io.py:92-93, as a specification: a beam sorted from head to tail without its last particle if that one is a stub. -/
def withoutStub (S : List (Particle K)) : List (Particle K) :=
  match S.getLast? with
  | some p => if p.xi + 100000 < 1 then S.dropLast else S
  | none => S

/-- The source in the middle of a sweep; `m` particles of the sorted beam are kept. -/
structure SrcInvAny (S : List (Particle K)) (m : ℕ) (h : K) (s : Source K) (i : ℕ) : Prop where
  xi : s.xi = S.map Particle.xi
  parts : s.particles = S.take m
  used : s.used ≤ S.length
  before : ∀ p ∈ S.take s.used, -(i * h) ≤ p.xi ∧ 0 < i
  after : ∀ p ∈ S.drop s.used, p.xi < -(i * h) ∨ (i = 0 ∧ p.xi ≤ 0)

theorem getBeamLayer_step_any (S : List (Particle K)) (hS : S.Pairwise (fun p q => q.xi ≤ p.xi)) (m : ℕ)
    (h : K) (hh : 0 < h) (s : Source K) (i : ℕ) (hinv : SrcInvAny S m h s i) :
    (s.getBeamLayer h i).1 = Beam.fresh ((S.take m).filter (fun p => decide (InLayer h i p.xi))) ∧
      SrcInvAny S m h (s.getBeamLayer h i).2 (i + 1) := by
  have hmax : ∀ x ∈ s.xi.drop s.used, x ≤ (i : K) * -h := by
    intro x hx
    rw [hinv.xi, ← List.map_drop, List.mem_map] at hx
    obtain ⟨p, hp, rfl⟩ := hx
    rcases hinv.after p hp with h1 | ⟨h1, h2⟩
    · linarith
    · subst h1; simpa using h2
  have hfe := findEnd_eq ((i : K) * -h) (((i : K) + 1) * -h) s.used (s.xi.drop s.used) s.used hmax
  set T := (S.drop s.used).takeWhile (fun p => decide (((i : K) + 1) * -h ≤ p.xi)) with hT
  have hlen : ((s.xi.drop s.used).takeWhile (fun x => decide (((i : K) + 1) * -h ≤ x))).length = T.length := by
    rw [hinv.xi, ← List.map_drop, List.takeWhile_map, List.length_map]
    rfl
  rw [hlen] at hfe
  have hTpre : (S.drop s.used).take T.length = T := (List.prefix_iff_eq_take.mp (List.takeWhile_prefix _)).symm
  have hUL : s.used + T.length ≤ S.length := by
    have hTl : T.length ≤ (S.drop s.used).length := (List.takeWhile_prefix _).length_le
    rw [List.length_drop] at hTl
    have := hinv.used
    omega
  have hdrop : S.drop (s.used + T.length) = (S.drop s.used).dropWhile (fun p => decide (((i : K) + 1) * -h ≤ p.xi)) := by
    rw [← List.drop_drop]
    conv_lhs => rw [← List.takeWhile_append_dropWhile
      (p := fun p : Particle K => decide (((i : K) + 1) * -h ≤ p.xi)) (l := S.drop s.used)]
    rw [← hT, List.drop_left]
  have hrest : ∀ p ∈ S.drop (s.used + T.length), p.xi < ((i : K) + 1) * -h := by
    intro p hp
    rw [hdrop] at hp
    have hsub : ((S.drop s.used).dropWhile (fun p => decide (((i : K) + 1) * -h ≤ p.xi))).Pairwise (fun p q => q.xi ≤ p.xi) :=
      (hS.sublist (List.drop_sublist _ _)).sublist (List.dropWhile_sublist _)
    cases hd : (S.drop s.used).dropWhile (fun p => decide (((i : K) + 1) * -h ≤ p.xi)) with
    | nil => rw [hd] at hp; simp at hp
    | cons a l =>
      have ha : ¬ (((i : K) + 1) * -h ≤ a.xi) := by
        have := List.head_dropWhile_not (fun p : Particle K => decide (((i : K) + 1) * -h ≤ p.xi))
          (l := S.drop s.used) (by rw [hd]; simp)
        simp only [hd, List.head_cons, decide_eq_false_iff_not] at this
        exact this
      rw [hd] at hp hsub
      have hle : p.xi ≤ a.xi := by
        rcases List.mem_cons.mp hp with rfl | hp'
        · exact le_refl _
        · exact (List.pairwise_cons.mp hsub).1 p hp'
      linarith [not_le.mp ha]
  have hTin : ∀ p ∈ T, InLayer h i p.xi := by
    intro p hp
    have h1 : ((i : K) + 1) * -h ≤ p.xi := by
      rw [hT] at hp
      have := of_mem_takeWhile hp
      simpa using this
    have h2 : p ∈ S.drop s.used := (List.takeWhile_sublist _).subset (hT ▸ hp)
    refine ⟨by linarith, ?_⟩
    rcases hinv.after p h2 with h3 | ⟨h3, _⟩
    · exact Or.inl h3
    · exact Or.inr h3
  have hbef : ∀ p ∈ S.take s.used, ¬ InLayer h i p.xi := by
    intro p hp
    obtain ⟨h1, h2⟩ := hinv.before p hp
    rintro ⟨-, h3 | h3⟩
    · linarith
    · omega
  have haft : ∀ p ∈ S.drop (s.used + T.length), ¬ InLayer h i p.xi := by
    intro p hp
    have := hrest p hp
    rintro ⟨h3, -⟩
    linarith
  -- what is handed out
  have hslice : slice s.particles s.used (s.used + T.length) = (S.take m).filter (fun p => decide (InLayer h i p.xi)) := by
    rw [hinv.parts]
    have hdecomp : S.take m = (S.take s.used).take m ++ (T.take (m - s.used) ++ (S.drop (s.used + T.length)).take (m - s.used - T.length)) := by
      have e : S = S.take s.used ++ (T ++ S.drop (s.used + T.length)) := by
        conv_lhs => rw [← List.take_append_drop s.used S]
        congr 1
        conv_lhs => rw [← List.take_append_drop T.length (S.drop s.used), hTpre, List.drop_drop]
      have hl : (S.take s.used).length = s.used := by rw [List.length_take]; exact min_eq_left hinv.used
      conv_lhs => rw [e]
      rw [List.take_append, hl, List.take_append]
    have f1 : ((S.take s.used).take m).filter (fun p => decide (InLayer h i p.xi)) = [] := by
      rw [List.filter_eq_nil_iff]; intro p hp; simpa using hbef p ((List.take_sublist _ _).subset hp)
    have f2 : (T.take (m - s.used)).filter (fun p => decide (InLayer h i p.xi)) = T.take (m - s.used) := by
      rw [List.filter_eq_self]; intro p hp; simpa using hTin p ((List.take_sublist _ _).subset hp)
    have f3 : ((S.drop (s.used + T.length)).take (m - s.used - T.length)).filter (fun p => decide (InLayer h i p.xi)) = [] := by
      rw [List.filter_eq_nil_iff]; intro p hp; simpa using haft p ((List.take_sublist _ _).subset hp)
    rw [hdecomp, List.filter_append, List.filter_append, f1, f2, f3, ← hdecomp]
    simp only [List.nil_append, List.append_nil]
    unfold slice
    rw [List.take_take, List.drop_take]
    rw [show min (s.used + T.length) m - s.used = min T.length (m - s.used) by omega, min_comm, ← List.take_take, hTpre]
  unfold Source.getBeamLayer Source.getBeamSlice findSubSlice
  simp only [hfe, Nat.add_sub_cancel_left]
  refine ⟨by rw [hslice], ⟨hinv.xi, hinv.parts, hUL, ?_, ?_⟩⟩
  · intro p hp
    refine ⟨?_, Nat.succ_pos i⟩
    push_cast
    simp only at hp
    rw [List.take_add, hTpre, List.mem_append] at hp
    rcases hp with hp | hp
    · obtain ⟨h1, h2⟩ := hinv.before p hp
      linarith
    · exact (hTin p hp).1
  · intro p hp
    left
    push_cast
    linarith [hrest p hp]

theorem layers_of_inv_any (S : List (Particle K)) (hS : S.Pairwise (fun p q => q.xi ≤ p.xi)) (m : ℕ)
    (h : K) (hh : 0 < h) (n : ℕ) (s : Source K) (i : ℕ) (hinv : SrcInvAny S m h s i) :
    (Source.layers h s i n).1 = (List.range' i n).map (fun j => Beam.fresh ((S.take m).filter (fun p => decide (InLayer h j p.xi)))) := by
  induction n generalizing s i with
  | zero => rfl
  | succ n ih =>
    obtain ⟨h1, h2⟩ := getBeamLayer_step_any S hS m h hh s i hinv
    have := ih (s.getBeamLayer h i).2 (i + 1) h2
    simp only [Source.layers, List.range'_succ, List.map_cons]
    rw [this, h1]

/-- C04, for every beam, every positive step and every number of layers, without further hypotheses. `S` is the beam sorted from head to tail.
If no particle is ahead of the window head, layer `i` receives exactly the particles of that layer (of the beam without a stub), in order, fresh; if some particle is ahead, every layer
is empty. -/
theorem source_complete (argsort : List K → List ℕ) (hs : IsArgsort (· ≤ ·) argsort) (b : Beam K) (hb : b.WF) (h : K) (hh : 0 < h) (n : ℕ) :
    ∃ S : List (Particle K), S.Perm b.particles ∧ S.Pairwise (fun p q => q.xi ≤ p.xi) ∧
      ((∀ p ∈ b.particles, p.xi ≤ 0) → (Source.layers h (Source.init argsort b) 0 n).1 =
        (List.range n).map (fun i => Beam.fresh ((withoutStub S).filter (fun p => decide (InLayer h i p.xi))))) ∧
      ((∃ p ∈ b.particles, 0 < p.xi) → (Source.layers h (Source.init argsort b) 0 n).1 = List.replicate n (Beam.fresh [])) := by
  by_cases he : b.particles = []
  · refine ⟨[], by rw [he], List.Pairwise.nil, fun _ => ?_, ?_⟩
    · have : Source.init argsort b = ⟨[], [], 0⟩ := by simp [Source.init, he]
      rw [this, layers_of_inv_any [] List.Pairwise.nil 0 h hh n _ 0 ⟨rfl, rfl, by simp, by simp, by simp⟩, List.range_eq_range']
      rfl
    · rintro ⟨p, hp, -⟩; rw [he] at hp; simp at hp
  · obtain ⟨h1, h2, h3⟩ := sort_rows argsort hs b hb
    have hperm : (b.sort argsort).particles.Perm b.particles := by
      rw [← rows_particles hb, ← rows_particles h2]; exact h1.map _
    refine ⟨(b.sort argsort).particles, hperm, h3, ?_⟩
    set S := (b.sort argsort).particles with hSd
    have hne : S ≠ [] := fun hc => he (by
      have := hperm; rw [hc] at this; exact (List.nil_perm.mp this))
    have hinit : Source.init argsort b = ⟨withoutStub S, S.map Particle.xi, 0⟩ := by
      unfold Source.init withoutStub
      rw [if_neg he]
      simp only [← hSd, List.getLast?_map, List.getLast?_eq_some_getLast hne, Option.map_some]
    have htake : ∃ m, withoutStub S = S.take m := by
      unfold withoutStub
      rw [List.getLast?_eq_some_getLast hne]
      simp only
      split_ifs
      · exact ⟨S.length - 1, List.dropLast_eq_take⟩
      · exact ⟨S.length, by rw [List.take_length]⟩
    rw [hinit]
    constructor
    · intro hhead
      obtain ⟨m, hm⟩ := htake
      rw [layers_of_inv_any S h3 m h hh n _ 0 ⟨rfl, hm, by simp, by simp, fun p hp => Or.inr ⟨rfl, hhead p (hperm.mem_iff.mp (by simpa using hp))⟩⟩,
        List.range_eq_range', hm]
    · rintro ⟨p, hp, hx⟩
      cases hS : S with
      | nil => exact (hne hS).elim
      | cons a l =>
        have ha : 0 < a.xi := by
          have hpS : p ∈ S := hperm.mem_iff.mpr hp
          rw [hS] at hpS h3
          rcases List.mem_cons.mp hpS with rfl | hpl
          · exact hx
          · exact hx.trans_le ((List.pairwise_cons.mp h3).1 p hpl)
        exact (source_blocked_by_head ⟨withoutStub (a :: l), (a :: l).map Particle.xi, 0⟩ h hh a.xi (l.map Particle.xi) (by simp) ha 0 n).1

/-- Both cases occur; and a stub row is dropped although the window would reach it. -/
example : ((Source.layers 60000 (Source.init (fun keys => List.range keys.length)
    (Beam.fresh [(⟨-1/2, 0, 0, 0, 0, 1, 1, 7⟩ : Particle ℚ), ⟨-99998, 0, 0, 0, 0, 1, 1, 8⟩, ⟨-100000, 0, 0, 0, 0, 1, 1, 9⟩])) 0 2).1.map
      (fun b => b.particles.map Particle.id)) = [[7], [8]] := by decide +kernel

end Lcode.Beam2D
