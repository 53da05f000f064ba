import Verif.Beam2D.DataLemmas
import Mathlib.Tactic.Positivity

/-!
Properties C05 (beam slices keep attributes together) and C04 (the 2D beam source).
-/

namespace Lcode.Beam2D

/-! ### C05 -/

section C05
variable {K : Type*}

/-- C05: appending keeps every particle's attributes together and loses nothing. -/
theorem append_rows (a b : Beam K) (ha : a.WF) (hb : b.WF) :
    (a.append b).rows = a.rows ++ b.rows ∧ (a.append b).WF :=
  ⟨rows_concat ha, wf_concat ha hb⟩

/-- C05: concatenation likewise. -/
theorem concat_rows (a b : Beam K) (ha : a.WF) (hb : b.WF) :
    (a.concat b).rows = a.rows ++ b.rows ∧ (a.concat b).WF :=
  ⟨rows_concat ha, wf_concat ha hb⟩

/-- C05: a sub-slice consists of the complete rows `s, ..., e-1`. -/
theorem getSubslice_rows (b : Beam K) (hb : b.WF) (s e : ℕ) :
    (b.getSubslice s e).rows = (b.rows.take e).drop s ∧ (b.getSubslice s e).WF :=
  ⟨rows_getSubslice b s e, wf_getSubslice hb s e⟩

/-- C05: sorting is a permutation of complete rows and orders them from head (largest xi) to
tail, whatever correct argsort is used. -/
theorem sort_rows [Field K] [LinearOrder K] [IsStrictOrderedRing K]
    (argsort : List K → List ℕ) (hs : IsArgsort (· ≤ ·) argsort)
    (b : Beam K) (hb : b.WF) :
    (b.sort argsort).rows.Perm b.rows ∧ (b.sort argsort).WF ∧
      (b.sort argsort).particles.Pairwise (fun p q => q.xi ≤ p.xi) := by
  have hlt : ∀ i ∈ argsort (b.particles.map (fun p => -p.xi)), i < b.particles.length := by
    simpa using mem_argsort_lt hs (b.particles.map (fun p => -p.xi))
  refine ⟨?_, wf_reorder hb hlt, ?_⟩
  · unfold Beam.sort
    rw [rows_reorder hb hlt]
    apply gather_perm
    rw [rows_length hb]
    simpa using (hs (b.particles.map (fun p => -p.xi))).1
  · have h2 := (hs (b.particles.map (fun p => -p.xi))).2
    rw [gather_map, List.pairwise_map] at h2
    refine h2.imp ?_
    intro p q h
    linarith

/-- C05: splitting after a push partitions the rows: the first part is exactly the lost
particles, the second those that used up their substeps inside the layer, the third all others;
no attribute of one particle ends up at another. -/
theorem split_rows [LinearOrder K] (argsort : List Bool → List ℕ) (hs : IsArgsort boolLe argsort)
    (b : Beam K) (hb : b.WF) (xiEnd : K) :
    let r := splitBeamSlice argsort b xiEnd
    r.1.rows.Perm (b.rows.filter (fun t => t.2.2.2)) ∧
    r.2.1.rows.Perm (b.rows.filter
      (fun t => !t.2.2.2 && decide (t.2.2.1 ≤ 0) && decide (xiEnd ≤ t.1.xi))) ∧
    r.2.2.rows.Perm (b.rows.filter
      (fun t => !t.2.2.2 && (decide (0 < t.2.2.1) || decide (t.1.xi < xiEnd)))) ∧
    r.1.WF ∧ r.2.1.WF ∧ r.2.2.WF := by
  intro r
  -- first reordering
  have hlt1 : ∀ i ∈ (argsort b.lost).reverse, i < b.particles.length := by
    intro i hi
    have := mem_argsort_lt hs b.lost i (by simpa using hi)
    rw [hb.2.2] at this; exact this
  set b1 := b.reorder (argsort b.lost).reverse with hb1
  have hwf1 : b1.WF := wf_reorder hb hlt1
  have hrows1 : b1.rows = gather b.rows (argsort b.lost).reverse := rows_reorder hb hlt1
  have hperm1 : b1.rows.Perm b.rows := by
    rw [hrows1]
    apply gather_perm
    rw [rows_length hb, ← hb.2.2]
    exact (List.reverse_perm _).trans (hs b.lost).1
  have hpw1 : b1.rows.Pairwise (fun s t => t.2.2.2 = true → s.2.2.2 = true) := by
    have h2 := (hs b.lost).2
    have h3 : gather b.lost (argsort b.lost).reverse = b1.rows.map (fun t => t.2.2.2) := by
      rw [rows_lost hwf1]
      rfl
    rw [gather_reverse] at h3
    have h4 : (gather b.lost (argsort b.lost)) = (b1.rows.map (fun t => t.2.2.2)).reverse := by
      rw [← h3, List.reverse_reverse]
    rw [h4, List.pairwise_reverse, List.pairwise_map] at h2
    exact h2
  have hcount : b1.lost.count true = b1.rows.countP (fun t => t.2.2.2) := by
    rw [← rows_lost hwf1, List.count, List.countP_map]
    congr 1
    funext t; simp
  obtain ⟨htake, hdrop⟩ := take_countP_of_first (fun t : Row K => t.2.2.2) b1.rows hpw1
  have hr1 : r.1.rows = b1.rows.filter (fun t => t.2.2.2) := by
    show (b1.getSubslice 0 (b1.lost.count true)).rows = _
    rw [rows_getSubslice, slice_zero, hcount, htake]
  -- the remaining rows
  set b2 := b1.getSubslice (b1.lost.count true) b.particles.length with hb2
  have hwf2 : b2.WF := wf_getSubslice hwf1 _ _
  have hlen1 : b1.rows.length = b.particles.length := by
    rw [hperm1.length_eq, rows_length hb]
  have hrows2 : b2.rows = b1.rows.filter (fun t => !t.2.2.2) := by
    rw [hb2, rows_getSubslice, slice_full _ _ _ hlen1.le, hcount, hdrop]
  set mask := List.zipWith (fun (n : ℤ) (p : Particle K) => decide (n > 0) || decide (p.xi < xiEnd))
    b2.remaining b2.particles with hmask
  have hmask' : mask = b2.rows.map (fun t => decide (t.2.2.1 > 0) || decide (t.1.xi < xiEnd)) :=
    zipWith_rows hwf2 xiEnd
  set mv : Row K → Bool := fun t => decide (t.2.2.1 > 0) || decide (t.1.xi < xiEnd) with hmv
  have hmlen : mask.length = b2.particles.length := by
    rw [hmask', List.length_map, rows_length hwf2]
  have hlt2 : ∀ i ∈ argsort mask, i < b2.particles.length := by
    intro i hi
    have := mem_argsort_lt hs mask i hi
    omega
  set b3 := b2.reorder (argsort mask) with hb3
  have hwf3 : b3.WF := wf_reorder hwf2 hlt2
  have hrows3 : b3.rows = gather b2.rows (argsort mask) := rows_reorder hwf2 hlt2
  have hperm3 : b3.rows.Perm b2.rows := by
    rw [hrows3]
    apply gather_perm
    rw [rows_length hwf2, ← hmlen]
    exact (hs mask).1
  have hpw3 : b3.rows.Pairwise (fun s t => mv s = true → mv t = true) := by
    have h2 := (hs mask).2
    have h3 : gather mask (argsort mask) = b3.rows.map mv := by
      rw [hrows3, ← gather_map]
      conv_lhs => rw [hmask']
      rw [← hmask']
    rw [h3, List.pairwise_map] at h2
    exact h2
  have hcount3 : mask.length - mask.count true = b3.rows.length - b3.rows.countP mv := by
    rw [hmask', List.length_map, hperm3.length_eq, hperm3.countP_eq, List.count, List.countP_map]
    congr 2
    funext t; simp [hmv]
  obtain ⟨htake3, hdrop3⟩ := pairwise_drop_filter mv b3.rows hpw3
  have hlen3 : b3.rows.length = b2.particles.length := by
    rw [hperm3.length_eq, rows_length hwf2]
  have hr2 : r.2.1.rows = b3.rows.filter (fun t => !mv t) := by
    show (b3.getSubslice 0 (mask.length - mask.count true)).rows = _
    rw [rows_getSubslice, slice_zero, hcount3, htake3]
  have hr3 : r.2.2.rows = b3.rows.filter mv := by
    show (b3.getSubslice (mask.length - mask.count true) b2.particles.length).rows = _
    rw [rows_getSubslice, slice_full _ _ _ hlen3.le, hcount3, hdrop3]
  refine ⟨?_, ?_, ?_, wf_getSubslice hwf1 _ _, wf_getSubslice hwf3 _ _, wf_getSubslice hwf3 _ _⟩
  · rw [hr1]; exact hperm1.filter _
  · rw [hr2]
    refine (hperm3.filter _).trans ?_
    rw [hrows2, List.filter_filter]
    refine (hperm1.filter _).trans ?_
    apply List.Perm.of_eq
    congr 1
    funext t
    simp only [hmv, Bool.not_or, gt_iff_lt]
    rw [Bool.and_comm, Bool.and_assoc]
    congr 1
    congr 1
    · rw [← decide_not]; congr 1; simp
    · rw [← decide_not]; congr 1; simp
  · rw [hr3]
    refine (hperm3.filter _).trans ?_
    rw [hrows2, List.filter_filter]
    refine (hperm1.filter _).trans ?_
    apply List.Perm.of_eq
    congr 1
    funext t
    simp only [hmv, gt_iff_lt]
    rw [Bool.and_comm]

/-- C05: as a multiset nothing appears or disappears in a split. -/
theorem split_conserves [LinearOrder K] (argsort : List Bool → List ℕ)
    (hs : IsArgsort boolLe argsort) (b : Beam K) (hb : b.WF) (xiEnd : K) :
    let r := splitBeamSlice argsort b xiEnd
    (r.1.rows ++ r.2.1.rows ++ r.2.2.rows).Perm b.rows := by
  intro r
  obtain ⟨h1, h2, h3, -, -, -⟩ := split_rows argsort hs b hb xiEnd
  refine (((h1.append h2).append h3)).trans ?_
  have e1 : b.rows.filter (fun t => !t.2.2.2 && decide (t.2.2.1 ≤ 0) && decide (xiEnd ≤ t.1.xi)) =
      (b.rows.filter (fun t => !t.2.2.2)).filter
        (fun t => decide (t.2.2.1 ≤ 0) && decide (xiEnd ≤ t.1.xi)) := by
    rw [List.filter_filter]; congr 1; funext t
    rw [Bool.and_comm (_ && _) (!_), Bool.and_assoc]
  have e2 : b.rows.filter
        (fun t => !t.2.2.2 && (decide (0 < t.2.2.1) || decide (t.1.xi < xiEnd))) =
      (b.rows.filter (fun t => !t.2.2.2)).filter
        (fun t => !(decide (t.2.2.1 ≤ 0) && decide (xiEnd ≤ t.1.xi))) := by
    rw [List.filter_filter]; congr 1; funext t
    rw [Bool.and_comm _ (!t.2.2.2)]; congr 1
    rw [Bool.not_and, ← decide_not, ← decide_not]
    simp
  rw [List.append_assoc, e1, e2]
  exact ((List.filter_append_perm _ _).append_left _).trans (List.filter_append_perm _ _)

/-- A correct argsort exists (stable merge sort on the indices), so the hypothesis is satisfiable. -/
def demoArgsort (keys : List Bool) : List ℕ :=
  (List.range keys.length).filter (fun i => keys[i]? == some false) ++
    (List.range keys.length).filter (fun i => !(keys[i]? == some false))

theorem demoArgsort_correct : IsArgsort boolLe demoArgsort := by
  intro keys
  refine ⟨List.filter_append_perm _ _, ?_⟩
  unfold demoArgsort
  have hg : ∀ l1 l2, gather keys (l1 ++ l2) = gather keys l1 ++ gather keys l2 := by
    intro l1 l2; simp [gather]
  rw [hg, List.pairwise_append]
  have hA : ∀ x ∈ gather keys ((List.range keys.length).filter (fun i => keys[i]? == some false)),
      x = false := by
    intro x hx
    simp only [gather, List.mem_filterMap, List.mem_filter] at hx
    obtain ⟨i, ⟨_, h1⟩, h2⟩ := hx
    simp [h2] at h1; exact h1
  have hB : ∀ x ∈ gather keys ((List.range keys.length).filter (fun i => !(keys[i]? == some false))),
      x = true := by
    intro x hx
    simp only [gather, List.mem_filterMap, List.mem_filter] at hx
    obtain ⟨i, ⟨_, h1⟩, h2⟩ := hx
    simp [h2] at h1; exact h1
  refine ⟨?_, ?_, ?_⟩
  · apply List.Pairwise.imp_of_mem (R := fun _ _ => True) ?_ (List.pairwise_of_forall (by simp))
    intro a b ha hb _
    rw [hA a ha]; intro h; cases h
  · apply List.Pairwise.imp_of_mem (R := fun _ _ => True) ?_ (List.pairwise_of_forall (by simp))
    intro a b ha hb _ _
    exact hB b hb
  · intro a ha b hb h
    rw [hA a ha] at h; cases h

/-- Three particles: one lost, one finished, one with substeps left. -/
def demoBeam : Beam ℚ :=
  { particles := [⟨-1/2, 1, 5, 0, 0, 1, 1, 1⟩, ⟨-1/4, 9, 5, 0, 0, 1, 1, 2⟩, ⟨-1/3, 2, 5, 0, 0, 1, 1, 3⟩]
    dt := [1, 1, 1/2]
    remaining := [0, 0, 1]
    lost := [false, true, false] }

example : demoBeam.WF := ⟨rfl, rfl, rfl⟩

example : (splitBeamSlice demoArgsort demoBeam (-1)).1.particles.map Particle.id = [2] ∧
    (splitBeamSlice demoArgsort demoBeam (-1)).2.1.particles.map Particle.id = [1] ∧
    (splitBeamSlice demoArgsort demoBeam (-1)).2.2.particles.map Particle.id = [3] := by
  decide +kernel
end C05

/-! ### C04 -/

section C04
variable {K : Type*} [Field K] [LinearOrder K] [IsStrictOrderedRing K]

/-- Layer `i` of the window: between `-(i+1)h` (included) and `-i h` (excluded, except that the very
head `0` belongs to layer 0). -/
def InLayer (h : K) (i : ℕ) (xi : K) : Prop :=
  -((i + 1) * h) ≤ xi ∧ (xi < -(i * h) ∨ i = 0)

instance (h : K) (i : ℕ) (xi : K) : Decidable (InLayer h i xi) := by
  unfold InLayer; infer_instance

omit [Field K] [LinearOrder K] [IsStrictOrderedRing K] in
theorem of_mem_takeWhile {p : Particle K → Bool} {l : List (Particle K)} {a : Particle K}
    (h : a ∈ l.takeWhile p) : p a = true := by
  have := List.all_takeWhile (p := p) (l := l)
  rw [List.all_eq_true] at this
  exact this a h

theorem findEnd_eq (xiMax xiMin : K) (start : ℕ) (l : List K) (i : ℕ)
    (hmax : ∀ x ∈ l, x ≤ xiMax) :
    findEnd xiMax xiMin start l i = (i + (l.takeWhile (fun x => decide (xiMin ≤ x))).length, false) := by
  induction l generalizing i with
  | nil => simp [findEnd]
  | cons x l ih =>
    unfold findEnd
    by_cases h : x - xiMin < 0
    · have : ¬ xiMin ≤ x := by linarith
      simp [h, this]
    · have h1 : xiMin ≤ x := by linarith
      have h2 : ¬ (x - xiMax > 0) := by have := hmax x (by simp); linarith
      rw [if_neg h, if_neg h2, ih _ (fun y hy => hmax y (by simp [hy]))]
      simp [h1]; omega

/-- The source after handing out everything down to layer `i`: what is left is the sorted tail. -/
structure SrcInv (S : List (Particle K)) (h : K) (s : Source K) (i : ℕ) : Prop where
  xi : s.xi = S.map Particle.xi
  parts : s.particles = S ∨ (s.particles = S.dropLast ∧ ∀ p, S.getLast? = some p → p.xi < -99999)
  used : s.used ≤ S.length
  before : ∀ p ∈ S.take s.used, -(i * h) ≤ p.xi ∧ 0 < i
  after : ∀ p ∈ S.drop s.used, p.xi < -(i * h) ∨ (i = 0 ∧ p.xi ≤ 0)

theorem takeWhile_eq_filter_of_sorted {α : Type*} (f : α → K) (c : K) (l : List α)
    (h : l.Pairwise (fun p q => f q ≤ f p)) :
    l.takeWhile (fun p => decide (c ≤ f p)) = l.filter (fun p => decide (c ≤ f p)) := by
  induction l with
  | nil => rfl
  | cons a l ih =>
    have h' := List.pairwise_cons.mp h
    by_cases hc : c ≤ f a
    · simp [hc, ih h'.2]
    · have : l.filter (fun p => decide (c ≤ f p)) = [] := by
        rw [List.filter_eq_nil_iff]
        intro b hb
        have := h'.1 b hb
        simp only [decide_eq_true_eq]
        intro h2; exact hc (h2.trans this)
      simp [hc, this]

theorem getBeamLayer_step (S : List (Particle K)) (hS : S.Pairwise (fun p q => q.xi ≤ p.xi))
    (h : K) (hh : 0 < h) (s : Source K) (i : ℕ) (hinv : SrcInv S h s i)
    (hlim : ((i : K) + 1) * h ≤ 99999) :
    (s.getBeamLayer h i).1 = Beam.fresh (S.filter (fun p => decide (InLayer h i p.xi))) ∧
      SrcInv S h (s.getBeamLayer h i).2 (i + 1) := by
  have hmax : ∀ x ∈ s.xi.drop s.used, x ≤ (i : K) * -h := by
    intro x hx
    rw [hinv.xi, ← List.map_drop, List.mem_map] at hx
    obtain ⟨p, hp, rfl⟩ := hx
    rcases hinv.after p hp with h1 | ⟨h1, h2⟩
    · linarith
    · subst h1; simpa using h2
  have hfe := findEnd_eq ((i : K) * -h) (((i : K) + 1) * -h) s.used (s.xi.drop s.used) s.used hmax
  -- what is delivered
  set T := (S.drop s.used).takeWhile (fun p => decide (((i : K) + 1) * -h ≤ p.xi)) with hT
  have hlen : ((s.xi.drop s.used).takeWhile (fun x => decide (((i : K) + 1) * -h ≤ x))).length
      = T.length := by
    rw [hinv.xi, ← List.map_drop, List.takeWhile_map, List.length_map]
    rfl
  rw [hlen] at hfe
  have hTpre : (S.drop s.used).take T.length = T :=
    (List.prefix_iff_eq_take.mp (List.takeWhile_prefix _)).symm
  have hslice : slice S s.used (s.used + T.length) = T := by
    unfold slice
    rw [List.drop_take, Nat.add_sub_cancel_left, hTpre]
  have hslice' : slice s.particles s.used (s.used + T.length) = T := by
    rcases hinv.parts with hp | ⟨hp, hlast⟩
    · rw [hp, hslice]
    · rw [hp]
      -- the stub is not delivered
      have hTle : s.used + T.length ≤ S.length - 1 ∨ S = [] ∨ T = [] := by
        by_contra hcon
        push Not at hcon
        obtain ⟨h1, h2, h3⟩ := hcon
        have hTl : T.length ≤ (S.drop s.used).length := (List.takeWhile_prefix _).length_le
        rw [List.length_drop] at hTl
        have hU := hinv.used
        have hfull : T = S.drop s.used := by
          rw [← hTpre]; apply List.take_of_length_le; rw [List.length_drop]; omega
        have hSl := List.getLast?_eq_some_getLast h2
        have hmem : S.getLast h2 ∈ T := by
          rw [hfull]
          have hne : S.drop s.used ≠ [] := by rw [← hfull]; exact h3
          rw [← List.getLast_drop hne]
          exact List.getLast_mem hne
        have hge : ((i : K) + 1) * -h ≤ (S.getLast h2).xi := by
          rw [hT] at hmem
          have := of_mem_takeWhile hmem
          simpa using this
        have := hlast _ hSl
        linarith
      rcases hTle with h1 | h1 | h1
      · refine Eq.trans ?_ hslice
        unfold slice
        rw [List.dropLast_eq_take, List.take_take, min_eq_left h1]
      · subst h1; simp [slice] at hslice ⊢; exact hslice
      · rw [h1]; unfold slice
        rw [List.length_nil, Nat.add_zero, List.drop_eq_nil_iff]
        simp
  have hTf : T = S.filter (fun p => decide (InLayer h i p.xi)) := by
    have hsub : (S.drop s.used).Pairwise (fun p q => q.xi ≤ p.xi) :=
      hS.sublist (List.drop_sublist _ _)
    rw [hT, takeWhile_eq_filter_of_sorted Particle.xi _ _ hsub]
    conv_rhs => rw [← List.take_append_drop s.used S, List.filter_append]
    have hnil : (S.take s.used).filter (fun p => decide (InLayer h i p.xi)) = [] := by
      rw [List.filter_eq_nil_iff]
      intro p hp
      obtain ⟨h1, h2⟩ := hinv.before p hp
      simp only [decide_eq_true_eq]
      rintro ⟨-, h3 | h3⟩
      · linarith
      · omega
    rw [hnil, List.nil_append]
    apply List.filter_congr
    intro p hp
    rw [decide_eq_decide]
    unfold InLayer
    rcases hinv.after p hp with h1 | ⟨h1, h2⟩
    · constructor
      · intro h3; exact ⟨by linarith, Or.inl h1⟩
      · intro h3; linarith [h3.1]
    · constructor
      · intro h3; exact ⟨by linarith, Or.inr h1⟩
      · intro h3; linarith [h3.1]
  have hUL : s.used + T.length ≤ S.length := by
    have hTl : T.length ≤ (S.drop s.used).length := (List.takeWhile_prefix _).length_le
    rw [List.length_drop] at hTl
    have := hinv.used
    omega
  unfold Source.getBeamLayer Source.getBeamSlice findSubSlice
  simp only [hfe, Nat.add_sub_cancel_left]
  refine ⟨?_, ⟨hinv.xi, hinv.parts, hUL, ?_, ?_⟩⟩
  · rw [hslice', hTf]
  · intro p hp
    refine ⟨?_, Nat.succ_pos i⟩
    push_cast
    simp only at hp
    rw [List.take_add, hTpre, List.mem_append] at hp
    rcases hp with hp | hp
    · obtain ⟨h1, h2⟩ := hinv.before p hp
      linarith
    · rw [hT] at hp
      have := of_mem_takeWhile hp
      simp at this; linarith
  · intro p hp
    left
    push_cast
    simp only at hp
    have hdrop : S.drop (s.used + T.length) =
        (S.drop s.used).dropWhile (fun p => decide (((i : K) + 1) * -h ≤ p.xi)) := by
      rw [← List.drop_drop]
      conv_lhs => rw [← List.takeWhile_append_dropWhile
        (p := fun p : Particle K => decide (((i : K) + 1) * -h ≤ p.xi)) (l := S.drop s.used)]
      rw [← hT, List.drop_left]
    rw [hdrop] at hp
    have hsub : ((S.drop s.used).dropWhile (fun p => decide (((i : K) + 1) * -h ≤ p.xi))).Pairwise
        (fun p q => q.xi ≤ p.xi) :=
      (hS.sublist (List.drop_sublist _ _)).sublist (List.dropWhile_sublist _)
    cases hd : (S.drop s.used).dropWhile (fun p => decide (((i : K) + 1) * -h ≤ p.xi)) with
    | nil => rw [hd] at hp; simp at hp
    | cons a l =>
      have ha : ¬ (((i : K) + 1) * -h ≤ a.xi) := by
        have := List.head_dropWhile_not (fun p : Particle K => decide (((i : K) + 1) * -h ≤ p.xi))
          (l := S.drop s.used) (by rw [hd]; simp)
        simp only [hd, List.head_cons, decide_eq_false_iff_not] at this
        exact this
      rw [hd] at hp hsub
      have hle : p.xi ≤ a.xi := by
        rcases List.mem_cons.mp hp with rfl | hp'
        · exact le_refl _
        · exact (List.pairwise_cons.mp hsub).1 p hp'
      linarith [not_le.mp ha]

theorem layers_of_inv (S : List (Particle K)) (hS : S.Pairwise (fun p q => q.xi ≤ p.xi))
    (h : K) (hh : 0 < h) (n : ℕ) (s : Source K) (i : ℕ) (hinv : SrcInv S h s i)
    (hlim : ((i : K) + n) * h ≤ 99999) :
    (Source.layers h s i n).1 =
      (List.range' i n).map (fun j => Beam.fresh (S.filter (fun p => decide (InLayer h j p.xi)))) := by
  induction n generalizing s i with
  | zero => rfl
  | succ n ih =>
    obtain ⟨h1, h2⟩ := getBeamLayer_step S hS h hh s i hinv (by
      push_cast at hlim
      have : (0 : K) ≤ n * h := by positivity
      nlinarith)
    have := ih (s.getBeamLayer h i).2 (i + 1) h2 (by push_cast at hlim ⊢; linarith)
    simp only [Source.layers, List.range'_succ, List.map_cons]
    rw [this, h1]

theorem init_inv (argsort : List K → List ℕ) (hs : IsArgsort (· ≤ ·) argsort)
    (b : Beam K) (hb : b.WF) (hhead : ∀ p ∈ b.particles, p.xi ≤ 0) (h : K) :
    ∃ S : List (Particle K), S.Perm b.particles ∧ S.Pairwise (fun p q => q.xi ≤ p.xi) ∧
      SrcInv S h (Source.init argsort b) 0 := by
  by_cases he : b.particles = []
  · refine ⟨[], by rw [he], List.Pairwise.nil, ?_⟩
    have : Source.init argsort b = ⟨[], [], 0⟩ := by simp [Source.init, he]
    rw [this]
    exact ⟨rfl, Or.inl rfl, by simp, by simp, by simp⟩
  · obtain ⟨h1, h2, h3⟩ := sort_rows argsort hs b hb
    have hperm : (b.sort argsort).particles.Perm b.particles := by
      rw [← rows_particles hb, ← rows_particles h2]; exact h1.map _
    refine ⟨(b.sort argsort).particles, hperm, h3, ?_⟩
    set S := (b.sort argsort).particles with hSd
    have hne : S ≠ [] := fun hc => he (by
      have := hperm; rw [hc] at this; exact (List.nil_perm.mp this))
    have hinit : Source.init argsort b =
        ⟨if (S.getLast hne).xi + 100000 < 1 then S.dropLast else S, S.map Particle.xi, 0⟩ := by
      unfold Source.init
      rw [if_neg he]
      simp only [← hSd, List.getLast?_map, List.getLast?_eq_some_getLast hne, Option.map_some]
    rw [hinit]
    refine ⟨rfl, ?_, by simp, by simp, ?_⟩
    · simp only
      split_ifs with hc
      · right
        refine ⟨rfl, fun p hp => ?_⟩
        rw [List.getLast?_eq_some_getLast hne, Option.some.injEq] at hp
        subst hp; linarith
      · left; rfl
    · intro p hp
      right
      exact ⟨rfl, hhead p (hperm.mem_iff.mp (by simpa using hp))⟩

/-- C04: for every beam lying behind the head of the window, every positive step and every
number of layers within the supported window length, the sweep receives in layer `i` exactly
the particles of that layer (fresh, not yet substepped), in order from head to tail. -/
theorem source_layers (argsort : List K → List ℕ) (hs : IsArgsort (· ≤ ·) argsort)
    (b : Beam K) (hb : b.WF) (hhead : ∀ p ∈ b.particles, p.xi ≤ 0)
    (h : K) (hh : 0 < h) (n : ℕ) (hlim : n * h ≤ 99999) :
    ∃ S : List (Particle K), S.Perm b.particles ∧ S.Pairwise (fun p q => q.xi ≤ p.xi) ∧
      (Source.layers h (Source.init argsort b) 0 n).1 =
        (List.range n).map (fun i => Beam.fresh (S.filter (fun p => decide (InLayer h i p.xi)))) := by
  obtain ⟨S, h1, h2, h3⟩ := init_inv argsort hs b hb hhead h
  refine ⟨S, h1, h2, ?_⟩
  rw [layers_of_inv S h2 h hh n _ 0 h3 (by simpa using hlim), List.range_eq_range']

theorem filter_layers_flatten (h : K) (hh : 0 < h) (S : List (Particle K))
    (hhead : ∀ p ∈ S, p.xi ≤ 0) (n : ℕ) :
    (((List.range n).map (fun i => S.filter (fun p => decide (InLayer h i p.xi)))).flatten).Perm
      (if n = 0 then [] else S.filter (fun p => decide (-(n * h) ≤ p.xi))) := by
  induction n with
  | zero => simp
  | succ n ih =>
    rw [List.range_succ, List.map_append, List.flatten_append]
    simp only [List.map_cons, List.map_nil, List.flatten_cons, List.flatten_nil, List.append_nil,
      Nat.succ_ne_zero, if_false]
    refine (ih.append_right _).trans ?_
    by_cases hn : n = 0
    · subst hn
      simp only [if_true, List.nil_append]
      apply List.Perm.of_eq
      apply List.filter_congr
      intro p _
      rw [decide_eq_decide]
      unfold InLayer
      simp
    · simp only [hn, if_false]
      have e1 : S.filter (fun p => decide (-(n * h) ≤ p.xi)) =
          (S.filter (fun p => decide (-(((n + 1 : ℕ) : K) * h) ≤ p.xi))).filter
            (fun p => decide (-(n * h) ≤ p.xi)) := by
        rw [List.filter_filter]
        apply List.filter_congr
        intro p _
        rw [← Bool.decide_and, decide_eq_decide]
        push_cast
        constructor
        · intro h1; exact ⟨h1, by linarith⟩
        · exact fun h1 => h1.1
      have e2 : S.filter (fun p => decide (InLayer h n p.xi)) =
          (S.filter (fun p => decide (-(((n + 1 : ℕ) : K) * h) ≤ p.xi))).filter
            (fun p => !decide (-(n * h) ≤ p.xi)) := by
        rw [List.filter_filter]
        apply List.filter_congr
        intro p _
        rw [← decide_not, ← Bool.decide_and, decide_eq_decide]
        unfold InLayer
        push_cast
        simp [hn, and_comm]
      rw [e1, e2]
      exact List.filter_append_perm _ _

/-- C04: over a whole sweep of `n` layers every particle within the window is delivered exactly
once, and nothing else is. -/
theorem source_delivers_once (argsort : List K → List ℕ) (hs : IsArgsort (· ≤ ·) argsort)
    (b : Beam K) (hb : b.WF) (hhead : ∀ p ∈ b.particles, p.xi ≤ 0)
    (h : K) (hh : 0 < h) (n : ℕ) (hn : 0 < n) (hlim : n * h ≤ 99999) :
    (((Source.layers h (Source.init argsort b) 0 n).1.map Beam.particles).flatten).Perm
      (b.particles.filter (fun p => decide (-(n * h) ≤ p.xi))) := by
  obtain ⟨S, h1, h2, h3⟩ := source_layers argsort hs b hb hhead h hh n hlim
  rw [h3, List.map_map]
  have := filter_layers_flatten h hh S (fun p hp => hhead p (h1.mem_iff.mp hp)) n
  rw [if_neg (by omega)] at this
  refine this.trans (h1.filter _)

/-- C04, refutation of the general claim: one particle ahead of the window head (`xi > 0`) blocks
the source for the whole sweep -- every layer comes out empty, however many particles the
window holds. (beam_io.py:74-77 returns an empty slice without advancing.) -/
theorem source_blocked_by_head (s : Source K) (h : K) (hh : 0 < h) (x : K) (xs : List K)
    (hxi : s.xi.drop s.used = x :: xs) (hx : 0 < x) (i n : ℕ) :
    (Source.layers h s i n).1 = List.replicate n (Beam.fresh []) ∧
      (Source.layers h s i n).2 = s := by
  induction n generalizing i with
  | zero => simp [Source.layers]
  | succ n ih =>
    have hstep : s.getBeamLayer h i = (Beam.fresh [], s) := by
      unfold Source.getBeamLayer Source.getBeamSlice findSubSlice
      have hi : (0 : K) ≤ (i : K) * h := by positivity
      rw [hxi]
      unfold findEnd
      have h1 : ¬ (x - ((i : K) + 1) * -h < 0) := by
        have : (0 : K) ≤ ((i : K) + 1) * h := by positivity
        linarith
      have h2 : x - (i : K) * -h > 0 := by linarith
      simp only [h1, h2, if_true, if_false, Nat.sub_self, Nat.add_zero]
      simp [slice]
    simp only [Source.layers, hstep, ih (i + 1), List.replicate_succ, and_self]

section examples
/-- Three particles in a two-layer window, one of them exactly on the layer edge. -/
def demoSource : Source ℚ :=
  Source.init (fun keys => if keys.length = 3 then [2, 0, 1] else List.range keys.length)
    (Beam.fresh [⟨-1, 0, 0, 0, 0, 1, 1, 7⟩, ⟨-3/2, 0, 0, 0, 0, 1, 1, 8⟩, ⟨-1/4, 0, 0, 0, 0, 1, 1, 9⟩])

example : ((Source.layers 1 demoSource 0 2).1.map (fun b => b.particles.map Particle.id)) =
    [[9, 7], [8]] := by decide +kernel

/-- With a particle ahead of the head nothing is delivered. -/
example : ((Source.layers 1 (Source.init (fun keys => List.range keys.length)
    (Beam.fresh [(⟨1/2, 0, 0, 0, 0, 1, 1, 7⟩ : Particle ℚ), ⟨-1/2, 0, 0, 0, 0, 1, 1, 8⟩])) 0 2).1.map
      (fun b => b.particles.map Particle.id)) = [[], []] := by decide +kernel
end examples

end C04

end Lcode.Beam2D
