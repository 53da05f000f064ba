import Verif.Mpi.Causality

/-!
C45 in 3D. A 3D particle that has done its substeps but whose x is below the xi of the next layer waits in the layer loop (beam3d/move.py:120-127), possibly for many layers, so
it may be drained far behind its own layer; but it does not change any more, so the bound on the domain of dependence is the same as in 2D.
-/

namespace Lcode.Mpi

open Lcode.Beam3D
open Lcode.Beam2D (substepFraction IsArgsort)
open Lcode.Plasma3D (Fields3)

variable {σ : Type}

/-- No substep carries a particle ahead of its own half-step point (the point that decides whether it is still in the layer). -/
def NoRush3 (env : Env3 σ) : Prop :=
  ∀ (idx : ℤ) (s s' : σ) (r r' : Row ℝ), 0 ≤ r.dt →
    (turn env.cfg idx (env.fields s) (env.fields s') r = .next r' ∨ turn env.cfg idx (env.fields s) (env.fields s') r = .lost r') → r'.xi ≤ (halfPos r).z

/-- A particle waiting that has its bound on xi: itself, or its next half-step point, is behind `B`. -/
def Active (B : ℝ) (r : Row ℝ) : Prop := r.xi < B ∨ (0 < r.remaining ∧ (halfPos r).z < B)

theorem chain_active (env : Env3 σ) (hr : NoRush3 env) (idx : ℤ) (s s' : σ) (k : ℕ) (r m : Row ℝ) (hdt : 0 ≤ r.dt) (B : ℝ) (h : r.xi < B ∨ (halfPos r).z < B)
    (hc : Chain env.cfg idx (env.fields s) (env.fields s') k r m) : m.xi < B ∨ (k = 0 ∧ m = r) := by
  cases hc with
  | refl => exact Or.inr ⟨rfl, rfl⟩
  | @step k _ m' _ ht hc =>
    left
    have hdt' : 0 ≤ m'.dt := by rw [(turn_next _ _ _ _ _ _ ht).2.2.2.2.2.2.1]; exact hdt
    have h1 := hc.xi_le hdt'
    have h2 := turn_xi _ _ _ _ r m' hdt (Or.inl ht)
    have h3 := hr idx s s' r m' hdt (Or.inl ht)
    rcases h with h | h <;> linarith

/-- A particle through one iteration: what is finished is behind the bound, and what is handed on either has finished behind the bound or its half-step point is behind the layer. -/
theorem push_active (env : Env3 σ) (hr : NoRush3 env) (idx : ℤ) (s s' : σ) (r : Row ℝ) (hrem : 0 ≤ r.remaining) (hdt : 0 ≤ r.dt) (B : ℝ) (h : Active B r) :
    ((pushRow env.cfg idx (env.fields s) (env.fields s') r).moved = true → (pushRow env.cfg idx (env.fields s) (env.fields s') r).row.xi < B) ∧
    ((pushRow env.cfg idx (env.fields s) (env.fields s') r).fell = true →
      ((pushRow env.cfg idx (env.fields s) (env.fields s') r).row.remaining = 0 ∧ (pushRow env.cfg idx (env.fields s) (env.fields s') r).row.xi < B) ∨
      (0 < (pushRow env.cfg idx (env.fields s) (env.fields s') r).row.remaining ∧ (halfPos (pushRow env.cfg idx (env.fields s) (env.fields s') r).row).z < -(env.cfg.dxi * (idx + 1)))) := by
  obtain ⟨n, hn⟩ := Int.eq_ofNat_of_zero_le hrem
  have hh : r.xi < B ∨ (halfPos r).z < B := h.imp id And.right
  set o := pushRow env.cfg idx (env.fields s) (env.fields s') r with ho
  rcases push_outcomes env.cfg idx (env.fields s) (env.fields s') n r hn with ⟨k, hk, hc, h1, h2, h3, h4, h5⟩ | ⟨k, m, hk, hc, h1, h2, h3, h4, h5, h6, h7⟩ | ⟨hc, h1, h2, h3, h4⟩
  · rw [← ho] at hc h1 h2 h4 h5
    refine ⟨fun h => by rw [h5] at h; simp at h, fun _ => Or.inr ⟨by rw [h2]; omega, h1⟩⟩
  · rw [← ho] at h1 h2 h6
    refine ⟨fun h => by rw [h6] at h; simp at h, fun _ => Or.inl ⟨h2, ?_⟩⟩
    have hdtm : 0 ≤ m.dt := by rw [(hc.invariant).2.2.2.1]; exact hdt
    have t1 := turn_xi _ _ _ _ m o.row hdtm (Or.inr h1)
    rcases chain_active env hr idx s s' k r m hdt B hh hc with h | ⟨-, rfl⟩
    · linarith
    · have t2 := hr idx s s' m o.row hdt (Or.inr h1)
      rcases hh with h | h <;> linarith
  · rw [← ho] at hc h1
    have hx : o.row.xi < B := by
      rcases chain_active env hr idx s s' n r o.row hdt B hh hc with h | ⟨h0, he⟩
      · exact h
      · rw [he]
        rcases h with h | ⟨h, -⟩
        · exact h
        · rw [hn, h0] at h; simp at h
    exact ⟨fun _ => hx, fun _ => Or.inl ⟨h1, hx⟩⟩

/-- The position of layer `j`'s head, `-(dxi * (j - 1))` for the layer moved in iteration `j`. -/
noncomputable def headOf (env : Env3 σ) (j : ℕ) : ℝ := -(env.cfg.dxi * ((j : ℝ) - 1))

/-- What is known of the particles waiting before iteration `j`. -/
structure Waits (env : Env3 σ) (j : ℕ) (fresh fell : List (Row ℝ)) : Prop where
  fresh : ∀ r ∈ fresh, r.xi < headOf env j ∧ r.xi < 0
  fell : ∀ r ∈ fell, Behind r ∧ (r.remaining = 0 ∨ (0 < r.remaining ∧ (halfPos r).z < headOf env j))

theorem initRow_fine (env : Env3 σ) (hts : 0 ≤ env.timeStep) (q : Row ℝ) : 0 ≤ (initRow env.timeStep env.energy q).remaining ∧ 0 ≤ (initRow env.timeStep env.energy q).dt := by
  have hf : 0 ≤ substepFraction q.qm q.pz env.energy := by
    unfold substepFraction
    split_ifs with h
    · obtain ⟨fuel, hf⟩ := h.choose_spec
      obtain ⟨k, -, hk, -⟩ := Lcode.Beam2D.halvingLoop_spec _ _ _ _ hf
      rw [hk]; positivity
    · exact le_rfl
  exact ⟨pyInt_nonneg _ (one_div_nonneg.mpr hf), mul_nonneg hf hts⟩

/-- One iteration, with the particles already done singled out. -/
theorem waits_step (env : Env3 σ) (hr : NoRush3 env) (hts : 0 ≤ env.timeStep) (j : ℕ) (s s' : σ) (fresh fell : List (Row ℝ)) (hw : Waits env j fresh fell) :
    (∀ m ∈ moved3D env j (env.fields s) (env.fields s') fresh fell, m.fell = true → Behind m.row ∧ (m.row.remaining = 0 ∨ (0 < m.row.remaining ∧ (halfPos m.row).z < headOf env (j + 1)))) ∧
    (∀ i : ℕ, headOf env j ≤ -(env.cfg.dxi * ((i : ℝ) + 1)) →
      (((moved3D env j (env.fields s) (env.fields s') fresh fell).filter Moved.moved).map Moved.row).filter (fun r => decide (InLayer env.cfg.dxi i r.xi)) =
        (fell.filter fun r => decide (r.remaining = 0) && decide (InLayer env.cfg.dxi i r.xi)).filter (fun r => decide (-(env.cfg.dxi * j) ≤ r.x)) ∧
      (((moved3D env j (env.fields s) (env.fields s') fresh fell).filter Moved.fell).map Moved.row).filter (fun r => decide (r.remaining = 0) && decide (InLayer env.cfg.dxi i r.xi)) =
        (fell.filter fun r => decide (r.remaining = 0) && decide (InLayer env.cfg.dxi i r.xi)).filter (fun r => decide (r.x < -(env.cfg.dxi * j)))) := by
  have eidx : -(env.cfg.dxi * ((((j : ℤ) - 1 : ℤ) : ℝ) + 1)) = -(env.cfg.dxi * j) := by push_cast; ring
  have ehead : headOf env (j + 1) = -(env.cfg.dxi * j) := by unfold headOf; push_cast; ring
  -- every row pushed is either done or active
  have hrow : ∀ r ∈ fresh.map (initRow env.timeStep env.energy) ++ fell, Behind r ∧ ((r ∈ fell ∧ r.remaining = 0) ∨ Active (headOf env j) r) := by
    intro r hr'
    rcases List.mem_append.mp hr' with h | h
    · obtain ⟨q, hq, rfl⟩ := List.mem_map.mp h
      obtain ⟨a, b⟩ := hw.fresh q hq
      obtain ⟨c, d⟩ := initRow_fine env hts q
      exact ⟨⟨b, c, d⟩, Or.inr (Or.inl a)⟩
    · obtain ⟨a, b⟩ := hw.fell r h
      exact ⟨a, b.imp (fun h0 => ⟨h, h0⟩) Or.inr⟩
  constructor
  · intro m hm hf
    unfold moved3D at hm
    obtain ⟨r, hr', rfl⟩ := List.mem_map.mp hm
    obtain ⟨hb, hcase⟩ := hrow r hr'
    refine ⟨push_behind env _ _ _ r hb, ?_⟩
    rcases hcase with ⟨-, h0⟩ | ha
    · left
      rw [(push_waiting env.cfg _ _ _ r h0).1]; exact h0
    · rcases (push_active env hr _ s s' r hb.2.1 hb.2.2 _ ha).2 hf with h | ⟨h1, h2⟩
      · exact Or.inl h.1
      · right
        rw [eidx] at h2
        rw [ehead]
        exact ⟨h1, h2⟩
  · intro i hi
    have hnot : ∀ x : ℝ, x < headOf env j → decide (InLayer env.cfg.dxi i x) = false := by
      intro x hx
      rw [decide_eq_false_iff_not]
      intro hc
      have := hc.1
      linarith
    have gen : ∀ l : List (Row ℝ), (∀ r ∈ l, Behind r ∧ (r.remaining = 0 ∨ Active (headOf env j) r)) →
        (((l.map (pushRow env.cfg ((j : ℤ) - 1) (env.fields s) (env.fields s'))).filter Moved.moved).map Moved.row).filter (fun r => decide (InLayer env.cfg.dxi i r.xi)) =
          (l.filter fun r => decide (r.remaining = 0) && decide (InLayer env.cfg.dxi i r.xi)).filter (fun r => decide (-(env.cfg.dxi * j) ≤ r.x)) ∧
        (((l.map (pushRow env.cfg ((j : ℤ) - 1) (env.fields s) (env.fields s'))).filter Moved.fell).map Moved.row).filter (fun r => decide (r.remaining = 0) && decide (InLayer env.cfg.dxi i r.xi)) =
          (l.filter fun r => decide (r.remaining = 0) && decide (InLayer env.cfg.dxi i r.xi)).filter (fun r => decide (r.x < -(env.cfg.dxi * j))) := by
      intro l
      induction l with
      | nil => intro _; exact ⟨rfl, rfl⟩
      | cons r l ih =>
        intro hl
        obtain ⟨ih1, ih2⟩ := ih fun r hr => hl r (List.mem_cons_of_mem _ hr)
        obtain ⟨hb, hcase⟩ := hl r List.mem_cons_self
        by_cases h0 : r.remaining = 0
        · obtain ⟨w1, -, w3, w4⟩ := push_waiting env.cfg ((j : ℤ) - 1) (env.fields s) (env.fields s') r h0
          rw [eidx] at w3 w4
          simp only [List.map_cons, List.filter_cons]
          by_cases hx : -(env.cfg.dxi * j) ≤ r.x
          · have m1 := w3.mpr hx
            have m2 : ¬ (pushRow env.cfg ((j : ℤ) - 1) (env.fields s) (env.fields s') r).fell = true := fun h => by have := w4.mp h; linarith
            rw [if_pos m1, if_neg m2]
            by_cases hin : decide (InLayer env.cfg.dxi i r.xi) = true
            · simp only [List.map_cons, List.filter_cons, w1, hin, h0, decide_true, Bool.and_self, if_true, hx, not_lt.mpr hx, decide_false]
              exact ⟨by rw [ih1], by simpa using ih2⟩
            · simp only [List.map_cons, List.filter_cons, w1, hin, h0, decide_true, Bool.and_false]
              exact ⟨by simpa using ih1, by simpa using ih2⟩
          · have hx' := not_le.mp hx
            have m1 := w4.mpr hx'
            have m2 : ¬ (pushRow env.cfg ((j : ℤ) - 1) (env.fields s) (env.fields s') r).moved = true := fun h => by have := w3.mp h; linarith
            rw [if_pos m1, if_neg m2]
            by_cases hin : decide (InLayer env.cfg.dxi i r.xi) = true
            · simp only [List.map_cons, List.filter_cons, w1, hin, h0, decide_true, Bool.and_self, if_true, hx', hx, decide_false]
              exact ⟨by simpa using ih1, by rw [ih2]⟩
            · simp only [List.map_cons, List.filter_cons, w1, hin, h0, decide_true, Bool.and_false]
              exact ⟨by simpa using ih1, by simpa using ih2⟩
        · have ha := hcase.resolve_left h0
          obtain ⟨p1, p2⟩ := push_active env hr ((j : ℤ) - 1) s s' r hb.2.1 hb.2.2 _ ha
          set o := pushRow env.cfg ((j : ℤ) - 1) (env.fields s) (env.fields s') r with ho
          have hd : (decide (r.remaining = 0) && decide (InLayer env.cfg.dxi i r.xi)) = false := by simp [h0]
          simp only [List.map_cons, List.filter_cons, ← ho, hd, Bool.false_eq_true, if_false]
          constructor
          · by_cases hm : o.moved = true
            · rw [if_pos hm, List.map_cons, List.filter_cons, if_neg (by rw [hnot _ (p1 hm)]; simp)]
              exact ih1
            · rw [if_neg hm]; exact ih1
          · by_cases hf : o.fell = true
            · rw [if_pos hf, List.map_cons, List.filter_cons, if_neg]
              · exact ih2
              · rcases p2 hf with ⟨-, h⟩ | ⟨h, -⟩
                · rw [hnot _ h]; simp
                · have : ¬ o.row.remaining = 0 := by omega
                  simp [this]
            · rw [if_neg hf]; exact ih2
    have hl := gen (fresh.map (initRow env.timeStep env.energy) ++ fell) (fun r hr' => ⟨(hrow r hr').1, (hrow r hr').2.imp And.right id⟩)
    -- fresh particles are never counted
    have hfr : ((fresh.map (initRow env.timeStep env.energy)).filter fun r => decide (r.remaining = 0) && decide (InLayer env.cfg.dxi i r.xi)) = [] := by
      rw [List.filter_eq_nil_iff]
      intro r hr'
      obtain ⟨q, hq, rfl⟩ := List.mem_map.mp hr'
      have := hnot (initRow env.timeStep env.energy q).xi (hw.fresh q hq).1
      rw [this]; simp
    rw [List.filter_append, hfr, List.nil_append] at hl
    exact hl

/-- Layers as a predicate for the general theory. -/
noncomputable abbrev inLayer3 (env : Env3 σ) (j : ℕ) (p : Row ℝ) : Bool := decide (InLayer env.cfg.dxi j p.xi)

/-- Rows of the array of a beam behind the window head. -/
abbrev ok3 (p : Row ℝ) : Prop := p.xi < 0 ∧ strip p = p

theorem waits_at (env : Env3 σ) (argsort : List ℝ → List ℕ) (hr : NoRush3 env) (hts : 0 ≤ env.timeStep) (plasma0 : ℝ → σ) (time : ℝ) (N : ℕ) (inp : ℕ → List (Row ℝ))
    (hin : Placed N (inLayer3 env) ok3 inp) (j : ℕ) (hj : j ≤ N + 1) :
    ∃ fresh fell, (stAt (world3D env argsort plasma0) ((world3D env argsort plasma0).init time) inp j).toMove = Beam.ofRows (fresh ++ fell) ∧
      (stAt (world3D env argsort plasma0) ((world3D env argsort plasma0).init time) inp j).fellSize = fell.length ∧ Waits env j fresh fell := by
  induction j with
  | zero => exact ⟨[], [], rfl, rfl, ⟨by simp, by simp⟩⟩
  | succ j ih =>
    obtain ⟨fresh, fell, h1, h2, hw⟩ := ih (by omega)
    have e := layer3D_rows env _ fresh fell h1 h2 j (inp j)
    simp only at e
    have e' : stAt (world3D env argsort plasma0) ((world3D env argsort plasma0).init time) inp (j + 1) = (layer3D env (stAt (world3D env argsort plasma0) ((world3D env argsort plasma0).init time) inp j) j (inp j)).1 := rfl
    rw [e', e]
    refine ⟨_, _, rfl, rfl, ?_, ?_⟩
    · intro r hr'
      obtain ⟨q, hq, rfl⟩ := List.mem_map.mp hr'
      obtain ⟨⟨a, -⟩, b⟩ := hin j (by omega) q hq
      have := (of_decide_eq_true b).2
      refine ⟨?_, a⟩
      have eh : headOf env (j + 1) = -(env.cfg.dxi * j) := by unfold headOf; push_cast; ring
      rw [eh]; exact this
    · intro r hr'
      obtain ⟨m, hm, rfl⟩ := List.mem_map.mp hr'
      obtain ⟨hm1, hm2⟩ := List.mem_filter.mp hm
      exact (waits_step env hr hts j _ _ fresh fell hw).1 m hm1 hm2

/-- The particles in the layer loop that have done their substeps and lie in layer `i`. -/
noncomputable def doneIn (env : Env3 σ) (i : ℕ) (s : St3D σ) : List (Row ℝ) :=
  (s.toMove.rows.drop (s.toMove.rows.length - s.fellSize)).filter fun r => decide (r.remaining = 0) && decide (InLayer env.cfg.dxi i r.xi)

theorem doneIn_eq (env : Env3 σ) (i : ℕ) (s : St3D σ) (fresh fell : List (Row ℝ)) (h1 : s.toMove = Beam.ofRows (fresh ++ fell)) (h2 : s.fellSize = fell.length) :
    doneIn env i s = fell.filter fun r => decide (r.remaining = 0) && decide (InLayer env.cfg.dxi i r.xi) := by
  unfold doneIn
  rw [h1, rows_ofRows, h2, List.length_append, Nat.add_sub_cancel, List.drop_left]

/-- After iteration `i + 1`, what is drained in layer `i` was done before. -/
theorem late_iteration (env : Env3 σ) (argsort : List ℝ → List ℕ) (hr : NoRush3 env) (hd : 0 < env.cfg.dxi) (hts : 0 ≤ env.timeStep) (plasma0 : ℝ → σ) (dt : ℝ) (g N : ℕ) (inp : ℕ → List (Row ℝ))
    (hin : Placed N (inLayer3 env) ok3 inp) (i j : ℕ) (hij : i + 2 ≤ j) (hj : j ≤ N) :
    (finished (world3D env argsort plasma0) dt g inp j).filter (inLayer3 env i) =
      ((doneIn env i (stAt (world3D env argsort plasma0) ((world3D env argsort plasma0).init (timeOf dt g)) inp j)).filter (fun r => decide (-(env.cfg.dxi * j) ≤ r.x))).map strip ∧
    doneIn env i (stAt (world3D env argsort plasma0) ((world3D env argsort plasma0).init (timeOf dt g)) inp (j + 1)) =
      (doneIn env i (stAt (world3D env argsort plasma0) ((world3D env argsort plasma0).init (timeOf dt g)) inp j)).filter (fun r => decide (r.x < -(env.cfg.dxi * j))) := by
  obtain ⟨fresh, fell, h1, h2, hw⟩ := waits_at env argsort hr hts plasma0 (timeOf dt g) N inp hin j (by omega)
  have e := layer3D_rows env _ fresh fell h1 h2 j (inp j)
  simp only at e
  have hi : headOf env j ≤ -(env.cfg.dxi * ((i : ℝ) + 1)) := by
    unfold headOf
    have : ((i : ℝ) + 2) ≤ j := by exact_mod_cast hij
    nlinarith
  obtain ⟨k1, k2⟩ := (waits_step env hr hts j
    (stAt (world3D env argsort plasma0) ((world3D env argsort plasma0).init (timeOf dt g)) inp j).plasma
    (plasma3D env (stAt (world3D env argsort plasma0) ((world3D env argsort plasma0).init (timeOf dt g)) inp j) j (inp j)) fresh fell hw).2 i hi
  rw [doneIn_eq env i _ fresh fell h1 h2]
  constructor
  · have e' : finished (world3D env argsort plasma0) dt g inp j = (layer3D env (stAt (world3D env argsort plasma0) ((world3D env argsort plasma0).init (timeOf dt g)) inp j) j (inp j)).2 := rfl
    rw [e', e, List.filter_map]
    rw [← k1]
    rfl
  · have e' : stAt (world3D env argsort plasma0) ((world3D env argsort plasma0).init (timeOf dt g)) inp (j + 1) = (layer3D env (stAt (world3D env argsort plasma0) ((world3D env argsort plasma0).init (timeOf dt g)) inp j) j (inp j)).1 := rfl
    rw [e', e]
    rw [doneIn_eq env i _ _ _ rfl rfl, k2]

/-- The 3D motion is local if no substep carries a particle ahead of its half-step point. -/
theorem local3D (env : Env3 σ) (argsort : List ℝ → List ℕ) (hs : IsArgsort (· ≤ ·) argsort) (hd : 0 < env.cfg.dxi) (hts : 0 ≤ env.timeStep) (hr : NoRush3 env) (plasma0 : ℝ → σ) (N : ℕ) (dt : ℝ) :
    Local (world3D env argsort plasma0) N dt (inLayer3 env) ok3 where
  okFinished := by
    intro g inp hin p hp
    obtain ⟨j, hj, hp⟩ := mem_allFinished hp
    obtain ⟨fresh, fell, h1, h2, hw⟩ := waits_at env argsort hr hts plasma0 (timeOf dt g) N inp hin j (by omega)
    have e := layer3D_rows env _ fresh fell h1 h2 j (inp j)
    simp only at e
    have e' : finished (world3D env argsort plasma0) dt g inp j = (layer3D env (stAt (world3D env argsort plasma0) ((world3D env argsort plasma0).init (timeOf dt g)) inp j) j (inp j)).2 := rfl
    rw [e', e] at hp
    simp only [List.mem_map] at hp
    obtain ⟨r, ⟨m, hm, rfl⟩, rfl⟩ := hp
    have hm := (List.mem_filter.mp hm).1
    unfold moved3D at hm
    obtain ⟨r, hr', rfl⟩ := List.mem_map.mp hm
    refine ⟨?_, rfl⟩
    refine (push_behind env _ _ _ r ?_).1
    rcases List.mem_append.mp hr' with h | h
    · obtain ⟨q, hq, rfl⟩ := List.mem_map.mp h
      exact ⟨(hw.fresh q hq).2, initRow_fine env hts q⟩
    · exact (hw.fell r h).1
  decided := by
    intro g a b i ha hb hiN hab
    have F := faithful3D env argsort hs hd plasma0 N
    set W := world3D env argsort plasma0 with hW
    have hfin : ∀ j, j ≤ N → ((finished W dt g a j).filter (inLayer3 env i)).Perm ((finished W dt g b j).filter (inLayer3 env i)) ∧
        (i + 2 ≤ j → (doneIn env i (stAt W (W.init (timeOf dt g)) a (j + 1))).Perm (doneIn env i (stAt W (W.init (timeOf dt g)) b (j + 1)))) := by
      have early : ∀ j, j ≤ N → j ≤ i + 1 → ((finished W dt g a j).filter (inLayer3 env i)).Perm ((finished W dt g b j).filter (inLayer3 env i)) := by
        intro j hj hji
        exact (finished_same F dt g a b j (fun k hk => hab k (by omega) (by omega)) j le_rfl).filter _
      intro j
      induction j with
      | zero => intro h; exact ⟨early 0 h (by omega), fun h => absurd h (by omega)⟩
      | succ j ih =>
        intro hj
        by_cases hji : j + 1 ≤ i + 1
        · exact ⟨early _ hj hji, fun h => absurd h (by omega)⟩
        · have hD : (doneIn env i (stAt W (W.init (timeOf dt g)) a (j + 1))).Perm (doneIn env i (stAt W (W.init (timeOf dt g)) b (j + 1))) := by
            by_cases hji' : i + 2 ≤ j
            · exact (ih (by omega)).2 hji'
            · have hst := stAt_same F (timeOf dt g) a b (j + 1) (fun k hk => hab k (by omega) (by omega)) (j + 1) le_rfl
              obtain ⟨-, -, -, fr, fe, fr', fe', a1, a2, b1, b2, -, p2⟩ := hst
              rw [doneIn_eq env i _ fr fe a1 a2, doneIn_eq env i _ fr' fe' b1 b2]
              exact p2.filter _
          obtain ⟨x1, x2⟩ := late_iteration env argsort hr hd hts plasma0 dt g N a ha i (j + 1) (by omega) hj
          obtain ⟨y1, y2⟩ := late_iteration env argsort hr hd hts plasma0 dt g N b hb i (j + 1) (by omega) hj
          rw [x1, y1]
          refine ⟨(hD.filter _).map _, fun _ => ?_⟩
          rw [x2, y2]
          exact hD.filter _
    unfold allFinished
    rw [List.filter_flatten, List.filter_flatten, List.map_map, List.map_map]
    apply perm_flatten_map
    intro j hj
    rw [List.mem_range] at hj
    exact (hfin j (by omega)).1

/-- C45 in 3D: layer `j` of time step `g` (the layer received, the plasma state and the beam density after it) is the same for two beams behind the window head that have the same
particles in the layers `0 .. j + g` of the window, if no substep carries a particle ahead of its half-step point. -/
theorem causality_3D (env : Env3 σ) (argsort : List ℝ → List ℕ) (hs : IsArgsort (· ≤ ·) argsort) (hd : 0 < env.cfg.dxi) (hts : 0 ≤ env.timeStep) (hr : NoRush3 env) (plasma0 : ℝ → σ) (N : ℕ) (dt : ℝ)
    (b b' : List (Row ℝ)) (hb : ∀ p ∈ b, p.xi < 0 ∧ strip p = p) (hb' : ∀ p ∈ b', p.xi < 0 ∧ strip p = p) (g j : ℕ) (hj : j ≤ N)
    (hsame : ∀ i, i ≤ j + g → i ≤ N → (b.filter fun p => decide (InLayer env.cfg.dxi i p.xi)).Perm (b'.filter fun p => decide (InLayer env.cfg.dxi i p.xi))) :
    (seqLayers (world3D env argsort plasma0) N dt b g j).Perm (seqLayers (world3D env argsort plasma0) N dt b' g j) ∧
    (stAt (world3D env argsort plasma0) ((world3D env argsort plasma0).init (timeOf dt g)) (seqLayers (world3D env argsort plasma0) N dt b g) (j + 1)).plasma =
      (stAt (world3D env argsort plasma0) ((world3D env argsort plasma0).init (timeOf dt g)) (seqLayers (world3D env argsort plasma0) N dt b' g) (j + 1)).plasma ∧
    (stAt (world3D env argsort plasma0) ((world3D env argsort plasma0).init (timeOf dt g)) (seqLayers (world3D env argsort plasma0) N dt b g) (j + 1)).rhoPrev =
      (stAt (world3D env argsort plasma0) ((world3D env argsort plasma0).init (timeOf dt g)) (seqLayers (world3D env argsort plasma0) N dt b' g) (j + 1)).rhoPrev := by
  obtain ⟨h1, h2, -⟩ := domain_of_dependence_local (faithful3D env argsort hs hd plasma0 N) dt (local3D env argsort hs hd hts hr plasma0 N dt) b b' hb hb' (j + g)
    (fun i hi hi' => hsame i hi hi') g j hj le_rfl
  exact ⟨h1, h2.1, h2.2.2.1⟩

/-- C45 in 3D, first time step: without any condition on the motion, plasma, fields and beam density of layer `j` depend only on the particles in the layers `0 .. j`. -/
theorem causality_first_step_3D (env : Env3 σ) (argsort : List ℝ → List ℕ) (hs : IsArgsort (· ≤ ·) argsort) (hd : 0 < env.cfg.dxi) (plasma0 : ℝ → σ) (N : ℕ) (dt : ℝ)
    (b b' : List (Row ℝ)) (hb : ∀ p ∈ b, p.xi < 0 ∧ strip p = p) (hb' : ∀ p ∈ b', p.xi < 0 ∧ strip p = p) (j : ℕ) (hj : j ≤ N)
    (hsame : ∀ i, i ≤ j → (b.filter fun p => decide (InLayer env.cfg.dxi i p.xi)).Perm (b'.filter fun p => decide (InLayer env.cfg.dxi i p.xi))) :
    (stAt (world3D env argsort plasma0) ((world3D env argsort plasma0).init (timeOf dt 0)) (seqLayers (world3D env argsort plasma0) N dt b 0) (j + 1)).plasma =
      (stAt (world3D env argsort plasma0) ((world3D env argsort plasma0).init (timeOf dt 0)) (seqLayers (world3D env argsort plasma0) N dt b' 0) (j + 1)).plasma ∧
    (finished (world3D env argsort plasma0) dt 0 (seqLayers (world3D env argsort plasma0) N dt b 0) j).Perm (finished (world3D env argsort plasma0) dt 0 (seqLayers (world3D env argsort plasma0) N dt b' 0) j) := by
  obtain ⟨-, h2, h3⟩ := domain_of_dependence (faithful3D env argsort hs hd plasma0 N) dt b b' 0 hb hb' (fun g hg => absurd hg (by omega)) (fun g hg => absurd hg (by omega)) j
    (fun i hi _ => hsame i hi) 0 le_rfl j hj le_rfl
  exact ⟨h2.1, h3⟩

/-- C45 in 3D: two beams behind the window head with the same particles in the window (in any order, and whatever is behind the window) give the same run. -/
theorem window_decides_3D (env : Env3 σ) (argsort : List ℝ → List ℕ) (hs : IsArgsort (· ≤ ·) argsort) (hd : 0 < env.cfg.dxi) (hts : 0 ≤ env.timeStep) (plasma0 : ℝ → σ) (N : ℕ) (dt : ℝ)
    (b b' : List (Row ℝ)) (hb : ∀ p ∈ b, p.xi < 0 ∧ strip p = p) (hb' : ∀ p ∈ b', p.xi < 0 ∧ strip p = p)
    (hsame : ∀ i, i ≤ N → (b.filter fun p => decide (InLayer env.cfg.dxi i p.xi)).Perm (b'.filter fun p => decide (InLayer env.cfg.dxi i p.xi))) (g : ℕ) :
    (∀ j, j ≤ N → (seqLayers (world3D env argsort plasma0) N dt b g j).Perm (seqLayers (world3D env argsort plasma0) N dt b' g j)) ∧
    (∀ j, j ≤ N + 1 → (stAt (world3D env argsort plasma0) ((world3D env argsort plasma0).init (timeOf dt g)) (seqLayers (world3D env argsort plasma0) N dt b g) j).plasma =
      (stAt (world3D env argsort plasma0) ((world3D env argsort plasma0).init (timeOf dt g)) (seqLayers (world3D env argsort plasma0) N dt b' g) j).plasma) ∧
    (allFinished (world3D env argsort plasma0) N dt g (seqLayers (world3D env argsort plasma0) N dt b g)).Perm (allFinished (world3D env argsort plasma0) N dt g (seqLayers (world3D env argsort plasma0) N dt b' g)) := by
  have hneg : ∀ g, ∀ p ∈ allFinished (world3D env argsort plasma0) N dt g (seqLayers (world3D env argsort plasma0) N dt b g), p.xi < 0 ∧ strip p = p := by
    have hsrc : ∀ b : List (Row ℝ), (∀ p ∈ b, p.xi < 0) → ∀ j, ∀ p ∈ srcLayer (world3D env argsort plasma0) ((world3D env argsort plasma0).mkSrc b) j, p.xi < 0 := by
      intro b hb j q hq
      have := (source3D env argsort hs hd plasma0 b hb j).mem_iff.mp hq
      obtain ⟨q', hq', rfl⟩ := List.mem_map.mp this
      exact hb q' (List.mem_filter.mp hq').1
    have hlay : ∀ g j, ∀ p ∈ seqLayers (world3D env argsort plasma0) N dt b g j, p.xi < 0 := by
      intro g
      induction g with
      | zero => exact hsrc b fun p hp => (hb p hp).1
      | succ g ih =>
        refine hsrc _ fun p hp => ?_
        obtain ⟨j, -, hp⟩ := mem_allFinished hp
        exact (stAt_behind env argsort hts plasma0 (timeOf dt g) _ ih j).2 p hp
    intro g p hp
    obtain ⟨j, -, hp⟩ := mem_allFinished hp
    exact ⟨(stAt_behind env argsort hts plasma0 (timeOf dt g) _ (hlay g) j).2 p hp, (finished_strip env argsort plasma0 dt g _ j).1 p hp⟩
  obtain ⟨h1, h2, h3⟩ := window_decides (faithful3D env argsort hs hd plasma0 N) dt b b' hb hb' hneg (fun i hi => hsame i hi) g
  exact ⟨h1, fun j hj => (h2 j hj).1, h3⟩

end Lcode.Mpi
