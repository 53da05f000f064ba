import Verif.Beam2D.Data

/-! Helper lemmas for the beam data model. -/

namespace Lcode.Beam2D

section lists
variable {α β : Type*}

theorem gather_range (l : List α) : gather l (List.range l.length) = l := by
  unfold gather
  induction l with
  | nil => rfl
  | cons a l ih =>
    rw [List.length_cons, List.range_succ_eq_map, List.filterMap_cons]
    simp only [List.getElem?_cons_zero, List.filterMap_map]
    congr 1

theorem gather_perm {l : List α} {idx : List ℕ} (h : idx.Perm (List.range l.length)) :
    (gather l idx).Perm l := by
  have := h.filterMap (fun i => l[i]?)
  rw [show (List.range l.length).filterMap (fun i => l[i]?) = l from gather_range l] at this
  exact this

theorem gather_map (f : α → β) (l : List α) (idx : List ℕ) :
    gather (l.map f) idx = (gather l idx).map f := by
  unfold gather
  rw [List.map_filterMap]
  simp

theorem gather_length {l : List α} {idx : List ℕ} (h : ∀ i ∈ idx, i < l.length) :
    (gather l idx).length = idx.length := by
  unfold gather
  induction idx with
  | nil => rfl
  | cons i idx ih =>
    have hi := h i (by simp)
    rw [List.filterMap_cons, List.getElem?_eq_getElem hi]
    simp [ih (fun j hj => h j (by simp [hj]))]

theorem gather_zip {l : List α} {m : List β} (hlen : l.length = m.length) {idx : List ℕ}
    (h : ∀ i ∈ idx, i < l.length) :
    gather (l.zip m) idx = (gather l idx).zip (gather m idx) := by
  unfold gather
  induction idx with
  | nil => rfl
  | cons i idx ih =>
    have hi := h i (by simp)
    have hi2 : i < m.length := hlen ▸ hi
    have hi3 : i < (l.zip m).length := by simp [hi, hi2]
    rw [List.filterMap_cons, List.filterMap_cons, List.filterMap_cons,
      List.getElem?_eq_getElem hi, List.getElem?_eq_getElem hi2, List.getElem?_eq_getElem hi3]
    simp [ih (fun j hj => h j (by simp [hj]))]

theorem slice_zip (l : List α) (m : List β) (a b : ℕ) :
    slice (l.zip m) a b = (slice l a b).zip (slice m a b) := by
  unfold slice
  simp only [List.zip, List.take_zipWith, List.drop_zipWith]

theorem slice_map (f : α → β) (l : List α) (a b : ℕ) :
    slice (l.map f) a b = (slice l a b).map f := by
  simp [slice]

/-- In a list where elements satisfying `p` come first, taking as many as satisfy `p` is filtering. -/
theorem take_countP_of_first (p : α → Bool) (l : List α)
    (h : l.Pairwise (fun a b => p b = true → p a = true)) :
    l.take (l.countP p) = l.filter p ∧ l.drop (l.countP p) = l.filter (fun a => !p a) := by
  induction l with
  | nil => simp
  | cons a l ih =>
    have h' := List.pairwise_cons.mp h
    obtain ⟨ih1, ih2⟩ := ih h'.2
    by_cases ha : p a = true
    · simp [ha, ih1, ih2]
    · have hnone : ∀ b ∈ l, ¬ p b = true := fun b hb hpb => ha (h'.1 b hb hpb)
      have hc : l.countP p = 0 := List.countP_eq_zero.mpr hnone
      have hf : l.filter p = [] := by
        rw [List.filter_eq_nil_iff]; exact hnone
      have hf' : l.filter (fun a => !p a) = l := by
        rw [List.filter_eq_self]
        intro b hb; simpa using hnone b hb
      simp [ha, hc, hf, hf']

end lists

section rows
variable {K : Type*}

theorem rows_reorder {b : Beam K} (hb : b.WF) {idx : List ℕ}
    (h : ∀ i ∈ idx, i < b.particles.length) :
    (b.reorder idx).rows = gather b.rows idx := by
  obtain ⟨h1, h2, h3⟩ := hb
  unfold Beam.rows Beam.reorder
  rw [gather_zip (by simp [h1, h2, h3]) h, gather_zip (by simp [h1, h2, h3]) (by simpa [h1] using h),
    gather_zip (by simp [h2, h3]) (by simpa [h2] using h)]

theorem wf_reorder {b : Beam K} (hb : b.WF) {idx : List ℕ}
    (h : ∀ i ∈ idx, i < b.particles.length) : (b.reorder idx).WF := by
  obtain ⟨h1, h2, h3⟩ := hb
  unfold Beam.WF Beam.reorder
  simp only
  rw [gather_length h, gather_length (by simpa [h1] using h), gather_length (by simpa [h2] using h),
    gather_length (by simpa [h3] using h)]
  simp

theorem rows_length {b : Beam K} (hb : b.WF) : b.rows.length = b.particles.length := by
  obtain ⟨h1, h2, h3⟩ := hb
  simp [Beam.rows, h1, h2, h3]

theorem rows_getSubslice (b : Beam K) (s e : ℕ) :
    (b.getSubslice s e).rows = slice b.rows s e := by
  unfold Beam.rows Beam.getSubslice
  simp only [slice_zip]

theorem wf_getSubslice {b : Beam K} (hb : b.WF) (s e : ℕ) : (b.getSubslice s e).WF := by
  obtain ⟨h1, h2, h3⟩ := hb
  unfold Beam.WF Beam.getSubslice slice
  simp [h1, h2, h3]

theorem rows_lost {b : Beam K} (hb : b.WF) : b.rows.map (fun t => t.2.2.2) = b.lost := by
  obtain ⟨h1, h2, h3⟩ := hb
  have : (fun t : Row K => t.2.2.2) = Prod.snd ∘ Prod.snd ∘ Prod.snd := rfl
  rw [this, ← List.map_map, ← List.map_map]
  unfold Beam.rows
  rw [List.map_snd_zip (by simp [h1, h2, h3]), List.map_snd_zip (by simp [h1, h2, h3]),
    List.map_snd_zip (by simp [h2, h3])]

theorem rows_particles {b : Beam K} (hb : b.WF) : b.rows.map (fun t => t.1) = b.particles := by
  obtain ⟨h1, h2, h3⟩ := hb
  unfold Beam.rows
  exact List.map_fst_zip (by simp [h1, h2, h3])

theorem rows_fresh [Zero K] (ps : List (Particle K)) :
    (Beam.fresh ps).rows = ps.map (fun p => (p, 0, 1, false)) := by
  unfold Beam.rows Beam.fresh
  induction ps with
  | nil => rfl
  | cons a l ih => simp at ih ⊢; exact ih

theorem wf_fresh [Zero K] (ps : List (Particle K)) : (Beam.fresh ps).WF := by
  simp [Beam.WF, Beam.fresh]

theorem rows_concat {a b : Beam K} (ha : a.WF) :
    (a.concat b).rows = a.rows ++ b.rows := by
  obtain ⟨h1, h2, h3⟩ := ha
  unfold Beam.rows Beam.concat
  simp only
  rw [List.zip_append (by omega), List.zip_append (by simp; omega),
    List.zip_append (by simp; omega)]

theorem wf_concat {a b : Beam K} (ha : a.WF) (hb : b.WF) : (a.concat b).WF := by
  obtain ⟨h1, h2, h3⟩ := ha
  obtain ⟨h4, h5, h6⟩ := hb
  simp [Beam.WF, Beam.concat, *]

theorem zipWith_rows [LinearOrder K] {b : Beam K} (hb : b.WF) (xiEnd : K) :
    List.zipWith (fun (n : ℤ) (p : Particle K) => decide (n > 0) || decide (p.xi < xiEnd))
      b.remaining b.particles =
    b.rows.map (fun t => decide (t.2.2.1 > 0) || decide (t.1.xi < xiEnd)) := by
  obtain ⟨ps, dt, rem, lost⟩ := b
  obtain ⟨h1, h2, h3⟩ := hb
  simp only at h1 h2 h3
  unfold Beam.rows
  simp only
  induction ps generalizing dt rem lost with
  | nil => simp at h2; simp [h2]
  | cons p ps ih =>
    match dt, rem, lost, h1, h2, h3 with
    | d :: dt, n :: rem, l :: lost, h1, h2, h3 =>
      simp at h1 h2 h3
      simp
      exact ih dt rem lost h1 h2 h3

theorem mem_argsort_lt {κ : Type*} {le : κ → κ → Prop} {f : List κ → List ℕ} (hf : IsArgsort le f)
    (keys : List κ) : ∀ i ∈ f keys, i < keys.length := fun i hi => by
  have := ((hf keys).1.mem_iff).mp hi
  simpa using this

theorem gather_reverse {α : Type*} (l : List α) (idx : List ℕ) :
    gather l idx.reverse = (gather l idx).reverse := by
  simp [gather, List.filterMap_reverse]

theorem slice_full {α : Type*} (l : List α) (a e : ℕ) (h : l.length ≤ e) :
    slice l a e = l.drop a := by
  rw [slice, List.take_of_length_le h]

theorem slice_zero {α : Type*} (l : List α) (e : ℕ) : slice l 0 e = l.take e := by
  simp [slice]

theorem pairwise_drop_filter {α : Type*} (p : α → Bool) (l : List α)
    (h : l.Pairwise (fun a b => p a = true → p b = true)) :
    l.take (l.length - l.countP p) = l.filter (fun a => !p a) ∧
      l.drop (l.length - l.countP p) = l.filter p := by
  have h' : l.Pairwise (fun a b => (!p b) = true → (!p a) = true) := by
    refine h.imp ?_
    intro a b hab
    cases hp : p a <;> cases hq : p b <;> simp_all
  have hc : l.countP (fun a => !p a) = l.length - l.countP p := by
    have := List.length_eq_countP_add_countP p (l := l)
    simp only [Bool.not_eq_true] at this
    have h2 : l.countP (fun a => !p a) = l.countP (fun a => decide (p a = false)) := by
      congr 1; funext a; cases p a <;> rfl
    omega
  obtain ⟨h1, h2⟩ := take_countP_of_first (fun a => !p a) l h'
  rw [hc] at h1 h2
  simp only [Bool.not_not] at h2
  exact ⟨h1, h2⟩

end rows

end Lcode.Beam2D

namespace Lcode.Beam2D

/-- A concrete correct argsort for any linear order (merge sort of the indexed keys); shows that the
`IsArgsort` hypotheses are satisfiable. -/
def npArgsort {κ : Type*} [LinearOrder κ] (keys : List κ) : List ℕ :=
  (keys.zipIdx.mergeSort (fun a b => decide (a.1 ≤ b.1))).map Prod.snd

theorem npArgsort_correct {κ : Type*} [LinearOrder κ] :
    IsArgsort (κ := κ) (· ≤ ·) npArgsort := by
  intro keys
  have hp : (keys.zipIdx.mergeSort (fun a b => decide (a.1 ≤ b.1))).Perm keys.zipIdx :=
    List.mergeSort_perm _ _
  refine ⟨?_, ?_⟩
  · unfold npArgsort
    refine (hp.map Prod.snd).trans (List.Perm.of_eq ?_)
    rw [List.zipIdx_map_snd, List.range_eq_range']
  · have hg : gather keys (npArgsort keys) =
        (keys.zipIdx.mergeSort (fun a b => decide (a.1 ≤ b.1))).map Prod.fst := by
      unfold npArgsort gather
      rw [List.filterMap_map, ← List.filterMap_eq_map]
      apply List.filterMap_congr
      intro a ha
      have hm := hp.mem_iff.mp ha
      obtain ⟨x, i⟩ := a
      have := List.mem_zipIdx_iff_getElem?.mp hm
      simpa using this
    rw [hg, List.pairwise_map]
    have hs := List.pairwise_mergeSort (le := fun a b : κ × ℕ => decide (a.1 ≤ b.1))
      (fun a b c h1 h2 => by simp at *; exact h1.trans h2)
      (fun a b => by simp; exact le_total _ _) keys.zipIdx
    exact hs.imp (fun h => by simpa using h)

end Lcode.Beam2D
