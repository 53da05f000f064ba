import Verif.Fp.Counts
import Verif.Beam2D.Source
import Verif.Beam3D.Data

/-!
C58: the borders of the layers, and the particles the beam sources hand out, with the rounding of floats.
-/

namespace Lcode.Fp

open Lcode.Py

/-- `xi_i * -self.dxi`, push_solver.py:174-177, beam_calculate.py:187, :398, :447, beam3d/move.py:42-43: the head side of layer `i` (the tail side of layer `i - 1`). The step is the float read from the configuration, the index is a whole number and exact, the product is rounded. -/
def border (h : ℚ) (i : ℕ) : ℚ := fl ((i : ℚ) * -fl h)

/-- `- self.xi_step_size * plasma_layer_idx`, beam3d/beam_io.py:34-35, beam3d/weights.py:157, push_solver.py:258, and `-plasma_layer_idx * self.xi_step_size`, beam3d/beam_calculator.py:168. -/
def border3 (h : ℚ) (i : ℕ) : ℚ := fl (-fl h * (i : ℚ))

/-- See `border3`. -/
def borderRigid (h : ℚ) (i : ℕ) : ℚ := fl (-(i : ℚ) * fl h)

/-- C58: the parts of the code that write the border of a layer in different ways compute the same float. -/
theorem border_forms (h : ℚ) (i : ℕ) : border3 h i = border h i ∧ borderRigid h i = border h i ∧ border h i = -fl (i * fl h) := by
  unfold border border3 borderRigid
  refine ⟨by congr 1; ring, by congr 1; ring, ?_⟩
  rw [← fl_neg (_ * _)]; congr 1; ring

theorem border_zero (h : ℚ) : border h 0 = 0 := by simp [border, fl_zero]

/-- C58: no layer is empty or reversed: the borders are strictly ordered. -/
theorem border_lt {h : ℚ} (hh : 0 < h) {i : ℕ} (hi : i < 2 ^ 51) : border h (i + 1) < border h i := by
  rw [(border_forms h _).2.2, (border_forms h _).2.2, neg_lt_neg_iff]
  have hf := fl_pos hh
  have h1 := (fl_between (x := (i : ℚ) * fl h) (by positivity)).2
  have h2 := (fl_between (x := ((i + 1 : ℕ) : ℚ) * fl h) (by positivity)).1
  refine lt_of_le_of_lt h1 (lt_of_lt_of_le ?_ h2)
  push_cast
  have hi' : (i : ℚ) ≤ 2251799813685247 := by exact_mod_cast (by omega : i ≤ 2251799813685247)
  have : (i : ℚ) * (1 + 1 / 2 ^ 53) < ((i : ℚ) + 1) * (1 - 1 / 2 ^ 53) := by
    rw [← sub_pos]
    have e : ((i : ℚ) + 1) * (1 - 1 / 2 ^ 53) - (i : ℚ) * (1 + 1 / 2 ^ 53) = 1 - (2 * i + 1) / 2 ^ 53 := by ring
    rw [e, sub_pos, div_lt_one (by norm_num)]
    norm_num; linarith
  calc (i : ℚ) * fl h * (1 + 1 / 2 ^ 53) = fl h * ((i : ℚ) * (1 + 1 / 2 ^ 53)) := by ring
    _ < fl h * (((i : ℚ) + 1) * (1 - 1 / 2 ^ 53)) := mul_lt_mul_of_pos_left this hf
    _ = ((i : ℚ) + 1) * fl h * (1 - 1 / 2 ^ 53) := by ring

theorem border_le {h : ℚ} (hh : 0 < h) (i j : ℕ) (hij : i ≤ j) : border h j ≤ border h i := by
  rw [(border_forms h _).2.2, (border_forms h _).2.2, neg_le_neg_iff]
  apply fl_mono
  have : (i : ℚ) ≤ j := by exact_mod_cast hij
  exact mul_le_mul_of_nonneg_right this (fl_pos hh).le

/-- C58: a border is where it should be, up to two roundings. -/
theorem border_err {h : ℚ} (hh : 0 < h) (i : ℕ) : |border h i - -(i * h)| ≤ i * h * (3 / 2 ^ 53) := by
  rw [(border_forms h _).2.2]
  have h1 := fl_between hh.le
  have h2 := fl_between (x := (i : ℚ) * fl h) (mul_nonneg (Nat.cast_nonneg i) (fl_nonneg hh.le))
  have hi : (0 : ℚ) ≤ i := Nat.cast_nonneg i
  have h3 : (i : ℚ) * (h * (1 - 1 / 2 ^ 53)) ≤ i * fl h := mul_le_mul_of_nonneg_left h1.1 hi
  have h4 : (i : ℚ) * fl h ≤ i * (h * (1 + 1 / 2 ^ 53)) := mul_le_mul_of_nonneg_left h1.2 hi
  have h5 : (i : ℚ) * fl h * (1 + 1 / 2 ^ 53) ≤ i * (h * (1 + 1 / 2 ^ 53)) * (1 + 1 / 2 ^ 53) := mul_le_mul_of_nonneg_right h4 (by norm_num)
  have h6 : (i : ℚ) * (h * (1 - 1 / 2 ^ 53)) * (1 - 1 / 2 ^ 53) ≤ i * fl h * (1 - 1 / 2 ^ 53) := mul_le_mul_of_nonneg_right h3 (by norm_num)
  have h0 : 0 ≤ (i : ℚ) * h := by positivity
  rw [abs_le]
  constructor
  · have : (i : ℚ) * (h * (1 + 1 / 2 ^ 53)) * (1 + 1 / 2 ^ 53) ≤ i * h * (1 + 3 / 2 ^ 53) := by
      have e : (i : ℚ) * (h * (1 + 1 / 2 ^ 53)) * (1 + 1 / 2 ^ 53) = i * h * ((1 + 1 / 2 ^ 53) * (1 + 1 / 2 ^ 53)) := by ring
      rw [e]; exact mul_le_mul_of_nonneg_left (by norm_num) h0
    linarith [h2.2]
  · have : (i : ℚ) * h * (1 - 3 / 2 ^ 53) ≤ (i : ℚ) * (h * (1 - 1 / 2 ^ 53)) * (1 - 1 / 2 ^ 53) := by
      have e : (i : ℚ) * (h * (1 - 1 / 2 ^ 53)) * (1 - 1 / 2 ^ 53) = i * h * ((1 - 1 / 2 ^ 53) * (1 - 1 / 2 ^ 53)) := by ring
      rw [e]; exact mul_le_mul_of_nonneg_left (by norm_num) h0
    linarith [h2.1]

/-- Layer `i` between the borders the code computes. -/
def Between (c : ℕ → ℚ) (i : ℕ) (x : ℚ) : Prop := c (i + 1) ≤ x ∧ x < c i

instance (c : ℕ → ℚ) (i : ℕ) (x : ℚ) : Decidable (Between c i x) := inferInstanceAs (Decidable (_ ∧ _))

/-- Every coordinate in the window lies in exactly one layer. -/
theorem between_unique (c : ℕ → ℚ) (hc : ∀ i j, i ≤ j → c j ≤ c i) (n : ℕ) (x : ℚ) (h1 : c n ≤ x) (h2 : x < c 0) : ∃! i, i < n ∧ Between c i x := by
  classical
  have hex : ∃ i, c i ≤ x := ⟨n, h1⟩
  set k := Nat.find hex with hk
  have hk1 : c k ≤ x := Nat.find_spec hex
  have hkn : k ≤ n := Nat.find_min' hex h1
  have hk0 : k ≠ 0 := by
    intro h0; rw [h0] at hk1; exact absurd h2 (not_lt.mpr hk1)
  have hlt : ∀ m, m < k → x < c m := fun m hm => not_le.mp (Nat.find_min hex hm)
  refine ⟨k - 1, ⟨by omega, ?_, hlt _ (by omega)⟩, ?_⟩
  · rw [Nat.sub_add_cancel (by omega)]; exact hk1
  · rintro j ⟨-, hj1, hj2⟩
    have h3 : k ≤ j + 1 := by
      by_contra hcn
      exact absurd hj1 (not_le.mpr (hlt (j + 1) (by omega)))
    have h4 : ¬ k ≤ j := by
      intro hkj
      exact absurd hj2 (not_lt.mpr ((hc k j hkj).trans hk1))
    omega

/-! ### The 2D source -/

open Lcode.Beam2D in
/-- The layers `i, i+1, ..., i+n-1` a time step asks a 2D source for, push_solver.py:76-81, :174-177, with the borders the floats give. -/
def layers2F (h : ℚ) : Source ℚ → ℕ → ℕ → List (Beam ℚ) × Source ℚ
  | s, _, 0 => ([], s)
  | s, i, n + 1 =>
    let (b, s') := s.getBeamSlice (border h i) (border h (i + 1))
    let (bs, s'') := layers2F h s' (i + 1) n
    (b :: bs, s'')

section two
open Lcode.Beam2D

/-- The remaining coordinates of the source after the layers before `i`. -/
structure Inv2 (S : List (Particle ℚ)) (h : ℚ) (s : Source ℚ) (i : ℕ) : Prop where
  parts : s.particles = S
  xi : s.xi = S.map Particle.xi
  rest : S.drop s.used = S.filter fun p => decide (p.xi < border h i)
  used : s.used ≤ S.length

theorem takeWhile_sorted (S : List (Particle ℚ)) (hS : S.Pairwise (fun p q => q.xi ≤ p.xi)) (c : ℚ) :
    S.takeWhile (fun p => decide (c ≤ p.xi)) = S.filter (fun p => decide (c ≤ p.xi)) ∧
      S.drop (S.takeWhile (fun p => decide (c ≤ p.xi))).length = S.filter (fun p => decide (p.xi < c)) := by
  induction S with
  | nil => simp
  | cons a S ih =>
    obtain ⟨h1, h2⟩ := List.pairwise_cons.mp hS
    by_cases h : c ≤ a.xi
    · have h' : ¬ a.xi < c := not_lt.mpr h
      simp only [List.takeWhile_cons, h, decide_true, if_true, List.filter_cons, h', decide_false, Bool.false_eq_true, if_false, List.length_cons, List.drop_succ_cons]
      exact ⟨by rw [(ih h2).1], (ih h2).2⟩
    · have h' : a.xi < c := not_le.mp h
      have hall : ∀ p ∈ S, p.xi < c := fun p hp => (h1 p hp).trans_lt h'
      have e1 : S.filter (fun p => decide (c ≤ p.xi)) = [] := by
        rw [List.filter_eq_nil_iff]; intro p hp; simpa using hall p hp
      have e2 : S.filter (fun p => decide (p.xi < c)) = S := by
        rw [List.filter_eq_self]; intro p hp; simpa using hall p hp
      simp [List.takeWhile_cons, List.filter_cons, h, h', e1, e2]

theorem step2 (S : List (Particle ℚ)) (hS : S.Pairwise (fun p q => q.xi ≤ p.xi)) (h : ℚ) (hh : 0 < h) (s : Source ℚ) (i : ℕ) (inv : Inv2 S h s i) :
    (s.getBeamSlice (border h i) (border h (i + 1))).1 = Beam.fresh (S.filter fun p => decide (Between (border h) i p.xi)) ∧
      Inv2 S h (s.getBeamSlice (border h i) (border h (i + 1))).2 (i + 1) := by
  set R := S.drop s.used with hR
  have hRs : R.Pairwise (fun p q => q.xi ≤ p.xi) := hS.sublist (List.drop_sublist _ _)
  have hmax : ∀ x ∈ s.xi.drop s.used, x ≤ border h i := by
    intro x hx
    rw [inv.xi, ← List.map_drop, List.mem_map] at hx
    obtain ⟨p, hp, rfl⟩ := hx
    rw [inv.rest, List.mem_filter, decide_eq_true_iff] at hp
    exact hp.2.le
  have hfe := findEnd_eq (border h i) (border h (i + 1)) s.used (s.xi.drop s.used) s.used hmax
  obtain ⟨t1, t2⟩ := takeWhile_sorted R hRs (border h (i + 1))
  set T := R.takeWhile (fun p => decide (border h (i + 1) ≤ p.xi)) with hT
  have hlen : ((s.xi.drop s.used).takeWhile (fun x => decide (border h (i + 1) ≤ x))).length = T.length := by
    rw [inv.xi, ← List.map_drop, List.takeWhile_map, List.length_map]
    rfl
  rw [hlen] at hfe
  have hTpre : R.take T.length = T := (List.prefix_iff_eq_take.mp (List.takeWhile_prefix _)).symm
  have hTl : T.length ≤ R.length := (List.takeWhile_prefix _).length_le
  rw [hR, List.length_drop] at hTl
  unfold Source.getBeamSlice findSubSlice
  simp only [hfe, Nat.add_sub_cancel_left]
  refine ⟨?_, ⟨inv.parts, inv.xi, ?_, ?_⟩⟩
  · congr 1
    unfold slice
    rw [inv.parts, List.drop_take, Nat.add_sub_cancel_left, ← hR, hTpre, t1, hR, inv.rest, List.filter_filter]
    apply List.filter_congr
    intro p _
    rw [Bool.eq_iff_iff, Bool.and_eq_true, decide_eq_true_iff, decide_eq_true_iff, decide_eq_true_iff]
    exact Iff.rfl
  · rw [← List.drop_drop, ← hR, t2, hR, inv.rest, List.filter_filter]
    apply List.filter_congr
    intro p _
    have := border_le hh i (i + 1) (by omega)
    rw [Bool.eq_iff_iff, Bool.and_eq_true, decide_eq_true_iff, decide_eq_true_iff]
    exact ⟨fun h => h.1, fun h => ⟨h, h.trans_le this⟩⟩
  · have := inv.used
    simp only; omega

/-- C58: a 2D source asked for its layers with the floats of the code hands out, in layer `i`, exactly the particles between the two borders, in order; every particle between the window head and the last border is handed out, in one layer only. The beam is sorted from head to tail, all particles behind the head (the other case is `Beam2D.source_complete`). -/
theorem source2_floats (S : List (Particle ℚ)) (hS : S.Pairwise (fun p q => q.xi ≤ p.xi)) (hneg : ∀ p ∈ S, p.xi < 0) (h : ℚ) (hh : 0 < h) (n : ℕ) :
    (layers2F h ⟨S, S.map Particle.xi, 0⟩ 0 n).1 = (List.range n).map (fun i => Beam.fresh (S.filter fun p => decide (Between (border h) i p.xi))) ∧
      ∀ p ∈ S, border h n ≤ p.xi → ∃! i, i < n ∧ Between (border h) i p.xi := by
  constructor
  · have gen : ∀ n s i, Inv2 S h s i → (layers2F h s i n).1 = (List.range' i n).map (fun i => Beam.fresh (S.filter fun p => decide (Between (border h) i p.xi))) := by
      intro n
      induction n with
      | zero => intro s i _; rfl
      | succ n ih =>
        intro s i inv
        obtain ⟨h1, h2⟩ := step2 S hS h hh s i inv
        simp only [layers2F, List.range'_succ, List.map_cons]
        rw [ih _ _ h2, h1]
    rw [List.range_eq_range']
    refine gen n _ 0 ⟨rfl, rfl, ?_, by simp⟩
    rw [List.drop_zero, eq_comm, List.filter_eq_self]
    intro p hp
    rw [border_zero]
    simpa using hneg p hp
  · intro p hp hn
    exact between_unique _ (border_le hh) n p.xi hn (by rw [border_zero]; exact hneg p hp)

end two

/-! ### The 3D source -/

section three
open Lcode.Beam3D

/-- BeamSource.get_beam_layer_to_layout, beam3d/beam_io.py:29-47, with the floats the code computes. -/
def getLayer3F (h : ℚ) (beam : Beam ℚ) (i : ℕ) : Beam ℚ × Beam ℚ :=
  let xiMin := border3 h i
  let xiMax := border3 h (i + 1)
  let n := if beam.xi.length ≠ 0 then beam.xi.countP fun z => decide (xiMax ≤ z) && decide (z < xiMin) else 0
  beam.cut n

/-- The layers `i, ..., i + n - 1` a time step asks for, and the rest of the source (push_solver.py:231-234). -/
def layers3F (h : ℚ) : Beam ℚ → ℕ → ℕ → List (Beam ℚ) × Beam ℚ
  | b, _, 0 => ([], b)
  | b, i, n + 1 =>
    let r := getLayer3F h b i
    let rest := layers3F h r.2 (i + 1) n
    (r.1 :: rest.1, rest.2)

theorem step3 (S : List (Row ℚ)) (hS : S.Pairwise (fun p q => q.xi ≤ p.xi)) (h : ℚ) (hh : 0 < h) (i : ℕ) :
    getLayer3F h (Beam.ofRows (S.filter fun r => decide (r.xi < border h i))) i =
      (Beam.ofRows (S.filter fun r => decide (Between (border h) i r.xi)), Beam.ofRows (S.filter fun r => decide (r.xi < border h (i + 1)))) := by
  set t := S.filter fun r => decide (r.xi < border h i) with ht
  have hts : t.Pairwise (fun p q => q.xi ≤ p.xi) := hS.sublist List.filter_sublist
  have hcut := Lcode.Beam2D.take_countP_of_first (fun r : Row ℚ => decide (border h (i + 1) ≤ r.xi)) t
    (hts.imp (by intro a b hab hb; simp only [decide_eq_true_eq] at hb ⊢; linarith))
  have hn : (if (Beam.ofRows t).xi.length ≠ 0 then (Beam.ofRows t).xi.countP (fun z => decide (border3 h (i + 1) ≤ z) && decide (z < border3 h i)) else 0) =
      t.countP fun r : Row ℚ => decide (border h (i + 1) ≤ r.xi) := by
    have e : (Beam.ofRows t).xi.countP (fun z => decide (border3 h (i + 1) ≤ z) && decide (z < border3 h i)) = t.countP fun r : Row ℚ => decide (border h (i + 1) ≤ r.xi) := by
      unfold Beam.ofRows
      rw [List.countP_map]
      apply List.countP_congr
      intro r hr
      rw [ht, List.mem_filter, decide_eq_true_iff] at hr
      simp only [Function.comp, (border_forms h _).1, hr.2, decide_true, Bool.and_true]
    split_ifs with h0
    · exact e
    · simp only [Beam.ofRows, List.length_map, ne_eq, not_not, List.length_eq_zero_iff] at h0
      rw [h0]; rfl
  unfold getLayer3F
  simp only
  rw [hn, cut_ofRows, hcut.1, hcut.2, ht, List.filter_filter, List.filter_filter]
  have hle := border_le hh i (i + 1) (by omega)
  congr 2
  · apply List.filter_congr
    intro r _
    rw [Bool.eq_iff_iff, Bool.and_eq_true, decide_eq_true_iff, decide_eq_true_iff, decide_eq_true_iff]
    exact Iff.rfl
  · apply List.filter_congr
    intro r _
    by_cases h1 : border h (i + 1) ≤ r.xi
    · simp [h1, not_lt.mpr h1]
    · have h2 := not_le.mp h1
      simp [h1, h2, h2.trans_le hle]

/-- C58: the same for a 3D source; the rest is exactly what lies behind the last border. -/
theorem source3_floats (S : List (Row ℚ)) (hS : S.Pairwise (fun p q => q.xi ≤ p.xi)) (hneg : ∀ p ∈ S, p.xi < 0) (h : ℚ) (hh : 0 < h) (n : ℕ) :
    ((layers3F h (Beam.ofRows S) 0 n).1.map Beam.rows) = (List.range n).map (fun i => S.filter fun r => decide (Between (border h) i r.xi)) ∧
      (layers3F h (Beam.ofRows S) 0 n).2.rows = (S.filter fun r => decide (r.xi < border h n)) ∧
      ∀ p ∈ S, border h n ≤ p.xi → ∃! i, i < n ∧ Between (border h) i p.xi := by
  have gen : ∀ n i, layers3F h (Beam.ofRows (S.filter fun r => decide (r.xi < border h i))) i n =
      ((List.range' i n).map (fun i => Beam.ofRows (S.filter fun r => decide (Between (border h) i r.xi))), Beam.ofRows (S.filter fun r => decide (r.xi < border h (i + n)))) := by
    intro n
    induction n with
    | zero => intro i; rfl
    | succ n ih =>
      intro i
      simp only [layers3F, List.range'_succ, List.map_cons]
      rw [step3 S hS h hh i, ih (i + 1), show i + 1 + n = i + (n + 1) by omega]
  have h0 : S.filter (fun r => decide (r.xi < border h 0)) = S := by
    rw [List.filter_eq_self]; intro p hp; rw [border_zero]; simpa using hneg p hp
  have := gen n 0
  rw [h0, Nat.zero_add] at this
  rw [this, List.range_eq_range']
  refine ⟨?_, by simp only [rows_ofRows], ?_⟩
  · rw [List.map_map]
    apply List.map_congr_left
    intro i _
    simp only [Function.comp, rows_ofRows]
  · intro p hp hn
    exact between_unique _ (border_le hh) n p.xi hn (by rw [border_zero]; exact hneg p hp)

end three

/-- Which side of a border a particle placed there by a decimal number is on, is decided by the rounding: the third border of the step 0.05 is a little behind `-0.15`, the third border of the step 0.3 a little ahead of `-0.9`, so that a particle at `-0.9` is in layer 3 although `-0.9 = -3 * 0.3` is the tail side of layer 2. -/
theorem border_example : border (1 / 20) 3 < fl (-(3 / 20)) ∧ Between (border (1 / 20)) 2 (fl (-(3 / 20))) ∧
    fl (-(9 / 10)) < border (3 / 10) 3 ∧ Between (border (3 / 10)) 3 (fl (-(9 / 10))) ∧ Lcode.Beam3D.InLayer (3 / 10 : ℚ) 2 (-(9 / 10)) := by decide +kernel

end Lcode.Fp
