import Mathlib.Analysis.SpecialFunctions.Sqrt
import Mathlib.Tactic.Ring
import Mathlib.Tactic.FieldSimp

/-!
Property C52, specification: replacing macroparticles by parts.
-/

namespace Lcode

/-! ### Specification -/

/-- `l'` comes from `l` by replacing every element `p` by parts `part a p`, one for each fraction `a` of a list of positive fractions that add up to one (each element has its own list), and by reordering. -/
def IsSplit {α : Type} (part : ℝ → α → α) (l l' : List α) : Prop :=
  ∃ gs : List (α × List ℝ), (gs.map Prod.fst).Perm l ∧ (gs.flatMap fun g => g.2.map fun a => part a g.1).Perm l' ∧ ∀ g ∈ gs, (∀ a ∈ g.2, 0 < a) ∧ g.2.sum = 1

theorem IsSplit.map {α β : Type} {part : ℝ → α → α} {part' : ℝ → β → β} {l l' : List α} (h : IsSplit part l l') (f : α → β) (hf : ∀ a p, 0 < a → f (part a p) = part' a (f p)) :
    IsSplit part' (l.map f) (l'.map f) := by
  obtain ⟨gs, h1, h2, h3⟩ := h
  refine ⟨gs.map fun g => (f g.1, g.2), ?_, ?_, ?_⟩
  · have := h1.map f
    rw [List.map_map] at this ⊢
    exact this
  · have := h2.map f
    rw [List.map_flatMap] at this
    rw [List.flatMap_map]
    have e : (gs.flatMap fun g => (g.2.map fun a => part a g.1).map f) = gs.flatMap fun g => g.2.map fun a => part' a (f g.1) := by
      apply List.flatMap_congr
      intro g hg
      rw [List.map_map]
      apply List.map_congr_left
      intro a ha
      exact hf a g.1 ((h3 g hg).1 a ha)
    rw [e] at this
    exact this
  · intro g hg
    obtain ⟨g0, hg0, rfl⟩ := List.mem_map.mp hg
    exact h3 g0 hg0

theorem sum_scaled (v : ℝ) (ws : List ℝ) : (ws.map fun a => a * v).sum = ws.sum * v := by
  induction ws with
  | nil => simp
  | cons a ws ih => simp only [List.map_cons, List.sum_cons, ih]; ring

theorem IsSplit.sum {α : Type} {part : ℝ → α → α} {l l' : List α} (h : IsSplit part l l') (f : α → ℝ) (hf : ∀ a p, 0 < a → f (part a p) = a * f p) :
    (l'.map f).sum = (l.map f).sum := by
  obtain ⟨gs, h1, h2, h3⟩ := h
  rw [← (h2.map f).sum_eq, ← (h1.map f).sum_eq]
  clear h1 h2
  induction gs with
  | nil => rfl
  | cons g gs ih =>
    rw [List.flatMap_cons, List.map_append, List.sum_append, ih fun g hg => h3 g (List.mem_cons_of_mem _ hg), List.map_cons, List.map_cons, List.sum_cons]
    congr 1
    rw [List.map_map]
    have e : (g.2.map (f ∘ fun a => part a g.1)) = g.2.map fun a => a * f g.1 := by
      apply List.map_congr_left
      intro a ha
      exact hf a g.1 ((h3 g List.mem_cons_self).1 a ha)
    rw [e, sum_scaled, (h3 g List.mem_cons_self).2, one_mul]

/-- Reordering is a special case. -/
theorem IsSplit.of_perm {α : Type} {part : ℝ → α → α} (h1 : ∀ p, part 1 p = p) {l l' : List α} (h : l.Perm l') : IsSplit part l l' := by
  refine ⟨l.map fun p => (p, [1]), ?_, ?_, ?_⟩
  · rw [List.map_map]; simp [Function.comp_def]
  · rw [List.flatMap_map]
    simp only [List.map_cons, List.map_nil, h1]
    have : (l.flatMap fun a => [a]) = l := by induction l with | nil => rfl | cons a l ih => simp [ih]
    rw [this]; exact h
  · intro g hg
    obtain ⟨p, -, rfl⟩ := List.mem_map.mp hg
    simp

theorem sqrt_scale (a : ℝ) (ha : 0 < a) (m x y z : ℝ) : Real.sqrt ((a * m) ^ 2 + (a * x) ^ 2 + (a * y) ^ 2 + (a * z) ^ 2) = a * Real.sqrt (m ^ 2 + x ^ 2 + y ^ 2 + z ^ 2) := by
  rw [show (a * m) ^ 2 + (a * x) ^ 2 + (a * y) ^ 2 + (a * z) ^ 2 = a ^ 2 * (m ^ 2 + x ^ 2 + y ^ 2 + z ^ 2) by ring, Real.sqrt_mul (sq_nonneg a), Real.sqrt_sq ha.le]

theorem div_scale (a : ℝ) (ha : 0 < a) (x y : ℝ) : a * x / (a * y) = x / y := mul_div_mul_left x y ha.ne'

theorem IsSplit.perm {α : Type} {part : ℝ → α → α} {l l' m m' : List α} (h : IsSplit part l l') (h1 : l.Perm m) (h2 : l'.Perm m') : IsSplit part m m' := by
  obtain ⟨gs, g1, g2, g3⟩ := h
  exact ⟨gs, g1.trans h1, g2.trans h2, g3⟩

theorem IsSplit.nil {α : Type} {part : ℝ → α → α} : IsSplit part [] [] := ⟨[], by simp, by simp, by simp⟩

theorem IsSplit.append {α : Type} {part : ℝ → α → α} {l l' m m' : List α} (h : IsSplit part l l') (h' : IsSplit part m m') : IsSplit part (l ++ m) (l' ++ m') := by
  obtain ⟨gs, g1, g2, g3⟩ := h
  obtain ⟨hs, h1, h2, h3⟩ := h'
  refine ⟨gs ++ hs, ?_, ?_, ?_⟩
  · rw [List.map_append]; exact g1.append h1
  · rw [List.flatMap_append]; exact g2.append h2
  · intro g hg
    rcases List.mem_append.mp hg with h | h
    · exact g3 g h
    · exact h3 g h

/-- A choice that does not see the size of a particle chooses a particle with all its parts. -/
theorem IsSplit.filter {α : Type} {part : ℝ → α → α} {l l' : List α} (h : IsSplit part l l') (q : α → Bool) (hq : ∀ a p, 0 < a → q (part a p) = q p) :
    IsSplit part (l.filter q) (l'.filter q) := by
  obtain ⟨gs, g1, g2, g3⟩ := h
  refine ⟨gs.filter fun g => q g.1, ?_, ?_, fun g hg => g3 g (List.mem_filter.mp hg).1⟩
  · have := g1.filter q
    rw [List.filter_map] at this
    exact this
  · refine List.Perm.trans (List.Perm.of_eq ?_) (g2.filter q)
    clear g1 g2
    induction gs with
    | nil => rfl
    | cons g gs ih =>
      have ih := ih fun g hg => g3 g (List.mem_cons_of_mem _ hg)
      have hpos := (g3 g List.mem_cons_self).1
      rw [List.flatMap_cons, List.filter_append, ← ih]
      by_cases hg : q g.1 = true
      · rw [List.filter_cons_of_pos (p := fun g : α × List ℝ => q g.1) hg, List.flatMap_cons]
        congr 1
        symm
        rw [List.filter_eq_self]
        intro x hx
        obtain ⟨a, ha, rfl⟩ := List.mem_map.mp hx
        rw [hq a g.1 (hpos a ha)]; exact hg
      · rw [List.filter_cons_of_neg (p := fun g : α × List ℝ => q g.1) hg]
        have : (List.filter q (g.2.map fun a => part a g.1)) = [] := by
          rw [List.filter_eq_nil_iff]
          intro x hx
          obtain ⟨a, ha, rfl⟩ := List.mem_map.mp hx
          rw [hq a g.1 (hpos a ha)]; exact hg
        rw [this, List.nil_append]

/-- Any list can be split, each element in its own way. -/
theorem IsSplit.of_fractions {α : Type} (part : ℝ → α → α) (f : α → List ℝ) (l : List α) (h : ∀ p ∈ l, (∀ a ∈ f p, 0 < a) ∧ (f p).sum = 1) : IsSplit part l (l.flatMap fun p => (f p).map fun a => part a p) := by
  refine ⟨l.map fun p => (p, f p), ?_, ?_, ?_⟩
  · rw [List.map_map]; simp [Function.comp_def]
  · rw [List.flatMap_map]
  · intro g hg
    obtain ⟨p, hp, rfl⟩ := List.mem_map.mp hg
    exact h p hp

/-- One third and two thirds. -/
theorem IsSplit.thirds {α : Type} (part : ℝ → α → α) (l : List α) : IsSplit part l (l.flatMap fun p => [part (1 / 3) p, part (2 / 3) p]) :=
  IsSplit.of_fractions part (fun _ => [1 / 3, 2 / 3]) l fun _ _ => ⟨by intro a ha; simp at ha; rcases ha with rfl | rfl <;> norm_num, by norm_num⟩

end Lcode
