import Verif.Plasma3D.Symmetric

/-!
Property C49, continued: cases that meet its hypotheses (a neutral stream of particles that crosses the window and is reflected at the walls; the plasma of init_plasma),
and the refutation of the mirror symmetry when a particle leaps across the plasma.
-/

namespace Lcode.Plasma3D

/-! ### A neutral stream -/

/-- The antiparticle at the same place with the same momentum. -/
def Ptl.anti (p : Ptl) : Ptl := { p with q := -p.q }

/-- A particle flying freely for one layer: displaced by its slope, reflected (and stopped) or switched off at the walls. -/
noncomputable def fly (c : MCfg) (p : Ptl) : Ptl := if p.q = 0 then p else finish3 c p p ⟨p.px, p.py, p.pz⟩ ⟨p.px, p.py, p.pz⟩ ⟨0, 0, 0⟩

theorem interpolate_zero (N : ℤ) (x y : ℝ) : interpolate N x y (fun _ _ => 0) = 0 := by
  unfold interpolate
  simp only [zero_mul, add_zero]
  generalize stencil N 1 x y = l
  induction l with
  | nil => rfl
  | cons a l ih => simpa using ih

theorem field_zero (c : MCfg) (x y : ℝ) : fieldE c Fields3.zero x y = ⟨0, 0, 0⟩ ∧ fieldB c Fields3.zero x y = ⟨0, 0, 0⟩ := by
  unfold fieldE fieldB Fields3.zero
  simp only [interpolate_zero, and_self]

theorem kick3_zero (q m dxi : ℝ) (p : Vec3) : kick3 q m dxi ⟨0, 0, 0⟩ ⟨0, 0, 0⟩ p = ⟨0, 0, 0⟩ := by
  unfold kick3
  simp

theorem addHalf_zero (p : Vec3) : addHalf p ⟨0, 0, 0⟩ = p := by unfold addHalf; simp

theorem midMomentum_zero (c : MCfg) (prev full : Ptl) : midMomentum c Fields3.zero prev full = ⟨prev.px, prev.py, prev.pz⟩ := by
  unfold midMomentum
  simp only [(field_zero c _ _).1, (field_zero c _ _).2, kick3_zero, addHalf_zero]

theorem moveOne_zero (c : MCfg) (prev full : Ptl) (hq : full.q ≠ 0) : moveOne c Fields3.zero prev full = finish3 c prev full ⟨prev.px, prev.py, prev.pz⟩ ⟨prev.px, prev.py, prev.pz⟩ ⟨0, 0, 0⟩ := by
  unfold moveOne
  rw [if_neg hq]
  simp only [(field_zero c _ _).1, (field_zero c _ _).2, kick3_zero, addHalf_zero]

/-- Same particle: initial place, charge and mass. -/
def SameId (p f : Ptl) : Prop := f.x0 = p.x0 ∧ f.y0 = p.y0 ∧ f.q = p.q ∧ f.m = p.m

theorem finish3_id (c : MCfg) (p f : Ptl) (h : SameId p f) (a b d : Vec3) : finish3 c p f a b d = finish3 c p p a b d := by
  obtain ⟨h1, h2, h3, h4⟩ := h
  unfold finish3
  simp only [h1, h2, h3, h4]

theorem moveFree_id (dxi : ℝ) (p : Ptl) : SameId p (moveFree dxi p) := by
  unfold moveFree SameId
  split_ifs <;> exact ⟨rfl, rfl, rfl, rfl⟩

theorem fly_first (c : MCfg) (p : Ptl) (hq : p.q ≠ 0) : moveOne c Fields3.zero p (moveFree c.dxi p) = fly c p := by
  have hi := moveFree_id c.dxi p
  rw [moveOne_zero _ _ _ (by rw [hi.2.2.1]; exact hq), finish3_id c p _ hi]
  unfold fly
  rw [if_neg hq]

theorem fly_static (c : MCfg) (p : Ptl) : (fly c p).x0 = p.x0 ∧ (fly c p).y0 = p.y0 ∧ (fly c p).m = p.m := by
  unfold fly
  split_ifs
  · exact ⟨rfl, rfl, rfl⟩
  · exact finish3_static c p p _ _ _

theorem fly_again (c : MCfg) (p : Ptl) (hq : p.q ≠ 0) : moveOne c Fields3.zero p (fly c p) = fly c p := by
  by_cases h : (fly c p).q = 0
  · unfold moveOne; rw [if_pos h]
  · have hs := fly_static c p
    have hc := finish3_cases c p p ⟨p.px, p.py, p.pz⟩ ⟨p.px, p.py, p.pz⟩ ⟨0, 0, 0⟩
    have hf : fly c p = finish3 c p p ⟨p.px, p.py, p.pz⟩ ⟨p.px, p.py, p.pz⟩ ⟨0, 0, 0⟩ := by unfold fly; rw [if_neg hq]
    rw [← hf] at hc
    have hid : SameId p (fly c p) := by
      rcases hc with hc | hc
      · exact absurd hc.1 h
      · exact ⟨hs.1, hs.2.1, hc.1, hs.2.2⟩
    rw [moveOne_zero _ _ _ h, finish3_id c p _ hid, hf]

theorem moveFree_anti (dxi : ℝ) (p : Ptl) : moveFree dxi p.anti = (moveFree dxi p).anti := by
  unfold moveFree Ptl.anti
  simp only
  split_ifs <;> rfl

theorem fly_anti (c : MCfg) (p : Ptl) : fly c p.anti = (fly c p).anti := by
  unfold fly
  by_cases h : p.q = 0
  · rw [if_pos h, if_pos (by simp [Ptl.anti, h])]
  · rw [if_neg h, if_neg (by simpa [Ptl.anti] using h)]
    unfold finish3 Ptl.anti
    simp only
    split_ifs <;> simp

/-- Every particle together with its antiparticle. -/
def neutral (ps : List Ptl) : List Ptl := ps ++ ps.map Ptl.anti

theorem neutral_deposit (N : ℤ) (h : ℝ) (ps : List Ptl) : depositSort N h (neutral ps) = Cur.zero := by
  have e : ∀ f : Ptl → ℝ, (∀ p, f p.anti = -f p) → ((neutral ps).map f).sum = 0 := by
    intro f hf
    unfold neutral
    rw [List.map_append, List.sum_append, List.map_map]
    induction ps with
    | nil => simp
    | cons p l ih =>
      simp only [List.map_cons, List.sum_cons, Function.comp, hf] at ih ⊢
      linarith
  have hc : ∀ p : Ptl, charge3 p.anti = -charge3 p := by intro p; unfold charge3 Ptl.anti; simp only; ring
  have hs : ∀ (p : Ptl) i j, shape N h p.anti i j = shape N h p i j := by intro p i j; rfl
  have d := depositSort_shape N h (neutral ps)
  generalize depositSort N h (neutral ps) = cur at d
  obtain ⟨ro, jx, jy, jz⟩ := cur
  simp only at d
  simp only [Cur.zero, Cur.mk.injEq]
  refine ⟨?_, ?_, ?_, ?_⟩ <;> funext i j
  · rw [(d i j).1, e _ (fun p => by rw [hc, hs]; ring), zero_div]
  · rw [(d i j).2.1, e _ (fun p => by unfold curX; rw [hc, hs]; simp only [Ptl.anti]; ring), zero_div]
  · rw [(d i j).2.2.1, e _ (fun p => by unfold curY; rw [hc, hs]; simp only [Ptl.anti]; ring), zero_div]
  · rw [(d i j).2.2.2, e _ (fun p => by unfold curZ; rw [hc, hs]; simp only [Ptl.anti]; ring), zero_div]

/-- A neutral stream without fields. -/
def stream (ps : List Ptl) : W3 := ⟨neutral ps, none, fun _ _ => 0, fun _ _ => 0, Fields3.zero, (Cur.zero, Cur.zero)⟩

theorem map_neutral (f : Ptl → Ptl) (hf : ∀ p, f p.anti = (f p).anti) (ps : List Ptl) : (neutral ps).map f = neutral (ps.map f) := by
  unfold neutral
  simp only [List.map_append, List.map_map]
  congr 2
  funext p
  exact hf p

/-- A charge-free particle as the walls leave it: it is not moved at all. -/
def Settled (p : Ptl) : Prop := p.q = 0 → p.px = 0 ∧ p.py = 0

theorem moveFree_settled (dxi : ℝ) (p : Ptl) (hs : Settled p) (hq : p.q = 0) : moveFree dxi p = p := moveFree_rest _ _ (hs hq)

theorem push_free (c : MCfg) (ps : List Ptl) (hs : ∀ p ∈ ps, Settled p) : moveSort c Fields3.zero ps (ps.map (moveFree c.dxi)) = ps.map (fly c) ∧ moveSort c Fields3.zero ps (ps.map (fly c)) = ps.map (fly c) := by
  unfold moveSort
  induction ps with
  | nil => exact ⟨rfl, rfl⟩
  | cons p l ih =>
    have ih := ih fun x hx => hs x (List.mem_cons_of_mem _ hx)
    simp only [List.map_cons, List.zipWith_cons_cons, ih.1, ih.2, List.cons.injEq, and_true]
    by_cases hq : p.q = 0
    · have hf : fly c p = p := by unfold fly; rw [if_pos hq]
      rw [moveFree_settled _ p (hs p List.mem_cons_self) hq, hf]
      unfold moveOne
      rw [if_pos hq]
      exact ⟨rfl, rfl⟩
    · exact ⟨fly_first c p hq, fly_again c p hq⟩

theorem neutral_settled (ps : List Ptl) (hs : ∀ p ∈ ps, Settled p) : ∀ p ∈ neutral ps, Settled p := by
  intro p hp
  unfold neutral at hp
  rcases List.mem_append.mp hp with hp | hp
  · exact hs p hp
  · obtain ⟨a, ha, rfl⟩ := List.mem_map.mp hp
    intro hq
    exact hs a ha (by simpa [Ptl.anti] using hq)

/-- The three pushes of a step of a neutral stream all move the particles freely, and no fields arise. -/
theorem stream_passes (c : SCfg) (h0 : c.roInit = fun _ _ => 0) (ps : List Ptl) (hs : ∀ p ∈ ps, Settled p) :
    freeSorts c (stream ps) = ((neutral ps).map (moveFree c.m.dxi), none) ∧
    pushSorts c Fields3.zero (stream ps) ((neutral ps).map (moveFree c.m.dxi), none) = (neutral (ps.map (fly c.m)), none) ∧
    pushSorts c Fields3.zero (stream ps) (neutral (ps.map (fly c.m)), none) = (neutral (ps.map (fly c.m)), none) ∧
    computeFields c.f Fields3.zero Fields3.zero (fun _ _ => 0) (fun _ _ => 0) (Cur.zero, Cur.zero) (rhojSorts c (neutral (ps.map (fly c.m)), none)) = (Fields3.zero, Fields3.zero) ∧
    rhojSorts c (neutral (ps.map (fly c.m)), none) = (Cur.zero, Cur.zero) := by
  have pf := push_free c.m (neutral ps) (neutral_settled ps hs)
  have e := map_neutral (fly c.m) (fly_anti c.m) ps
  have r : rhojSorts c (neutral (ps.map (fly c.m)), none) = (Cur.zero, Cur.zero) := by
    unfold rhojSorts computeRhoj
    rw [neutral_deposit, h0]
    rfl
  refine ⟨rfl, ?_, ?_, ?_, r⟩
  · unfold pushSorts stream; simp only; rw [pf.1, e]
  · unfold pushSorts stream; simp only; rw [← e, pf.2]
  · rw [r]
    apply zero_fields
    · intro i j; exact ⟨rfl, rfl, rfl, rfl⟩
    · exact fields_zero_all
    · simp [Cur.total, Cur.zero]
    · simp [Cur.total, Cur.zero]

/-- C49: one layer of a neutral stream. -/
theorem stream_step (c : SCfg) (hd : c.decl = none) (h0 : c.roInit = fun _ _ => 0) (ps : List Ptl) (hs : ∀ p ∈ ps, Settled p) :
    stepDxi c (stream ps) (fun _ _ => 0) (fun _ _ => 0) = stream (ps.map (fly c.m)) ∧
    pushes c (stream ps) (fun _ _ => 0) (fun _ _ => 0) = [(Fields3.zero, ((neutral ps).map (moveFree c.m.dxi), none)), (Fields3.zero, (neutral (ps.map (fly c.m)), none)), (Fields3.zero, (neutral (ps.map (fly c.m)), none))] := by
  obtain ⟨h1, h2, h3, h4, h5⟩ := stream_passes c h0 ps hs
  have hF : (stream ps).F = Fields3.zero := rfl
  have hcur : (stream ps).cur = (Cur.zero, Cur.zero) := rfl
  have hp : predictor c (stream ps) (fun _ _ => 0) (fun _ _ => 0) = ((neutral (ps.map (fly c.m)), none), (Fields3.zero, Fields3.zero)) := by
    unfold predictor
    simp only [hF, hcur, h1, h2, h4, h3]
  constructor
  · unfold stepDxi
    rw [hd]
    simp only [hp, h3, h5]
    rfl
  · unfold pushes
    simp only [hF, hcur, h1, h2, h4, h3]

/-- How far a particle flies in x in one layer. -/
noncomputable def stride (c : MCfg) (p : Ptl) : ℝ := p.px / (Real.sqrt (p.m ^ 2 + p.px ^ 2 + p.py ^ 2 + p.pz ^ 2) - p.pz) * c.dxi

/-- Inside the walls, and the stride shorter than the width of the plasma (or switched off and at rest). -/
def Tame (c : MCfg) (p : Ptl) : Prop := Settled p ∧ (p.q = 0 ∨ (|p.X| ≤ c.boundary ∧ |stride c p| ≤ 2 * c.boundary))

theorem fly_tame (c : MCfg) (hb : 0 ≤ c.boundary) (p : Ptl) (h : Tame c p) : Tame c (fly c p) := by
  by_cases hq : p.q = 0
  · have : fly c p = p := by unfold fly; rw [if_pos hq]
    rw [this]; exact h
  have hf : fly c p = finish3 c p p ⟨p.px, p.py, p.pz⟩ ⟨p.px, p.py, p.pz⟩ ⟨0, 0, 0⟩ := by unfold fly; rw [if_neg hq]
  have hc := finish3_cases c p p ⟨p.px, p.py, p.pz⟩ ⟨p.px, p.py, p.pz⟩ ⟨0, 0, 0⟩
  rw [← hf] at hc
  have hs := fly_static c p
  rcases hc with hc | hc
  · exact ⟨fun _ => ⟨hc.2.2.2.1, hc.2.2.2.2.1⟩, Or.inl hc.1⟩
  · have hq' : (fly c p).q ≠ 0 := by rw [hc.1]; exact hq
    refine ⟨fun h' => absurd h' hq', Or.inr ⟨?_, ?_⟩⟩
    · unfold Ptl.X; rw [hs.1]; exact le_of_lt hc.2.1
    · have hm : ((fly c p).px = p.px ∧ (fly c p).py = p.py ∧ (fly c p).pz = p.pz) ∨ ((fly c p).px = 0) := by
        rw [hf]
        rw [hf] at hq'
        unfold finish3 at hq' ⊢
        simp only at hq' ⊢
        split_ifs at hq' ⊢ with hcond
        · exact absurd rfl hq'
        · unfold correctBoundary reflBottom reflTop reflLeft reflRight
          split_ifs <;> simp
      rcases hm with hm | hm
      · unfold stride
        rw [hm.1, hm.2.1, hm.2.2, hs.2.2]
        rcases h.2 with h' | h'
        · exact absurd h' hq
        · exact h'.2
      · unfold stride; rw [hm]; simp; linarith

theorem tame_noLeap (c : MCfg) (hb : 0 ≤ c.boundary) (p f : Ptl) (h : Tame c p) (hf : f = moveFree c.dxi p ∨ f = fly c p) : f.q = 0 ∨ NoLeap c Fields3.zero p f := by
  by_cases hq : p.q = 0
  · left
    rcases hf with rfl | rfl
    · rw [(moveFree_id c.dxi p).2.2.1]; exact hq
    · unfold fly; rw [if_pos hq]; exact hq
  rcases h.2 with h' | ⟨hX, hst⟩
  · exact absurd h' hq
  have hXa := abs_le.mp hX
  have hsa := abs_le.mp hst
  unfold Ptl.X at hXa
  have second : f.m = p.m → |p.x0 + (p.x + (midMomentum c Fields3.zero p f).x / (Real.sqrt (f.m ^ 2 + (midMomentum c Fields3.zero p f).x ^ 2 + (midMomentum c Fields3.zero p f).y ^ 2 + (midMomentum c Fields3.zero p f).z ^ 2) - (midMomentum c Fields3.zero p f).z) * c.dxi)| ≤ 3 * c.boundary := by
    intro hm
    rw [midMomentum_zero, hm]
    simp only
    rw [show p.px / (Real.sqrt (p.m ^ 2 + p.px ^ 2 + p.py ^ 2 + p.pz ^ 2) - p.pz) * c.dxi = stride c p from rfl]
    rw [abs_le]; constructor <;> linarith [hXa.1, hXa.2, hsa.1, hsa.2]
  rcases hf with rfl | rfl
  · right
    refine ⟨?_, second (moveFree_id c.dxi p).2.2.2⟩
    have : (moveFree c.dxi p).x = p.x ∨ (moveFree c.dxi p).x = p.x + stride c p := by
      unfold moveFree
      split_ifs
      · left; rfl
      · right; simp only [stride]; rw [sqrt_comm]
    rw [abs_le]
    rcases this with e | e <;> rw [e] <;> constructor <;> linarith [hXa.1, hXa.2, hsa.1, hsa.2]
  · have hc := finish3_cases c p p ⟨p.px, p.py, p.pz⟩ ⟨p.px, p.py, p.pz⟩ ⟨0, 0, 0⟩
    have hfl : fly c p = finish3 c p p ⟨p.px, p.py, p.pz⟩ ⟨p.px, p.py, p.pz⟩ ⟨0, 0, 0⟩ := by unfold fly; rw [if_neg hq]
    rw [← hfl] at hc
    rcases hc with hc | hc
    · left; exact hc.1
    · right
      refine ⟨?_, second (fly_static c p).2.2⟩
      have := abs_lt.mp hc.2.1
      rw [abs_le]; constructor <;> linarith [hXa.1, hXa.2, this.1, this.2]

theorem neutral_tame (c : MCfg) (ps : List Ptl) (h : ∀ p ∈ ps, Tame c p) : ∀ p ∈ neutral ps, Tame c p := by
  intro p hp
  unfold neutral at hp
  rcases List.mem_append.mp hp with hp | hp
  · exact h p hp
  · obtain ⟨a, ha, rfl⟩ := List.mem_map.mp hp
    obtain ⟨h1, h2⟩ := h a ha
    refine ⟨fun hq => h1 (by simpa [Ptl.anti] using hq), ?_⟩
    rcases h2 with h2 | h2
    · left; simp [Ptl.anti, h2]
    · right; exact h2

theorem zip_map_noLeap (c : MCfg) (l : List Ptl) (g : Ptl → Ptl) (h : ∀ p ∈ l, (g p).q = 0 ∨ NoLeap c Fields3.zero p (g p)) : NoLeaps c Fields3.zero l (l.map g) := by
  intro t ht
  rw [List.zip_map_right] at ht
  obtain ⟨a, ha, rfl⟩ := List.mem_map.mp ht
  have hz : a.1 ∈ l ∧ a.2 = a.1 := by
    rw [List.zip, List.zipWith_self] at ha
    obtain ⟨x, hx, rfl⟩ := List.mem_map.mp ha
    exact ⟨hx, rfl⟩
  simp only [Prod.map]
  rw [hz.2]
  exact h a.1 hz.1

/-- C49: a neutral stream whose particles start inside the walls with strides below the width of the plasma meets the hypothesis of the mirror theorem in every layer, for any number of layers, and is what the run does to it. -/
theorem stream_noLeap (c : SCfg) (hb : 0 ≤ c.m.boundary) (hd : c.decl = none) (h0 : c.roInit = fun _ _ => 0) (ps : List Ptl) (h : ∀ p ∈ ps, Tame c.m p) (n : ℕ) :
    RunNoLeap c (stream ps) (fun _ _ => 0) (List.replicate n fun _ _ => 0) ∧
    runLayers c (stream ps) (fun _ _ => 0) (List.replicate n fun _ _ => 0) = stream (ps.map (fly c.m)^[n]) := by
  induction n generalizing ps with
  | zero => exact ⟨trivial, by simp [runLayers]⟩
  | succ n ih =>
    have st := stream_step c hd h0 ps fun p hp => (h p hp).1
    have next := ih (ps.map (fly c.m)) (by
      intro p hp
      obtain ⟨a, ha, rfl⟩ := List.mem_map.mp hp
      exact fly_tame c.m hb a (h a ha))
    refine ⟨⟨?_, ?_⟩, ?_⟩
    · intro t ht
      rw [st.2] at ht
      have nt := neutral_tame c.m ps h
      have e := map_neutral (fly c.m) (fly_anti c.m) ps
      have a1 : NoLeaps c.m Fields3.zero (neutral ps) ((neutral ps).map (moveFree c.m.dxi)) := zip_map_noLeap c.m _ _ fun p hp => tame_noLeap c.m hb p _ (nt p hp) (Or.inl rfl)
      have a2 : NoLeaps c.m Fields3.zero (neutral ps) (neutral (ps.map (fly c.m))) := by rw [← e]; exact zip_map_noLeap c.m _ _ fun p hp => tame_noLeap c.m hb p _ (nt p hp) (Or.inr rfl)
      rcases List.mem_cons.mp ht with rfl | ht
      · exact ⟨a1, fun a b ha => by simp [stream] at ha⟩
      · rcases List.mem_cons.mp ht with rfl | ht
        · exact ⟨a2, fun a b ha => by simp [stream] at ha⟩
        · rw [List.mem_singleton] at ht
          subst ht
          exact ⟨a2, fun a b ha => by simp [stream] at ha⟩
    · rw [st.1]; exact next.1
    · rw [List.replicate_succ, runLayers, st.1, next.2, List.map_map]
      rfl

theorem stream_mirror (L : ℕ) (ps : List Ptl) : (stream ps).mirror L = stream (ps.map Ptl.mirror) := by
  unfold stream W3.mirror neutral
  simp only [List.map_append, List.map_map, W3.mk.injEq, Option.map_none, true_and, and_true]
  refine ⟨rfl, ?_, ?_⟩
  · simp only [Fields3.mirror, Fields3.zero, Fields3.mk.injEq]
    refine ⟨?_, ?_, ?_, ?_, ?_, ?_, ?_⟩ <;> funext i j <;> simp [neg2, mx]
  · have : Cur.mirror L Cur.zero = Cur.zero := by
      simp only [Cur.mirror, Cur.zero, Cur.mk.injEq]
      refine ⟨?_, ?_, ?_, ?_⟩ <;> funext i j <;> simp [neg2, mx]
    simp only [this]

/-- A case that meets the hypotheses of `stream_noLeap`, and with them those of the mirror theorem: an electron-positron pair with momentum 3 and mass 4 (γ = 5) in the middle of a window of 11 cells; in each layer it advances by 3/50. -/
example : Tame ⟨1 / 10, 1, 11, 2⟩ ⟨0, 0, 0, 0, 3, 0, 0, 1, 4⟩ ∧ (fly ⟨1 / 10, 1, 11, 2⟩ ⟨0, 0, 0, 0, 3, 0, 0, 1, 4⟩) = ⟨0, 0, 3 / 50, 0, 3, 0, 0, 1, 4⟩ := by
  have sq : Real.sqrt ((4 : ℝ) ^ 2 + 3 ^ 2 + 0 ^ 2 + 0 ^ 2) = 5 := by rw [show (4 : ℝ) ^ 2 + 3 ^ 2 + 0 ^ 2 + 0 ^ 2 = 5 ^ 2 by norm_num]; exact Real.sqrt_sq (by norm_num)
  have sq' : Real.sqrt ((4 : ℝ) ^ 2 + 0 ^ 2 + 3 ^ 2 + 0 ^ 2) = 5 := by rw [show (4 : ℝ) ^ 2 + 0 ^ 2 + 3 ^ 2 + 0 ^ 2 = 5 ^ 2 by norm_num]; exact Real.sqrt_sq (by norm_num)
  refine ⟨⟨fun h => absurd h (by norm_num), Or.inr ⟨?_, ?_⟩⟩, ?_⟩
  · norm_num [Ptl.X, MCfg.boundary]
  · simp only [stride, sq, MCfg.boundary]
    rw [abs_le]; norm_num
  · simp only [fly, finish3, sq', MCfg.boundary, correctBoundary, reflRight, reflLeft, reflTop, reflBottom]
    norm_num

/-- The pair and the walls of the refutation: γ = 19, and a stride of 6/10 in a plasma of half-width 3/20. -/
noncomputable def leaper : Ptl := ⟨0, 0, 0, 0, 6, 0, 18, 1, 1⟩
noncomputable def narrow : MCfg := ⟨1 / 10, 1 / 10, 5, 1⟩

theorem leaper_fly : (fly narrow leaper).q = 1 ∧ (fly narrow leaper.mirror).q = 0 := by
  have sq : Real.sqrt ((1 : ℝ) ^ 2 + 18 ^ 2 + 6 ^ 2 + 0 ^ 2) = 19 := by rw [show (1 : ℝ) ^ 2 + 18 ^ 2 + 6 ^ 2 + 0 ^ 2 = 19 ^ 2 by norm_num]; exact Real.sqrt_sq (by norm_num)
  have sq' : Real.sqrt ((1 : ℝ) ^ 2 + 18 ^ 2 + (-6) ^ 2 + 0 ^ 2) = 19 := by rw [show (1 : ℝ) ^ 2 + 18 ^ 2 + (-6) ^ 2 + 0 ^ 2 = 19 ^ 2 by norm_num]; exact Real.sqrt_sq (by norm_num)
  constructor
  · simp only [leaper, narrow, fly, finish3, sq, MCfg.boundary, correctBoundary, reflRight, reflLeft, reflTop, reflBottom]
    norm_num
  · simp only [leaper, narrow, Ptl.mirror, fly, finish3, sq', MCfg.boundary, correctBoundary, reflRight, reflLeft, reflTop, reflBottom]
    norm_num

/-- C49 (refutation without the restriction on the strides): a neutral pair that flies to the right by four half-widths of the plasma is reflected by the right wall and again by the left one and is kept;
its mirror image, which flies to the left, is reflected by the left wall only (the right one has been looked at before), comes to lie outside and is switched off.
So the layer after that is not the mirror image. -/
theorem leap_breaks_mirror : ∃ (c : SCfg) (w : W3), c.m.N % 2 = 1 ∧ 0 < c.m.boundary ∧ c.decl = none ∧ (∀ p ∈ w.el, StrictlyInside c.m.boundary p) ∧
    stepDxi { c with roInit := mx c.f.L c.roInit } (w.mirror c.f.L) (mx c.f.L fun _ _ => 0) (mx c.f.L fun _ _ => 0) ≠ (stepDxi c w (fun _ _ => 0) (fun _ _ => 0)).mirror c.f.L := by
  refine ⟨⟨narrow, 0, fun _ _ => 0, none⟩, stream [leaper], by decide, by norm_num [narrow, MCfg.boundary], rfl, ?_, ?_⟩
  · intro p hp
    simp [stream, neutral] at hp
    rcases hp with rfl | rfl <;> norm_num [StrictlyInside, leaper, Ptl.anti, Ptl.X, Ptl.Y, narrow, MCfg.boundary]
  · intro h
    have h1 := (stream_step ⟨narrow, 0, fun _ _ => 0, none⟩ rfl rfl [leaper] (by intro p hp; rw [List.mem_singleton] at hp; subst hp; intro hq; norm_num [leaper] at hq)).1
    have h2 := (stream_step ⟨narrow, 0, fun _ _ => 0, none⟩ rfl rfl [leaper.mirror] (by intro p hp; rw [List.mem_singleton] at hp; subst hp; intro hq; norm_num [leaper, Ptl.mirror] at hq)).1
    rw [h1, stream_mirror, stream_mirror] at h
    have h3 : stepDxi ⟨narrow, 0, fun _ _ => 0, none⟩ (stream [leaper.mirror]) (fun _ _ => 0) (fun _ _ => 0) = stream ([leaper].map (fly narrow) |>.map Ptl.mirror) := h
    rw [h2] at h3
    have h4 := congrArg (fun w : W3 => (w.el.map Ptl.q).head?) h3
    simp only [stream, neutral, List.map_cons, List.map_nil, List.cons_append, List.head?_cons, Option.some.injEq] at h4
    rw [leaper_fly.2, show (fly narrow leaper).mirror.q = (fly narrow leaper).q from rfl, leaper_fly.1] at h4
    norm_num at h4

theorem quiet_step_noLeap (c : SCfg) (w : W3) (hq : Quiet3 c w) : StepNoLeap c w (fun _ _ => 0) (fun _ _ => 0) := by
  have hel : ∀ p ∈ w.el, (p.q = 0 ∨ StrictlyInside c.m.boundary p) ∧ p.x = 0 ∧ p.y = 0 ∧ p.px = 0 ∧ p.py = 0 ∧ p.pz = 0 :=
    fun p hp => hq.rest p (List.mem_append_left _ hp)
  have hion : ∀ l, w.ions = some l → ∀ p ∈ l, (p.q = 0 ∨ StrictlyInside c.m.boundary p) ∧ p.x = 0 ∧ p.y = 0 ∧ p.px = 0 ∧ p.py = 0 ∧ p.pz = 0 :=
    fun l h p hp => hq.rest p (List.mem_append_right _ (by rw [h]; exact hp))
  have pushes_eq : pushes c w (fun _ _ => 0) (fun _ _ => 0) = [(Fields3.zero, (w.el, w.ions)), (Fields3.zero, (w.el, w.ions)), (Fields3.zero, (w.el, w.ions))] := by
    have free : freeSorts c w = (w.el, w.ions) := by
      unfold freeSorts
      congr 1
      · conv_rhs => rw [← List.map_id w.el]
        exact List.map_congr_left fun p hp => moveFree_rest _ _ ⟨(hel p hp).2.2.2.1, (hel p hp).2.2.2.2.1⟩
      · cases h : w.ions with
        | none => rfl
        | some l =>
          rw [Option.map_some]
          congr 1
          conv_rhs => rw [← List.map_id l]
          exact List.map_congr_left fun p hp => moveFree_rest _ _ ⟨(hion l h p hp).2.2.2.1, (hion l h p hp).2.2.2.2.1⟩
    have push : pushSorts c Fields3.zero w (w.el, w.ions) = (w.el, w.ions) := by
      unfold pushSorts
      congr 1
      · exact moveSort_rest c.m _ w.el (fun p hp => ⟨(hel p hp).1, (hel p hp).2.2.2⟩) fields_zero_all
      · cases h : w.ions with
        | none => rfl
        | some l =>
          simp only
          congr 1
          exact moveSort_rest c.m _ l (fun p hp => ⟨(hion l h p hp).1, (hion l h p hp).2.2.2⟩) fields_zero_all
    have fz : computeFields c.f Fields3.zero Fields3.zero (fun _ _ => 0) (fun _ _ => 0) w.cur (rhojSorts c (w.el, w.ions)) = (Fields3.zero, Fields3.zero) := by
      apply zero_fields c.f _ _ _ _ _ _ hq.cur hq.neutral
      · intro i j; exact ⟨rfl, rfl, rfl, rfl⟩
      · exact fields_zero_all
    unfold pushes
    simp only [free, hq.fields, push, fz]
  have one : ∀ l : List Ptl, (∀ p ∈ l, (p.q = 0 ∨ StrictlyInside c.m.boundary p) ∧ p.x = 0 ∧ p.y = 0 ∧ p.px = 0 ∧ p.py = 0 ∧ p.pz = 0) → NoLeaps c.m Fields3.zero l l := by
    intro l hl
    have e : l.map id = l := List.map_id l
    rw [show NoLeaps c.m Fields3.zero l l = NoLeaps c.m Fields3.zero l (l.map id) by rw [e]]
    apply zip_map_noLeap
    intro p hp
    obtain ⟨h1, h2, h3, h4, h5, h6⟩ := hl p hp
    rcases h1 with h1 | h1
    · left; exact h1
    · right
      have ha := abs_lt.mp h1.1
      unfold Ptl.X at ha
      refine ⟨?_, ?_⟩
      · rw [abs_le]; simp only [id]; constructor <;> linarith [ha.1, ha.2]
      · rw [midMomentum_zero, h4]
        simp only [zero_div, zero_mul, add_zero]
        rw [abs_le]; constructor <;> linarith [ha.1, ha.2]
  intro t ht
  rw [pushes_eq] at ht
  simp only [List.mem_cons, List.not_mem_nil, or_false, or_self] at ht
  subst ht
  refine ⟨one _ hel, ?_⟩
  intro a b ha hb
  simp only at hb
  rw [ha] at hb
  cases hb
  exact one a (hion a ha)

/-- C49: the plasma that init_plasma creates, without a beam, meets the hypothesis too, for any number of layers. -/
theorem quiet_noLeap (c : SCfg) (hd : c.decl = none) (w : W3) (hq : Quiet3 c w) (n : ℕ) : RunNoLeap c w (fun _ _ => 0) (List.replicate n fun _ _ => 0) := by
  induction n generalizing w with
  | zero => trivial
  | succ n ih =>
    refine ⟨quiet_step_noLeap c w hq, ?_⟩
    rw [quiet_step c w hq (by intro d h; rw [hd] at h; cases h)]
    exact ih _ ⟨hq.rest, hq.neutral, hq.neutral, hq.fields, hq.ch⟩

end Lcode.Plasma3D
