import Verif.Fp.Plasma3World

/-!
C74: in doubles, a 3D plasma at rest stays exactly at rest, and no particle leaves the region inside the boundary.
-/

namespace Lcode.Fp

open Lcode.Plasma3D (places)

/-! ### Specification -/

/-- A particle without charge, or strictly inside the boundary, as the computer sees its position. -/
def Inside3F (b : ℚ) (p : P3F) : Prop := p.q = 0 ∨ (|fl (p.x0 + p.x)| < b ∧ |fl (p.y0 + p.y)| < b)

/-- A particle at rest at its initial place, at floats. -/
structure Rest3F (b : ℚ) (p : P3F) : Prop where
  x0 : IsFloat p.x0
  y0 : IsFloat p.y0
  ins : p.q = 0 ∨ (|p.x0| < b ∧ |p.y0| < b)
  pos : p.x = 0 ∧ p.y = 0
  mom : p.px = 0 ∧ p.py = 0 ∧ p.pz = 0

/-- The library functions return zeros for zeros. -/
structure LibF.Zero (t : LibF) : Prop where
  dir : t.dir zeroArr = zeroArr
  mix : t.mix zeroArr = zeroArr
  neu : t.neu zeroArr = zeroArr
  mean : t.mean zeroArr = 0
  smooth : t.smooth zeroArr = zeroArr

def zeroFld : Fld3F := ⟨zeroArr, zeroArr, zeroArr, zeroArr, zeroArr, zeroArr, zeroArr⟩
def zeroCur : Cur3F := ⟨zeroArr, zeroArr, zeroArr, zeroArr⟩

/-! ### The push -/

theorem interp_zero3 (c : M3F) (x y : ℚ) : interp3F c x y zeroArr = 0 := by
  unfold interp3F
  apply sumF_zero
  intro v hv
  simp only [List.mem_flatMap, List.mem_map] at hv
  obtain ⟨kx, -, ky, -, rfl⟩ := hv
  simp [zeroArr, fl_zero']

theorem correct_inside {b x0 y0 : ℚ} {p : V3F} (hx : IsFloat x0) (hy : IsFloat y0) (h1 : |x0| < b) (h2 : |y0| < b) : correct3F x0 y0 0 0 p b = ⟨x0, y0, 0, 0, p⟩ := by
  rw [abs_lt] at h1 h2
  unfold correct3F
  rw [add_zero, add_zero, fl_exact hx, fl_exact hy]
  have e1 : reflRightF b x0 ⟨x0, y0, 0, 0, p⟩ = ⟨x0, y0, 0, 0, p⟩ := by unfold reflRightF; exact if_neg (by simpa using h1.2.le)
  have e2 : reflLeftF b x0 ⟨x0, y0, 0, 0, p⟩ = ⟨x0, y0, 0, 0, p⟩ := by unfold reflLeftF; exact if_neg (by simpa using h1.1.le)
  have e3 : reflTopF b y0 ⟨x0, y0, 0, 0, p⟩ = ⟨x0, y0, 0, 0, p⟩ := by unfold reflTopF; exact if_neg (by simpa using h2.2.le)
  have e4 : reflBottomF b y0 ⟨x0, y0, 0, 0, p⟩ = ⟨x0, y0, 0, 0, p⟩ := by unfold reflBottomF; exact if_neg (by simpa using h2.1.le)
  rw [e1, e2, e3, e4]

theorem kick_zero3 (q m dxi : ℚ) (p : V3F) (hp : p = ⟨0, 0, 0⟩) : kick3F q m dxi ⟨0, 0, 0⟩ ⟨0, 0, 0⟩ p = ⟨0, 0, 0⟩ := by
  subst hp
  unfold kick3F
  simp [fl_zero']

/-- A particle at rest in vanishing fields is not touched. -/
theorem push3_at_rest_doubles (c : M3F) (p : P3F) (h : Rest3F c.b p) : moveOne3F c zeroFld p p = p := by
  unfold moveOne3F
  by_cases hq : p.q = 0
  · rw [if_pos hq]
  rw [if_neg hq]
  obtain ⟨hx, hy, hin, ⟨p1, p2⟩, m1, m2, m3⟩ := h
  have hin := hin.resolve_left hq
  have hh : half3F c p p = ⟨p.x0, p.y0, 0, 0, ⟨0, 0, 0⟩⟩ := by
    unfold half3F
    rw [p1, p2, m1, m2, m3, add_zero, fl_zero', zero_div, fl_zero']
    exact correct_inside hx hy hin.1 hin.2
  simp only [hh, zeroFld, interp_zero3, m1, m2, m3, kick_zero3]
  have ha : addHalfF ⟨0, 0, 0⟩ ⟨0, 0, 0⟩ = ⟨0, 0, 0⟩ := by simp [addHalfF, fl_zero']
  rw [ha, kick_zero3 _ _ _ _ rfl, ha]
  unfold finish3F
  simp only [p1, p2, zero_div, fl_zero', zero_mul, add_zero]
  rw [correct_inside hx hy hin.1 hin.2]
  simp only [add_zero, fl_exact hx, fl_exact hy]
  have i1 := abs_lt.mp hin.1
  have i2 := abs_lt.mp hin.2
  rw [if_neg (by rintro (h | h | h | h) <;> linarith)]
  cases p
  simp_all

theorem free3_at_rest (dxi b : ℚ) (p : P3F) (h : Rest3F b p) : moveFree3F dxi p = p := by
  obtain ⟨-, -, -, ⟨p1, p2⟩, m1, m2, m3⟩ := h
  unfold moveFree3F
  split
  · rfl
  · cases p
    simp only at p1 p2 m1 m2 m3
    subst p1 p2 m1 m2 m3
    simp [fl_zero']

theorem sort3_at_rest (c : M3F) (l : List P3F) (hl : ∀ p ∈ l, Rest3F c.b p) : moveSort3F c zeroFld l l = l := by
  unfold moveSort3F
  induction l with
  | nil => rfl
  | cons p l ih => rw [List.zipWith_cons_cons, ih fun x hx => hl x (List.mem_cons_of_mem _ hx), push3_at_rest_doubles c p (hl p List.mem_cons_self)]

theorem map_rest (dxi b : ℚ) (l : List P3F) (hl : ∀ p ∈ l, Rest3F b p) : l.map (moveFree3F dxi) = l :=
  (List.map_congr_left fun p hp => free3_at_rest dxi b p (hl p hp)).trans (List.map_id l)

/-! ### Currents -/

theorem deposit_amount_zero (N : ℤ) (h : ℚ) (amount : P3F → ℚ) (ps : List P3F) (ha : ∀ p ∈ ps, amount p = 0) : depositP3F N h amount ps = zeroArr := by
  funext i j
  unfold depositP3F zeroArr
  rw [addAtF_apply]
  apply sumF_zero
  intro v hv
  unfold atNode at hv
  simp only [List.mem_map, List.mem_filter, List.mem_flatMap] at hv
  obtain ⟨t, ⟨⟨p, hp, ht⟩, -⟩, rfl⟩ := hv
  unfold incsP3F at ht
  simp only at ht
  split at ht
  · simp at ht
  · simp only [List.mem_flatMap, List.mem_map] at ht
    obtain ⟨kx, -, ky, -, rfl⟩ := ht
    simp [ha p hp, fl_zero']

theorem currents_at_rest (N : ℤ) (h : ℚ) (ps : List P3F) (hm : ∀ p ∈ ps, p.px = 0 ∧ p.py = 0 ∧ p.pz = 0) : sortCur3F N h ps = ⟨depositP3F N h dro3F ps, zeroArr, zeroArr, zeroArr⟩ := by
  unfold sortCur3F
  rw [deposit_amount_zero N h (fun p => fl (p.px * fl (dro3F p / gamma3F p))) ps fun p hp => by simp [(hm p hp).1, fl_zero'],
    deposit_amount_zero N h (fun p => fl (p.py * fl (dro3F p / gamma3F p))) ps fun p hp => by simp [(hm p hp).2.1, fl_zero'],
    deposit_amount_zero N h (fun p => fl (p.pz * fl (dro3F p / gamma3F p))) ps fun p hp => by simp [(hm p hp).2.2, fl_zero']]

theorem dro_at_rest {p : P3F} (h : p.pz = 0) : dro3F p = fl (p.q) := by
  unfold dro3F
  rw [h, zero_div, fl_zero', sub_zero, fl_one, div_one]

/-- Charges of opposite sign at the same places make opposite densities, bit by bit. -/
theorem deposit_neg (N : ℤ) (h ionMass : ℚ) (el : List P3F) (hm : ∀ p ∈ el, p.pz = 0) : depositP3F N h dro3F (ions3F ionMass el) = negA (depositP3F N h dro3F el) := by
  have key : (ions3F ionMass el).flatMap (incsP3F N h dro3F) = (el.flatMap (incsP3F N h dro3F)).map fun t => (t.1, -t.2) := by
    unfold ions3F
    rw [List.flatMap_map, List.map_flatMap]
    apply List.flatMap_congr
    intro p hp
    have e : dro3F { p with q := -p.q, m := fl (ionMass * p.m) } = -dro3F p := by
      rw [dro_at_rest (p := { p with q := -p.q, m := fl (ionMass * p.m) }) (hm p hp), dro_at_rest (hm p hp), fl_neg]
    unfold incsP3F
    simp only [e, neg_eq_zero]
    split
    · rfl
    · simp only [List.map_flatMap, List.map_map, Function.comp_def, neg_mul, fl_neg]
  funext i j
  show addAtF (fun _ => 0) ((ions3F ionMass el).flatMap (incsP3F N h dro3F)) (i, j) = -addAtF (fun _ => 0) (el.flatMap (incsP3F N h dro3F)) (i, j)
  rw [key, addAtF_apply, addAtF_apply]
  generalize el.flatMap (incsP3F N h dro3F) = l
  have e : atNode (i, j) (l.map fun t => (t.1, -t.2)) = (atNode (i, j) l).map fun v => -v := by
    unfold atNode
    simp [List.filter_map, List.map_map, Function.comp_def]
  rw [e]
  have gen : ∀ (v : List ℚ) (a : ℚ), sumF (-a) (v.map fun x => -x) = -sumF a v := by
    intro v
    induction v with
    | nil => intro a; rfl
    | cons x v ih =>
      intro a
      show sumF (fl (-a + -x)) (v.map fun x => -x) = -sumF (fl (a + x)) v
      rw [← ih, ← fl_neg, neg_add]
  have := gen (atNode (i, j) l) 0
  rwa [neg_zero] at this

/-! ### Fields -/

theorem addA_neg (a : Arr) : addA a (negA a) = zeroArr := by
  funext i j; simp [addA, negA, zeroArr, fl_zero']

theorem addA_zero : addA zeroArr zeroArr = zeroArr := by
  funext i j; simp [addA, zeroArr, fl_zero']
theorem subA_zero : subA zeroArr zeroArr = zeroArr := by
  funext i j; simp [subA, zeroArr, fl_zero']
theorem divA_zero (k : ℚ) : divA zeroArr k = zeroArr := by
  funext i j; simp [divA, zeroArr, fl_zero']
theorem scaleA_zero (k : ℚ) : scaleA k zeroArr = zeroArr := by
  funext i j; simp [scaleA, zeroArr, fl_zero']
theorem negA_zero : negA zeroArr = zeroArr := by
  funext i j; simp [negA, zeroArr]
theorem trA_zero : trA zeroArr = zeroArr := rfl
theorem diffX_zero (L : ℕ) : diffX L zeroArr = zeroArr := by
  funext i j; simp [diffX, zeroArr, fl_zero']
theorem diffY_zero (L : ℕ) : diffY L zeroArr = zeroArr := by
  funext i j; simp [diffY, zeroArr, fl_zero']

/-- No net charge, no net current, no beam, no fields before: no fields. -/
theorem fields3_quiet_doubles (t : LibF) (ht : t.Zero) (c : F3F) (prev full : Cur3F × Cur3F) (hp : total3F prev = zeroCur) (hf : total3F full = zeroCur) :
    fields3F t c zeroFld zeroFld zeroArr zeroArr prev full = (zeroFld, zeroFld) := by
  have hz : (fun i j => fl (zeroArr i j - 0)) = zeroArr := by funext i j; simp [zeroArr, fl_zero']
  unfold fields3F calcExF calcEyF calcBxF calcByF calcEzF calcBzF calcPhiF halfArr
  simp only [hp, hf, zeroCur, zeroFld, addA_zero, subA_zero, divA_zero, scaleA_zero, negA_zero, trA_zero, diffX_zero, diffY_zero, ht.mix, ht.dir, ht.neu, ht.mean, hz]

/-! ### The filter -/

theorem entry_rest (n : ℕ) (ps : List P3F) (g : P3F → ℚ) (h : ∀ p ∈ ps, g p = 0) : entryF n ps g = zeroArr := by
  funext i j
  unfold entryF zeroArr
  split
  · rename_i p hp; exact h p (List.mem_of_getElem? hp)
  · rfl

theorem inhom_zero (n : ℤ) : inhomF n zeroArr = zeroArr := by
  funext i j
  simp [inhomF, inhomRowF, zeroArr, fl_zero']

theorem filter3_at_rest (t : LibF) (ht : t.Zero) (d : NC3F) (b : ℚ) (el : List P3F) (h : ∀ p ∈ el, Rest3F b p) : filter3F t d el zeroArr zeroArr = (el, zeroArr, zeroArr) := by
  unfold filter3F
  simp only
  rw [entry_rest d.n el P3F.x fun p hp => (h p hp).pos.1, entry_rest d.n el P3F.y fun p hp => (h p hp).pos.2,
    entry_rest d.n el P3F.px fun p hp => (h p hp).mom.1, entry_rest d.n el P3F.py fun p hp => (h p hp).mom.2.1]
  have hc : chaoticF t d.n zeroArr = zeroArr := by unfold chaoticF; rw [inhom_zero, ht.smooth, subA_zero]
  have hk : ∀ lim : Arr, kickedF d lim zeroArr zeroArr zeroArr = zeroArr := by
    intro lim
    funext i j
    simp [kickedF, kickAxisF, zeroArr, fl_zero']
  rw [hc, hk]
  congr 1
  apply List.ext_getElem
  · simp
  · intro k h1 h2
    rw [List.getElem_mapIdx]
    have := h _ (List.getElem_mem h2)
    obtain ⟨m1, m2, -⟩ := this.mom
    generalize el[k] = p at *
    cases p
    simp only at m1 m2
    subst m1 m2
    rfl

/-! ### Quiet -/

/-- A plasma at rest whose charges cancel in every cell, without fields. -/
structure Quiet3F (c : S3F) (w : W3F) : Prop where
  rest : ∀ p ∈ w.el ++ w.ions.getD [], Rest3F c.m.b p
  neutral : total3F (rhojSorts3F c (w.el, w.ions)) = zeroCur
  cur : total3F w.cur = zeroCur
  fields : w.F = zeroFld
  ch : w.chx = zeroArr ∧ w.chy = zeroArr

theorem step3_quiet_doubles (c : S3F) (ht : c.lib.Zero) (w : W3F) (h : Quiet3F c w) :
    Quiet3F c (stepDxi3F c w zeroArr zeroArr) ∧ (stepDxi3F c w zeroArr zeroArr).el = w.el ∧ (stepDxi3F c w zeroArr zeroArr).ions = w.ions := by
  obtain ⟨hr, hn, hc, hF, hchx, hchy⟩ := h
  have hel : ∀ p ∈ w.el, Rest3F c.m.b p := fun p hp => hr p (List.mem_append_left _ hp)
  have hion : ∀ l, w.ions = some l → ∀ p ∈ l, Rest3F c.m.b p := fun l hl p hp => hr p (List.mem_append_right _ (by rw [hl]; exact hp))
  have hfree : freeSorts3F c w = (w.el, w.ions) := by
    unfold freeSorts3F
    rw [map_rest _ _ _ hel]
    cases hi : w.ions with
    | none => rfl
    | some l => rw [Option.map_some, map_rest _ _ _ (hion l hi)]
  have hpush : pushSorts3F c zeroFld w (w.el, w.ions) = (w.el, w.ions) := by
    unfold pushSorts3F
    rw [sort3_at_rest c.m w.el hel]
    cases hi : w.ions with
    | none => rfl
    | some l => simp only; rw [sort3_at_rest c.m l (hion l hi)]
  have hpred : predict3F c w zeroArr zeroArr = ((w.el, w.ions), (zeroFld, zeroFld)) := by
    unfold predict3F
    simp only [hfree, hF, hpush]
    rw [fields3_quiet_doubles c.lib ht c.f _ _ hc hn]
    simp only [hpush]
    rw [fields3_quiet_doubles c.lib ht c.f _ _ hc hn]
  have hstep : stepDxi3F c w zeroArr zeroArr = ⟨w.el, w.ions, zeroArr, zeroArr, zeroFld, rhojSorts3F c (w.el, w.ions)⟩ := by
    unfold stepDxi3F
    simp only [hpred, hpush, hchx, hchy]
    cases hd : c.decl with
    | none => rfl
    | some d => simp only [filter3_at_rest c.lib ht d c.m.b w.el hel]
  rw [hstep]
  exact ⟨⟨hr, hn, hn, rfl, rfl, rfl⟩, rfl, rfl⟩

/-- C74: without a beam a neutral 3D plasma at rest is the same, bit by bit, after any number of layers, and its fields are zeros. -/
theorem quiet3_stays_doubles (c : S3F) (ht : c.lib.Zero) (w : W3F) (h : Quiet3F c w) (n : ℕ) :
    (layers3W c w zeroArr (List.replicate n zeroArr)).el = w.el ∧ (layers3W c w zeroArr (List.replicate n zeroArr)).ions = w.ions ∧
    (layers3W c w zeroArr (List.replicate n zeroArr)).F = zeroFld := by
  induction n generalizing w with
  | zero => exact ⟨rfl, rfl, h.fields⟩
  | succ n ih =>
    obtain ⟨q, e1, e2⟩ := step3_quiet_doubles c ht w h
    rw [List.replicate_succ]
    show (layers3W c (stepDxi3F c w zeroArr zeroArr) zeroArr (List.replicate n zeroArr)).el = w.el ∧ (layers3W c (stepDxi3F c w zeroArr zeroArr) zeroArr (List.replicate n zeroArr)).ions = w.ions ∧ (layers3W c (stepDxi3F c w zeroArr zeroArr) zeroArr (List.replicate n zeroArr)).F = zeroFld
    obtain ⟨a, b, d⟩ := ih _ q
    exact ⟨a.trans e1, b.trans e2, d⟩

theorem total_neg (a : Arr) : total3F (⟨a, zeroArr, zeroArr, zeroArr⟩, ⟨negA a, zeroArr, zeroArr, zeroArr⟩) = zeroCur := by
  unfold total3F zeroCur
  simp only [addA_neg, addA_zero]

theorem total_zeros : total3F (zeroCur, zeroCur) = zeroCur := by
  unfold total3F zeroCur
  simp only [addA_zero]

/-- The initial state with a background of ions is quiet. -/
theorem init3_background_doubles (c : S3F) (el : List P3F) (hel : ∀ p ∈ el, Rest3F c.m.b p) (hro : c.roInit = roInitial3F c.m.N c.m.h el) : Quiet3F c (init3F el none) := by
  refine ⟨by simpa [init3F] using hel, ?_, total_zeros, rfl, rfl, rfl⟩
  show total3F (rhoj3F c.m.N c.m.h c.roInit el none) = zeroCur
  unfold rhoj3F
  rw [currents_at_rest _ _ _ fun p hp => (hel p hp).mom, hro]
  exact total_neg _

/-- The initial state with mobile ions is quiet (unlike that of the 2D solver: `mobile_not_neutral`). -/
theorem init3_mobile_doubles (c : S3F) (el : List P3F) (hel : ∀ p ∈ el, Rest3F c.m.b p) (ionMass : ℚ) : Quiet3F c (init3F el (some (ions3F ionMass el))) := by
  have hi : ∀ p ∈ ions3F ionMass el, Rest3F c.m.b p := by
    intro p hp
    obtain ⟨p', hp', rfl⟩ := List.mem_map.mp hp
    have := hel p' hp'
    exact ⟨this.x0, this.y0, by simpa using this.ins, this.pos, this.mom⟩
  refine ⟨?_, ?_, total_zeros, rfl, rfl, rfl⟩
  · intro p hp
    rcases List.mem_append.mp hp with h | h
    · exact hel p h
    · exact hi p h
  show total3F (rhoj3F c.m.N c.m.h c.roInit el (some (ions3F ionMass el))) = zeroCur
  unfold rhoj3F
  simp only
  rw [currents_at_rest _ _ _ fun p hp => (hel p hp).mom, currents_at_rest _ _ _ fun p hp => (hi p hp).mom, deposit_neg _ _ _ _ fun p hp => (hel p hp).mom.2.2]
  exact total_neg _

/-! ### Containment -/

/-- What a push may change: place of birth and mass stay, and the charge stays or is switched off. -/
def Kept3F (p0 p : P3F) : Prop := p.x0 = p0.x0 ∧ p.y0 = p0.y0 ∧ p.m = p0.m ∧ (p.q = p0.q ∨ p.q = 0)

theorem Kept3F.refl (p : P3F) : Kept3F p p := ⟨rfl, rfl, rfl, Or.inl rfl⟩

theorem finish3_inside (c : M3F) (prev full : P3F) (hx : full.x0 = prev.x0) (hy : full.y0 = prev.y0) (op mid d : V3F) :
    Inside3F c.b (finish3F c prev full op mid d) ∧ Kept3F full (finish3F c prev full op mid d) := by
  unfold finish3F
  simp only
  split
  · exact ⟨Or.inl rfl, rfl, rfl, rfl, Or.inr rfl⟩
  · rename_i h
    push Not at h
    obtain ⟨h1, h2, h3, h4⟩ := h
    refine ⟨Or.inr ⟨?_, ?_⟩, rfl, rfl, rfl, Or.inl rfl⟩
    · show |fl (full.x0 + _)| < c.b
      rw [hx, abs_lt]
      exact ⟨h2, h1⟩
    · show |fl (full.y0 + _)| < c.b
      rw [hy, abs_lt]
      exact ⟨h4, h3⟩

/-- After a push, whatever the fields and wherever the particle was, the particle is inside or switched off. -/
theorem push3_inside_doubles (c : M3F) (F : Fld3F) (prev full : P3F) (hx : full.x0 = prev.x0) (hy : full.y0 = prev.y0) :
    Inside3F c.b (moveOne3F c F prev full) ∧ Kept3F full (moveOne3F c F prev full) := by
  unfold moveOne3F
  split
  · rename_i h
    exact ⟨Or.inl h, Kept3F.refl _⟩
  · exact finish3_inside c prev full hx hy _ _ _

/-- `full` are the particles `prev`, one by one, as far as place of birth, mass and charge are concerned. -/
def KeptL (a b : List P3F) : Prop := List.Forall₂ Kept3F a b

theorem Kept3F.trans {a b d : P3F} (h1 : Kept3F a b) (h2 : Kept3F b d) : Kept3F a d := by
  obtain ⟨a1, a2, a3, a4⟩ := h1
  obtain ⟨b1, b2, b3, b4⟩ := h2
  refine ⟨b1.trans a1, b2.trans a2, b3.trans a3, ?_⟩
  rcases b4 with b4 | b4
  · rcases a4 with a4 | a4
    · exact Or.inl (b4.trans a4)
    · exact Or.inr (b4.trans a4)
  · exact Or.inr b4

theorem keptL_refl (l : List P3F) : KeptL l l := List.forall₂_same.mpr fun p _ => Kept3F.refl p

theorem KeptL.trans {a b d : List P3F} (h1 : KeptL a b) (h2 : KeptL b d) : KeptL a d := by
  unfold KeptL at *
  induction h1 generalizing d with
  | nil => cases h2; exact List.Forall₂.nil
  | cons h _ ih => cases h2 with | cons k k2 => exact List.Forall₂.cons (h.trans k) (ih k2)

theorem free_kept (dxi : ℚ) (l : List P3F) : KeptL l (l.map (moveFree3F dxi)) := by
  unfold KeptL
  rw [List.forall₂_map_right_iff]
  refine List.forall₂_same.mpr fun p _ => ?_
  unfold moveFree3F
  split
  · exact Kept3F.refl p
  · exact ⟨rfl, rfl, rfl, Or.inl rfl⟩

theorem sort_push (c : M3F) (F : Fld3F) (prev full : List P3F) (h : KeptL prev full) :
    KeptL full (moveSort3F c F prev full) ∧ ∀ p ∈ moveSort3F c F prev full, Inside3F c.b p := by
  unfold KeptL moveSort3F at *
  induction h with
  | nil => exact ⟨List.Forall₂.nil, by simp⟩
  | @cons p f ps fs hk _ ih =>
    rw [List.zipWith_cons_cons]
    obtain ⟨k1, k2⟩ := push3_inside_doubles c F p f hk.1 hk.2.1
    refine ⟨List.Forall₂.cons k2 ih.1, ?_⟩
    intro t ht
    rcases List.mem_cons.mp ht with rfl | ht
    · exact k1
    · exact ih.2 t ht

/-- The two sorts. -/
def KeptS (a b : Sorts3F) : Prop := KeptL a.1 b.1 ∧ Option.Rel KeptL a.2 b.2

def Inside3S (b : ℚ) (s : Sorts3F) : Prop := (∀ p ∈ s.1, Inside3F b p) ∧ ∀ l, s.2 = some l → ∀ p ∈ l, Inside3F b p

theorem sorts_push (c : S3F) (F : Fld3F) (w : W3F) (full : Sorts3F) (h : KeptS (w.el, w.ions) full) :
    KeptS (w.el, w.ions) (pushSorts3F c F w full) ∧ Inside3S c.m.b (pushSorts3F c F w full) := by
  obtain ⟨h1, h2⟩ := h
  obtain ⟨a1, a2⟩ := sort_push c.m F w.el full.1 h1
  unfold pushSorts3F
  dsimp only at h1 h2
  cases hw : w.ions with
  | none =>
    rw [hw] at h2
    exact ⟨⟨h1.trans a1, Option.Rel.none⟩, a2, by simp⟩
  | some l =>
    rw [hw] at h2
    cases hf : full.2 with
    | none => rw [hf] at h2; cases h2
    | some l' =>
      rw [hf] at h2
      cases h2 with
      | some hk =>
        obtain ⟨b1, b2⟩ := sort_push c.m F l l' hk
        refine ⟨⟨h1.trans a1, Option.Rel.some (hk.trans b1)⟩, a2, ?_⟩
        intro t ht
        cases ht
        exact b2

theorem filter_keeps (t : LibF) (d : NC3F) (el : List P3F) (chx chy : Arr) (b : ℚ) (h : ∀ p ∈ el, Inside3F b p) :
    KeptL el (filter3F t d el chx chy).1 ∧ ∀ p ∈ (filter3F t d el chx chy).1, Inside3F b p := by
  unfold filter3F
  dsimp only
  constructor
  · unfold KeptL
    rw [List.forall₂_iff_get]
    refine ⟨by simp, ?_⟩
    intro i h1 h2
    simp only [List.get_eq_getElem, List.getElem_mapIdx]
    exact ⟨rfl, rfl, rfl, Or.inl rfl⟩
  · intro p hp
    obtain ⟨i, hi, rfl⟩ := List.getElem_of_mem hp
    rw [List.getElem_mapIdx]
    have := h _ (List.getElem_mem (by simpa using hi))
    exact this

theorem step3_inside (c : S3F) (w : W3F) (b1 b0 : Arr) :
    KeptS (w.el, w.ions) ((stepDxi3F c w b1 b0).el, (stepDxi3F c w b1 b0).ions) ∧ Inside3S c.m.b ((stepDxi3F c w b1 b0).el, (stepDxi3F c w b1 b0).ions) := by
  have f0 : KeptS (w.el, w.ions) (freeSorts3F c w) := by
    refine ⟨free_kept _ _, ?_⟩
    unfold freeSorts3F
    cases w.ions with
    | none => exact Option.Rel.none
    | some l => exact Option.Rel.some (free_kept _ _)
  have f1 := (sorts_push c w.F w _ f0).1
  have f2 := (sorts_push c (fields3F c.lib c.f w.F w.F b1 b0 w.cur (rhojSorts3F c (pushSorts3F c w.F w (freeSorts3F c w)))).2 w _ f1).1
  have f3 := sorts_push c (predict3F c w b1 b0).2.2 w _ f2
  change KeptS (w.el, w.ions) (pushSorts3F c (predict3F c w b1 b0).2.2 w (predict3F c w b1 b0).1) ∧ _ at f3
  unfold stepDxi3F
  cases hd : c.decl with
  | none => exact f3
  | some d =>
    obtain ⟨k, i⟩ := f3
    obtain ⟨g1, g2⟩ := filter_keeps c.lib d _ w.chx w.chy c.m.b i.1
    exact ⟨⟨k.1.trans g1, k.2⟩, g2, i.2⟩

/-- C74: whatever the beam does and whatever the transforms return, after every layer every charged plasma particle is strictly inside the boundary, in the list where it was born, with its charge or none. -/
theorem layers3_inside_doubles (c : S3F) (w : W3F) (b0 : Arr) (bs : List Arr) (hw : Inside3S c.m.b (w.el, w.ions)) :
    KeptS (w.el, w.ions) ((layers3W c w b0 bs).el, (layers3W c w b0 bs).ions) ∧ Inside3S c.m.b ((layers3W c w b0 bs).el, (layers3W c w b0 bs).ions) := by
  induction bs generalizing w b0 with
  | nil =>
    refine ⟨⟨keptL_refl _, ?_⟩, hw⟩
    show Option.Rel KeptL w.ions w.ions
    cases w.ions with
    | none => exact Option.Rel.none
    | some l => exact Option.Rel.some (keptL_refl l)
  | cons b bs ih =>
    obtain ⟨k, i⟩ := step3_inside c w b b0
    obtain ⟨k2, i2⟩ := ih (stepDxi3F c w b b0) b i
    refine ⟨⟨k.1.trans k2.1, ?_⟩, i2⟩
    have h1 := k.2
    have h2 := k2.2
    dsimp only at h1 h2
    show Option.Rel KeptL w.ions (layers3W c (stepDxi3F c w b b0) b bs).ions
    generalize w.ions = A at *
    generalize (stepDxi3F c w b b0).ions = B at *
    generalize (layers3W c (stepDxi3F c w b b0) b bs).ions = C at *
    cases h1 with
    | none => cases h2; exact Option.Rel.none
    | some ha => cases h2 with | some hb => exact Option.Rel.some (ha.trans hb)

/-- What is inside deposits inside the arrays. -/
theorem inside3_touches {c : M3F} (hN : c.N % 2 = 1) (hN2 : c.N < 2 ^ 45) (hh : 0 < c.h) (hp : 2 < c.pad) {p : P3F} (hi : Inside3F c.b p) (hq : p.q ≠ 0) :
    AllIn c.N (touched3 c.N c.h (fl (p.x0 + p.x))) ∧ AllIn c.N (touched3 c.N c.h (fl (p.y0 + p.y))) := by
  obtain ⟨h1, h2⟩ := hi.resolve_left hq
  exact ⟨plasma3_safe hN hN2 hh hp h1.le, plasma3_safe hN hN2 hh hp h2.le⟩

/-! ### The initial plasma -/

/-- The grid of make_plasma_grid lies strictly inside the boundary if plasma-padding-steps ≥ bound-padding-steps. -/
theorem grid3_inside {N pad ppad : ℤ} {h : ℚ} {f : ℕ} (hN : N % 2 = 1) (hN2 : N < 2 ^ 40) (hh : 0 < h) (hf : 1 ≤ f) (hp0 : 0 ≤ pad) (hp : pad ≤ ppad) (h1 : 0 ≤ N / 2 - ppad) :
    ∀ x ∈ grid3F (N / 2 - ppad).toNat f h, IsFloat x ∧ |x| < boundaryF N pad h := by
  obtain ⟨n, hn⟩ : ∃ n : ℕ, N / 2 - ppad = n := ⟨(N / 2 - ppad).toNat, by omega⟩
  rw [hn, Int.toNat_natCast]
  have hfq : (0 : ℚ) < f := by exact_mod_cast hf
  -- every nonnegative point
  have pt : ∀ a : ℚ, 0 ≤ a → a ≤ n * f → IsFloat (fl (a * fl (h / f))) ∧ |fl (a * fl (h / f))| < boundaryF N pad h := by
    intro a a0 a1
    refine ⟨isFloat_fl _, ?_⟩
    have hs := fl_hi (show 0 ≤ h / f by positivity)
    have hs0 : 0 ≤ fl (h / f) := fl_nonneg (by positivity)
    have hm := fl_hi (show 0 ≤ a * fl (h / f) by positivity)
    rw [abs_of_nonneg (fl_nonneg (by positivity))]
    unfold boundaryF
    have e : ((N : ℚ)) / 2 - pad ≥ n + 1 / 2 := by
      have h2 : N = 2 * (N / 2) + 1 := by omega
      have h3 : (N : ℚ) = 2 * ((N / 2 : ℤ) : ℚ) + 1 := by exact_mod_cast h2
      have h4 : ((N / 2 : ℤ) : ℚ) = n + ppad := by
        have : N / 2 = n + ppad := by omega
        exact_mod_cast this
      have h5 : (pad : ℚ) ≤ ppad := by exact_mod_cast hp
      linarith
    have hb := fl_lo (show 0 ≤ h * ((N : ℚ) / 2 - pad) by
      refine mul_nonneg hh.le ?_
      have : (0 : ℚ) ≤ n := by positivity
      linarith)
    have hn40 : (n : ℚ) ≤ 2 ^ 39 := by
      have : n < 2 ^ 39 := by omega
      exact_mod_cast this.le
    unfold u at hs hm hb
    have hb2 : h * (n + 1 / 2) * (1 - 1 / 2 ^ 53) ≤ fl (h * ((N : ℚ) / 2 - pad)) := by
      refine le_trans ?_ hb
      refine mul_le_mul_of_nonneg_right (mul_le_mul_of_nonneg_left e hh.le) (by norm_num)
    have hm2 : fl (a * fl (h / f)) ≤ h * n * ((1 + 1 / 2 ^ 53) * (1 + 1 / 2 ^ 53)) := by
      refine hm.trans ?_
      have : a * fl (h / f) ≤ (n * f) * (h / f * (1 + 1 / 2 ^ 53)) := mul_le_mul a1 hs hs0 (by positivity)
      have e2 : ((n : ℚ) * f) * (h / f * (1 + 1 / 2 ^ 53)) = h * n * (1 + 1 / 2 ^ 53) := by field_simp
      rw [e2] at this
      have := mul_le_mul_of_nonneg_right this (show (0 : ℚ) ≤ 1 + 1 / 2 ^ 53 by norm_num)
      linarith
    refine lt_of_le_of_lt hm2 (lt_of_lt_of_le ?_ hb2)
    rw [mul_assoc, mul_assoc]
    refine mul_lt_mul_of_pos_left ?_ hh
    have h0 : (0 : ℚ) ≤ n := by positivity
    nlinarith
  intro x hx
  have neg : ∀ y : ℚ, IsFloat y ∧ |y| < boundaryF N pad h → IsFloat (-y) ∧ |(-y)| < boundaryF N pad h := fun y hy => ⟨isFloat_neg' hy.1, by rw [abs_neg]; exact hy.2⟩
  have cast : ∀ k : ℕ, k < n * f → (k : ℚ) + 1 ≤ n * f := fun k hk => by exact_mod_cast hk
  unfold grid3F at hx
  simp only at hx
  split at hx
  · have right : ∀ y ∈ (List.range (n * f)).map (fun k : ℕ => fl (k * fl (h / f))), IsFloat y ∧ |y| < boundaryF N pad h := by
      intro y hy
      obtain ⟨k, hk, rfl⟩ := List.mem_map.mp hy
      exact pt k (by positivity) (by linarith [cast k (List.mem_range.mp hk)])
    rcases List.mem_append.mp hx with h2 | h2
    · obtain ⟨y, hy, rfl⟩ := List.mem_map.mp h2
      exact neg y (right y (List.mem_of_mem_tail (List.mem_reverse.mp hy)))
    · exact right x h2
  · have right : ∀ y ∈ (List.range (n * f)).map (fun k : ℕ => fl ((1 / 2 + (k : ℚ)) * fl (h / f))), IsFloat y ∧ |y| < boundaryF N pad h := by
      intro y hy
      obtain ⟨k, hk, rfl⟩ := List.mem_map.mp hy
      exact pt (1 / 2 + k) (by positivity) (by linarith [cast k (List.mem_range.mp hk)])
    rcases List.mem_append.mp hx with h2 | h2
    · obtain ⟨y, hy, rfl⟩ := List.mem_map.mp h2
      exact neg y (right y (List.mem_reverse.mp hy))
    · exact right x h2

/-- So the initial plasma is at rest inside. -/
theorem plasma3_rest {c : M3F} {ppad : ℤ} {f : ℕ} (hN : c.N % 2 = 1) (hN2 : c.N < 2 ^ 40) (hh : 0 < c.h) (hf : 1 ≤ f) (hp0 : 0 ≤ c.pad) (hp : c.pad ≤ ppad) (h1 : 0 ≤ c.N / 2 - ppad) (coef : ℚ → ℚ → ℚ) :
    ∀ p ∈ plasma3F (c.N / 2 - ppad).toNat f c.h coef, Rest3F c.b p := by
  intro p hp'
  have g := grid3_inside hN hN2 hh hf hp0 hp h1
  unfold plasma3F at hp'
  simp only [List.mem_flatMap, List.mem_map] at hp'
  obtain ⟨x, hx, y, hy, rfl⟩ := hp'
  exact ⟨(g x hx).1, (g y hy).1, Or.inr ⟨(g x hx).2, (g y hy).2⟩, ⟨rfl, rfl⟩, rfl, rfl, rfl⟩

/-- C74: the run from the initial plasma, whatever its density profile, with either model of the ions and with or without declustering: no beam, no change. -/
theorem quiet3_start_doubles (c : S3F) (ht : c.lib.Zero) {ppad : ℤ} {f : ℕ} (hN : c.m.N % 2 = 1) (hN2 : c.m.N < 2 ^ 40) (hh : 0 < c.m.h) (hf : 1 ≤ f) (hp0 : 0 ≤ c.m.pad) (hp : c.m.pad ≤ ppad) (h1 : 0 ≤ c.m.N / 2 - ppad)
    (coef : ℚ → ℚ → ℚ) (el : List P3F) (hel : el = plasma3F (c.m.N / 2 - ppad).toNat f c.m.h coef) (hro : c.roInit = roInitial3F c.m.N c.m.h el) (ionMass : ℚ) (n : ℕ) :
    ((layers3W c (init3F el none) zeroArr (List.replicate n zeroArr)).el = el ∧ (layers3W c (init3F el none) zeroArr (List.replicate n zeroArr)).F = zeroFld) ∧
    (layers3W c (init3F el (some (ions3F ionMass el))) zeroArr (List.replicate n zeroArr)).el = el ∧
    (layers3W c (init3F el (some (ions3F ionMass el))) zeroArr (List.replicate n zeroArr)).ions = some (ions3F ionMass el) ∧
    (layers3W c (init3F el (some (ions3F ionMass el))) zeroArr (List.replicate n zeroArr)).F = zeroFld := by
  have r : ∀ p ∈ el, Rest3F c.m.b p := by rw [hel]; exact plasma3_rest hN hN2 hh hf hp0 hp h1 coef
  have a := quiet3_stays_doubles c ht _ (init3_background_doubles c el r hro) n
  have b := quiet3_stays_doubles c ht _ (init3_mobile_doubles c el r ionMass) n
  exact ⟨⟨a.1, a.2.2⟩, b⟩

end Lcode.Fp
