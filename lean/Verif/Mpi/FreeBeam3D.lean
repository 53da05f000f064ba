import Verif.Mpi.TestBeam

/-!
Property C53, second part, 3D: a beam without charge in an undisturbed plasma. The plasma stays as it is in every layer of every time step and every beam particle moves on a straight line with constant momentum.
-/

namespace Lcode.Mpi

open Lcode.Beam3D
open Lcode.Beam2D (IsArgsort)
open Lcode.Plasma3D (Fields3 Vec3)

/-! ### Specification -/

/-- The place of `r` is the place that `p`, moving with the velocity of its momentum, reaches after the time `s` (in the window, which moves with the velocity of light along xi). -/
def OnLine (p : Row ℝ) (s : ℝ) (r : Row ℝ) : Prop :=
  r.x = p.x + s * (vel p.qm ⟨p.px, p.py, p.pz⟩).x ∧ r.y = p.y + s * (vel p.qm ⟨p.px, p.py, p.pz⟩).y ∧ r.xi = p.xi + s * ((vel p.qm ⟨p.px, p.py, p.pz⟩).z - 1)

/-- `r` has the momentum, mass and charge of `p`. -/
def SameMotion (p r : Row ℝ) : Prop := r.px = p.px ∧ r.py = p.py ∧ r.pz = p.pz ∧ r.qm = p.qm ∧ r.qnorm = p.qnorm

/-! ### Rows of a layer loop -/

section Rows
variable {σ : Type}

/-- A property of the rows that the kernel keeps, with the fields of this run, holds for everything that finishes. -/
theorem rows_keep_3D (env : Env3 σ) (argsort : List ℝ → List ℕ) (plasma0 : ℝ → σ) (dt : ℝ) (g N : ℕ) (inp : ℕ → List (Row ℝ)) (Q : Row ℝ → Prop) (hin : ∀ j, j ≤ N → ∀ p ∈ inp j, Q (initRow env.timeStep env.energy p))
    (hpush : ∀ j, j ≤ N → ∀ r, Q r → Q (pushRow env.cfg ((j : ℤ) - 1) (env.fields (stAt (world3D env argsort plasma0) ((world3D env argsort plasma0).init (timeOf dt g)) inp j).plasma)
      (env.fields (stAt (world3D env argsort plasma0) ((world3D env argsort plasma0).init (timeOf dt g)) inp (j + 1)).plasma) r).row) :
    (∀ j, j ≤ N + 1 → ∃ fresh fell, (stAt (world3D env argsort plasma0) ((world3D env argsort plasma0).init (timeOf dt g)) inp j).toMove = Beam.ofRows (fresh ++ fell) ∧
      (stAt (world3D env argsort plasma0) ((world3D env argsort plasma0).init (timeOf dt g)) inp j).fellSize = fell.length ∧ (∀ r ∈ fresh, Q (initRow env.timeStep env.energy r)) ∧ ∀ r ∈ fell, Q r) ∧
    ∀ j, j ≤ N → ∀ p ∈ finished (world3D env argsort plasma0) dt g inp j, ∃ r, Q r ∧
      (pushRow env.cfg ((j : ℤ) - 1) (env.fields (stAt (world3D env argsort plasma0) ((world3D env argsort plasma0).init (timeOf dt g)) inp j).plasma)
        (env.fields (stAt (world3D env argsort plasma0) ((world3D env argsort plasma0).init (timeOf dt g)) inp (j + 1)).plasma) r).moved = true ∧
      p = strip (pushRow env.cfg ((j : ℤ) - 1) (env.fields (stAt (world3D env argsort plasma0) ((world3D env argsort plasma0).init (timeOf dt g)) inp j).plasma)
        (env.fields (stAt (world3D env argsort plasma0) ((world3D env argsort plasma0).init (timeOf dt g)) inp (j + 1)).plasma) r).row := by
  set W := world3D env argsort plasma0 with hW
  have hpl : ∀ j, (stAt W (W.init (timeOf dt g)) inp (j + 1)).plasma = plasma3D env (stAt W (W.init (timeOf dt g)) inp j) j (inp j) := by
    intro j
    show (layer3D env (stAt W (W.init (timeOf dt g)) inp j) j (inp j)).1.plasma = _
    unfold layer3D plasma3D
    dsimp only
    rw [show layoutBeamLayer env.cfg (stAt W (W.init (timeOf dt g)) inp j).rhoLayout (Beam.initGenerated (inp j)).rows j =
      layoutBeamLayer env.cfg (stAt W (W.init (timeOf dt g)) inp j).rhoLayout (inp j) j from
      layout_congr _ _ _ _ _ (by rw [initGenerated_ofRows, rows_ofRows, map_strip_strip])]
  have hst : ∀ j, j ≤ N + 1 → ∃ fresh fell, (stAt W (W.init (timeOf dt g)) inp j).toMove = Beam.ofRows (fresh ++ fell) ∧
      (stAt W (W.init (timeOf dt g)) inp j).fellSize = fell.length ∧ (∀ r ∈ fresh, Q (initRow env.timeStep env.energy r)) ∧ ∀ r ∈ fell, Q r := by
    intro j
    induction j with
    | zero => intro _; exact ⟨[], [], rfl, rfl, by simp, by simp⟩
    | succ j ih =>
      intro hj
      obtain ⟨fresh, fell, h1, h2, h3, h4⟩ := ih (by omega)
      have e := layer3D_rows env _ fresh fell h1 h2 j (inp j)
      simp only at e
      refine ⟨(inp j).map strip, _, (congrArg (fun t => t.1.toMove) e :), (congrArg (fun t => t.1.fellSize) e :), ?_, ?_⟩
      · intro r hr
        obtain ⟨p, hp, rfl⟩ := List.mem_map.mp hr
        rw [initRow_strip]
        exact hin j (by omega) p hp
      · intro r hr
        obtain ⟨o, ho, rfl⟩ := List.mem_map.mp hr
        have ho := (List.mem_filter.mp ho).1
        unfold moved3D at ho
        obtain ⟨r0, hr0, rfl⟩ := List.mem_map.mp ho
        rw [← hpl]
        refine hpush j (by omega) r0 ?_
        rcases List.mem_append.mp hr0 with h | h
        · obtain ⟨r1, hr1, rfl⟩ := List.mem_map.mp h
          exact h3 r1 hr1
        · exact h4 r0 h
  refine ⟨hst, ?_⟩
  intro j hj p hp
  obtain ⟨fresh, fell, h1, h2, h3, h4⟩ := hst j (by omega)
  have e := layer3D_rows env _ fresh fell h1 h2 j (inp j)
  simp only at e
  have hp' : p ∈ (layer3D env (stAt W (W.init (timeOf dt g)) inp j) j (inp j)).2 := hp
  rw [e] at hp'
  obtain ⟨q, hq, rfl⟩ := List.mem_map.mp hp'
  obtain ⟨o, ho, rfl⟩ := List.mem_map.mp hq
  obtain ⟨ho, hm⟩ := List.mem_filter.mp ho
  unfold moved3D at ho
  obtain ⟨r0, hr0, rfl⟩ := List.mem_map.mp ho
  rw [← hpl] at hm ⊢
  refine ⟨r0, ?_, hm, rfl⟩
  rcases List.mem_append.mp hr0 with h | h
  · obtain ⟨r1, hr1, rfl⟩ := List.mem_map.mp h
    exact h3 r1 hr1
  · exact h4 r0 h

end Rows

/-! ### Motion without fields -/

theorem fieldE3_zero (c : BCfg) (x : ℝ) (w : Vec3) : fieldE3 c x Fields3.zero Fields3.zero w = ⟨0, 0, 0⟩ := by
  unfold fieldE3
  simp only [Vec3.mk.injEq]
  exact ⟨interp3_zero _ _ _ _, interp3_zero _ _ _ _, interp3_zero _ _ _ _⟩

theorem fieldB3_zero (c : BCfg) (x : ℝ) (w : Vec3) : fieldB3 c x Fields3.zero Fields3.zero w = ⟨0, 0, 0⟩ := by
  unfold fieldB3
  simp only [Vec3.mk.injEq]
  exact ⟨interp3_zero _ _ _ _, interp3_zero _ _ _ _, interp3_zero _ _ _ _⟩

theorem halfMomentum_zero (r : Row ℝ) : halfMomentum r ⟨0, 0, 0⟩ ⟨0, 0, 0⟩ = ⟨r.px, r.py, r.pz⟩ := by
  unfold halfMomentum
  simp

/-- A row in the course of a time step of length `ts`, without fields: it has the momentum of `p` and is where `p` is after the substeps done; or it was lost on its way. -/
def Free (ts : ℝ) (p r : Row ℝ) : Prop :=
  SameMotion p r ∧ 0 ≤ r.remaining ∧ 0 ≤ r.dt ∧ 0 ≤ ts - r.remaining * r.dt ∧
    ((r.id = p.id ∧ OnLine p (ts - r.remaining * r.dt) r) ∨ (r.id = -p.id ∧ r.remaining = 0 ∧ ∃ s, 0 ≤ s ∧ s ≤ ts ∧ OnLine p s r))

/-- A particle that still has substeps to do is on its line, and the time left is what its substeps make up. -/
theorem free_underway {ts : ℝ} {p r : Row ℝ} (h : Free ts p r) (hr : 0 < r.remaining) : r.id = p.id ∧ OnLine p (ts - r.remaining * r.dt) r := by
  rcases h.2.2.2.2 with h | ⟨-, h, -⟩
  · exact h
  · omega

theorem turn_free (c : BCfg) (idx : ℤ) (ts : ℝ) (p r : Row ℝ) (h : Free ts p r) (hr : 0 < r.remaining) :
    (∀ r', turn c idx Fields3.zero Fields3.zero r = .next r' → Free ts p r' ∧ r'.remaining = r.remaining - 1) ∧ ∀ r', turn c idx Fields3.zero Fields3.zero r = .lost r' → Free ts p r' := by
  obtain ⟨hid, l1, l2, l3⟩ := free_underway h hr
  obtain ⟨⟨m1, m2, m3, m4, m5⟩, h1, h2, h3, -⟩ := h
  have hv : vel p.qm ⟨p.px, p.py, p.pz⟩ = vel r.qm ⟨r.px, r.py, r.pz⟩ := by rw [m1, m2, m3, m4]
  have hr1 : (1 : ℝ) ≤ r.remaining := by exact_mod_cast hr
  have hprod : r.dt ≤ r.remaining * r.dt := le_mul_of_one_le_left h2 hr1
  have hcast : ((r.remaining - 1 : ℤ) : ℝ) = (r.remaining : ℝ) - 1 := by push_cast; ring
  have hfull : fullStep r (halfMomentum r (fieldE3 c (idx * -c.dxi) Fields3.zero Fields3.zero (halfPos r)) (fieldB3 c (idx * -c.dxi) Fields3.zero Fields3.zero (halfPos r))) =
      { r with x := r.x + r.dt * (vel r.qm ⟨r.px, r.py, r.pz⟩).x, y := r.y + r.dt * (vel r.qm ⟨r.px, r.py, r.pz⟩).y, xi := r.xi + r.dt * ((vel r.qm ⟨r.px, r.py, r.pz⟩).z - 1) } := by
    rw [fieldE3_zero, fieldB3_zero, halfMomentum_zero]
    unfold fullStep
    simp only [vel, gammaM]
    congr 1 <;> ring
  have hhalf : halfPos r = ⟨r.x + r.dt / 2 * (vel r.qm ⟨r.px, r.py, r.pz⟩).x, r.y + r.dt / 2 * (vel r.qm ⟨r.px, r.py, r.pz⟩).y, r.xi + r.dt / 2 * ((vel r.qm ⟨r.px, r.py, r.pz⟩).z - 1)⟩ := rfl
  have hturn : turn c idx Fields3.zero Fields3.zero r = _ := rfl
  unfold turn at hturn
  dsimp only at hturn
  rw [hfull] at hturn
  constructor
  · intro r' ht
    unfold turn at ht
    dsimp only at ht
    rw [hfull] at ht
    split_ifs at ht with a1 a2 a3
    injection ht with ht
    subst ht
    refine ⟨⟨⟨m1, m2, m3, m4, m5⟩, by show 0 ≤ r.remaining - 1; omega, h2, ?_, Or.inl ⟨hid, ?_, ?_, ?_⟩⟩, rfl⟩
    · show 0 ≤ ts - ((r.remaining - 1 : ℤ) : ℝ) * r.dt
      rw [hcast]; linarith
    · show r.x + r.dt * _ = p.x + (ts - ((r.remaining - 1 : ℤ) : ℝ) * r.dt) * _
      rw [hcast, hv, l1, hv]; ring
    · show r.y + r.dt * _ = p.y + (ts - ((r.remaining - 1 : ℤ) : ℝ) * r.dt) * _
      rw [hcast, hv, l2, hv]; ring
    · show r.xi + r.dt * _ = p.xi + (ts - ((r.remaining - 1 : ℤ) : ℝ) * r.dt) * _
      rw [hcast, hv, l3, hv]; ring
  · intro r' ht
    unfold turn at ht
    dsimp only at ht
    rw [hfull] at ht
    split_ifs at ht with a1 a2 a3
    · injection ht with ht
      subst ht
      refine ⟨⟨m1, m2, m3, m4, m5⟩, le_rfl, h2, ?_, Or.inr ⟨?_, rfl, ts - r.remaining * r.dt + r.dt / 2, by linarith, by linarith, ?_, ?_, ?_⟩⟩
      · show 0 ≤ ts - ((0 : ℤ) : ℝ) * r.dt
        push_cast; linarith
      · show r.id * -1 = -p.id
        rw [hid]; ring
      · show (halfPos r).x = _
        rw [hhalf, hv]; dsimp only; rw [l1, hv]; ring
      · show (halfPos r).y = _
        rw [hhalf, hv]; dsimp only; rw [l2, hv]; ring
      · show (halfPos r).z = _
        rw [hhalf, hv]; dsimp only; rw [l3, hv]; ring
    · injection ht with ht
      subst ht
      refine ⟨⟨m1, m2, m3, m4, m5⟩, le_rfl, h2, ?_, Or.inr ⟨?_, rfl, ts - r.remaining * r.dt + r.dt, by linarith, by linarith, ?_, ?_, ?_⟩⟩
      · show 0 ≤ ts - ((0 : ℤ) : ℝ) * r.dt
        push_cast; linarith
      · show r.id * -1 = -p.id
        rw [hid]; ring
      · show r.x + r.dt * _ = _
        rw [hv, l1, hv]; ring
      · show r.y + r.dt * _ = _
        rw [hv, l2, hv]; ring
      · show r.xi + r.dt * _ = _
        rw [hv, l3, hv]; ring

theorem pushLoop_free (c : BCfg) (idx : ℤ) (ts : ℝ) (p : Row ℝ) (n : ℕ) (r : Row ℝ) (h : Free ts p r) (hr : r.remaining = n) : Free ts p (pushLoop c idx Fields3.zero Fields3.zero n r).1 := by
  induction n generalizing r with
  | zero => exact h
  | succ n ih =>
    have ht := turn_free c idx ts p r h (by omega)
    rw [pushLoop]
    rcases hturn : turn c idx Fields3.zero Fields3.zero r with _ | r' | r'
    · exact h
    · exact ht.2 r' hturn
    · obtain ⟨a, b⟩ := ht.1 r' hturn
      exact ih r' a (by omega)

theorem pushRow_free (c : BCfg) (idx : ℤ) (ts : ℝ) (p r : Row ℝ) (h : Free ts p r) : Free ts p (pushRow c idx Fields3.zero Fields3.zero r).row :=
  pushLoop_free c idx ts p _ r h (by have := h.2.1; omega)

theorem initRow_free {σ : Type} (env : Env3 σ) (he : 0 < env.energy) (hts : 0 ≤ env.timeStep) (p : Row ℝ) (hq : p.qm ≠ 0) : Free env.timeStep p (initRow env.timeStep env.energy p) := by
  obtain ⟨n, start, -, e2, ⟨k, hk⟩, e4, -, e6⟩ := underway_init env he p hq
  have hdt : (initRow env.timeStep env.energy p).dt = start.dt := e4.invariant.2.2.2.1
  have hrem : (initRow env.timeStep env.energy p).remaining = n := by rw [e6]; simp
  have hprod : ((initRow env.timeStep env.energy p).remaining : ℝ) * (initRow env.timeStep env.energy p).dt = env.timeStep := by
    rw [hrem, hdt]; exact_mod_cast e2
  have hn : (0 : ℝ) < n := by rw [hk]; positivity
  refine ⟨⟨rfl, rfl, rfl, rfl, rfl⟩, by rw [hrem]; omega, ?_, by rw [hprod]; linarith, Or.inl ⟨rfl, ?_⟩⟩
  · rw [hdt]
    by_contra hneg
    have := mul_neg_of_pos_of_neg hn (not_le.mp hneg)
    linarith
  · rw [hprod, sub_self]
    refine ⟨?_, ?_, ?_⟩
    · show p.x = p.x + 0 * _
      ring
    · show p.y = p.y + 0 * _
      ring
    · show p.xi = p.xi + 0 * _
      ring

/-! ### Complete simulations -/

/-- Whatever the initial beam without charge, and with the initial plasma at rest: in every layer of every time step the plasma is as it was (only its currents array is filled in, by the first layer) and the beam density is zero. -/
theorem quiet_run_3D (c : Plasma3D.SCfg) (hd : ∀ d, c.decl = some d → d.lim ≠ 0) (hx : 0 < c.m.dxi) (timeStep energy : ℝ) (hts : 0 ≤ timeStep) (argsort : List ℝ → List ℕ) (hs : IsArgsort (· ≤ ·) argsort)
    (N : ℕ) (dt : ℝ) (w : Plasma3D.W3) (hw : Plasma3D.Quiet3 c w) (b : List (Row ℝ)) (hq : ∀ p ∈ b, p.qnorm = 0) (hneg : ∀ p ∈ b, p.xi < 0) (g j : ℕ) (hj : j ≤ N + 1) :
    (stAt (world3D (sim3 c timeStep energy) argsort fun _ => w) ((world3D (sim3 c timeStep energy) argsort fun _ => w).init (timeOf dt g)) (seqLayers (world3D (sim3 c timeStep energy) argsort fun _ => w) N dt b g) j).plasma =
      (if j = 0 then w else { w with cur := Plasma3D.computeRhoj c.m.N c.m.h c.roInit w.el w.ions }) ∧
    (stAt (world3D (sim3 c timeStep energy) argsort fun _ => w) ((world3D (sim3 c timeStep energy) argsort fun _ => w).init (timeOf dt g)) (seqLayers (world3D (sim3 c timeStep energy) argsort fun _ => w) N dt b g) j).rhoPrev = fun _ _ => 0 := by
  have hb : WithTest Row.qnorm [] b := ⟨b, hq, by simp⟩
  obtain ⟨-, h2, -⟩ := test_particles_3D (sim3 c timeStep energy) argsort (fun _ => w) hs hx hts N dt [] b hb hneg g
  rw [← (h2 j hj).1, ← (h2 j hj).2]
  set W := world3D (sim3 c timeStep energy) argsort fun _ => w with hW
  have hempty : ∀ (t : List (Row ℝ)), t = [] → ∀ j, srcLayer W (W.mkSrc t) j = [] := by
    intro t ht j
    have := source3D (sim3 c timeStep energy) argsort hs hx (fun _ => w) t (by rw [ht]; simp) j
    rw [ht] at this ⊢
    simpa using this
  have hfin : ∀ g (inp : ℕ → List (Row ℝ)), (∀ j, j ≤ N → inp j = []) → allFinished W N dt g inp = [] := by
    intro g inp hinp
    rw [List.eq_nil_iff_forall_not_mem]
    intro q hq
    obtain ⟨i, hi, hq⟩ := mem_allFinished hq
    obtain ⟨r, hr, -⟩ := (rows_keep_3D (sim3 c timeStep energy) argsort (fun _ => w) dt g N inp (fun _ => False) (fun j hj p hp => by rw [hinp j hj] at hp; simp at hp) (fun _ _ _ h => h)).2 i hi q hq
    exact hr
  have hseq : ∀ g j, j ≤ N → seqLayers W N dt [] g j = [] := by
    intro g
    induction g with
    | zero => intro j _; exact hempty [] rfl j
    | succ g ih => intro j _; exact hempty _ (hfin g _ ih) j
  have hq' : Plasma3D.Quiet3 c { w with cur := Plasma3D.computeRhoj c.m.N c.m.h c.roInit w.el w.ions } := ⟨hw.rest, hw.neutral, hw.neutral, hw.fields, hw.ch⟩
  have key : ∀ j, j ≤ N + 1 → (stAt W (W.init (timeOf dt g)) (seqLayers W N dt [] g) j).plasma = (if j = 0 then w else { w with cur := Plasma3D.computeRhoj c.m.N c.m.h c.roInit w.el w.ions }) ∧
      (stAt W (W.init (timeOf dt g)) (seqLayers W N dt [] g) j).rhoPrev = (fun _ _ => 0) ∧ (stAt W (W.init (timeOf dt g)) (seqLayers W N dt [] g) j).rhoLayout = fun _ _ => 0 := by
    intro j
    induction j with
    | zero => intro _; exact ⟨rfl, rfl, rfl⟩
    | succ j ih =>
      intro hj
      obtain ⟨i1, i2, i3⟩ := ih (by omega)
      have e : stAt W (W.init (timeOf dt g)) (seqLayers W N dt [] g) (j + 1) = (layer3D (sim3 c timeStep energy) (stAt W (W.init (timeOf dt g)) (seqLayers W N dt [] g) j) j []).1 := by
        show (layer3D (sim3 c timeStep energy) (stAt W (W.init (timeOf dt g)) (seqLayers W N dt [] g) j) j (seqLayers W N dt [] g j)).1 = _
        rw [hseq g j (by omega)]
      have hlay : layoutBeamLayer (sim3 c timeStep energy).cfg (fun _ _ => 0) (Beam.initGenerated ([] : List (Row ℝ))).rows j = (fun _ _ => 0, fun _ _ => 0) := by
        unfold layoutBeamLayer
        simp only [show (Beam.initGenerated ([] : List (Row ℝ))).rows.length = 0 from rfl, ne_eq, not_true_eq_false, if_false, zero_div]
      rw [e]
      unfold layer3D
      dsimp only
      rw [i3, hlay, i2, i1]
      refine ⟨?_, rfl, rfl⟩
      show Plasma3D.stepDxi c _ (fun _ _ => 0) (fun _ _ => 0) = _
      rw [if_neg (by omega : ¬ j + 1 = 0)]
      by_cases h0 : j = 0
      · rw [if_pos h0]; exact Plasma3D.quiet_step c w hw hd
      · rw [if_neg h0]; exact Plasma3D.quiet_step c _ hq' hd
  exact ⟨(key j hj).1, (key j hj).2.1⟩

/-- C53 in 3D: a beam without charge in an undisturbed plasma moves freely. Every particle of the beam after a time step has the momentum, mass and charge of a particle received in this time step; it has the identifier of
that particle and is where a straight line leads it in the time step, or it has the opposite identifier (it met the wall on its way) and is somewhere on that line. -/
theorem free_beam_3D (c : Plasma3D.SCfg) (hd : ∀ d, c.decl = some d → d.lim ≠ 0) (hx : 0 < c.m.dxi) (timeStep energy : ℝ) (hts : 0 ≤ timeStep) (he : 0 < energy) (argsort : List ℝ → List ℕ) (hs : IsArgsort (· ≤ ·) argsort)
    (N : ℕ) (dt : ℝ) (w : Plasma3D.W3) (hw : Plasma3D.Quiet3 c w) (b : List (Row ℝ)) (hq : ∀ p ∈ b, p.qnorm = 0 ∧ p.qm ≠ 0) (hneg : ∀ p ∈ b, p.xi < 0) (g : ℕ) :
    ∀ r ∈ allFinished (world3D (sim3 c timeStep energy) argsort fun _ => w) N dt g (seqLayers (world3D (sim3 c timeStep energy) argsort fun _ => w) N dt b g),
      ∃ i, i ≤ N ∧ ∃ p ∈ seqLayers (world3D (sim3 c timeStep energy) argsort fun _ => w) N dt b g i, SameMotion p r ∧
        ((r.id = p.id ∧ OnLine p timeStep r) ∨ (r.id = -p.id ∧ ∃ s, 0 ≤ s ∧ s ≤ timeStep ∧ OnLine p s r)) := by
  set W := world3D (sim3 c timeStep energy) argsort fun _ => w with hW
  have hF : ∀ g j, j ≤ N + 1 → (sim3 c timeStep energy).fields (stAt W (W.init (timeOf dt g)) (seqLayers W N dt b g) j).plasma = Fields3.zero := by
    intro g j hj
    rw [(quiet_run_3D c hd hx timeStep energy hts argsort hs N dt w hw b (fun p hp => (hq p hp).1) hneg g j hj).1]
    show (if j = 0 then w else _).F = _
    split_ifs <;> exact hw.fields
  -- one time step
  have step : ∀ g, (∀ i, i ≤ N → ∀ p ∈ seqLayers W N dt b g i, p.qm ≠ 0) → ∀ r ∈ allFinished W N dt g (seqLayers W N dt b g), ∃ i, i ≤ N ∧ ∃ p ∈ seqLayers W N dt b g i, SameMotion p r ∧
        ((r.id = p.id ∧ OnLine p timeStep r) ∨ (r.id = -p.id ∧ ∃ s, 0 ≤ s ∧ s ≤ timeStep ∧ OnLine p s r)) := by
    intro g hqm r hr
    obtain ⟨j, hj, hr⟩ := mem_allFinished hr
    obtain ⟨r0, ⟨i, hi, p, hp, hfree⟩, hm, rfl⟩ := (rows_keep_3D (sim3 c timeStep energy) argsort (fun _ => w) dt g N (seqLayers W N dt b g) (fun r => ∃ i, i ≤ N ∧ ∃ p ∈ seqLayers W N dt b g i, Free timeStep p r)
      (fun j hj p hp => ⟨j, hj, p, hp, initRow_free (sim3 c timeStep energy) he hts p (hqm j hj p hp)⟩)
      (fun j hj r ⟨i, hi, p, hp, h⟩ => ⟨i, hi, p, hp, by rw [hF g j (by omega), hF g (j + 1) (by omega)]; exact pushRow_free _ _ _ _ _ h⟩)).2 j hj r hr
    rw [hF g j (by omega), hF g (j + 1) (by omega)] at hm ⊢
    have hf := pushRow_free (sim3 c timeStep energy).cfg ((j : ℤ) - 1) timeStep p r0 hfree
    refine ⟨i, hi, p, hp, hf.1, ?_⟩
    have hrem : (pushRow (sim3 c timeStep energy).cfg ((j : ℤ) - 1) Fields3.zero Fields3.zero r0).row.remaining = 0 := by
      obtain ⟨n, hn⟩ := Int.eq_ofNat_of_zero_le hfree.2.1
      rcases push_outcomes (sim3 c timeStep energy).cfg ((j : ℤ) - 1) Fields3.zero Fields3.zero n r0 hn with ⟨k, -, -, -, -, -, -, h⟩ | ⟨k, m, -, -, -, h, -⟩ | ⟨-, h, -⟩
      · rw [h] at hm; simp at hm
      · exact h
      · exact h
    rcases hf.2.2.2.2 with ⟨h1, h2⟩ | ⟨h1, -, s, s1, s2, h2⟩
    · left
      rw [hrem] at h2
      refine ⟨h1, ?_⟩
      have : timeStep - ((0 : ℤ) : ℝ) * (pushRow (sim3 c timeStep energy).cfg ((j : ℤ) - 1) Fields3.zero Fields3.zero r0).row.dt = timeStep := by push_cast; ring
      rw [this] at h2
      exact h2
    · exact Or.inr ⟨h1, s, s1, s2, h2⟩
  have hqm : ∀ g i, i ≤ N → ∀ p ∈ seqLayers W N dt b g i, p.qm ≠ 0 := by
    have src : ∀ b : List (Row ℝ), (∀ p ∈ b, p.xi < 0) → (∀ p ∈ b, p.qm ≠ 0) → ∀ i, ∀ p ∈ srcLayer W (W.mkSrc b) i, p.qm ≠ 0 := by
      intro b hn hb i p hp
      have := (source3D (sim3 c timeStep energy) argsort hs hx (fun _ => w) b hn i).mem_iff.mp hp
      obtain ⟨p', hp', rfl⟩ := List.mem_map.mp this
      exact hb p' (List.mem_filter.mp hp').1
    intro g
    induction g with
    | zero => intro i _; exact src b hneg (fun p hp => (hq p hp).2) i
    | succ g ih =>
      intro i _
      refine src _ (finished_behind_3D (sim3 c timeStep energy) argsort hs hx hts (fun _ => w) N dt b hneg g) (fun r hr => ?_) i
      obtain ⟨i, hi, p, hp, hm, -⟩ := step g ih r hr
      rw [hm.2.2.2.1]
      exact ih i hi p hp
  exact step g (hqm g)

/-- Non-vacuity: twelve cells with three cells of padding, mobile ions and two neutral particles. -/
example : ∃ (c : Plasma3D.SCfg) (w : Plasma3D.W3) (b : List (Row ℝ)), (∀ d, c.decl = some d → d.lim ≠ 0) ∧ 0 < c.m.dxi ∧ Plasma3D.Quiet3 c w ∧ w.el = Plasma3D.makePlasmaSingle ((12 - 2 * 3 : ℕ) : ℤ) (1 / 2) ((1 : ℕ) : ℤ) (fun _ _ => 1) ∧
    (∀ p ∈ b, p.qnorm = 0 ∧ p.qm ≠ 0) ∧ (∀ p ∈ b, p.xi < 0) ∧ b.length = 2 := by
  refine ⟨_, _, [⟨-1 / 2, 0, 1, 0, 3, 100, 1, 0, 1, 0, 0⟩, ⟨-3 / 2, 1, 0, 1, 0, 100, -1, 0, 2, 0, 0⟩], ?_, ?_, Plasma3D.initial_quiet3 12 2 3 (by norm_num) (by norm_num) 1 le_rfl 1 (1 / 2) 1 2 (by norm_num) (fun _ _ => 1) none true _ rfl, rfl, ?_, ?_, rfl⟩
  · intro d h; simp at h
  · exact one_pos
  · intro p hp; simp at hp; rcases hp with rfl | rfl <;> exact ⟨rfl, by norm_num⟩
  · intro p hp; simp at hp; rcases hp with rfl | rfl <;> norm_num

end Lcode.Mpi
