import Verif.Mpi.Shift3D

/-!
When no finished particle of a 3D run is held back (C60): particles are slower than light, so a particle whose x is above its xi by more than the time left cannot fall below the border of its layer.
Also the case in which the 3D translation fails.
-/

namespace Lcode.Beam3D

open Lcode.Plasma3D (Fields3 Vec3)
open Lcode.Beam2D (substepFraction)

theorem vel_x_abs (qm : ℝ) (p : Vec3) : |(vel qm p).x| ≤ 1 := by
  unfold vel
  simp only
  rw [abs_div, abs_of_nonneg (Real.sqrt_nonneg _)]
  apply div_le_one_of_le₀ _ (Real.sqrt_nonneg _)
  rw [← Real.sqrt_sq_eq_abs]
  apply Real.sqrt_le_sqrt
  nlinarith [sq_nonneg (1 / qm), sq_nonneg p.z, sq_nonneg p.y]

theorem turn_x (c : BCfg) (idx : ℤ) (F0 F1 : Fields3) (r r' : Row ℝ) (hdt : 0 ≤ r.dt) (h : turn c idx F0 F1 r = .next r' ∨ turn c idx F0 F1 r = .lost r') : r.x - r.dt ≤ r'.x := by
  have hv : ∀ p : Vec3, ∀ s : ℝ, 0 ≤ s → s ≤ r.dt → r.x - r.dt ≤ r.x + s * (vel r.qm p).x := by
    intro p s hs hs'
    have := (abs_le.mp (vel_x_abs r.qm p)).1
    nlinarith
  unfold turn at h
  simp only at h
  split_ifs at h with h1 h2 h3
  · rcases h with h | h <;> cases h
  · rcases h with h | h
    · cases h
    · injection h with h; subst h
      exact hv ⟨r.px, r.py, r.pz⟩ (r.dt / 2) (by linarith) (by linarith)
  · rcases h with h | h
    · cases h
    · injection h with h; subst h
      exact hv _ r.dt hdt le_rfl
  · rcases h with h | h
    · injection h with h; subst h
      exact hv _ r.dt hdt le_rfl
    · cases h

theorem Chain.x_ge {c : BCfg} {idx : ℤ} {F0 F1 : Fields3} {k : ℕ} {r r' : Row ℝ} (h : Chain c idx F0 F1 k r r') (hdt : 0 ≤ r.dt) : r.x - k * r.dt ≤ r'.x := by
  induction h with
  | refl r => simp
  | @step k r m r' ht hc ih =>
    have h1 := turn_x c idx F0 F1 r m hdt (Or.inl ht)
    have hm : m.dt = r.dt := (turn_next c idx F0 F1 r m ht).2.2.2.2.2.2.1
    have h2 := ih (by rw [hm]; exact hdt)
    rw [hm] at h2
    push_cast
    linarith

/-- In the substeps left a particle can lose at most as much of its x as they last. -/
theorem push_x (c : BCfg) (idx : ℤ) (F0 F1 : Fields3) (r : Row ℝ) (hr : 0 ≤ r.remaining) (hdt : 0 ≤ r.dt) :
    r.x - r.remaining * r.dt ≤ (pushRow c idx F0 F1 r).row.x - (pushRow c idx F0 F1 r).row.remaining * (pushRow c idx F0 F1 r).row.dt ∧ 0 ≤ (pushRow c idx F0 F1 r).row.remaining ∧ (pushRow c idx F0 F1 r).row.dt = r.dt := by
  obtain ⟨n, hn⟩ := Int.eq_ofNat_of_zero_le hr
  have hcast : (r.remaining : ℝ) = n := by rw [hn]; simp
  rcases push_outcomes c idx F0 F1 n r hn with ⟨k, hk, hc, -, hrem, -⟩ | ⟨k, m, hk, hc, ht, hrem, -⟩ | ⟨hc, hrem, -⟩
  · have h4 := hc.invariant.2.2.2.1
    have := hc.x_ge hdt
    refine ⟨?_, by rw [hrem]; omega, h4⟩
    rw [hrem, h4, hcast]
    push_cast
    linarith
  · have h4 := hc.invariant.2.2.2.1
    have h1 := hc.x_ge hdt
    have h2 := turn_x c idx F0 F1 m _ (by rw [h4]; exact hdt) (Or.inr ht)
    have h5 := (turn_lost c idx F0 F1 m _ ht).2.2.2.2.2.2
    refine ⟨?_, by rw [hrem], by rw [h5, h4]⟩
    rw [hrem, hcast]
    rw [h4] at h2
    have : (k : ℝ) + 1 ≤ n := by exact_mod_cast hk
    have := mul_le_mul_of_nonneg_right this hdt
    push_cast
    linarith
  · have h4 := hc.invariant.2.2.2.1
    have h1 := hc.x_ge hdt
    refine ⟨?_, by rw [hrem], h4⟩
    rw [hrem, hcast]
    push_cast
    linarith

/-- A finished particle is reported as fallen only if its x is below the next border. -/
theorem fell_finished (c : BCfg) (idx : ℤ) (F0 F1 : Fields3) (r : Row ℝ) (hr : 0 ≤ r.remaining) (hf : (pushRow c idx F0 F1 r).fell = true) (h0 : (pushRow c idx F0 F1 r).row.remaining = 0) :
    (pushRow c idx F0 F1 r).row.x < -(c.dxi * (idx + 1)) := by
  obtain ⟨n, hn⟩ := Int.eq_ofNat_of_zero_le hr
  rcases push_outcomes c idx F0 F1 n r hn with ⟨k, hk, hc, -, hrem, -⟩ | ⟨k, m, hk, hc, ht, hrem, -, -, -, -, h⟩ | ⟨hc, hrem, -, h, -⟩
  · rw [h0] at hrem; omega
  · exact h.mp hf
  · exact h.mp hf

theorem initRow_steps {σ : Type} (env : Env3 σ) (he : 0 < env.energy) (hts : 0 ≤ env.timeStep) (p : Row ℝ) (hq : p.qm ≠ 0) :
    0 ≤ (initRow env.timeStep env.energy p).remaining ∧ 0 ≤ (initRow env.timeStep env.energy p).dt ∧ ((initRow env.timeStep env.energy p).remaining : ℝ) * (initRow env.timeStep env.energy p).dt = env.timeStep := by
  obtain ⟨n, start, -, e2, ⟨k, hk⟩, e4, -, e6⟩ := underway_init env he p hq
  have hdt : (initRow env.timeStep env.energy p).dt = start.dt := e4.invariant.2.2.2.1
  have hrem : (initRow env.timeStep env.energy p).remaining = n := by rw [e6]; simp
  have hprod : ((initRow env.timeStep env.energy p).remaining : ℝ) * (initRow env.timeStep env.energy p).dt = env.timeStep := by
    rw [hrem, hdt]; exact_mod_cast e2
  have hn : (0 : ℝ) < n := by rw [hk]; positivity
  refine ⟨by rw [hrem]; omega, ?_, hprod⟩
  rw [hdt]
  by_contra hneg
  have := mul_neg_of_pos_of_neg hn (not_le.mp hneg)
  linarith

/-! ### Where the translation fails -/

theorem sweep_not_yet (x : ℝ) (m i : ℕ) (hm : i < m) (s : SweepState Unit) (h : RowsOf s [] [] [restRow x (-m - 1 / 2) 0 0] []) : RowsOf (sweepStep emptyWindow s i) [] [] [restRow x (-m - 1 / 2) 0 0] [] := by
  have hn : inLayer emptyWindow.cfg.dxi i [restRow x (-m - 1 / 2) 0 0] = 0 := by
    have hin : ¬ InLayer emptyWindow.cfg.dxi i (restRow x (-m - 1 / 2) 0 0).xi := by
      rintro ⟨h1, -⟩
      have : (i : ℝ) + 1 ≤ m := by exact_mod_cast hm
      have e : emptyWindow.cfg.dxi = 1 := rfl
      have e2 : (restRow x (-m - 1 / 2) 0 0).xi = -m - 1 / 2 := rfl
      rw [e, e2] at h1
      linarith
    simp only [inLayer, List.countP_cons, List.countP_nil, hin, decide_false, Bool.false_eq_true, if_false]
  obtain ⟨h1, -, -⟩ := sweepStep_rows emptyWindow s i [] [] _ [] h
  rw [hn] at h1
  simpa [results] using h1

/-- A particle at rest in the middle of layer `m`, with x below the border of the next layer: after the iterations `m` and `m + 1` it has done its time step and is held back. -/
theorem sweep_rest_at (x : ℝ) (hx : x ^ 2 < 24) (m : ℕ) (hxm : x < -((m : ℝ) + 1)) (s : SweepState Unit) (h : RowsOf s [] [] [restRow x (-m - 1 / 2) 0 0] []) :
    RowsOf (sweepStep emptyWindow (sweepStep emptyWindow s m) (m + 1)) [] [restRow x (-m - 1 / 2 - 1 / 10) (1 / 10) 0] [] [] := by
  have hn : inLayer emptyWindow.cfg.dxi m [restRow x (-m - 1 / 2) 0 0] = 1 := by
    have hin : InLayer emptyWindow.cfg.dxi m (restRow x (-m - 1 / 2) 0 0).xi := by
      have e : emptyWindow.cfg.dxi = 1 := rfl
      have e2 : (restRow x (-m - 1 / 2) 0 0).xi = -m - 1 / 2 := rfl
      constructor <;> rw [e, e2] <;> linarith
    simp only [inLayer, List.countP_cons, List.countP_nil, hin, decide_true, if_true]
  obtain ⟨h1, -, -⟩ := sweepStep_rows emptyWindow s m [] [] _ [] h
  have hr0 : results emptyWindow s m [] [] = [] := rfl
  rw [hn, hr0] at h1
  simp only [List.take_succ_cons, List.take_zero, List.filter_nil, List.map_nil, List.drop_succ_cons, List.drop_zero, List.append_nil] at h1
  generalize sweepStep emptyWindow s m = s1 at h1
  obtain ⟨h2, -, -⟩ := sweepStep_rows emptyWindow s1 (m + 1) [restRow x (-m - 1 / 2) 0 0] [] [] [] h1
  have hidx : (((m + 1 : ℕ) : ℤ) - 1) = (m : ℤ) := by push_cast; ring
  have hpl : pushLoop emptyWindow.cfg (m : ℤ) noFields noFields 1 (restRow x (-m - 1 / 2) (1 / 10) 1) = (restRow x (-m - 1 / 2 - 1 / 10) (1 / 10) 0, false, false) := by
    simp only [pushLoop, turn_rest x (-m - 1 / 2) 1 m (by push_cast; linarith) hx]
    norm_num
  have hpush : pushRow emptyWindow.cfg (m : ℤ) noFields noFields (restRow x (-m - 1 / 2) (1 / 10) 1) = pushRow emptyWindow.cfg (m : ℤ) noFields noFields (restRow x (-m - 1 / 2 - 1 / 10) (1 / 10) 0) := by
    unfold pushRow
    have e1 : (restRow x (-m - 1 / 2) (1 / 10) 1).remaining.toNat = 1 := rfl
    have e2 : (restRow x (-m - 1 / 2 - 1 / 10) (1 / 10) 0).remaining.toNat = 0 := rfl
    rw [e1, hpl, e2]
    rfl
  have hres : results emptyWindow s1 (m + 1) [restRow x (-m - 1 / 2) 0 0] [] = [pushRow emptyWindow.cfg (m : ℤ) noFields noFields (restRow x (-m - 1 / 2 - 1 / 10) (1 / 10) 0)] := by
    rw [← hpush]
    unfold results
    simp only [List.map_cons, List.map_nil, List.append_nil, initRow_rest, hidx]
    rfl
  rw [hres] at h2
  obtain ⟨a1, a2, a3, a4⟩ := push_waiting emptyWindow.cfg (m : ℤ) noFields noFields (restRow x (-m - 1 / 2 - 1 / 10) (1 / 10) 0) rfl
  have e : -(emptyWindow.cfg.dxi * (((m : ℤ) : ℝ) + 1)) = -((m : ℝ) + 1) := by
    have : emptyWindow.cfg.dxi = 1 := rfl
    rw [this]; push_cast; ring
  have ex : (restRow x (-m - 1 / 2 - 1 / 10) (1 / 10) 0).x = x := rfl
  rw [e, ex] at a3 a4
  have a3' : (pushRow emptyWindow.cfg (m : ℤ) noFields noFields (restRow x (-m - 1 / 2 - 1 / 10) (1 / 10) 0)).moved = false := by
    rw [Bool.eq_false_iff, ne_eq, a3]; linarith
  have a4' := a4.mpr hxm
  simp only [List.filter_cons, a3', a4', if_true, List.filter_nil, List.map_cons, List.map_nil, a1, List.append_nil, List.take_nil, List.drop_nil, Bool.false_eq_true, if_false] at h2
  exact h2

/-- C60, refutation in 3D without the condition: one particle at rest in the first layer, at x = -4, without fields. In a window of 3 layers the beam after a time step is empty; moved back by two layers in a window of 5 layers, the
particle is in the beam after the time step. -/
theorem shift_fails_3D :
    (stepDt emptyWindow () (Beam.ofRows [restRow (-4) (-1 / 2) 0 0]) 3).drain.rows = [] ∧
    restRow (-4) (-5 / 2) 0 0 = (restRow (-4) (-1 / 2) 0 0).shift ((2 : ℕ) * emptyWindow.cfg.dxi) ∧
    (stepDt emptyWindow () (Beam.ofRows [restRow (-4) (-5 / 2) 0 0]) (3 + 2)).drain.rows = [restRow (-4) (-26 / 10) (1 / 10) 0] := by
  refine ⟨step_drops_particle.1.1, ?_, ?_⟩
  · have : emptyWindow.cfg.dxi = 1 := rfl
    simp only [restRow, Row.shift, this]; norm_num
  have hrun : stepDt emptyWindow () (Beam.ofRows [restRow (-4) (-5 / 2) 0 0]) (3 + 2) =
      sweepStep emptyWindow (sweepStep emptyWindow (sweepStep emptyWindow (sweepStep emptyWindow (sweepStep emptyWindow (sweepStep emptyWindow (sweepInit () (Beam.ofRows [restRow (-4) (-5 / 2) 0 0])) 0) 1) 2) 3) 4) 5 := by
    have hr : List.range (3 + 2 + 1) = [0, 1, 2, 3, 4, 5] := rfl
    simp only [stepDt, hr, List.foldl_cons, List.foldl_nil]
  rw [hrun]
  have e : (-5 / 2 : ℝ) = -((2 : ℕ) : ℝ) - 1 / 2 := by norm_num
  have e' : (-26 / 10 : ℝ) = -((2 : ℕ) : ℝ) - 1 / 2 - 1 / 10 := by norm_num
  rw [e, e']
  have h0 : RowsOf (sweepInit () (Beam.ofRows [restRow (-4) (-((2 : ℕ) : ℝ) - 1 / 2) 0 0])) [] [] [restRow (-4) (-((2 : ℕ) : ℝ) - 1 / 2) 0 0] [] := ⟨rfl, rfl, rfl, rfl⟩
  have h2 := sweep_not_yet _ 2 1 (by norm_num) _ (sweep_not_yet _ 2 0 (by norm_num) _ h0)
  have h3 := sweep_rest_at (-4) (by norm_num) 2 (by norm_num) _ h2
  have h4 := sweep_release emptyWindow _ 4 _ _ h3 rfl (by norm_num [restRow, emptyWindow])
  have h5 := sweep_idle emptyWindow _ 5 _ h4
  rw [h5.drain, rows_ofRows]
  rfl

end Lcode.Beam3D

namespace Lcode.Mpi

open Lcode.Beam3D
open Lcode.Beam2D (substepFraction IsArgsort gather)
open Lcode.Plasma3D (Fields3)

variable {σ : Type}

/-- One time step: if every particle received has an x above its xi by at least the time step, no finished particle is ever held back. -/
theorem step_nothing_held (env : Env3 σ) (argsort : List ℝ → List ℕ) (plasma0 : ℝ → σ) (hd : 0 < env.cfg.dxi) (hts : 0 ≤ env.timeStep) (he : 0 < env.energy) (N : ℕ) (dt : ℝ) (g : ℕ) (inp : ℕ → List (Row ℝ))
    (hin : ∀ j, j ≤ N → ∀ p ∈ inp j, p.qm ≠ 0 ∧ -(env.cfg.dxi * (j + 1)) ≤ p.xi ∧ env.timeStep ≤ p.x - p.xi) :
    ∀ j, j ≤ N + 1 → heldBack (stAt (world3D env argsort plasma0) ((world3D env argsort plasma0).init (timeOf dt g)) inp j) = [] := by
  set W := world3D env argsort plasma0 with hW
  have key : ∀ j, j ≤ N + 1 → heldBack (stAt W (W.init (timeOf dt g)) inp j) = [] ∧ ∃ fresh fell, (stAt W (W.init (timeOf dt g)) inp j).toMove = Beam.ofRows (fresh ++ fell) ∧ (stAt W (W.init (timeOf dt g)) inp j).fellSize = fell.length ∧
      ∀ r ∈ fresh.map (initRow env.timeStep env.energy) ++ fell, 0 ≤ r.remaining ∧ 0 ≤ r.dt ∧ -(env.cfg.dxi * j) ≤ r.x - r.remaining * r.dt := by
    intro j
    induction j with
    | zero => intro _; exact ⟨rfl, [], [], rfl, rfl, by simp⟩
    | succ j ih =>
      intro hj
      obtain ⟨-, fresh, fell, a1, a2, a3⟩ := ih (by omega)
      have e := layer3D_rows env _ fresh fell a1 a2 j (inp j)
      simp only at e
      have hst : stAt W (W.init (timeOf dt g)) inp (j + 1) = (layer3D env (stAt W (W.init (timeOf dt g)) inp j) j (inp j)).1 := rfl
      have hidx : ((((j : ℤ) - 1 : ℤ) : ℝ) + 1) = j := by push_cast; ring
      have hrow : ∀ r ∈ fresh.map (initRow env.timeStep env.energy) ++ fell, ∀ F0 F1,
          0 ≤ (pushRow env.cfg ((j : ℤ) - 1) F0 F1 r).row.remaining ∧ 0 ≤ (pushRow env.cfg ((j : ℤ) - 1) F0 F1 r).row.dt ∧
          -(env.cfg.dxi * j) ≤ (pushRow env.cfg ((j : ℤ) - 1) F0 F1 r).row.x - (pushRow env.cfg ((j : ℤ) - 1) F0 F1 r).row.remaining * (pushRow env.cfg ((j : ℤ) - 1) F0 F1 r).row.dt := by
        intro r hr F0 F1
        obtain ⟨b1, b2, b3⟩ := a3 r hr
        obtain ⟨x1, x2, x3⟩ := push_x env.cfg ((j : ℤ) - 1) F0 F1 r b1 b2
        exact ⟨x2, by rw [x3]; exact b2, b3.trans x1⟩
      refine ⟨?_, (inp j).map strip, _, by rw [hst, e], by rw [hst, e], ?_⟩
      · rw [heldBack_rows (stAt W (W.init (timeOf dt g)) inp (j + 1)) ((inp j).map strip) _ (by rw [hst, e]) (by rw [hst, e]), List.filter_eq_nil_iff]
        intro r hr
        obtain ⟨o, ho, rfl⟩ := List.mem_map.mp hr
        obtain ⟨ho, hf⟩ := List.mem_filter.mp ho
        unfold moved3D at ho
        obtain ⟨r0, hr0, rfl⟩ := List.mem_map.mp ho
        simp only [decide_eq_true_eq]
        intro h0
        have h1 := fell_finished env.cfg ((j : ℤ) - 1) _ _ r0 (a3 r0 hr0).1 hf h0
        have h2 := (hrow r0 hr0 (env.fields (stAt W (W.init (timeOf dt g)) inp j).plasma) (env.fields (plasma3D env (stAt W (W.init (timeOf dt g)) inp j) j (inp j)))).2.2
        rw [h0] at h2
        rw [hidx] at h1
        push_cast at h2
        linarith
      · intro r hr
        rcases List.mem_append.mp hr with hr | hr
        · obtain ⟨p', hp', rfl⟩ := List.mem_map.mp hr
          obtain ⟨p, hp, rfl⟩ := List.mem_map.mp hp'
          rw [initRow_strip]
          obtain ⟨q1, q2, q3⟩ := hin j (by omega) p hp
          obtain ⟨s1, s2, s3⟩ := initRow_steps env he hts p q1
          refine ⟨s1, s2, ?_⟩
          rw [s3]
          have : (initRow env.timeStep env.energy p).x = p.x := rfl
          rw [this]
          push_cast
          linarith
        · obtain ⟨o, ho, rfl⟩ := List.mem_map.mp hr
          have ho := (List.mem_filter.mp ho).1
          unfold moved3D at ho
          obtain ⟨r0, hr0, rfl⟩ := List.mem_map.mp ho
          obtain ⟨h1, h2, h3⟩ := hrow r0 hr0 (env.fields (stAt W (W.init (timeOf dt g)) inp j).plasma) (env.fields (plasma3D env (stAt W (W.init (timeOf dt g)) inp j) j (inp j)))
          refine ⟨h1, h2, le_trans ?_ h3⟩
          push_cast
          linarith
  exact fun j hj => (key j hj).1

/-- The run: if every particle of the initial beam has an x above its xi by at least `g + 1` time steps, no finished particle is held back in the time steps up to `g`, whatever the fields are. -/
theorem nothing_held_3D (env : Env3 σ) (argsort : List ℝ → List ℕ) (hs : IsArgsort (· ≤ ·) argsort) (plasma0 : ℝ → σ) (hd : 0 < env.cfg.dxi) (hts : 0 ≤ env.timeStep) (he : 0 < env.energy) (N : ℕ) (dt : ℝ)
    (b : List (Row ℝ)) (hneg : ∀ p ∈ b, p.xi < 0) (g : ℕ) (hb : ∀ p ∈ b, p.qm ≠ 0 ∧ (g + 1 : ℕ) * env.timeStep ≤ p.x - p.xi) :
    ∀ g', g' ≤ g → ∀ j, j ≤ N + 1 → heldBack (stAt (world3D env argsort plasma0) ((world3D env argsort plasma0).init (timeOf dt g')) (seqLayers (world3D env argsort plasma0) N dt b g') j) = [] := by
  have hbehind := finished_behind_3D env argsort hs hd hts plasma0 N dt b hneg
  set W := world3D env argsort plasma0 with hW
  have src : ∀ (t : ℝ) (b : List (Row ℝ)), (∀ p ∈ b, p.xi < 0) → (∀ p ∈ b, p.qm ≠ 0 ∧ t ≤ p.x - p.xi) → ∀ j, ∀ p ∈ srcLayer W (W.mkSrc b) j, p.qm ≠ 0 ∧ -(env.cfg.dxi * (j + 1)) ≤ p.xi ∧ t ≤ p.x - p.xi := by
    intro t b hn hb j p hp
    have := (source3D env argsort hs hd plasma0 b hn j).mem_iff.mp hp
    obtain ⟨q, hq, rfl⟩ := List.mem_map.mp this
    obtain ⟨hq1, hq2⟩ := List.mem_filter.mp hq
    simp only [decide_eq_true_eq] at hq2
    exact ⟨(hb q hq1).1, hq2.1, (hb q hq1).2⟩
  have lay : ∀ g', g' ≤ g → ∀ j, ∀ p ∈ seqLayers W N dt b g' j, p.qm ≠ 0 ∧ -(env.cfg.dxi * (j + 1)) ≤ p.xi ∧ ((g : ℝ) + 1 - g') * env.timeStep ≤ p.x - p.xi := by
    intro g'
    induction g' with
    | zero =>
      intro _
      refine src _ b hneg fun p hp => ⟨(hb p hp).1, ?_⟩
      have := (hb p hp).2
      push_cast at this ⊢
      linarith
    | succ g' ih =>
      intro hg'
      have ih := ih (by omega)
      refine src _ _ (hbehind g') fun p hp => ?_
      obtain ⟨j, hj, hp⟩ := mem_allFinished hp
      have hQ := (rows_keep_3D env argsort plasma0 dt g' N (seqLayers W N dt b g') (fun r => r.qm ≠ 0 ∧ 0 ≤ r.remaining ∧ 0 ≤ r.dt ∧ ((g : ℝ) + 1 - g') * env.timeStep ≤ r.x - r.xi + (env.timeStep - r.remaining * r.dt))
        (fun j hj p hp => by
          obtain ⟨q1, q2, q3⟩ := ih j p hp
          obtain ⟨s1, s2, s3⟩ := initRow_steps env he hts p q1
          refine ⟨q1, s1, s2, ?_⟩
          rw [s3, sub_self, add_zero]
          exact q3)
        (fun j hj r ⟨q1, q2, q3, q4⟩ => by
          obtain ⟨x1, x2, x3⟩ := push_x env.cfg ((j : ℤ) - 1) (env.fields (stAt W (W.init (timeOf dt g')) (seqLayers W N dt b g') j).plasma) (env.fields (stAt W (W.init (timeOf dt g')) (seqLayers W N dt b g') (j + 1)).plasma) r q2 q3
          obtain ⟨c1, c2, -⟩ := push_causal env.cfg ((j : ℤ) - 1) (env.fields (stAt W (W.init (timeOf dt g')) (seqLayers W N dt b g') j).plasma) (env.fields (stAt W (W.init (timeOf dt g')) (seqLayers W N dt b g') (j + 1)).plasma) r q2 q3
          refine ⟨by rw [c2]; exact q1, x2, by rw [x3]; exact q3, ?_⟩
          linarith))
      obtain ⟨r, ⟨q1, q2, q3, q4⟩, -, rfl⟩ := hQ.2 j hj p hp
      obtain ⟨x1, x2, x3⟩ := push_x env.cfg ((j : ℤ) - 1) (env.fields (stAt W (W.init (timeOf dt g')) (seqLayers W N dt b g') j).plasma) (env.fields (stAt W (W.init (timeOf dt g')) (seqLayers W N dt b g') (j + 1)).plasma) r q2 q3
      obtain ⟨c1, c2, -⟩ := push_causal env.cfg ((j : ℤ) - 1) (env.fields (stAt W (W.init (timeOf dt g')) (seqLayers W N dt b g') j).plasma) (env.fields (stAt W (W.init (timeOf dt g')) (seqLayers W N dt b g') (j + 1)).plasma) r q2 q3
      refine ⟨by show (pushRow _ _ _ _ _).row.qm ≠ 0; rw [c2]; exact q1, ?_⟩
      show _ ≤ (pushRow _ _ _ _ r).row.x - (pushRow _ _ _ _ r).row.xi
      have hnn : 0 ≤ ((pushRow env.cfg ((j : ℤ) - 1) (env.fields (stAt W (W.init (timeOf dt g')) (seqLayers W N dt b g') j).plasma) (env.fields (stAt W (W.init (timeOf dt g')) (seqLayers W N dt b g') (j + 1)).plasma) r).row.remaining : ℝ) *
          (pushRow env.cfg ((j : ℤ) - 1) (env.fields (stAt W (W.init (timeOf dt g')) (seqLayers W N dt b g') j).plasma) (env.fields (stAt W (W.init (timeOf dt g')) (seqLayers W N dt b g') (j + 1)).plasma) r).row.dt := by
        apply mul_nonneg
        · exact_mod_cast x2
        · rw [x3]; exact q3
      push_cast
      linarith
  intro g' hg'
  refine step_nothing_held env argsort plasma0 hd hts he N dt g' _ fun j _ p hp => ?_
  obtain ⟨q1, q2, q3⟩ := lay g' hg' j p hp
  refine ⟨q1, q2, le_trans ?_ q3⟩
  have : (g' : ℝ) ≤ g := by exact_mod_cast hg'
  nlinarith

/-- C60 for complete 3D simulations, with a condition on the initial beam only: every particle has an x above its xi by at least the length of the run up to time step `g`. Then the beam moved back by `k` layers, in a window longer by
`k` layers, has in time step `g` the same plasma, fields and beam density `k` layers further back, and its beam after the time step is that of the first run, moved back. -/
theorem shift_narrow_3D (c : Plasma3D.SCfg) (hdc : ∀ d, c.decl = some d → d.lim ≠ 0) (hx : 0 < c.m.dxi) (timeStep energy : ℝ) (hts : 0 ≤ timeStep) (he : 0 < energy) (argsort : List ℝ → List ℕ) (hs : IsArgsort (· ≤ ·) argsort)
    (N k : ℕ) (dt : ℝ) (w : Plasma3D.W3) (hw : Plasma3D.Quiet3 c w) (b b' : List (Row ℝ)) (hb : (b.map (Row.shift (k * c.m.dxi))).Perm b') (hneg : ∀ p ∈ b, p.xi < 0) (hid : ∀ p ∈ b, 0 < p.id) (g : ℕ)
    (hq : ∀ p ∈ b, p.qm ≠ 0 ∧ (g + 1 : ℕ) * timeStep ≤ p.x - p.xi) :
    (∀ j, j < k → seqLayers (world3D (sim3 c timeStep energy) argsort fun _ => w) (N + k) dt b' g j = []) ∧
    (∀ j, j ≤ N → ((seqLayers (world3D (sim3 c timeStep energy) argsort fun _ => w) N dt b g j).map (Row.shift (k * c.m.dxi))).Perm (seqLayers (world3D (sim3 c timeStep energy) argsort fun _ => w) (N + k) dt b' g (j + k))) ∧
    (∀ j, j ≤ N + 1 →
      Alike3 (stAt (world3D (sim3 c timeStep energy) argsort fun _ => w) ((world3D (sim3 c timeStep energy) argsort fun _ => w).init (timeOf dt g)) (seqLayers (world3D (sim3 c timeStep energy) argsort fun _ => w) N dt b g) j).plasma
        (stAt (world3D (sim3 c timeStep energy) argsort fun _ => w) ((world3D (sim3 c timeStep energy) argsort fun _ => w).init (timeOf dt g)) (seqLayers (world3D (sim3 c timeStep energy) argsort fun _ => w) (N + k) dt b' g) (j + k)).plasma ∧
      (stAt (world3D (sim3 c timeStep energy) argsort fun _ => w) ((world3D (sim3 c timeStep energy) argsort fun _ => w).init (timeOf dt g)) (seqLayers (world3D (sim3 c timeStep energy) argsort fun _ => w) N dt b g) j).rhoPrev =
        (stAt (world3D (sim3 c timeStep energy) argsort fun _ => w) ((world3D (sim3 c timeStep energy) argsort fun _ => w).init (timeOf dt g)) (seqLayers (world3D (sim3 c timeStep energy) argsort fun _ => w) (N + k) dt b' g) (j + k)).rhoPrev) ∧
    ((allFinished (world3D (sim3 c timeStep energy) argsort fun _ => w) N dt g (seqLayers (world3D (sim3 c timeStep energy) argsort fun _ => w) N dt b g)).map (Row.shift (k * c.m.dxi))).Perm
        (allFinished (world3D (sim3 c timeStep energy) argsort fun _ => w) (N + k) dt g (seqLayers (world3D (sim3 c timeStep energy) argsort fun _ => w) (N + k) dt b' g)) := by
  have hh := nothing_held_3D (sim3 c timeStep energy) argsort hs (fun _ => w) hx hts he N dt b hneg g hq
  obtain ⟨r1, -, r2, r3, r4⟩ := shift_simulation_3D c hdc hx timeStep energy hts argsort hs N k dt w hw b b' hb hneg hid g
    (fun g' hg' j hj r hr => by rw [hh g' hg' j hj] at hr; simp at hr) (fun g' hg' => hh g' hg'.le (N + 1) le_rfl)
  exact ⟨r1, r2, r3, r4 (hh g le_rfl (N + 1) le_rfl)⟩

/-- Non-vacuity: a plasma with mobile ions, three charged particles in the layers 0, 1 and 2, two of them on the side of negative x; four time steps of 1/8. -/
example : ∃ (c : Plasma3D.SCfg) (w : Plasma3D.W3) (b b' : List (Row ℝ)), (∀ d, c.decl = some d → d.lim ≠ 0) ∧ 0 < c.m.dxi ∧ Plasma3D.Quiet3 c w ∧ w.el = Plasma3D.makePlasmaSingle ((12 - 2 * 3 : ℕ) : ℤ) (1 / 2) ((1 : ℕ) : ℤ) (fun _ _ => 1) ∧
    (b.map (Row.shift ((2 : ℕ) * c.m.dxi))).Perm b' ∧ (∀ p ∈ b, p.xi < 0 ∧ 0 < p.id ∧ p.qnorm ≠ 0) ∧ (∀ p ∈ b, p.qm ≠ 0 ∧ ((3 + 1 : ℕ) : ℝ) * (1 / 8) ≤ p.x - p.xi) ∧ b.length = 3 := by
  refine ⟨_, _, [⟨-1 / 2, 0, 1, 0, 3, 100, 1, 1, 1, 0, 0⟩, ⟨-3 / 2, -1, 0, 1, 0, 100, -1, 2, 2, 0, 0⟩, ⟨-5 / 2, -2, 0, 1, 0, 100, -1, 2, 3, 0, 0⟩], _, ?_, ?_, Plasma3D.initial_quiet3 12 2 3 (by norm_num) (by norm_num) 1 le_rfl 1 (1 / 2) 1 2 (by norm_num) (fun _ _ => 1) none true _ rfl, rfl, List.Perm.refl _, ?_, ?_, rfl⟩
  · intro d h; simp at h
  · exact one_pos
  · intro p hp; simp at hp; rcases hp with rfl | rfl | rfl <;> norm_num
  · intro p hp; simp at hp; rcases hp with rfl | rfl | rfl <;> norm_num


end Lcode.Mpi
