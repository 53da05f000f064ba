import Verif.Mpi.FreeBeam3D

/-!
Property C53, second part, 2D: a beam without charge in an undisturbed plasma, without external magnetic field. The plasma stays as it is in every layer of every time step and every beam particle moves on a straight line with constant momentum.
-/

namespace Lcode.Mpi

open Lcode.Beam2D

/-! ### Specification -/

/-- Square of the distance from the axis that `p`, moving with the velocity of its momentum, has after the time `s`. -/
noncomputable def lineRadiusSq (p : Particle ℝ) (s : ℝ) : ℝ := (p.r + s * (p.pr / gammaM p)) ^ 2 + (s * (pPhi p / gammaM p)) ^ 2

/-- `q` is `p` after moving for the time `s` on a straight line: longitudinal momentum, angular momentum, energy, mass, charge and name are kept, distance from the axis and place along xi are those on the line, and the radial momentum is that of the line. -/
structure OnLine2 (p : Particle ℝ) (s : ℝ) (q : Particle ℝ) : Prop where
  pz : q.pz = p.pz
  M : q.M = p.M
  qm : q.qm = p.qm
  qnorm : q.qnorm = p.qnorm
  id : q.id = p.id
  pos : 0 < q.r
  r : q.r ^ 2 = lineRadiusSq p s
  pr : q.r * q.pr = (p.r + s * (p.pr / gammaM p)) * p.pr + s * (pPhi p / gammaM p) * pPhi p
  xi : q.xi = p.xi + s * (p.pz / gammaM p - 1)

/-- The energy is kept on the line. -/
theorem OnLine2.energy {p q : Particle ℝ} {s : ℝ} (hp : p.r ≠ 0) (h : OnLine2 p s q) : q.pr ^ 2 + pPhi q ^ 2 = p.pr ^ 2 + pPhi p ^ 2 ∧ gammaM q = gammaM p := by
  have hM : p.M = p.r * pPhi p := by unfold pPhi; field_simp
  have hq : pPhi q = p.M / q.r := by unfold pPhi; rw [h.M]
  have e : q.pr ^ 2 + pPhi q ^ 2 = p.pr ^ 2 + pPhi p ^ 2 := by
    have hr2 : q.r ^ 2 ≠ 0 := (pow_pos h.pos 2).ne'
    have h1 : q.r ^ 2 * (q.pr ^ 2 + pPhi q ^ 2) = q.r ^ 2 * (p.pr ^ 2 + pPhi p ^ 2) := by
      have a : q.r * pPhi q = p.M := by rw [hq]; field_simp [h.pos.ne']
      have : q.r ^ 2 * (q.pr ^ 2 + pPhi q ^ 2) = (q.r * q.pr) ^ 2 + (q.r * pPhi q) ^ 2 := by ring
      rw [this, a, h.pr, hM, h.r]
      unfold lineRadiusSq
      ring
    exact mul_left_cancel₀ hr2 h1
  refine ⟨e, ?_⟩
  unfold gammaM
  rw [h.qm, h.pz, e]

theorem onLine2_start (p : Particle ℝ) (hp : 0 < p.r) : OnLine2 p 0 p := by
  refine ⟨rfl, rfl, rfl, rfl, rfl, hp, ?_, ?_, ?_⟩
  · unfold lineRadiusSq; ring
  · ring
  · ring

/-! ### Motion without fields -/

/-- Fields that vanish at the nodes `0 .. n`. -/
def QuietTo (n : ℤ) (f : Fields) : Prop := ∀ i, 0 ≤ i → i ≤ n → f.Er i = 0 ∧ f.Ef i = 0 ∧ f.Ez i = 0 ∧ f.Bf i = 0 ∧ f.Bz i = 0

theorem particleFields_quiet (rv : V3) (f1 f0 : Fields) (xiEnd h xiStep : ℝ) (n : ℤ) (h1 : QuietTo n f1) (h0 : QuietTo n f0) (hlo : 0 ≤ ⌊Real.sqrt (rv.x ^ 2 + rv.y ^ 2) / h⌋)
    (hhi : ⌊Real.sqrt (rv.x ^ 2 + rv.y ^ 2) / h⌋ + 1 ≤ n) : particleFields rv f1 f0 xiEnd h xiStep = (⟨0, 0, 0⟩, ⟨0, 0, 0⟩) := by
  unfold particleFields interpolateParticle beamParticleWeights
  dsimp only
  generalize ⌊Real.sqrt (rv.x ^ 2 + rv.y ^ 2) / h⌋ = k at *
  obtain ⟨a1, a2, a3, a4, a5⟩ := h1 k (by omega) (by omega)
  obtain ⟨b1, b2, b3, b4, b5⟩ := h1 (k + 1) (by omega) (by omega)
  obtain ⟨c1, c2, c3, c4, c5⟩ := h0 k (by omega) (by omega)
  obtain ⟨d1, d2, d3, d4, d5⟩ := h0 (k + 1) (by omega) (by omega)
  simp only [a1, a2, a3, a4, a5, b1, b2, b3, b4, b5, c1, c2, c3, c4, c5, d1, d2, d3, d4, d5, mul_zero, add_zero, neg_zero]

/-- A turn of the pusher without fields: it ends as it was (out of the layer or lost), or the particle moves on along its line. -/
theorem pushTurn_free (c : PushCfg) (hB : c.magneticField = 0) (n : ℤ) (hn : ∀ r, 0 ≤ r → r < c.lostBoundary → 0 ≤ ⌊r / c.rStep⌋ ∧ ⌊r / c.rStep⌋ + 1 ≤ n) (xiEnd : ℝ) (f1 f0 : Fields) (h1 : QuietTo n f1) (h0 : QuietTo n f0)
    (hlb : 0 < c.lostBoundary) (dt : ℝ) (p : Particle ℝ) (hp : p.r ≠ 0) (s : ℝ) (q q' : Particle ℝ) (lost : Bool) (hax : lineRadiusSq p (s + dt) ≠ 0) (hq : OnLine2 p s q) (h : pushTurn c xiEnd f1 f0 dt q = .inr (q', lost)) :
    OnLine2 p (s + dt) q' := by
  obtain ⟨hen, hgam⟩ := hq.energy hp
  obtain ⟨hin, hR, k1, k2, k3, k4⟩ : xiEnd ≤ (halfPosition dt q).z ∧ (halfPosition dt q).x ^ 2 + (halfPosition dt q).y ^ 2 < c.lostBoundary ^ 2 ∧ q'.id = q.id ∧ q'.qm = q.qm ∧ q'.qnorm = q.qnorm ∧ q'.M = q.M := by
    rcases pushTurn_cases c xiEnd f1 f0 dt q with ⟨_, h'⟩ | ⟨_, _, u, h', _⟩ | ⟨a, b, u, l, h', _, _, _, _, a3, a4, a5, a6⟩
    · rw [h'] at h; simp at h
    · rw [h'] at h; simp at h
    · rw [h'] at h
      simp only [Sum.inr.injEq, Prod.mk.injEq] at h
      rw [← h.1]
      exact ⟨a, b, a3, a4, a5, a6 hB⟩
  have hr : Real.sqrt ((halfPosition dt q).x ^ 2 + (halfPosition dt q).y ^ 2) < c.lostBoundary := by
    rw [Real.sqrt_lt' hlb]; exact hR
  obtain ⟨n1, n2⟩ := hn _ (Real.sqrt_nonneg _) hr
  obtain ⟨E, B, b, hf, hb, px, py, pz, x, y, e1, e2, e3, ⟨g, e4, e5, e6, e7⟩, e8, e9, e10, -⟩ := push_leapfrog c xiEnd f1 f0 dt q q' lost h
  rw [particleFields_quiet _ _ _ _ _ _ n h1 h0 n1 n2] at hf
  simp only [Prod.mk.injEq, V3.mk.injEq] at hf
  obtain ⟨rfl, f1, f2, f3⟩ := hf
  rw [← f3, hB] at hb
  simp only [hb, ← f2, ← f1, mul_zero, sub_self, zero_div, add_zero] at e1 e2 e3
  subst e1 e2 e3
  have hgg : g = gammaM p := by
    rw [e4, ← hgam]; unfold gammaM; congr 1; ring
  have hx : x = q.r + dt * (q.pr / gammaM p) := by rw [e5, hgg]; ring
  have hy : y = dt * (pPhi q / gammaM p) := by rw [e6, hgg]; ring
  have hqM : q.r * pPhi q = p.r * pPhi p := by
    unfold pPhi; rw [hq.M]; field_simp [hq.pos.ne']
  have hrr : x ^ 2 + y ^ 2 = lineRadiusSq p (s + dt) := by
    have : x ^ 2 + y ^ 2 = q.r ^ 2 + 2 * (dt / gammaM p) * (q.r * q.pr) + (dt / gammaM p) ^ 2 * (q.pr ^ 2 + pPhi q ^ 2) := by rw [hx, hy]; ring
    rw [this, hen, hq.pr, hq.r]
    unfold lineRadiusSq
    ring
  have hpos : 0 < lineRadiusSq p (s + dt) := lt_of_le_of_ne (by unfold lineRadiusSq; positivity) (Ne.symm hax)
  have hq'r : 0 < q'.r := by rw [e9, hrr]; exact Real.sqrt_pos.mpr hpos
  refine ⟨by rw [e8, hq.pz], by rw [k4, hq.M], by rw [k2, hq.qm], by rw [k3, hq.qnorm], by rw [k1, hq.id], hq'r, ?_, ?_, ?_⟩
  · rw [e9, Real.sq_sqrt (by positivity), hrr]
  · rw [e10, mul_div_cancel₀ _ hq'r.ne']
    have : x * q.pr + y * pPhi q = q.r * q.pr + dt / gammaM p * (q.pr ^ 2 + pPhi q ^ 2) := by rw [hx, hy]; ring
    rw [this, hen, hq.pr]
    ring
  · rw [e7, hgg, hq.xi, hq.pz]; ring

/-- The line of `p` does not meet the axis during the time step. -/
def OffAxis (ts : ℝ) (p : Particle ℝ) : Prop := p.r ≠ 0 ∧ ∀ s, 0 ≤ s → s ≤ ts → lineRadiusSq p s ≠ 0

/-- A particle with angular momentum stays off the axis. -/
theorem offAxis_of_M (ts : ℝ) (p : Particle ℝ) (hr : p.r ≠ 0) (hM : p.M ≠ 0) (hq : p.qm ≠ 0) : OffAxis ts p := by
  refine ⟨hr, fun s _ _ h => ?_⟩
  unfold lineRadiusSq at h
  have hg : gammaM p ≠ 0 := by
    unfold gammaM
    have : 0 < (1 / p.qm) ^ 2 + (p.pr ^ 2 + pPhi p ^ 2 + p.pz ^ 2) := by
      have : 0 < (1 / p.qm) ^ 2 := by positivity
      positivity
    exact (Real.sqrt_pos.mpr this).ne'
  have a : p.r + s * (p.pr / gammaM p) = 0 := by nlinarith [sq_nonneg (p.r + s * (p.pr / gammaM p)), sq_nonneg (s * (pPhi p / gammaM p))]
  have b : s * (pPhi p / gammaM p) = 0 := by
    rw [a] at h
    simpa using h
  have hphi : pPhi p / gammaM p ≠ 0 := by unfold pPhi; positivity
  have hs : s = 0 := by
    rcases mul_eq_zero.mp b with h | h
    · exact h
    · exact absurd h hphi
  rw [hs] at a
  simp at a
  exact hr a

/-- A row in the course of a time step: not started; lost; or on the line of `p` after the substeps done. -/
def Free2 (ts : ℝ) (p : Particle ℝ) (t : Row ℝ) : Prop :=
  t = (p, 0, 1, false) ∨ t.2.2.2 = true ∨ (0 < t.2.1 ∧ 0 ≤ t.2.2.1 ∧ 0 ≤ ts - t.2.2.1 * t.2.1 ∧ OnLine2 p (ts - t.2.2.1 * t.2.1) t.1)

theorem pushLoop_free2 (c : PushCfg) (hB : c.magneticField = 0) (n : ℤ) (hn : ∀ r, 0 ≤ r → r < c.lostBoundary → 0 ≤ ⌊r / c.rStep⌋ ∧ ⌊r / c.rStep⌋ + 1 ≤ n) (xiEnd : ℝ) (f1 f0 : Fields) (h1 : QuietTo n f1) (h0 : QuietTo n f0)
    (hlb : 0 < c.lostBoundary) (dt : ℝ) (hdt : 0 < dt) (ts : ℝ) (p : Particle ℝ) (hp : OffAxis ts p) (k : ℕ) (q : Particle ℝ) (hk : 0 ≤ ts - k * dt) (hq : OnLine2 p (ts - k * dt) q) :
    (pushLoop c xiEnd f1 f0 dt k q).2.2 = true ∨ (0 ≤ ts - (pushLoop c xiEnd f1 f0 dt k q).2.1 * dt ∧ OnLine2 p (ts - (pushLoop c xiEnd f1 f0 dt k q).2.1 * dt) (pushLoop c xiEnd f1 f0 dt k q).1) := by
  induction k generalizing q with
  | zero => right; exact ⟨hk, hq⟩
  | succ k ih =>
    have hc : ((k + 1 : ℕ) : ℝ) = (k : ℝ) + 1 := by push_cast; ring
    rw [hc] at hk hq
    have e : ts - ((k : ℝ) + 1) * dt + dt = ts - k * dt := by ring
    have hk0 : (0 : ℝ) ≤ k := Nat.cast_nonneg k
    have hk' : 0 ≤ ts - k * dt := by linarith
    have hkt : ts - k * dt ≤ ts := by nlinarith
    rw [pushLoop]
    rcases h : pushTurn c xiEnd f1 f0 dt q with ⟨q', l⟩ | ⟨q', l⟩
    · cases l
      · right
        have hqq : q' = q := by
          rcases pushTurn_cases c xiEnd f1 f0 dt q with ⟨_, h'⟩ | ⟨_, _, u, h', _⟩ | ⟨a, b, u, l, h', _⟩
          · rw [h'] at h; simp only [Sum.inl.injEq, Prod.mk.injEq] at h; exact h.1.symm
          · rw [h'] at h; simp at h
          · rw [h'] at h; simp at h
        simp only [hqq, hc]
        exact ⟨hk, hq⟩
      · left; rfl
    · have hon := pushTurn_free c hB n hn xiEnd f1 f0 h1 h0 hlb dt p hp.1 _ q q' l (by rw [e]; exact hp.2 _ hk' hkt) hq h
      rw [e] at hon
      cases l
      · simp only [Bool.false_eq_true, if_false]
        exact ih q' hk' hon
      · left; rfl

theorem pushRow_free2 (c : PushCfg) (hB : c.magneticField = 0) (n : ℤ) (hn : ∀ r, 0 ≤ r → r < c.lostBoundary → 0 ≤ ⌊r / c.rStep⌋ ∧ ⌊r / c.rStep⌋ + 1 ≤ n) (i : ℕ) (f1 f0 : Fields) (h1 : QuietTo n f1) (h0 : QuietTo n f0)
    (hlb : 0 < c.lostBoundary) (ts : ℝ) (p : Particle ℝ) (hp : OffAxis ts p) (t : Row ℝ) (ht : t.2.2.2 = true ∨ (0 < t.2.1 ∧ 0 ≤ t.2.2.1 ∧ 0 ≤ ts - t.2.2.1 * t.2.1 ∧ OnLine2 p (ts - t.2.2.1 * t.2.1) t.1)) :
    (pushRow c i f1 f0 t).2.2.2 = true ∨ (0 < (pushRow c i f1 f0 t).2.1 ∧ 0 ≤ (pushRow c i f1 f0 t).2.2.1 ∧ 0 ≤ ts - (pushRow c i f1 f0 t).2.2.1 * (pushRow c i f1 f0 t).2.1 ∧
      OnLine2 p (ts - (pushRow c i f1 f0 t).2.2.1 * (pushRow c i f1 f0 t).2.1) (pushRow c i f1 f0 t).1) := by
  unfold pushRow
  by_cases hpos : t.2.2.1 > 0
  · rw [if_pos hpos]
    dsimp only
    rcases ht with ht | ⟨a, b, d, e⟩
    · left; rw [ht]; rfl
    · obtain ⟨k, hk⟩ := Int.eq_ofNat_of_zero_le b
      rw [hk] at d e ⊢
      simp only [Int.toNat_natCast, Int.cast_natCast] at d e ⊢
      rcases pushLoop_free2 c hB n hn (i * -c.xiStep) f1 f0 h1 h0 hlb t.2.1 a ts p hp k t.1 d e with h | ⟨h, h'⟩
      · left; rw [h]; simp
      · exact Or.inr ⟨a, by omega, h, h'⟩
  · rw [if_neg hpos]; exact ht

theorem initRow_free2 (ts energy : ℝ) (hts : 0 < ts) (he : 0 ≤ energy) (p : Particle ℝ) (hr : 0 < p.r) (hq : p.qm ≠ 0) (t : Row ℝ) (ht : Free2 ts p t) :
    (initRow ts energy t).2.2.2 = true ∨ (0 < (initRow ts energy t).2.1 ∧ 0 ≤ (initRow ts energy t).2.2.1 ∧ 0 ≤ ts - (initRow ts energy t).2.2.1 * (initRow ts energy t).2.1 ∧
      OnLine2 p (ts - (initRow ts energy t).2.2.1 * (initRow ts energy t).2.1) (initRow ts energy t).1) := by
  rcases ht with rfl | ht | ht
  · right
    unfold initRow
    rw [if_pos rfl]
    by_cases h0 : energy = 0
    · rw [if_pos h0]
      dsimp only
      have : ts - ((1 : ℤ) : ℝ) * ts = 0 := by push_cast; ring
      exact ⟨hts, by norm_num, this.ge, by rw [this]; exact onLine2_start p hr⟩
    · rw [if_neg h0]
      have he' : 0 < energy := lt_of_le_of_ne he (Ne.symm h0)
      obtain ⟨n, start, -, e2, ⟨k, hk⟩, e4, -, e6⟩ := Beam3D.underway_init (⟨⟨0, 0, 0⟩, ts, energy, fun s _ _ => s, fun _ => Plasma3D.Fields3.zero⟩ : Beam3D.Env3 Unit) he' ⟨0, 0, 0, 0, 0, p.pz, p.qm, 0, 0, 0, 0⟩ hq
      have hdt := e4.invariant.2.2.2.1
      simp only [Beam3D.initRow] at hdt e6
      rw [← hdt] at e2
      have hn : (0 : ℝ) < n := by rw [hk]; positivity
      simp only [substepsOf]
      rw [e6]
      have hc : (((n : ℤ) - ((0 : ℕ) : ℤ) : ℤ) : ℝ) = n := by push_cast; ring
      rw [hc, e2, sub_self]
      refine ⟨?_, by omega, le_rfl, onLine2_start p hr⟩
      by_contra hneg
      have := mul_nonpos_of_nonneg_of_nonpos hn.le (not_lt.mp hneg)
      linarith
  · left
    unfold initRow
    split_ifs <;> exact ht
  · right
    unfold initRow
    rw [if_neg ht.1.ne']
    exact ht

/-! ### Rows of a layer loop -/

/-- A property of the rows that the pusher keeps, with the fields of this run, holds for everything that finishes. -/
theorem rows_keep_2D {σ : Type} (env : Env2D σ) (hs : IsArgsort boolLe env.argsortB) (plasma0 : ℝ → σ) (dt : ℝ) (g N : ℕ) (inp : ℕ → List (Particle ℝ)) (Q : Row ℝ → Prop) (hin : ∀ j, j ≤ N → ∀ p ∈ inp j, Q (p, 0, 1, false))
    (hpush : ∀ j, j ≤ N → ∀ t, Q t → Q (pushRow env.cfg j (env.fields (stAt (world2D env plasma0) ((world2D env plasma0).init (timeOf dt g)) inp (j + 1)).plasma)
      (env.fields (stAt (world2D env plasma0) ((world2D env plasma0).init (timeOf dt g)) inp j).plasma) (initRow env.timeStep env.energy t))) :
    ∀ j, j ≤ N → ∀ p ∈ finished (world2D env plasma0) dt g inp j, ∃ t, Q t ∧ t.2.2.2 = false ∧ t.2.2.1 ≤ 0 ∧ p = t.1 := by
  set W := world2D env plasma0 with hW
  have mv : ∀ j, j ≤ N → (∀ t ∈ (stAt W (W.init (timeOf dt g)) inp j).toMove.rows, Q t) →
      (∀ t ∈ (moveBeamLayer env (stAt W (W.init (timeOf dt g)) inp j).toMove j (env.fields (stAt W (W.init (timeOf dt g)) inp j).plasma) (env.fields (stAt W (W.init (timeOf dt g)) inp (j + 1)).plasma)).2.1.rows,
        Q t ∧ t.2.2.2 = false ∧ t.2.2.1 ≤ 0) ∧
      (∀ t ∈ (moveBeamLayer env (stAt W (W.init (timeOf dt g)) inp j).toMove j (env.fields (stAt W (W.init (timeOf dt g)) inp j).plasma) (env.fields (stAt W (W.init (timeOf dt g)) inp (j + 1)).plasma)).2.2.rows, Q t) := by
    intro j hj hw
    have hb : (stAt W (W.init (timeOf dt g)) inp j).toMove.WF := stAt_wf env hs plasma0 (timeOf dt g) inp j
    generalize hf0 : env.fields (stAt W (W.init (timeOf dt g)) inp j).plasma = f0 at *
    generalize hf1 : env.fields (stAt W (W.init (timeOf dt g)) inp (j + 1)).plasma = f1 at *
    have hpj : ∀ t, Q t → Q (pushRow env.cfg j f1 f0 (initRow env.timeStep env.energy t)) := by
      intro t ht
      have := hpush j hj t ht
      rwa [hf0, hf1] at this
    generalize (stAt W (W.init (timeOf dt g)) inp j).toMove = b at *
    simp only [moveBeamLayer]
    set b' := if b.particles.length = 0 then b
      else b.mapRows (fun t => pushRow env.cfg j f1 f0 (initRow env.timeStep env.energy t)) with hb'
    have hwf' : b'.WF := by
      rw [hb']; split_ifs
      · exact hb
      · exact wf_mapRows _ _
    have hrows : ∀ t' ∈ b'.rows, Q t' := by
      intro t' ht'
      rw [hb'] at ht'
      split_ifs at ht' with h0
      · exact hw t' ht'
      · rw [rows_mapRows, List.mem_map] at ht'
        obtain ⟨t, ht, rfl⟩ := ht'
        exact hpj t (hw t ht)
    obtain ⟨-, h2, h3, -, -, -⟩ := split_rows env.argsortB hs b' hwf' (j * -env.cfg.xiStep)
    refine ⟨fun t ht => ?_, fun t ht => hrows t (List.mem_filter.mp (h3.mem_iff.mp ht)).1⟩
    obtain ⟨m1, m2⟩ := List.mem_filter.mp (h2.mem_iff.mp ht)
    simp only [Bool.and_eq_true, Bool.not_eq_true', decide_eq_true_eq] at m2
    exact ⟨hrows t m1, m2.1.1, m2.1.2⟩
  have hinv : ∀ j, j ≤ N + 1 → ∀ t ∈ (stAt W (W.init (timeOf dt g)) inp j).toMove.rows, Q t := by
    intro j
    induction j with
    | zero =>
      intro _ t ht
      have ht' : t ∈ (⟨[], [], [], []⟩ : Beam ℝ).rows := ht
      simp [Beam.rows] at ht'
    | succ j ih =>
      intro hj t ht
      have hwf := stAt_wf env hs plasma0 (timeOf dt g) inp j
      have hwf2 := (moveBeamLayer_conserves env hs (stAt W (W.init (timeOf dt g)) inp j).toMove hwf j (env.fields (stAt W (W.init (timeOf dt g)) inp j).plasma)
        (env.fields (stAt W (W.init (timeOf dt g)) inp (j + 1)).plasma)).2.2.2
      have ht' : t ∈ ((Beam.fresh (inp j)).append (moveBeamLayer env (stAt W (W.init (timeOf dt g)) inp j).toMove j (env.fields (stAt W (W.init (timeOf dt g)) inp j).plasma)
        (env.fields (stAt W (W.init (timeOf dt g)) inp (j + 1)).plasma)).2.2).rows := ht
      rw [(append_rows _ _ (wf_fresh _) hwf2).1, List.mem_append] at ht'
      rcases ht' with h | h
      · rw [rows_fresh, List.mem_map] at h
        obtain ⟨q, hq, rfl⟩ := h
        exact hin j (by omega) q hq
      · exact (mv j (by omega) (ih (by omega))).2 t h
  intro j hj p hp
  have hwf := stAt_wf env hs plasma0 (timeOf dt g) inp j
  have hw2 := (moveBeamLayer_conserves env hs (stAt W (W.init (timeOf dt g)) inp j).toMove hwf j (env.fields (stAt W (W.init (timeOf dt g)) inp j).plasma)
        (env.fields (stAt W (W.init (timeOf dt g)) inp (j + 1)).plasma)).2.2.1
  have hp' : p ∈ (moveBeamLayer env (stAt W (W.init (timeOf dt g)) inp j).toMove j (env.fields (stAt W (W.init (timeOf dt g)) inp j).plasma)
        (env.fields (stAt W (W.init (timeOf dt g)) inp (j + 1)).plasma)).2.1.particles := hp
  rw [← rows_particles hw2, List.mem_map] at hp'
  obtain ⟨t, ht, rfl⟩ := hp'
  obtain ⟨a, b, d⟩ := (mv j hj (hinv j (by omega))).1 t ht
  exact ⟨t, a, b, d, rfl⟩

/-! ### Complete simulations -/

/-- One layer without beam leaves a plasma at rest as it was. -/
theorem plasmaStep2_still (c : Plasma2D.SolverCfg) (hc : c.Sane) (L : ℝ) (hL : 0 < L) (w0 w : Plasma2D.World) (h0 : Plasma2D.Neutral c w0) (hw : Plasma2D.Still c w0 w) :
    Plasma2D.Still c w0 (plasmaStep2 c L w fun _ => 0) := by
  obtain ⟨xs, h1, h2, h3⟩ := Plasma2D.stepDxi_covered c (fun _ => 0) L w
  have hx : ∀ x ∈ xs, 0 < x := by
    intro x hx
    obtain ⟨d, -, e⟩ := h3 x hx
    rw [e]; positivity
  have e : plasmaStep2 c L w (fun _ => 0) = xs.foldl (Plasma2D.advance c fun _ => 0) w := by
    unfold plasmaStep2
    rw [h1]
  rw [e]
  exact Plasma2D.foldl_still c hc w0 h0 (fun _ => 0) (fun _ _ => rfl) xs hx w hw

/-- Whatever the initial beam without charge, and with a neutral initial plasma at rest: in every layer of every time step every plasma particle is where it was and at rest, all fields and currents are zero and the beam density is zero.
There may be an external magnetic field. -/
theorem quiet_run_2D (c : Plasma2D.SolverCfg) (hc : c.Sane) (xiStep : ℝ) (hx : 0 < xiStep) (timeStep energy : ℝ) (hts : 0 ≤ timeStep) (argsortB : List Bool → List ℕ) (argsortF : List ℝ → List ℕ)
    (hs : IsArgsort boolLe argsortB) (hf : IsArgsort (· ≤ ·) argsortF) (N : ℕ) (hlim : ((N : ℝ) + 1) * xiStep ≤ 99999) (dt : ℝ) (w : Plasma2D.World) (hw : Plasma2D.Neutral c w) (hF : w.F.Quiet c.M) (hcur : w.cur.Quiet c.M)
    (b : List (Particle ℝ)) (hq : ∀ p ∈ b, p.qnorm = 0) (hneg : ∀ p ∈ b, p.xi ≤ 0) (g j : ℕ) (hj : j ≤ N + 1) :
    Plasma2D.Still c w (stAt (world2D (sim2 c xiStep timeStep energy argsortB argsortF) fun _ => w) ((world2D (sim2 c xiStep timeStep energy argsortB argsortF) fun _ => w).init (timeOf dt g))
      (seqLayers (world2D (sim2 c xiStep timeStep energy argsortB argsortF) fun _ => w) N dt b g) j).plasma ∧
    (stAt (world2D (sim2 c xiStep timeStep energy argsortB argsortF) fun _ => w) ((world2D (sim2 c xiStep timeStep energy argsortB argsortF) fun _ => w).init (timeOf dt g))
      (seqLayers (world2D (sim2 c xiStep timeStep energy argsortB argsortF) fun _ => w) N dt b g) j).rhoPrev = fun _ => 0 := by
  set env := sim2 c xiStep timeStep energy argsortB argsortF with henv
  have hb : WithTest Particle.qnorm [] b := ⟨b, hq, by simp⟩
  obtain ⟨-, h2, -⟩ := test_particles_2D env (fun _ => w) hs hf hx hts N hlim dt [] b hb hneg g
  rw [← (h2 j hj).1, ← (h2 j hj).2]
  set W := world2D env fun _ => w with hW
  have hfin : ∀ g (inp : ℕ → List (Particle ℝ)), (∀ j, j ≤ N → inp j = []) → allFinished W N dt g inp = [] := by
    intro g inp hinp
    rw [List.eq_nil_iff_forall_not_mem]
    intro q hq
    obtain ⟨i, hi, hq⟩ := mem_allFinished hq
    obtain ⟨r, hr, -⟩ := rows_keep_2D env hs (fun _ => w) dt g N inp (fun _ => False) (fun j hj p hp => by rw [hinp j hj] at hp; simp at hp) (fun _ _ _ h => h) i hi q hq
    exact hr
  have hempty : ∀ (t : List (Particle ℝ)), t = [] → ∀ j, srcLayer W (W.mkSrc t) j = [] := by
    intro t ht j
    rw [List.eq_nil_iff_forall_not_mem]
    intro q hq
    have := mem_srcLayer env (fun _ => w) hf t j q hq
    rw [ht] at this
    simp at this
  have hseq : ∀ g j, j ≤ N → seqLayers W N dt [] g j = [] := by
    intro g
    induction g with
    | zero => intro j _; exact hempty [] rfl j
    | succ g ih => intro j _; exact hempty _ (hfin g _ ih) j
  have hions : Plasma2D.SameIons w.ions w.ions := by
    cases w.ions <;> simp [Plasma2D.SameIons, Plasma2D.SameParticles]
  have hlay : ∀ j : ℕ, layoutBeamLayer env.cfg.rStep env.cfg.xiStep (fun _ => 0) ([] : List (Particle ℝ)) j = (fun _ => 0, fun _ => 0) := by
    intro j
    have hd : ∀ e, depositParticles [] (fun _ => 0) (fun _ => 0) e env.cfg.rStep env.cfg.xiStep = ((fun _ => 0), fun _ => 0) := by
      intro e
      refine Prod.ext ?_ ?_
      · funext k; rw [(deposit_pointwise [] _ _ _ _ _ k).1]; simp
      · funext k; rw [(deposit_pointwise [] _ _ _ _ _ k).2]; simp
    unfold layoutBeamLayer
    simp only [hd]
    refine Prod.ext ?_ ?_
    · funext k; simp
    · rfl
  have key : ∀ j, j ≤ N + 1 → Plasma2D.Still c w (stAt W (W.init (timeOf dt g)) (seqLayers W N dt [] g) j).plasma ∧
      (stAt W (W.init (timeOf dt g)) (seqLayers W N dt [] g) j).rhoPrev = (fun _ => 0) ∧ (stAt W (W.init (timeOf dt g)) (seqLayers W N dt [] g) j).rhoLayout = fun _ => 0 := by
    intro j
    induction j with
    | zero => intro _; exact ⟨⟨rfl, hions, hF, hcur⟩, rfl, rfl⟩
    | succ j ih =>
      intro hj
      obtain ⟨i1, i2, i3⟩ := ih (by omega)
      have e : stAt W (W.init (timeOf dt g)) (seqLayers W N dt [] g) (j + 1) = (layer2D env (stAt W (W.init (timeOf dt g)) (seqLayers W N dt [] g) j) j []).1 := by
        show (layer2D env (stAt W (W.init (timeOf dt g)) (seqLayers W N dt [] g) j) j (seqLayers W N dt [] g j)).1 = _
        rw [hseq g j (by omega)]
      rw [e]
      unfold layer2D
      dsimp only
      rw [i3, show (Beam.fresh ([] : List (Particle ℝ))).particles = [] from rfl, hlay j]
      exact ⟨plasmaStep2_still c hc xiStep hx w _ hw i1, rfl, rfl⟩
  exact ⟨(key j hj).1, (key j hj).2.1⟩

/-- C53 in 2D: a beam without charge in an undisturbed plasma moves freely, if there is no external magnetic field and the window is a whole number of cells. Every particle of the beam after a time step is a particle received in this
time step that moved on a straight line for the time step, provided the received particles do not meet the axis on their line. -/
theorem free_beam_2D (c : Plasma2D.SolverCfg) (hc : c.Sane) (hB : c.B0 = 0) (hR : c.R = c.M * c.h) (xiStep : ℝ) (hx : 0 < xiStep) (timeStep energy : ℝ) (hts : 0 < timeStep) (he : 0 ≤ energy) (argsortB : List Bool → List ℕ)
    (argsortF : List ℝ → List ℕ) (hs : IsArgsort boolLe argsortB) (hf : IsArgsort (· ≤ ·) argsortF) (N : ℕ) (hlim : ((N : ℝ) + 1) * xiStep ≤ 99999) (dt : ℝ) (w : Plasma2D.World) (hw : Plasma2D.Neutral c w) (hF : w.F.Quiet c.M)
    (hcur : w.cur.Quiet c.M) (b : List (Particle ℝ)) (hq : ∀ p ∈ b, p.qnorm = 0) (hneg : ∀ p ∈ b, p.xi ≤ 0) (g : ℕ)
    (hax : ∀ i, i ≤ N → ∀ p ∈ seqLayers (world2D (sim2 c xiStep timeStep energy argsortB argsortF) fun _ => w) N dt b g i, 0 < p.r ∧ p.qm ≠ 0 ∧ OffAxis timeStep p) :
    ∀ q ∈ allFinished (world2D (sim2 c xiStep timeStep energy argsortB argsortF) fun _ => w) N dt g (seqLayers (world2D (sim2 c xiStep timeStep energy argsortB argsortF) fun _ => w) N dt b g),
      ∃ i, i ≤ N ∧ ∃ p ∈ seqLayers (world2D (sim2 c xiStep timeStep energy argsortB argsortF) fun _ => w) N dt b g i, OnLine2 p timeStep q := by
  have hquiet := quiet_run_2D c hc xiStep hx timeStep energy hts.le argsortB argsortF hs hf N hlim dt w hw hF hcur b hq hneg
  set env := sim2 c xiStep timeStep energy argsortB argsortF with henv
  set W := world2D env fun _ => w with hW
  intro q hqf
  obtain ⟨j, hj, hqf⟩ := mem_allFinished hqf
  have hcfg : env.cfg = ⟨c.h, xiStep, c.R, c.B0⟩ := rfl
  have hRpos : 0 < c.R := by
    rw [hR]
    have : (1 : ℝ) ≤ c.M := by exact_mod_cast hc.cells
    have := hc.h_pos
    positivity
  have hlb : 0 < env.cfg.lostBoundary := by
    rw [hcfg]
    unfold PushCfg.lostBoundary
    exact lt_of_lt_of_le (by dsimp only; linarith) (le_max_left _ _)
  have hn : ∀ r, 0 ≤ r → r < env.cfg.lostBoundary → 0 ≤ ⌊r / env.cfg.rStep⌋ ∧ ⌊r / env.cfg.rStep⌋ + 1 ≤ (c.M : ℤ) := by
    intro r h0 hr
    have := nodes_exist_whole_cells env.cfg hc.h_pos c.M hR hRpos r h0 hr
    refine ⟨this.1, ?_⟩
    have e : Lcode.Py.pyInt (env.cfg.maxRadius / env.cfg.rStep) = c.M := by
      show Lcode.Py.pyInt (c.R / c.h) = c.M
      have h1 : c.R / c.h = ((c.M : ℤ) : ℝ) := by
        rw [div_eq_iff hc.h_pos.ne', hR]; push_cast; rfl
      rw [h1, Lcode.Py.pyInt_intCast]
    have := this.2
    rw [e] at this
    omega
  have hqt : ∀ j, j ≤ N + 1 → QuietTo c.M (env.fields (stAt W (W.init (timeOf dt g)) (seqLayers W N dt b g) j).plasma) := by
    intro j hj i h0 hi
    have hst := (hquiet g j hj).1.fields i.toNat (by omega)
    exact hst
  obtain ⟨t, ⟨i, hi, p, hp, hfree⟩, hl, hrem, rfl⟩ := rows_keep_2D env hs (fun _ => w) dt g N (seqLayers W N dt b g) (fun t => ∃ i, i ≤ N ∧ ∃ p ∈ seqLayers W N dt b g i, Free2 timeStep p t)
    (fun j hj p hp => ⟨j, hj, p, hp, Or.inl rfl⟩)
    (fun j hj t ⟨i, hi, p, hp, h⟩ => ⟨i, hi, p, hp, Or.inr (pushRow_free2 env.cfg hB c.M hn j _ _ (hqt (j + 1) (by omega)) (hqt j (by omega)) hlb timeStep p (hax i hi p hp).2.2 _
      (initRow_free2 timeStep energy hts he p (hax i hi p hp).1 (hax i hi p hp).2.1 t h))⟩) j hj q hqf
  refine ⟨i, hi, p, hp, ?_⟩
  rcases hfree with rfl | h | ⟨-, h2, -, h4⟩
  · exact absurd hrem (by norm_num)
  · rw [h] at hl; simp at hl
  · have h0 : t.2.2.1 = 0 := le_antisymm hrem h2
    rw [h0] at h4
    have e : timeStep - ((0 : ℤ) : ℝ) * t.2.1 = timeStep := by push_cast; ring
    rw [e] at h4
    exact h4

/-- The particles of a beam with angular momentum never meet the axis, so the statement holds in every time step without a condition on the received particles. -/
theorem free_beam_rotating_2D (c : Plasma2D.SolverCfg) (hc : c.Sane) (hB : c.B0 = 0) (hR : c.R = c.M * c.h) (xiStep : ℝ) (hx : 0 < xiStep) (timeStep energy : ℝ) (hts : 0 < timeStep) (he : 0 ≤ energy) (argsortB : List Bool → List ℕ)
    (argsortF : List ℝ → List ℕ) (hs : IsArgsort boolLe argsortB) (hf : IsArgsort (· ≤ ·) argsortF) (N : ℕ) (hlim : ((N : ℝ) + 1) * xiStep ≤ 99999) (dt : ℝ) (w : Plasma2D.World) (hw : Plasma2D.Neutral c w) (hF : w.F.Quiet c.M)
    (hcur : w.cur.Quiet c.M) (b : List (Particle ℝ)) (hq : ∀ p ∈ b, p.qnorm = 0) (hneg : ∀ p ∈ b, p.xi ≤ 0) (hrot : ∀ p ∈ b, 0 < p.r ∧ p.qm ≠ 0 ∧ p.M ≠ 0) (g : ℕ) :
    ∀ q ∈ allFinished (world2D (sim2 c xiStep timeStep energy argsortB argsortF) fun _ => w) N dt g (seqLayers (world2D (sim2 c xiStep timeStep energy argsortB argsortF) fun _ => w) N dt b g),
      ∃ i, i ≤ N ∧ ∃ p ∈ seqLayers (world2D (sim2 c xiStep timeStep energy argsortB argsortF) fun _ => w) N dt b g i, OnLine2 p timeStep q := by
  have step := fun g => free_beam_2D c hc hB hR xiStep hx timeStep energy hts he argsortB argsortF hs hf N hlim dt w hw hF hcur b hq hneg g
  set env := sim2 c xiStep timeStep energy argsortB argsortF with henv
  set W := world2D env fun _ => w with hW
  have rot : ∀ g i, i ≤ N → ∀ p ∈ seqLayers W N dt b g i, 0 < p.r ∧ p.qm ≠ 0 ∧ p.M ≠ 0 := by
    intro g
    induction g with
    | zero => intro i _ p hp; exact hrot p (mem_srcLayer env (fun _ => w) hf b i p hp)
    | succ g ih =>
      intro i _ p hp
      have hp' := mem_srcLayer env (fun _ => w) hf _ i p hp
      obtain ⟨k, hk, p0, hp0, h⟩ := step g (fun i hi p hp => ⟨(ih i hi p hp).1, (ih i hi p hp).2.1, offAxis_of_M timeStep p (ih i hi p hp).1.ne' (ih i hi p hp).2.2 (ih i hi p hp).2.1⟩) p hp'
      obtain ⟨-, h2, h3⟩ := ih k hk p0 hp0
      exact ⟨h.pos, by rw [h.qm]; exact h2, by rw [h.M]; exact h3⟩
  exact step g (fun i hi p hp => ⟨(rot g i hi p hp).1, (rot g i hi p hp).2.1, offAxis_of_M timeStep p (rot g i hi p hp).1.ne' (rot g i hi p hp).2.2 (rot g i hi p hp).2.1⟩)

/-- Non-vacuity: a window of five cells with mobile ions and two neutral particles with angular momentum. -/
example : ∃ (c : Plasma2D.SolverCfg) (w : Plasma2D.World) (b : List (Particle ℝ)), c.Sane ∧ c.B0 = 0 ∧ c.R = c.M * c.h ∧ Plasma2D.Neutral c w ∧ w.F.Quiet c.M ∧ w.cur.Quiet c.M ∧ w = Plasma2D.initWorld c (fun _ => 1) (some 2) ∧
    (∀ p ∈ b, p.qnorm = 0) ∧ (∀ p ∈ b, p.xi ≤ 0) ∧ (∀ p ∈ b, 0 < p.r ∧ p.qm ≠ 0 ∧ p.M ≠ 0) ∧ b.length = 2 := by
  have hM : (⟨1, 5, 4, 0, 1 / 5, 3, 2, false⟩ : Plasma2D.SolverCfg).M = 5 := by
    unfold Plasma2D.SolverCfg.M Plasma2D.cellCount; norm_num
  have hc : (⟨1, 5, 4, 0, 1 / 5, 3, 2, false⟩ : Plasma2D.SolverCfg).Sane := ⟨by norm_num, by rw [hM]; norm_num, by rw [hM]; norm_num, rfl⟩
  obtain ⟨h1, h2, h3⟩ := Plasma2D.init_neutral ⟨1, 5, 4, 0, 1 / 5, 3, 2, false⟩ hc (fun _ => 1) (fun _ => zero_le_one) (some 2) (by intro m h; simp at h; linarith) (by norm_num) (by rw [hM]; norm_num)
  refine ⟨_, _, [⟨-1 / 2, 1, 0, 100, 3, 1, 0, 1⟩, ⟨-3 / 2, 2, 1, 100, -1, 1, 0, 2⟩], hc, rfl, by rw [hM]; norm_num, h1, h2, h3, rfl, ?_, ?_, ?_, rfl⟩
  · intro p hp; simp at hp; rcases hp with rfl | rfl <;> rfl
  · intro p hp; simp at hp; rcases hp with rfl | rfl <;> norm_num
  · intro p hp; simp at hp; rcases hp with rfl | rfl <;> norm_num

end Lcode.Mpi
