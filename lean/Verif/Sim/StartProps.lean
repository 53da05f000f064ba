import Verif.Sim.Start

/-!
Property C63: theorems about Verif/Sim/Start.lean.
-/

namespace Lcode.Start

open Lcode.Py Lcode.Cfg

/-! ### Loops -/

theorem forFrom_ok {E : Type} (body : ℕ → Except E Unit) (i n : ℕ) : forFrom body i n = .ok () ↔ ∀ k, k < n → body (i + k) = .ok () := by
  induction n generalizing i with
  | zero => simp [forFrom]
  | succ n ih =>
    unfold forFrom
    cases hb : body i with
    | error e => simp only [reduceCtorEq, false_iff, not_forall]; exact ⟨0, by omega, by rw [Nat.add_zero, hb]; simp⟩
    | ok u =>
      simp only [ih]
      constructor
      · intro h k hk
        cases k with
        | zero => rw [Nat.add_zero, hb]
        | succ k => have := h k (by omega); rwa [show i + 1 + k = i + (k + 1) by omega] at this
      · intro h k hk
        have := h (k + 1) (by omega); rwa [show i + (k + 1) = i + 1 + k by omega] at this

theorem forFrom_error {E : Type} (body : ℕ → Except E Unit) (i n : ℕ) (e : E) (h : forFrom body i n = .error e) :
    ∃ k, k < n ∧ body (i + k) = .error e ∧ ∀ j, j < k → body (i + j) = .ok () := by
  induction n generalizing i with
  | zero => simp [forFrom] at h
  | succ n ih =>
    unfold forFrom at h
    cases hb : body i with
    | error e' =>
      rw [hb] at h
      exact ⟨0, by omega, by rw [Nat.add_zero, hb]; exact h, by intro j hj; omega⟩
    | ok u =>
      rw [hb] at h
      obtain ⟨k, hk, h1, h2⟩ := ih (i + 1) h
      refine ⟨k + 1, by omega, by rw [← h1]; congr 1; omega, fun j hj => ?_⟩
      cases j with
      | zero => rw [Nat.add_zero, hb]
      | succ j => have := h2 j (by omega); rwa [show i + 1 + j = i + (j + 1) by omega] at this

theorem forFrom_first {E : Type} (body : ℕ → Except E Unit) (i n : ℕ) (hn : 0 < n) (e : E) (h : body i = .error e) : forFrom body i n = .error e := by
  obtain ⟨n, rfl⟩ : ∃ k, n = k + 1 := ⟨n - 1, by omega⟩
  unfold forFrom; rw [h]

theorem pyIndex_ok (n i : ℤ) (h : 0 ≤ i ∧ i < n ∨ i < 0 ∧ -n ≤ i) : pyIndex n i = .ok () := if_pos h
theorem pyIndex_err (n i : ℤ) (h : ¬ (0 ≤ i ∧ i < n ∨ i < 0 ∧ -n ≤ i)) : pyIndex n i = .error .index := if_neg h
theorem pyDiv_ok (a b : ℚ) (h : b ≠ 0) : pyDiv a b = .ok (a / b) := if_neg h
theorem pyDiv_err (a : ℚ) : pyDiv a 0 = .error .zeroDivision := if_pos rfl
theorem npZeros_ok (n : ℤ) (h : 0 ≤ n) : npZeros n = .ok () := if_neg (by omega)
theorem npZeros_err (n : ℤ) (h : n < 0) : npZeros n = .error .value := if_pos h

variable (env : Env)

theorem floatOf_pos (c : Config) (k : String) (h : 0 < c.getfloat env k) : ∃ q, floatOf env c k = .ok q := by
  unfold Config.getfloat at h
  unfold floatOf
  cases hl : c.values.lookup k with
  | none => rw [hl] at h; simp at h
  | some v =>
    rw [hl] at h
    dsimp only at h ⊢
    cases hv : toFloat? env v with
    | none => rw [hv] at h; simp at h
    | some q => exact ⟨q, rfl⟩

/-! ### 2d -/

/-- `time-step` is written as a number. -/
def NumericTimeStep (c : Config) : Prop := ∃ v q, c.values.lookup "time-step" = some v ∧ toFloat? env v = some q

theorem floatOf_time (c : Config) (h : NumericTimeStep env c) : ∃ q, floatOf env c "time-step" = .ok q := by
  obtain ⟨v, q, h1, h2⟩ := h
  exact ⟨q, by unfold floatOf; rw [h1]; dsimp only; rw [h2]⟩

theorem floatOf_time_err (c : Config) (h : ¬ NumericTimeStep env c) : floatOf env c "time-step" = .error .value := by
  unfold floatOf
  cases hl : c.values.lookup "time-step" with
  | none => rfl
  | some v =>
    dsimp only
    cases hv : toFloat? env v with
    | none => rfl
    | some q => exact absurd ⟨v, q, hl, hv⟩ h

theorem cells_eq (c : Config) (w : Window env c) : pyInt (c.getfloat env "window-width" / c.getfloat env "transverse-step") = cells env c ∧ 0 ≤ cells env c := by
  have h0 : 0 ≤ c.getfloat env "window-width" / c.getfloat env "transverse-step" := div_nonneg w.width.le w.step.le
  refine ⟨pyInt_of_nonneg h0, Int.floor_nonneg.mpr h0⟩

theorem cellVolume_cases (ppc n : ℤ) :
    (ppc = 0 → cellVolume ppc n = .error .zeroDivision) ∧ (ppc ≠ 0 → n < 2 → cellVolume ppc n = .error .index) ∧ (ppc ≠ 0 → 2 ≤ n → cellVolume ppc n = .ok ()) := by
  unfold cellVolume
  refine ⟨fun h => ?_, fun h hn => ?_, fun h hn => ?_⟩
  · rw [h, Int.cast_zero, pyDiv_err]; rfl
  · rw [pyDiv_ok _ _ (by exact_mod_cast h)]
    by_cases h1 : 0 < n
    · rw [pyIndex_ok n 0 (by omega), pyIndex_err n 1 (by omega)]; rfl
    · rw [pyIndex_err n 0 (by omega)]; rfl
  · rw [pyDiv_ok _ _ (by exact_mod_cast h), pyIndex_ok n 0 (by omega), pyIndex_ok n 1 (by omega), pyIndex_ok n (-1) (by omega)]; rfl

theorem rhoj_cases (c : Config) (w : Window env c) :
    (c.getint env "plasma-particles-per-cell" = 0 → rhojComputer2 env c = .error .zeroDivision) ∧
    (c.getint env "plasma-particles-per-cell" ≠ 0 → cells env c < 1 → rhojComputer2 env c = .error .index) ∧
    (c.getint env "plasma-particles-per-cell" ≠ 0 → 1 ≤ cells env c → rhojComputer2 env c = .ok ()) := by
  obtain ⟨e, _⟩ := cells_eq env c w
  have hd : rhojComputer2 env c = cellVolume (c.getint env "plasma-particles-per-cell") (cells env c + 1) := by
    unfold rhojComputer2
    rw [pyDiv_ok _ _ w.step.ne', ← e]; rfl
  obtain ⟨a, b, d⟩ := cellVolume_cases (c.getint env "plasma-particles-per-cell") (cells env c + 1)
  rw [hd]
  exact ⟨a, fun h1 h2 => b h1 (by omega), fun h1 h2 => d h1 (by omega)⟩

theorem construct2_cases (c : Config) (w : Window env c) :
    (c.getint env "plasma-particles-per-cell" = 0 → construct2 env c = .error .zeroDivision) ∧
    (c.getint env "plasma-particles-per-cell" ≠ 0 → cells env c < 1 → construct2 env c = .error .index) ∧
    (c.getint env "plasma-particles-per-cell" ≠ 0 → 1 ≤ cells env c → ¬ NumericTimeStep env c → construct2 env c = .error .value) ∧
    (c.getint env "plasma-particles-per-cell" ≠ 0 → 1 ≤ cells env c → NumericTimeStep env c → construct2 env c = .ok (pyInt (c.getfloat env "window-length" / c.getfloat env "xi-step"))) := by
  obtain ⟨r1, r2, r3⟩ := rhoj_cases env c w
  have hd : construct2 env c = (do rhojComputer2 env c; beamCalculator2 env c; return pyInt (c.getfloat env "window-length" / c.getfloat env "xi-step")) := by
    unfold construct2
    rw [pyDiv_ok _ _ w.dxi.ne', pyDiv_ok _ _ w.step.ne']
    split_ifs <;> rfl
  have hb : (¬ NumericTimeStep env c → beamCalculator2 env c = .error .value) ∧ (NumericTimeStep env c → beamCalculator2 env c = .ok ()) := by
    obtain ⟨q1, h1⟩ := floatOf_pos env c _ w.step
    obtain ⟨q2, h2⟩ := floatOf_pos env c _ w.dxi
    obtain ⟨q3, h3⟩ := floatOf_pos env c _ w.width
    unfold beamCalculator2 beamPusher2
    rw [pyDiv_ok _ _ w.step.ne', h1, h2, h3]
    refine ⟨fun h => by rw [floatOf_time_err env c h]; rfl, fun h => ?_⟩
    obtain ⟨q, hq⟩ := floatOf_time env c h
    rw [hq]; rfl
  rw [hd]
  refine ⟨fun h => by rw [r1 h]; rfl, fun h h' => by rw [r2 h h']; rfl, fun h h' hn => by rw [r3 h h', hb.1 hn]; rfl, fun h h' hn => by rw [r3 h h', hb.2 hn]; rfl⟩

theorem sortsOf_cases (s : String) : (s = "background" ∨ s = "mobile" → ∃ l, sortsOf s = some l) ∧ (¬ (s = "background" ∨ s = "mobile") → sortsOf s = none) := by
  unfold sortsOf
  constructor
  · rintro (h | h) <;> subst h
    · exact ⟨_, rfl⟩
    · exact ⟨_, rfl⟩
  · intro h
    push Not at h
    rw [if_neg h.1, if_neg h.2]

theorem initPlasma2_cases (m : Machine) (t : ℕ) (c : Config) (w : Window env c) (h0 : c.getint env "plasma-particles-per-cell" ≠ 0) (h1 : 1 ≤ cells env c) :
    (cells env c * c.getint env "plasma-particles-per-cell" < 2 → initPlasma2 env m t c = .error .index) ∧
    (2 ≤ cells env c * c.getint env "plasma-particles-per-cell" →
      (∀ e, m.zshape t = .error e → initPlasma2 env m t c = .error e) ∧
      (m.zshape t = .ok () →
        (puType env c = "gpu" → initPlasma2 env m t c = .error .type) ∧
        (puType env c ≠ "gpu" →
          (∀ e, m.rshape t = .error e → initPlasma2 env m t c = .error e) ∧
          (m.rshape t = .ok () →
            (¬ (c.get env "ion-model" = "background" ∨ c.get env "ion-model" = "mobile") → initPlasma2 env m t c = .error .unboundLocal) ∧
            ((c.get env "ion-model" = "background" ∨ c.get env "ion-model" = "mobile") → ∃ l, initPlasma2 env m t c = .ok l))))) := by
  obtain ⟨e, _⟩ := cells_eq env c w
  have hn0 : cells env c * c.getint env "plasma-particles-per-cell" ≠ 0 := mul_ne_zero (by omega) h0
  unfold initPlasma2
  rw [pyDiv_ok _ _ w.step.ne']
  simp only [bind, Except.bind]
  rw [e, pyDiv_ok _ _ (by exact_mod_cast hn0)]
  simp only
  refine ⟨fun h => by rw [pyIndex_err _ 1 (by omega)], fun h => ?_⟩
  rw [pyIndex_ok _ 1 (by omega), pyIndex_ok _ 0 (by omega)]
  simp only
  refine ⟨fun e he => by rw [he], fun hz => ?_⟩
  rw [hz]
  simp only
  refine ⟨fun hg => by rw [if_pos hg], fun hg => ?_⟩
  rw [if_neg hg]
  simp only [pure, Except.pure]
  refine ⟨fun e he => by rw [he], fun hr => ?_⟩
  rw [hr, npZeros_ok _ (by omega)]
  simp only
  refine ⟨fun hi => ?_, fun hi => ?_⟩
  · rw [(sortsOf_cases _).2 hi, if_neg (fun hb => hi (Or.inl hb))]
  · obtain ⟨l, hl⟩ := (sortsOf_cases _).1 hi
    rw [hl]
    by_cases hb : c.get env "ion-model" = "background"
    · rw [if_pos hb, (rhoj_cases env c w).2.2 h0 h1]; exact ⟨l, rfl⟩
    · rw [if_neg hb]; exact ⟨l, rfl⟩

theorem layer2_cases (c : Config) (w : Window env c) (i : ℕ) :
    (c.getint env "substepping-depth" < -1 → layer2 env c i = .error .value) ∧
    (-1 ≤ c.getint env "substepping-depth" → c.getfloat env "trapped-path-limit" ≠ 0 → layer2 env c i = .error .attribute) ∧
    (c.getint env "substepping-depth" = -1 → c.getfloat env "trapped-path-limit" = 0 → layer2 env c i = .error .index) ∧
    (0 ≤ c.getint env "substepping-depth" → c.getfloat env "trapped-path-limit" = 0 → layer2 env c i = .ok ()) := by
  have ha : pyAssert (((i : ℚ) + 1) * -(c.getfloat env "xi-step") < (i : ℚ) * -(c.getfloat env "xi-step")) = .ok () := by
    unfold pyAssert; rw [if_pos (by nlinarith [w.dxi])]
  unfold layer2
  rw [ha]
  simp only [bind, Except.bind, pure, Except.pure]
  refine ⟨fun h => by rw [npZeros_err _ (by omega)], fun h hl => by rw [npZeros_ok _ (by omega)]; simp only; rw [if_pos hl],
    fun h hl => by rw [npZeros_ok _ (by omega), if_neg (by simpa using hl)]; simp only; rw [pyIndex_err _ 0 (by omega)],
    fun h hl => by rw [npZeros_ok _ (by omega), if_neg (by simpa using hl)]; simp only; rw [pyIndex_ok _ 0 (by omega)]⟩

/-- The configuration a dictionary of the user stands for before the 3d adjustment. -/
abbrev cfgOf (defaults : List (String × PyVal)) (user : Table) : Config := Config.init env defaults true (some user)

theorem pull2_cases (m : Machine) (defaults : List (String × PyVal)) (user : Table) (hg : ((cfgOf env defaults user).get env "geometry").toLower = "2d") :
    (puType env (cfgOf env defaults user) = "gpu" ∧ m.cupy = false → pull env m defaults user = .error .import) ∧
    ((puType env (cfgOf env defaults user) = "gpu" → m.cupy = true) →
      (∀ e, construct2 env (cfgOf env defaults user) = .error e → pull env m defaults user = .error e) ∧
      (∀ k, construct2 env (cfgOf env defaults user) = .ok k → pull env m defaults user = .ok ⟨cfgOf env defaults user, false, k⟩)) := by
  unfold pull readConfig
  constructor
  · intro h
    rw [if_pos h]; rfl
  · intro h
    rw [if_neg (by rintro ⟨a, b⟩; rw [h a] at b; exact absurd b (by decide))]
    simp only [bind, Except.bind]
    rw [if_neg (by rw [hg]; decide), if_pos hg]
    exact ⟨fun e he => by rw [he], fun k hk => by rw [hk]; rfl⟩

theorem run_pull_error (m : Machine) (defaults : List (String × PyVal)) (user : Table) (n : Option ℤ) (e : PyErr) (h : pull env m defaults user = .error e) :
    run env m defaults user n = .error (.constructor, e) := by
  unfold run; rw [h]; rfl

theorem run_pull_ok (m : Machine) (defaults : List (String × PyVal)) (user : Table) (n : ℤ) (b : Built) (h : pull env m defaults user = .ok b) :
    run env m defaults user (some n) = (match makeBeam env m b with
      | .error e => .error (.call, e)
      | .ok _ => forFrom (timeStep env m b) 0 (if b.cfg.getbool env "rigid-beam" = true then 1 else n).toNat) := by
  unfold run wanted; rw [h]
  simp only [tag, bind, Except.bind]
  split_ifs with hr <;> (cases hb : makeBeam env m b <;> rfl)

/-- The 2d configuration is accepted by the constructor. -/
theorem pull2_ok_iff (m : Machine) (defaults : List (String × PyVal)) (user : Table) (hg : ((cfgOf env defaults user).get env "geometry").toLower = "2d") (w : Window env (cfgOf env defaults user)) :
    (Built2 env m (cfgOf env defaults user) → pull env m defaults user = .ok ⟨cfgOf env defaults user, false, pyInt ((cfgOf env defaults user).getfloat env "window-length" / (cfgOf env defaults user).getfloat env "xi-step")⟩) ∧
    (¬ Built2 env m (cfgOf env defaults user) → ∃ e, pull env m defaults user = .error e) := by
  obtain ⟨p1, p2⟩ := pull2_cases env m defaults user hg
  obtain ⟨c1, c2, c3, c4⟩ := construct2_cases env (cfgOf env defaults user) w
  constructor
  · intro hb
    exact (p2 hb.gpu).2 _ (c4 hb.ppc hb.oneCell hb.timeStep)
  · intro hb
    by_cases h1 : puType env (cfgOf env defaults user) = "gpu" ∧ m.cupy = false
    · exact ⟨_, p1 h1⟩
    have h1' : puType env (cfgOf env defaults user) = "gpu" → m.cupy = true := by
      intro h; by_contra h2; exact h1 ⟨h, by simpa using h2⟩
    by_cases h2 : (cfgOf env defaults user).getint env "plasma-particles-per-cell" = 0
    · exact ⟨_, (p2 h1').1 _ (c1 h2)⟩
    by_cases h3 : cells env (cfgOf env defaults user) < 1
    · exact ⟨_, (p2 h1').1 _ (c2 h2 h3)⟩
    by_cases h4 : NumericTimeStep env (cfgOf env defaults user)
    · exact absurd ⟨h1', h2, by omega, h4⟩ hb
    · exact ⟨_, (p2 h1').1 _ (c3 h2 (by omega) h4)⟩

theorem layers_nonneg (c : Config) (w : Window env c) : 0 < (pyInt (c.getfloat env "window-length" / c.getfloat env "xi-step") + 1).toNat ∧ 0 < (pyRound (c.getfloat env "window-length" / c.getfloat env "xi-step") + 1).toNat := by
  have h := div_nonneg w.length w.dxi.le
  have := pyInt_nonneg h
  have := pyRound_nonneg h
  omega

/-- One time step in 2d: what it needs. -/
theorem timeStep2_cases (m : Machine) (c : Config) (w : Window env c) (h0 : c.getint env "plasma-particles-per-cell" ≠ 0) (h1 : 1 ≤ cells env c) (t : ℕ) :
    (timeStep env m ⟨c, false, pyInt (c.getfloat env "window-length" / c.getfloat env "xi-step")⟩ t = .ok () ↔ Runs2 env c ∧ m.zshape t = .ok () ∧ m.rshape t = .ok ()) ∧
    (∀ l, initPlasma2 env m t c = .ok l → ∀ e, layer2 env c 0 = .error e → timeStep env m ⟨c, false, pyInt (c.getfloat env "window-length" / c.getfloat env "xi-step")⟩ t = .error (.layer t 0, e)) ∧
    (∀ e, initPlasma2 env m t c = .error e → timeStep env m ⟨c, false, pyInt (c.getfloat env "window-length" / c.getfloat env "xi-step")⟩ t = .error (.plasma t, e)) := by
  obtain ⟨i1, i2⟩ := initPlasma2_cases env m t c w h0 h1
  have hl := (layers_nonneg env c w).1
  have second : ∀ l, initPlasma2 env m t c = .ok l → ∀ e, layer2 env c 0 = .error e → timeStep env m ⟨c, false, pyInt (c.getfloat env "window-length" / c.getfloat env "xi-step")⟩ t = .error (.layer t 0, e) := by
    intro l hi e he
    unfold timeStep
    simp only [Bool.false_eq_true, if_false, hi]
    exact forFrom_first _ _ _ hl _ (by simp only [he, tag])
  have third : ∀ e, initPlasma2 env m t c = .error e → timeStep env m ⟨c, false, pyInt (c.getfloat env "window-length" / c.getfloat env "xi-step")⟩ t = .error (.plasma t, e) := by
    intro e he
    unfold timeStep
    simp only [Bool.false_eq_true, if_false, he]
  refine ⟨⟨fun h => ?_, fun h => ?_⟩, second, third⟩
  · by_cases a1 : cells env c * c.getint env "plasma-particles-per-cell" < 2
    · rw [third _ (i1 a1)] at h; cases h
    obtain ⟨i3, i4⟩ := i2 (by omega)
    cases a2 : m.zshape t with
    | error e => rw [third _ (i3 e a2)] at h; cases h
    | ok u =>
    obtain ⟨i5, i6⟩ := i4 a2
    by_cases a3 : puType env c = "gpu"
    · rw [third _ (i5 a3)] at h; cases h
    obtain ⟨i7, i8⟩ := i6 a3
    cases a4 : m.rshape t with
    | error e => rw [third _ (i7 e a4)] at h; cases h
    | ok u' =>
    obtain ⟨i9, i10⟩ := i8 a4
    by_cases a5 : c.get env "ion-model" = "background" ∨ c.get env "ion-model" = "mobile"
    · obtain ⟨l, hi⟩ := i10 a5
      obtain ⟨l1, l2, l3, l4⟩ := layer2_cases env c w 0
      by_cases a6 : c.getint env "substepping-depth" < -1
      · rw [second l hi _ (l1 a6)] at h; cases h
      by_cases a7 : c.getfloat env "trapped-path-limit" = 0
      · by_cases a8 : c.getint env "substepping-depth" = -1
        · rw [second l hi _ (l3 a8 a7)] at h; cases h
        refine ⟨⟨?_, by omega, a3, a5, a7, by omega⟩, rfl, rfl⟩
        by_contra hp
        have : cells env c * c.getint env "plasma-particles-per-cell" ≤ 0 := by nlinarith
        omega
      · rw [second l hi _ (l2 (by omega) a7)] at h; cases h
    · rw [third _ (i9 a5)] at h; cases h
  · obtain ⟨r, hz, hr⟩ := h
    obtain ⟨l, hi⟩ := ((((i2 r.twoParticles).2 hz).2 r.cpu).2 hr).2 r.ion
    unfold timeStep
    simp only [Bool.false_eq_true, if_false, hi]
    rw [forFrom_ok]
    intro k _
    rw [(layer2_cases env c w _).2.2.2 r.depth r.noLimit]; rfl

/-- C63: with an ordinary window, a 2d run of `n` steps finishes exactly if the constructor's four requirements hold, the beam is not rigid and could be created, and, unless no step is asked for, the six requirements of the plasma hold
and both density profiles could be evaluated for each time step. -/
theorem run2_ok_iff (m : Machine) (defaults : List (String × PyVal)) (user : Table) (n : ℕ) (hg : ((cfgOf env defaults user).get env "geometry").toLower = "2d") (w : Window env (cfgOf env defaults user)) :
    run env m defaults user (some n) = .ok () ↔ Built2 env m (cfgOf env defaults user) ∧ (cfgOf env defaults user).getbool env "rigid-beam" = false ∧ m.beam = .ok () ∧
      (0 < n → Runs2 env (cfgOf env defaults user)) ∧ ∀ t, t < n → m.zshape t = .ok () ∧ m.rshape t = .ok () := by
  obtain ⟨p1, p2⟩ := pull2_ok_iff env m defaults user hg w
  by_cases hb : Built2 env m (cfgOf env defaults user)
  · rw [run_pull_ok env m defaults user n _ (p1 hb)]
    unfold makeBeam
    cases hr : (cfgOf env defaults user).getbool env "rigid-beam" with
    | true => simp
    | false =>
      simp only [Bool.false_eq_true, if_false, true_and, Int.toNat_natCast]
      cases hm : m.beam with
      | error e => simp
      | ok u =>
        simp only [forFrom_ok, Nat.zero_add, true_and, hb]
        constructor
        · intro h
          refine ⟨fun hn => ((timeStep2_cases env m _ w hb.ppc hb.oneCell 0).1.mp (h 0 hn)).1, fun t ht => ((timeStep2_cases env m _ w hb.ppc hb.oneCell t).1.mp (h t ht)).2⟩
        · rintro ⟨h1, h2⟩ t ht
          exact (timeStep2_cases env m _ w hb.ppc hb.oneCell t).1.mpr ⟨h1 (by omega), (h2 t ht).1, (h2 t ht).2⟩
  · obtain ⟨e, he⟩ := p2 hb
    rw [run_pull_error env m defaults user _ e he]
    simp [hb]

/-- C63: what the constructor says to a 2d configuration it does not accept. -/
theorem constructor2_errors (m : Machine) (defaults : List (String × PyVal)) (user : Table) (n : Option ℤ) (hg : ((cfgOf env defaults user).get env "geometry").toLower = "2d") (w : Window env (cfgOf env defaults user)) :
    (puType env (cfgOf env defaults user) = "gpu" → m.cupy = false → run env m defaults user n = .error (.constructor, .import)) ∧
    ((puType env (cfgOf env defaults user) = "gpu" → m.cupy = true) →
      ((cfgOf env defaults user).getint env "plasma-particles-per-cell" = 0 → run env m defaults user n = .error (.constructor, .zeroDivision)) ∧
      ((cfgOf env defaults user).getint env "plasma-particles-per-cell" ≠ 0 →
        ((cfgOf env defaults user).getfloat env "window-width" < (cfgOf env defaults user).getfloat env "transverse-step" → run env m defaults user n = .error (.constructor, .index)) ∧
        ((cfgOf env defaults user).getfloat env "transverse-step" ≤ (cfgOf env defaults user).getfloat env "window-width" → ¬ NumericTimeStep env (cfgOf env defaults user) → run env m defaults user n = .error (.constructor, .value)))) := by
  obtain ⟨p1, p2⟩ := pull2_cases env m defaults user hg
  obtain ⟨c1, c2, c3, c4⟩ := construct2_cases env (cfgOf env defaults user) w
  have hc : ∀ x : ℚ, x = (cfgOf env defaults user).getfloat env "window-width" / (cfgOf env defaults user).getfloat env "transverse-step" → (1 ≤ cells env (cfgOf env defaults user) ↔ (1 : ℚ) ≤ x) := by
    intro x hx
    rw [hx]
    unfold cells
    rw [Int.le_floor]; norm_num
  have hc1 : 1 ≤ cells env (cfgOf env defaults user) ↔ (cfgOf env defaults user).getfloat env "transverse-step" ≤ (cfgOf env defaults user).getfloat env "window-width" := by
    rw [hc _ rfl, le_div_iff₀ w.step, one_mul]
  refine ⟨fun h1 h2 => run_pull_error env m defaults user n _ (p1 ⟨h1, h2⟩), fun hgpu => ⟨fun h => run_pull_error env m defaults user n _ ((p2 hgpu).1 _ (c1 h)), fun h => ⟨fun h' => ?_, fun h' ht => ?_⟩⟩⟩
  · exact run_pull_error env m defaults user n _ ((p2 hgpu).1 _ (c2 h (by by_contra h2; exact absurd (hc1.mp (by omega)) (by linarith))))
  · exact run_pull_error env m defaults user n _ ((p2 hgpu).1 _ (c3 h (hc1.mpr h') ht))

/-- C63: how a 2d run that the constructor accepted fails. Each line assumes that the requirements above it hold. -/
theorem run2_errors (m : Machine) (defaults : List (String × PyVal)) (user : Table) (n : ℕ) (hn : 0 < n) (hg : ((cfgOf env defaults user).get env "geometry").toLower = "2d") (w : Window env (cfgOf env defaults user))
    (hb : Built2 env m (cfgOf env defaults user)) :
    ((cfgOf env defaults user).getbool env "rigid-beam" = true → run env m defaults user (some n) = .error (.call, .attribute)) ∧
    ((cfgOf env defaults user).getbool env "rigid-beam" = false →
      (∀ e, m.beam = .error e → run env m defaults user (some n) = .error (.call, e)) ∧
      (m.beam = .ok () →
        (cells env (cfgOf env defaults user) * (cfgOf env defaults user).getint env "plasma-particles-per-cell" < 2 → run env m defaults user (some n) = .error (.plasma 0, .index)) ∧
        (2 ≤ cells env (cfgOf env defaults user) * (cfgOf env defaults user).getint env "plasma-particles-per-cell" → m.zshape 0 = .ok () →
          (puType env (cfgOf env defaults user) = "gpu" → run env m defaults user (some n) = .error (.plasma 0, .type)) ∧
          (puType env (cfgOf env defaults user) ≠ "gpu" → m.rshape 0 = .ok () →
            (¬ ((cfgOf env defaults user).get env "ion-model" = "background" ∨ (cfgOf env defaults user).get env "ion-model" = "mobile") → run env m defaults user (some n) = .error (.plasma 0, .unboundLocal)) ∧
            (((cfgOf env defaults user).get env "ion-model" = "background" ∨ (cfgOf env defaults user).get env "ion-model" = "mobile") →
              ((cfgOf env defaults user).getint env "substepping-depth" < -1 → run env m defaults user (some n) = .error (.layer 0 0, .value)) ∧
              (-1 ≤ (cfgOf env defaults user).getint env "substepping-depth" → (cfgOf env defaults user).getfloat env "trapped-path-limit" ≠ 0 → run env m defaults user (some n) = .error (.layer 0 0, .attribute)) ∧
              ((cfgOf env defaults user).getint env "substepping-depth" = -1 → (cfgOf env defaults user).getfloat env "trapped-path-limit" = 0 → run env m defaults user (some n) = .error (.layer 0 0, .index))))))) := by
  rw [run_pull_ok env m defaults user n _ ((pull2_ok_iff env m defaults user hg w).1 hb)]
  unfold makeBeam
  refine ⟨fun hr => by simp [hr], fun hr => ?_⟩
  simp only [hr, Bool.false_eq_true, if_false, Int.toNat_natCast]
  refine ⟨fun e he => by rw [he], fun hm => ?_⟩
  rw [hm]
  simp only
  obtain ⟨_, s2, s3⟩ := timeStep2_cases env m _ w hb.ppc hb.oneCell 0
  obtain ⟨i1, i2⟩ := initPlasma2_cases env m 0 _ w hb.ppc hb.oneCell
  obtain ⟨l1, l2, l3, _⟩ := layer2_cases env _ w 0
  refine ⟨fun h => forFrom_first _ _ _ hn _ (s3 _ (i1 h)), fun h hz => ?_⟩
  have j := (i2 h).2 hz
  refine ⟨fun hgpu => forFrom_first _ _ _ hn _ (s3 _ (j.1 hgpu)), fun hgpu hr0 => ?_⟩
  have j2 := (j.2 hgpu).2 hr0
  refine ⟨fun hi => forFrom_first _ _ _ hn _ (s3 _ (j2.1 hi)), fun hi => ?_⟩
  obtain ⟨l, hl⟩ := j2.2 hi
  exact ⟨fun h => forFrom_first _ _ _ hn _ (s2 l hl _ (l1 h)), fun h h' => forFrom_first _ _ _ hn _ (s2 l hl _ (l2 h h')), fun h h' => forFrom_first _ _ _ hn _ (s2 l hl _ (l3 h h'))⟩

/-- C63: a 2d run that fails does so before its first layer is finished, unless a density profile cannot be evaluated at a later time step. -/
theorem run2_fails_early (m : Machine) (defaults : List (String × PyVal)) (user : Table) (n : ℕ) (hg : ((cfgOf env defaults user).get env "geometry").toLower = "2d") (w : Window env (cfgOf env defaults user))
    (s : Stage) (e : PyErr) (h : run env m defaults user (some n) = .error (s, e)) :
    s = .constructor ∨ s = .call ∨ s = .plasma 0 ∨ s = .layer 0 0 ∨ ∃ t, 0 < t ∧ t < n ∧ s = .plasma t ∧ (m.zshape t = .error e ∨ m.rshape t = .error e) := by
  obtain ⟨p1, p2⟩ := pull2_ok_iff env m defaults user hg w
  by_cases hb : Built2 env m (cfgOf env defaults user)
  · rw [run_pull_ok env m defaults user n _ (p1 hb)] at h
    cases hm : makeBeam env m ⟨cfgOf env defaults user, false, pyInt ((cfgOf env defaults user).getfloat env "window-length" / (cfgOf env defaults user).getfloat env "xi-step")⟩ with
    | error e' => rw [hm] at h; simp only [Except.error.injEq, Prod.mk.injEq] at h; exact Or.inr (Or.inl h.1.symm)
    | ok u =>
      rw [hm] at h
      have hr : (cfgOf env defaults user).getbool env "rigid-beam" = false := by
        cases hrr : (cfgOf env defaults user).getbool env "rigid-beam" with
        | false => rfl
        | true => unfold makeBeam at hm; simp [hrr] at hm
      simp only [hr, Bool.false_eq_true, if_false, Int.toNat_natCast] at h
      obtain ⟨k, hk, h1, h2⟩ := forFrom_error _ _ _ _ h
      rw [Nat.zero_add] at h1
      obtain ⟨s1, s2, s3⟩ := timeStep2_cases env m _ w hb.ppc hb.oneCell k
      obtain ⟨i1, i2⟩ := initPlasma2_cases env m k _ w hb.ppc hb.oneCell
      by_cases h0 : k = 0
      · subst h0
        cases hi : initPlasma2 env m 0 (cfgOf env defaults user) with
        | error e' =>
          rw [s3 _ hi] at h1
          simp only [Except.error.injEq, Prod.mk.injEq] at h1
          exact Or.inr (Or.inr (Or.inl h1.1.symm))
        | ok l =>
          cases hl : layer2 env (cfgOf env defaults user) 0 with
          | error e' =>
            rw [s2 l hi _ hl] at h1
            simp only [Except.error.injEq, Prod.mk.injEq] at h1
            exact Or.inr (Or.inr (Or.inr (Or.inl h1.1.symm)))
          | ok u' =>
            exfalso
            obtain ⟨l1, l2, l3, l4⟩ := layer2_cases env _ w 0
            have hlay : ∀ i, layer2 env (cfgOf env defaults user) i = .ok () := by
              intro i
              by_cases a6 : (cfgOf env defaults user).getint env "substepping-depth" < -1
              · rw [l1 a6] at hl; cases hl
              by_cases a7 : (cfgOf env defaults user).getfloat env "trapped-path-limit" = 0
              · by_cases a8 : (cfgOf env defaults user).getint env "substepping-depth" = -1
                · rw [l3 a8 a7] at hl; cases hl
                exact (layer2_cases env _ w i).2.2.2 (by omega) a7
              · rw [l2 (by omega) a7] at hl; cases hl
            unfold timeStep at h1
            simp only [Bool.false_eq_true, if_false, hi] at h1
            rw [(forFrom_ok _ _ _).mpr (fun i _ => by rw [hlay]; rfl)] at h1
            cases h1
      · have hprev := (timeStep2_cases env m _ w hb.ppc hb.oneCell 0).1.mp (by have := h2 0 (by omega); rwa [Nat.zero_add] at this)
        obtain ⟨r, _, _⟩ := hprev
        have j := i2 r.twoParticles
        refine Or.inr (Or.inr (Or.inr (Or.inr ⟨k, by omega, hk, ?_⟩)))
        cases hz : m.zshape k with
        | error e' =>
          rw [s3 _ (j.1 _ hz)] at h1
          simp only [Except.error.injEq, Prod.mk.injEq] at h1
          exact ⟨h1.1.symm, Or.inl (by rw [h1.2])⟩
        | ok u' =>
          cases hq : m.rshape k with
          | error e' =>
            rw [s3 _ (((j.2 hz).2 r.cpu).1 _ hq)] at h1
            simp only [Except.error.injEq, Prod.mk.injEq] at h1
            exact ⟨h1.1.symm, Or.inr (by rw [h1.2])⟩
          | ok u'' =>
            rw [s1.mpr ⟨r, hz, hq⟩] at h1; cases h1
  · obtain ⟨e', he⟩ := p2 hb
    rw [run_pull_error env m defaults user _ e' he] at h
    simp only [Except.error.injEq, Prod.mk.injEq] at h
    exact Or.inl h.1.symm

/-! ### 3d -/

theorem adjust3_cases (c : Config) (hs : c.getfloat env "transverse-step" ≠ 0) :
    (c.get env "geometry" ≠ "3d" → adjust3 env c = .ok c) ∧
    (c.get env "geometry" = "3d" →
      (c.adjust3d env = none → adjust3 env c = .error .value) ∧
      (∀ c', c.adjust3d env = some c' →
        (c.getfloat env "plasma-particles-per-cell" < 0 → adjust3 env c = .error .value) ∧
        (0 ≤ c.getfloat env "plasma-particles-per-cell" → adjust3 env c = .ok c'))) := by
  unfold adjust3
  refine ⟨fun h => by rw [if_neg h], fun h => ?_⟩
  rw [if_pos h, pyDiv_ok _ _ hs]
  refine ⟨fun h' => by rw [h']; rfl, fun c' h' => ?_⟩
  rw [h']
  refine ⟨fun hp => ?_, fun hp => ?_⟩
  · simp only [bind, Except.bind]; rw [if_pos hp]
  · simp only [bind, Except.bind]; rw [if_neg (not_lt.mpr hp)]

/-- The adjustment touches none of the options read below except the five it is made for. -/
theorem adjust3_frame (c c' : Config) (h : adjust3 env c = .ok c') (k : String) (hk : k ∉ adjustedKeys) : c'.values.lookup k = c.values.lookup k := by
  unfold adjust3 at h
  by_cases hg : c.get env "geometry" = "3d"
  · rw [if_pos hg] at h
    cases hd : pyDiv (2 * c.getfloat env "window-width") (c.getfloat env "transverse-step") with
    | error e => rw [hd] at h; cases h
    | ok q =>
      rw [hd] at h
      simp only [bind, Except.bind] at h
      cases ha : c.adjust3d env with
      | none => rw [ha] at h; cases h
      | some d =>
        rw [ha] at h
        simp only at h
        by_cases hp : c.getfloat env "plasma-particles-per-cell" < 0
        · rw [if_pos hp] at h; cases h
        · rw [if_neg hp] at h
          cases h
          obtain ⟨_, _, _, _, hk'⟩ := adjust3d_cases env c _ hg ha
          exact hk' k hk
  · rw [if_neg hg] at h; cases h; rfl

theorem getfloat_congr (c c' : Config) (k : String) (h : c'.values.lookup k = c.values.lookup k) : c'.getfloat env k = c.getfloat env k := by unfold Config.getfloat; rw [h]
theorem getint_congr (c c' : Config) (k : String) (h : c'.values.lookup k = c.values.lookup k) : c'.getint env k = c.getint env k := by unfold Config.getint; rw [h]
theorem get_congr (c c' : Config) (k : String) (h : c'.values.lookup k = c.values.lookup k) : c'.get env k = c.get env k := by unfold Config.get; rw [h]
theorem getbool_congr (c c' : Config) (k : String) (h : c'.values.lookup k = c.values.lookup k) : c'.getbool env k = c.getbool env k := by unfold Config.getbool; rw [get_congr env c c' k h]

theorem pull3_cases (m : Machine) (defaults : List (String × PyVal)) (user : Table) (hg : ((cfgOf env defaults user).get env "geometry").toLower = "3d") (hx : (cfgOf env defaults user).getfloat env "xi-step" ≠ 0) :
    (puType env (cfgOf env defaults user) = "gpu" ∧ m.cupy = false → pull env m defaults user = .error .import) ∧
    ((puType env (cfgOf env defaults user) = "gpu" → m.cupy = true) →
      (∀ e, adjust3 env (cfgOf env defaults user) = .error e → pull env m defaults user = .error e) ∧
      (∀ c', adjust3 env (cfgOf env defaults user) = .ok c' →
        (puType env (cfgOf env defaults user) ≠ "cpu" → puType env (cfgOf env defaults user) ≠ "gpu" → pull env m defaults user = .error .unboundLocal) ∧
        (puType env (cfgOf env defaults user) = "cpu" ∨ puType env (cfgOf env defaults user) = "gpu" →
          pull env m defaults user = .ok ⟨c', true, pyRound ((cfgOf env defaults user).getfloat env "window-length" / (cfgOf env defaults user).getfloat env "xi-step")⟩))) := by
  unfold pull readConfig
  constructor
  · intro h
    rw [if_pos h]; rfl
  · intro h
    rw [if_neg (by rintro ⟨a, b⟩; rw [h a] at b; exact absurd b (by decide))]
    simp only [bind, Except.bind]
    rw [if_pos hg]
    refine ⟨fun e he => by rw [he], fun c' hc => ?_⟩
    rw [hc]
    have fr := adjust3_frame env _ c' hc
    have e1 : puType env c' = puType env (cfgOf env defaults user) := by
      unfold puType; rw [get_congr env _ _ _ (fr "processing-unit-type" (by decide))]
    have e2 := getfloat_congr env _ _ _ (fr "xi-step" (by decide))
    have e3 := getfloat_congr env _ _ _ (fr "window-length" (by decide))
    simp only
    unfold construct3
    rw [e1, e2, e3, pyDiv_ok _ _ hx]
    refine ⟨fun h1 h2 => ?_, fun h1 => ?_⟩
    · rw [if_pos (by rintro (a | a) <;> contradiction)]; rfl
    · rw [if_neg (not_not.mpr h1)]; rfl

theorem initPlasma3_cases (m : Machine) (t : ℕ) (c : Config) :
    (c.getint env "window-width-steps" % 2 ≠ 1 → initPlasma3 env m t c = .error .assertion) ∧
    (c.getint env "window-width-steps" % 2 = 1 →
      (c.getint env "bound-padding-steps" ≤ 2 → initPlasma3 env m t c = .error .exception) ∧
      (3 ≤ c.getint env "bound-padding-steps" →
        (c.getbool env "dual-plasma-approach" = true → initPlasma3 env m t c = .error .name) ∧
        (c.getbool env "dual-plasma-approach" = false →
          (fineness env c = 0 → initPlasma3 env m t c = .error .zeroDivision) ∧
          (fineness env c ≠ 0 →
            (∀ e, m.zshape t = .error e → initPlasma3 env m t c = .error e) ∧
            (m.zshape t = .ok () →
              (∀ e, m.rshape t = .error e → initPlasma3 env m t c = .error e) ∧
              (m.rshape t = .ok () →
                (c.getint env "window-width-steps" < 0 → initPlasma3 env m t c = .error .value) ∧
                (0 ≤ c.getint env "window-width-steps" → initPlasma3 env m t c = .ok (sortsOf (c.get env "ion-model"))))))))) := by
  unfold initPlasma3 pyAssert
  simp only [bind, Except.bind, pure, Except.pure]
  refine ⟨fun h => by rw [if_neg h], fun h => ?_⟩
  rw [if_pos h]
  refine ⟨fun h => by rw [if_pos h], fun h => ?_⟩
  rw [if_neg (by omega)]
  refine ⟨fun h => by rw [if_pos h], fun h => ?_⟩
  rw [if_neg (by rw [h]; decide)]
  simp only
  refine ⟨fun h => by rw [h, pyDiv_err], fun h => ?_⟩
  rw [pyDiv_ok _ _ h]
  simp only
  refine ⟨fun e h => by rw [h], fun h => ?_⟩
  rw [h]
  simp only
  refine ⟨fun e h => by rw [h], fun h => ?_⟩
  rw [h]
  simp only
  exact ⟨fun h => by rw [npZeros_err _ h], fun h => by rw [npZeros_ok _ h]⟩

theorem layer3_cases (m : Machine) (c : Config) (so : Option (List String)) (i : ℕ) :
    (∀ e, c.getbool env "rigid-beam" = true → m.density i = .error e → layer3 env m c so i = .error e) ∧
    ((c.getbool env "rigid-beam" = true → m.density i = .ok ()) →
      (so = none → layer3 env m c so i = .error .attribute) ∧ (∀ l, so = some l → layer3 env m c so i = m.fft (c.getint env "window-width-steps"))) := by
  unfold layer3
  simp only [bind, Except.bind, pure, Except.pure]
  refine ⟨fun e h1 h2 => by rw [if_pos h1, h2], fun h => ?_⟩
  cases hr : c.getbool env "rigid-beam" with
  | true =>
    rw [if_pos rfl, h hr]
    exact ⟨fun h' => by rw [h'], fun l h' => by rw [h']⟩
  | false =>
    rw [if_neg (by decide)]
    exact ⟨fun h' => by rw [h'], fun l h' => by rw [h']⟩

/-- One time step in 3d: what it needs. -/
theorem timeStep3_ok_iff (m : Machine) (c : Config) (last : ℤ) (hl : 0 ≤ last) (t : ℕ) :
    timeStep env m ⟨c, true, last⟩ t = .ok () ↔ Runs3 env c ∧ m.zshape t = .ok () ∧ m.rshape t = .ok () ∧ (c.getbool env "rigid-beam" = true → ∀ i : ℕ, (i : ℤ) ≤ last → m.density i = .ok ()) ∧
      m.fft (c.getint env "window-width-steps") = .ok () := by
  obtain ⟨i1, i2⟩ := initPlasma3_cases env m t c
  have third : ∀ e, initPlasma3 env m t c = .error e → timeStep env m ⟨c, true, last⟩ t = .error (.plasma t, e) := by
    intro e he
    unfold timeStep
    simp only [if_true, he]
  constructor
  · intro h
    by_cases a1 : c.getint env "window-width-steps" % 2 = 1
    swap
    · rw [third _ (i1 a1)] at h; cases h
    have i3 := i2 a1
    by_cases a2 : c.getint env "bound-padding-steps" ≤ 2
    · rw [third _ (i3.1 a2)] at h; cases h
    have i4 := i3.2 (by omega)
    cases a3 : c.getbool env "dual-plasma-approach" with
    | true => rw [third _ (i4.1 a3)] at h; cases h
    | false =>
    have i5 := i4.2 a3
    by_cases a4 : fineness env c = 0
    · rw [third _ (i5.1 a4)] at h; cases h
    have i6 := i5.2 a4
    cases a5 : m.zshape t with
    | error e => rw [third _ (i6.1 e a5)] at h; cases h
    | ok u =>
    have i7 := i6.2 a5
    cases a6 : m.rshape t with
    | error e => rw [third _ (i7.1 e a6)] at h; cases h
    | ok u' =>
    have i8 := i7.2 a6
    by_cases a7 : c.getint env "window-width-steps" < 0
    · rw [third _ (i8.1 a7)] at h; cases h
    have i9 := i8.2 (by omega)
    unfold timeStep at h
    simp only [if_true, i9, forFrom_ok, Nat.zero_add] at h
    have hlay : ∀ i : ℕ, (i : ℤ) ≤ last → layer3 env m c (sortsOf (c.get env "ion-model")) i = .ok () := by
      intro i hi
      have := h i (by omega)
      cases hx : layer3 env m c (sortsOf (c.get env "ion-model")) i with
      | error e => rw [hx] at this; cases this
      | ok u => rfl
    have hden : c.getbool env "rigid-beam" = true → ∀ i : ℕ, (i : ℤ) ≤ last → m.density i = .ok () := by
      intro hr i hi
      cases hd : m.density i with
      | error e => have := hlay i hi; rw [(layer3_cases env m c _ i).1 e hr hd] at this; cases this
      | ok u => rfl
    have h0 := hlay 0 (by simpa using hl)
    have l0 := (layer3_cases env m c (sortsOf (c.get env "ion-model")) 0).2 (fun hr => hden hr 0 (by simpa using hl))
    have hion : c.get env "ion-model" = "background" ∨ c.get env "ion-model" = "mobile" := by
      by_contra hi
      rw [l0.1 ((sortsOf_cases _).2 hi)] at h0; cases h0
    obtain ⟨l, hs⟩ := (sortsOf_cases _).1 hion
    rw [l0.2 l hs] at h0
    exact ⟨⟨a1, by omega, by omega, a3, a4, hion⟩, rfl, rfl, hden, h0⟩
  · rintro ⟨r, hz, hr, hden, hf⟩
    have i9 := (((((((i2 r.odd).2 r.padding).2 r.single).2 r.fine).2 hz).2 hr).2 r.positive)
    unfold timeStep
    simp only [if_true, i9, forFrom_ok, Nat.zero_add]
    intro i hi
    obtain ⟨l, hs⟩ := (sortsOf_cases _).1 r.ion
    rw [((layer3_cases env m c (sortsOf (c.get env "ion-model")) i).2 (fun h => hden h i (by omega))).2 l hs, hf]; rfl

/-- C63: with an ordinary window, a 3d run of `n` steps finishes exactly if cupy is there when asked for, the configuration can be adjusted, the processing unit is known, the beam could be created (or is rigid: then there is one step, whatever
was asked for), and the adjusted configuration satisfies the six requirements of the plasma, the grid size suits the transforms, and profiles and charge distribution can be evaluated. -/
theorem run3_ok_iff (m : Machine) (defaults : List (String × PyVal)) (user : Table) (n : ℕ) (hg : ((cfgOf env defaults user).get env "geometry").toLower = "3d") (w : Window env (cfgOf env defaults user)) :
    run env m defaults user (some n) = .ok () ↔
      (puType env (cfgOf env defaults user) = "gpu" → m.cupy = true) ∧ (puType env (cfgOf env defaults user) = "cpu" ∨ puType env (cfgOf env defaults user) = "gpu") ∧
      ∃ c', adjust3 env (cfgOf env defaults user) = .ok c' ∧
        (((cfgOf env defaults user).getbool env "rigid-beam" = true ∧ Runs3 env c' ∧ m.fft (c'.getint env "window-width-steps") = .ok () ∧ m.zshape 0 = .ok () ∧ m.rshape 0 = .ok () ∧
            ∀ i : ℕ, (i : ℤ) ≤ pyRound ((cfgOf env defaults user).getfloat env "window-length" / (cfgOf env defaults user).getfloat env "xi-step") → m.density i = .ok ()) ∨
          ((cfgOf env defaults user).getbool env "rigid-beam" = false ∧ m.beam = .ok () ∧ (0 < n → Runs3 env c' ∧ m.fft (c'.getint env "window-width-steps") = .ok ()) ∧
            ∀ t, t < n → m.zshape t = .ok () ∧ m.rshape t = .ok ())) := by
  obtain ⟨p1, p2⟩ := pull3_cases env m defaults user hg w.dxi.ne'
  by_cases h1 : puType env (cfgOf env defaults user) = "gpu" ∧ m.cupy = false
  · rw [run_pull_error env m defaults user _ _ (p1 h1)]
    simp [h1.1, h1.2]
  have h1' : puType env (cfgOf env defaults user) = "gpu" → m.cupy = true := by
    intro h; by_contra h2; exact h1 ⟨h, by simpa using h2⟩
  obtain ⟨p3, p4⟩ := p2 h1'
  cases ha : adjust3 env (cfgOf env defaults user) with
  | error e =>
    rw [run_pull_error env m defaults user _ _ (p3 e ha)]
    simp
  | ok c' =>
    obtain ⟨p5, p6⟩ := p4 c' ha
    by_cases h2 : puType env (cfgOf env defaults user) = "cpu" ∨ puType env (cfgOf env defaults user) = "gpu"
    swap
    · have h2' := h2
      push Not at h2'
      rw [run_pull_error env m defaults user _ _ (p5 h2'.1 h2'.2)]
      simp [h2]
    have er : c'.getbool env "rigid-beam" = (cfgOf env defaults user).getbool env "rigid-beam" := getbool_congr env _ _ _ (adjust3_frame env _ c' ha "rigid-beam" (by decide))
    rw [run_pull_ok env m defaults user n _ (p6 h2)]
    have hl := pyRound_nonneg (div_nonneg w.length w.dxi.le)
    have ts := timeStep3_ok_iff env m c' (pyRound ((cfgOf env defaults user).getfloat env "window-length" / (cfgOf env defaults user).getfloat env "xi-step")) hl
    unfold makeBeam
    simp only [Except.ok.injEq, exists_eq_left', h2, true_and]
    rw [← er]
    cases hr : c'.getbool env "rigid-beam" with
    | true =>
      simp only [if_true, true_and, reduceCtorEq, false_and, or_false, forFrom_ok, Nat.zero_add]
      have : (∀ k, k < (1 : ℤ).toNat → timeStep env m ⟨c', true, pyRound ((cfgOf env defaults user).getfloat env "window-length" / (cfgOf env defaults user).getfloat env "xi-step")⟩ k = .ok ()) ↔ timeStep env m ⟨c', true, pyRound ((cfgOf env defaults user).getfloat env "window-length" / (cfgOf env defaults user).getfloat env "xi-step")⟩ 0 = .ok () := by
        constructor
        · intro h; exact h 0 (by decide)
        · intro h k hk
          have : k = 0 := by change k < 1 at hk; omega
          subst this; exact h
      rw [this, ts 0, hr]
      constructor
      · rintro ⟨a, b, d, f, g⟩; exact ⟨h1', a, g, b, d, f rfl⟩
      · rintro ⟨_, a, g, b, d, f⟩; exact ⟨a, b, d, fun _ => f, g⟩
    | false =>
      simp only [Bool.false_eq_true, if_false, reduceCtorEq, false_and, false_or, true_and, Int.toNat_natCast]
      cases hm : m.beam with
      | error e => simp
      | ok u =>
        simp only [forFrom_ok, Nat.zero_add, true_and]
        constructor
        · intro h
          refine ⟨h1', fun hn => ?_, fun t ht => ?_⟩
          · have := (ts 0).mp (h 0 hn); exact ⟨this.1, this.2.2.2.2⟩
          · have := (ts t).mp (h t ht); exact ⟨this.2.1, this.2.2.1⟩
        · rintro ⟨_, h2', h3⟩ t ht
          exact (ts t).mpr ⟨(h2' (by omega)).1, (h3 t ht).1, (h3 t ht).2, by rw [hr]; simp, (h2' (by omega)).2⟩

/-- C63: what the constructor says to a 3d configuration it does not accept (the geometry written `3d`; with capitals nothing is adjusted). -/
theorem constructor3_errors (m : Machine) (defaults : List (String × PyVal)) (user : Table) (n : Option ℤ) (hg : ((cfgOf env defaults user).get env "geometry").toLower = "3d") (w : Window env (cfgOf env defaults user)) :
    (puType env (cfgOf env defaults user) = "gpu" → m.cupy = false → run env m defaults user n = .error (.constructor, .import)) ∧
    ((puType env (cfgOf env defaults user) = "gpu" → m.cupy = true) →
      ((cfgOf env defaults user).get env "geometry" = "3d" → (cfgOf env defaults user).adjust3d env = none → run env m defaults user n = .error (.constructor, .value)) ∧
      ((cfgOf env defaults user).get env "geometry" = "3d" → (cfgOf env defaults user).getfloat env "plasma-particles-per-cell" < 0 → run env m defaults user n = .error (.constructor, .value)) ∧
      (∀ c', adjust3 env (cfgOf env defaults user) = .ok c' → puType env (cfgOf env defaults user) ≠ "cpu" → puType env (cfgOf env defaults user) ≠ "gpu" → run env m defaults user n = .error (.constructor, .unboundLocal))) := by
  obtain ⟨p1, p2⟩ := pull3_cases env m defaults user hg w.dxi.ne'
  refine ⟨fun h1 h2 => run_pull_error env m defaults user n _ (p1 ⟨h1, h2⟩), fun hgpu => ?_⟩
  obtain ⟨p3, p4⟩ := p2 hgpu
  obtain ⟨_, a2⟩ := adjust3_cases env (cfgOf env defaults user) w.step.ne'
  refine ⟨fun h3 h => run_pull_error env m defaults user n _ (p3 _ ((a2 h3).1 h)), fun h3 h => ?_, fun c' hc h1 h2 => run_pull_error env m defaults user n _ ((p4 c' hc).1 h1 h2)⟩
  cases had : (cfgOf env defaults user).adjust3d env with
  | none => exact run_pull_error env m defaults user n _ (p3 _ ((a2 h3).1 had))
  | some c' => exact run_pull_error env m defaults user n _ (p3 _ (((a2 h3).2 c' had).1 h))

/-- C63: how a 3d run that the constructor accepted fails; `c'` is the adjusted configuration. Each line assumes that the requirements above it hold. -/
theorem run3_errors (m : Machine) (defaults : List (String × PyVal)) (user : Table) (n : ℕ) (hn : 0 < n) (hg : ((cfgOf env defaults user).get env "geometry").toLower = "3d") (w : Window env (cfgOf env defaults user))
    (hgpu : puType env (cfgOf env defaults user) = "gpu" → m.cupy = true) (hpu : puType env (cfgOf env defaults user) = "cpu" ∨ puType env (cfgOf env defaults user) = "gpu")
    (c' : Config) (hc : adjust3 env (cfgOf env defaults user) = .ok c') :
    (∀ e, c'.getbool env "rigid-beam" = false → m.beam = .error e → run env m defaults user (some n) = .error (.call, e)) ∧
    ((c'.getbool env "rigid-beam" = false → m.beam = .ok ()) →
      (c'.getint env "window-width-steps" % 2 ≠ 1 → run env m defaults user (some n) = .error (.plasma 0, .assertion)) ∧
      (c'.getint env "window-width-steps" % 2 = 1 →
        (c'.getint env "bound-padding-steps" ≤ 2 → run env m defaults user (some n) = .error (.plasma 0, .exception)) ∧
        (3 ≤ c'.getint env "bound-padding-steps" →
          (c'.getbool env "dual-plasma-approach" = true → run env m defaults user (some n) = .error (.plasma 0, .name)) ∧
          (c'.getbool env "dual-plasma-approach" = false →
            (fineness env c' = 0 → run env m defaults user (some n) = .error (.plasma 0, .zeroDivision)) ∧
            (fineness env c' ≠ 0 → 0 ≤ c'.getint env "window-width-steps" → m.zshape 0 = .ok () → m.rshape 0 = .ok () → (c'.getbool env "rigid-beam" = true → m.density 0 = .ok ()) →
              ¬ (c'.get env "ion-model" = "background" ∨ c'.get env "ion-model" = "mobile") → run env m defaults user (some n) = .error (.layer 0 0, .attribute)))))) := by
  have hp := (((pull3_cases env m defaults user hg w.dxi.ne').2 hgpu).2 c' hc).2 hpu
  rw [run_pull_ok env m defaults user n _ hp]
  have hl := pyRound_nonneg (div_nonneg w.length w.dxi.le)
  generalize pyRound ((cfgOf env defaults user).getfloat env "window-length" / (cfgOf env defaults user).getfloat env "xi-step") = last at hl
  have third : ∀ e, initPlasma3 env m 0 c' = .error e → timeStep env m ⟨c', true, last⟩ 0 = .error (.plasma 0, e) := by
    intro e he
    unfold timeStep
    simp only [if_true, he]
  unfold makeBeam
  refine ⟨fun e hr hb => by simp [hr, hb], fun hb => ?_⟩
  have hrun : ∀ x, timeStep env m ⟨c', true, last⟩ 0 = .error x → (match (if c'.getbool env "rigid-beam" = true then (if (true : Bool) = true then Except.ok () else .error .attribute) else m.beam : Except PyErr Unit) with
      | .error e => Except.error (Stage.call, e)
      | .ok _ => forFrom (timeStep env m ⟨c', true, last⟩) 0 (if c'.getbool env "rigid-beam" = true then 1 else (n : ℤ)).toNat) = .error x := by
    intro x hx
    cases hr : c'.getbool env "rigid-beam" with
    | true => simp only [if_true]; exact forFrom_first _ _ _ (by decide) _ hx
    | false => simp only [Bool.false_eq_true, if_false, hb hr]; exact forFrom_first _ _ _ (by omega) _ hx
  obtain ⟨i1, i2⟩ := initPlasma3_cases env m 0 c'
  refine ⟨fun h => hrun _ (third _ (i1 h)), fun h1 => ⟨fun h => hrun _ (third _ ((i2 h1).1 h)), fun h2 => ⟨fun h => hrun _ (third _ (((i2 h1).2 h2).1 h)), fun h3 => ⟨fun h => hrun _ (third _ ((((i2 h1).2 h2).2 h3).1 h)), fun h4 h5 hz hq hd hi => hrun _ ?_⟩⟩⟩⟩
  have i9 := ((((((i2 h1).2 h2).2 h3).2 h4).2 hz).2 hq).2 h5
  unfold timeStep
  simp only [if_true, i9]
  refine forFrom_first _ _ _ (by omega) _ ?_
  rw [((layer3_cases env m c' _ 0).2 hd).1 ((sortsOf_cases _).2 hi)]; rfl

/-- C63: a 3d run with a beam of particles that fails does so before its first layer is finished, unless a density profile cannot be evaluated at a later time step. -/
theorem run3_fails_early (m : Machine) (defaults : List (String × PyVal)) (user : Table) (n : ℕ) (hg : ((cfgOf env defaults user).get env "geometry").toLower = "3d") (w : Window env (cfgOf env defaults user))
    (hrig : (cfgOf env defaults user).getbool env "rigid-beam" = false) (s : Stage) (e : PyErr) (h : run env m defaults user (some n) = .error (s, e)) :
    s = .constructor ∨ s = .call ∨ s = .plasma 0 ∨ s = .layer 0 0 ∨ ∃ t, 0 < t ∧ t < n ∧ s = .plasma t ∧ (m.zshape t = .error e ∨ m.rshape t = .error e) := by
  cases hp : pull env m defaults user with
  | error e' =>
    rw [run_pull_error env m defaults user _ e' hp] at h
    simp only [Except.error.injEq, Prod.mk.injEq] at h
    exact Or.inl h.1.symm
  | ok b =>
    have hbuilt : ∃ c', adjust3 env (cfgOf env defaults user) = .ok c' ∧ b = ⟨c', true, pyRound ((cfgOf env defaults user).getfloat env "window-length" / (cfgOf env defaults user).getfloat env "xi-step")⟩ := by
      obtain ⟨p1, p2⟩ := pull3_cases env m defaults user hg w.dxi.ne'
      by_cases h1 : puType env (cfgOf env defaults user) = "gpu" ∧ m.cupy = false
      · rw [p1 h1] at hp; cases hp
      have h1' : puType env (cfgOf env defaults user) = "gpu" → m.cupy = true := by
        intro h; by_contra h2; exact h1 ⟨h, by simpa using h2⟩
      obtain ⟨p3, p4⟩ := p2 h1'
      cases ha : adjust3 env (cfgOf env defaults user) with
      | error e' => rw [p3 _ ha] at hp; cases hp
      | ok c' =>
        obtain ⟨p5, p6⟩ := p4 c' ha
        by_cases h2 : puType env (cfgOf env defaults user) = "cpu" ∨ puType env (cfgOf env defaults user) = "gpu"
        · rw [p6 h2] at hp; cases hp; exact ⟨c', rfl, rfl⟩
        · push Not at h2; rw [p5 h2.1 h2.2] at hp; cases hp
    obtain ⟨c', ha, hb⟩ := hbuilt
    rw [run_pull_ok env m defaults user n _ hp, hb] at h
    have er : c'.getbool env "rigid-beam" = false := (getbool_congr env _ _ _ (adjust3_frame env _ c' ha "rigid-beam" (by decide))).trans hrig
    have hl := pyRound_nonneg (div_nonneg w.length w.dxi.le)
    generalize pyRound ((cfgOf env defaults user).getfloat env "window-length" / (cfgOf env defaults user).getfloat env "xi-step") = last at hl h
    unfold makeBeam at h
    simp only [er, Bool.false_eq_true, if_false, Int.toNat_natCast] at h
    cases hm : m.beam with
    | error e' => rw [hm] at h; simp only [Except.error.injEq, Prod.mk.injEq] at h; exact Or.inr (Or.inl h.1.symm)
    | ok u =>
      rw [hm] at h
      obtain ⟨k, hk, h1, h2⟩ := forFrom_error _ _ _ _ h
      rw [Nat.zero_add] at h1
      cases hi : initPlasma3 env m k c' with
      | error e' =>
        have h1' : (Stage.plasma k, e') = (s, e) := by
          unfold timeStep at h1
          simp only [if_true, hi, Except.error.injEq] at h1
          exact h1
        simp only [Prod.mk.injEq] at h1'
        by_cases h0 : k = 0
        · subst h0; exact Or.inr (Or.inr (Or.inl h1'.1.symm))
        · refine Or.inr (Or.inr (Or.inr (Or.inr ⟨k, by omega, hk, h1'.1.symm, ?_⟩)))
          have hprev := (timeStep3_ok_iff env m c' last hl 0).mp (by have := h2 0 (by omega); rwa [Nat.zero_add] at this)
          obtain ⟨r, _⟩ := hprev
          have j := ((((initPlasma3_cases env m k c').2 r.odd).2 r.padding).2 r.single).2 r.fine
          cases hz : m.zshape k with
          | error e2 => left; rw [j.1 _ hz] at hi; cases hi; rw [h1'.2]
          | ok u2 =>
            cases hq : m.rshape k with
            | error e2 => right; rw [(j.2 hz).1 _ hq] at hi; cases hi; rw [h1'.2]
            | ok u3 => rw [((j.2 hz).2 hq).2 r.positive] at hi; cases hi
      | ok so =>
        unfold timeStep at h1
        simp only [if_true, hi] at h1
        have hlay : ∀ i j : ℕ, layer3 env m c' so i = layer3 env m c' so j := by
          intro i j
          unfold layer3
          rw [if_neg (by rw [er]; decide), if_neg (by rw [er]; decide)]
        cases hx : layer3 env m c' so 0 with
        | ok u2 =>
          rw [(forFrom_ok _ _ _).mpr (fun i _ => by rw [hlay _ 0, hx]; rfl)] at h1
          cases h1
        | error e2 =>
          have h3 : s = .layer k 0 := by
            rw [forFrom_first _ _ _ (by omega) (Stage.layer k 0, e2) (by simp only [hx, tag])] at h1
            simp only [Except.error.injEq, Prod.mk.injEq] at h1
            exact h1.1.symm
          by_cases h0 : k = 0
          · subst h0; exact Or.inr (Or.inr (Or.inr (Or.inl h3)))
          · exfalso
            have hprev := (timeStep3_ok_iff env m c' last hl 0).mp (by have := h2 0 (by omega); rwa [Nat.zero_add] at this)
            obtain ⟨r, hz, hq, _, hf⟩ := hprev
            have hso : so = sortsOf (c'.get env "ion-model") := by
              have j := ((((initPlasma3_cases env m k c').2 r.odd).2 r.padding).2 r.single).2 r.fine
              cases hz : m.zshape k with
              | error e3 => rw [j.1 _ hz] at hi; cases hi
              | ok u2 =>
                cases hq : m.rshape k with
                | error e3 => rw [(j.2 hz).1 _ hq] at hi; cases hi
                | ok u3 => rw [((j.2 hz).2 hq).2 r.positive] at hi; cases hi; rfl
            obtain ⟨l, hs⟩ := (sortsOf_cases _).1 r.ion
            rw [((layer3_cases env m c' so 0).2 (by rw [er]; simp)).2 l (by rw [hso, hs]), hf] at hx
            cases hx

/-- C63: another geometry than 2d (or circ) and 3d is refused by the constructor. -/
theorem wrong_geometry (m : Machine) (defaults : List (String × PyVal)) (user : Table) (n : Option ℤ)
    (h2 : ((cfgOf env defaults user).get env "geometry").toLower ≠ "2d") (h3 : ((cfgOf env defaults user).get env "geometry").toLower ≠ "3d") (hgpu : puType env (cfgOf env defaults user) = "gpu" → m.cupy = true) :
    run env m defaults user n = .error (.constructor, .exception) := by
  refine run_pull_error env m defaults user n _ ?_
  unfold pull readConfig
  rw [if_neg (by rintro ⟨a, b⟩; rw [hgpu a] at b; exact absurd b (by decide))]
  simp only [bind, Except.bind]
  rw [if_neg h3, if_neg h2]

/-- C63: a transverse step of zero, or one that is no number, is a ZeroDivisionError of the constructor (2d, and 3d written `3d`). -/
theorem zero_step (m : Machine) (defaults : List (String × PyVal)) (user : Table) (n : Option ℤ) (hgpu : puType env (cfgOf env defaults user) = "gpu" → m.cupy = true)
    (hx : (cfgOf env defaults user).getfloat env "xi-step" ≠ 0) (hs : (cfgOf env defaults user).getfloat env "transverse-step" = 0)
    (hg : (cfgOf env defaults user).get env "geometry" = "2d" ∨ (cfgOf env defaults user).get env "geometry" = "3d") :
    run env m defaults user n = .error (.constructor, .zeroDivision) := by
  refine run_pull_error env m defaults user n _ ?_
  unfold pull readConfig
  rw [if_neg (by rintro ⟨a, b⟩; rw [hgpu a] at b; exact absurd b (by decide))]
  simp only [bind, Except.bind]
  rcases hg with hg | hg
  · rw [if_neg (by rw [hg]; decide +kernel), if_pos (by rw [hg]; decide +kernel)]
    unfold construct2 rhojComputer2
    rw [hs, pyDiv_err, pyDiv_ok _ _ hx]
    split_ifs <;> rfl
  · rw [if_pos (by rw [hg]; decide +kernel)]
    unfold adjust3
    rw [if_pos hg, hs, pyDiv_err]; rfl

/-- The square root of a number that is not negative. -/
def SqrtOk : Prop := ∀ x, 0 ≤ x → 0 ≤ env.sqrt x ∧ (env.sqrt x = 0 ↔ x = 0)

theorem adjust3d_fineness (c c' : Config) (hg : c.get env "geometry" = "3d") (h : c.adjust3d env = some c') :
    ∃ d : Config, d.getfloat env "plasma-particles-per-cell" = c.getfloat env "plasma-particles-per-cell" ∧ c'.getfloat env "plasma-fineness" = (d.adjustFineness env).getfloat env "plasma-fineness" := by
  unfold Config.adjust3d at h
  rw [if_pos hg] at h
  dsimp only at h
  cases ha : (c.set env "window-width" (.float (2 * c.getfloat env "window-width"))).adjustWindow env with
  | none => rw [ha] at h; cases h
  | some d =>
    rw [ha] at h
    dsimp only at h
    refine ⟨d, ?_, ?_⟩
    · unfold Config.adjustWindow at ha
      dsimp only at ha
      split at ha
      · cases ha
      · cases ha
        unfold Config.getfloat
        simp [lookup_set]
    · split_ifs at h with hf
      · cases h
        unfold Config.getfloat
        simp [lookup_set]
      · cases h; rfl

/-- With at least a fraction of a particle per cell the adjusted fineness is positive, with none it is zero. -/
theorem fineness_adjusted (hsq : SqrtOk env) (c c' : Config) (hg : c.get env "geometry" = "3d") (h : c.adjust3d env = some c') (hp : 0 ≤ c.getfloat env "plasma-particles-per-cell") :
    fineness env c' ≠ 0 ↔ 0 < c.getfloat env "plasma-particles-per-cell" := by
  obtain ⟨d, hd, hf⟩ := adjust3d_fineness env c c' hg h
  have hs := hsq _ hp
  rw [← hd] at hs
  obtain ⟨_, _, _, hpos⟩ := adjusted_fineness env d hs.1
  constructor
  · intro hne
    rcases hp.lt_or_eq with h1 | h1
    · exact h1
    · exfalso
      apply hne
      have hz : env.sqrt (d.getfloat env "plasma-particles-per-cell") = 0 := hs.2.mpr (by rw [hd, ← h1])
      have : c'.getfloat env "plasma-fineness" = 0 := by
        rw [hf]
        have hr : pyRound (0 : ℚ) = 0 := by simpa using pyRound_intCast (K := ℚ) 0
        unfold Config.adjustFineness
        rw [hz]
        unfold Config.getfloat
        simp [lookup_set, toFloat?, hr]
      unfold fineness
      rw [this, if_neg (by norm_num)]
  · intro hlt
    have hs1 : 0 < env.sqrt (d.getfloat env "plasma-particles-per-cell") := by
      rcases hs.1.lt_or_eq with h1 | h1
      · exact h1
      · exact absurd (hs.2.mp h1.symm) (by rw [hd]; exact hlt.ne')
    have h2 := hpos hs1
    rw [← hf] at h2
    unfold fineness
    split_ifs with h3
    · have : 1 ≤ pyInt (c'.getfloat env "plasma-fineness") := by
        rw [pyInt_of_nonneg h2.le, Int.le_floor]; exact_mod_cast h3.le
      exact_mod_cast (by omega : pyInt (c'.getfloat env "plasma-fineness") ≠ 0)
    · exact h2.ne'

/-- C63: in 3d with the geometry written `3d` the requirements read, in terms of the user's options: at most 18301 cells are asked for (a sufficient condition for a fast grid to exist, C02), more than zero particles per cell, a padding of at least 3,
no dual plasma, a known ion model and processing unit. The oddness of the grid then holds by itself. -/
theorem run3_adjusted (hsq : SqrtOk env) (m : Machine) (defaults : List (String × PyVal)) (user : Table) (n : ℕ) (hn : 0 < n) (hg : (cfgOf env defaults user).get env "geometry" = "3d") (w : Window env (cfgOf env defaults user))
    (hcells : requestedCells env (cfgOf env defaults user) ≤ 18301) (hrig : (cfgOf env defaults user).getbool env "rigid-beam" = false) (hbeam : m.beam = .ok ())
    (hprof : ∀ t, t < n → m.zshape t = .ok () ∧ m.rshape t = .ok ()) (hfft : ∀ N, m.fft N = .ok ()) :
    run env m defaults user (some n) = .ok () ↔
      (puType env (cfgOf env defaults user) = "cpu" ∨ puType env (cfgOf env defaults user) = "gpu" ∧ m.cupy = true) ∧ 0 < (cfgOf env defaults user).getfloat env "plasma-particles-per-cell" ∧
      3 ≤ (cfgOf env defaults user).getint env "bound-padding-steps" ∧ (cfgOf env defaults user).getbool env "dual-plasma-approach" = false ∧
      ((cfgOf env defaults user).get env "ion-model" = "background" ∨ (cfgOf env defaults user).get env "ion-model" = "mobile") := by
  have hreq : 0 ≤ requestedCells env (cfgOf env defaults user) := pyInt_nonneg (div_nonneg (by linarith [w.width]) w.step.le)
  obtain ⟨c', hc⟩ := adjust3d_succeeds env _ hreq hcells
  obtain ⟨_, a2⟩ := adjust3_cases env (cfgOf env defaults user) w.step.ne'
  obtain ⟨a3, a4⟩ := (a2 hg).2 c' hc
  rw [run3_ok_iff env m defaults user n (by rw [hg]; decide +kernel) w]
  by_cases hp : (cfgOf env defaults user).getfloat env "plasma-particles-per-cell" < 0
  · rw [a3 hp]
    constructor
    · rintro ⟨_, _, d, h, _⟩; cases h
    · rintro ⟨_, h, _⟩; linarith
  have ha := a4 (not_lt.mp hp)
  have hfr := adjust3_frame env _ c' ha
  have hfine := fineness_adjusted env hsq _ c' hg hc (not_lt.mp hp)
  obtain ⟨N, hN, _, _, hodd, _⟩ := adjusted_grid env _ c' hg hc
  have hNi : c'.getint env "window-width-steps" = N := by
    unfold Config.getraw at hN
    unfold Config.getint
    cases hl : c'.values.lookup "window-width-steps" with
    | none => rw [hl] at hN; cases hN
    | some v =>
      rw [hl] at hN
      simp only [Option.getD_some] at hN
      subst hN
      simp only [toFloat?]
      exact pyInt_intCast (K := ℚ) N
  rw [ha]
  simp only [Except.ok.injEq, exists_eq_left', hrig, reduceCtorEq, false_and, false_or, true_and, hbeam, hfft, and_true]
  constructor
  · rintro ⟨h1, h2, h3, _⟩
    obtain ⟨r1, r2, r3, r4, r5, r6⟩ := h3 hn
    refine ⟨?_, hfine.mp r5, ?_, ?_, ?_⟩
    · rcases h2 with h2 | h2
      · exact Or.inl h2
      · exact Or.inr ⟨h2, h1 h2⟩
    · rw [← getint_congr env _ _ _ (hfr "bound-padding-steps" (by decide))]; exact r3
    · rw [← getbool_congr env _ _ _ (hfr "dual-plasma-approach" (by decide))]; exact r4
    · rw [← get_congr env _ _ _ (hfr "ion-model" (by decide))]; exact r6
  · rintro ⟨h1, h2, h3, h4, h5⟩
    refine ⟨?_, ?_, fun _ => ⟨?_, ?_, ?_, ?_, hfine.mpr h2, ?_⟩, hprof⟩
    · intro hgp
      rcases h1 with h1 | h1
      · rw [hgp] at h1; exact absurd h1 (by decide)
      · exact h1.2
    · rcases h1 with h1 | h1
      · exact Or.inl h1
      · exact Or.inr h1.1
    · rw [hNi]; omega
    · rw [hNi]; omega
    · rw [getint_congr env _ _ _ (hfr "bound-padding-steps" (by decide))]; exact h3
    · rw [getbool_congr env _ _ _ (hfr "dual-plasma-approach" (by decide))]; exact h4
    · rw [get_congr env _ _ _ (hfr "ion-model" (by decide))]; exact h5

/-- C63 (finding): the option `dual-plasma-approach` (listed as unfinished) never works: every 3d run with it, on whichever processing unit, ends before its first layer, and if the rest of the configuration is in order it is with a NameError. -/
theorem dual_never_runs (m : Machine) (defaults : List (String × PyVal)) (user : Table) (n : ℕ) (hn : 0 < n) (hg : ((cfgOf env defaults user).get env "geometry").toLower = "3d") (w : Window env (cfgOf env defaults user))
    (hd : (cfgOf env defaults user).getbool env "dual-plasma-approach" = true) : run env m defaults user (some n) ≠ .ok () := by
  rw [Ne, run3_ok_iff env m defaults user n hg w]
  rintro ⟨_, _, c', hc, h⟩
  have he := getbool_congr env _ _ _ (adjust3_frame env _ c' hc "dual-plasma-approach" (by decide))
  have : c'.getbool env "dual-plasma-approach" = false := by
    rcases h with ⟨_, r, _⟩ | ⟨_, _, r, _⟩
    · exact r.single
    · exact (r hn).1.single
  rw [he, hd] at this; cases this

end Lcode.Start
