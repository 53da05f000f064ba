import Verif.Plasma2D.Trajectory

/-!
Property C79, second part: the substepping loop (lcode/plasma/move.py:169-213), the variables of the code, and fields given on the grid.
-/

namespace Lcode.Plasma2D

open Lcode.Plasma3D (Vec3 lorentz3 PlasmaMotion Tame2 Upto)
open Lcode.Beam3D (Within)
open Lcode.Beam2D (rot unit_le sqrt_near)

/-! ### Specification -/

/-- `S 0, ..., S n` are the states of one particle at the borders of `n` layers of width `step`, each crossed by the substepping loop of the code. In each layer the fields are within `del` of the true ones.
Either the particle does not rotate at all (no azimuthal momentum, no E_phi, no B_z), or no sequence of substeps the loop could choose ends exactly on the axis, or the true particle is farther than `2 μ` from the axis all the time in this layer. -/
def Layers (m : ℝ) (E B : ℝ → ℝ → ℝ → Vec3) (X Y : ℝ → ℝ) (μ Rw del step : ℝ) (n : ℕ) (S : ℕ → PState) : Prop :=
  0 ≤ (S 0).r ∧ ∀ k < n, ∃ (e : Env) (M : ℕ) (age : ℝ), 1 ≤ M ∧ e.n = M + 1 ∧ 0 < e.h ∧ e.R < (M + 1 / 2) * e.h ∧ Rw ≤ e.R ∧
    S (k + 1) = (moveSubstepped (moveOne e m) e.h step (S k) age).s ∧ (∀ τ, k * step ≤ τ → τ ≤ (k + 1) * step → FieldsNear e M (E τ) (B τ) del) ∧
    (((S k).pf = 0 ∧ ∀ i, e.F.Ef i = 0 ∧ e.F.Bz i = 0) ∨ (∀ τ, k * step ≤ τ → τ ≤ (k + 1) * step → 2 * μ < Real.sqrt (X τ ^ 2 + Y τ ^ 2)) ∨
      ∀ xs : List ℝ, xs ≠ [] → (∀ x ∈ xs, ∃ i ≤ 14, x = step / 2 ^ i) → xs.sum ≤ step → 0 < (through (moveOne e m) xs (S k) age).1.r)

/-! ### The loop as a chain of pushes -/

/-- A push does not make a particle rotate when nothing turns it. -/
theorem push_unturned (e : Env) (M : ℕ) (hM : 1 ≤ M) (hn : e.n = M + 1) (hh : 0 < e.h) (hR : e.R < (M + 1 / 2) * e.h) (hR0 : 0 ≤ e.R) (m : ℝ) (hm : 0 < m) (s : PState) (d : ℝ) (hf : s.pf = 0) (h0 : ∀ i, e.F.Ef i = 0 ∧ e.F.Bz i = 0) :
    (moveOne e m s d).s.pf = 0 := by
  obtain ⟨c1, c2, c3⟩ := push_spec e M hM hn hh hR m hm s d
  have flat : ∀ (p : Vec) (x r : ℝ), p.y = 0 → (newMomentum m s.q d (fieldE e M x) (fieldB e M x) p).y = 0 ∧ (newPosition m s.q d (fieldE e M x) (fieldB e M x) p r).y = 0 := by
    intro p x r hp
    have f1 : (fieldE e M x).y = 0 := by unfold fieldE; simp [h0]
    have f2 : (fieldB e M x).x = 0 ∧ (fieldB e M x).z = 0 := by unfold fieldB; simp [h0]
    have l : ∀ p' : Vec, (lorentz m s.q (fieldE e M x) (fieldB e M x) p').y = 0 := by
      intro p'; unfold lorentz Vec.axpy Vec.cross; simp [f1, f2.1, f2.2]
    have n1 : (newMomentum m s.q d (fieldE e M x) (fieldB e M x) p).y = 0 := by
      show p.y + _ * (lorentz m s.q (fieldE e M x) (fieldB e M x) _).y = 0
      rw [l, hp]; ring
    refine ⟨n1, ?_⟩
    show 0 + timeStep m d _ * (0 + 1 / 2 * (p.y + 1 * (newMomentum m s.q d (fieldE e M x) (fieldB e M x) p).y)) = 0
    rw [n1, hp]; ring
  have done : ∀ (rP rH : ℝ) (p : Vec), p.y = 0 → PushOutcome e M s.r rP rH p s.q m d (moveOne e m s d) → (moveOne e m s d).s.pf = 0 := by
    intro rP rH p hp ho
    unfold PushOutcome at ho
    simp only at ho
    obtain ⟨f1, f2⟩ := flat p (rH / e.h) s.r hp
    obtain ⟨o1, o2, o3, -⟩ := ho
    generalize Real.sqrt _ = rN at *
    rcases le_or_gt rN e.R with h | h
    · obtain ⟨-, -, -, -, k5, k6⟩ := o1 h
      rw [f1, f2] at k5
      by_cases hz : rN = 0
      · exact (k6 hz).2
      · have : rN * (moveOne e m s d).s.pf = 0 := by rw [k5]; ring
        exact (mul_eq_zero.mp this).resolve_left hz
    · rcases le_or_gt rN (2 * e.R) with h' | h'
      · rw [o2 h h']
      · rw [o3 h']; rfl
  rcases le_or_gt (predicted m d s.r ⟨s.pr, s.pf, s.pz⟩) e.R with h1 | h1
  · rcases le_or_gt (-e.R) (predicted m d s.r ⟨s.pr, s.pf, s.pz⟩) with h2 | h2
    · exact done _ _ _ hf (c1 h2 h1)
    · rw [c3 (Or.inl h2)]; rfl
  · rcases le_or_gt (predicted m d s.r ⟨s.pr, s.pf, s.pz⟩) (2 * e.R) with h2 | h2
    · exact done _ _ _ rfl (c2 h1 h2)
    · rw [c3 (Or.inr ⟨hR0, h2⟩)]; rfl

/-- One more push. -/
theorem Pushes.snoc {m : ℝ} {E B : ℝ → ℝ → ℝ → Vec3} {X Y : ℝ → ℝ} {μ Rw del δ : ℝ} {n : ℕ} {t : ℕ → ℝ} {s : ℕ → PState} (h : Pushes m E B X Y μ Rw del δ n t s) (d : ℝ) (hd : 0 ≤ d) (hdδ : d ≤ δ) (e : Env) (M : ℕ) (hM : 1 ≤ M) (hn : e.n = M + 1)
    (hh : 0 < e.h) (hR : e.R < (M + 1 / 2) * e.h) (hRw : Rw ≤ e.R) (hF : ∀ τ, t n ≤ τ → τ ≤ t n + d → FieldsNear e M (E τ) (B τ) del)
    (hax : 0 < (moveOne e m (s n) d).s.r ∨ ((s n).pf = 0 ∧ ∀ i, e.F.Ef i = 0 ∧ e.F.Bz i = 0) ∨ 2 * μ < Real.sqrt (X (t n + d) ^ 2 + Y (t n + d) ^ 2)) :
    ∃ t' s', Pushes m E B X Y μ Rw del δ (n + 1) t' s' ∧ s' 0 = s 0 ∧ t' (n + 1) = t n + d ∧ s' (n + 1) = (moveOne e m (s n) d).s := by
  refine ⟨fun k => if k ≤ n then t k else t n + d, fun k => if k ≤ n then s k else (moveOne e m (s n) d).s, ⟨?_, ?_, ?_⟩, ?_, ?_, ?_⟩
  · simpa using h.1
  · simpa using h.2.1
  · intro k hk
    rcases Nat.lt_or_ge k n with hlt | hge
    · simp (disch := omega) only [if_pos]
      exact h.2.2 k hlt
    · have : k = n := by omega
      subst this
      simp (disch := omega) only [if_pos, if_neg]
      refine ⟨by linarith, by linarith, e, M, hM, hn, hh, hR, hRw, ?_, hF, hax⟩
      rw [add_sub_cancel_left]
  · simp
  · simp
  · simp

theorem sum_nonneg_of {xs : List ℝ} (h : ∀ x ∈ xs, 0 ≤ x) : 0 ≤ xs.sum := List.sum_nonneg h

/-- Many more pushes in the fields of one layer. -/
theorem Pushes.extend {m : ℝ} (hm : 0 < m) {E B : ℝ → ℝ → ℝ → Vec3} {X Y : ℝ → ℝ} {μ Rw del δ : ℝ} (hRw0 : 0 ≤ Rw) (e : Env) (M : ℕ) (hM : 1 ≤ M) (hn : e.n = M + 1)
    (hh : 0 < e.h) (hR : e.R < (M + 1 / 2) * e.h) (hRw : Rw ≤ e.R) (age : ℝ) (xs : List ℝ) : ∀ (n : ℕ) (t : ℕ → ℝ) (s : ℕ → PState), Pushes m E B X Y μ Rw del δ n t s → (∀ x ∈ xs, 0 ≤ x ∧ x ≤ δ) →
      (∀ τ, t n ≤ τ → τ ≤ t n + xs.sum → FieldsNear e M (E τ) (B τ) del) →
      (((s n).pf = 0 ∧ ∀ i, e.F.Ef i = 0 ∧ e.F.Bz i = 0) ∨ (∀ τ, t n ≤ τ → τ ≤ t n + xs.sum → 2 * μ < Real.sqrt (X τ ^ 2 + Y τ ^ 2)) ∨ ∀ pre post, xs = pre ++ post → pre ≠ [] → 0 < (through (moveOne e m) pre (s n) age).1.r) →
      ∃ n' t' s', Pushes m E B X Y μ Rw del δ n' t' s' ∧ s' 0 = s 0 ∧ t' n' = t n + xs.sum ∧ s' n' = (through (moveOne e m) xs (s n) age).1 := by
  have age_free : ∀ (ys : List ℝ) (s : PState) (a b : ℝ), (through (moveOne e m) ys s a).1 = (through (moveOne e m) ys s b).1 := by
    intro ys
    induction ys with
    | nil => intros; rfl
    | cons y ys ih => intro s a b; simp only [through]; exact ih _ _ _
  induction xs with
  | nil => intro n t s h _ _ _; exact ⟨n, t, s, h, rfl, by simp, rfl⟩
  | cons x xs ih =>
    intro n t s h hxs hF hax
    obtain ⟨hx0, hxδ⟩ := hxs x List.mem_cons_self
    have hrest : 0 ≤ xs.sum := sum_nonneg_of fun y hy => (hxs y (List.mem_cons_of_mem _ hy)).1
    rw [List.sum_cons] at hF hax
    obtain ⟨t1, s1, h1, h2, h3, h4⟩ := h.snoc x hx0 hxδ e M hM hn hh hR hRw (fun τ a b => hF τ a (by linarith)) (by
      rcases hax with h' | h' | h'
      · exact Or.inr (Or.inl h')
      · exact Or.inr (Or.inr (h' _ (by linarith) (by linarith)))
      · left
        have := h' [x] xs rfl (by simp)
        simpa [through] using this)
    obtain ⟨n', t', s', k1, k2, k3, k4⟩ := ih (n + 1) t1 s1 h1 (fun y hy => hxs y (List.mem_cons_of_mem _ hy)) (fun τ a b => hF τ (by linarith) (by linarith)) (by
      rcases hax with ⟨h', h''⟩ | h' | h'
      · left
        rw [h4]
        exact ⟨push_unturned e M hM hn hh hR (hRw0.trans hRw) m hm (s n) x h' h'', h''⟩
      · exact Or.inr (Or.inl fun τ a b => h' τ (by linarith) (by linarith))
      · right; right
        intro pre post hp hne
        have := h' (x :: pre) post (by rw [hp]; rfl) (by simp)
        rw [h4, age_free pre _ age (age - (moveOne e m (s n) x).age)]
        simpa [through] using this)
    refine ⟨n', t', s', k1, k2.trans h2, ?_, ?_⟩
    · rw [k3, h3, List.sum_cons]; ring
    · rw [k4, h4, age_free xs _ age (age - (moveOne e m (s n) x).age)]
      rfl

/-- C79 for the substepping loop: whatever substeps the loop chooses, at the borders of all layers the particle has its charge and is within `C (e0 + del + step)` of the true one, turned by a suitable angle. -/
theorem substepped_converges {q m M L T W R μ : ℝ} (hq : q ≠ 0) (hm : 0 < m) (hM : 0 ≤ M) (hL : 0 ≤ L) (hT : 0 ≤ T) (hμ : μ ≤ 1 / 2) {E B : ℝ → ℝ → ℝ → Vec3} (hE : Tame2 M L E) (hB : Tame2 M L B) (aE : AxiSym E) (aB : AxiSym B)
    {X Y : ℝ → ℝ} {P : ℝ → Vec3} (hmo : PlasmaMotion q m E B T X Y P) (hst : Stays T W R X Y P) :
    ∃ C h0 : ℝ, 0 < C ∧ 0 < h0 ∧ ∀ (Rw del step e0 : ℝ) (n : ℕ) (S : ℕ → PState), W + 3 * μ ≤ Rw → 0 ≤ del → del ≤ 1 / 2 → 0 < step → step ≤ h0 → n * step ≤ T → (S 0).q = q →
      NearTurned (S 0) (X 0) (Y 0) (P 0) e0 → C * (e0 + del + step) ≤ μ → Layers m E B X Y μ Rw del step n S →
      ∀ k ≤ n, (S k).q = q ∧ 0 ≤ (S k).r ∧ (S k).r ≤ Rw ∧ NearTurned (S k) (X (k * step)) (Y (k * step)) (P (k * step)) (C * (e0 + del + step)) := by
  obtain ⟨C, h0, hC, hh0, conv⟩ := plasma2d_converges hm hM hL hT hμ hE hB aE aB hmo hst
  refine ⟨C, h0, hC, hh0, ?_⟩
  intro Rw del step e0 n S hRw hdel hdel1 hs hs0 hnT hq0 hc0 hsmall hlay
  have he0 : 0 ≤ e0 := by obtain ⟨u, v, -, h, -⟩ := hc0; exact h.nonneg
  have hμ0 : 0 ≤ μ := le_trans (by positivity) hsmall
  have hW0 : 0 ≤ W := le_trans (Real.sqrt_nonneg _) (hst 0 le_rfl hT).1
  have hRw0 : 0 ≤ Rw := by linarith
  have chain : ∀ k ≤ n, ∃ N t s, Pushes m E B X Y μ Rw del step N t s ∧ s 0 = S 0 ∧ t N = k * step ∧ s N = S k := by
    intro k
    induction k with
    | zero => intro _; exact ⟨0, fun _ => 0, fun _ => S 0, ⟨hlay.1, rfl, fun k hk => absurd hk (by omega)⟩, rfl, by simp, rfl⟩
    | succ k ih =>
      intro hkn
      obtain ⟨N, t, s, hp, hs0', htN, hsN⟩ := ih (by omega)
      obtain ⟨e, M', age, hM', hn', hh', hR', hRw', hS, hF, hax⟩ := hlay.2 k hkn
      obtain ⟨xs, c1, c2, -, c4, c5, -⟩ := substeps_cover (moveOne e m) e.h step hs (S k) age
      have hxs : ∀ x ∈ xs, 0 ≤ x ∧ x ≤ step := by
        intro x hx
        obtain ⟨i, -, ei⟩ := c2 x hx
        rw [ei]
        refine ⟨by positivity, div_le_self hs.le ?_⟩
        exact one_le_pow₀ (by norm_num)
      have hsum0 : 0 ≤ xs.sum := sum_nonneg_of fun x hx => (hxs x hx).1
      obtain ⟨N', t', s', k1, k2, k3, k4⟩ := Pushes.extend hm hRw0 e M' hM' hn' hh' hR' hRw' age xs N t s hp hxs (fun τ a b => hF τ (by rw [← htN]; exact a) (by rw [htN] at b; linarith)) (by
        rw [hsN]
        rcases hax with h' | h' | h'
        · exact Or.inl h'
        · exact Or.inr (Or.inl fun τ a b => h' τ (by rw [← htN]; exact a) (by rw [htN] at b; linarith))
        · right; right
          intro pre post hpp hne
          have hsub : ∀ x ∈ pre, x ∈ xs := fun x hx => by rw [hpp]; exact List.mem_append_left _ hx
          refine h' pre hne (fun x hx => c2 x (hsub x hx)) ?_
          have hpost : 0 ≤ post.sum := sum_nonneg_of fun x hx => (hxs x (by rw [hpp]; exact List.mem_append_right _ hx)).1
          rw [hpp, List.sum_append] at c4
          linarith)
      have c1' := congrArg Prod.fst c1
      simp only at c1'
      rw [hsN, c1', ← hS] at k4
      have hk1 : ((k + 1 : ℕ) : ℝ) ≤ n := by exact_mod_cast hkn
      have hkT : ((k + 1 : ℕ) : ℝ) * step ≤ T := (mul_le_mul_of_nonneg_right hk1 hs.le).trans hnT
      push_cast at hkT
      have fin := conv Rw del step e0 N' t' s' hRw hdel hdel1 hs.le hs0 (by rw [k3, htN]; linarith) (by rw [k2, hs0', hq0]) (by rw [k2, hs0']; exact hc0) hsmall k1 N' le_rfl
      have hsum : xs.sum = step := c5 (by rw [← hS, ← k4, fin.1]; exact hq)
      refine ⟨N', t', s', k1, k2.trans hs0', ?_, k4⟩
      rw [k3, htN, hsum]; push_cast; ring
  intro k hk
  obtain ⟨N, t, s, hp, hs0', htN, hsN⟩ := chain k hk
  have hk1 : (k : ℝ) ≤ n := by exact_mod_cast hk
  have hkT : (k : ℝ) * step ≤ T := (mul_le_mul_of_nonneg_right hk1 hs.le).trans hnT
  have fin := conv Rw del step e0 N t s hRw hdel hdel1 hs.le hs0 (by rw [htN]; exact hkT) (by rw [hs0', hq0]) (by rw [hs0']; exact hc0) hsmall hp N le_rfl
  rw [hsN, htN] at fin
  exact fin

end Lcode.Plasma2D
