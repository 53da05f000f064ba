import Verif.Mpi.Spec
import Mathlib.Tactic.Ring
import Mathlib.Tactic.LinearCombination
import Mathlib.Data.Nat.Cast.Basic

namespace Lcode.Mpi

/-! ### Arithmetic of the distribution of time steps -/

/-- The local steps of a rank are exactly those whose global number is below `steps`. -/
theorem lt_stepsPerNode (c : Ctx) (hr : c.rank < c.size) (k : ℕ) :
    k < c.stepsPerNode ↔ k * c.size + c.rank < c.steps := by
  unfold Ctx.stepsPerNode
  have hd := Nat.div_add_mod c.steps c.size
  have hm : c.steps % c.size < c.size := Nat.mod_lt _ (by omega)
  generalize c.steps / c.size = q at *
  generalize c.steps % c.size = m at *
  generalize c.size = s at *
  generalize c.rank = r at *
  have hd' : c.steps = s * q + m := hd.symm
  rw [hd']
  constructor
  · intro h
    split at h
    · have : k * s ≤ q * s := Nat.mul_le_mul_right s (by omega)
      rw [Nat.mul_comm q s] at this; omega
    · have : (k + 1) * s ≤ q * s := Nat.mul_le_mul_right s (by omega)
      rw [Nat.mul_comm q s, Nat.succ_mul] at this; omega
  · intro h
    by_contra hcon
    split at hcon
    · have : (q + 1) * s ≤ k * s := Nat.mul_le_mul_right s (by omega)
      rw [Nat.succ_mul, Nat.mul_comm q s] at this; omega
    · have : q * s ≤ k * s := Nat.mul_le_mul_right s (by omega)
      rw [Nat.mul_comm q s] at this; omega

theorem finalStep_iff (c : Ctx) (k : ℕ) :
    c.finalStep k = true ↔ k * c.size + c.rank + 1 = c.steps := by
  unfold Ctx.finalStep
  rw [beq_iff_eq]
  constructor
  · intro h; zify; linarith
  · intro h; zify at h; linarith

theorem lastStep_iff (c : Ctx) (hr : c.rank < c.size) (k : ℕ) (hk : k < c.stepsPerNode) :
    c.lastStep k = true ↔ ¬ (k + 1) * c.size + c.rank < c.steps := by
  rw [← lt_stepsPerNode c hr]
  unfold Ctx.lastStep
  rw [beq_iff_eq]
  omega

/-! ### Traces of the processes -/

section
variable {K P : Type} (W : World K P) [Field K]

/-- Logical clock: round `k`, rank `r`, layer `j`. -/
def clock (size N k r j : ℕ) : ℕ := k * (3 * size + 2 * N + 1) + 3 * r + 2 * j

/-- Operations of iteration `j` of local time step `k`. -/
def iterTrace (c : Ctx) (N : ℕ) (dt : K) (b0 : List P) (k j : ℕ) : List (ℕ × Ev (List P)) :=
  let g := k * c.size + c.rank
  (if c.rank = 0 then [] else [(clock c.size N k c.rank j, .rcv (pipeLayers W c.size N dt b0 g j))]) ++
  (if hands c.size c.steps g = true ∧ j ≠ 0 then
    [(clock c.size N k (c.rank + 1) (j - 1), .snd (finished W dt g (pipeLayers W c.size N dt b0 g) j))] else [])

/-- Operations of `next_step` after local time step `k`. -/
def endTrace (c : Ctx) (N : ℕ) (dt : K) (b0 : List P) (k : ℕ) : List (ℕ × Ev (List P)) :=
  let g := k * c.size + c.rank
  let coll := fun g => allFinished W N dt g (pipeLayers W c.size N dt b0 g)
  if c.size = 1 then []
  else if g + 1 = c.steps then []
  else if c.rank = c.size - 1 then [(clock c.size N k c.size N, .snd (coll g))]
  else (clock c.size N k (c.rank + 1) N, .snd []) ::
    (if c.rank = 0 ∧ (k + 1) * c.size < c.steps then
      [(clock c.size N k c.size N, .rcv (coll (k * c.size + (c.size - 1))))] else [])

def stepTrace (c : Ctx) (N : ℕ) (dt : K) (b0 : List P) (k : ℕ) : List (ℕ × Ev (List P)) :=
  (List.range (N + 1)).flatMap (iterTrace W c N dt b0 k) ++ endTrace W c N dt b0 k

def fullTrace (c : Ctx) (N : ℕ) (dt : K) (b0 : List P) : List (ℕ × Ev (List P)) :=
  (List.range c.stepsPerNode).flatMap (stepTrace W c N dt b0)

/-- Part of the drain filled by iterations `j, ..., j+n-1`. -/
def drainPart (c : Ctx) (dt : K) (g : ℕ) (inp : ℕ → List P) (j n : ℕ) : List P :=
  ((List.range' j n).map fun i => if hands c.size c.steps g && i == 0 then [] else finished W dt g inp i).flatten

/-- The layer loop of local step `k`. -/
theorem layersLoop_follows (c : Ctx) (hr : c.rank < c.size) (N : ℕ) (dt : K) (b0 : List P) (k : ℕ)
    (n j : ℕ) (t : Trans W) (seen : List (List P)) (src : W.Src)
    (hk : t.processed = k)
    (hsrc : c.rank = 0 → t.source = srcAt W src j ∧ ∀ i, srcLayer W src i =
      pipeLayers W c.size N dt b0 (k * c.size + c.rank) i)
    (hskip : hands c.size c.steps (k * c.size + c.rank) = true → t.skipFirst = decide (j = 0)) :
    let g := k * c.size + c.rank
    let inp := pipeLayers W c.size N dt b0 g
    ∃ t' : Trans W, Follows (layersLoop W c n j t (stAt W (W.init (timeOf dt g)) inp j) seen)
      (((List.range' j n).flatMap (iterTrace W c N dt b0 k)).map Prod.snd)
      (t', seen ++ (List.range' j n).map inp) ∧ t'.processed = k ∧
      t'.drain = t.drain ++ drainPart W c dt g inp j n := by
  intro g inp
  have hg : g % c.size = c.rank := by
    show (k * c.size + c.rank) % c.size = c.rank
    rw [Nat.mul_comm, Nat.mul_add_mod, Nat.mod_eq_of_lt hr]
  induction n generalizing j t seen with
  | zero =>
    refine ⟨t, ?_, hk, by simp [drainPart]⟩
    simpa [layersLoop] using Follows.done (M := List P) (t, seen)
  | succ n ih =>
    -- after the pull
    obtain ⟨t1, hpull, h1p, h1s, h1k, h1d⟩ : ∃ t1 : Trans W,
        Follows (pull W c t j) ((if c.rank = 0 then [] else [Ev.rcv (inp j)])) (inp j, t1) ∧
        t1.processed = k ∧ (c.rank = 0 → t1.source = srcAt W src (j + 1)) ∧
        t1.skipFirst = t.skipFirst ∧ t1.drain = t.drain := by
      unfold pull
      by_cases h0 : c.rank = 0
      · obtain ⟨hs1, hs2⟩ := hsrc h0
        refine ⟨{ t with source := (W.pullSrc t.source j).2 }, ?_, hk, ?_, rfl, rfl⟩
        · rw [if_pos (by simp [h0]), if_pos h0, hs1]
          have : (W.pullSrc (srcAt W src j) j).1 = inp j := hs2 j
          rw [this]; exact Follows.done _
        · intro _; rw [hs1]; rfl
      · refine ⟨t, ?_, hk, fun h => absurd h h0, rfl, rfl⟩
        have hsz : (c.size == 1) = false := by simp; omega
        rw [if_neg (by simp [h0, Ctx.firstStep, Ctx.single, hsz]), if_neg h0]
        exact Follows.recv (Follows.done _)
    -- after the push
    have hfin : c.finalStep k = true ↔ g + 1 = c.steps := finalStep_iff c k
    obtain ⟨t2, hpush, h2p, h2s, h2k, h2d⟩ : ∃ t2 : Trans W,
        Follows (push W c t1 (finished W dt g inp j))
          (if hands c.size c.steps g = true ∧ j ≠ 0 then [Ev.snd (finished W dt g inp j)] else []) t2 ∧
        t2.processed = k ∧ t2.source = t1.source ∧
        (hands c.size c.steps g = true → t2.skipFirst = false) ∧
        t2.drain = t.drain ++ (if hands c.size c.steps g && j == 0 then [] else finished W dt g inp j) := by
      unfold push
      by_cases hh : hands c.size c.steps g = true
      · have hh' := hh
        unfold hands at hh'
        rw [hg] at hh'
        simp only [Bool.and_eq_true, bne_iff_ne, ne_eq] at hh'
        have hsz : c.single = false := by unfold Ctx.single; simp; omega
        have hf : c.finalStep t1.processed = false := by
          rw [h1p, Bool.eq_false_iff, ne_eq, hfin]; exact hh'.1
        rw [if_neg (by simp [hsz]), if_neg (by simp [hf, hh'.2]), h1k, hskip hh]
        by_cases hj : j = 0
        · subst hj
          refine ⟨{ t1 with skipFirst := false }, ?_, h1p, rfl, fun _ => rfl, ?_⟩
          · simp only [decide_true, if_true, ne_eq, not_true_eq_false, and_false, if_false]
            exact Follows.done _
          · simp [hh, h1d]
        · refine ⟨t1.drainPush (finished W dt g inp j), ?_, h1p, rfl, ?_, ?_⟩
          · simp only [hj, decide_false, hh, ne_eq, not_false_eq_true, and_self, if_true]
            exact Follows.send (Follows.done _)
          · intro _
            show t1.skipFirst = false
            rw [h1k, hskip hh]; simp [hj]
          · show t1.drain ++ _ = _
            rw [h1d]; simp [hj]
      · have hcond : c.single = true ∨ (c.finalStep t1.processed || c.rank == c.size - 1) = true := by
          right
          unfold hands at hh
          rw [hg] at hh
          simp only [Bool.and_eq_true, bne_iff_ne, ne_eq, not_and_or, not_not] at hh
          rw [h1p]
          rcases hh with h | h
          · simp [hfin.2 h]
          · simp [h]
        refine ⟨t1.drainPush (finished W dt g inp j), ?_, h1p, rfl, fun h => absurd h hh, ?_⟩
        · have : (if c.single = true then Proc.done (t1.drainPush (finished W dt g inp j))
              else if (c.finalStep t1.processed || c.rank == c.size - 1) = true then
                Proc.done (t1.drainPush (finished W dt g inp j))
              else if t1.skipFirst = true then Proc.done { t1 with skipFirst := false }
              else Proc.send (finished W dt g inp j) (Proc.done (t1.drainPush (finished W dt g inp j))))
              = Proc.done (t1.drainPush (finished W dt g inp j)) := by
            rcases hcond with h | h
            · rw [if_pos h]
            · rw [if_pos h, ite_self]
          rw [this, if_neg (fun h => hh h.1)]
          exact Follows.done _
        · show t1.drain ++ _ = _
          rw [h1d]; simp [hh]
    obtain ⟨t3, h3, h3p, h3d⟩ := ih (j + 1) t2 (seen ++ [inp j]) h2p
      (fun h0 => ⟨by rw [h2s, h1s h0], (hsrc h0).2⟩) (fun h => by simp [h2k h])
    refine ⟨t3, ?_, h3p, ?_⟩
    · have hb := hpull.bind (f := fun r =>
        let o := W.layer (stAt W (W.init (timeOf dt g)) inp j) j r.1
        (push W c r.2 o.2).bind fun t' => layersLoop W c n (j + 1) t' o.1 (seen ++ [r.1]))
        (hpush.bind h3)
      have e1 : (((List.range' j (n + 1)).flatMap (iterTrace W c N dt b0 k)).map Prod.snd) =
          (if c.rank = 0 then [] else [Ev.rcv (inp j)]) ++
          ((if hands c.size c.steps g = true ∧ j ≠ 0 then [Ev.snd (finished W dt g inp j)] else []) ++
          (((List.range' (j + 1) n).flatMap (iterTrace W c N dt b0 k)).map Prod.snd)) := by
        rw [List.range'_succ, List.flatMap_cons, List.map_append, ← List.append_assoc]
        congr 1
        show List.map Prod.snd (_ ++ _) = _
        rw [List.map_append]
        congr 1
        · split <;> rfl
        · show List.map Prod.snd (if hands c.size c.steps g = true ∧ j ≠ 0 then _ else _) = _
          split <;> rfl
      have e2 : seen ++ (List.range' j (n + 1)).map inp =
          seen ++ [inp j] ++ (List.range' (j + 1) n).map inp := by
        rw [List.range'_succ]; simp
      rw [e1, e2]
      exact hb
    · rw [h3d, h2d]
      unfold drainPart
      rw [List.range'_succ]
      simp

theorem drainPart_all (c : Ctx) (N : ℕ) (dt : K) (g : ℕ) (inp : ℕ → List P)
    (h : hands c.size c.steps g = false) :
    drainPart W c dt g inp 0 (N + 1) = allFinished W N dt g inp := by
  unfold drainPart allFinished
  simp [h, List.range_eq_range']

/-- The time loop from local step `k` on. -/
theorem timeLoop_follows (c : Ctx) (hr : c.rank < c.size) (N : ℕ) (dt : K) (b0 : List P)
    (n k : ℕ) (hn : k + n = c.stepsPerNode) (t : Trans W) (log : List (Entry K P)) (src : W.Src)
    (hk : t.processed = k) (hskip : t.skipFirst = true) (hd : t.drain = [])
    (hsrc : c.rank = 0 → n ≠ 0 → t.source = src ∧ ∀ i, srcLayer W src i =
      pipeLayers W c.size N dt b0 (k * c.size + c.rank) i) :
    ∃ t' : Trans W, Follows (timeLoop W c N dt n (timeOf dt (k * c.size + c.rank)) t log)
      (((List.range' k n).flatMap (stepTrace W c N dt b0)).map Prod.snd)
      (t', log ++ (List.range' k n).map (fun k => entryOf W c.size c.steps N dt b0 (k * c.size + c.rank))) := by
  induction n generalizing k t log src with
  | zero => exact ⟨t, by simpa [timeLoop] using Follows.done (M := List P) (t, log)⟩
  | succ n ih =>
    set g := k * c.size + c.rank with hgdef
    have hg : g % c.size = c.rank := by
      rw [hgdef, Nat.mul_comm, Nat.mul_add_mod, Nat.mod_eq_of_lt hr]
    have hklt : k < c.stepsPerNode := by omega
    have hglt : g < c.steps := (lt_stepsPerNode c hr k).1 hklt
    obtain ⟨t1, h1, h1p, h1d⟩ := layersLoop_follows W c hr N dt b0 k (N + 1) 0 t [] src hk
      (fun h0 => ⟨(hsrc h0 (by omega)).1, (hsrc h0 (by omega)).2⟩) (fun _ => by simp [hskip])
    simp only [List.nil_append, ← hgdef] at h1 h1d
    rw [hd, List.nil_append] at h1d
    have hshown : t1.drain = shown W c.size c.steps N dt b0 g := by
      rw [h1d]; unfold drainPart shown; rw [List.range_eq_range']
    have hfin : c.finalStep t1.processed = true ↔ g + 1 = c.steps := by rw [h1p]; exact finalStep_iff c k
    have hmul : (k + 1) * c.size = k * c.size + c.size := Nat.succ_mul _ _
    -- next_step
    obtain ⟨t2, src2, h2, h2p, h2k, h2d, h2s⟩ : ∃ (t2 : Trans W) (src2 : W.Src),
        Follows (nextStep W c t1) ((endTrace W c N dt b0 k).map Prod.snd) t2 ∧
        t2.processed = k + 1 ∧ t2.skipFirst = true ∧ (n ≠ 0 → t2.drain = []) ∧
        (c.rank = 0 → n ≠ 0 → t2.source = src2 ∧ ∀ i, srcLayer W src2 i =
          pipeLayers W c.size N dt b0 ((k + 1) * c.size + c.rank) i) := by
      unfold nextStep endTrace
      simp only [← hgdef]
      have hnlast : n ≠ 0 ↔ (k + 1) * c.size + c.rank < c.steps := by
        rw [← lt_stepsPerNode c hr]; omega
      by_cases hf : g + 1 = c.steps
      · have hn0 : n = 0 := by
          by_contra h
          have := hnlast.1 h
          omega
        rw [if_pos (hfin.2 hf)]
        refine ⟨{ t1 with processed := t1.processed + 1, skipFirst := true }, t1.source, ?_, by simp [h1p], rfl,
          fun h => absurd hn0 h, fun _ h => absurd hn0 h⟩
        rw [if_pos hf]
        simp only [ite_self, List.map_nil]
        exact Follows.done _
      · rw [if_neg (fun h => hf (hfin.1 h))]
        have hcoll : ∀ g', hands c.size c.steps g' = false → True := fun _ _ => trivial
        by_cases hs1 : c.size = 1
        · have h0 : c.rank = 0 := by omega
          have hgk : g = k := by rw [hgdef, hs1, h0]; omega
          rw [if_pos (by simp [Ctx.single, hs1]), if_pos hs1]
          refine ⟨_, W.mkSrc t1.drain, Follows.done _, by simp [h1p], rfl, fun _ => rfl, fun _ _ => ⟨rfl, ?_⟩⟩
          intro i
          have hh : hands c.size c.steps g = false := by simp [hands, hs1, Nat.mod_one]
          rw [h1d, drainPart_all W c N dt g _ hh]
          have : (k + 1) * c.size + c.rank = g + 1 := by rw [hs1, h0, hgk]; omega
          rw [this]
          simp [pipeLayers, hs1, Nat.mod_one]
        · rw [if_neg (by simpa [Ctx.single] using hs1), if_neg hs1, if_neg hf]
          by_cases hl : c.rank = c.size - 1
          · have hh : hands c.size c.steps g = false := by simp [hands, hg, hl]
            rw [if_pos (by simp [hl]), if_pos hl]
            refine ⟨{ t1 with processed := t1.processed + 1, skipFirst := true, drain := [] }, t1.source, ?_,
              by simp [h1p], rfl, fun _ => rfl, fun h => by omega⟩
            simp only [List.map_cons, List.map_nil]
            rw [← drainPart_all W c N dt g _ hh, ← h1d]
            exact Follows.send (Follows.done _)
          · rw [if_neg (by simpa using hl), if_neg hl]
            have hll : c.lastStep t1.processed = true ↔ ¬ (k + 1) * c.size + c.rank < c.steps := by
              rw [h1p]; exact lastStep_iff c hr k hklt
            by_cases hz : c.rank = 0 ∧ (k + 1) * c.size < c.steps
            · have hlf : c.lastStep t1.processed = false := by
                rw [Bool.eq_false_iff, ne_eq, hll]; omega
              rw [if_pos hz, if_pos (by simp [hz.1, hlf])]
              refine ⟨_, W.mkSrc _, Follows.send (Follows.recv (Follows.done _)), by simp [h1p], rfl,
                fun _ => rfl, fun _ _ => ⟨rfl, ?_⟩⟩
              intro i
              have hgs : (k + 1) * c.size + c.rank = (k * c.size + (c.size - 1)) + 1 := by omega
              rw [hgs]
              have hmod : (k * c.size + (c.size - 1) + 1) % c.size = 0 := by
                rw [show k * c.size + (c.size - 1) + 1 = (k + 1) * c.size by omega]
                exact Nat.mul_mod_left _ _
              simp [pipeLayers, hmod]
            · rw [if_neg hz]
              have hb : (c.rank == 0 && !c.lastStep t1.processed) = false := by
                by_cases h0 : c.rank = 0
                · have : c.lastStep t1.processed = true := by
                    rw [hll]; intro h; exact hz ⟨h0, by omega⟩
                  simp [this]
                · simp [h0]
              rw [if_neg (by simp [hb])]
              refine ⟨_, t1.source, Follows.send (Follows.done _), by simp [h1p], rfl, fun _ => rfl, ?_⟩
              intro h0 hn0
              exact absurd ⟨h0, by have := hnlast.1 hn0; omega⟩ hz
    by_cases hn0 : n = 0
    · subst hn0
      refine ⟨t2, ?_⟩
      have hb := h1.bind (f := fun r => (nextStep W c r.1).bind fun t' =>
        timeLoop W c N dt 0 (timeOf dt g + dt * c.size) t'
          (log ++ [⟨timeOf dt g, r.2, r.1.drain⟩])) (h2.bind (Follows.done _))
      have e : (List.flatMap (stepTrace W c N dt b0) (List.range' k (0 + 1))).map Prod.snd =
          (((List.range' 0 (N + 1)).flatMap (iterTrace W c N dt b0 k)).map Prod.snd) ++
            ((endTrace W c N dt b0 k).map Prod.snd ++ []) := by
        simp [stepTrace, List.range_eq_range']
      rw [e]
      have e3 : entryOf W c.size c.steps N dt b0 g =
          ⟨timeOf dt g, (List.range' 0 (N + 1)).map (pipeLayers W c.size N dt b0 g), t1.drain⟩ := by
        rw [hshown, entryOf, List.range_eq_range']
      have e2 : List.map (fun k => entryOf W c.size c.steps N dt b0 (k * c.size + c.rank)) (List.range' k (0 + 1))
          = [entryOf W c.size c.steps N dt b0 g] := by simp [hgdef]
      rw [e2, e3]
      exact hb
    · have htime : timeOf dt g + dt * c.size = timeOf dt ((k + 1) * c.size + c.rank) := by
        rw [hgdef]; unfold timeOf; push_cast; ring
      obtain ⟨t3, h3⟩ := ih (k + 1) (by omega) t2
        (log ++ [entryOf W c.size c.steps N dt b0 g]) src2 h2p h2k (h2d hn0) h2s
      refine ⟨t3, ?_⟩
      have hb := h1.bind (f := fun r => (nextStep W c r.1).bind fun t' =>
        timeLoop W c N dt n (timeOf dt g + dt * c.size) t'
          (log ++ [⟨timeOf dt g, r.2, r.1.drain⟩])) (h2.bind (t' := _) (b := (t3, _)) (by
            have e3 : entryOf W c.size c.steps N dt b0 g =
                ⟨timeOf dt g, (List.range' 0 (N + 1)).map (pipeLayers W c.size N dt b0 g), t1.drain⟩ := by
              rw [hshown, entryOf, List.range_eq_range']
            rw [htime, ← e3]
            exact h3))
      have e : (List.flatMap (stepTrace W c N dt b0) (List.range' k (n + 1))).map Prod.snd =
          (((List.range' 0 (N + 1)).flatMap (iterTrace W c N dt b0 k)).map Prod.snd) ++
            ((endTrace W c N dt b0 k).map Prod.snd ++
              ((List.range' (k + 1) n).flatMap (stepTrace W c N dt b0)).map Prod.snd) := by
        rw [List.range'_succ, List.flatMap_cons, List.map_append]
        simp [stepTrace, List.range_eq_range']
      rw [e]
      have e2 : log ++ List.map (fun k => entryOf W c.size c.steps N dt b0 (k * c.size + c.rank)) (List.range' k (n + 1))
          = log ++ [entryOf W c.size c.steps N dt b0 g] ++
            List.map (fun k => entryOf W c.size c.steps N dt b0 (k * c.size + c.rank)) (List.range' (k + 1) n) := by
        rw [List.range'_succ]; simp [hgdef]
      rw [e2]
      exact hb

/-- Every process follows its trace and shows its time steps. -/
theorem program_follows (c : Ctx) (hr : c.rank < c.size) (N : ℕ) (dt : K) (b0 : List P) :
    Follows (program W c N dt b0) ((fullTrace W c N dt b0).map Prod.snd)
      ((List.range c.stepsPerNode).map fun k => entryOf W c.size c.steps N dt b0 (k * c.size + c.rank)) := by
  obtain ⟨t, h⟩ := timeLoop_follows W c hr N dt b0 c.stepsPerNode 0 (by omega)
    (newTransport W b0) [] (W.mkSrc b0) rfl rfl rfl
    (fun h0 _ => ⟨rfl, fun i => by simp [h0, pipeLayers]⟩)
  unfold program firstCall runTransport fullTrace
  have e : timeOf dt (0 * c.size + c.rank) = dt * (c.rank + 1) := by unfold timeOf; simp
  rw [e] at h
  have hb := h.bind (f := fun r => Proc.done r.2) (Follows.done _)
  rw [List.append_nil] at hb
  rw [List.range_eq_range']
  exact hb

/-! ### The traces fit together -/

theorem flatMap_range_extend {β : Type*} (n m : ℕ) (h : n ≤ m) (f : ℕ → List β) (p : ℕ → Prop) [DecidablePred p]
    (hp : ∀ k, k < n ↔ p k) :
    (List.range n).flatMap f = (List.range m).flatMap fun k => if p k then f k else [] := by
  obtain ⟨d, rfl⟩ := Nat.exists_eq_add_of_le h
  rw [List.range_add, List.flatMap_append]
  have h1 : (List.range n).flatMap f = (List.range n).flatMap fun k => if p k then f k else [] := by
    rw [List.flatMap_def, List.flatMap_def]
    congr 1
    apply List.map_congr_left
    intro k hk
    rw [if_pos ((hp k).1 (List.mem_range.1 hk))]
  have h2 : ((List.range d).map (n + ·)).flatMap (fun k => if p k then f k else []) = [] := by
    rw [List.flatMap_eq_nil_iff]
    intro k hk
    rw [List.mem_map] at hk
    obtain ⟨i, _, rfl⟩ := hk
    rw [if_neg (fun h => by have := (hp _).2 h; omega)]
  rw [h2, List.append_nil, ← h1]

theorem stepsPerNode_le (c : Ctx) (hr : c.rank < c.size) : c.stepsPerNode ≤ c.steps := by
  by_contra h
  have := (lt_stepsPerNode c hr c.steps).1 (by omega)
  have : c.steps * 1 ≤ c.steps * c.size := Nat.mul_le_mul_left _ (by omega)
  omega

theorem sendsOf_stepTrace (c : Ctx) (hr : c.rank < c.size) (N : ℕ) (dt : K) (b0 : List P) (k g : ℕ)
    (hgd : g = k * c.size + c.rank) :
    sendsOf (stepTrace W c N dt b0 k) =
      if c.size = 1 ∨ g + 1 = c.steps then []
      else if c.rank = c.size - 1 then
        [(clock c.size N k c.size N, allFinished W N dt g (pipeLayers W c.size N dt b0 g))]
      else (List.range (N + 1)).map fun j => (clock c.size N k (c.rank + 1) j,
        if j < N then finished W dt g (pipeLayers W c.size N dt b0 g) (j + 1) else []) := by
  have hg : g % c.size = c.rank := by
    rw [hgd, Nat.mul_comm, Nat.mul_add_mod, Nat.mod_eq_of_lt hr]
  unfold stepTrace
  rw [sendsOf_append, sendsOf_flatMap]
  have hit : ∀ j, sendsOf (iterTrace W c N dt b0 k j) =
      if hands c.size c.steps g = true ∧ j ≠ 0 then
        [(clock c.size N k (c.rank + 1) (j - 1), finished W dt g (pipeLayers W c.size N dt b0 g) j)] else [] := by
    intro j
    unfold iterTrace
    simp only [← hgd]
    rw [sendsOf_append]
    show sendsOf _ ++ sendsOf (if hands c.size c.steps g = true ∧ j ≠ 0 then _ else _) = _
    split <;> split <;> rfl
  simp only [hit]
  by_cases hh : hands c.size c.steps g = true
  · have hh' := hh
    unfold hands at hh'
    rw [hg] at hh'
    simp only [Bool.and_eq_true, bne_iff_ne, ne_eq] at hh'
    have hs1 : ¬ (c.size = 1 ∨ g + 1 = c.steps) := by omega
    rw [if_neg hs1, if_neg hh'.2]
    have hend : sendsOf (endTrace W c N dt b0 k) = [(clock c.size N k (c.rank + 1) N, [])] := by
      unfold endTrace
      rw [if_neg (by omega)]
      simp only [← hgd]
      show sendsOf (if g + 1 = c.steps then _ else _) = _
      rw [if_neg hh'.1, if_neg hh'.2, sendsOf_snd]
      split <;> rfl
    rw [hend, List.range_succ_eq_map, List.flatMap_cons, if_neg (by simp)]
    rw [← List.range_succ_eq_map, List.range_succ, List.map_append]
    simp only [List.nil_append, List.map_cons, List.map_nil, lt_irrefl, if_false]
    congr 1
    rw [List.flatMap_map, List.map_eq_flatMap, List.flatMap_def, List.flatMap_def]
    congr 1
    apply List.map_congr_left
    intro j hj
    rw [List.mem_range] at hj
    simp [hh, hj]
  · have hfm : ((List.range (N + 1)).flatMap fun j => if hands c.size c.steps g = true ∧ j ≠ 0 then
        [(clock c.size N k (c.rank + 1) (j - 1), finished W dt g (pipeLayers W c.size N dt b0 g) j)] else []) = [] := by
      rw [List.flatMap_eq_nil_iff]; intro j _; rw [if_neg (fun h => hh h.1)]
    rw [hfm, List.nil_append]
    unfold endTrace
    simp only [← hgd]
    show sendsOf (if c.size = 1 then _ else if g + 1 = c.steps then _ else _) = _
    by_cases h1 : c.size = 1
    · simp [h1]
    · by_cases h2 : g + 1 = c.steps
      · simp [h2]
      · have h3 : c.rank = c.size - 1 := by
          unfold hands at hh
          rw [hg] at hh
          simp only [Bool.and_eq_true, bne_iff_ne, ne_eq, not_and_or, not_not] at hh
          omega
        rw [if_neg h1, if_neg h2, if_pos h3, if_neg (by omega), if_pos h3]
        rfl

theorem recvsOf_stepTrace (c : Ctx) (hr : c.rank < c.size) (N : ℕ) (dt : K) (b0 : List P) (k g : ℕ)
    (hgd : g = k * c.size + c.rank) :
    recvsOf (stepTrace W c N dt b0 k) =
      if c.size = 1 then []
      else if c.rank = 0 then
        if (k + 1) * c.size < c.steps then
          [(clock c.size N k c.size N, allFinished W N dt (k * c.size + (c.size - 1))
            (pipeLayers W c.size N dt b0 (k * c.size + (c.size - 1))))] else []
      else (List.range (N + 1)).map fun j => (clock c.size N k c.rank j, pipeLayers W c.size N dt b0 g j) := by
  unfold stepTrace
  rw [recvsOf_append, recvsOf_flatMap]
  have hit : ∀ j, recvsOf (iterTrace W c N dt b0 k j) =
      if c.rank = 0 then [] else [(clock c.size N k c.rank j, pipeLayers W c.size N dt b0 g j)] := by
    intro j
    unfold iterTrace
    simp only [← hgd]
    rw [recvsOf_append]
    split <;> split <;> rfl
  simp only [hit]
  have hmul : (k + 1) * c.size = k * c.size + c.size := Nat.succ_mul _ _
  by_cases h1 : c.size = 1
  · have h0 : c.rank = 0 := by omega
    simp [h0, h1, endTrace]
  · rw [if_neg h1]
    by_cases h0 : c.rank = 0
    · simp only [h0, if_true]
      rw [List.flatMap_eq_nil_iff.2 (fun _ _ => rfl), List.nil_append]
      unfold endTrace
      rw [if_neg h1]
      simp only [h0]
      by_cases h2 : (k + 1) * c.size < c.steps
      · rw [if_neg (by omega), if_neg (by omega), if_pos h2, if_pos ⟨trivial, h2⟩]
        rfl
      · rw [if_neg h2]
        split
        · rfl
        · rw [if_neg (by omega), if_neg (fun h => h2 h.2)]
          rfl
    · simp only [h0, if_false]
      have hend : recvsOf (endTrace W c N dt b0 k) = [] := by
        unfold endTrace
        rw [if_neg h1]
        simp only [h0, false_and, if_false]
        split
        · rfl
        · split <;> rfl
      rw [hend, List.append_nil, List.map_eq_flatMap]

/-- What a rank sends is what the next one receives: same messages, same clocks, same order. -/
theorem traces_match (size steps N : ℕ) (dt : K) (b0 : List P) (r : ℕ) (hr : r < size) :
    sendsOf (fullTrace W ⟨size, r, steps⟩ N dt b0) =
      recvsOf (fullTrace W ⟨size, nextNode size r, steps⟩ N dt b0) := by
  unfold fullTrace
  rw [sendsOf_flatMap, recvsOf_flatMap]
  rw [flatMap_range_extend _ steps (stepsPerNode_le ⟨size, r, steps⟩ hr) _ _
    (lt_stepsPerNode ⟨size, r, steps⟩ hr)]
  rw [flatMap_range_extend _ steps (stepsPerNode_le ⟨size, nextNode size r, steps⟩ (nextNode_lt hr)) _ _
    (lt_stepsPerNode ⟨size, nextNode size r, steps⟩ (nextNode_lt hr))]
  congr 1
  funext k
  rw [sendsOf_stepTrace W ⟨size, r, steps⟩ hr N dt b0 k _ rfl,
    recvsOf_stepTrace W ⟨size, nextNode size r, steps⟩ (nextNode_lt hr) N dt b0 k _ rfl]
  simp only
  have hmul : (k + 1) * size = k * size + size := Nat.succ_mul _ _
  by_cases h1 : size = 1
  · simp [h1]
  · by_cases hl : r = size - 1
    · have hnext : nextNode size r = 0 := by
        unfold nextNode; rw [hl, show size - 1 + 1 = size by omega, Nat.mod_self]
      rw [hnext]
      simp only [h1, false_or, if_false, Nat.add_zero, if_pos hl, if_true]
      by_cases h2 : (k + 1) * size < steps
      · rw [if_pos (by omega), if_neg (by omega), if_pos (by omega), if_pos h2, hl]
      · rw [if_neg h2]
        split
        · rw [if_pos (by omega), ite_self]
        · rw [ite_self]
    · have hnext : nextNode size r = r + 1 := by
        unfold nextNode; rw [Nat.mod_eq_of_lt (by omega)]
      rw [hnext]
      simp only [h1, false_or, if_false, if_neg hl]
      rw [if_neg (Nat.succ_ne_zero r)]
      have hg : (k * size + (r + 1)) % size = r + 1 := by
        rw [Nat.mul_comm, Nat.mul_add_mod, Nat.mod_eq_of_lt (by omega)]
      by_cases h2 : k * size + (r + 1) < steps
      · rw [if_pos (by omega), if_neg (by omega), if_pos h2]
        apply List.map_congr_left
        intro j _
        congr 1
        rw [show k * size + (r + 1) = (k * size + r) + 1 by omega]
        rw [show k * size + (r + 1) = (k * size + r) + 1 by omega] at hg
        simp [pipeLayers, hg]
      · rw [if_neg h2]
        split
        · rw [if_pos (by omega)]
        · rfl

theorem clocked_stepTrace (c : Ctx) (hr : c.rank < c.size) (N : ℕ) (dt : K) (b0 : List P) (k : ℕ) :
    Clocked (stepTrace W c N dt b0 k) ∧ ∀ e ∈ stepTrace W c N dt b0 k,
      k * (3 * c.size + 2 * N + 1) ≤ e.1 ∧ e.1 < (k + 1) * (3 * c.size + 2 * N + 1) := by
  have hiter : ∀ j, ∀ e ∈ iterTrace W c N dt b0 k j,
      clock c.size N k c.rank j ≤ e.1 ∧ e.1 ≤ clock c.size N k c.rank j + 1 := by
    intro j e he
    unfold iterTrace at he
    simp only [List.mem_append] at he
    unfold clock
    rcases he with he | he
    · split at he
      · simp at he
      · rw [List.mem_singleton] at he; rw [he]; unfold clock; simp
    · split at he
      · rename_i h
        rw [List.mem_singleton] at he; rw [he]; unfold clock; simp only
        omega
      · simp at he
  have hmul : (k + 1) * (3 * c.size + 2 * N + 1) = k * (3 * c.size + 2 * N + 1) + (3 * c.size + 2 * N + 1) :=
    Nat.succ_mul _ _
  have hhands : ∀ g, hands c.size c.steps g = true → g = k * c.size + c.rank → c.rank ≠ c.size - 1 := by
    intro g hh hg
    unfold hands at hh
    rw [hg, Nat.mul_comm, Nat.mul_add_mod, Nat.mod_eq_of_lt hr] at hh
    simp only [Bool.and_eq_true, bne_iff_ne, ne_eq] at hh
    exact hh.2
  have hend : Clocked (endTrace W c N dt b0 k) ∧ ∀ e ∈ endTrace W c N dt b0 k,
      clock c.size N k c.rank N + 3 ≤ e.1 ∧ e.1 < (k + 1) * (3 * c.size + 2 * N + 1) := by
    unfold endTrace Clocked clock
    split
    · simp
    · simp only
      split
      · simp
      · split
        · simp; omega
        · split <;> simp <;> omega
  unfold stepTrace
  refine ⟨?_, ?_⟩
  · unfold Clocked
    rw [List.pairwise_append]
    refine ⟨?_, hend.1, ?_⟩
    · rw [List.pairwise_flatMap]
      refine ⟨?_, ?_⟩
      · intro j _
        unfold iterTrace clock
        simp only
        split <;> split
        · simp
        · simp
        · simp; omega
        · simp
      · apply List.Pairwise.imp_of_mem ?_ (List.pairwise_lt_range (n := N + 1))
        intro a b _ _ hab x hx y hy
        have h1 := hiter a x hx
        have h2 := hiter b y hy
        unfold clock at h1 h2
        omega
    · intro a ha b hb
      rw [List.mem_flatMap] at ha
      obtain ⟨j, hj, ha⟩ := ha
      rw [List.mem_range] at hj
      have h1 := hiter j a ha
      have h2 := (hend.2 b hb).1
      unfold clock at h1 h2
      omega
  · intro e he
    rw [List.mem_append] at he
    rcases he with he | he
    · rw [List.mem_flatMap] at he
      obtain ⟨j, hj, ha⟩ := he
      rw [List.mem_range] at hj
      have h1 := hiter j e ha
      unfold clock at h1
      omega
    · have h1 := hend.2 e he
      unfold clock at h1
      omega

theorem clocked_fullTrace (c : Ctx) (hr : c.rank < c.size) (N : ℕ) (dt : K) (b0 : List P) :
    Clocked (fullTrace W c N dt b0) := by
  unfold fullTrace Clocked
  rw [List.pairwise_flatMap]
  refine ⟨fun k _ => (clocked_stepTrace W c hr N dt b0 k).1, ?_⟩
  apply List.Pairwise.imp_of_mem ?_ (List.pairwise_lt_range (n := c.stepsPerNode))
  intro a b _ _ hab x hx y hy
  have h1 := ((clocked_stepTrace W c hr N dt b0 a).2 x hx).2
  have h2 := ((clocked_stepTrace W c hr N dt b0 b).2 y hy).1
  have h3 : (a + 1) * (3 * c.size + 2 * N + 1) ≤ b * (3 * c.size + 2 * N + 1) :=
    Nat.mul_le_mul_right _ hab
  omega

end
end Lcode.Mpi
