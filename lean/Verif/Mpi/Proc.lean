import Mathlib.Data.List.Pairwise
import Mathlib.Logic.Function.Basic
import Mathlib.Tactic.Linarith
import Mathlib.Tactic.Push

/-!
Message-passing processes in a ring and their executions.

A process is a tree of blocking operations (`MPI.Comm.Send` to the next rank, `MPI.Comm.Recv` from the previous rank:
lcode/mpi/transport.py:53-62) over which Python code is modelled as a monadic program. A standard-mode `MPI_Send` may
either buffer the message or wait for the receiver; the choice belongs to the MPI library, so an execution may do either at
each send.
-/

namespace Lcode.Mpi

/-- A process: finished with a result, about to send to the next rank, or waiting for a message of the previous rank. -/
inductive Proc (M : Type*) (A : Type*) where
  | done (a : A)
  | send (m : M) (p : Proc M A)
  | recv (k : M → Proc M A)

namespace Proc
variable {M A B : Type*}

/-- Sequential composition. -/
def bind : Proc M A → (A → Proc M B) → Proc M B
  | done a, f => f a
  | send m p, f => send m (bind p f)
  | recv k, f => recv (fun m => bind (k m) f)

end Proc

/-- Global state: one process per rank, one FIFO queue per rank (from that rank to the next one). -/
structure Net (M A : Type*) where
  procs : ℕ → Proc M A
  queues : ℕ → List M

/-- transport.py:25-27 -/
def nextNode (size r : ℕ) : ℕ := (r + 1) % size

variable {M A : Type*}

open Function (update)

/-- Steps that need no buffer space: a delivery of a buffered message, or a sender and a receiver meeting. -/
inductive StrictStep (size : ℕ) : Net M A → Net M A → Prop
  | deliver (n : Net M A) (r : ℕ) (hr : r < size) (k : M → Proc M A) (m : M) (ms : List M)
      (hp : n.procs (nextNode size r) = .recv k) (hq : n.queues r = m :: ms) :
      StrictStep size n ⟨update n.procs (nextNode size r) (k m), update n.queues r ms⟩
  | meet (n : Net M A) (r : ℕ) (hr : r < size) (m : M) (p : Proc M A) (k : M → Proc M A)
      (hs : n.procs r = .send m p) (hp : n.procs (nextNode size r) = .recv k)
      (hq : n.queues r = []) :
      StrictStep size n ⟨update (update n.procs r p) (nextNode size r) (k m), n.queues⟩

/-- All steps: additionally the library may buffer a message. -/
inductive Step (size : ℕ) : Net M A → Net M A → Prop
  | strict (n n' : Net M A) (h : StrictStep size n n') : Step size n n'
  | buffer (n : Net M A) (r : ℕ) (hr : r < size) (m : M) (p : Proc M A)
      (hs : n.procs r = .send m p) :
      Step size n ⟨update n.procs r p, update n.queues r (n.queues r ++ [m])⟩

/-- Executions with their number of steps. -/
inductive Steps (size : ℕ) : ℕ → Net M A → Net M A → Prop
  | refl (n : Net M A) : Steps size 0 n n
  | tail {k : ℕ} {n n' n'' : Net M A} (h : Steps size k n n') (s : Step size n' n'') :
      Steps size (k + 1) n n''

/-- Everything finished with the given results and no message left over. -/
def Net.Finished (size : ℕ) (res : ℕ → A) (n : Net M A) : Prop :=
  ∀ r, r < size → n.procs r = .done (res r) ∧ n.queues r = []

/-! ### Traces -/

/-- Communication events of one process. -/
inductive Ev (M : Type*) where
  | snd (m : M)
  | rcv (m : M)

/-- `Follows p t a`: if the messages received are those of `t`, process `p` does exactly the operations of `t` and then finishes
with `a`. -/
inductive Follows : Proc M A → List (Ev M) → A → Prop
  | done (a : A) : Follows (.done a) [] a
  | send {m : M} {p : Proc M A} {t : List (Ev M)} {a : A} (h : Follows p t a) :
      Follows (.send m p) (.snd m :: t) a
  | recv {k : M → Proc M A} {m : M} {t : List (Ev M)} {a : A} (h : Follows (k m) t a) :
      Follows (.recv k) (.rcv m :: t) a

theorem Follows.bind {B : Type*} {p : Proc M A} {t : List (Ev M)} {a : A}
    (h : Follows p t a) {f : A → Proc M B} {t' : List (Ev M)} {b : B} (h' : Follows (f a) t' b) :
    Follows (p.bind f) (t ++ t') b := by
  induction h with
  | done a => simpa [Proc.bind] using h'
  | send h ih => simpa [Proc.bind] using Follows.send (ih h')
  | recv h ih => simpa [Proc.bind] using Follows.recv (ih h')

/-- Messages sent, with the clock values of the sends. -/
def sendsOf (t : List (ℕ × Ev M)) : List (ℕ × M) :=
  t.filterMap fun e => match e.2 with | .snd m => some (e.1, m) | .rcv _ => none

/-- Messages received, with clock values. -/
def recvsOf (t : List (ℕ × Ev M)) : List (ℕ × M) :=
  t.filterMap fun e => match e.2 with | .rcv m => some (e.1, m) | .snd _ => none

@[simp] theorem sendsOf_nil : sendsOf ([] : List (ℕ × Ev M)) = [] := rfl
@[simp] theorem recvsOf_nil : recvsOf ([] : List (ℕ × Ev M)) = [] := rfl
@[simp] theorem sendsOf_snd (c : ℕ) (m : M) (t) : sendsOf ((c, Ev.snd m) :: t) = (c, m) :: sendsOf t := rfl
@[simp] theorem sendsOf_rcv (c : ℕ) (m : M) (t) : sendsOf ((c, Ev.rcv m) :: t) = sendsOf t := rfl
@[simp] theorem recvsOf_rcv (c : ℕ) (m : M) (t) : recvsOf ((c, Ev.rcv m) :: t) = (c, m) :: recvsOf t := rfl
@[simp] theorem recvsOf_snd (c : ℕ) (m : M) (t) : recvsOf ((c, Ev.snd m) :: t) = recvsOf t := rfl
@[simp] theorem sendsOf_append (s t : List (ℕ × Ev M)) : sendsOf (s ++ t) = sendsOf s ++ sendsOf t := by
  simp [sendsOf, List.filterMap_append]
@[simp] theorem recvsOf_append (s t : List (ℕ × Ev M)) : recvsOf (s ++ t) = recvsOf s ++ recvsOf t := by
  simp [recvsOf, List.filterMap_append]
theorem sendsOf_flatMap {ι : Type*} (l : List ι) (f : ι → List (ℕ × Ev M)) :
    sendsOf (l.flatMap f) = l.flatMap (fun i => sendsOf (f i)) := by
  induction l with
  | nil => rfl
  | cons a l ih => simp [ih]
theorem recvsOf_flatMap {ι : Type*} (l : List ι) (f : ι → List (ℕ × Ev M)) :
    recvsOf (l.flatMap f) = l.flatMap (fun i => recvsOf (f i)) := by
  induction l with
  | nil => rfl
  | cons a l ih => simp [ih]

/-- Clock values strictly increase along a process. -/
def Clocked (t : List (ℕ × Ev M)) : Prop := t.Pairwise (fun a b => a.1 < b.1)

/-- Ghost invariant of executions: every process still has to follow the trace `tr r`; queue `r` holds (with clock values) what
is missing between the remaining sends of `r` and the remaining receives of the next rank. -/
structure Inv (size : ℕ) (res : ℕ → A) (tr : ℕ → List (ℕ × Ev M)) (n : Net M A) : Prop where
  follows : ∀ r, r < size → Follows (n.procs r) ((tr r).map Prod.snd) (res r)
  clocked : ∀ r, r < size → Clocked (tr r)
  chan : ∀ r, r < size → ∃ q : List (ℕ × M), q.map Prod.snd = n.queues r ∧
    q ++ sendsOf (tr r) = recvsOf (tr (nextNode size r))

theorem nextNode_lt {size r : ℕ} (h : r < size) : nextNode size r < size :=
  Nat.mod_lt _ (by omega)

theorem nextNode_inj {size r s : ℕ} (hr : r < size) (hs : s < size)
    (h : nextNode size r = nextNode size s) : r = s := by
  unfold nextNode at h
  rcases Nat.lt_or_ge (r + 1) size with h1 | h1 <;> rcases Nat.lt_or_ge (s + 1) size with h2 | h2
  · rw [Nat.mod_eq_of_lt h1, Nat.mod_eq_of_lt h2] at h; omega
  · have : s + 1 = size := by omega
    rw [Nat.mod_eq_of_lt h1, this, Nat.mod_self] at h; omega
  · have : r + 1 = size := by omega
    rw [Nat.mod_eq_of_lt h2, this, Nat.mod_self] at h; omega
  · omega

theorem exists_prev {size r : ℕ} (hr : r < size) : ∃ p, p < size ∧ nextNode size p = r := by
  rcases Nat.eq_zero_or_pos r with h | h
  · exact ⟨size - 1, by omega, by
      unfold nextNode
      rw [show size - 1 + 1 = size by omega, Nat.mod_self, h]⟩
  · exact ⟨r - 1, by omega, by
      unfold nextNode
      rw [show r - 1 + 1 = r by omega, Nat.mod_eq_of_lt hr]⟩

theorem follows_send {m : M} {p : Proc M A} {t : List (ℕ × Ev M)} {a : A}
    (h : Follows (.send m p) (t.map Prod.snd) a) :
    ∃ c t', t = (c, .snd m) :: t' ∧ Follows p (t'.map Prod.snd) a := by
  cases t with
  | nil => cases h
  | cons e t' =>
    obtain ⟨c, e⟩ := e
    simp only [List.map_cons] at h
    cases h with
    | send h => exact ⟨c, t', rfl, h⟩

theorem follows_recv {k : M → Proc M A} {t : List (ℕ × Ev M)} {a : A}
    (h : Follows (.recv k) (t.map Prod.snd) a) :
    ∃ c m t', t = (c, .rcv m) :: t' ∧ Follows (k m) (t'.map Prod.snd) a := by
  cases t with
  | nil => cases h
  | cons e t' =>
    obtain ⟨c, e⟩ := e
    simp only [List.map_cons] at h
    cases h with
    | recv h => exact ⟨c, _, t', rfl, h⟩

/-- Number of operations still to be done. -/
def remaining (size : ℕ) (tr : ℕ → List (ℕ × Ev M)) : ℕ :=
  ((List.range size).map fun r => (tr r).length).sum

theorem sum_range_update (size r : ℕ) (hr : r < size) (tr : ℕ → List (ℕ × Ev M)) (t : List (ℕ × Ev M)) :
    remaining size (update tr r t) + (tr r).length = remaining size tr + t.length := by
  unfold remaining
  induction size with
  | zero => omega
  | succ n ih =>
    rw [List.range_succ]
    simp only [List.map_append, List.sum_append, List.map_cons, List.map_nil, List.sum_cons, List.sum_nil]
    by_cases h : r = n
    · subst h
      have : (List.range r).map (fun x => (update tr r t x).length)
          = (List.range r).map (fun x => (tr x).length) := by
        apply List.map_congr_left
        intro x hx
        rw [List.mem_range] at hx
        rw [Function.update_of_ne (by omega)]
      rw [this, Function.update_self]
      omega
    · have := ih (by omega)
      rw [Function.update_of_ne (fun h' => h h'.symm)]
      omega

theorem inv_deliver {size : ℕ} {res : ℕ → A} {tr : ℕ → List (ℕ × Ev M)} {n : Net M A}
    (I : Inv size res tr n) {r : ℕ} (hr : r < size) {k : M → Proc M A} {m : M} {ms : List M}
    (hp : n.procs (nextNode size r) = .recv k) (hq : n.queues r = m :: ms) :
    ∃ tr', Inv size res tr' ⟨update n.procs (nextNode size r) (k m), update n.queues r ms⟩ ∧
      remaining size tr' < remaining size tr := by
  set s := nextNode size r with hs
  have hsl : s < size := nextNode_lt hr
  have hf := I.follows s hsl
  rw [hp] at hf
  obtain ⟨c, m', t', ht, hf'⟩ := follows_recv hf
  obtain ⟨q, hq1, hq2⟩ := I.chan r hr
  rw [← hs, ht, recvsOf_rcv] at hq2
  rw [hq] at hq1
  cases q with
  | nil => simp at hq1
  | cons e q =>
    simp only [List.map_cons, List.cons.injEq] at hq1
    simp only [List.cons_append, List.cons.injEq] at hq2
    have hm : m = m' := by rw [← hq1.1, hq2.1]
    subst hm
    refine ⟨update tr s t', ⟨?_, ?_, ?_⟩, ?_⟩
    · intro x hx
      by_cases h : x = s
      · subst h; simpa [Function.update_self] using hf'
      · simpa [Function.update_of_ne h] using I.follows x hx
    · intro x hx
      by_cases h : x = s
      · rw [h, Function.update_self]
        have := I.clocked s hsl
        rw [ht] at this
        exact (List.pairwise_cons.1 this).2
      · simpa [Function.update_of_ne h] using I.clocked x hx
    · intro x hx
      have hsend : sendsOf (update tr s t' x) = sendsOf (tr x) := by
        by_cases h : x = s
        · rw [h, Function.update_self, ht, sendsOf_rcv]
        · rw [Function.update_of_ne h]
      rw [hsend]
      by_cases h : x = r
      · subst h
        refine ⟨q, ?_, ?_⟩
        · simpa [Function.update_self] using hq1.2
        · rw [← hs, Function.update_self]; exact hq2.2
      · obtain ⟨q', h1, h2⟩ := I.chan x hx
        refine ⟨q', ?_, ?_⟩
        · simpa [Function.update_of_ne h] using h1
        · rw [Function.update_of_ne (fun h' => h (nextNode_inj hx hr h'))]; exact h2
    · have := sum_range_update size s hsl tr t'
      rw [ht] at this
      simp only [List.length_cons] at this
      omega

theorem inv_buffer {size : ℕ} {res : ℕ → A} {tr : ℕ → List (ℕ × Ev M)} {n : Net M A}
    (I : Inv size res tr n) {r : ℕ} (hr : r < size) {m : M} {p : Proc M A}
    (hp : n.procs r = .send m p) :
    ∃ tr', Inv size res tr' ⟨update n.procs r p, update n.queues r (n.queues r ++ [m])⟩ ∧
      remaining size tr' < remaining size tr := by
  have hf := I.follows r hr
  rw [hp] at hf
  obtain ⟨c, t', ht, hf'⟩ := follows_send hf
  refine ⟨update tr r t', ⟨?_, ?_, ?_⟩, ?_⟩
  · intro x hx
    by_cases h : x = r
    · subst h; simpa [Function.update_self] using hf'
    · simpa [Function.update_of_ne h] using I.follows x hx
  · intro x hx
    by_cases h : x = r
    · rw [h, Function.update_self]
      have := I.clocked r hr
      rw [ht] at this
      exact (List.pairwise_cons.1 this).2
    · simpa [Function.update_of_ne h] using I.clocked x hx
  · intro x hx
    have hrecv : recvsOf (update tr r t' (nextNode size x)) = recvsOf (tr (nextNode size x)) := by
      by_cases h : nextNode size x = r
      · rw [h, Function.update_self, ht, recvsOf_snd]
      · rw [Function.update_of_ne h]
    rw [hrecv]
    obtain ⟨q, h1, h2⟩ := I.chan x hx
    by_cases h : x = r
    · subst h
      refine ⟨q ++ [(c, m)], ?_, ?_⟩
      · simp [Function.update_self, h1]
      · rw [← h2, Function.update_self, ht, sendsOf_snd]; simp
    · refine ⟨q, ?_, ?_⟩
      · simpa [Function.update_of_ne h] using h1
      · rw [Function.update_of_ne h]; exact h2
  · have := sum_range_update size r hr tr t'
    rw [ht] at this
    simp only [List.length_cons] at this
    omega

theorem inv_step {size : ℕ} {res : ℕ → A} {tr : ℕ → List (ℕ × Ev M)} {n n' : Net M A}
    (I : Inv size res tr n) (h : Step size n n') :
    ∃ tr', Inv size res tr' n' ∧ remaining size tr' < remaining size tr := by
  cases h with
  | buffer r hr m p hs => exact inv_buffer I hr hs
  | strict _ h =>
    cases h with
    | deliver r hr k m ms hp hq => exact inv_deliver I hr hp hq
    | meet r hr m p k hs hp hq =>
      obtain ⟨tr1, I1, l1⟩ := inv_buffer I hr hs
      have hne : nextNode size r ≠ r := by
        intro h; rw [h, hs] at hp; cases hp
      obtain ⟨tr2, I2, l2⟩ := inv_deliver (n := ⟨update n.procs r p, update n.queues r (n.queues r ++ [m])⟩)
        I1 hr (k := k) (m := m) (ms := [])
        (by simpa [Function.update_of_ne hne] using hp) (by simp [Function.update_self, hq])
      refine ⟨tr2, ?_, by omega⟩
      have : update (update n.queues r (n.queues r ++ [m])) r [] = n.queues := by
        rw [Function.update_idem, ← hq, Function.update_eq_self]
      simpa [this] using I2

theorem head_le_of_mem {t : List (ℕ × Ev M)} (h : Clocked t) {e : ℕ × Ev M} (he : e ∈ t) :
    ∃ c ev t', t = (c, ev) :: t' ∧ (c < e.1 ∨ (c, ev) = e) := by
  cases t with
  | nil => cases he
  | cons a t' =>
    refine ⟨a.1, a.2, t', rfl, ?_⟩
    rcases List.mem_cons.1 he with h' | h'
    · exact Or.inr h'.symm
    · exact Or.inl ((List.pairwise_cons.1 h).1 e h')

theorem mem_of_mem_recvsOf {t : List (ℕ × Ev M)} {c : ℕ} {m : M} (h : (c, m) ∈ recvsOf t) :
    (c, Ev.rcv m) ∈ t := by
  unfold recvsOf at h
  rw [List.mem_filterMap] at h
  obtain ⟨⟨c', e⟩, h1, h2⟩ := h
  cases e with
  | snd _ => simp at h2
  | rcv m' =>
    simp only [Option.some.injEq, Prod.mk.injEq] at h2
    rw [← h2.1, ← h2.2]; exact h1

theorem mem_of_mem_sendsOf {t : List (ℕ × Ev M)} {c : ℕ} {m : M} (h : (c, m) ∈ sendsOf t) :
    (c, Ev.snd m) ∈ t := by
  unfold sendsOf at h
  rw [List.mem_filterMap] at h
  obtain ⟨⟨c', e⟩, h1, h2⟩ := h
  cases e with
  | rcv _ => simp at h2
  | snd m' =>
    simp only [Option.some.injEq, Prod.mk.injEq] at h2
    rw [← h2.1, ← h2.2]; exact h1

theorem recvsOf_sorted {t : List (ℕ × Ev M)} (h : Clocked t) :
    (recvsOf t).Pairwise (fun a b => a.1 < b.1) := by
  induction t with
  | nil => simp
  | cons e t ih =>
    obtain ⟨c, e⟩ := e
    rw [Clocked, List.pairwise_cons] at h
    cases e with
    | snd m => simpa using ih h.2
    | rcv m =>
      rw [recvsOf_rcv, List.pairwise_cons]
      refine ⟨?_, ih h.2⟩
      rintro ⟨c', m'⟩ hm
      exact h.1 _ (mem_of_mem_recvsOf hm)

/-- As long as some process has an operation left, a step that needs no buffer space is possible. -/
theorem progress {size : ℕ} {res : ℕ → A} {tr : ℕ → List (ℕ × Ev M)} {n : Net M A}
    (I : Inv size res tr n) : ∀ (c r : ℕ), r < size → (∃ ev t', tr r = (c, ev) :: t') →
      ∃ n', StrictStep size n n' := by
  intro c
  induction c using Nat.strong_induction_on with
  | _ c ih =>
    rintro r hr ⟨ev, t', ht⟩
    have hf := I.follows r hr
    rw [ht, List.map_cons] at hf
    cases ev with
    | snd m =>
      -- next rank must receive this message or an earlier one
      obtain ⟨q, hq1, hq2⟩ := I.chan r hr
      rw [ht, sendsOf_snd] at hq2
      have hs := nextNode_lt hr
      -- the first pending receive of the next rank
      have key : ∀ c0 m0 rest, recvsOf (tr (nextNode size r)) = (c0, m0) :: rest → c0 ≤ c →
          (∃ n', StrictStep size n n') ∨ ∃ k t0, n.procs (nextNode size r) = .recv k ∧
            tr (nextNode size r) = (c0, .rcv m0) :: t0 := by
        intro c0 m0 rest hrec hle
        obtain ⟨c1, ev1, t1, h1, h2⟩ := head_le_of_mem (I.clocked _ hs)
          (mem_of_mem_recvsOf (by rw [hrec]; simp : (c0, m0) ∈ recvsOf (tr (nextNode size r))))
        rcases h2 with h2 | h2
        · exact Or.inl (ih c1 (by simp at h2; omega) _ hs ⟨ev1, t1, h1⟩)
        · right
          simp only [Prod.mk.injEq] at h2
          have hf1 := I.follows _ hs
          rw [h1, List.map_cons, h2.2] at hf1
          generalize hpr : n.procs (nextNode size r) = pr at hf1
          cases hf1 with
          | recv h => exact ⟨_, t1, rfl, by rw [h1, h2.1, h2.2]⟩
      cases q with
      | nil =>
        rw [List.nil_append] at hq2
        rcases key c m _ hq2.symm le_rfl with h | ⟨k, t0, hk, _⟩
        · exact h
        · generalize hpr : n.procs r = pr at hf
          cases hf with
          | send h => exact ⟨_, StrictStep.meet n r hr m _ k hpr hk (by simpa using hq1.symm)⟩
      | cons e q =>
        obtain ⟨c0, m0⟩ := e
        have hsorted := recvsOf_sorted (I.clocked _ hs)
        rw [← hq2] at hsorted
        have hlt : c0 < c := by
          rw [List.cons_append, List.pairwise_cons] at hsorted
          exact hsorted.1 (c, m) (by simp)
        rcases key c0 m0 _ hq2.symm hlt.le with h | ⟨k, t0, hk, _⟩
        · exact h
        · exact ⟨_, StrictStep.deliver n r hr k m0 (q.map Prod.snd) hk (by rw [← hq1]; rfl)⟩
    | rcv m =>
      obtain ⟨p, hp, hpr⟩ := exists_prev hr
      obtain ⟨q, hq1, hq2⟩ := I.chan p hp
      rw [hpr, ht, recvsOf_rcv] at hq2
      generalize hprc : n.procs r = pr at hf
      cases hf with
      | recv h =>
        rename_i k
        cases q with
        | cons e q =>
          obtain ⟨c0, m0⟩ := e
          exact ⟨_, StrictStep.deliver n p hp k m0 (q.map Prod.snd) (by rw [hpr, hprc]) (by rw [← hq1]; rfl)⟩
        | nil =>
          rw [List.nil_append] at hq2
          obtain ⟨c1, ev1, t1, h1, h2⟩ := head_le_of_mem (I.clocked _ hp)
            (mem_of_mem_sendsOf (by rw [hq2]; simp : (c, m) ∈ sendsOf (tr p)))
          rcases h2 with h2 | h2
          · exact ih c1 h2 _ hp ⟨ev1, t1, h1⟩
          · simp only [Prod.mk.injEq] at h2
            have hf1 := I.follows _ hp
            rw [h1, List.map_cons, h2.2] at hf1
            generalize hpp : n.procs p = pp at hf1
            cases hf1 with
            | send h' => exact ⟨_, StrictStep.meet n p hp m _ k hpp (by rw [hpr, hprc]) (by simpa using hq1.symm)⟩

theorem finished_of_empty {size : ℕ} {res : ℕ → A} {tr : ℕ → List (ℕ × Ev M)} {n : Net M A}
    (I : Inv size res tr n) (h : ∀ r, r < size → tr r = []) : n.Finished size res := by
  intro r hr
  have hf := I.follows r hr
  rw [h r hr] at hf
  obtain ⟨q, hq1, hq2⟩ := I.chan r hr
  rw [h r hr, h _ (nextNode_lt hr)] at hq2
  simp at hq2
  refine ⟨?_, by rw [← hq1, hq2]; rfl⟩
  generalize n.procs r = p at hf
  cases hf
  rfl

/-- The ring theorem: if there are clocked traces that the processes follow and whose sends match the receives of the next
rank (same messages, same clocks), then every execution of the ring, under every schedule and every choice of buffering,
(a) never reaches a state from which no buffer-free step is possible unless everything is finished, (b) has at most the number
of operations as length, and (c) ends with the results of the traces and empty queues. -/
theorem ring_runs {size : ℕ} (procs : ℕ → Proc M A) (res : ℕ → A) (tr : ℕ → List (ℕ × Ev M))
    (hf : ∀ r, r < size → Follows (procs r) ((tr r).map Prod.snd) (res r))
    (hc : ∀ r, r < size → Clocked (tr r))
    (hm : ∀ r, r < size → sendsOf (tr r) = recvsOf (tr (nextNode size r)))
    (k : ℕ) (n : Net M A) (hn : Steps size k ⟨procs, fun _ => []⟩ n) :
    (n.Finished size res ∨ ∃ n', StrictStep size n n') ∧
    ((∀ n', ¬ Step size n n') → n.Finished size res) ∧
    k ≤ remaining size tr := by
  have main : ∃ tr', Inv size res tr' n ∧ k + remaining size tr' ≤ remaining size tr := by
    generalize h0 : (⟨procs, fun _ => []⟩ : Net M A) = n0 at hn
    induction hn with
    | refl n0 =>
      subst h0
      exact ⟨tr, ⟨hf, hc, fun r hr => ⟨[], rfl, by simpa using hm r hr⟩⟩, by omega⟩
    | tail h s ih =>
      obtain ⟨tr', I, hle⟩ := ih h0
      obtain ⟨tr'', I', hlt⟩ := inv_step I s
      exact ⟨tr'', I', by omega⟩
  obtain ⟨tr', I, hle⟩ := main
  have first : n.Finished size res ∨ ∃ n', StrictStep size n n' := by
    by_cases h : ∀ r, r < size → tr' r = []
    · exact Or.inl (finished_of_empty I h)
    · push Not at h
      obtain ⟨r, hr, hne⟩ := h
      obtain ⟨⟨c, ev⟩, t', ht⟩ := List.exists_cons_of_ne_nil hne
      exact Or.inr (progress I c r hr ⟨ev, t', ht⟩)
  refine ⟨first, ?_, by omega⟩
  intro hno
  rcases first with h | ⟨n', h⟩
  · exact h
  · exact absurd (Step.strict n n' h) (hno n')

end Lcode.Mpi
