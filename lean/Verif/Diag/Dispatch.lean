import Mathlib.Data.List.Basic
import Mathlib.Tactic.Common

/-!
Property C81 (continued): the old collection of diagnostics, `Diagnostics2d` of lcode/diagnostics/diagnostics_class.py, which calls user functions in every layer. (The two functions of lcode/diagnostics/process.py do nothing.)
-/

namespace Lcode.Diag.Dispatch

variable {F P A S E : Type}

/-- `self.dxi_diag[diag_name]`, diagnostics_class.py:9. A missing key (impossible in the loop) would be a KeyError: `none`. -/
def lookup (d : List (String × (F × P))) (name : String) : Option (F × P) := (d.find? fun kv => kv.1 == name).map Prod.snd

/-- One turn of the loop, diagnostics_class.py:8-10: `call f pars args s` is the effect of `diag(self, t, layer_idx, ..., **pars)` on everything the functions can change; after an exception nothing more is called. -/
def turn (call : F → P → A → S → Except E S) (d : List (String × (F × P))) (args : A) (r : Option (Except E S)) (name : String) : Option (Except E S) :=
  match r with
  | some (.ok s) => (lookup d name).map fun fp => call fp.1 fp.2 args s
  | r => r

/-- `Diagnostics2d.process`, diagnostics_class.py:7-11. -/
def process (call : F → P → A → S → Except E S) (d : List (String × (F × P))) (args : A) (s : S) : Option (Except E S) :=
  (d.map Prod.fst).foldl (turn call d args) (some (.ok s))

/-- Specification: the functions one after the other, in the order of the dictionary, each with its own parameters, until one raises. -/
def inOrder (call : F → P → A → S → Except E S) : List (F × P) → A → S → Except E S
  | [], _, s => .ok s
  | (f, p) :: r, args, s => match call f p args s with
    | .ok s' => inOrder call r args s'
    | .error e => .error e

theorem foldl_stop (call : F → P → A → S → Except E S) (d : List (String × (F × P))) (args : A) (names : List String) (e : E) :
    names.foldl (turn call d args) (some (.error e)) = some (.error e) := by
  induction names with
  | nil => rfl
  | cons a names ih => rw [List.foldl_cons]; exact ih

/-- C81: one call of `process` calls every function of the dictionary exactly once, in order, with its own parameters, and stops at the first exception; the lookup never fails. -/
theorem process_calls (call : F → P → A → S → Except E S) (d : List (String × (F × P))) (hd : (d.map Prod.fst).Nodup) (args : A) (s : S) :
    process call d args s = some (inOrder call (d.map Prod.snd) args s) := by
  have look : ∀ kv ∈ d, lookup d kv.1 = some kv.2 := by
    intro kv hkv
    unfold lookup
    cases hf : d.find? (fun x => x.1 == kv.1) with
    | none =>
      rw [List.find?_eq_none] at hf
      exact absurd (beq_self_eq_true kv.1) (hf kv hkv)
    | some x =>
      have h1 := List.find?_some hf
      have h2 := List.mem_of_find?_eq_some hf
      simp only [beq_iff_eq] at h1
      have : x = kv := by
        have key : ∀ l : List (String × (F × P)), (l.map Prod.fst).Nodup → x ∈ l → kv ∈ l → x = kv := by
          intro l
          induction l with
          | nil => intro _ h; cases h
          | cons a r ih =>
            intro hn hx hk
            rw [List.map_cons, List.nodup_cons] at hn
            rcases List.mem_cons.mp hx with e1 | hx' <;> rcases List.mem_cons.mp hk with e2 | hk'
            · rw [e1, e2]
            · exact absurd (List.mem_map.mpr ⟨kv, hk', by rw [← h1, e1]⟩) hn.1
            · exact absurd (List.mem_map.mpr ⟨x, hx', by rw [h1, e2]⟩) hn.1
            · exact ih hn.2 hx' hk'
        exact key d hd h2 hkv
      rw [this]; rfl
  have main : ∀ (l : List (String × (F × P))), (∀ kv ∈ l, kv ∈ d) → ∀ s, (l.map Prod.fst).foldl (turn call d args) (some (.ok s)) = some (inOrder call (l.map Prod.snd) args s) := by
    intro l
    induction l with
    | nil => intro _ s; rfl
    | cons a l ih =>
      intro hl s
      rw [List.map_cons, List.foldl_cons]
      have e : turn call d args (some (.ok s)) a.1 = some (call a.2.1 a.2.2 args s) := by
        unfold turn; simp only [look a (hl a (List.mem_cons_self ..)), Option.map_some]
      rw [e]
      rw [List.map_cons]
      obtain ⟨n, f, p⟩ := a
      simp only [inOrder]
      cases call f p args s with
      | ok s' => exact ih (fun kv h => hl kv (List.mem_cons_of_mem _ h)) s'
      | error e => exact foldl_stop call d args _ e
  exact main d (fun _ h => h) s

/-- `process` called for one more layer, with functions that only enter their call in a log. -/
def logLayer (d : List (String × (F × P))) (r : Option (Except Unit (List (F × P × A)))) (a : A) : Option (Except Unit (List (F × P × A))) :=
  match r with
  | some (.ok s) => process (fun f p a s => .ok (s ++ [(f, p, a)])) d a s
  | r => r

/-- C81: over any number of layers, with functions that do not raise, the log of calls is: for every layer, in order, every function once, in the order of the dictionary. -/
theorem process_log (d : List (String × (F × P))) (hd : (d.map Prod.fst).Nodup) (layers : List A) :
    layers.foldl (logLayer d) (some (.ok [])) = some (.ok (layers.flatMap fun a => d.map fun kv => (kv.2.1, kv.2.2, a))) := by
  have one : ∀ (l : List (F × P)) (a : A) (s : List (F × P × A)), inOrder (E := Unit) (fun f p a s => .ok (s ++ [(f, p, a)])) l a s = .ok (s ++ l.map fun fp => (fp.1, fp.2, a)) := by
    intro l a
    induction l with
    | nil => intro s; simp [inOrder]
    | cons x l ih => intro s; obtain ⟨f, p⟩ := x; simp only [inOrder]; rw [ih]; simp
  have gen : ∀ (acc : List (F × P × A)), layers.foldl (logLayer d) (some (.ok acc)) = some (.ok (acc ++ layers.flatMap fun a => d.map fun kv => (kv.2.1, kv.2.2, a))) := by
    induction layers with
    | nil => intro acc; simp
    | cons a layers ih =>
      intro acc
      rw [List.foldl_cons]
      have e : logLayer d (some (.ok acc)) a = some (.ok (acc ++ (d.map Prod.snd).map fun fp => (fp.1, fp.2, a))) := by
        unfold logLayer; simp only [process_calls _ d hd, one]
      rw [e, ih, List.flatMap_cons, List.append_assoc, List.map_map]
      rfl
  simpa using gen []

/-- Two functions, two layers; the second function raises in layer 1. -/
theorem dispatch_case : (process (E := String) (fun f p a (s : List (ℕ × ℕ × ℕ)) => if f = 2 ∧ a = 1 then .error "x" else .ok (s ++ [(f, p, a)])) [("e", (1, 10)), ("b", (2, 20))] 0 []) = some (.ok [(1, 10, 0), (2, 20, 0)]) ∧
    (process (E := String) (fun f p a (s : List (ℕ × ℕ × ℕ)) => if f = 2 ∧ a = 1 then .error "x" else .ok (s ++ [(f, p, a)])) [("e", (1, 10)), ("b", (2, 20)), ("c", (3, 30))] 1 []) = some (.error "x") := by
  constructor
  · rw [process_calls _ _ (by decide)]; rfl
  · rw [process_calls _ _ (by decide)]; rfl

end Lcode.Diag.Dispatch
