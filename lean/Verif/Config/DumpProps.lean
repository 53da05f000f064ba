import Verif.Config.DumpText
import Mathlib.Tactic.FinCases

/-! Properties of the runas file. -/

namespace Lcode.Cfg

open Lcode.Py

/-! ### Characters of the written texts -/

theorem inert_append {a b : List Char} (ha : ':' ∉ a) (hb : inert b = true) (hb' : b.head? ≠ some ':') :
    inert (a ++ b) = true := by
  induction a with
  | nil => exact hb
  | cons c a ih =>
    have h1 := ih (fun h => ha (List.mem_cons_of_mem _ h))
    rw [List.cons_append, inert, h1, Bool.and_true]
    have : (a ++ b).head? ≠ some ':' := by
      cases a with
      | nil => exact hb'
      | cons x a =>
        intro h
        simp only [List.cons_append, List.head?_cons, Option.some.injEq] at h
        exact ha (by simp [h])
    have h2 : ((a ++ b).head? == some ':') = false := by simpa using this
    rw [h2, Bool.and_false]; rfl

theorem inert_of_noColon {a : List Char} (ha : ':' ∉ a) : inert a = true := by
  have := inert_append (b := []) ha rfl (by simp)
  simpa using this

theorem nat_chars (n : ℕ) (c : Char) (h : c ∈ (toString n).toList) : c.isDigit = true := by
  have : toString n = n.repr := rfl
  rw [this] at h
  simp only [Nat.toList_repr] at h
  exact Nat.isDigit_of_mem_toDigits (by omega) (by omega) h

theorem int_chars (i : ℤ) (c : Char) (h : c ∈ (toString i).toList) : c.isDigit = true ∨ c = '-' := by
  cases i with
  | ofNat n => left; exact nat_chars n c h
  | negSucc n =>
    have e : toString (Int.negSucc n) = "-" ++ (n + 1).repr := rfl
    rw [e, String.toList_append] at h
    simp only [List.mem_append] at h
    rcases h with h | h
    · right; simpa using h
    · left; exact nat_chars (n + 1) c h

theorem toLower_special (c : Char) (d : Char) (hd : d ∈ [':', ',', '\n', '\'']) (h : c.toLower = d) : c = d := by
  unfold Char.toLower at h
  split at h
  · rename_i hc
    exfalso
    obtain ⟨h1, h2⟩ := hc
    have e := congrArg (fun x : Char => x.val.toNat) h
    simp only at e
    have h1' : 65 ≤ c.val.toNat := UInt32.le_iff_toNat_le.mp h1
    have h2' : c.val.toNat ≤ 90 := UInt32.le_iff_toNat_le.mp h2
    have h3 : (c.val + ('a'.val - 'A'.val)).toNat = c.val.toNat + 32 := by
      rw [UInt32.toNat_add]
      have : ('a'.val - 'A'.val).toNat = 32 := by decide
      rw [this]
      omega
    rw [h3] at e
    simp only [List.mem_cons, List.not_mem_nil, or_false] at hd
    have v1 : (':' : Char).val.toNat = 58 := rfl
    have v2 : (',' : Char).val.toNat = 44 := rfl
    have v3 : ('\n' : Char).val.toNat = 10 := rfl
    have v4 : ('\'' : Char).val.toNat = 39 := rfl
    rcases hd with rfl | rfl | rfl | rfl <;> omega
  · exact h

theorem lower_noColon (s : String) (h : ':' ∉ s.toList) : ':' ∉ lower s := by
  intro h'
  rw [lower, List.mem_map] at h'
  obtain ⟨c, hc, e⟩ := h'
  exact h (toLower_special c ':' (by simp) e ▸ hc)

theorem mem_strip {c : Char} {s : List Char} (h : c ∈ strip s) : c ∈ s := by
  unfold strip at h
  rw [List.mem_reverse] at h
  have h1 := (List.dropWhile_suffix _).subset h
  rw [List.mem_reverse] at h1
  exact (List.dropWhile_suffix _).subset h1

theorem mem_of_mem_splitOn {c d : Char} {s l : List Char} (hl : l ∈ s.splitOn d) (hc : c ∈ l) : c ∈ s := by
  have h1 : (List.intercalate [d] (s.splitOn d)) = s := List.intercalate_splitOn d
  rw [← h1]
  clear h1
  generalize s.splitOn d = L at hl
  induction L with
  | nil => cases hl
  | cons a L ih =>
    cases L with
    | nil =>
      rw [List.mem_singleton] at hl
      subst hl
      simpa using hc
    | cons b L =>
      rw [List.intercalate_cons_cons]
      rcases List.mem_cons.mp hl with rfl | hl
      · simp [hc]
      · simp only [List.mem_append]
        right
        exact ih hl

theorem mem_intercalate {c d : Char} {L : List (List Char)} (h : c ∈ List.intercalate [d] L) :
    c = d ∨ ∃ l ∈ L, c ∈ l := by
  induction L with
  | nil => simp at h
  | cons a L ih =>
    cases L with
    | nil => right; exact ⟨a, by simp, by simpa using h⟩
    | cons b L =>
      rw [List.intercalate_cons_cons] at h
      simp only [List.mem_append, List.mem_singleton] at h
      rcases h with (h | h) | h
      · right; exact ⟨a, by simp, h⟩
      · left; exact h
      · rcases ih h with h | ⟨l, hl, hc⟩
        · left; exact h
        · right; exact ⟨l, List.mem_cons_of_mem _ hl, hc⟩

theorem profile_noColon (s : String) (h : ':' ∉ s.toList) : ':' ∉ profileText s := by
  intro h'
  unfold profileText at h'
  simp only [List.mem_append, List.mem_cons] at h'
  have hi : ':' ∉ indent8 := by decide
  rcases h' with h' | h' | (h' | h') | h'
  · revert h'; decide
  · rcases mem_intercalate h' with h' | ⟨l, hl, hc⟩
    · revert h'; decide
    · rw [List.mem_map] at hl
      obtain ⟨l', hl', rfl⟩ := hl
      rw [List.mem_append] at hc
      rcases hc with hc | hc
      · exact hi hc
      · exact lower_noColon s h (mem_strip (mem_of_mem_splitOn hl' (mem_strip hc)))
  · revert h'; decide
  · exact hi h'
  · revert h'; decide

/-! ### Which files are covered -/

/-- The dictionaries the theorems are about: keys without quotes, texts without colons, printed
numbers without colons, commas and line breaks. -/
structure Writable (env : Env) (items : List (String × Stored)) : Prop where
  nodup : (items.map Prod.fst).Nodup
  keys : ∀ kv ∈ items, '\'' ∉ kv.1.toList
  strs : ∀ k s, (k, Stored.val (.str s)) ∈ items → ':' ∉ s.toList
  fns : ∀ k r, (k, Stored.fn r) ∈ items → ':' ∉ r.toList
  floats : ∀ q, ∀ c ∈ [':', ',', '\n'], c ∉ (env.showFloat q).toList
  width : ∀ s, ("window-width", Stored.val (.str s)) ∈ items → ',' ∉ s.toList ∧ '\n' ∉ s.toList

theorem str_noColon {env : Env} {items : List (String × Stored)} (h : Writable env items) (k : String) (v : PyVal)
    (hm : (k, Stored.val v) ∈ items) : ':' ∉ (str env v).toList := by
  cases v with
  | str s => exact h.strs k s hm
  | int i =>
    intro hc
    rcases int_chars i _ hc with h' | h' <;> revert h' <;> decide
  | float q => exact h.floats q ':' (by simp)
  | bool b => cases b <;> simp [str]
  | none => simp [str]

theorem str_noBreak {env : Env} {items : List (String × Stored)} (h : Writable env items) (v : PyVal)
    (hm : ("window-width", Stored.val v) ∈ items) : ',' ∉ (str env v).toList ∧ '\n' ∉ (str env v).toList := by
  cases v with
  | str s => exact h.width s hm
  | int i =>
    constructor <;> intro hc <;> rcases int_chars i _ hc with h' | h' <;> revert h' <;> decide
  | float q => exact ⟨h.floats q ',' (by simp), h.floats q '\n' (by simp)⟩
  | bool b => cases b <;> simp [str]
  | none => simp [str]

/-- The cases of `action`. -/
theorem action_write {env : Env} {k : String} {v : Stored} {p : Tail} {t : List Char}
    (ha : action env k v = .write p t) :
    (k = "plasma-zshape" ∧ p = .fixed emptyProfile ∧ ∃ s, v = .val (.str s) ∧ t = profileText s) ∨
    (k ≠ "plasma-zshape" ∧ p = .lazyComma ∧
      ((k = "plasma-rshape" ∧ ∃ s, v = .val (.str s) ∧ t = profileText s) ∨
       (∃ r, v = .fn r ∧ t = "'external function ".toList ++ r.toList ++ ['\'']) ∨
       (∃ s, v = .val (.str s) ∧ t = '\'' :: lower s ++ ['\'']) ∨
       (∃ w, v = .val w ∧ t = (str env w).toList) ∨
       (∃ r, v = .fn r ∧ t = r.toList))) := by
  unfold action at ha
  by_cases h1 : k ∈ strKeys
  · rw [if_pos h1] at ha
    by_cases h2 : k = "plasma-zshape"
    · rw [if_pos h2] at ha
      left
      refine ⟨h2, ?_⟩
      split at ha
      · simp only [Action.write.injEq] at ha
        exact ⟨ha.1.symm, _, rfl, ha.2.symm⟩
      · simp at ha
    · rw [if_neg h2] at ha
      right
      refine ⟨h2, ?_⟩
      by_cases h3 : k = "plasma-rshape"
      · rw [if_pos h3] at ha
        split at ha
        · simp at ha
        · simp at ha
        · split_ifs at ha
          simp only [Action.write.injEq] at ha
          exact ⟨ha.1.symm, .inl ⟨h3, _, rfl, ha.2.symm⟩⟩
        · simp at ha
      · rw [if_neg h3] at ha
        split at ha
        · split_ifs at ha
          simp only [Action.write.injEq] at ha
          exact ⟨ha.1.symm, .inr (.inl ⟨_, rfl, ha.2.symm⟩)⟩
        · simp only [Action.write.injEq] at ha
          exact ⟨ha.1.symm, .inr (.inr (.inl ⟨_, rfl, ha.2.symm⟩))⟩
        · simp at ha
  · have hne : k ≠ "plasma-zshape" := fun h => h1 (by rw [h]; decide)
    rw [if_neg h1] at ha
    right
    refine ⟨hne, ?_⟩
    split at ha
    · simp only [Action.write.injEq] at ha
      exact ⟨ha.1.symm, .inr (.inr (.inr (.inl ⟨_, rfl, ha.2.symm⟩)))⟩
    · simp only [Action.write.injEq] at ha
      exact ⟨ha.1.symm, .inr (.inr (.inr (.inr ⟨_, rfl, ha.2.symm⟩)))⟩

theorem action_noColon {env : Env} {items : List (String × Stored)} (h : Writable env items) {kv : String × Stored}
    (hm : kv ∈ items) {p : Tail} {t : List Char} (ha : action env kv.1 kv.2 = .write p t) : ':' ∉ t := by
  obtain ⟨k, v⟩ := kv
  have q : ∀ s : List Char, ':' ∉ s → ':' ∉ '\'' :: s ++ ['\''] := by
    intro s hs hc
    simp only [List.cons_append, List.mem_cons, List.mem_append, List.not_mem_nil, or_false] at hc
    rcases hc with hc | hc | hc
    · revert hc; decide
    · exact hs hc
    · revert hc; decide
  rcases action_write ha with ⟨_, _, s, rfl, rfl⟩ | ⟨_, _, ⟨_, s, rfl, rfl⟩ | ⟨r, rfl, rfl⟩ | ⟨s, rfl, rfl⟩ |
    ⟨w, rfl, rfl⟩ | ⟨r, rfl, rfl⟩⟩
  · exact profile_noColon _ (h.strs k _ hm)
  · exact profile_noColon _ (h.strs k _ hm)
  · intro hc
    rw [List.mem_append, List.mem_append] at hc
    rcases hc with (hc | hc) | hc
    · revert hc; decide
    · exact h.fns k _ hm hc
    · revert hc; decide
  · exact q _ (lower_noColon _ (h.strs k _ hm))
  · exact str_noColon h k _ hm
  · exact h.fns k _ hm

/-! ### The loop on a text made of entries -/

def toEnt (e : String × String × String) : Ent := ⟨e.1.toList, e.2.1.toList, e.2.2.toList⟩

/-- Effect of one item on one entry. -/
def applyItem (env : Env) (kv : String × Stored) (e : Ent) : Ent :=
  match action env kv.1 kv.2 with
  | .write _ t => setVal kv.1.toList t e
  | _ => e

theorem applyItem_key (env : Env) (kv : String × Stored) (e : Ent) : (applyItem env kv e).key = e.key := by
  unfold applyItem setVal
  split
  · split_ifs <;> rfl
  · rfl

theorem applyItem_tail (env : Env) (kv : String × Stored) (e : Ent) : (applyItem env kv e).tail = e.tail := by
  unfold applyItem setVal
  split
  · split_ifs <;> rfl
  · rfl

theorem ok_val {e : Ent} (he : e.Ok) {t : List Char} (ht : ':' ∉ t) : Ent.Ok { e with val := t } := by
  refine ⟨he.noquote, he.start, ?_⟩
  have h1 : inert (',' :: e.tail) = true :=
    inert_append_right (a := e.val) (inert_tail (inert_tail he.body))
  have h2 := inert_append ht h1 (by simp)
  simp only [inert, h2]
  rfl

theorem applyItem_ok {env : Env} {items : List (String × Stored)} (h : Writable env items) {kv : String × Stored}
    (hm : kv ∈ items) {e : Ent} (he : e.Ok) : (applyItem env kv e).Ok := by
  unfold applyItem
  split
  · rename_i p t ha
    unfold setVal
    split_ifs
    · exact ok_val he (action_noColon h hm ha)
    · exact he
  · exact he

theorem action_tail {env : Env} {k : String} {v : Stored} {p : Tail} {t : List Char}
    (ha : action env k v = .write p t) :
    (k = "plasma-zshape" ∧ p = .fixed emptyProfile) ∨ (k ≠ "plasma-zshape" ∧ p = .lazyComma) := by
  rcases action_write ha with ⟨h1, h2, _⟩ | ⟨h1, h2, _⟩
  · exact .inl ⟨h1, h2⟩
  · exact .inr ⟨h1, h2⟩

/-- The value of an entry not yet visited. -/
def Fresh (e : Ent) : Prop :=
  (e.key = "plasma-zshape".toList → e.val = emptyProfile) ∧
  (e.key ≠ "plasma-zshape".toList → ',' ∉ e.val ∧ '\n' ∉ e.val)

theorem toList_inj {a b : String} (h : a.toList = b.toList) : a = b := String.toList_inj.mp h

theorem dumpItem_doc {env : Env} {items : List (String × Stored)} (h : Writable env items) {kv : String × Stored}
    (hm : kv ∈ items) (hd : List Char) (d : List Ent) (hh : inert hd = true) (hok : ∀ e ∈ d, e.Ok)
    (hf : ∀ e ∈ d, e.key = kv.1.toList → Fresh e) (hnf : ∀ (_ : action env kv.1 kv.2 = .fail), False) :
    dumpItem env (hd ++ docText d) kv = some (hd ++ docText (d.map (applyItem env kv))) := by
  unfold dumpItem
  cases ha : action env kv.1 kv.2 with
  | fail => exact absurd ha hnf
  | skip =>
    have : applyItem env kv = id := by funext e; unfold applyItem; rw [ha]; rfl
    simp [this]
  | write p t =>
    have e1 : applyItem env kv = setVal kv.1.toList t := by funext e; unfold applyItem; rw [ha]
    simp only
    rw [e1, sub_head (h.keys kv hm) p t hd d hh hok]
    intro e he hk s
    have hfe := hf e he hk
    rcases action_tail ha with ⟨hz, rfl⟩ | ⟨hz, rfl⟩
    · have := hfe.1 (by rw [hk, hz])
      rw [Tail.len, this, if_pos (List.prefix_append _ _)]
    · have hne : e.key ≠ "plasma-zshape".toList := by
        rw [hk]; exact fun h' => hz (toList_inj h')
      exact upToComma_val _ _ (hfe.2 hne).1 (hfe.2 hne).2

theorem dumpItems_doc {env : Env} {items : List (String × Stored)} (h : Writable env items) :
    ∀ (l : List (String × Stored)), l <:+ items → ∀ (hd : List Char) (d : List Ent), inert hd = true →
    (∀ e ∈ d, e.Ok) → (∀ kv ∈ l, ∀ e ∈ d, e.key = kv.1.toList → Fresh e) →
    (∀ kv ∈ l, action env kv.1 kv.2 ≠ .fail) →
    dumpItems env (hd ++ docText d) l =
      some (hd ++ docText (d.map (fun e => l.foldl (fun e kv => applyItem env kv e) e))) := by
  intro l
  induction l with
  | nil => intro _ hd d _ _ _ _; simp [dumpItems]
  | cons kv l ih =>
    intro hs hd d hh hok hf hnf
    have hm : kv ∈ items := hs.subset (by simp)
    have hs' : l <:+ items := (List.suffix_cons kv l).trans hs
    rw [dumpItems, dumpItem_doc h hm hd d hh hok (hf kv (by simp)) (hnf kv (by simp))]
    simp only
    have hnd : (kv.1 :: l.map Prod.fst).Nodup := by
      have := List.Nodup.sublist (hs.sublist.map Prod.fst) h.nodup
      simpa using this
    rw [ih hs' hd _ hh]
    · rw [List.map_map]; rfl
    · intro e he
      rw [List.mem_map] at he
      obtain ⟨e', he', rfl⟩ := he
      exact applyItem_ok h hm (hok e' he')
    · intro kv' hkv' e he hk
      rw [List.mem_map] at he
      obtain ⟨e', he', rfl⟩ := he
      rw [applyItem_key] at hk
      have hne : e'.key ≠ kv.1.toList := by
        rw [hk]
        intro h'
        have := toList_inj h'
        exact (List.nodup_cons.mp hnd).1 (by rw [← this]; exact List.mem_map_of_mem hkv')
      have : applyItem env kv e' = e' := by
        unfold applyItem setVal
        split
        · rw [if_neg hne]
        · rfl
      rw [this]
      exact hf kv' (by simp [hkv']) e' he' hk
    · exact fun kv' hkv' => hnf kv' (by simp [hkv'])

theorem dumpItems_none {env : Env} (l : List (String × Stored)) :
    (∃ kv ∈ l, action env kv.1 kv.2 = .fail) → ∀ t, dumpItems env t l = none := by
  induction l with
  | nil => rintro ⟨kv, h, _⟩; cases h
  | cons kv l ih =>
    rintro ⟨kv', hm, ha⟩ t
    rw [dumpItems]
    by_cases hk : action env kv.1 kv.2 = .fail
    · simp [dumpItem, hk]
    · rcases List.mem_cons.mp hm with rfl | hm
      · exact absurd ha hk
      · cases hdi : dumpItem env t kv with
        | none => rfl
        | some t' => exact ih ⟨kv', hm, ha⟩ t'

end Lcode.Cfg
