import Verif.Config.Dump

/-! The substitution engine of `Config.dump` on a text made of entries. -/

namespace Lcode.Cfg

open Lcode.Py

/-- No quote immediately followed by a colon. -/
def inert : List Char → Bool
  | [] => true
  | c :: cs => !(c == '\'' && cs.head? == some ':') && inert cs

theorem inert_tail {c : Char} {cs : List Char} (h : inert (c :: cs) = true) : inert cs = true := by
  simp only [inert, Bool.and_eq_true] at h; exact h.2

theorem inert_append_right {a b : List Char} (h : inert (a ++ b) = true) : inert b = true := by
  induction a with
  | nil => exact h
  | cons c a ih => exact ih (inert_tail h)

theorem not_inert (a b : List Char) : inert (a ++ '\'' :: ':' :: b) = false := by
  induction a with
  | nil => rfl
  | cons c a ih =>
    show (!_ && inert (a ++ '\'' :: ':' :: b)) = false
    rw [ih, Bool.and_false]

/-- What may follow an inert text: nothing, or a quote that begins a key. -/
def Start (t : List Char) : Prop := t = [] ∨ ∃ c r, t = '\'' :: c :: r ∧ c ≠ ':'

theorem no_marker {key : List Char} (hk : '\'' ∉ key) (c : Char) (cs t : List Char)
    (hi : inert cs = true) (ht : Start t) : ¬ marker key <+: (c :: cs ++ t) := by
  rintro ⟨post, h⟩
  simp only [marker, List.cons_append, List.append_assoc, List.cons.injEq, List.nil_append] at h
  obtain ⟨_, h⟩ := h
  rw [List.append_eq_append_iff] at h
  rcases h with ⟨l, hl, hr⟩ | ⟨l, hl, hr⟩
  · -- the key ends inside cs
    match l, hl, hr with
    | [], hl, hr =>
      rcases ht with rfl | ⟨d, r, rfl, hd⟩
      · simp at hr
      · simp at hr; exact hd hr.1.symm
    | [x], hl, hr =>
      rcases ht with rfl | ⟨d, r, rfl, hd⟩
      · simp at hr
      · simp at hr
    | x :: y :: l, hl, hr =>
      simp only [List.cons_append, List.cons.injEq] at hr
      obtain ⟨rfl, rfl, _⟩ := hr
      rw [hl, not_inert] at hi
      cases hi
  · match l, hl, hr with
    | [], hl, hr =>
      rcases ht with rfl | ⟨d, r, rfl, hd⟩
      · simp at hr
      · simp at hr; exact hd hr.1
    | x :: l, hl, hr =>
      rcases ht with rfl | ⟨d, r, rfl, hd⟩
      · simp at hr
      · simp only [List.cons_append, List.cons.injEq] at hr
        obtain ⟨rfl, _⟩ := hr
        exact hk (by rw [hl]; simp)

theorem matchLen_none {key : List Char} {p : Tail} {t : List Char} (h : ¬ marker key <+: t) :
    matchLen key p t = none := by
  rw [matchLen, if_neg h]

theorem sub_inert {key : List Char} (hk : '\'' ∉ key) (p : Tail) (new s t : List Char)
    (hi : inert s = true) (ht : Start t) :
    subFrom key p new 0 (s ++ t) = s ++ subFrom key p new 0 t := by
  induction s with
  | nil => rfl
  | cons c s ih =>
    have h1 := matchLen_none (p := p) (no_marker hk c s t (inert_tail hi) ht)
    simp only [List.cons_append] at h1 ⊢
    rw [subFrom, h1]
    simp only [List.cons.injEq, true_and]
    exact ih (inert_tail hi)

theorem sub_skip (key : List Char) (p : Tail) (new a t : List Char) :
    subFrom key p new a.length (a ++ t) = subFrom key p new 0 t := by
  induction a with
  | nil => cases t <;> rfl
  | cons c a ih => simpa [subFrom] using ih

theorem sub_plain {key : List Char} (p : Tail) (new s t : List Char) (h : '\'' ∉ s) :
    subFrom key p new 0 (s ++ t) = s ++ subFrom key p new 0 t := by
  induction s with
  | nil => rfl
  | cons c s ih =>
    have hc : '\'' ≠ c := fun h' => h (by rw [← h']; exact List.mem_cons_self)
    have h1 : matchLen key p (c :: (s ++ t)) = none := by
      refine matchLen_none ?_
      rintro ⟨post, h'⟩
      simp only [marker, List.cons_append, List.cons.injEq] at h'
      exact hc h'.1
    simp only [List.cons_append]
    rw [subFrom, h1]
    simp only [List.cons.injEq, true_and]
    exact ih (fun h' => h (List.mem_cons_of_mem _ h'))

theorem marker_eq_of_prefix {k k' s : List Char} (hk : '\'' ∉ k) (hk' : '\'' ∉ k')
    (h : marker k <+: marker k' ++ s) : k = k' := by
  obtain ⟨post, h⟩ := h
  simp only [marker, List.cons_append, List.append_assoc, List.cons.injEq, true_and,
    List.nil_append] at h
  rw [List.append_eq_append_iff] at h
  rcases h with ⟨l, hl, hr⟩ | ⟨l, hl, hr⟩
  · cases l with
    | nil => simpa using hl.symm
    | cons x l =>
      simp only [List.cons_append, List.cons.injEq] at hr
      obtain ⟨rfl, _⟩ := hr
      exact absurd (by rw [hl]; simp) hk'
  · cases l with
    | nil => simpa using hl
    | cons x l =>
      simp only [List.cons_append, List.cons.injEq] at hr
      obtain ⟨rfl, _⟩ := hr
      exact absurd (by rw [hl]; simp) hk

/-- An entry of the text: key, value, text after the comma. -/
structure Ent where
  key : List Char
  val : List Char
  tail : List Char

def Ent.text (e : Ent) : List Char := marker e.key ++ (e.val ++ (',' :: e.tail))

structure Ent.Ok (e : Ent) : Prop where
  noquote : '\'' ∉ e.key
  start : ∃ c r, e.key = c :: r ∧ c ≠ ':'
  body : inert (':' :: ' ' :: (e.val ++ (',' :: e.tail))) = true

def docText (d : List Ent) : List Char := (d.map Ent.text).flatten

theorem start_doc (d : List Ent) (h : ∀ e ∈ d, e.Ok) : Start (docText d) := by
  cases d with
  | nil => left; rfl
  | cons e d =>
    right
    obtain ⟨c, r, hc, hne⟩ := (h e (by simp)).start
    refine ⟨c, r ++ ('\'' :: ':' :: ' ' :: (e.val ++ (',' :: (e.tail ++ docText d)))), ?_, hne⟩
    simp [docText, Ent.text, marker, hc]

theorem sub_other {key : List Char} (hk : '\'' ∉ key) (p : Tail) (new : List Char) (e : Ent) (he : e.Ok)
    (hne : e.key ≠ key) (t : List Char) (ht : Start t) :
    subFrom key p new 0 (e.text ++ t) = e.text ++ subFrom key p new 0 t := by
  have h0 : matchLen key p (e.text ++ t) = none := by
    refine matchLen_none fun h => hne ?_
    rw [Ent.text, List.append_assoc] at h
    exact (marker_eq_of_prefix hk he.noquote h).symm
  have e1 : e.text ++ t =
      '\'' :: (e.key ++ ('\'' :: ((':' :: ' ' :: (e.val ++ (',' :: e.tail))) ++ t))) := by
    simp [Ent.text, marker]
  have e2 : e.text ++ subFrom key p new 0 t = '\'' :: (e.key ++ ('\'' ::
      ((':' :: ' ' :: (e.val ++ (',' :: e.tail))) ++ subFrom key p new 0 t))) := by
    simp [Ent.text, marker]
  rw [e1] at h0
  rw [e1, e2, subFrom, h0]
  simp only [List.cons.injEq, true_and]
  rw [sub_plain p new e.key _ he.noquote]
  congr 1
  have h1 := matchLen_none (p := p) (no_marker hk '\'' _ t he.body ht)
  rw [List.cons_append] at h1
  rw [subFrom, h1]
  simp only [List.cons.injEq, true_and]
  exact sub_inert hk p new _ t he.body ht

theorem sub_same {key : List Char} (hk : '\'' ∉ key) (p : Tail) (new : List Char) (e : Ent) (he : e.Ok)
    (hkey : e.key = key) (t : List Char) (ht : Start t)
    (hm : p.len (e.val ++ (',' :: e.tail) ++ t) = some e.val.length) :
    subFrom key p new 0 (e.text ++ t) = new ++ (',' :: e.tail) ++ subFrom key p new 0 t := by
  have h0 : matchLen key p (e.text ++ t) = some (e.val.length + (marker key).length) := by
    rw [matchLen, if_pos (by rw [Ent.text, hkey, List.append_assoc]; exact List.prefix_append _ _),
      Ent.text, hkey, List.append_assoc, List.drop_left, hm]
    rfl
  have e1 : e.text ++ t = '\'' :: ((key ++ ['\'', ':', ' '] ++ e.val) ++ ((',' :: e.tail) ++ t)) := by
    simp [Ent.text, marker, hkey]
  rw [e1] at h0
  rw [e1, subFrom, h0]
  simp only
  have e3 : e.val.length + (marker key).length - 1 = (key ++ ['\'', ':', ' '] ++ e.val).length := by
    simp [marker]; omega
  rw [e3, sub_skip]
  have hb : inert (',' :: e.tail) = true := by
    have := he.body
    exact inert_append_right (a := e.val) (inert_tail (inert_tail this))
  rw [sub_inert hk p new _ t hb ht, List.append_assoc]

/-- Replacement of the value at a key. -/
def setVal (key new : List Char) (e : Ent) : Ent := if e.key = key then { e with val := new } else e

theorem sub_doc {key : List Char} (hk : '\'' ∉ key) (p : Tail) (new : List Char) (d : List Ent)
    (hd : ∀ e ∈ d, e.Ok)
    (hm : ∀ e ∈ d, e.key = key → ∀ t, p.len (e.val ++ (',' :: t)) = some e.val.length) :
    subFrom key p (marker key ++ new) 0 (docText d) = docText (d.map (setVal key new)) := by
  induction d with
  | nil => rfl
  | cons e d ih =>
    have hs := start_doc d (fun e' he' => hd e' (by simp [he']))
    have ih' := ih (fun e' he' => hd e' (by simp [he'])) (fun e' he' => hm e' (by simp [he']))
    have e1 : docText (e :: d) = e.text ++ docText d := by simp [docText]
    have e2 : docText ((e :: d).map (setVal key new)) =
      (setVal key new e).text ++ docText (d.map (setVal key new)) := by simp [docText]
    rw [e1, e2]
    by_cases h : e.key = key
    · rw [sub_same hk p _ e (hd e (by simp)) h _ hs, ih', setVal, if_pos h]
      · simp [Ent.text, h]
      · have := hm e (by simp) h (e.tail ++ docText d)
        simpa using this
    · rw [sub_other hk p _ e (hd e (by simp)) h _ hs, ih', setVal, if_neg h]

theorem sub_head {key : List Char} (hk : '\'' ∉ key) (p : Tail) (new : List Char) (h : List Char) (d : List Ent)
    (hh : inert h = true) (hd : ∀ e ∈ d, e.Ok)
    (hm : ∀ e ∈ d, e.key = key → ∀ t, p.len (e.val ++ (',' :: t)) = some e.val.length) :
    subFrom key p (marker key ++ new) 0 (h ++ docText d) = h ++ docText (d.map (setVal key new)) := by
  rw [sub_inert hk p _ h _ hh (start_doc d hd), sub_doc hk p new d hd hm]

theorem upToComma_val (v t : List Char) (h1 : ',' ∉ v) (h2 : '\n' ∉ v) :
    upToComma (v ++ (',' :: t)) = some v.length := by
  induction v with
  | nil => rfl
  | cons c v ih =>
    have a1 : ¬ c = ',' := fun h => h1 (by simp [h])
    have a2 : ¬ c = '\n' := fun h => h2 (by simp [h])
    rw [List.cons_append, upToComma, if_neg a1, if_neg a2,
      ih (fun h => h1 (List.mem_cons_of_mem _ h)) (fun h => h2 (List.mem_cons_of_mem _ h))]
    rfl

end Lcode.Cfg
