import Mathlib.Data.List.Basic
import Mathlib.Tactic.Common
import Mathlib.Data.Char

/-!
Model of the reading of a beam profile text, lcode/beam_generator/beam_profiles.py:83-88 (find_beam_profile_pars). Property C57.

The regular expression is
`([a-z][a-z]*/?[a-z]?)\s?=\s?([-+]?(\d+(\.\d*)?|\.\d+)([eE][-+]?\d+)?|[a-z][a-z]*)`
and `re.findall` looks for it from left to right. The functions below follow the expression from left to right without backtracking: every optional or repeated part is followed either by nothing or by something that cannot begin with a character of that part, so that giving characters back never helps.
Simplification: `\s` and `\d` are the ASCII white space and digits.
-/

namespace Lcode.Legacy

/-- `[a-z]`, beam_profiles.py:87 -/
def isLow (c : Char) : Bool := decide (97 ≤ c.toNat ∧ c.toNat ≤ 122)

/-- `\d`, beam_profiles.py:87 (ASCII) -/
def isDig (c : Char) : Bool := decide (48 ≤ c.toNat ∧ c.toNat ≤ 57)

/-- `\s`, beam_profiles.py:87 (ASCII) -/
def isWs (c : Char) : Bool := decide (c.toNat = 32 ∨ (9 ≤ c.toNat ∧ c.toNat ≤ 13))

/-- `\s?`, beam_profiles.py:87 -/
def skipWs : List Char → List Char
  | c :: t => if isWs c then t else c :: t
  | [] => []

/-- `[-+]?`, beam_profiles.py:87: the sign and the rest. -/
def takeSign : List Char → List Char × List Char
  | c :: t => if c = '+' ∨ c = '-' then ([c], t) else ([], c :: t)
  | [] => ([], [])

/-- `(\.\d*)?`, beam_profiles.py:87 -/
def takeFrac : List Char → List Char × List Char
  | c :: t => if c = '.' then (c :: t.takeWhile isDig, t.dropWhile isDig) else ([], c :: t)
  | [] => ([], [])

/-- `(\d+(\.\d*)?|\.\d+)`, beam_profiles.py:87 -/
def takeMantissa (t : List Char) : Option (List Char × List Char) :=
  if t.takeWhile isDig ≠ [] then
    some (t.takeWhile isDig ++ (takeFrac (t.dropWhile isDig)).1, (takeFrac (t.dropWhile isDig)).2)
  else if (takeFrac t).1.length ≥ 2 then some (takeFrac t) else none

/-- `([eE][-+]?\d+)?`, beam_profiles.py:87 -/
def takeExp : List Char → List Char × List Char
  | c :: t =>
    if (c = 'e' ∨ c = 'E') ∧ (takeSign t).2.takeWhile isDig ≠ [] then
      (c :: (takeSign t).1 ++ (takeSign t).2.takeWhile isDig, (takeSign t).2.dropWhile isDig)
    else ([], c :: t)
  | [] => ([], [])

/-- The first alternative of the value, beam_profiles.py:87. -/
def takeNumber (t : List Char) : Option (List Char × List Char) :=
  (takeMantissa (takeSign t).2).map fun m => ((takeSign t).1 ++ m.1 ++ (takeExp m.2).1, (takeExp m.2).2)

/-- `[a-z][a-z]*`, beam_profiles.py:87 -/
def takeWord (t : List Char) : Option (List Char × List Char) :=
  if t.takeWhile isLow ≠ [] then some (t.takeWhile isLow, t.dropWhile isLow) else none

/-- The value, beam_profiles.py:87: a number or else a word. -/
def takeValue (t : List Char) : Option (List Char × List Char) :=
  match takeNumber t with
  | some r => some r
  | none => takeWord t

/-- `/?[a-z]?` after a maximal run of letters, beam_profiles.py:87. -/
def takeSlash : List Char → List Char × List Char
  | '/' :: c :: t => if isLow c then (['/', c], t) else (['/'], c :: t)
  | ['/'] => (['/'], [])
  | t => ([], t)

/-- `[a-z][a-z]*/?[a-z]?`, beam_profiles.py:87: the name and the rest. -/
def takeName (t : List Char) : Option (List Char × List Char) :=
  (takeWord t).map fun w => (w.1 ++ (takeSlash w.2).1, (takeSlash w.2).2)

/-- One attempt of the expression at the beginning of a text, beam_profiles.py:86-87: name, value and the rest of the text. -/
def matchAt (t : List Char) : Option ((List Char × List Char) × List Char) :=
  match takeName t with
  | none => none
  | some (name, r) =>
    match skipWs r with
    | '=' :: r' =>
      match takeValue (skipWs r') with
      | none => none
      | some (v, rest) => some ((name, v), rest)
    | _ => none

/-- find_beam_profile_pars, beam_profiles.py:83-88; `fuel` bounds the number of attempts. Only the first two groups of each match are kept (the others are not used, :118). -/
def scanFuel : ℕ → List Char → List (List Char × List Char)
  | 0, _ => []
  | _, [] => []
  | n + 1, c :: t =>
    match matchAt (c :: t) with
    | some (item, rest) => item :: scanFuel n rest
    | none => scanFuel n t

/-- find_beam_profile_pars, beam_profiles.py:83-88: every attempt consumes a character, so as many attempts as characters are enough. -/
def findPars (t : List Char) : List (List Char × List Char) := scanFuel t.length t

/-! ### Specification: how a profile is written -/

/-- A number as it may be written: sign, digits, fraction, exponent. -/
structure Numeral where
  sign : List Char
  int : List Char
  frac : Option (List Char)
  exp : Option (Char × List Char × List Char)

def Numeral.Ok (n : Numeral) : Prop :=
  (n.sign = [] ∨ n.sign = ['+'] ∨ n.sign = ['-']) ∧ (∀ c ∈ n.int, isDig c) ∧ (∀ f, n.frac = some f → ∀ c ∈ f, isDig c) ∧ (n.int ≠ [] ∨ ∃ f, n.frac = some f ∧ f ≠ []) ∧
  ∀ e, n.exp = some e → (e.1 = 'e' ∨ e.1 = 'E') ∧ (e.2.1 = [] ∨ e.2.1 = ['+'] ∨ e.2.1 = ['-']) ∧ e.2.2 ≠ [] ∧ ∀ c ∈ e.2.2, isDig c

def fracText : Option (List Char) → List Char
  | none => []
  | some f => '.' :: f

def expText : Option (Char × List Char × List Char) → List Char
  | none => []
  | some e => e.1 :: (e.2.1 ++ e.2.2)

def Numeral.text (n : Numeral) : List Char :=
  n.sign ++ n.int ++ fracText n.frac ++ expText n.exp

/-- A value: a number or a word of small letters. -/
inductive Written : List Char → Prop
  | num (n : Numeral) : n.Ok → Written n.text
  | word (w : List Char) : w ≠ [] → (∀ c ∈ w, isLow c) → Written w

/-- A name: small letters, possibly with a stroke and one more letter (`m/q`). -/
def Name (n : List Char) : Prop := ∃ w s, n = w ++ s ∧ w ≠ [] ∧ (∀ c ∈ w, isLow c) ∧ (s = [] ∨ s = ['/'] ∨ ∃ c, isLow c ∧ s = ['/', c])

/-- Nothing or one white space. -/
def AtMostOneWs (s : List Char) : Prop := s = [] ∨ ∃ c, isWs c ∧ s = [c]

/-- What may stand between two assignments: a nonempty text without small letters that does not begin with something that may continue a number. -/
def Sep (s : List Char) : Prop := (∀ c ∈ s, ¬ isLow c) ∧ ∃ c t, s = c :: t ∧ ¬ isDig c ∧ c ≠ '.' ∧ c ≠ 'E'

/-- One assignment as it is written: name, spaces around the equals sign, value, and the separator behind. -/
structure Assign where
  name : List Char
  sp1 : List Char
  sp2 : List Char
  value : List Char
  sep : List Char

def Assign.Ok (a : Assign) : Prop := Name a.name ∧ AtMostOneWs a.sp1 ∧ AtMostOneWs a.sp2 ∧ Written a.value ∧ Sep a.sep

def Assign.text (a : Assign) : List Char := a.name ++ (a.sp1 ++ ('=' :: (a.sp2 ++ (a.value ++ a.sep))))

/-! ### Lemmas -/

theorem low_not {c : Char} (h : isLow c = true) : c ≠ '+' ∧ c ≠ '-' ∧ c ≠ '.' ∧ c ≠ '/' ∧ c ≠ '=' ∧ c ≠ 'E' ∧ isDig c = false ∧ isWs c = false := by
  unfold isLow at h
  have h' := of_decide_eq_true h
  have ne : ∀ d : Char, (d.toNat < 97 ∨ 122 < d.toNat) → c ≠ d := by rintro d hd rfl; omega
  refine ⟨ne _ (by decide), ne _ (by decide), ne _ (by decide), ne _ (by decide), ne _ (by decide), ne _ (by decide), ?_, ?_⟩
  · exact decide_eq_false (by omega)
  · exact decide_eq_false (by omega)

theorem dig_not {c : Char} (h : isDig c = true) : c ≠ '+' ∧ c ≠ '-' ∧ c ≠ '.' ∧ c ≠ 'e' ∧ c ≠ 'E' ∧ isLow c = false ∧ isWs c = false := by
  unfold isDig at h
  have h' := of_decide_eq_true h
  have ne : ∀ d : Char, (d.toNat < 48 ∨ 57 < d.toNat) → c ≠ d := by rintro d hd rfl; omega
  refine ⟨ne _ (by decide), ne _ (by decide), ne _ (by decide), ne _ (by decide), ne _ (by decide), ?_, ?_⟩
  · exact decide_eq_false (by omega)
  · exact decide_eq_false (by omega)

theorem ws_not {c : Char} (h : isWs c = true) : c ≠ '=' ∧ c ≠ '/' ∧ isLow c = false := by
  unfold isWs at h
  have h' := of_decide_eq_true h
  have ne : ∀ d : Char, 33 ≤ d.toNat → c ≠ d := by rintro d hd rfl; omega
  exact ⟨ne _ (by decide), ne _ (by decide), decide_eq_false (by omega)⟩

/-- The text begins with no character of class `p`. -/
def Stops (p : Char → Bool) (t : List Char) : Prop := ∀ c r, t = c :: r → p c = false

theorem takeWhile_stops {p : Char → Bool} {l t : List Char} (hl : ∀ c ∈ l, p c = true) (ht : Stops p t) : (l ++ t).takeWhile p = l ∧ (l ++ t).dropWhile p = t := by
  induction l with
  | nil =>
    cases t with
    | nil => exact ⟨rfl, rfl⟩
    | cons c r => have := ht c r rfl; simp [this]
  | cons c l ih =>
    have h1 := hl c List.mem_cons_self
    have h2 := ih fun d hd => hl d (List.mem_cons_of_mem _ hd)
    simp [h1, h2.1, h2.2]

theorem takeWord_of {w t : List Char} (hw : w ≠ []) (hl : ∀ c ∈ w, isLow c = true) (ht : Stops isLow t) : takeWord (w ++ t) = some (w, t) := by
  obtain ⟨h1, h2⟩ := takeWhile_stops hl ht
  unfold takeWord
  rw [h1, h2, if_pos hw]

theorem takeSign_of {s t : List Char} (hs : s = [] ∨ s = ['+'] ∨ s = ['-']) (ht : Stops (fun c => decide (c = '+' ∨ c = '-')) t) : takeSign (s ++ t) = (s, t) := by
  rcases hs with rfl | rfl | rfl
  · cases t with
    | nil => rfl
    | cons c r =>
      have := ht c r rfl
      simp only [decide_eq_false_iff_not] at this
      simp only [List.nil_append, takeSign, if_neg this]
  · simp [takeSign]
  · simp [takeSign]

theorem takeFrac_of {f : Option (List Char)} (hf : ∀ g, f = some g → ∀ c ∈ g, isDig c = true) {t : List Char} (hd : Stops isDig t) (hp : Stops (fun c => decide (c = '.')) t) :
    takeFrac (fracText f ++ t) = (fracText f, t) := by
  cases f with
  | none =>
    cases t with
    | nil => rfl
    | cons c r =>
      have := hp c r rfl
      simp only [decide_eq_false_iff_not] at this
      simp only [fracText, List.nil_append, takeFrac, if_neg this]
  | some g =>
    obtain ⟨h1, h2⟩ := takeWhile_stops (hf g rfl) hd
    simp only [fracText, List.cons_append, takeFrac, if_pos, h1, h2]

theorem takeMantissa_of {i : List Char} {f : Option (List Char)} (hi : ∀ c ∈ i, isDig c = true) (hf : ∀ g, f = some g → ∀ c ∈ g, isDig c = true) (hne : i ≠ [] ∨ ∃ g, f = some g ∧ g ≠ []) {t : List Char}
    (hd : Stops isDig t) (hp : Stops (fun c => decide (c = '.')) t) :
    takeMantissa (i ++ (fracText f ++ t)) = some (i ++ fracText f, t) := by
  have hfr := takeFrac_of hf hd hp
  have hst : Stops isDig (fracText f ++ t) := by
    cases f with
    | none => exact hd
    | some g => intro c r h; simp only [fracText, List.cons_append, List.cons.injEq] at h; rw [← h.1]; rfl
  obtain ⟨h1, h2⟩ := takeWhile_stops hi hst
  unfold takeMantissa
  by_cases h : i = []
  · subst h
    rw [h1, if_neg (by simp), List.nil_append, hfr]
    obtain ⟨g, rfl, hg⟩ := hne.resolve_left (by simp)
    have : 0 < g.length := List.length_pos_of_ne_nil hg
    rw [if_pos (by simp only [fracText, List.length_cons]; omega), List.nil_append]
  · rw [h1, h2, if_pos h, hfr]

theorem takeExp_of {e : Option (Char × List Char × List Char)}
    (he : ∀ x, e = some x → (x.1 = 'e' ∨ x.1 = 'E') ∧ (x.2.1 = [] ∨ x.2.1 = ['+'] ∨ x.2.1 = ['-']) ∧ x.2.2 ≠ [] ∧ ∀ c ∈ x.2.2, isDig c = true) {t : List Char}
    (hd : Stops isDig t) (hp : Stops (fun c => decide (c = 'e' ∨ c = 'E')) t) :
    takeExp (expText e ++ t) = (expText e, t) := by
  cases e with
  | none =>
    cases t with
    | nil => rfl
    | cons c r =>
      have := hp c r rfl
      simp only [decide_eq_false_iff_not] at this
      have h' : ¬ ((c = 'e' ∨ c = 'E') ∧ (takeSign r).2.takeWhile isDig ≠ []) := fun h => this h.1
      simp only [expText, List.nil_append, takeExp, if_neg h']
  | some x =>
    obtain ⟨h1, h2, h3, h4⟩ := he x rfl
    have hs : takeSign (x.2.1 ++ (x.2.2 ++ t)) = (x.2.1, x.2.2 ++ t) := by
      apply takeSign_of h2
      intro c r h
      obtain ⟨d, l, hl⟩ := List.exists_cons_of_ne_nil h3
      rw [hl, List.cons_append, List.cons.injEq] at h
      have := dig_not (h4 d (by rw [hl]; exact List.mem_cons_self))
      rw [← h.1]
      exact decide_eq_false (by tauto)
    obtain ⟨g1, g2⟩ := takeWhile_stops h4 hd
    simp only [expText, List.cons_append, List.append_assoc, takeExp]
    rw [hs]
    simp only [g1, g2]
    rw [if_pos ⟨h1, h3⟩]

theorem takeNumber_of (n : Numeral) (hn : n.Ok) {t : List Char} (hd : Stops isDig t) (hp : Stops (fun c => decide (c = '.')) t) (he : Stops (fun c => decide (c = 'e' ∨ c = 'E')) t) :
    takeNumber (n.text ++ t) = some (n.text, t) := by
  obtain ⟨h1, h2, h3, h4, h5⟩ := hn
  have hexp := takeExp_of h5 hd he
  have hd' : Stops isDig (expText n.exp ++ t) := by
    intro c r h
    cases hx : n.exp with
    | none => rw [hx] at h; exact hd c r h
    | some x =>
      rw [hx] at h
      simp only [expText, List.cons_append, List.cons.injEq] at h
      rw [← h.1]
      rcases (h5 x hx).1 with h | h <;> rw [h] <;> rfl
  have hp' : Stops (fun c => decide (c = '.')) (expText n.exp ++ t) := by
    intro c r h
    cases hx : n.exp with
    | none => rw [hx] at h; exact hp c r h
    | some x =>
      rw [hx] at h
      simp only [expText, List.cons_append, List.cons.injEq] at h
      rw [← h.1]
      rcases (h5 x hx).1 with h | h <;> rw [h] <;> rfl
  have hman := takeMantissa_of h2 h3 h4 hd' hp'
  have hsig : takeSign (n.sign ++ (n.int ++ (fracText n.frac ++ (expText n.exp ++ t)))) =
      (n.sign, n.int ++ (fracText n.frac ++ (expText n.exp ++ t))) := by
    apply takeSign_of h1
    intro c r h
    by_cases hi : n.int = []
    · obtain ⟨g, hg, -⟩ := h4.resolve_left (by simpa using hi)
      rw [hi, hg] at h
      simp only [fracText, List.nil_append, List.cons_append, List.cons.injEq] at h
      rw [← h.1]; rfl
    · obtain ⟨d, l, hl⟩ := List.exists_cons_of_ne_nil hi
      rw [hl, List.cons_append, List.cons.injEq] at h
      have := dig_not (h2 d (by rw [hl]; exact List.mem_cons_self))
      rw [← h.1]
      exact decide_eq_false (by tauto)
  unfold takeNumber Numeral.text
  simp only [List.append_assoc]
  rw [hsig]
  simp only
  rw [hman]
  simp only [Option.map_some]
  rw [hexp]
  simp only [List.append_assoc]

theorem sep_stops {s t : List Char} (h : Sep s) : Stops isDig (s ++ t) ∧ Stops (fun c => decide (c = '.')) (s ++ t) ∧ Stops (fun c => decide (c = 'e' ∨ c = 'E')) (s ++ t) ∧ Stops isLow (s ++ t) := by
  obtain ⟨h1, c, r, rfl, h2, h3, h4⟩ := h
  have hl : isLow c = false := by simpa using h1 c List.mem_cons_self
  refine ⟨?_, ?_, ?_, ?_⟩ <;>
  · intro d u hu
    simp only [List.cons_append, List.cons.injEq] at hu
    rw [← hu.1]
    first | simpa using h2 | exact decide_eq_false h3 | exact hl | exact decide_eq_false (by rintro (rfl | rfl); exacts [absurd hl (by decide), h4 rfl])

theorem takeNumber_low {c : Char} {t : List Char} (hc : isLow c = true) : takeNumber (c :: t) = none := by
  obtain ⟨h1, h2, h3, -, -, -, h4, -⟩ := low_not hc
  have hs : takeSign (c :: t) = ([], c :: t) := by simp only [takeSign]; rw [if_neg (by tauto)]
  unfold takeNumber
  rw [hs]
  simp only [takeMantissa, List.takeWhile_cons, h4, takeFrac, if_neg h3]
  simp

theorem takeValue_of {v : List Char} (hv : Written v) {s t : List Char} (hs : Sep s) : takeValue (v ++ (s ++ t)) = some (v, s ++ t) := by
  obtain ⟨h1, h2, h3, h4⟩ := sep_stops (t := t) hs
  unfold takeValue
  cases hv with
  | num n hn => rw [takeNumber_of n hn h1 h2 h3]
  | word w hw hl =>
    obtain ⟨c, l, rfl⟩ := List.exists_cons_of_ne_nil hw
    rw [List.cons_append, takeNumber_low (hl c List.mem_cons_self)]
    exact takeWord_of hw hl h4

/-- What stands behind a name: an equals sign, possibly behind one white space. -/
theorem skipWs_eq {s : List Char} (hs : AtMostOneWs s) (t : List Char) : skipWs (s ++ '=' :: t) = '=' :: t := by
  rcases hs with rfl | ⟨c, hc, rfl⟩
  · rfl
  · simp [skipWs, hc]

theorem skipWs_value {s v : List Char} (hs : AtMostOneWs s) (hv : Written v) (t : List Char) : skipWs (s ++ (v ++ t)) = v ++ t := by
  rcases hs with rfl | ⟨c, hc, rfl⟩
  · have : ∃ d l, v = d :: l ∧ isWs d = false := by
      cases hv with
      | num n hn =>
        obtain ⟨h1, h2, h3, h4, -⟩ := hn
        unfold Numeral.text
        rcases h1 with h | h | h
        · by_cases hi : n.int = []
          · obtain ⟨g, hg, -⟩ := h4.resolve_left (by simpa using hi)
            exact ⟨'.', _, by rw [h, hi, hg]; rfl, rfl⟩
          · obtain ⟨d, l, hl⟩ := List.exists_cons_of_ne_nil hi
            exact ⟨d, _, by rw [h, hl]; simp only [List.nil_append, List.cons_append]; rfl, (dig_not (h2 d (by rw [hl]; exact List.mem_cons_self))).2.2.2.2.2.2⟩
        · exact ⟨'+', _, by rw [h]; simp only [List.cons_append, List.nil_append]; rfl, rfl⟩
        · exact ⟨'-', _, by rw [h]; simp only [List.cons_append, List.nil_append]; rfl, rfl⟩
      | word w hw hl =>
        obtain ⟨c, l, rfl⟩ := List.exists_cons_of_ne_nil hw
        exact ⟨c, l, rfl, (low_not (hl c List.mem_cons_self)).2.2.2.2.2.2.2⟩
    obtain ⟨d, l, rfl, hd⟩ := this
    simp [skipWs, hd]
  · simp [skipWs, hc]

theorem takeName_of {n : List Char} (hn : Name n) {s : List Char} (hs : AtMostOneWs s) (t : List Char) : takeName (n ++ (s ++ '=' :: t)) = some (n, s ++ '=' :: t) := by
  obtain ⟨w, x, rfl, hw, hl, hx⟩ := hn
  have hst : ∃ d u, s ++ '=' :: t = d :: u ∧ isLow d = false ∧ d ≠ '/' := by
    rcases hs with rfl | ⟨c, hc, rfl⟩
    · exact ⟨'=', t, rfl, rfl, by decide⟩
    · exact ⟨c, _, rfl, (ws_not hc).2.2, (ws_not hc).2.1⟩
  obtain ⟨d, u, hdu, hd, hd'⟩ := hst
  rw [hdu, List.append_assoc]
  have h1 : Stops isLow (x ++ d :: u) := by
    intro c r h
    rcases hx with rfl | rfl | ⟨e, -, rfl⟩
    · simp only [List.nil_append, List.cons.injEq] at h; rw [← h.1]; exact hd
    · simp only [List.cons_append, List.cons.injEq] at h; rw [← h.1]; rfl
    · simp only [List.cons_append, List.cons.injEq] at h; rw [← h.1]; rfl
  have h2 : takeSlash (x ++ d :: u) = (x, d :: u) := by
    rcases hx with rfl | rfl | ⟨e, he, rfl⟩
    · unfold takeSlash
      split
      · rename_i h; simp only [List.nil_append, List.cons.injEq] at h; exact absurd h.1 hd'
      · rename_i h; simp only [List.nil_append, List.cons.injEq] at h; exact absurd h.1 hd'
      · rfl
    · simp [takeSlash, hd]
    · simp [takeSlash, he]
  unfold takeName
  rw [takeWord_of hw hl h1]
  simp only [Option.map_some, h2]

/-- An assignment at the beginning of a text is found as it is written. -/
theorem matchAt_of (a : Assign) (ha : a.Ok) (t : List Char) : matchAt (a.text ++ t) = some ((a.name, a.value), a.sep ++ t) := by
  obtain ⟨h1, h2, h3, h4, h5⟩ := ha
  unfold matchAt Assign.text
  simp only [List.append_assoc, List.cons_append]
  rw [takeName_of h1 h2]
  simp only
  rw [skipWs_eq h2]
  simp only
  rw [skipWs_value h3 h4, takeValue_of h4 h5]

theorem matchAt_sep {c : Char} (hc : isLow c = false) (t : List Char) : matchAt (c :: t) = none := by
  unfold matchAt takeName takeWord
  simp [hc]

/-- A separator is passed over. -/
theorem scan_sep {s : List Char} (hs : ∀ c ∈ s, ¬ isLow c) (t : List Char) (n : ℕ) : scanFuel (s.length + n) (s ++ t) = scanFuel n t := by
  induction s with
  | nil => simp
  | cons c s ih =>
    have h : isLow c = false := by simpa using hs c List.mem_cons_self
    rw [show (c :: s).length + n = (s.length + n) + 1 by simp only [List.length_cons]; omega, List.cons_append]
    rw [scanFuel, matchAt_sep h]
    exact ih fun d hd => hs d (List.mem_cons_of_mem _ hd)

theorem text_cons (a : Assign) (ha : a.Ok) (t : List Char) : ∃ c r, a.text ++ t = c :: r := by
  obtain ⟨w, x, h, hw, -⟩ := ha.1
  obtain ⟨c, l, rfl⟩ := List.exists_cons_of_ne_nil hw
  exact ⟨c, _, by unfold Assign.text; rw [h]; simp only [List.cons_append]; rfl⟩

/-- More attempts than characters change nothing. -/
theorem scan_profile (l : List Assign) (hl : ∀ a ∈ l, a.Ok) (n : ℕ) (hn : (l.flatMap Assign.text).length ≤ n) : scanFuel n (l.flatMap Assign.text) = l.map fun a => (a.name, a.value) := by
  induction l generalizing n with
  | nil => cases n <;> rfl
  | cons a l ih =>
    have ha := hl a List.mem_cons_self
    have hlen : a.sep.length + 1 ≤ a.text.length := by
      unfold Assign.text
      simp only [List.length_append, List.length_cons]
      omega
    simp only [List.flatMap_cons, List.length_append] at hn ⊢
    obtain ⟨c, r, hcr⟩ := text_cons a ha (l.flatMap Assign.text)
    obtain ⟨m, rfl⟩ : ∃ m, n = (a.sep.length + m) + 1 := ⟨n - a.sep.length - 1, by omega⟩
    rw [hcr]
    unfold scanFuel
    rw [← hcr, matchAt_of a ha]
    simp only
    rw [scan_sep ha.2.2.2.2.1, ih (fun b hb => hl b (List.mem_cons_of_mem _ hb)) m (by omega)]
    rfl

/-- C57: every assignment of a profile is found, in order, with exactly the name and the value that are written, whatever stands between the assignments and in front of the first. -/
theorem profile_read (front : List Char) (hf : ∀ c ∈ front, ¬ isLow c) (l : List Assign) (hl : ∀ a ∈ l, a.Ok) : findPars (front ++ l.flatMap Assign.text) = l.map fun a => (a.name, a.value) := by
  unfold findPars
  rw [List.length_append, scan_sep hf]
  exact scan_profile l hl _ le_rfl

/-- C57, a profile of the manual is read; also a case of `profile_read`. -/
theorem example_read : findPars "xishape=cos, ampl=-.5, length = 6.28e0; m/q=1\n".toList = [("xishape".toList, "cos".toList), ("ampl".toList, "-.5".toList), ("length".toList, "6.28e0".toList), ("m/q".toList, "1".toList)] := by
  decide +kernel

/-- C57, findings: an assignment with two spaces in front of the equals sign is ignored without a message, and of a name with a digit or a capital letter only the end is taken. -/
theorem reading_surprises : findPars "ampl  = 0.5\n".toList = [] ∧ findPars "xi0=5\n".toList = [] ∧ findPars "beamEnergy=5\n".toList = [("nergy".toList, "5".toList)] ∧ findPars "xishape=half-cos\n".toList = [("xishape".toList, "half".toList)] := by
  decide +kernel

/-- A concrete written profile that meets the hypotheses of `profile_read`. -/
example : ∃ l : List Assign, (∀ a ∈ l, a.Ok) ∧ l.length = 2 ∧ l.flatMap Assign.text = "m/q = -1.5e+3, eshape=m\n".toList := by
  refine ⟨[⟨['m', '/', 'q'], [' '], [' '], ['-', '1', '.', '5', 'e', '+', '3'], [',', ' ']⟩, ⟨['e', 's', 'h', 'a', 'p', 'e'], [], [], ['m'], ['\n']⟩], ?_, rfl, by decide +kernel⟩
  intro a ha
  simp only [List.mem_cons, List.not_mem_nil, or_false] at ha
  rcases ha with rfl | rfl
  · refine ⟨⟨['m'], ['/', 'q'], rfl, by simp, by decide, Or.inr (Or.inr ⟨'q', by decide, rfl⟩)⟩, Or.inr ⟨' ', by decide, rfl⟩, Or.inr ⟨' ', by decide, rfl⟩, ?_, by decide, ',', [' '], rfl, by decide, by decide, by decide⟩
    exact Written.num ⟨['-'], ['1'], some ['5'], some ('e', ['+'], ['3'])⟩ ⟨by simp, by decide, by rintro f ⟨⟩; decide, by simp, by rintro e ⟨⟩; refine ⟨by simp, by simp, by simp, by decide⟩⟩
  · exact ⟨⟨_, [], (List.append_nil _).symm, by simp, by decide, Or.inl rfl⟩, Or.inl rfl, Or.inl rfl, Written.word _ (by simp) (by decide), by decide, '\n', [], rfl, by decide, by decide, by decide⟩

end Lcode.Legacy
