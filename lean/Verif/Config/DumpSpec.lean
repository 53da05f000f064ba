import Verif.Config.DumpProps

/-! What the runas file says (C51). -/

namespace Lcode.Cfg

open Lcode.Py

/-! ### The template -/

/-- Boolean form of `Ent.Ok` together with `Fresh`, for the concrete template. -/
def entCheck (e : String × String × String) : Bool :=
  !(e.1.toList.contains '\'') && (e.1.toList.head?.any (· ≠ ':')) &&
  inert (':' :: ' ' :: (e.2.1.toList ++ (',' :: e.2.2.toList))) &&
  (if e.1.toList = "plasma-zshape".toList then e.2.1.toList = emptyProfile
   else !(e.2.1.toList.contains ',') && !(e.2.1.toList.contains '\n'))

theorem entCheck_ok (e : String × String × String) (h : entCheck e = true) :
    (toEnt e).Ok ∧ Fresh (toEnt e) := by
  unfold entCheck at h
  simp only [Bool.and_eq_true] at h
  obtain ⟨⟨⟨h1, h2⟩, h3⟩, h4⟩ := h
  refine ⟨⟨by simpa [toEnt] using h1, ?_, h3⟩, ?_, ?_⟩
  · cases hk : e.1.toList with
    | nil => rw [hk] at h2; simp at h2
    | cons c r =>
      rw [hk] at h2
      exact ⟨c, r, hk, by simpa using h2⟩
  · intro hk
    have : e.1.toList = "plasma-zshape".toList := hk
    rw [if_pos this] at h4
    simpa [toEnt] using h4
  · intro hk
    have : ¬ e.1.toList = "plasma-zshape".toList := hk
    rw [if_neg this] at h4
    simpa [toEnt] using h4

/-! The entries are checked a few at a time to keep the kernel's memory small. -/

theorem common_length : commonEntries.length ≤ 64 := by decide

theorem common_check0 : ((commonEntries.drop 0).take 4).all entCheck = true := by decide +kernel

theorem common_check1 : ((commonEntries.drop 4).take 4).all entCheck = true := by decide +kernel

theorem common_check2 : ((commonEntries.drop 8).take 4).all entCheck = true := by decide +kernel

theorem common_check3 : ((commonEntries.drop 12).take 4).all entCheck = true := by decide +kernel

theorem common_check4 : ((commonEntries.drop 16).take 4).all entCheck = true := by decide +kernel

theorem common_check5 : ((commonEntries.drop 20).take 4).all entCheck = true := by decide +kernel

theorem common_check6 : ((commonEntries.drop 24).take 4).all entCheck = true := by decide +kernel

theorem common_check7 : ((commonEntries.drop 28).take 4).all entCheck = true := by decide +kernel

theorem common_check8 : ((commonEntries.drop 32).take 4).all entCheck = true := by decide +kernel

theorem common_check9 : ((commonEntries.drop 36).take 4).all entCheck = true := by decide +kernel

theorem common_check10 : ((commonEntries.drop 40).take 4).all entCheck = true := by decide +kernel

theorem common_check11 : ((commonEntries.drop 44).take 4).all entCheck = true := by decide +kernel

theorem common_check12 : ((commonEntries.drop 48).take 4).all entCheck = true := by decide +kernel

theorem common_check13 : ((commonEntries.drop 52).take 4).all entCheck = true := by decide +kernel

theorem common_check14 : ((commonEntries.drop 56).take 4).all entCheck = true := by decide +kernel

theorem common_check15 : ((commonEntries.drop 60).take 4).all entCheck = true := by decide +kernel

theorem extra_end_check : extraEnd.all entCheck = true := by decide +kernel

theorem short_end_check : shortEnd.all entCheck = true := by decide +kernel

theorem all_in_fours {α : Type} (f : α → Bool) (l : List α)
    (h : (l.take 4).all f = true) (h' : (l.drop 4).all f = true) : l.all f = true := by
  rw [← List.take_append_drop 4 l, List.all_append, h, h']; rfl

theorem common_check : commonEntries.all entCheck = true := by
  have step : ∀ k, ((commonEntries.drop k).take 4).all entCheck = true → (commonEntries.drop (k + 4)).all entCheck = true →
      (commonEntries.drop k).all entCheck = true := fun k h h' =>
    all_in_fours _ _ h (by rw [List.drop_drop]; exact h')
  have h64 : (commonEntries.drop 64).all entCheck = true := by
    rw [List.drop_eq_nil_of_le common_length]; rfl
  have h60 := step 60 common_check15 h64
  have h56 := step 56 common_check14 h60
  have h52 := step 52 common_check13 h56
  have h48 := step 48 common_check12 h52
  have h44 := step 44 common_check11 h48
  have h40 := step 40 common_check10 h44
  have h36 := step 36 common_check9 h40
  have h32 := step 32 common_check8 h36
  have h28 := step 28 common_check7 h32
  have h24 := step 24 common_check6 h28
  have h20 := step 20 common_check5 h24
  have h16 := step 16 common_check4 h20
  have h12 := step 12 common_check3 h16
  have h8 := step 8 common_check2 h12
  have h4 := step 4 common_check1 h8
  have h0 := step 0 common_check0 h4
  exact h0

theorem extra_check : (commonEntries ++ extraEnd).all entCheck = true := by
  rw [List.all_append, common_check, extra_end_check]; rfl

theorem short_check : (commonEntries ++ shortEnd).all entCheck = true := by
  rw [List.all_append, common_check, short_end_check]; rfl

theorem template_cases (name : List Char) :
    template name = commonEntries ++ extraEnd ∨ template name = commonEntries ++ shortEnd := by
  by_cases h : "extra".toList <:+: name
  · left; rw [template, if_pos h]
  · right; rw [template, if_neg h]

theorem template_check (name : List Char) : ∀ e ∈ template name, entCheck e = true := by
  rcases template_cases name with h | h
  · rw [h]; exact List.all_eq_true.mp extra_check
  · rw [h]; exact List.all_eq_true.mp short_check

theorem header_inert (version : String) (h : ':' ∉ version.toList) : inert (header version) = true := by
  refine inert_of_noColon ?_
  unfold header
  intro hc
  rw [List.mem_append, List.mem_append] at hc
  rcases hc with (hc | hc) | hc
  · revert hc; decide +kernel
  · exact h hc
  · revert hc; decide +kernel

/-! ### Specification -/

/-- The geometry in a dictionary is "3d", in whatever case. -/
def Is3d (items : List (String × Stored)) : Prop :=
  ∃ g, fetch items "geometry" = some (.val (.str g)) ∧ lower g = "3d".toList

/-- `t` is what the file has to say after the key, `default` being the value in
default_config_values.py. -/
structure Shows (env : Env) (items : List (String × Stored)) (key : String) (default t : List Char) : Prop where
  /-- in 3d, half of the width -/
  halfWidth : key = "window-width" → Is3d items →
    ∃ w q, fetch items key = some w ∧ floatOf env w = some q ∧ t = (env.showFloat (q / 2)).toList
  /-- a key that is not in the dictionary shows the default -/
  absent : fetch items key = none → t = default
  /-- numbers and switches are printed -/
  number : key ∉ strKeys → ¬ (key = "window-width" ∧ Is3d items) → ∀ v, fetch items key = some (.val v) →
    t = (str env v).toList
  /-- a name is printed in quotes, in small letters -/
  word : key ∈ ["geometry", "processing-unit-type", "ion-model", "plasma-shape"] →
    ∀ s, fetch items key = some (.val (.str s)) → t = '\'' :: lower s ++ ['\'']
  /-- a profile is printed between triple quotes -/
  profile : ∀ s, fetch items key = some (.val (.str s)) →
    key = "plasma-zshape" ∨ key = "plasma-rshape" ∧ wordCount s.toList ≠ 1 → t = profileText s
  /-- a function is named -/
  function : key = "plasma-shape" → ∀ r, fetch items key = some (.fn r) →
    t = "'external function ".toList ++ r.toList ++ ['\'']
  /-- elsewhere a function is printed like a number -/
  otherFunction : key ∉ strKeys → ∀ r, fetch items key = some (.fn r) → t = r.toList
  /-- **not recorded**: a transverse shape given by a number or by one word shows the default -/
  forgotten : key = "plasma-rshape" → ((∃ i, fetch items key = some (.val (.int i))) ∨
    (∃ b, fetch items key = some (.val (.bool b))) ∨
    (∃ s, fetch items key = some (.val (.str s)) ∧ wordCount s.toList = 1)) → t = default

/-! ### Values after the loop -/

theorem fetch_some_mem {items : List (String × Stored)} {k : String} {v : Stored} (h : fetch items k = some v) :
    (k, v) ∈ items := by
  induction items with
  | nil => simp [fetch] at h
  | cons kv l ih =>
    obtain ⟨k', v'⟩ := kv
    rw [fetch] at h
    split_ifs at h with hk
    · subst hk; simp at h; simp [h]
    · exact List.mem_cons_of_mem _ (ih h)

theorem fetch_none_iff {items : List (String × Stored)} {k : String} :
    fetch items k = none ↔ k ∉ items.map Prod.fst := by
  induction items with
  | nil => simp [fetch]
  | cons kv l ih =>
    obtain ⟨k', v'⟩ := kv
    rw [fetch]
    split_ifs with hk
    · simp [hk]
    · rw [ih]
      have : ¬ k = k' := fun h => hk h.symm
      simp [this]

/-- The text an action leaves in an entry. -/
def resultVal (a : Action) (default : List Char) : List Char :=
  match a with
  | .write _ t => t
  | _ => default

theorem foldl_other (env : Env) (l : List (String × Stored)) (e : Ent)
    (h : ∀ kv ∈ l, e.key ≠ kv.1.toList) : l.foldl (fun e kv => applyItem env kv e) e = e := by
  induction l with
  | nil => rfl
  | cons kv l ih =>
    have h1 : applyItem env kv e = e := by
      unfold applyItem setVal
      split
      · rw [if_neg (h kv (by simp))]
      · rfl
    rw [List.foldl_cons, h1]
    exact ih (fun kv' hkv' => h kv' (by simp [hkv']))

theorem foldl_entry (env : Env) (l : List (String × Stored)) (hn : (l.map Prod.fst).Nodup) (k : String) (e : Ent)
    (hk : e.key = k.toList) :
    l.foldl (fun e kv => applyItem env kv e) e =
      { e with val := match fetch l k with
          | none => e.val
          | some v => resultVal (action env k v) e.val } := by
  induction l generalizing e with
  | nil => rfl
  | cons kv l ih =>
    obtain ⟨k', v⟩ := kv
    have hn' := List.nodup_cons.mp hn
    rw [List.foldl_cons, fetch]
    by_cases h : k' = k
    · subst h
      simp only [if_true]
      have hother : ∀ kv ∈ l, (applyItem env (k', v) e).key ≠ kv.1.toList := by
        intro kv hkv
        rw [applyItem_key, hk]
        intro h'
        exact hn'.1 (List.mem_map.mpr ⟨kv, hkv, (toList_inj h').symm⟩)
      rw [foldl_other env l _ hother]
      unfold applyItem resultVal setVal
      simp only
      cases action env k' v with
      | write p t => simp only; rw [if_pos hk]
      | fail => rfl
      | skip => rfl
    · rw [if_neg h]
      have h1 : applyItem env (k', v) e = e := by
        unfold applyItem setVal
        split
        · rw [if_neg (by rw [hk]; exact fun h' => h (toList_inj h').symm)]
        · rfl
      rw [h1]
      exact ih hn'.2 e hk

/-- The text shown by the file for a key. -/
def finalVal (env : Env) (items : List (String × Stored)) (k : String) (default : List Char) : List Char :=
  match fetch items k with
  | none => default
  | some v => resultVal (action env k v) default

theorem doc_after_items {env : Env} {items : List (String × Stored)} (h : Writable env items)
    (version : String) (hv : ':' ∉ version.toList) (name : List Char)
    (hnf : ∀ kv ∈ items, action env kv.1 kv.2 ≠ .fail) :
    dumpItems env (header version ++ ((template name).map entryText).flatten) items =
      some (header version ++ docText ((template name).map
        (fun e => { toEnt e with val := finalVal env items e.1 e.2.1.toList }))) := by
  have e1 : ((template name).map entryText).flatten = docText ((template name).map toEnt) := by
    rw [docText, List.map_map]; rfl
  rw [e1, dumpItems_doc h items List.suffix_rfl _ _ (header_inert version hv)]
  · congr 3
    rw [List.map_map]
    refine List.map_congr_left fun e _ => ?_
    rw [Function.comp_apply, foldl_entry env items h.nodup e.1 (toEnt e) rfl]
    rfl
  · intro e he
    rw [List.mem_map] at he
    obtain ⟨e', he', rfl⟩ := he
    exact (entCheck_ok e' (template_check name e' he')).1
  · intro kv _ e he _
    rw [List.mem_map] at he
    obtain ⟨e', he', rfl⟩ := he
    exact (entCheck_ok e' (template_check name e' he')).2
  · exact hnf

/-! ### The theorems -/

theorem finalVal_shows (env : Env) (items : List (String × Stored)) (key : String) (default : List Char)
    (hw : ¬ (key = "window-width" ∧ Is3d items)) : Shows env items key default (finalVal env items key default) where
  halfWidth := fun h1 h2 => absurd ⟨h1, h2⟩ hw
  absent := fun h => by rw [finalVal, h]
  number := fun hk _ v hv => by
    rw [finalVal, hv]
    simp only
    unfold action; rw [if_neg hk]
    rfl
  word := fun hk s hs => by
    rw [finalVal, hs]
    simp only [List.mem_cons, List.not_mem_nil, or_false] at hk ⊢
    rcases hk with rfl | rfl | rfl | rfl
    · unfold action; rw [if_pos (by decide), if_neg (by decide), if_neg (by decide)]; rfl
    · unfold action; rw [if_pos (by decide), if_neg (by decide), if_neg (by decide)]; rfl
    · unfold action; rw [if_pos (by decide), if_neg (by decide), if_neg (by decide)]; rfl
    · unfold action; rw [if_pos (by decide), if_neg (by decide), if_neg (by decide)]; rfl
  profile := fun s hs hk => by
    rw [finalVal, hs]
    simp only
    rcases hk with rfl | ⟨rfl, hc⟩
    · unfold action; rw [if_pos (by decide), if_pos rfl]; rfl
    · unfold action; rw [if_pos (by decide), if_neg (by decide), if_pos rfl]
      simp only
      rw [if_neg hc]
      rfl
  function := fun hk r hr => by
    subst hk
    rw [finalVal, hr]
    simp only
    unfold action; rw [if_pos (by decide), if_neg (by decide), if_neg (by decide)]
    rfl
  otherFunction := fun hk r hr => by
    rw [finalVal, hr]
    simp only
    unfold action; rw [if_neg hk]
    rfl
  forgotten := fun hk h => by
    subst hk
    rcases h with ⟨i, hi⟩ | ⟨b, hi⟩ | ⟨s, hs, hc⟩
    · rw [finalVal, hi]
      simp only
      unfold action; rw [if_pos (by decide), if_neg (by decide), if_pos rfl]
      rfl
    · rw [finalVal, hi]
      simp only
      unfold action; rw [if_pos (by decide), if_neg (by decide), if_pos rfl]
      rfl
    · rw [finalVal, hs]
      simp only
      unfold action; rw [if_pos (by decide), if_neg (by decide), if_pos rfl]
      simp only
      rw [if_pos hc]
      rfl

/-- What makes the call raise an exception: one of the six text options is not a text (a number is
accepted as transverse shape, a function as plasma shape), there is no geometry, or the width is not a number in 3d. -/
def Unprintable (env : Env) (items : List (String × Stored)) : Prop :=
  (∃ kv ∈ items, kv.1 ∈ strKeys ∧ (∀ s, kv.2 ≠ .val (.str s)) ∧
    (kv.1 = "plasma-rshape" → (∀ i, kv.2 ≠ .val (.int i)) ∧ ∀ b, kv.2 ≠ .val (.bool b)) ∧
    (kv.1 = "plasma-shape" → ∀ r, kv.2 ≠ .fn r)) ∨
  (∀ g, fetch items "geometry" ≠ some (.val (.str g))) ∨
  (Is3d items ∧ ∀ w q, fetch items "window-width" = some w → floatOf env w ≠ some q)

theorem action_fail_iff (env : Env) (k : String) (v : Stored) :
    action env k v = .fail ↔ k ∈ strKeys ∧ (∀ s, v ≠ .val (.str s)) ∧
      (k = "plasma-rshape" → (∀ i, v ≠ .val (.int i)) ∧ ∀ b, v ≠ .val (.bool b)) ∧
      (k = "plasma-shape" → ∀ r, v ≠ .fn r) := by
  unfold action
  by_cases h1 : k ∈ strKeys
  · rw [if_pos h1]
    by_cases h2 : k = "plasma-zshape"
    · subst h2
      rw [if_pos rfl]
      rcases v with (_ | _ | _ | _ | _) | _ <;> simp [h1]
    · rw [if_neg h2]
      by_cases h3 : k = "plasma-rshape"
      · subst h3
        rw [if_pos rfl]
        rcases v with (_ | _ | _ | _ | _) | _ <;> simp [h1]
        split_ifs <;> simp
      · rw [if_neg h3]
        by_cases h4 : k = "plasma-shape"
        · subst h4
          rcases v with (_ | _ | _ | _ | _) | _ <;> simp [h1]
        · rcases v with (_ | _ | _ | _ | _) | _ <;> simp [h1, h3, h4]
  · rw [if_neg h1]
    rcases v with (_ | _ | _ | _ | _) | _ <;> simp [h1]

theorem lower_3d (g : String) : lower g = "3d".toList ↔ lower g = ['3', 'd'] := by
  have : "3d".toList = ['3', 'd'] := by decide
  rw [this]

/-- The text of the whole file. -/
def Says (env : Env) (items : List (String × Stored)) (version : String) (name : List Char) (text : List Char) : Prop :=
  ∃ val : String × String × String → List Char,
    text = header version ++ ((template name).map
      (fun e => marker e.1.toList ++ (val e ++ (',' :: e.2.2.toList)))).flatten ∧
    ∀ e ∈ template name, Shows env items e.1 e.2.1.toList (val e)

theorem dump_cases (env : Env) (items : List (String × Stored)) (h : Writable env items) (version : String)
    (hv : ':' ∉ version.toList) (name : List Char) :
    (dump env version name items = none ∧ Unprintable env items) ∨
    (∃ text, dump env version name items = some text ∧ Says env items version name text ∧
      ¬ Unprintable env items) := by
  by_cases hf : ∃ kv ∈ items, action env kv.1 kv.2 = .fail
  · left
    refine ⟨?_, .inl ?_⟩
    · rw [dump, dumpItems_none items hf]
    · obtain ⟨kv, hm, ha⟩ := hf
      exact ⟨kv, hm, (action_fail_iff env kv.1 kv.2).mp ha⟩
  · have hnf : ∀ kv ∈ items, action env kv.1 kv.2 ≠ .fail := fun kv hm ha => hf ⟨kv, hm, ha⟩
    have hfirst : ¬ ∃ kv ∈ items, kv.1 ∈ strKeys ∧ (∀ s, kv.2 ≠ .val (.str s)) ∧
        (kv.1 = "plasma-rshape" → (∀ i, kv.2 ≠ .val (.int i)) ∧ ∀ b, kv.2 ≠ .val (.bool b)) ∧
        (kv.1 = "plasma-shape" → ∀ r, kv.2 ≠ .fn r) := by
      rintro ⟨kv, hm, hh⟩
      exact hf ⟨kv, hm, (action_fail_iff env kv.1 kv.2).mpr hh⟩
    rw [dump, doc_after_items h version hv name hnf]
    simp only
    unfold dumpWidth
    cases hg : fetch items "geometry" with
    | none =>
      left
      exact ⟨rfl, .inr (.inl (by rw [hg]; simp))⟩
    | some v =>
      by_cases hs : ∃ g, v = .val (.str g)
      · obtain ⟨g, rfl⟩ := hs
        simp only
        by_cases h3 : lower g = ['3', 'd']
        · have h3d : Is3d items := ⟨g, hg, (lower_3d g).mpr h3⟩
          rw [if_pos h3]
          cases hw : fetch items "window-width" with
          | none => left; exact ⟨rfl, .inr (.inr ⟨h3d, by rw [hw]; simp⟩)⟩
          | some w =>
            simp only
            cases hq : floatOf env w with
            | none =>
              left
              refine ⟨rfl, .inr (.inr ⟨h3d, ?_⟩)⟩
              intro w' q' hw'
              rw [hw] at hw'
              obtain rfl : w = w' := by simpa using hw'
              rw [hq]; simp
            | some q =>
              right
              refine ⟨_, rfl, ?_, ?_⟩
              · refine ⟨fun e => if e.1 = "window-width" then (env.showFloat (q / 2)).toList
                  else finalVal env items e.1 e.2.1.toList, ?_, ?_⟩
                · rw [sub_head (by decide) _ _ _ _ (header_inert version hv)]
                  · rw [List.map_map, docText, List.map_map]
                    congr 2
                    refine List.map_congr_left fun e _ => ?_
                    simp only [Function.comp_apply, setVal, toEnt]
                    by_cases he : e.1 = "window-width"
                    · rw [if_pos (by rw [he]), if_pos he]; rfl
                    · rw [if_neg (fun h' => he (toList_inj h')), if_neg he]; rfl
                  · intro e he
                    rw [List.mem_map] at he
                    obtain ⟨e', he', rfl⟩ := he
                    have hok := (entCheck_ok e' (template_check name e' he')).1
                    have := foldl_entry env items h.nodup e'.1 (toEnt e') rfl
                    have h2 : ∀ (l : List (String × Stored)), (∀ kv ∈ l, kv ∈ items) → ∀ e : Ent, e.Ok →
                        (l.foldl (fun e kv => applyItem env kv e) e).Ok := by
                      intro l
                      induction l with
                      | nil => intro _ e he; exact he
                      | cons kv l ih =>
                        intro hl e he
                        exact ih (fun kv' hk => hl kv' (by simp [hk])) _ (applyItem_ok h (hl kv (by simp)) he)
                    have h3 := h2 items (fun _ hh => hh) _ hok
                    rw [this] at h3
                    exact h3
                  · intro e he hk t
                    rw [List.mem_map] at he
                    obtain ⟨e', he', rfl⟩ := he
                    have hk' : e'.1 = "window-width" := toList_inj hk
                    have hval : ∃ v, w = .val v := by
                      cases w with
                      | val v => exact ⟨v, rfl⟩
                      | fn r => simp [floatOf] at hq
                    obtain ⟨v, rfl⟩ := hval
                    have hv' : finalVal env items e'.1 e'.2.1.toList = (str env v).toList := by
                      rw [hk', finalVal, hw]
                      simp only
                      unfold action; rw [if_neg (by decide)]
                      rfl
                    have hb := str_noBreak h v (fetch_some_mem hw)
                    simp only [hv']
                    exact upToComma_val _ _ hb.1 hb.2
                · intro e he
                  beta_reduce
                  by_cases hk : e.1 = "window-width"
                  · rw [if_pos hk, hk]
                    refine ⟨fun _ _ => ⟨w, q, hw, hq, rfl⟩, fun h' => ?_, fun _ hn => absurd ⟨rfl, h3d⟩ hn,
                      fun hk => ?_, fun _ _ hk => ?_, fun hk => ?_, fun _ => ?_, fun hk => ?_⟩
                    · rw [hw] at h'; simp at h'
                    · exact absurd hk (by decide)
                    · exfalso; revert hk; simp
                    · exact absurd hk (by decide)
                    · exact fun r hr => by rw [hw] at hr; obtain rfl : w = .fn r := by simpa using hr
                                           simp [floatOf] at hq
                    · exact absurd hk (by decide)
                  · rw [if_neg hk]
                    exact finalVal_shows env items e.1 _ (fun h' => hk h'.1)
              · rintro (h' | h' | ⟨_, h'⟩)
                · exact hfirst h'
                · exact h' g hg
                · exact h' w q hw hq
        · rw [if_neg h3]
          right
          have hn3 : ¬ Is3d items := by
            rintro ⟨g', hg', hl⟩
            rw [hg] at hg'
            obtain rfl : g = g' := by simpa using hg'
            exact h3 ((lower_3d g).mp hl)
          refine ⟨_, rfl, ?_, ?_⟩
          · refine ⟨fun e => finalVal env items e.1 e.2.1.toList, ?_, ?_⟩
            · rw [docText, List.map_map]; rfl
            · exact fun e _ => finalVal_shows env items e.1 _ (fun h' => hn3 h'.2)
          · rintro (h' | h' | ⟨h', _⟩)
            · exact hfirst h'
            · exact h' g hg
            · exact hn3 h'
      · left
        refine ⟨?_, .inr (.inl ?_)⟩
        · split
          · rename_i g h'
            exact absurd ⟨g, by simpa using h'⟩ hs
          · rfl
        · intro g h'
          rw [hg] at h'
          exact hs ⟨g, by simpa using h'⟩

/-- **C51**: whenever the file is written, it is the template with the value of every key it contains
replaced by the value in force, as described by `Shows`, and nothing else changed. -/
theorem runas_text (env : Env) (items : List (String × Stored)) (h : Writable env items) (version : String)
    (hv : ':' ∉ version.toList) (name text : List Char) (hd : dump env version name items = some text) :
    Says env items version name text := by
  rcases dump_cases env items h version hv name with ⟨h1, _⟩ | ⟨t, h1, h2, _⟩
  · rw [h1] at hd; cases hd
  · rw [h1] at hd
    obtain rfl : t = text := by simpa using hd
    exact h2

/-- **C51**: the call raises an exception exactly for the dictionaries described by `Unprintable`. -/
theorem runas_fails_iff (env : Env) (items : List (String × Stored)) (h : Writable env items) (version : String)
    (hv : ':' ∉ version.toList) (name : List Char) :
    dump env version name items = none ↔ Unprintable env items := by
  rcases dump_cases env items h version hv name with ⟨h1, h2⟩ | ⟨t, h1, _, h3⟩
  · simp [h1, h2]
  · simp [h1, h3]

/-- The description determines the text of every key, for dictionaries that can be printed. -/
theorem Shows.unique {env : Env} {items : List (String × Stored)} {key : String} {d t t' : List Char}
    (h : Shows env items key d t) (h' : Shows env items key d t') (hp : ¬ Unprintable env items) : t = t' := by
  by_cases hw : key = "window-width" ∧ Is3d items
  · obtain ⟨w, q, h1, h2, h3⟩ := h.halfWidth hw.1 hw.2
    obtain ⟨w', q', h1', h2', h3'⟩ := h'.halfWidth hw.1 hw.2
    rw [h1] at h1'
    obtain rfl : w = w' := by simpa using h1'
    rw [h2] at h2'
    obtain rfl : q = q' := by simpa using h2'
    rw [h3, h3']
  · cases hf : fetch items key with
    | none => rw [h.absent hf, h'.absent hf]
    | some v =>
      have hm := fetch_some_mem hf
      by_cases hk : key ∈ strKeys
      · have hnf : action env key v ≠ .fail := fun ha =>
          hp (.inl ⟨(key, v), hm, (action_fail_iff env key v).mp ha⟩)
        by_cases hz : key = "plasma-zshape"
        · subst hz
          rcases v with (s | _ | _ | _ | _) | _
          · rw [h.profile s hf (.inl rfl), h'.profile s hf (.inl rfl)]
          all_goals exact absurd ((action_fail_iff env _ _).mpr ⟨hk, by simp, by simp, by simp⟩) hnf
        · by_cases hr : key = "plasma-rshape"
          · subst hr
            rcases v with (s | i | _ | b | _) | _
            · by_cases hc : wordCount s.toList = 1
              · rw [h.forgotten rfl (.inr (.inr ⟨s, hf, hc⟩)), h'.forgotten rfl (.inr (.inr ⟨s, hf, hc⟩))]
              · rw [h.profile s hf (.inr ⟨rfl, hc⟩), h'.profile s hf (.inr ⟨rfl, hc⟩)]
            · rw [h.forgotten rfl (.inl ⟨i, hf⟩), h'.forgotten rfl (.inl ⟨i, hf⟩)]
            · exact absurd ((action_fail_iff env _ _).mpr ⟨hk, by simp, by simp, by simp⟩) hnf
            · rw [h.forgotten rfl (.inr (.inl ⟨b, hf⟩)), h'.forgotten rfl (.inr (.inl ⟨b, hf⟩))]
            · exact absurd ((action_fail_iff env _ _).mpr ⟨hk, by simp, by simp, by simp⟩) hnf
            · exact absurd ((action_fail_iff env _ _).mpr ⟨hk, by simp, by simp, by simp⟩) hnf
          · have hk4 : key ∈ ["geometry", "processing-unit-type", "ion-model", "plasma-shape"] := by
              simp only [strKeys, List.mem_cons, List.not_mem_nil, or_false] at hk ⊢
              rcases hk with hk | hk | hk | hk | hk | hk
              · exact .inr (.inl hk)
              · exact .inl hk
              · exact .inr (.inr (.inl hk))
              · exact .inr (.inr (.inr hk))
              · exact absurd hk hz
              · exact absurd hk hr
            rcases v with (s | _ | _ | _ | _) | r
            · rw [h.word hk4 s hf, h'.word hk4 s hf]
            iterate 4 exact absurd ((action_fail_iff env _ _).mpr ⟨hk, by simp, fun h => absurd h hr, by simp⟩) hnf
            · by_cases hs : key = "plasma-shape"
              · rw [h.function hs r hf, h'.function hs r hf]
              · exact absurd ((action_fail_iff env _ _).mpr ⟨hk, by simp, by simp, fun h => absurd h hs⟩) hnf
      · cases v with
        | val v => rw [h.number hk hw v hf, h'.number hk hw v hf]
        | fn r => rw [h.otherFunction hk r hf, h'.otherFunction hk r hf]

/-- **C51, what is not in the file**: two dictionaries that agree on the keys of the template give the
same file, whatever else they contain. -/
theorem runas_other_keys (env : Env) (items items' : List (String × Stored)) (h : Writable env items)
    (h' : Writable env items') (version : String) (hv : ':' ∉ version.toList) (name text text' : List Char)
    (hsame : ∀ e ∈ template name, fetch items e.1 = fetch items' e.1)
    (hd : dump env version name items = some text) (hd' : dump env version name items' = some text') :
    text = text' := by
  rcases dump_cases env items h version hv name with ⟨h1, _⟩ | ⟨t, h1, ⟨val, e1, s1⟩, p1⟩
  · rw [h1] at hd; cases hd
  rcases dump_cases env items' h' version hv name with ⟨h2, _⟩ | ⟨t', h2, ⟨val', e2, s2⟩, p2⟩
  · rw [h2] at hd'; cases hd'
  rw [h1] at hd; rw [h2] at hd'
  obtain rfl : t = text := by simpa using hd
  obtain rfl : t' = text' := by simpa using hd'
  rw [e1, e2]
  congr 2
  refine List.map_congr_left fun e he => ?_
  have hgeo : fetch items "geometry" = fetch items' "geometry" := by
    have hm : ("geometry", "'circ'", " # 'circ' or '3d' \n\n    # Here we set the type of processing unit: 'cpu' or 'gpu'.\n    # For now, GPU can be used only for 3d simulations.\n    ") ∈ template name := by
      rcases template_cases name with h | h <;> rw [h] <;> decide +kernel
    exact hsame _ hm
  have h3 : Is3d items ↔ Is3d items' := by unfold Is3d; rw [hgeo]
  have hs : Shows env items e.1 e.2.1.toList (val' e) := by
    have := s2 e he
    have hf := hsame e he
    exact {
      halfWidth := by rw [h3, hf]; exact this.halfWidth
      absent := by rw [hf]; exact this.absent
      number := by rw [h3, hf]; exact this.number
      word := by rw [hf]; exact this.word
      profile := by rw [hf]; exact this.profile
      function := by rw [hf]; exact this.function
      otherFunction := by rw [hf]; exact this.otherFunction
      forgotten := by rw [hf]; exact this.forgotten }
  rw [Shows.unique (s1 e he) hs p1]

end Lcode.Cfg
