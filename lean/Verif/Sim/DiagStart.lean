import Verif.Sim.Examples

/-!
Property C85: which diagnostics a simulation accepts when the configuration is read (`pull_config` of FXiDiag, SliceDiag and ParticlesDiag, called by simulation.py:123-125), which slicer a slice diagnostics gets, and which of them stop the run later.
-/

namespace Lcode.DiagStart

open Lcode.Py Lcode.Cfg Lcode.Start

/-! ### Model -/

inductive DiagErr where
  | import
  | value
  | notImplemented
  | exception
  | attribute
  deriving DecidableEq

/-- The slicers of lcode/diagnostics/slice.py:135, :213, :285, :368. -/
inductive Slicer where
  | xiX3
  | xiY3
  | xY3
  | xiR2
  deriving DecidableEq

/-- What the user gives to a constructor (FXi/FXi.py:51-52, slice.py:41-42, particles.py:13-18), as far as `pull_config` looks at it: the number of dimensions of `probe_lines` and `limits` (`none`: not given). Simplification: `limits` of two dimensions are two pairs, `probe_lines` of two dimensions two rows; output periods are C50. -/
inductive Kind where
  | fxi (probes : Option ℕ)
  | slice (sliceType : ℤ) (limits : Option ℕ)
  | particles (saveBeam : Bool)
  deriving DecidableEq

/-- A diagnostics object; `slicer` is the attribute `_slicer`, which does not exist at first. -/
structure Diag where
  kind : Kind
  slicer : Option Slicer
  deriving DecidableEq

/-- `import cupy` if the processing unit is literally gpu, FXi.py:71-75, slice.py:70-75. -/
def importXp (env : Env) (m : Machine) (c : Config) : Except DiagErr Unit :=
  if c.get env "processing-unit-type" = "gpu" ∧ m.cupy = false then .error .import else .ok ()

/-- `__process_probe_lines`, FXi/Strategy3D.py:35-60, FXi/StrategyCircular.py:23-38. -/
def probeLines (probes : Option ℕ) : Except DiagErr Unit :=
  match probes with
  | none => .ok ()
  | some n => if n < 1 ∨ n > 2 then .error .value else .ok ()

/-- `Strategy.__new__`, FXi/Strategy.py:9-14. -/
def strategy (env : Env) (c : Config) (probes : Option ℕ) : Except DiagErr Unit :=
  if c.get env "geometry" = "3d" then probeLines probes
  else if c.get env "geometry" = "2d" then probeLines probes
  else .error .value

/-- The constructor of a slicer, slice.py:143-160, :221-238, :294-310, :376-393. -/
def newSlicer (limits : Option ℕ) (s : Slicer) : Except DiagErr Slicer :=
  match limits with
  | none => .ok s
  | some n => if n ≠ 2 then .error .value else .ok s

/-- slice.py:77-99: the choice of the slicer. -/
def selectSlicer (env : Env) (c : Config) (t : ℤ) (limits : Option ℕ) (old : Option Slicer) : Except DiagErr (Option Slicer) :=
  if c.get env "geometry" = "3d" then
    if t = 0x2 ∨ t = 0x1 then (newSlicer limits .xiX3).map some
    else if t = 0x4 then (newSlicer limits .xiY3).map some
    else if t = 0x8 then (newSlicer limits .xY3).map some
    else .error .notImplemented
  else if c.get env "geometry" = "2d" then
    if t = 0x1 ∨ t = 0x2 ∨ t = 0x4 then (newSlicer limits .xiR2).map some
    else if t = 0x8 then .error .notImplemented
    else .error .notImplemented
  else .ok old

/-- `pull_config`, FXi.py:70-87, slice.py:60-99, particles.py:32-46. -/
def pullOne (env : Env) (m : Machine) (c : Config) (d : Diag) : Except DiagErr Diag :=
  match d.kind with
  | .fxi probes => do
    importXp env m c
    strategy env c probes
    return d
  | .slice t limits => do
    importXp env m c
    let s ← selectSlicer env c t limits d.slicer
    return { d with slicer := s }
  | .particles saveBeam => if c.getbool env "rigid-beam" = true ∧ saveBeam = true then .error .exception else .ok d

/-- The loop simulation.py:124-125. -/
def pullAll (env : Env) (m : Machine) (c : Config) : List Diag → Except DiagErr (List Diag)
  | [] => .ok []
  | d :: ds => do
    let d' ← pullOne env m c d
    let ds' ← pullAll env m c ds
    return d' :: ds'

/-- The call of `self._slicer.process` in a layer of an output step, slice.py:104-109: AttributeError if there is no slicer. The other diagnostics have nothing that could be missing. -/
def firstOutput (d : Diag) : Except DiagErr Unit :=
  match d.kind, d.slicer with
  | .slice _ _, none => .error .attribute
  | _, _ => .ok ()

/-! ### Specification -/

/-- The diagnostics fits the configuration. -/
def Accepts (env : Env) (m : Machine) (c : Config) : Kind → Prop
  | .fxi probes => (c.get env "processing-unit-type" = "gpu" → m.cupy = true) ∧ (c.get env "geometry" = "2d" ∨ c.get env "geometry" = "3d") ∧ ∀ n ∈ probes, n = 1 ∨ n = 2
  | .slice t limits => (c.get env "processing-unit-type" = "gpu" → m.cupy = true) ∧
      (c.get env "geometry" = "3d" → t ∈ [1, 2, 4, 8] ∧ ∀ n ∈ limits, n = 2) ∧ (c.get env "geometry" = "2d" → t ∈ [1, 2, 4] ∧ ∀ n ∈ limits, n = 2)
  | .particles saveBeam => ¬ (saveBeam = true ∧ c.getbool env "rigid-beam" = true)

/-- The plane asked for, by geometry: in 3d the types 1 and 2 are both the x plane, in 2d all are the half-plane. -/
def planeOf (geometry : String) (t : ℤ) : Slicer :=
  if geometry = "2d" then .xiR2 else if t = 8 then .xY3 else if t = 4 then .xiY3 else .xiX3

/-! ### Theorems -/

theorem import_ok (env : Env) (m : Machine) (c : Config) : importXp env m c = .ok () ↔ (c.get env "processing-unit-type" = "gpu" → m.cupy = true) := by
  unfold importXp
  by_cases h : c.get env "processing-unit-type" = "gpu" <;> cases hc : m.cupy <;> simp [h]

theorem probe_ok (p : Option ℕ) : probeLines p = .ok () ↔ ∀ n ∈ p, n = 1 ∨ n = 2 := by
  cases p with
  | none => simp [probeLines]
  | some n =>
    simp only [probeLines, Option.mem_def, Option.some.injEq, forall_eq']
    split
    · simp; omega
    · simp; omega

theorem newSlicer_ok (l : Option ℕ) (s r : Slicer) : newSlicer l s = .ok r ↔ r = s ∧ ∀ n ∈ l, n = 2 := by
  cases l with
  | none => simp [newSlicer, eq_comm]
  | some n =>
    simp only [newSlicer, Option.mem_def, Option.some.injEq, forall_eq']
    by_cases h : n = 2 <;> simp [h, eq_comm]

theorem newSlicer_map (l : Option ℕ) (s : Slicer) (o : Option Slicer) : (newSlicer l s).map some = .ok o ↔ o = some s ∧ ∀ n ∈ l, n = 2 := by
  have := fun r => newSlicer_ok l s r
  cases hn : newSlicer l s with
  | ok r =>
    obtain ⟨h1, h2⟩ := (this r).mp hn
    subst h1
    simp only [Except.map, Except.ok.injEq]
    exact ⟨fun h => ⟨h.symm, h2⟩, fun h => h.1.symm⟩
  | error e =>
    simp only [Except.map, reduceCtorEq, false_iff]
    rintro ⟨-, h⟩
    have := (this s).mpr ⟨rfl, h⟩
    rw [hn] at this
    cases this

theorem select_ok (env : Env) (c : Config) (t : ℤ) (l : Option ℕ) (old o : Option Slicer) : selectSlicer env c t l old = .ok o ↔
    ((c.get env "geometry" = "3d" → t ∈ [1, 2, 4, 8] ∧ ∀ n ∈ l, n = 2) ∧ (c.get env "geometry" = "2d" → t ∈ [1, 2, 4] ∧ ∀ n ∈ l, n = 2)) ∧
    o = if c.get env "geometry" = "2d" ∨ c.get env "geometry" = "3d" then some (planeOf (c.get env "geometry") t) else old := by
  unfold selectSlicer planeOf
  by_cases h3 : c.get env "geometry" = "3d"
  · rw [if_pos h3, h3]
    simp only [show ("3d" : String) ≠ "2d" from by decide, false_or, if_false, if_true, false_implies, and_true, true_implies, List.mem_cons, List.not_mem_nil, or_false]
    by_cases a : t = 2 ∨ t = 1
    · rw [if_pos a, newSlicer_map]
      have h8 : t ≠ 8 := by omega
      have h4 : t ≠ 4 := by omega
      simp only [h8, h4, if_false]
      constructor
      · rintro ⟨e, f⟩; exact ⟨⟨by omega, f⟩, e⟩
      · rintro ⟨⟨-, f⟩, e⟩; exact ⟨e, f⟩
    · rw [if_neg a]
      by_cases b : t = 4
      · rw [if_pos b, newSlicer_map]
        subst b
        norm_num
        tauto
      · rw [if_neg b]
        by_cases d : t = 8
        · rw [if_pos d, newSlicer_map]
          subst d
          norm_num
          tauto
        · rw [if_neg d]
          simp only [reduceCtorEq, false_iff]
          rintro ⟨⟨e, -⟩, -⟩
          omega
  · rw [if_neg h3]
    by_cases h2 : c.get env "geometry" = "2d"
    · rw [if_pos h2, h2]
      simp only [show ("2d" : String) ≠ "3d" from by decide, if_true, false_implies, true_and, true_implies, List.mem_cons, List.not_mem_nil, or_false]
      by_cases a : t = 1 ∨ t = 2 ∨ t = 4
      · rw [if_pos a, newSlicer_map]
        constructor
        · rintro ⟨e, f⟩; exact ⟨⟨a, f⟩, e⟩
        · rintro ⟨⟨-, f⟩, e⟩; exact ⟨e, f⟩
      · rw [if_neg a, ite_self]
        simp only [reduceCtorEq, false_iff]
        rintro ⟨⟨e, -⟩, -⟩
        exact a e
    · rw [if_neg h2]
      simp only [h2, h3, false_or, if_false, false_implies, true_and, Except.ok.injEq]
      exact eq_comm

/-- C85: one object. It is accepted exactly if it fits the configuration; then only the slicer of a slice diagnostics changes, and only if the geometry is literally 2d or 3d. -/
theorem pullOne_ok (env : Env) (m : Machine) (c : Config) (d d' : Diag) : pullOne env m c d = .ok d' ↔ Accepts env m c d.kind ∧ d'.kind = d.kind ∧
    d'.slicer = (match d.kind with
      | .slice t _ => if c.get env "geometry" = "2d" ∨ c.get env "geometry" = "3d" then some (planeOf (c.get env "geometry") t) else d.slicer
      | _ => d.slicer) := by
  obtain ⟨k, s⟩ := d
  obtain ⟨k', s'⟩ := d'
  unfold pullOne
  cases k with
  | fxi p =>
    simp only [Accepts]
    rw [← import_ok, ← probe_ok]
    cases hi : importXp env m c with
    | error e => simp [bind, Except.bind]
    | ok u =>
      simp only [bind, Except.bind, strategy]
      by_cases h3 : c.get env "geometry" = "3d"
      · simp only [h3, if_true, or_true, true_and]
        cases probeLines p <;> simp [pure, Except.pure, eq_comm]
      · by_cases h2 : c.get env "geometry" = "2d"
        · simp only [h2, if_true, true_or, true_and, show ("2d" : String) ≠ "3d" from by decide, if_false]
          cases probeLines p <;> simp [pure, Except.pure, eq_comm]
        · simp [h2, h3]
  | slice t l =>
    simp only [Accepts]
    rw [← import_ok]
    cases hi : importXp env m c with
    | error e => simp [bind, Except.bind]
    | ok u =>
      simp only [bind, Except.bind]
      have := select_ok env c t l s
      cases hs : selectSlicer env c t l s with
      | error e =>
        simp only [reduceCtorEq, false_iff]
        rintro ⟨⟨-, h⟩, -, -⟩
        have := (this _).mpr ⟨h, rfl⟩
        rw [hs] at this
        cases this
      | ok o =>
        obtain ⟨h1, h2⟩ := (this o).mp hs
        simp only [pure, Except.pure, Except.ok.injEq, Diag.mk.injEq]
        constructor
        · rintro ⟨rfl, rfl⟩; exact ⟨⟨trivial, h1⟩, rfl, h2⟩
        · rintro ⟨-, rfl, h⟩; exact ⟨rfl, by rw [h, h2]⟩
  | particles b =>
    simp only [Accepts]
    by_cases h : c.getbool env "rigid-beam" = true <;> cases b <;> simp [h, eq_comm]

theorem pullOne_exists (env : Env) (m : Machine) (c : Config) (d : Diag) (h : Accepts env m c d.kind) : ∃ d', pullOne env m c d = .ok d' := by
  refine ⟨⟨d.kind, match d.kind with
      | .slice t _ => if c.get env "geometry" = "2d" ∨ c.get env "geometry" = "3d" then some (planeOf (c.get env "geometry") t) else d.slicer
      | _ => d.slicer⟩, (pullOne_ok env m c d _).mpr ⟨h, rfl, rfl⟩⟩

/-- C85: the simulation accepts a list of diagnostics exactly if each of them fits the configuration. -/
theorem accepted_iff (env : Env) (m : Machine) (c : Config) (ds : List Diag) : (∃ ds', pullAll env m c ds = .ok ds') ↔ ∀ d ∈ ds, Accepts env m c d.kind := by
  induction ds with
  | nil => simp [pullAll]
  | cons d ds ih =>
    simp only [List.mem_cons, forall_eq_or_imp, ← ih]
    have e : pullAll env m c (d :: ds) = (do let d' ← pullOne env m c d; let ds' ← pullAll env m c ds; return d' :: ds') := rfl
    rw [e]
    constructor
    · rintro ⟨ds', h⟩
      cases h1 : pullOne env m c d with
      | error e => rw [h1] at h; cases h
      | ok d' =>
        rw [h1] at h
        cases h2 : pullAll env m c ds with
        | error e => rw [h2] at h; cases h
        | ok r => exact ⟨((pullOne_ok env m c d d').mp h1).1, r, rfl⟩
    · rintro ⟨h1, r, h2⟩
      obtain ⟨d', hd⟩ := pullOne_exists env m c d h1
      exact ⟨d' :: r, by rw [hd, h2]; rfl⟩

/-- C85: a list that is not accepted fails with the error of its first misfit, whatever stands behind it. -/
theorem refused_first (env : Env) (m : Machine) (c : Config) (pre post : List Diag) (d : Diag) (hpre : ∀ x ∈ pre, Accepts env m c x.kind) (e : DiagErr) (hd : pullOne env m c d = .error e) : pullAll env m c (pre ++ d :: post) = .error e := by
  induction pre with
  | nil => unfold pullAll; rw [List.nil_append]; simp only [hd]; rfl
  | cons a pre ih =>
    obtain ⟨a', ha⟩ := pullOne_exists env m c a (hpre a (List.mem_cons_self ..))
    rw [List.cons_append]
    unfold pullAll
    rw [ha, ih (fun x hx => hpre x (List.mem_cons_of_mem _ hx))]
    rfl

/-- C85, the errors: an unknown geometry and probe lines or limits of a wrong shape are a ValueError, an unknown or combined slice type (and the x-y plane in 2d) a NotImplementedError, saving a rigid beam an Exception. -/
theorem refused_errors (env : Env) (m : Machine) (c : Config) (s : Option Slicer) (hx : c.get env "processing-unit-type" = "gpu" → m.cupy = true) :
    (∀ p, ¬ Accepts env m c (.fxi p) → pullOne env m c ⟨.fxi p, s⟩ = .error .value) ∧
    (∀ t l, (c.get env "geometry" = "3d" ∧ t ∉ [1, 2, 4, 8]) ∨ (c.get env "geometry" = "2d" ∧ t ∉ [1, 2, 4]) → pullOne env m c ⟨.slice t l, s⟩ = .error .notImplemented) ∧
    (∀ t n, n ≠ 2 → (c.get env "geometry" = "3d" ∧ t ∈ [1, 2, 4, 8]) ∨ (c.get env "geometry" = "2d" ∧ t ∈ [1, 2, 4]) → pullOne env m c ⟨.slice t (some n), s⟩ = .error .value) ∧
    (∀ b, ¬ Accepts env m c (.particles b) → pullOne env m c ⟨.particles b, s⟩ = .error .exception) := by
  have hi := (import_ok env m c).mpr hx
  refine ⟨?_, ?_, ?_, ?_⟩
  · intro p hp
    unfold Accepts at hp
    unfold pullOne
    simp only [hi, bind, Except.bind, strategy]
    have key : c.get env "geometry" = "3d" ∨ c.get env "geometry" = "2d" → probeLines p = .error .value := by
      intro hg
      cases hq : probeLines p with
      | ok u => exact absurd ⟨hx, hg.symm, (probe_ok p).mp hq⟩ hp
      | error e =>
        unfold probeLines at hq
        split at hq
        · cases hq
        · split at hq <;> cases hq; rfl
    by_cases h3 : c.get env "geometry" = "3d"
    · simp [h3, key (Or.inl h3)]
    · by_cases h2 : c.get env "geometry" = "2d"
      · simp [h2, key (Or.inr h2)]
      · simp [h2, h3]
  · rintro t l (⟨hg, ht⟩ | ⟨hg, ht⟩)
    · simp only [List.mem_cons, List.not_mem_nil, or_false, not_or] at ht
      unfold pullOne selectSlicer
      simp [hi, bind, Except.bind, hg, ht]
    · simp only [List.mem_cons, List.not_mem_nil, or_false, not_or] at ht
      unfold pullOne selectSlicer
      simp [hi, bind, Except.bind, hg, ht]
  · rintro t n hn (⟨hg, ht⟩ | ⟨hg, ht⟩)
    · simp only [List.mem_cons, List.not_mem_nil, or_false] at ht
      rcases ht with rfl | rfl | rfl | rfl <;> (unfold pullOne selectSlicer newSlicer; simp [hi, bind, Except.bind, hg, hn, Except.map])
    · simp only [List.mem_cons, List.not_mem_nil, or_false] at ht
      rcases ht with rfl | rfl | rfl <;> (unfold pullOne selectSlicer newSlicer; simp [hi, bind, Except.bind, hg, hn, Except.map])
  · intro b hb
    unfold Accepts at hb
    rw [not_not] at hb
    unfold pullOne
    simp [hb.1, hb.2]

/-- C85: an accepted slice diagnostics whose geometry is literally 2d or 3d never lacks its slicer; a new one with another writing (2D, 3D) is accepted by the constructor, whatever its type and limits, and raises AttributeError in the first layer it should write. -/
theorem slice_output (env : Env) (m : Machine) (c : Config) (t : ℤ) (l : Option ℕ) (old : Option Slicer) (hx : c.get env "processing-unit-type" = "gpu" → m.cupy = true) :
    (c.get env "geometry" = "2d" ∨ c.get env "geometry" = "3d" → ∀ d', pullOne env m c ⟨.slice t l, old⟩ = .ok d' → d'.slicer = some (planeOf (c.get env "geometry") t) ∧ firstOutput d' = .ok ()) ∧
    (¬ (c.get env "geometry" = "2d" ∨ c.get env "geometry" = "3d") → ∃ d', pullOne env m c ⟨.slice t l, none⟩ = .ok d' ∧ firstOutput d' = .error .attribute) := by
  constructor
  · intro hg d' hd
    obtain ⟨-, h2, h3⟩ := (pullOne_ok env m c _ d').mp hd
    simp only [hg, if_true] at h2 h3
    refine ⟨h3, ?_⟩
    unfold firstOutput
    rw [h2, h3]
  · intro hg
    refine ⟨⟨.slice t l, none⟩, (pullOne_ok env m c _ _).mpr ⟨⟨hx, fun h => absurd (Or.inr h) hg, fun h => absurd (Or.inl h) hg⟩, rfl, ?_⟩, rfl⟩
    simp only [hg, if_false]

/-- The configuration is read anew by every call of `step`; the object after a history of accepted readings. -/
inductive Life (env : Env) (m : Machine) : Diag → List Config → Diag → Prop where
  | start (d : Diag) : Life env m d [] d
  | pull {d d1 d2 : Diag} {cs : List Config} {c : Config} : Life env m d cs d1 → pullOne env m c d1 = .ok d2 → Life env m d (cs ++ [c]) d2

/-- C85: after any history of readings the slicer is that of the last configuration whose geometry was written 2d or 3d; a later one in capitals leaves it, and the run goes on with a slicer for the old window. -/
theorem slicer_history (env : Env) (m : Machine) (t : ℤ) (l : Option ℕ) (cs : List Config) (d' : Diag) (h : Life env m ⟨.slice t l, none⟩ cs d') :
    d'.kind = .slice t l ∧ d'.slicer = (cs.reverse.find? fun c => decide (c.get env "geometry" = "2d" ∨ c.get env "geometry" = "3d")).map fun c => planeOf (c.get env "geometry") t := by
  generalize hd : (⟨.slice t l, none⟩ : Diag) = d at h
  induction h with
  | start => subst hd; exact ⟨rfl, rfl⟩
  | @pull d1 d2 cs c _ hp ih =>
    obtain ⟨k1, s1⟩ := ih
    obtain ⟨-, k2, s2⟩ := (pullOne_ok env m c d1 d2).mp hp
    rw [k1] at k2 s2
    refine ⟨k2, ?_⟩
    rw [List.reverse_append, List.reverse_singleton, List.singleton_append, List.find?_cons]
    by_cases hg : c.get env "geometry" = "2d" ∨ c.get env "geometry" = "3d"
    · simp only [hg, if_true] at s2
      simp only [hg, decide_true, Option.map_some, s2]
    · simp only [hg, if_false] at s2
      simp only [hg, decide_false, s2, s1]

/-! ### Cases -/

/-- The diagnostics of lcode/examples/original-ssm.py:33-42 and high-R.py:256-269. -/
def exampleDiags : List Diag := [⟨.fxi none, none⟩, ⟨.slice 2 none, none⟩, ⟨.particles true, none⟩]

/-- The diagnostics of the examples are accepted; the geometry written 2D lets the slice through and refuses f(xi); a plane x-y, a combined type and a rigid beam to be saved are refused. -/
theorem diag_cases : (∀ user ∈ [exampleSSM, exampleHighR], pullAll demoEnv plain (cfgOf demoEnv listed user) exampleDiags = .ok [⟨.fxi none, none⟩, ⟨.slice 2 none, some .xiR2⟩, ⟨.particles true, none⟩]) ∧
    pullAll demoEnv plain (cfgOf demoEnv listed [("geometry", .str "2D")]) [⟨.slice 2 none, none⟩] = .ok [⟨.slice 2 none, none⟩] ∧
    pullAll demoEnv plain (cfgOf demoEnv listed [("geometry", .str "2D")]) exampleDiags = .error .value ∧
    pullAll demoEnv plain (cfgOf demoEnv listed []) [⟨.slice 8 none, none⟩] = .error .notImplemented ∧
    pullAll demoEnv plain (cfgOf demoEnv listed []) [⟨.slice 3 none, none⟩] = .error .notImplemented ∧
    pullAll demoEnv plain (cfgOf demoEnv listed [("rigid-beam", .bool true)]) exampleDiags = .error .exception := by decide +kernel

end Lcode.DiagStart
