import Verif.Config.Lemmas
import Mathlib.Tactic.FieldSimp
import Mathlib.Tactic.Positivity

/-!
Properties C01, C02, C03: the configuration object.
-/

namespace Lcode.Cfg

open Lcode.Py

/-! ### Specification -/

/-- A user-visible write: one assignment or one bulk update. -/
inductive Op where
  | set (k : String) (v : PyVal)
  | update (items : List (String × PyVal))

/-- The single assignments a history amounts to, oldest first. -/
def writes : List Op → List (String × PyVal)
  | [] => []
  | .set k v :: ops => (k, v) :: writes ops
  | .update items :: ops => items ++ writes ops

/-- What a write of `v` to `k` leaves behind: `circ` is a synonym of `2d`. -/
def normalised (k : String) (v : PyVal) : PyVal :=
  if k = "geometry" ∧ v = .str "circ" then .str "2d" else v

/-- The most recent write to `k` in a list of assignments (oldest first). -/
def lastWrite (ws : List (String × PyVal)) (k : String) : Option PyVal :=
  (ws.reverse.find? (fun w => w.1 = k)).map (fun w => normalised k w.2)

/-- Executing a history on the model. -/
def runOps (env : Env) (c : Config) (ops : List Op) : Config :=
  ops.foldl (fun c op => match op with
    | .set k v => c.set env k v
    | .update items => c.update env items) c

/-- Grid sizes for which the sine transform is fast: odd, and `n - 1` is a product of
powers of 2, 3, 5, 7 with at most one factor out of {11, 13}. (The degenerate size 1 counts.) -/
def GoodGrid (n : ℕ) : Prop :=
  n % 2 = 1 ∧ (n = 1 ∨ ∃ a b c d e f : ℕ, e + f ≤ 1 ∧
    n = 2 ^ a * 3 ^ b * 5 ^ c * 7 ^ d * 11 ^ e * 13 ^ f + 1)

/-! ### C01 -/

theorem update_eq_foldl (env : Env) (c : Config) (ops : List Op) :
    runOps env c ops = (writes ops).foldl (fun c kv => c.set env kv.1 kv.2) c := by
  induction ops generalizing c with
  | nil => rfl
  | cons op ops ih =>
    cases op with
    | set k v => exact ih _
    | update items =>
      simp only [writes, List.foldl_append]
      exact ih _

/-- C01: after every history of `set`/`update` calls, a key holds the normalised value of the
last write to it, or what it held before if it was never written. -/
theorem last_write_wins (env : Env) (c : Config) (ops : List Op) (k : String) :
    (runOps env c ops).values.lookup k =
      (lastWrite (writes ops) k).or (c.values.lookup k) := by
  rw [update_eq_foldl]
  generalize writes ops = ws
  induction ws using List.reverseRecOn with
  | nil => simp [lastWrite]
  | append_singleton ws w ih =>
    rw [List.foldl_append]
    simp only [List.foldl_cons, List.foldl_nil, lookup_set]
    by_cases h : w.1 = k
    · simp [lastWrite, h, normalised]
    · simp only [h, if_false, ih]
      simp [lastWrite, h]

/-- C01 for the reader methods: `get`, `getraw` and `getfloat` see exactly the last write. -/
theorem get_after_history (env : Env) (c : Config) (ops : List Op) (k : String) (fb : String) :
    (runOps env c ops).get env k fb =
      match lastWrite (writes ops) k with
      | some v => str env v
      | Option.none => c.get env k fb := by
  unfold Config.get
  rw [last_write_wins]
  cases lastWrite (writes ops) k <;> rfl

theorem getfloat_after_history (env : Env) (c : Config) (ops : List Op) (k : String) (fb : ℚ) :
    (runOps env c ops).getfloat env k fb =
      match lastWrite (writes ops) k with
      | some v => (toFloat? env v).getD fb
      | Option.none => c.getfloat env k fb := by
  unfold Config.getfloat
  rw [last_write_wins]
  cases lastWrite (writes ops) k <;> rfl

/-- C01 for `getint`: the float is truncated towards zero. -/
theorem getint_after_history (env : Env) (c : Config) (ops : List Op) (k : String) (fb : ℤ) :
    (runOps env c ops).getint env k fb =
      match lastWrite (writes ops) k with
      | some v => (match toFloat? env v with | some q => Lcode.Py.pyInt q | Option.none => fb)
      | Option.none => c.getint env k fb := by
  unfold Config.getint
  rw [last_write_wins]
  cases lastWrite (writes ops) k <;> rfl

/-- C01 for `getbool`: after the last write of a value printing as "true" or "false" in any capitalisation (in particular
`True` and `False`) that truth value is read; any other written value reads as the fallback. -/
theorem getbool_after_history (env : Env) (c : Config) (ops : List Op) (k : String) (fb : Bool) (v : PyVal)
    (h : lastWrite (writes ops) k = some v) :
    ((str env v).toLower = "true" → (runOps env c ops).getbool env k fb = true) ∧
    ((str env v).toLower = "false" → (runOps env c ops).getbool env k fb = false) ∧
    ((str env v).toLower ≠ "true" → (str env v).toLower ≠ "false" → (runOps env c ops).getbool env k fb = fb) := by
  have : (runOps env c ops).get env k = str env v := by
    rw [get_after_history, h]
  unfold Config.getbool
  simp only [this]
  refine ⟨fun h => by rw [h]; rfl, fun h => by rw [h]; rfl, fun h1 h2 => by rw [if_neg h1, if_neg h2]⟩

/-- Writing Python's True or False and reading it back with getbool. -/
theorem getbool_of_bool (env : Env) (c : Config) (ops : List Op) (k : String) (fb b : Bool)
    (h : lastWrite (writes ops) k = some (.bool b)) : (runOps env c ops).getbool env k fb = b := by
  have := getbool_after_history env c ops k fb _ h
  cases b
  · exact this.2.1 (by show String.toLower "False" = "false"; decide +kernel)
  · exact this.1 (by show String.toLower "True" = "true"; decide +kernel)

/-- C01, frame: a history that never writes `k` leaves `k` alone. -/
theorem unwritten_unchanged (env : Env) (c : Config) (ops : List Op) (k : String)
    (h : ∀ w ∈ writes ops, w.1 ≠ k) :
    (runOps env c ops).values.lookup k = c.values.lookup k := by
  rw [last_write_wins]
  have : lastWrite (writes ops) k = Option.none := by
    simp only [lastWrite, Option.map_eq_none_iff, List.find?_eq_none, List.mem_reverse,
      decide_eq_true_eq]
    exact h
  simp [this]

/-- C01: the geometry stored after any history is never the synonym `circ`, provided it was
not so before. -/
theorem geometry_never_circ (env : Env) (c : Config) (ops : List Op)
    (h : c.values.lookup "geometry" ≠ some (.str "circ")) :
    (runOps env c ops).values.lookup "geometry" ≠ some (.str "circ") := by
  rw [last_write_wins]
  unfold lastWrite
  cases hf : (writes ops).reverse.find? (fun w => w.1 = "geometry") with
  | none => simpa [hf] using h
  | some w =>
    simp only [Option.map_some, Option.some_or, ne_eq, Option.some.injEq, normalised, true_and]
    split_ifs with hc
    · decide
    · exact hc

/-- The array library selected by one value of `processing-unit-type`, if it selects one. -/
def backendOf (env : Env) (v : PyVal) : Option Backend :=
  if (str env v).toLower = "cpu" then some .numpy
  else if (str env v).toLower = "gpu" then some .cupy
  else Option.none

theorem xp_set (env : Env) (c : Config) (k : String) (v : PyVal) :
    (c.set env k v).xp =
      if k = "processing-unit-type" then (backendOf env v).getD c.xp else c.xp := by
  unfold Config.set Config.adjustOnSet backendOf
  by_cases hk : k = "processing-unit-type"
  · subst hk
    have : ¬ ("processing-unit-type" = "geometry") := by decide
    simp only [this, false_and, if_false, if_true, Config.get, lookup_assign]
    split_ifs <;> simp
  · simp only [hk, if_false]
    split_ifs <;> rfl

/-- C01, backend: after any history the array library is the one chosen by the last
`processing-unit-type` write that names a known unit. -/
theorem backend_after_history (env : Env) (c : Config) (ops : List Op) :
    (runOps env c ops).xp =
      ((((writes ops).filter (fun w => w.1 = "processing-unit-type")).filterMap
        (fun w => backendOf env w.2)).getLast?).getD c.xp := by
  rw [update_eq_foldl]
  generalize writes ops = ws
  induction ws using List.reverseRecOn with
  | nil => simp
  | append_singleton ws w ih =>
    rw [List.foldl_append]
    simp only [List.foldl_cons, List.foldl_nil, xp_set]
    by_cases h : w.1 = "processing-unit-type"
    · simp only [h, if_true, List.filter_append, List.filter_cons, decide_true,
        List.filter_nil, List.filterMap_append, List.filterMap_cons, List.filterMap_nil]
      cases hb : backendOf env w.2 with
      | none => simpa [hb] using ih
      | some b => simp
    · simp [h, ih]

/-- C01: `Config(new)` holds the user's values over the defaults. -/
theorem init_lookup (env : Env) (defaults new : List (String × PyVal)) (k : String) :
    (Config.init env defaults true (some new)).values.lookup k =
      (lastWrite new k).or (lastWrite defaults k) := by
  have h := last_write_wins env ⟨[], .numpy⟩ [.update defaults, .update new] k
  have h2 : runOps env ⟨[], .numpy⟩ [.update defaults, .update new] =
      Config.init env defaults true (some new) := rfl
  rw [h2] at h
  rw [h]
  simp only [writes, List.append_nil, Table.lookup, Option.or_none]
  simp only [lastWrite, List.reverse_append, List.find?_append]
  cases new.reverse.find? (fun w => w.1 = k) <;> simp

/-- `copy(config)` keeps every value ... -/
theorem copy_values (env : Env) (defaults : List (String × PyVal)) (c : Config) (k : String) :
    (c.copy env defaults).values.lookup k = c.values.lookup k := rfl

/-- ... but loses the array library: a copied GPU configuration is a numpy one
(finding; config.py:150-156 builds the copy from the default `cpu`). -/
theorem copy_forgets_backend (env : Env) (c : Config) :
    (c.copy env [("processing-unit-type", .str "cpu")]).xp = .numpy := by
  simp only [Config.copy, Config.init, Config.update, List.foldl_cons, List.foldl_nil, xp_set,
    if_true]
  have : ("cpu" : String).toLower = "cpu" := by decide +kernel
  simp [backendOf, str, this]

section examples
/-- A concrete environment for non-vacuity checks. -/
def demoEnv : Env := ⟨fun _ => "1.5", fun _ => Option.none, fun q => q⟩

example : (runOps demoEnv ⟨[], .numpy⟩
    [.update [("geometry", .str "circ"), ("xi-step", .float (1/20))],
     .set "geometry" (.str "3d"), .set "xi-step" (.float (1/10))]).getfloat demoEnv "xi-step"
      = 1/10 := by decide +kernel

example : (runOps demoEnv ⟨[], .numpy⟩ [.set "geometry" (.str "circ")]).get demoEnv "geometry"
    = "2d" := by decide +kernel
end examples

/-! ### C03 -/

/-- C03: every positive number is factorised: the factors multiply to it, all are prime and
they ascend. -/
theorem factorize_spec (n : ℕ) (hn : 1 ≤ n) :
    ∃ l, factorize n [] = some l ∧ l.prod = n ∧ (∀ p ∈ l, p.Prime) ∧ l.Pairwise (· ≤ ·) := by
  refine ⟨n.primeFactorsList, by simp [factorize_eq], Nat.prod_primeFactorsList (by omega),
    fun p hp => Nat.prime_of_mem_primeFactorsList hp, ?_⟩
  exact (Nat.primeFactorsList_sorted n).pairwise

example : factorize 360 [] = some [2, 2, 2, 3, 3, 5] := by
  rw [factorize_eq]
  have h (p n : ℕ) (h2 : 2 ≤ n) (hp : n.minFac = p) : n.primeFactorsList =
      p :: (n / p).primeFactorsList := by
    obtain ⟨k, rfl⟩ : ∃ k, n = k + 2 := ⟨n - 2, by omega⟩
    rw [Nat.primeFactorsList, hp]
  rw [h 2 360 (by norm_num) (by norm_num), h 2 (360 / 2) (by norm_num) (by norm_num),
    h 2 (360 / 2 / 2) (by norm_num) (by norm_num), h 3 (360 / 2 / 2 / 2) (by norm_num) (by norm_num),
    h 3 (360 / 2 / 2 / 2 / 3) (by norm_num) (by norm_num),
    h 5 (360 / 2 / 2 / 2 / 3 / 3) (by norm_num) (by norm_num)]
  norm_num

/-! ### C02 -/

/-- C02: the test used by the program accepts exactly the FFT-friendly sizes. -/
theorem goodSize_iff (n : ℕ) : goodSize n = true ↔ GoodGrid n := by
  unfold goodSize
  rw [factorize_eq]
  simp only [List.nil_append, Bool.and_eq_true, List.all_eq_true, decide_eq_true_eq, bne_iff_ne]
  constructor
  · rintro ⟨⟨h1, h2⟩, h3⟩
    refine ⟨by omega, ?_⟩
    by_cases hn : n = 1
    · exact Or.inl hn
    · right
      obtain ⟨a, b, c, d, hp⟩ := exponents_of_list _ (fun f hf => by simpa using h1 f hf)
      rw [Nat.prod_primeFactorsList (by omega)] at hp
      exact ⟨a, b, c, d, _, _, Nat.lt_succ_iff.mp h2, by omega⟩
  · rintro ⟨h1, rfl | ⟨a, b, c, d, e, f, h2, h3⟩⟩
    · simp
    · have hm : n - 1 = 2 ^ a * 3 ^ b * 5 ^ c * 7 ^ d * 11 ^ e * 13 ^ f := by omega
      refine ⟨⟨fun p hp => ?_, ?_⟩, by omega⟩
      · have hpp := Nat.prime_of_mem_primeFactorsList hp
        have hd := Nat.dvd_of_mem_primeFactorsList hp
        rw [hm] at hd
        have := prime_dvd_smooth hpp hd
        simp only [List.mem_cons, List.not_mem_nil, or_false] at this
        simp only [List.contains_eq_mem, List.mem_cons, List.not_mem_nil, or_false,
          decide_eq_true_eq]
        omega
      · rw [Nat.primeFactorsList_count_eq, Nat.primeFactorsList_count_eq, hm,
          factorization_smooth, factorization_smooth]
        simp only [factorization_prime_self_or (show Nat.Prime 2 by norm_num),
          factorization_prime_self_or (show Nat.Prime 3 by norm_num),
          factorization_prime_self_or (show Nat.Prime 5 by norm_num),
          factorization_prime_self_or (show Nat.Prime 7 by norm_num),
          factorization_prime_self_or (show Nat.Prime 11 by norm_num),
          factorization_prime_self_or (show Nat.Prime 13 by norm_num)]
        norm_num
        omega

/-- The requested number of cells: the (doubled) window width over the step, rounded down. -/
def requestedCells (env : Env) (c : Config) : ℤ :=
  pyInt (2 * c.getfloat env "window-width" / c.getfloat env "transverse-step")

/-- Keys the 3D adjustment may write. -/
def adjustedKeys : List String :=
  ["window-width", "window-width-steps", "plasma-fineness", "plasma-particles-per-cell",
   "field-solver-subtraction-coefficient"]

theorem lookup_adjustFineness (env : Env) (c : Config) (k : String)
    (h1 : k ≠ "plasma-fineness") (h2 : k ≠ "plasma-particles-per-cell") :
    (c.adjustFineness env).values.lookup k = c.values.lookup k := by
  unfold Config.adjustFineness
  simp only
  split_ifs <;> simp [lookup_set, Ne.symm h1, Ne.symm h2]

theorem adjust3d_cases (env : Env) (c c' : Config) (hgeo : c.get env "geometry" = "3d")
    (h : c.adjust3d env = some c') :
    ∃ n : ℕ, argminDist (requestedCells env c) (goodNumbers (requestedCells env c)) = some n ∧
      c'.values.lookup "window-width" =
        some (.float (n * c.getfloat env "transverse-step")) ∧
      c'.values.lookup "window-width-steps" = some (.int n) ∧
      (∀ k, k ∉ adjustedKeys → c'.values.lookup k = c.values.lookup k) := by
  unfold Config.adjust3d at h
  rw [if_pos hgeo] at h
  simp only [Config.adjustWindow, getfloat_set] at h
  simp only [if_true, show ¬ ("window-width" = "transverse-step") by decide, if_false] at h
  cases ha : argminDist (requestedCells env c) (goodNumbers (requestedCells env c)) with
  | none =>
    unfold requestedCells at ha
    simp [ha] at h
  | some n =>
    refine ⟨n, rfl, ?_⟩
    unfold requestedCells at ha
    simp only [ha] at h
    split_ifs at h <;> (
      simp only [Option.some.injEq] at h
      subst h
      refine ⟨?_, ?_, fun k hk => ?_⟩
      · simp [lookup_set, lookup_adjustFineness]
      · simp [lookup_set, lookup_adjustFineness]
      · simp only [adjustedKeys, List.mem_cons, List.not_mem_nil, or_false, not_or] at hk
        obtain ⟨k1, k2, k3, k4, k5⟩ := hk
        simp [lookup_set, lookup_adjustFineness, k3, k4, Ne.symm k1, Ne.symm k2, Ne.symm k5])

/-- C02: when the 3D adjustment succeeds, the number of transverse cells it stores is
FFT-friendly (in particular odd), no FFT-friendly number is closer to the requested one (and on a
tie the smaller is taken), it is within 100 of it, the stored window width is exactly that
many steps, and all options except the five documented ones are untouched. -/
theorem adjusted_grid (env : Env) (c c' : Config) (hgeo : c.get env "geometry" = "3d")
    (h : c.adjust3d env = some c') :
    ∃ n : ℕ, c'.getraw "window-width-steps" = .int n ∧
      c'.getfloat env "window-width" = n * c.getfloat env "transverse-step" ∧
      GoodGrid n ∧ n % 2 = 1 ∧
      |(n : ℤ) - requestedCells env c| ≤ 100 ∧
      (∀ m : ℕ, GoodGrid m →
        |(n : ℤ) - requestedCells env c| ≤ |(m : ℤ) - requestedCells env c| ∧
        (|(n : ℤ) - requestedCells env c| = |(m : ℤ) - requestedCells env c| → n ≤ m)) ∧
      (∀ k, k ∉ adjustedKeys → c'.values.lookup k = c.values.lookup k) := by
  obtain ⟨n, ha, hw, hs, hk⟩ := adjust3d_cases env c c' hgeo h
  obtain ⟨hn, hmin⟩ := argminDist_spec _ _ _ ha
  have hn' := (mem_goodNumbers _ _).mp hn
  have hgood : GoodGrid n := (goodSize_iff n).mp hn'.2.2
  have hclose : |(n : ℤ) - requestedCells env c| ≤ 100 := by
    rw [abs_le]; omega
  refine ⟨n, by simp [Config.getraw, hs], by simp [Config.getfloat, hw, toFloat?], hgood,
    hgood.1, hclose, fun m hm => ?_, hk⟩
  by_cases hin : m ∈ goodNumbers (requestedCells env c)
  · exact ⟨hmin m hin, fun he => argminDist_ties _ _ (goodNumbers_sorted _) n ha m hin he.symm⟩
  · rw [mem_goodNumbers] at hin
    have hg := (goodSize_iff m).mpr hm
    have hout : (m : ℤ) < requestedCells env c - 100 ∨ requestedCells env c + 100 ≤ m := by
      by_contra hcon
      push Not at hcon
      exact hin ⟨hcon.1, hcon.2, hg⟩
    rw [abs_le] at hclose
    rcases hout with ho | ho
    · have : 100 < |(m : ℤ) - requestedCells env c| := by rw [lt_abs]; omega
      refine ⟨?_, fun he => ?_⟩
      · have : |(n : ℤ) - requestedCells env c| ≤ 100 := abs_le.mpr hclose
        omega
      · have : |(n : ℤ) - requestedCells env c| ≤ 100 := abs_le.mpr hclose
        omega
    · have : 100 ≤ |(m : ℤ) - requestedCells env c| := by rw [le_abs]; omega
      refine ⟨?_, fun he => by omega⟩
      have : |(n : ℤ) - requestedCells env c| ≤ 100 := abs_le.mpr hclose
      omega

/-- Exponents of a chain of good sizes with gaps of at most 200. -/
def chain : List (ℕ × ℕ × ℕ × ℕ × ℕ × ℕ) :=
  [(1,0,0,2,0,0), (1,1,0,2,0,0), (1,0,1,2,0,0), (1,0,0,3,0,0), (1,2,0,2,0,0), (3,3,1,0,0,0),
   (8,0,1,0,0,0), (1,1,1,2,0,0), (7,0,0,0,0,1), (3,1,0,1,1,0), (11,0,0,0,0,0), (6,0,1,1,0,0),
   (1,5,1,0,0,0), (3,0,2,0,0,1), (4,0,2,1,0,0), (3,1,3,0,0,0), (7,0,2,0,0,0), (5,1,1,1,0,0),
   (3,2,0,2,0,0), (4,1,0,1,1,0), (4,5,0,0,0,0), (1,4,2,0,0,0), (7,1,0,0,1,0), (1,2,1,2,0,0),
   (9,2,0,0,0,0), (1,0,0,4,0,0), (3,0,4,0,0,0), (4,0,2,0,0,1), (3,3,2,0,0,0), (5,0,2,1,0,0),
   (7,2,1,0,0,0), (2,3,1,0,1,0), (5,3,0,1,0,0), (5,1,1,0,0,1), (8,0,2,0,0,0), (3,1,2,0,1,0),
   (1,3,3,0,0,0), (1,2,1,1,1,0), (3,4,0,0,1,0), (1,6,1,0,0,0), (6,2,0,0,0,1), (9,1,1,0,0,0),
   (5,0,1,2,0,0), (6,0,3,0,0,0), (13,0,0,0,0,0), (7,0,1,0,0,1), (8,1,0,0,1,0), (6,3,1,0,0,0),
   (2,2,1,2,0,0), (3,2,3,0,0,0), (2,0,2,1,0,1), (3,1,1,1,1,0), (6,1,0,2,0,0), (2,0,0,4,0,0),
   (3,0,2,2,0,0), (4,0,4,0,0,0), (4,0,0,2,0,1), (7,4,0,0,0,0), (6,1,1,0,1,0), (9,1,0,1,0,0),
   (3,1,1,1,0,1), (4,2,0,1,1,0), (10,0,0,0,1,0), (2,4,1,1,0,0), (8,2,1,0,0,0), (2,2,2,0,0,1),
   (3,3,1,0,1,0), (5,1,3,0,0,0), (1,5,2,0,0,0), (2,2,0,3,0,0), (8,0,0,2,0,0), (2,0,1,2,0,1),
   (3,1,0,2,1,0), (1,8,0,0,0,0), (10,0,0,0,0,1), (2,3,3,0,0,0), (1,1,2,1,0,1), (9,3,0,0,0,0),
   (4,0,3,1,0,0), (5,2,0,2,0,0), (4,4,0,0,1,0), (1,1,0,4,0,0), (2,6,1,0,0,0), (1,4,0,1,0,1),
   (1,3,2,0,1,0), (3,1,4,0,0,0), (4,3,1,1,0,0), (3,1,0,2,0,1), (3,0,2,1,1,0), (4,1,2,0,0,1),
   (1,2,3,1,0,0), (2,4,0,2,0,0), (1,6,0,0,1,0), (3,4,2,0,0,0), (14,0,0,0,0,0), (2,1,3,0,1,0),
   (8,0,1,0,0,1), (5,1,2,1,0,0), (9,1,0,0,1,0), (1,5,1,1,0,0), (1,0,2,3,0,0), (7,3,1,0,0,0),
   (6,1,0,1,0,1), (3,2,1,2,0,0), (2,0,0,3,0,1), (4,2,3,0,0,0), (3,0,2,1,0,1)]

def chainVal : ℕ × ℕ × ℕ × ℕ × ℕ × ℕ → ℕ
  | (a, b, c, d, e, f) => 2 ^ a * 3 ^ b * 5 ^ c * 7 ^ d * 11 ^ e * 13 ^ f + 1

theorem chain_good : ∀ t ∈ chain, GoodGrid (chainVal t) := by
  have h : ∀ t ∈ chain, chainVal t % 2 = 1 ∧ t.2.2.2.2.1 + t.2.2.2.2.2 ≤ 1 := by decide +kernel
  rintro ⟨a, b, c, d, e, f⟩ ht
  exact ⟨(h _ ht).1, Or.inr ⟨a, b, c, d, e, f, (h _ ht).2, rfl⟩⟩

theorem covered_of_chain (l : List ℕ) (lo : ℕ) (hgap : List.IsChain (fun a b => b ≤ a + 200) (lo :: l))
    (x : ℤ) (h1 : (lo : ℤ) - 100 < x) (h2 : x ≤ ((lo :: l).getLast (by simp) : ℤ) + 100) :
    ∃ y ∈ lo :: l, x - 100 ≤ (y : ℤ) ∧ (y : ℤ) < x + 100 := by
  induction l generalizing lo with
  | nil => exact ⟨lo, by simp, by simp at h2; omega, by omega⟩
  | cons a l ih =>
    by_cases hx : x ≤ (lo : ℤ) + 100
    · exact ⟨lo, by simp, by omega, by omega⟩
    · rw [List.isChain_cons_cons] at hgap
      obtain ⟨y, hy, hy'⟩ := ih a hgap.2 (by omega) (by simpa using h2)
      exact ⟨y, by simp [hy], hy'⟩

/-- C02, totality: for every request of at most 18301 cells the adjustment finds a grid. -/
theorem adjust3d_succeeds (env : Env) (c : Config)
    (h0 : 0 ≤ requestedCells env c) (h1 : requestedCells env c ≤ 18301) :
    ∃ c', c.adjust3d env = some c' := by
  unfold Config.adjust3d
  split_ifs with hgeo
  · simp only [Config.adjustWindow, getfloat_set]
    simp only [if_true, show ¬ ("window-width" = "transverse-step") by decide, if_false]
    have hne : goodNumbers (requestedCells env c) ≠ [] := by
      have hchain : List.IsChain (fun a b => b ≤ a + 200)
          ((chain.map chainVal).head! :: (chain.map chainVal).tail) := by decide +kernel
      have hlast : (((chain.map chainVal).head! :: (chain.map chainVal).tail).getLast
          (by simp)) = 18201 := by decide +kernel
      have hhead : (chain.map chainVal).head! ≤ 99 := by decide +kernel
      obtain ⟨y, hy, hy1, hy2⟩ := covered_of_chain _ _ hchain (requestedCells env c)
        (by omega) (by rw [hlast]; exact_mod_cast h1)
      have hy' : y ∈ chain.map chainVal := hy
      obtain ⟨t, ht, rfl⟩ := List.mem_map.mp hy'
      have hmem := (mem_goodNumbers (requestedCells env c) (chainVal t)).mpr
        ⟨hy1, hy2, (goodSize_iff _).mpr (chain_good t ht)⟩
      exact List.ne_nil_of_mem hmem
    obtain ⟨n, hn⟩ := argminDist_isSome (requestedCells env c) _ hne
    unfold requestedCells at hn
    simp only [hn]
    split_ifs <;> exact ⟨_, rfl⟩
  · exact ⟨_, rfl⟩

/-- Membership of `m + 1` in the search range around 18302, as a computable test. -/
def inGap (m ef : ℕ) : Bool :=
  ef ≤ 1 ∧ 18202 ≤ m + 1 ∧ m + 1 < 18402 ∧ (m + 1) % 2 = 1

/-- No FFT-friendly size lies within the search range around 18302. -/
theorem no_good_near_18302 (n : ℕ) (h1 : 18202 ≤ n) (h2 : n < 18402) : ¬ GoodGrid n := by
  rintro ⟨hodd, rfl | ⟨a, b, c, d, e, f, hef, rfl⟩⟩
  · omega
  · have hb : ∀ q k r : ℕ, 1 < q → 18402 ≤ q ^ r → q ^ k ≤ 18401 → k < r := by
      intro q k r hq hr hk
      by_contra hcon
      have := Nat.pow_le_pow_right (by omega : 0 < q) (not_lt.mp hcon)
      omega
    have hdiv : ∀ q k : ℕ, q ^ k ∣ 2 ^ a * 3 ^ b * 5 ^ c * 7 ^ d * 11 ^ e * 13 ^ f →
        q ^ k ≤ 18401 := fun q k hd => by
      have := Nat.le_of_dvd (by positivity) hd
      omega
    have ha : a < 15 := hb 2 a 15 (by norm_num) (by norm_num) (hdiv 2 a ⟨3 ^ b * 5 ^ c * 7 ^ d * 11 ^ e * 13 ^ f, by ring⟩)
    have hb' : b < 9 := hb 3 b 9 (by norm_num) (by norm_num) (hdiv 3 b ⟨2 ^ a * 5 ^ c * 7 ^ d * 11 ^ e * 13 ^ f, by ring⟩)
    have hc : c < 7 := hb 5 c 7 (by norm_num) (by norm_num) (hdiv 5 c ⟨2 ^ a * 3 ^ b * 7 ^ d * 11 ^ e * 13 ^ f, by ring⟩)
    have hd : d < 6 := hb 7 d 6 (by norm_num) (by norm_num) (hdiv 7 d ⟨2 ^ a * 3 ^ b * 5 ^ c * 11 ^ e * 13 ^ f, by ring⟩)
    have key : ∀ a < 15, ∀ b < 9, ∀ c < 7, ∀ d < 6, ∀ e < 2, ∀ f < 2,
        inGap (2 ^ a * 3 ^ b * 5 ^ c * 7 ^ d * 11 ^ e * 13 ^ f) (e + f) = false := by
      decide +kernel
    have := key a ha b hb' c hc d hd e (by omega) f (by omega)
    simp only [inGap, decide_eq_false_iff_not, not_and] at this
    exact this hef h1 h2 hodd

/-- C02, refutation of totality: a request of exactly 18302 cells (the first such number)
makes the adjustment raise instead of returning a configuration. -/
theorem adjust3d_fails (env : Env) (c : Config) (hgeo : c.get env "geometry" = "3d")
    (h : requestedCells env c = 18302) : c.adjust3d env = Option.none := by
  unfold Config.adjust3d
  rw [if_pos hgeo]
  simp only [Config.adjustWindow, getfloat_set]
  simp only [if_true, show ¬ ("window-width" = "transverse-step") by decide, if_false]
  have hnil : goodNumbers (requestedCells env c) = [] := by
    rw [List.eq_nil_iff_forall_not_mem]
    intro n hn
    rw [mem_goodNumbers, h] at hn
    exact no_good_near_18302 n (by omega) (by omega) ((goodSize_iff n).mp hn.2.2)
  unfold requestedCells at hnil
  rw [hnil]
  rfl

/-- C02, fineness: the number of plasma particles per cell becomes the square of the stored
fineness, which is a non-negative integer or the reciprocal of a positive one, and is the
rounded square root of the request. -/
theorem adjusted_fineness (env : Env) (c : Config)
    (hs : 0 ≤ env.sqrt (c.getfloat env "plasma-particles-per-cell")) :
    let c' := c.adjustFineness env
    let s := env.sqrt (c.getfloat env "plasma-particles-per-cell")
    c'.getfloat env "plasma-particles-per-cell" = c'.getfloat env "plasma-fineness" ^ 2 ∧
    (∃ n : ℕ, c'.getfloat env "plasma-fineness" = n ∨
      (0 < n ∧ c'.getfloat env "plasma-fineness" = 1 / n)) ∧
    (1 ≤ s → |c'.getfloat env "plasma-fineness" - s| ≤ 1 / 2) ∧
    (0 < s → 0 < c'.getfloat env "plasma-fineness") := by
  intro c' s
  simp only [c', s]
  generalize hsd : env.sqrt (c.getfloat env "plasma-particles-per-cell") = s at hs
  simp only [Config.adjustFineness, hsd]
  by_cases hlt : 0 < s ∧ s < 1
  · have h1 : 1 ≤ pyRound (1 / s) := one_le_pyRound (by
      rw [le_div_iff₀ hlt.1]; linarith [hlt.2])
    have h1q : (0 : ℚ) < pyRound (1 / s) := by exact_mod_cast (by omega : 0 < pyRound (1 / s))
    simp only [hlt, and_self, if_true, Config.getfloat, lookup_set, toFloat?]
    simp
    refine ⟨⟨(pyRound (1 / s)).toNat, Or.inr ⟨by simp at *; omega, ?_⟩⟩, ?_, ?_⟩
    · have : (((pyRound (1 / s)).toNat : ℤ) : ℚ) = (pyRound (1 / s) : ℚ) := by
        rw [Int.toNat_of_nonneg (by omega)]
      simp only [one_div] at this ⊢
      rw [← this, Int.cast_natCast]
    · intro h; linarith [hlt.2]
    · simpa using h1q
  · simp only [hlt, if_false, Config.getfloat, lookup_set, toFloat?]
    simp
    have h0 := pyRound_nonneg hs
    refine ⟨⟨(pyRound s).toNat, Or.inl ?_⟩, fun _ => by simpa using abs_pyRound_sub_le s, ?_⟩
    · have : (((pyRound s).toNat : ℤ) : ℚ) = (pyRound s : ℚ) := by
        rw [Int.toNat_of_nonneg h0]
      rw [← this, Int.cast_natCast]
    · intro hpos
      have : 1 ≤ s := by
        by_contra hc; exact hlt ⟨hpos, not_le.mp hc⟩
      have := one_le_pyRound this
      exact_mod_cast (by omega : 0 < pyRound s)

/-- Finding: the adjustment is skipped when the user writes the geometry in capitals,
although the rest of the program accepts that spelling (lcode/simulation.py lower-cases it). -/
theorem adjust3d_skips_capitals (env : Env) (c : Config) (h : c.get env "geometry" = "3D") :
    c.adjust3d env = some c := by
  unfold Config.adjust3d
  rw [if_neg (by rw [h]; decide)]

section examples
/-- The default 3D window: half-width 5.0, step 0.05. The requested 200 cells are adjusted to 199
(199 and 201 are equally close; 198 = 2·3²·11). -/
def demo3d : Config :=
  ⟨[("geometry", .str "3d"), ("window-width", .float 5), ("transverse-step", .float (1/20)),
    ("plasma-particles-per-cell", .int 10), ("xi-step", .float (1/20)),
    ("field-solver-subtraction-coefficient", .int 1)], .numpy⟩

example : requestedCells demoEnv demo3d = 200 := by decide +kernel

example : ∃ c', demo3d.adjust3d demoEnv = some c' ∧ c'.getraw "window-width-steps" = .int 199 := by
  obtain ⟨c', hc⟩ := adjust3d_succeeds demoEnv demo3d (by decide +kernel) (by decide +kernel)
  refine ⟨c', hc, ?_⟩
  obtain ⟨n, h1, -, hg, hodd, -, hmin, -⟩ := adjusted_grid demoEnv demo3d c' (by decide +kernel) hc
  have hreq : requestedCells demoEnv demo3d = 200 := by decide +kernel
  rw [hreq] at hmin
  have h199 : GoodGrid 199 := ⟨by norm_num, Or.inr ⟨1, 2, 0, 0, 1, 0, by norm_num, by norm_num⟩⟩
  obtain ⟨h2, h3⟩ := hmin 199 h199
  have h4 : |(n : ℤ) - 200| ≤ 1 := by simpa using h2
  rw [abs_le] at h4
  have hn : n = 199 ∨ n = 200 ∨ n = 201 := by omega
  rcases hn with rfl | rfl | rfl
  · exact h1
  · omega
  · exact absurd (h3 (by norm_num)) (by norm_num)

example : ∃ c : Config, c.get demoEnv "geometry" = "3d" ∧ requestedCells demoEnv c = 18302 :=
  ⟨⟨[("geometry", .str "3d"), ("window-width", .float (18302/40)),
    ("transverse-step", .float (1/20))], .numpy⟩, by decide +kernel, by decide +kernel⟩
end examples

end Lcode.Cfg
