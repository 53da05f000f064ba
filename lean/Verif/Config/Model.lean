import Verif.Py

/-!
Model of lcode/config/config.py.

Simplifications (all of this file):
* a Python value is one of the five constructors of `PyVal`; callables (a user
  function for `plasma-shape`) are not needed by the modelled methods;
* floats are exact rationals; `float(str(x)) = x` (Python's repr round trip) is built into `toFloat?`;
* how a float is printed, how a string is parsed as a number, and `np.sqrt` are
  arbitrary functions collected in `Env`, so theorems hold for each of them;
* `str.lower` is Lean's `String.toLower` (ASCII).
-/

namespace Lcode.Cfg

open Lcode.Py

/-- Values stored in a configuration dictionary. -/
inductive PyVal where
  | str (s : String)
  | int (i : ℤ)
  | float (q : ℚ)
  | bool (b : Bool)
  | none
  deriving DecidableEq

/-- Library behaviour the configuration code calls: printing floats, `float(str)`, `np.sqrt`. -/
structure Env where
  showFloat : ℚ → String
  parse : String → Option ℚ
  sqrt : ℚ → ℚ

/-- The array library selected by a configuration (config.py:23, :174-178). -/
inductive Backend where
  | numpy
  | cupy
  deriving DecidableEq

/-- An insertion-ordered Python dict (config.py:19). -/
abbrev Table := List (String × PyVal)

/-- `d.get(k)` / `k in d` on the dict. -/
def Table.lookup : Table → String → Option PyVal
  | [], _ => Option.none
  | (k', v) :: t, k => if k' = k then some v else Table.lookup t k

/-- `d[k] = v` on the dict: overwrite in place or append at the end. -/
def Table.assign : Table → String → PyVal → Table
  | [], k, v => [(k, v)]
  | (k', v') :: t, k, v => if k' = k then (k', v) :: t else (k', v') :: Table.assign t k v

/-- class Config, config.py:13-23: the dict and the array library. -/
structure Config where
  values : Table
  xp : Backend

variable (env : Env)

/-- `str(v)` -/
def str : PyVal → String
  | .str s => s
  | .int i => toString i
  | .float q => env.showFloat q
  | .bool true => "True"
  | .bool false => "False"
  | .none => "None"

/-- config.py:35-39 -/
def Config.get (c : Config) (k : String) (fallback : String := "") : String :=
  match c.values.lookup k with
  | some v => str env v
  | Option.none => fallback

/-- config.py:41-42 -/
def Config.getraw (c : Config) (k : String) : PyVal :=
  (c.values.lookup k).getD .none

/-- config.py:45-52 -/
def Config.getbool (c : Config) (k : String) (fallback : Bool := false) : Bool :=
  let s := (c.get env k).toLower
  if s = "true" then true else if s = "false" then false else fallback

/-- `float(str(v))`, `none` for ValueError (config.py:56, :62). For numbers the
print/parse round trip is taken as the identity. -/
def toFloat? : PyVal → Option ℚ
  | .str s => env.parse s
  | .int i => some i
  | .float q => some q
  | .bool _ => Option.none
  | .none => Option.none

/-- config.py:60-64; a missing key reads as `float('')`, a ValueError. -/
def Config.getfloat (c : Config) (k : String) (fallback : ℚ := 0) : ℚ :=
  match c.values.lookup k with
  | some v => (toFloat? env v).getD fallback
  | Option.none => fallback

/-- config.py:54-58 -/
def Config.getint (c : Config) (k : String) (fallback : ℤ := 0) : ℤ :=
  match c.values.lookup k with
  | some v => match toFloat? env v with
    | some q => pyInt q
    | Option.none => fallback
  | Option.none => fallback

/-- config.py:165-183 -/
def Config.adjustOnSet (c : Config) (k : String) : Config :=
  let c1 : Config :=
    if k = "processing-unit-type" then
      let pu := (c.get env "processing-unit-type").toLower
      if pu = "cpu" then { c with xp := .numpy }
      else if pu = "gpu" then { c with xp := .cupy }
      else c
    else c
  if k = "geometry" ∧ c1.values.lookup "geometry" = some (.str "circ") then
    { c1 with values := c1.values.assign "geometry" (.str "2d") }
  else c1

/-- config.py:66-71 -/
def Config.set (c : Config) (k : String) (v : PyVal) : Config :=
  Config.adjustOnSet env { c with values := c.values.assign k v } k

/-- config.py:73-80; the argument is the list of items of the dict in iteration order. -/
def Config.update (c : Config) (items : List (String × PyVal)) : Config :=
  items.foldl (fun c kv => Config.set env c kv.1 kv.2) c

/-- config.py:17-33 with `defaults` the items of `default_config_values`. -/
def Config.init (defaults : List (String × PyVal)) (useDefaults : Bool)
    (new : Option (List (String × PyVal))) : Config :=
  let c : Config := ⟨[], .numpy⟩
  let c := if useDefaults then Config.update env c defaults else c
  match new with
  | some items => Config.update env c items
  | Option.none => c

/-- config.py:150-156: a default config whose dict is replaced. -/
def Config.copy (defaults : List (String × PyVal)) (c : Config) : Config :=
  { Config.init env defaults true Option.none with values := c.values }

/-- config.py:239-247. `none` models falling off the end of the `for` loop
(Python would return `None`); `factorize_spec` shows it never happens. -/
def factorize (number : ℕ) (factors : List ℕ) : Option (List ℕ) :=
  if number ≤ 1 then some factors
  else
    match h : (List.range' 2 (number - 1)).find? (fun i => number % i == 0) with
    | some i => factorize (number / i) (factors ++ [i])
    | Option.none => Option.none
termination_by number
decreasing_by
  have hm := List.mem_of_find?_eq_some h
  rw [List.mem_range'] at hm
  obtain ⟨j, _, rfl⟩ := hm
  exact Nat.div_lt_self (by omega) (by omega)

/-- config.py:250-258. `number - 1` is truncated at 0, which is
indistinguishable from Python's -1 since `factorize` returns `[]` for both. -/
def goodSize (number : ℕ) : Bool :=
  match factorize (number - 1) [] with
  | some factors =>
    factors.all (fun f => [2, 3, 4, 5, 7, 11, 13].contains f) &&
      (factors.count 11 + factors.count 13 < 2) && (number % 2 != 0)
  | Option.none => false

/-- `np.abs(a - x).argmin()` followed by indexing: the first element of
the array at minimal distance; `none` is numpy's ValueError on an empty array (config.py:216). -/
def argminDist (x : ℤ) : List ℕ → Option ℕ
  | [] => Option.none
  | a :: l => match argminDist x l with
    | Option.none => some a
    | some b => if |(a : ℤ) - x| ≤ |(b : ℤ) - x| then some a else some b

/-- config.py:210-212: the good numbers in `range(max(0, estim-100), estim+100)`. -/
def goodNumbers (estim : ℤ) : List ℕ :=
  let lower : ℤ := if 0 < estim - 100 then estim - 100 else 0
  (List.range' lower.toNat ((estim + 100) - lower).toNat).filter goodSize

/-- config.py:198-219; `none` is the exception raised when no good number is in range. -/
def Config.adjustWindow (c : Config) : Option Config :=
  let estim := pyInt (c.getfloat env "window-width" / c.getfloat env "transverse-step")
  match argminDist estim (goodNumbers estim) with
  | Option.none => Option.none
  | some n =>
    let c := c.set env "window-width" (.float (n * c.getfloat env "transverse-step"))
    some (c.set env "window-width-steps" (.int n))

/-- config.py:222-234 -/
def Config.adjustFineness (c : Config) : Config :=
  let s := env.sqrt (c.getfloat env "plasma-particles-per-cell")
  let c := c.set env "plasma-fineness" (.int (pyRound s))
  let c := c.set env "plasma-particles-per-cell" (.int (pyRound s ^ 2))
  if 0 < s ∧ s < 1 then
    let c := c.set env "plasma-fineness" (.float (1 / (pyRound (1 / s) : ℚ)))
    c.set env "plasma-particles-per-cell" (.float (1 / (pyRound (1 / s) : ℚ) ^ 2))
  else c

/-- config.py:185-196 -/
def Config.adjust3d (c : Config) : Option Config :=
  if c.get env "geometry" = "3d" then
    let c := c.set env "window-width" (.float (2 * c.getfloat env "window-width"))
    match c.adjustWindow env with
    | Option.none => Option.none
    | some c =>
      let c := c.adjustFineness env
      if c.get env "field-solver-subtraction-coefficient" = "1" then
        some (c.set env "field-solver-subtraction-coefficient"
          (.float (1 + c.getfloat env "xi-step")))
      else some c
  else some c

end Lcode.Cfg
