import Verif.Config.Props
import Mathlib.Data.List.SplitOn

/-!
Model of `Config.dump` (lcode/config/config.py:86-147), the "runas" file, together with the text of
lcode/config/default_config_values.py that it is made from.

Simplifications (all of this file):
* text is a list of characters; `str.lower` and white space are the ASCII ones;
* the keys of the configuration are used as regular expressions by the code (config.py:110); the
  model takes them literally, which is the same for keys made of letters, digits and hyphens;
* the replacement text is a template for `re.sub` in the code (config.py:137, :143), so that a
  backslash in a value would be interpreted; the model inserts it literally (the `\\n` the code
  itself puts there is a line break).
-/

namespace Lcode.Cfg

open Lcode.Py

/-- Values as `dump` distinguishes them: `callable(value)` (config.py:129) or a plain value. -/
inductive Stored where
  | val (v : PyVal)
  | fn (repr : String)
  deriving DecidableEq

/-- The fixed beginning `'key': ` of the pattern (config.py:110, :117). -/
def marker (key : List Char) : List Char := '\'' :: (key ++ ['\'', ':', ' '])

/-- What has to follow the marker: `.*?(?=,)` (config.py:110, :142) or a fixed text (config.py:117). -/
inductive Tail where
  | lazyComma
  | fixed (s : List Char)

/-- Length of the shortest `.*?` before a comma; `.` does not match a line break (config.py:110). -/
def upToComma : List Char → Option ℕ
  | [] => none
  | c :: cs => if c = ',' then some 0 else if c = '\n' then none else (upToComma cs).map (· + 1)

/-- Length of the match of the part of the pattern after the marker. -/
def Tail.len : Tail → List Char → Option ℕ
  | .lazyComma, t => upToComma t
  | .fixed s, t => if s <+: t then some s.length else none

/-- `re.match(pattern, text)`: the length of the match at the beginning of the text. -/
def matchLen (key : List Char) (p : Tail) (t : List Char) : Option ℕ :=
  if marker key <+: t then (p.len (t.drop (marker key).length)).map (· + (marker key).length) else none

/-- `re.sub(old_line, new_line, conf_file)` (config.py:137, :144): leftmost matches from left to right,
the replacement is not searched again. The first argument counts characters of a match still to be
skipped. -/
def subFrom (key : List Char) (p : Tail) (new : List Char) : ℕ → List Char → List Char
  | _, [] => []
  | k + 1, _ :: cs => subFrom key p new k cs
  | 0, c :: cs =>
    match matchLen key p (c :: cs) with
    | none => c :: subFrom key p new 0 cs
    | some n => new ++ subFrom key p new (n - 1) cs

/-- `str.strip()` -/
def strip (s : List Char) : List Char :=
  ((s.dropWhile Char.isWhitespace).reverse.dropWhile Char.isWhitespace).reverse

/-- `str.lower()` -/
def lower (s : String) : List Char := s.toList.map Char.toLower

/-- `len(value.split())` (config.py:124) -/
def wordCount (s : List Char) : ℕ := ((s.splitOnP Char.isWhitespace).filter (fun w => ¬ w.isEmpty)).length

/-- `8 * " "` (config.py:113, :127) -/
def indent8 : List Char := List.replicate 8 ' '

/-- The text of a multi-line profile (config.py:113-116, :127-130). -/
def profileText (s : String) : List Char :=
  "'''\n".toList ++
    (List.intercalate ['\n'] (((strip (lower s)).splitOn '\n').map (fun l => indent8 ++ strip l)) ++
      ('\n' :: indent8 ++ "'''".toList))

/-- config.py:87-93 -/
def strKeys : List String :=
  ["processing-unit-type", "geometry", "ion-model", "plasma-shape", "plasma-zshape", "plasma-rshape"]

/-- What one item of the dict does (config.py:109-136). -/
inductive Action where
  | fail
  | skip
  | write (p : Tail) (text : List Char)

/-- The fixed text searched for the key plasma-zshape (config.py:118). -/
def emptyProfile : List Char := "'''\n        '''".toList

/-- config.py:111-136: the pattern and the text for one item; `fail` is an AttributeError
(`.lower`, `.split` of something that is not a string), `skip` the `continue` statements. -/
def action (env : Env) (key : String) (v : Stored) : Action :=
  if key ∈ strKeys then
    if key = "plasma-zshape" then
      match v with
      | .val (.str s) => .write (.fixed emptyProfile) (profileText s)
      | _ => .fail
    else if key = "plasma-rshape" then
      match v with
      | .val (.int _) => .skip
      | .val (.bool _) => .skip
      | .val (.str s) => if wordCount s.toList = 1 then .skip else .write .lazyComma (profileText s)
      | _ => .fail
    else
      match v with
      | .fn r => if key = "plasma-shape" then
          .write .lazyComma ("'external function ".toList ++ r.toList ++ ['\'']) else .fail
      | .val (.str s) => .write .lazyComma ('\'' :: lower s ++ ['\''])
      | _ => .fail
  else
    match v with
    | .val v => .write .lazyComma (str env v).toList
    | .fn r => .write .lazyComma r.toList

/-- config.py:109-137: one turn of the loop. -/
def dumpItem (env : Env) (text : List Char) (kv : String × Stored) : Option (List Char) :=
  match action env kv.1 kv.2 with
  | .fail => none
  | .skip => some text
  | .write p new => some (subFrom kv.1.toList p (marker kv.1.toList ++ new) 0 text)

/-- config.py:109-137: the loop over `self.config_values.items()`. -/
def dumpItems (env : Env) : List Char → List (String × Stored) → Option (List Char)
  | text, [] => some text
  | text, kv :: l =>
    match dumpItem env text kv with
    | none => none
    | some t => dumpItems env t l

/-- `d[k]` on the items -/
def fetch : List (String × Stored) → String → Option Stored
  | [], _ => none
  | (k', v) :: t, k => if k' = k then some v else fetch t k

/-- `float(value)` (config.py:141): of a string, a number or a bool; `none` is an exception. -/
def floatOf (env : Env) : Stored → Option ℚ
  | .val (.str s) => env.parse s
  | .val (.int i) => some i
  | .val (.float q) => some q
  | .val (.bool b) => some (if b then 1 else 0)
  | .val .none => none
  | .fn _ => none

/-- config.py:138-144: in 3d the half width is written. -/
def dumpWidth (env : Env) (items : List (String × Stored)) (text : List Char) : Option (List Char) :=
  match fetch items "geometry" with
  | some (.val (.str g)) =>
    if lower g = ['3', 'd'] then
      match fetch items "window-width" with
      | none => none
      | some w =>
        match floatOf env w with
        | none => none
        | some q => some (subFrom "window-width".toList .lazyComma
            (marker "window-width".toList ++ (env.showFloat (q / 2)).toList) 0 text)
    else some text
  | _ => none

/-- config.py:102-107: the beginning of the file, up to and including `config = {`, and the blanks before the first entry
(default_config_values.py:4). -/
def header (version : String) : List Char :=
  "\"\"\"\nSimulation preformed with following lcode settings.\nGenerated by lcode version ".toList ++
    version.toList ++
    ".\nFill free to contact team@lcode.info for assistance.\n\"\"\"\n\nconfig = {\n    ".toList

/-- lcode/config/default_config_values.py:4-91, literally: key, value, and the text after the comma
up to the next key. -/
def commonEntries : List (String × String × String) :=
  [("geometry", "'circ'",
    " # 'circ' or '3d' \n\n    # Here we set the type of processing unit: 'cpu' or 'gpu'.\n    # For now, GPU can be used only for 3d simulations.\n    "),
   ("processing-unit-type", "'cpu'",
    "\n\n    # Parameters of simulation window:\n\n    ## Transverse size of the window from axis to boundary and \n    ## transverse grid step (dr in 2d or dx(=dy) in 3d). \n    ## The window width is adjusted to the closest \"good\" value\n    ## to ensure fft performance. \n    "),
   ("window-width", "5.0",
    "\n    "),
   ("transverse-step", "0.05",
    "\n\n    ## Window length along xi-axis and grid step in dxi.\n    "),
   ("window-length", "15.0",
    "\n    "),
   ("xi-step", "0.05",
    "\n\n    ## Time limit for beam evolution and time step.\n    "),
   ("time-limit", "200.5",
    "\n    "),
   ("time-step", "25",
    "\n\n    # Parameters of plasma model:\n\n    ## The number of plasma particles per one cell must be the square of \n    ## an integer in 3d. This parameter will be adjusted in 3d geometry\n    ## to the nearest integer squared (to 9 by default).\n    "),
   ("plasma-particles-per-cell", "10",
    "\n    "),
   ("ion-model", "'mobile'",
    " # 'mobile' or 'background'\n\n    ## Mass of plasma ions in unita of electron mass\n    "),
   ("ion-mass", "1836",
    "\n    \n    ## Plasma shaping mode: lagacy or function(t, x, y) -> density weights.\n    ## t is the current time, x(y) is the position of the plasma particles.   \n    ## The density of weights must have the same shape as x.  \n    ## x = r, y = 0 in cylindrical geometry.  \n    "),
   ("plasma-shape", "'legacy'",
    " \n    \n    ## Transverse profile of plasma density settings.\n    ## Example https://lcode.info/site-files/manual.pdf p. 16 \n    "),
   ("plasma-rshape", "'uniform'",
    "\n    "),
   ("plasma-width", "1",
    "\n    "),
   ("plasma-width-2", "0",
    "\n    "),
   ("plasma-density-2", "0.5",
    "\n\n    ## Longitudinal profile of the plasma density. For 3d only. \n    ## Example https://lcode.info/site-files/manual.pdf p. 17\n    ## Only linear increase/decrease are available. \n    "),
   ("plasma-zshape", "'''\n        '''",
    "\n\n    ## Declustering of plasma electrons\n    "),
   ("declustering-enabled", "False",
    "\n    ### The following parameters are used for 3d declustering, \n    ### In 2d they are ignored. \n    "),
   ("declustering-averaging", "3",
    "\n    "),
   ("declustering-force", "0.3",
    "\n    "),
   ("declustering-damping", "0.1",
    "\n    "),
   ("declustering-limit", "1e-3",
    "\n\n    # Parameters of beam model:\n    "),
   ("beam-substepping-energy", "2",
    "\n\n#This part of the configuration contains experimental and unfinished options. \n#There is no guarantee that it will work or develop in the future. \n\n    # Partially supported options: \n\n    # Plasma:\n    ## External Bz amplitude, 2D only.\n    "),
   ("magnetic-field", "0",
    "\n    \n    ## Plasma substepping for xi, 2d only\n    "),
   ("substepping-depth", "3",
    "\n    "),
   ("substepping-sensitivity", "0.2",
    "\n\n    ## Parameters of the area available for motion of plasma particles, 3d only.\n    "),
   ("bound-padding-steps", "10",
    "\n    "),
   ("plasma-padding-steps", "15",
    "\n\n    ## Dual plasma approache for 3d, only GPU  \n    "),
   ("dual-plasma-approach", "False",
    "\n    "),
   ("plasma-coarseness", "5",
    "\n    \n    # Beam:\n    ## Works for 3d with an unusual beam configuration.\n    ")]

/-- lcode/config/default_config_values.py:92-94 and the closing brace (config.py:101). -/
def shortEnd : List (String × String × String) :=
  [("rigid-beam", "False",
    " \n    ####\n\n}")]

/-- lcode/config/default_config_values.py:92-103 and the closing brace (config.py:101). -/
def extraEnd : List (String × String × String) :=
  [("rigid-beam", "False",
    " \n    ####\n\n# Developer settings\n    \n    ## Only 3d, default value is 1+dxi\n    "),
   ("field-solver-subtraction-coefficient", "1",
    " \n    \n    ## Only 2d\n    ## Plasma:\n    "),
   ("trapped-path-limit", "0",
    "\n    "),
   ("correctotransverse-steps", "2",
    " # Can we even change this???\n}")]

/-- config.py:94-101: the part of default_config_values.py that is used, by the name of the file. -/
def template (name : List Char) : List (String × String × String) :=
  if "extra".toList <:+: name then commonEntries ++ extraEnd else commonEntries ++ shortEnd

/-- The text of one entry. -/
def entryText (e : String × String × String) : List Char :=
  marker e.1.toList ++ (e.2.1.toList ++ (',' :: e.2.2.toList))

/-- config.py:86-147: the text written to the file `name`; `none` is an exception. -/
def dump (env : Env) (version : String) (name : List Char) (items : List (String × Stored)) :
    Option (List Char) :=
  match dumpItems env (header version ++ ((template name).map entryText).flatten) items with
  | none => none
  | some t => dumpWidth env items t

end Lcode.Cfg
