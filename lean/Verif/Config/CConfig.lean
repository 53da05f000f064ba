import Verif.Config.Rerun

/-!
Property C83: the configuration as a text for the C version of the program, `Config.c_config` (lcode/config/config.py:158-163 with lcode/config/template.py).
-/

namespace Lcode.Cfg

/-! ### Model -/

/-- How `str.format` ends when it fails. `other`: field names with `.`, `[`, `:`, `!`, `{`, empty names and numbers, which the template does not have (simplification: not distinguished). -/
inductive FmtErr where
  | keyError (k : String)
  | valueError
  | other
  deriving DecidableEq

/-- Characters with a meaning inside a replacement field. -/
def special (c : Char) : Bool := c == '.' || c == '[' || c == ':' || c == '!' || c == '{'

/-- The value put in place of a field `{name}`, config.py:159: the keyword argument of that name. An empty name or a number would be a positional argument. -/
def fieldValue (vals : String → Option String) (name : List Char) : Except FmtErr (List Char) :=
  if name.isEmpty || name.all Char.isDigit then .error .other
  else match vals (String.ofList name) with
    | some v => .ok v.toList
    | Option.none => .error (.keyError (String.ofList name))

/-- Python's `str.format(**vals)`, config.py:159, read character by character: `field` is the name read so far inside a replacement field. Doubled braces outside of fields stand for themselves. -/
def pyFormat (vals : String → Option String) : Option (List Char) → List Char → Except FmtErr (List Char)
  | Option.none, [] => .ok []
  | some _, [] => .error .valueError
  | Option.none, '{' :: '{' :: r => (pyFormat vals Option.none r).map ('{' :: ·)
  | Option.none, '}' :: '}' :: r => (pyFormat vals Option.none r).map ('}' :: ·)
  | Option.none, c :: r =>
    if c = '{' then pyFormat vals (some []) r
    else if c = '}' then .error .valueError
    else (pyFormat vals Option.none r).map (c :: ·)
  | some name, c :: r =>
    if c = '}' then
      match fieldValue vals name.reverse with
      | .ok v => (pyFormat vals Option.none r).map (v ++ ·)
      | .error e => .error e
    else if special c then .error .other
    else pyFormat vals (some (c :: name)) r

/-- lcode/config/template.py:2-92, line by line. -/
def cTemplate : List String :=
  ["\n",
  "# Simulation area:\n",
  "geometry = c\n",
  "window-width = {window-width};          transverse-step = {r-step}\n",
  "window-length = {window-length};        xi-step = {xi-step}\n",
  "time-limit = {time-limit};         time-step = {time-step}\n",
  "continuation = n # Plasma continuation (no/beam/longplasma, n/y/Y)\n",
  "\n",
  "# Particle beams: ????\n",
  "beam-current = 0.00281\n",
  "rigid-beam = n\n",
  "beam-substepping-energy = {beam-substepping-energy}\n",
  "beam-particles-in-layer = 300\n",
  "beam-profile = \"\"\"\n",
  "xishape=b, ampl=1.0, length=1500, rshape=g, radius=1.0, angshape=l, angspread=4.5e-5, energy=7.83e5, m/q=1836, eshape=g, espread=2740.0\n",
  "\"\"\"\n",
  "\n",
  "# Plasma:\n",
  "plasma-model = {plasma-model}\n",
  "plasma-particles-per-cell = {plasma-particles-per-cell} #???????\n",
  "plasma-profile = {plasma-profile} \n",
  "plasma-zshape = {plasma-zshape}                 \n",
  "plasma-width = {plasma-width} \n",
  "plasma-width-2 = {plasma-width-2}\n",
  "plasma-density-2 = {plasma-density-2}\n",
  "plasma-temperature = {plasma-temperature}\n",
  "ion-model = {ion-model}\n",
  "ion-mass = 157000\n",
  "substepping-depth = {substepping-depth}\n",
  "substepping-sensivity = {substepping-sensitivity}\n",
  "\n",
  "# Every-time-step diagnostics:\n",
  "\n",
  "# Periodical diagnostics:\n",
  "output-time-period = {time-step}\n",
  "\n",
  "#  Colored maps: (Er,Ef,Ez,Phi,Bf,Bz,pr,pf,pz,pri,pfi,pzi\n",
  "#                 nb,ne,ni,Wf,dW,SEB,Sf,Sf2,Sr,Sr2,dS,dS2):\n",
  "colormaps-full = \"\"\n",
  "colormaps-subwindow = \"\"\n",
  "colormaps-type = n\n",
  "drawn-portion = 1 # Drawn portion of the simulation window\n",
  "subwindow-xi-from = 0;\t\tsubwindow-xi-to = -1500\n",
  "subwindow-r-from = 0;\t\tsubwindow-r-to = 10\n",
  "output-reference-energy = 1000\n",
  "output-merging-r = 10;\t\toutput-merging-z = 20\n",
  "palette = d # Colormaps palette (default/greyscale/hue/bluewhitered, d/g/h/b)\n",
  "                E-step = 0.0005;\t               nb-step = 0.0005\n",
  "            Phi-step = 0.0005;\t               ne-step = 0.999\n",
  "            Bf-step = 0.0005;\t               ni-step = 0.01\n",
  "            Bz-step = 0.05;\t             flux-step = 0.02\n",
  "electron-momenta-step = 0.1;\t r-corrected-flux-step = 0.02\n",
  "    ion-momenta-step = 0.1;\t           energy-step = 10\n",
  "\n",
  "#  Output of various quantities as functions of xi:\n",
  "#   (ne,nb,Ez,<Ez>,Bz,Phi,pz,emitt,dW,Wf,ni,pzi)\n",
  "#   (nb2,Er,Ez2,Bf,Bz2,Fr,pr,pf,<rb>,dS,Sf,SEB,pri,pfi,Ef)\n",
  "f(xi) = \"\"\n",
  "f(xi)-type = Y\n",
  "axis-radius = 0;\t\tauxillary-radius = 1\n",
  "            E-scale = 0.02;\t              nb-scale = 0.02\n",
  "            Phi-scale = 0.02;\t              ne-scale = 2\n",
  "            Bz-scale = 0.5;\t              ni-scale = 0.1\n",
  "electron-momenta-scale = 0.5;\t            flux-scale = 0.0005\n",
  "    ion-momenta-scale = 0.5;\t          energy-scale = 1\n",
  "    beam-radius-scale = 10;\t       emittance-scale = 1000\n",
  "\n",
  "#  Beam particle information as pictures (r,pr,pz,M):\n",
  "output-beam-particles = \"\"\n",
  "draw-each = 10\n",
  "beam-picture-height = 900\n",
  "beam-pr-scale = 10\n",
  "beam-a-m-scale = 1000;\t\tbeam-pz-scale = 5000\n",
  "\n",
  "# Output of beam characteristics in histogram form (r,z,M,a):\n",
  "histogram-output = \"\"\n",
  "histogram-output-accel = \"\"\n",
  "histogram-type = y\n",
  "histogram-bins = 300;\t\tbeam-angle-scale = 0.02\n",
  "\n",
  "#  Trajectories of plasma particles:\n",
  "trajectories-draw = Y\n",
  "trajectories-each = 1;\t\ttrajectories-spacing = 1\n",
  "trajectories-min-energy = 0;\ttrajectories-energy-step = 0.5\n",
  "\n",
  "# Saving run state periodically:\n",
  "saving-period = {time-step}\n",
  "save-beam = n\n",
  "save-plasma = n\n",
  "\n"]

/-- `Config.c_config(path)`, config.py:158-163: the text it returns, and the files it writes (name and content). `format(v, '')` is `str(v)` for the values of the model. -/
def cConfig (env : Env) (c : Config) (path : Option String) : Except FmtErr (List Char × List (String × List Char)) :=
  match pyFormat (fun k => (c.values.lookup k).map (str env)) Option.none (cTemplate.map String.toList).flatten with
  | .error e => .error e
  | .ok text => .ok (text, match path with
    | some p => if p = "" then [] else [(p, text)]
    | Option.none => [])

/-! ### Specification -/

/-- A line of a form with blanks: constant texts, each followed by the name of an option, and a constant end. -/
structure Form where
  parts : List (String × String)
  last : String

/-- The line with something written into every blank. -/
def Form.fill (f : Form) (v : String → String) : List Char := (f.parts.map fun p => p.1.toList ++ (v p.2).toList).flatten ++ f.last.toList

/-- A form of several lines with something written into every blank. -/
def fillAll (fs : List Form) (v : String → String) : List Char := (fs.map fun f => f.fill v).flatten

/-- The input file of the C program as a form. -/
def cForm : List Form := [
  ⟨[], "\n"⟩,
  ⟨[], "# Simulation area:\n"⟩,
  ⟨[], "geometry = c\n"⟩,
  ⟨[("window-width = ", "window-width"), (";          transverse-step = ", "r-step")], "\n"⟩,
  ⟨[("window-length = ", "window-length"), (";        xi-step = ", "xi-step")], "\n"⟩,
  ⟨[("time-limit = ", "time-limit"), (";         time-step = ", "time-step")], "\n"⟩,
  ⟨[], "continuation = n # Plasma continuation (no/beam/longplasma, n/y/Y)\n"⟩,
  ⟨[], "\n"⟩,
  ⟨[], "# Particle beams: ????\n"⟩,
  ⟨[], "beam-current = 0.00281\n"⟩,
  ⟨[], "rigid-beam = n\n"⟩,
  ⟨[("beam-substepping-energy = ", "beam-substepping-energy")], "\n"⟩,
  ⟨[], "beam-particles-in-layer = 300\n"⟩,
  ⟨[], "beam-profile = \"\"\"\n"⟩,
  ⟨[], "xishape=b, ampl=1.0, length=1500, rshape=g, radius=1.0, angshape=l, angspread=4.5e-5, energy=7.83e5, m/q=1836, eshape=g, espread=2740.0\n"⟩,
  ⟨[], "\"\"\"\n"⟩,
  ⟨[], "\n"⟩,
  ⟨[], "# Plasma:\n"⟩,
  ⟨[("plasma-model = ", "plasma-model")], "\n"⟩,
  ⟨[("plasma-particles-per-cell = ", "plasma-particles-per-cell")], " #???????\n"⟩,
  ⟨[("plasma-profile = ", "plasma-profile")], " \n"⟩,
  ⟨[("plasma-zshape = ", "plasma-zshape")], "                 \n"⟩,
  ⟨[("plasma-width = ", "plasma-width")], " \n"⟩,
  ⟨[("plasma-width-2 = ", "plasma-width-2")], "\n"⟩,
  ⟨[("plasma-density-2 = ", "plasma-density-2")], "\n"⟩,
  ⟨[("plasma-temperature = ", "plasma-temperature")], "\n"⟩,
  ⟨[("ion-model = ", "ion-model")], "\n"⟩,
  ⟨[], "ion-mass = 157000\n"⟩,
  ⟨[("substepping-depth = ", "substepping-depth")], "\n"⟩,
  ⟨[("substepping-sensivity = ", "substepping-sensitivity")], "\n"⟩,
  ⟨[], "\n"⟩,
  ⟨[], "# Every-time-step diagnostics:\n"⟩,
  ⟨[], "\n"⟩,
  ⟨[], "# Periodical diagnostics:\n"⟩,
  ⟨[("output-time-period = ", "time-step")], "\n"⟩,
  ⟨[], "\n"⟩,
  ⟨[], "#  Colored maps: (Er,Ef,Ez,Phi,Bf,Bz,pr,pf,pz,pri,pfi,pzi\n"⟩,
  ⟨[], "#                 nb,ne,ni,Wf,dW,SEB,Sf,Sf2,Sr,Sr2,dS,dS2):\n"⟩,
  ⟨[], "colormaps-full = \"\"\n"⟩,
  ⟨[], "colormaps-subwindow = \"\"\n"⟩,
  ⟨[], "colormaps-type = n\n"⟩,
  ⟨[], "drawn-portion = 1 # Drawn portion of the simulation window\n"⟩,
  ⟨[], "subwindow-xi-from = 0;\t\tsubwindow-xi-to = -1500\n"⟩,
  ⟨[], "subwindow-r-from = 0;\t\tsubwindow-r-to = 10\n"⟩,
  ⟨[], "output-reference-energy = 1000\n"⟩,
  ⟨[], "output-merging-r = 10;\t\toutput-merging-z = 20\n"⟩,
  ⟨[], "palette = d # Colormaps palette (default/greyscale/hue/bluewhitered, d/g/h/b)\n"⟩,
  ⟨[], "                E-step = 0.0005;\t               nb-step = 0.0005\n"⟩,
  ⟨[], "            Phi-step = 0.0005;\t               ne-step = 0.999\n"⟩,
  ⟨[], "            Bf-step = 0.0005;\t               ni-step = 0.01\n"⟩,
  ⟨[], "            Bz-step = 0.05;\t             flux-step = 0.02\n"⟩,
  ⟨[], "electron-momenta-step = 0.1;\t r-corrected-flux-step = 0.02\n"⟩,
  ⟨[], "    ion-momenta-step = 0.1;\t           energy-step = 10\n"⟩,
  ⟨[], "\n"⟩,
  ⟨[], "#  Output of various quantities as functions of xi:\n"⟩,
  ⟨[], "#   (ne,nb,Ez,<Ez>,Bz,Phi,pz,emitt,dW,Wf,ni,pzi)\n"⟩,
  ⟨[], "#   (nb2,Er,Ez2,Bf,Bz2,Fr,pr,pf,<rb>,dS,Sf,SEB,pri,pfi,Ef)\n"⟩,
  ⟨[], "f(xi) = \"\"\n"⟩,
  ⟨[], "f(xi)-type = Y\n"⟩,
  ⟨[], "axis-radius = 0;\t\tauxillary-radius = 1\n"⟩,
  ⟨[], "            E-scale = 0.02;\t              nb-scale = 0.02\n"⟩,
  ⟨[], "            Phi-scale = 0.02;\t              ne-scale = 2\n"⟩,
  ⟨[], "            Bz-scale = 0.5;\t              ni-scale = 0.1\n"⟩,
  ⟨[], "electron-momenta-scale = 0.5;\t            flux-scale = 0.0005\n"⟩,
  ⟨[], "    ion-momenta-scale = 0.5;\t          energy-scale = 1\n"⟩,
  ⟨[], "    beam-radius-scale = 10;\t       emittance-scale = 1000\n"⟩,
  ⟨[], "\n"⟩,
  ⟨[], "#  Beam particle information as pictures (r,pr,pz,M):\n"⟩,
  ⟨[], "output-beam-particles = \"\"\n"⟩,
  ⟨[], "draw-each = 10\n"⟩,
  ⟨[], "beam-picture-height = 900\n"⟩,
  ⟨[], "beam-pr-scale = 10\n"⟩,
  ⟨[], "beam-a-m-scale = 1000;\t\tbeam-pz-scale = 5000\n"⟩,
  ⟨[], "\n"⟩,
  ⟨[], "# Output of beam characteristics in histogram form (r,z,M,a):\n"⟩,
  ⟨[], "histogram-output = \"\"\n"⟩,
  ⟨[], "histogram-output-accel = \"\"\n"⟩,
  ⟨[], "histogram-type = y\n"⟩,
  ⟨[], "histogram-bins = 300;\t\tbeam-angle-scale = 0.02\n"⟩,
  ⟨[], "\n"⟩,
  ⟨[], "#  Trajectories of plasma particles:\n"⟩,
  ⟨[], "trajectories-draw = Y\n"⟩,
  ⟨[], "trajectories-each = 1;\t\ttrajectories-spacing = 1\n"⟩,
  ⟨[], "trajectories-min-energy = 0;\ttrajectories-energy-step = 0.5\n"⟩,
  ⟨[], "\n"⟩,
  ⟨[], "# Saving run state periodically:\n"⟩,
  ⟨[("saving-period = ", "time-step")], "\n"⟩,
  ⟨[], "save-beam = n\n"⟩,
  ⟨[], "save-plasma = n\n"⟩,
  ⟨[], "\n"⟩]

/-- The name under which the C program knows an option, and the option of this program whose value is written there. -/
def cLabels : List (String × String) := [("window-width", "window-width"), ("transverse-step", "r-step"), ("window-length", "window-length"), ("xi-step", "xi-step"), ("time-limit", "time-limit"), ("time-step", "time-step"), ("beam-substepping-energy", "beam-substepping-energy"), ("plasma-model", "plasma-model"), ("plasma-particles-per-cell", "plasma-particles-per-cell"), ("plasma-profile", "plasma-profile"), ("plasma-zshape", "plasma-zshape"), ("plasma-width", "plasma-width"), ("plasma-width-2", "plasma-width-2"), ("plasma-density-2", "plasma-density-2"), ("plasma-temperature", "plasma-temperature"), ("ion-model", "ion-model"), ("substepping-depth", "substepping-depth"), ("substepping-sensivity", "substepping-sensitivity"), ("output-time-period", "time-step"), ("saving-period", "time-step")]

/-- The options without a default value. -/
def undefaulted : List String := ["r-step", "plasma-model", "plasma-profile", "plasma-temperature"]

/-! ### str.format on forms -/

theorem except_map_map {α : Type} (x : Except FmtErr α) (f g : α → α) : (x.map f).map g = x.map (fun a => g (f a)) := by cases x <;> rfl

theorem fmt_char (vals : String → Option String) (c : Char) (r : List Char) (h1 : c ≠ '{') (h2 : c ≠ '}') : pyFormat vals Option.none (c :: r) = (pyFormat vals Option.none r).map (c :: ·) := by
  rw [pyFormat, if_neg h1, if_neg h2]
  · rintro r' rfl; exact absurd rfl h1
  · rintro r' rfl; exact absurd rfl h2

theorem fmt_open (vals : String → Option String) (c : Char) (r : List Char) (h1 : c ≠ '{') : pyFormat vals Option.none ('{' :: c :: r) = pyFormat vals (some []) (c :: r) := by
  rw [pyFormat, if_pos rfl]
  · intro r' _ h
    exact h1 (List.cons.inj h).1
  · intro r' h; exact absurd h (by decide)

theorem fmt_lit (vals : String → Option String) (l r : List Char) (h : ∀ c ∈ l, c ≠ '{' ∧ c ≠ '}') : pyFormat vals Option.none (l ++ r) = (pyFormat vals Option.none r).map (l ++ ·) := by
  induction l with
  | nil =>
    simp only [List.nil_append]
    cases pyFormat vals Option.none r <;> rfl
  | cons c l ih =>
    obtain ⟨h1, h2⟩ := h c List.mem_cons_self
    rw [List.cons_append, fmt_char vals c _ h1 h2, ih (fun c hc => h c (List.mem_cons_of_mem _ hc)), except_map_map]
    rfl

theorem fmt_name (vals : String → Option String) (k acc r : List Char) (h : ∀ c ∈ k, special c = false ∧ c ≠ '}') : pyFormat vals (some acc) (k ++ '}' :: r) = pyFormat vals (some (k.reverse ++ acc)) ('}' :: r) := by
  induction k generalizing acc with
  | nil => rfl
  | cons c k ih =>
    obtain ⟨h1, h2⟩ := h c List.mem_cons_self
    rw [List.cons_append, pyFormat, if_neg h2, if_neg (by rw [h1]; simp), ih _ (fun c hc => h c (List.mem_cons_of_mem _ hc))]
    simp

/-- Names of options that can stand in a field. -/
def nameOk (k : String) : Bool := !k.toList.isEmpty && !k.toList.all Char.isDigit && k.toList.all fun c => !special c && c != '}'

theorem fmt_field (vals : String → Option String) (k : String) (r : List Char) (h : nameOk k = true) :
    pyFormat vals Option.none ('{' :: (k.toList ++ '}' :: r)) = match vals k with
      | some v => (pyFormat vals Option.none r).map (v.toList ++ ·)
      | Option.none => .error (.keyError k) := by
  simp only [nameOk, Bool.and_eq_true, Bool.not_eq_true', List.all_eq_true, bne_iff_ne] at h
  obtain ⟨⟨h1, h2⟩, h3⟩ := h
  have open_ : pyFormat vals Option.none ('{' :: (k.toList ++ '}' :: r)) = pyFormat vals (some []) (k.toList ++ '}' :: r) := by
    rcases hk : k.toList with _ | ⟨c, l⟩
    · rw [hk] at h1; simp at h1
    · have := (h3 c (by rw [hk]; exact List.mem_cons_self)).1
      have hc : c ≠ '{' := by rintro rfl; simp [special] at this
      exact fmt_open vals c _ hc
  rw [open_, fmt_name vals _ [] r (fun c hc => h3 c hc), List.append_nil, pyFormat, if_pos rfl, List.reverse_reverse]
  have e : fieldValue vals k.toList = match vals k with
      | some v => .ok v.toList
      | Option.none => .error (.keyError k) := by
    unfold fieldValue
    rw [h1, h2]
    simp
  rw [e]
  cases vals k <;> rfl

/-- Forms that `str.format` can fill. -/
def Form.ok (f : Form) : Bool := (f.parts.all fun p => p.1.toList.all (fun c => c != '{' && c != '}') && nameOk p.2) && f.last.toList.all (fun c => c != '{' && c != '}')

/-- The text of a form: every blank is marked by the name of the option in braces. -/
def Form.text (f : Form) : List Char := f.fill fun k => "{" ++ k ++ "}"

theorem fmt_form (vals : String → Option String) (f : Form) (r : List Char) (h : f.ok = true) :
    pyFormat vals Option.none (f.text ++ r) = match (f.parts.map Prod.snd).find? (fun k => (vals k).isNone) with
      | some k => .error (.keyError k)
      | Option.none => (pyFormat vals Option.none r).map (f.fill (fun k => (vals k).getD "") ++ ·) := by
  obtain ⟨parts, last⟩ := f
  unfold Form.ok at h
  simp only [Bool.and_eq_true, List.all_eq_true, bne_iff_ne] at h
  obtain ⟨h1, h2⟩ := h
  unfold Form.text Form.fill
  simp only
  induction parts with
  | nil =>
    simp only [List.map_nil, List.flatten_nil, List.nil_append, List.find?_nil]
    exact fmt_lit vals last.toList r h2
  | cons p parts ih =>
    obtain ⟨a1, a2⟩ := h1 p List.mem_cons_self
    have ih := ih (fun q hq => h1 q (List.mem_cons_of_mem _ hq))
    simp only [List.map_cons, List.flatten_cons, List.append_assoc] at ih ⊢
    rw [fmt_lit vals _ _ a1]
    have e : ("{" ++ p.2 ++ "}").toList = '{' :: (p.2.toList ++ ['}']) := by simp
    rw [e]
    simp only [List.cons_append, List.append_assoc, List.nil_append]
    rw [fmt_field vals p.2 _ a2]
    rw [ih, List.find?_cons]
    cases hv : vals p.2 with
    | none => simp [Except.map]
    | some v =>
      simp only [Option.isNone_some, Option.getD_some]
      cases (List.map Prod.snd parts).find? (fun k => (vals k).isNone) with
      | none =>
        simp only
        rw [except_map_map, except_map_map]
      | some k => rfl

/-- The options in the blanks of a form, in their order. -/
def optionsOf (fs : List Form) : List String := (fs.map fun f => f.parts.map Prod.snd).flatten

theorem fmt_forms (vals : String → Option String) (fs : List Form) (h : fs.all Form.ok = true) :
    pyFormat vals Option.none (fs.map Form.text).flatten = match (optionsOf fs).find? (fun k => (vals k).isNone) with
      | some k => .error (.keyError k)
      | Option.none => .ok (fillAll fs fun k => (vals k).getD "") := by
  unfold optionsOf fillAll
  induction fs with
  | nil => rfl
  | cons f fs ih =>
    rw [List.all_cons, Bool.and_eq_true] at h
    simp only [List.map_cons, List.flatten_cons]
    rw [fmt_form vals f _ h.1, ih h.2, List.find?_append]
    cases (f.parts.map Prod.snd).find? (fun k => (vals k).isNone) with
    | some k => rfl
    | none =>
      simp only [Option.none_or]
      cases (List.map (fun f : Form => f.parts.map Prod.snd) fs).flatten.find? (fun k => (vals k).isNone) with
      | some k => rfl
      | none => rfl

/-! ### The text for the C program -/

theorem form_ok : cForm.all Form.ok = true := by decide +kernel

/-- The template is the form with the names of the options in braces. -/
theorem template_form : (cTemplate.map String.toList).flatten = (cForm.map Form.text).flatten := by
  have : cTemplate.map String.toList = cForm.map Form.text := by decide +kernel
  rw [this]

/-- What stands before each blank: the name under which the C program knows the option. -/
theorem labels_right : optionsOf cForm = cLabels.map Prod.snd ∧ ∀ p ∈ (cForm.flatMap Form.parts).zip cLabels, (p.2.1 ++ " = ").toList <:+ p.1.1.toList := by
  refine ⟨rfl, ?_⟩
  decide +kernel

/-- C83: `c_config` returns the form of the C program with the present values of the options written into the blanks, whatever the values are (braces in a value mean nothing), and writes it to the file if a name is given. -/
theorem c_config_text (env : Env) (c : Config) (path : Option String) (h : ∀ k ∈ cLabels.map Prod.snd, (c.values.lookup k).isSome) :
    cConfig env c path = .ok (fillAll cForm (fun k => c.get env k), match path with
      | some p => if p = "" then [] else [(p, fillAll cForm (fun k => c.get env k))]
      | Option.none => []) := by
  unfold cConfig
  rw [template_form, fmt_forms _ _ form_ok, labels_right.1]
  have hn : (cLabels.map Prod.snd).find? (fun k => ((c.values.lookup k).map (str env)).isNone) = Option.none := by
    rw [List.find?_eq_none]
    intro k hk
    have := h k hk
    rw [Option.isSome_iff_exists] at this
    obtain ⟨v, hv⟩ := this
    simp [hv]
  rw [hn]
  have e : fillAll cForm (fun k => ((c.values.lookup k).map (str env)).getD "") = fillAll cForm (fun k => c.get env k) := by
    congr 1
    funext k
    unfold Config.get
    cases c.values.lookup k <;> rfl
  simp only [e]

/-- C83: without a value for one of the options it raises KeyError naming the first missing one in the order of the file, and writes nothing. -/
theorem c_config_missing (env : Env) (c : Config) (path : Option String) (pre post : List String) (k : String) (hk : cLabels.map Prod.snd = pre ++ k :: post) (h1 : ∀ j ∈ pre, (c.values.lookup j).isSome) (h2 : c.values.lookup k = Option.none) :
    cConfig env c path = .error (.keyError k) := by
  unfold cConfig
  rw [template_form, fmt_forms _ _ form_ok, labels_right.1, hk]
  have hn : (pre ++ k :: post).find? (fun k => ((c.values.lookup k).map (str env)).isNone) = some k := by
    rw [List.find?_append, List.find?_eq_none.mpr, Option.none_or, List.find?_cons_of_pos (by simp [h2])]
    intro j hj
    have := h1 j hj
    rw [Option.isSome_iff_exists] at this
    obtain ⟨v, hv⟩ := this
    simp [hv]
  rw [hn]

/-- C83: the text depends on nothing but these options: the masses of the ions, the transverse step and the beam current of this program do not get into it. -/
theorem c_config_only (env : Env) (c c' : Config) (path : Option String) (h : ∀ k ∈ cLabels.map Prod.snd, c.values.lookup k = c'.values.lookup k) : cConfig env c path = cConfig env c' path := by
  have key : ∀ d : Config, (∀ k ∈ cLabels.map Prod.snd, (d.values.lookup k).isSome) ∨ ∃ pre k post, cLabels.map Prod.snd = pre ++ k :: post ∧ (∀ j ∈ pre, (d.values.lookup j).isSome) ∧ d.values.lookup k = Option.none := by
    intro d
    generalize cLabels.map Prod.snd = L
    induction L with
    | nil => left; simp
    | cons a L ih =>
      cases ha : d.values.lookup a with
      | none => right; exact ⟨[], a, L, rfl, by simp, ha⟩
      | some v =>
        rcases ih with ih | ⟨pre, k, post, e1, e2, e3⟩
        · left
          intro k hk
          rcases List.mem_cons.mp hk with rfl | hk
          · rw [ha]; rfl
          · exact ih k hk
        · right
          refine ⟨a :: pre, k, post, by rw [e1]; rfl, ?_, e3⟩
          intro j hj
          rcases List.mem_cons.mp hj with rfl | hj
          · rw [ha]; rfl
          · exact e2 j hj
  rcases key c with h1 | ⟨pre, k, post, e1, e2, e3⟩
  · rw [c_config_text env c path h1, c_config_text env c' path (fun k hk => by rw [← h k hk]; exact h1 k hk)]
    have e : fillAll cForm (fun k => c.get env k) = fillAll cForm (fun k => c'.get env k) := by
      unfold fillAll
      congr 1
      apply List.map_congr_left
      intro f hf
      unfold Form.fill
      congr 2
      apply List.map_congr_left
      intro p hp
      have : p.2 ∈ cLabels.map Prod.snd := by
        rw [← labels_right.1]
        exact List.mem_flatten.mpr ⟨_, List.mem_map_of_mem hf, List.mem_map_of_mem hp⟩
      have e' : c.get env p.2 = c'.get env p.2 := by
        unfold Config.get
        rw [h _ this]
      simp only [e']
    rw [e]
  · rw [c_config_missing env c path pre post k e1 e2 e3, c_config_missing env c' path pre post k e1 (fun j hj => by rw [← h j (by rw [e1]; exact List.mem_append_left _ hj)]; exact e2 j hj) (by rw [← h k (by rw [e1]; simp)]; exact e3)]

theorem update_runOps (env : Env) (c : Config) (items : List (String × PyVal)) : c.update env items = runOps env c [.update items] := rfl

theorem init_default_lookup (env : Env) (defaults : List (String × PyVal)) (k : String) : (Config.init env defaults true Option.none).values.lookup k = lastWrite defaults k := by
  show ((Config.update env ⟨[], .numpy⟩ defaults).values.lookup k) = _
  rw [update_runOps, last_write_wins]
  simp [writes, Table.lookup]

theorem lastWrite_isSome (ws : List (String × PyVal)) (k : String) : (lastWrite ws k).isSome = true ↔ k ∈ ws.map Prod.fst := by
  unfold lastWrite
  rw [Option.isSome_map, List.find?_isSome]
  simp only [List.mem_reverse, decide_eq_true_eq, List.mem_map]

/-- C83: a configuration made with the default values has no value for four of the options: `c_config` works after a history of assignments if and only if all four have been assigned; if none has, it raises KeyError('r-step'). -/
theorem c_config_default (env : Env) (defaults : List (String × PyVal)) (ops : List Op) (path : Option String) (hd : ∀ k ∈ cLabels.map Prod.snd, k ∈ defaults.map Prod.fst ↔ k ∉ undefaulted) :
    ((∃ r, cConfig env (runOps env (Config.init env defaults true Option.none) ops) path = .ok r) ↔ ∀ k ∈ undefaulted, k ∈ (writes ops).map Prod.fst) ∧
    ("r-step" ∉ (writes ops).map Prod.fst → cConfig env (runOps env (Config.init env defaults true Option.none) ops) path = .error (.keyError "r-step")) := by
  obtain ⟨c, hc⟩ : ∃ c, c = runOps env (Config.init env defaults true Option.none) ops := ⟨_, rfl⟩
  have look : ∀ k, (c.values.lookup k).isSome = true ↔ k ∈ (writes ops).map Prod.fst ∨ k ∈ defaults.map Prod.fst := by
    intro k
    rw [hc, last_write_wins, init_default_lookup, Option.isSome_or, Bool.or_eq_true, lastWrite_isSome, lastWrite_isSome]
  rw [← hc]
  have sub : ∀ k ∈ undefaulted, k ∈ cLabels.map Prod.snd := by decide +kernel
  have fail : ∀ k ∈ cLabels.map Prod.snd, c.values.lookup k = Option.none → ∃ j, cConfig env c path = .error (.keyError j) := by
    intro k hk hn
    unfold cConfig
    rw [template_form, fmt_forms _ _ form_ok, labels_right.1]
    cases hf : (cLabels.map Prod.snd).find? (fun k => ((c.values.lookup k).map (str env)).isNone) with
    | none =>
      rw [List.find?_eq_none] at hf
      have := hf k hk
      simp [hn] at this
    | some j => exact ⟨j, rfl⟩
  refine ⟨⟨?_, ?_⟩, ?_⟩
  · rintro ⟨r, hr⟩ k hk
    by_contra hw
    have hn : c.values.lookup k = Option.none := by
      rw [← Option.not_isSome_iff_eq_none, look]
      rintro (h | h)
      · exact hw h
      · exact ((hd k (sub k hk)).mp h) hk
    obtain ⟨j, hj⟩ := fail k (sub k hk) hn
    rw [hj] at hr
    exact absurd hr (by simp)
  · intro h
    refine ⟨_, c_config_text env c path fun k hk => ?_⟩
    rw [look]
    by_cases hu : k ∈ undefaulted
    · exact Or.inl (h k hu)
    · exact Or.inr ((hd k hk).mpr hu)
  · intro hw
    have hL : cLabels.map Prod.snd = ["window-width"] ++ "r-step" :: (cLabels.map Prod.snd).drop 2 := rfl
    have m1 : "window-width" ∈ cLabels.map Prod.snd ∧ "window-width" ∉ undefaulted := by decide +kernel
    refine c_config_missing env c path _ _ _ hL ?_ ?_
    · intro j hj
      rw [List.mem_singleton.mp hj, look]
      exact Or.inr ((hd _ m1.1).mpr m1.2)
    · have m2 : "r-step" ∈ undefaulted := by decide +kernel
      rw [← Option.not_isSome_iff_eq_none, look]
      rintro (h | h)
      · exact hw h
      · exact ((hd _ (sub _ m2)).mp h) m2

/-- The hypothesis about the default values holds for the keys of default_config_values.py. -/
theorem default_keys_case : ∀ k ∈ cLabels.map Prod.snd, k ∈ mainKeys ++ extraKeys ↔ k ∉ undefaulted := by decide +kernel

/-- A run of the formatter: braces in a value are copied, a name without a value and a brace without partner are errors. -/
theorem format_cases : pyFormat (fun k => if k = "a-b" then some "{x}" else Option.none) Option.none "{{1}} = {a-b};".toList = .ok "{1} = {x};".toList ∧
    pyFormat (fun _ => Option.none) Option.none "q {a-b}".toList = .error (.keyError "a-b") ∧ pyFormat (fun _ => Option.none) Option.none "q } ".toList = .error .valueError ∧
    pyFormat (fun _ => Option.none) Option.none "q {ab".toList = .error .valueError := by decide +kernel

end Lcode.Cfg
