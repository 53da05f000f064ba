import Verif.Sim.StartProps

/-!
Property C63: configurations that meet the hypotheses of the theorems of Verif/Sim/StartProps.lean.
-/

namespace Lcode.Start

open Lcode.Py Lcode.Cfg

/-- The entries of default_config_values.py:3-98 that decide whether a run starts. -/
def listed : List (String × PyVal) :=
  [("geometry", .str "circ"), ("processing-unit-type", .str "cpu"), ("window-width", .float 5), ("transverse-step", .float (1 / 20)), ("window-length", .float 15), ("xi-step", .float (1 / 20)),
   ("time-limit", .float (401 / 2)), ("time-step", .int 25), ("plasma-particles-per-cell", .int 10), ("ion-model", .str "mobile"), ("substepping-depth", .int 3), ("bound-padding-steps", .int 10),
   ("dual-plasma-approach", .bool false), ("rigid-beam", .bool false), ("field-solver-subtraction-coefficient", .int 1), ("trapped-path-limit", .int 0)]

/-- A machine without cupy on which nothing else goes wrong. -/
def plain : Machine := ⟨false, fun _ => .ok (), fun _ => .ok (), fun _ => .ok (), .ok (), fun _ => .ok ()⟩

/-- The same with cupy. -/
def withCupy : Machine := { plain with cupy := true }

/-- What a call of two time steps ends with. -/
def outcome (m : Machine) (user : Table) : Option (Stage × PyErr) := match run demoEnv m listed user (some 2) with | .ok _ => none | .error e => some e

/-- The defaults run; so do the other ion model, four cells with one particle each, and a call without a number of steps (eight steps within the limit). -/
example : outcome plain [] = none ∧ outcome plain [("ion-model", .str "background")] = none ∧
    outcome plain [("window-width", .float (1 / 5)), ("plasma-particles-per-cell", .int 1)] = none ∧ (run demoEnv plain listed [] none) = .ok () := by decide +kernel

/-- C63 (findings), 2d: the ion model `fixed`, a limit of trapped paths, a rigid beam and the processing unit gpu all pass the constructor and fail later, each with a Python error that does not name the option. -/
theorem failing_options :
    outcome plain [("ion-model", .str "fixed")] = some (.plasma 0, .unboundLocal) ∧
    outcome plain [("ion-model", .str "Mobile")] = some (.plasma 0, .unboundLocal) ∧
    outcome plain [("trapped-path-limit", .float 1)] = some (.layer 0 0, .attribute) ∧
    outcome plain [("rigid-beam", .bool true)] = some (.call, .attribute) ∧
    outcome withCupy [("processing-unit-type", .str "gpu")] = some (.plasma 0, .type) ∧
    outcome plain [("processing-unit-type", .str "gpu")] = some (.constructor, .import) ∧
    outcome plain [("substepping-depth", .int (-1))] = some (.layer 0 0, .index) ∧
    outcome plain [("substepping-depth", .int (-2))] = some (.layer 0 0, .value) ∧
    outcome plain [("plasma-particles-per-cell", .int 0)] = some (.constructor, .zeroDivision) ∧
    outcome plain [("plasma-particles-per-cell", .int (-1))] = some (.plasma 0, .index) ∧
    outcome plain [("window-width", .float (1 / 25))] = some (.constructor, .index) ∧
    outcome plain [("window-width", .float (1 / 20)), ("plasma-particles-per-cell", .int 1)] = some (.plasma 0, .index) ∧
    outcome plain [("transverse-step", .float 0)] = some (.constructor, .zeroDivision) ∧
    outcome plain [("geometry", .str "Circ")] = some (.constructor, .exception) := by decide +kernel

/-- C63 (finding), 3d: the geometry in capitals passes the constructor and fails at the first plasma, because the adjustment that makes the number of cells was skipped. -/
theorem capital_geometry : outcome plain [("geometry", .str "3D")] = some (.plasma 0, .assertion) ∧ outcome plain [("geometry", .str "2D")] = none := by decide +kernel

/-- The hypotheses of the 2d theorems hold for the defaults. -/
theorem defaults_window : Window demoEnv (cfgOf demoEnv listed []) := ⟨by decide +kernel, by decide +kernel, by decide +kernel, by decide +kernel⟩

example : Built2 demoEnv plain (cfgOf demoEnv listed []) ∧ Runs2 demoEnv (cfgOf demoEnv listed []) := by
  have h := (run2_ok_iff demoEnv plain listed [] 2 (by decide +kernel) defaults_window).1 (by decide +kernel)
  exact ⟨h.1, h.2.2.2.1 (by decide)⟩

theorem demo_sqrt : SqrtOk demoEnv := fun x hx => ⟨hx, Iff.rfl⟩

/-- A 3d user table with one further option. -/
def with3 (k : String) (v : PyVal) : Table := [("geometry", .str "3d"), (k, v)]

/-- The 3d configurations of the cases. -/
theorem window3 : Window demoEnv (cfgOf demoEnv listed [("geometry", .str "3d")]) := ⟨by decide +kernel, by decide +kernel, by decide +kernel, by decide +kernel⟩

/-- A 3d run with the defaults finishes. -/
theorem run3_case : outcome plain [("geometry", .str "3d")] = none := by
  have := (run3_adjusted demoEnv demo_sqrt plain listed [("geometry", .str "3d")] 2 (by decide) (by decide +kernel) window3 (by decide +kernel) (by decide +kernel) rfl (fun _ _ => ⟨rfl, rfl⟩) fun _ => rfl).2
    (by decide +kernel)
  unfold outcome; simp only [Nat.cast_ofNat] at this; rw [this]

/-- A padding of two cells, the unfinished dual plasma and an unknown ion model, or no particles per cell, do not. -/
theorem run3_cases (k : String) (v : PyVal) (h : (k, v) = ("bound-padding-steps", .int 2) ∨ (k, v) = ("dual-plasma-approach", .bool true) ∨ (k, v) = ("ion-model", .str "fixed") ∨ (k, v) = ("plasma-particles-per-cell", .int 0)) :
    outcome plain (with3 k v) ≠ none := by
  have key : ∀ u : Table, (cfgOf demoEnv listed u).get demoEnv "geometry" = "3d" → Window demoEnv (cfgOf demoEnv listed u) → requestedCells demoEnv (cfgOf demoEnv listed u) ≤ 18301 →
      (cfgOf demoEnv listed u).getbool demoEnv "rigid-beam" = false →
      ¬ ((puType demoEnv (cfgOf demoEnv listed u) = "cpu" ∨ puType demoEnv (cfgOf demoEnv listed u) = "gpu" ∧ plain.cupy = true) ∧ 0 < (cfgOf demoEnv listed u).getfloat demoEnv "plasma-particles-per-cell" ∧
      3 ≤ (cfgOf demoEnv listed u).getint demoEnv "bound-padding-steps" ∧ (cfgOf demoEnv listed u).getbool demoEnv "dual-plasma-approach" = false ∧
      ((cfgOf demoEnv listed u).get demoEnv "ion-model" = "background" ∨ (cfgOf demoEnv listed u).get demoEnv "ion-model" = "mobile")) → outcome plain u ≠ none := by
    intro u hg w hc hr hn ho
    apply hn
    refine (run3_adjusted demoEnv demo_sqrt plain listed u 2 (by decide) hg w hc hr rfl (fun _ _ => ⟨rfl, rfl⟩) fun _ => rfl).1 ?_
    unfold outcome at ho
    simp only [Nat.cast_ofNat]
    cases hrun : run demoEnv plain listed u (some 2) with
    | ok x => rfl
    | error e => rw [hrun] at ho; simp at ho
  rcases h with h | h | h | h <;>
  · obtain ⟨rfl, rfl⟩ := Prod.mk.inj h
    exact key _ (by decide +kernel) ⟨by decide +kernel, by decide +kernel, by decide +kernel, by decide +kernel⟩ (by decide +kernel) (by decide +kernel) (by decide +kernel)

/-- The adjusted configuration of `run3_errors` exists for these cases. -/
example : ∃ c', adjust3 demoEnv (cfgOf demoEnv listed [("geometry", .str "3d")]) = .ok c' := by
  have h := (run3_ok_iff demoEnv plain listed [("geometry", .str "3d")] 2 (by decide +kernel) window3).1 (by
    have := run3_case
    unfold outcome at this
    cases hrun : run demoEnv plain listed [("geometry", .str "3d")] (some 2) with
    | ok x => rfl
    | error e => rw [hrun] at this; simp at this)
  obtain ⟨_, _, c', hc, _⟩ := h
  exact ⟨c', hc⟩

end Lcode.Start
