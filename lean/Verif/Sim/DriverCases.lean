import Verif.Sim.Driver

/-!
Property C50: cases that meet the hypotheses of the theorems of Verif/Sim/Driver.lean, and the witnesses of the findings.
-/

namespace Lcode.Sim

open Lcode.Py Lcode.Cfg

/-- The entries of default_config_values.py:3-98 that the driver reads. -/
def someDefaults : List (String × PyVal) :=
  [("geometry", .str "circ"), ("processing-unit-type", .str "cpu"), ("window-width", .float 5), ("transverse-step", .float (1 / 20)), ("window-length", .float 15), ("xi-step", .float (1 / 20)),
   ("time-limit", .float (401 / 2)), ("time-step", .int 25), ("plasma-particles-per-cell", .int 10), ("rigid-beam", .bool false), ("field-solver-subtraction-coefficient", .int 1)]

/-- An object created with the defaults, to show in the cases below. -/
def made (user : Table) : Option Obj := match create demoEnv someDefaults user [1, 100] with | .ok o => some o | .error _ => none

/-- Times, xi-steps of solver and source, and the exception, for the calls of a history. -/
def shown (user : Table) (as : List Act) : Option (List (List (ℚ × ℚ × ℚ) × Option Err)) :=
  (made user).map fun o => (o.run demoEnv someDefaults 1 0 as).2.map fun r => (r.1.map fun s => (s.time, s.solver.getfloat demoEnv "xi-step", s.source.getfloat demoEnv "xi-step"), r.2)

/-- The defaults: eight time steps of 25 within the limit 200.5. -/
example : shown [] [.step none] = some [((List.range 8).map fun i : ℕ => ((25 : ℚ) * (i + 1), (1 / 20 : ℚ), (1 / 20 : ℚ)), none)] := by decide +kernel

/-- C50 (finding): after a first call, a changed xi-step reaches the solver but not the beam source, and the number of steps asked for is ignored. -/
theorem mixed_xi_step : shown [] [.step (some 2), .set "xi-step" (.float (1 / 10)), .step (some 5)] =
    some [([(25, 1 / 20, 1 / 20), (50, 1 / 20, 1 / 20)], none), ([], none), ([(25, 1 / 10, 1 / 20), (50, 1 / 10, 1 / 20)], none)] := by decide +kernel

/-- C50 (finding): the manual's synonym for 2d is recognised in lower case only, while the geometry itself may be written in any capitalisation. -/
theorem circ_spelling : made [("geometry", .str "circ")] ≠ none ∧ made [("geometry", .str "2D")] ≠ none ∧ made [("geometry", .str "Circ")] = none := by decide +kernel

/-- Another geometry is refused, and the object works again when the old one is restored. -/
example : (shown [] [.set "geometry" (.str "3d"), .step (some 1), .set "geometry" (.str "circ"), .step (some 1)]).map (fun l => l.map Prod.snd) =
    some [none, some .geometryChanged, none, none] := by decide +kernel

/-- C50 (finding): a 3d object made with the geometry in capitals is accepted but not adjusted: no number of cells is stored. -/
theorem capitals_not_adjusted : (made [("geometry", .str "3D")]).map (fun o => (o.geometry, o.cfg.values.lookup "window-width-steps", o.cfg.getfloat demoEnv "window-width")) = some (some "3d", none, 5) := by decide +kernel

/-- Periods 1 and 100 of two diagnostics objects: with time steps 25, then 120, then 10 they become 25 and 100, then 120 and 120, and stay. -/
example : (made []).map (fun o => ((o.run demoEnv someDefaults 1 0 [.step (some 1)]).1.diags, (o.run demoEnv someDefaults 1 0 [.set "time-step" (.int 120), .step (some 1), .set "time-step" (.int 10), .step (some 1)]).1.diags)) =
    some ([25, 100], [120, 120]) := by decide +kernel

/-- A file loaded before the first call is used; one loaded after it is not. -/
example : (made []).map (fun o => (o.run demoEnv someDefaults 1 0 [.load "a", .load "b", .step (some 1), .load "c", .step (some 1)]).2.map fun r => r.1.map fun s => match s.origin with | .file p => p | _ => "") =
    some [[], [], ["b"], [], ["b"]] := by decide +kernel

/-- C50 (finding): a rigid beam stays after `rigid-beam` has been switched off, although the pusher is then the one for moving particles. -/
theorem rigid_case : (made [("rigid-beam", .bool true)]).map (fun o => (o.run demoEnv someDefaults 1 0 [.step (some 3), .set "rigid-beam" (.bool false), .step (some 3)]).2.map fun r => r.1.map fun s => (match s.origin with | .rigid => true | _ => false, s.solver.getbool demoEnv "rigid-beam")) =
    some [[(true, true)], [], [(true, false)]] := by decide +kernel

/-- The windows of 2d and 3d differ for the same configuration: with length 1.7 and layers of 0.3 the last 2d layer is number 5, the last 3d layer number 6. -/
example : layers2D (17 / 10) (3 / 10) = 5 ∧ layers3D (17 / 10) (3 / 10) = 6 := by decide +kernel

example : nodes2D demoEnv ⟨[("window-width", .float 5), ("transverse-step", .float (1 / 20))], .numpy⟩ = 101 := by decide +kernel

end Lcode.Sim
