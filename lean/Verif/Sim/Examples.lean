import Verif.Sim.StartCases

/-!
Property C63 for the configurations of the examples shipped with the program (lcode/examples): they run, on every machine, unless a density profile or the creation of the beam fails.
-/

namespace Lcode.Start

open Lcode.Py Lcode.Cfg

/-- lcode/examples/original-ssm.py:7-22. -/
def exampleSSM : Table :=
  [("geometry", .str "circ"), ("processing-unit-type", .str "cpu"), ("window-width", .int 5), ("transverse-step", .float (2 / 100)), ("window-length", .int 45), ("xi-step", .float (2 / 100)),
   ("time-limit", .float (75001 / 10)), ("time-step", .int 5), ("plasma-particles-per-cell", .int 10), ("ion-model", .str "background")]

/-- lcode/examples/high-R.py:8-21. -/
def exampleHighR : Table :=
  [("geometry", .str "circ"), ("processing-unit-type", .str "cpu"), ("window-width", .int 10), ("transverse-step", .float (1 / 100)), ("window-length", .float (33 / 2)), ("xi-step", .float (1 / 100)),
   ("time-limit", .int 900), ("time-step", .int 5), ("plasma-particles-per-cell", .int 10), ("ion-model", .str "background")]

/-- Both tables meet the hypotheses and requirements of `run2_ok_iff`. -/
theorem examples_meet (m : Machine) : ∀ user : Table, user = exampleSSM ∨ user = exampleHighR →
    ((cfgOf demoEnv listed user).get demoEnv "geometry").toLower = "2d" ∧ Window demoEnv (cfgOf demoEnv listed user) ∧ Built2 demoEnv m (cfgOf demoEnv listed user) ∧
    (cfgOf demoEnv listed user).getbool demoEnv "rigid-beam" = false ∧ Runs2 demoEnv (cfgOf demoEnv listed user) := by
  rintro user (rfl | rfl)
  · refine ⟨by decide +kernel, ⟨by decide +kernel, by decide +kernel, by decide +kernel, by decide +kernel⟩, ⟨fun h => absurd h (by decide +kernel), by decide +kernel, by decide +kernel, ⟨.int 5, 5, by decide +kernel, by decide +kernel⟩⟩, by decide +kernel, ⟨by decide +kernel, by decide +kernel, by decide +kernel, by decide +kernel, by decide +kernel, by decide +kernel⟩⟩
  · refine ⟨by decide +kernel, ⟨by decide +kernel, by decide +kernel, by decide +kernel, by decide +kernel⟩, ⟨fun h => absurd h (by decide +kernel), by decide +kernel, by decide +kernel, ⟨.int 5, 5, by decide +kernel, by decide +kernel⟩⟩, by decide +kernel, ⟨by decide +kernel, by decide +kernel, by decide +kernel, by decide +kernel, by decide +kernel, by decide +kernel⟩⟩

/-- C63, the examples: whatever the machine (with or without cupy) and the number of time steps, the run ends without an exception exactly if the beam can be created and the profiles can be evaluated in every time step. -/
theorem examples_run (user : Table) (hu : user = exampleSSM ∨ user = exampleHighR) (m : Machine) (n : ℕ) :
    run demoEnv m listed user (some n) = .ok () ↔ m.beam = .ok () ∧ ∀ t, t < n → m.zshape t = .ok () ∧ m.rshape t = .ok () := by
  obtain ⟨h1, h2, h3, h4, h5⟩ := examples_meet m user hu
  rw [run2_ok_iff demoEnv m listed user n h1 h2]
  constructor
  · rintro ⟨-, -, hb, -, hs⟩; exact ⟨hb, hs⟩
  · rintro ⟨hb, hs⟩; exact ⟨h3, h4, hb, fun _ => h5, hs⟩

/-- C63: `step()` without a number of steps is `step(int(time-limit / time-step))`, for every configuration with a time step that is not zero; a time step of zero passes the constructor and makes `step()` (not `step(n)`) a ZeroDivisionError of the call, unless the beam is rigid. -/
theorem step_default (env : Env) (m : Machine) (defaults : List (String × PyVal)) (user : Table) (b : Built) (hp : pull env m defaults user = .ok b) :
    (b.cfg.getfloat env "time-step" ≠ 0 → run env m defaults user none = run env m defaults user (some (pyInt (b.cfg.getfloat env "time-limit" / b.cfg.getfloat env "time-step")))) ∧
    (b.cfg.getfloat env "time-step" = 0 → b.cfg.getbool env "rigid-beam" = false → run env m defaults user none = .error (.call, .zeroDivision)) ∧
    (b.cfg.getbool env "rigid-beam" = true → ∀ n, run env m defaults user none = run env m defaults user n) := by
  refine ⟨fun h => ?_, fun h hr => ?_, fun hr n => ?_⟩
  · unfold run wanted
    rw [hp]
    simp only [tag, bind, Except.bind, pyDiv_ok _ _ h]
    split_ifs <;> rfl
  · unfold run wanted
    rw [hp]
    simp only [tag, bind, Except.bind, h, pyDiv_err, hr]
    rfl
  · unfold run wanted
    rw [hp]
    simp only [tag, bind, Except.bind, hr, if_true]

/-- A configuration with a time step of zero: the constructor accepts it, `step()` fails, `step(2)` computes two steps. -/
theorem zero_time_step : run demoEnv plain listed [("time-step", .int 0)] none = .error (.call, .zeroDivision) ∧ outcome plain [("time-step", .int 0)] = none := by decide +kernel

/-- `step()` of the examples, without a number of steps, is `step(1500)` and `step(180)`. -/
theorem examples_steps (m : Machine) : run demoEnv m listed exampleSSM none = run demoEnv m listed exampleSSM (some 1500) ∧ run demoEnv m listed exampleHighR none = run demoEnv m listed exampleHighR (some 180) := by
  have key : ∀ (user : Table) (N : ℤ), user = exampleSSM ∨ user = exampleHighR → wanted demoEnv (cfgOf demoEnv listed user) none = .ok N → wanted demoEnv (cfgOf demoEnv listed user) (some N) = .ok N →
      run demoEnv m listed user none = run demoEnv m listed user (some N) := by
    intro user N hu e1 e2
    obtain ⟨h1, h2, h3, -, -⟩ := examples_meet m user hu
    have hp := (pull2_ok_iff demoEnv m listed user h1 h2).1 h3
    unfold run
    simp only [hp, tag, bind, Except.bind, e1, e2]
  exact ⟨key _ _ (Or.inl rfl) (by decide +kernel) (by decide +kernel), key _ _ (Or.inr rfl) (by decide +kernel) (by decide +kernel)⟩

/-- C63, the examples as they are shipped: `sim.step()` ends without an exception on every machine on which the beam can be created and the profiles can be evaluated. -/
theorem examples_finish (m : Machine) (user : Table) (hu : user = exampleSSM ∨ user = exampleHighR) (hb : m.beam = .ok ()) (hs : ∀ t, m.zshape t = .ok () ∧ m.rshape t = .ok ()) : run demoEnv m listed user none = .ok () := by
  rcases hu with rfl | rfl
  · rw [(examples_steps m).1]; exact (examples_run _ (Or.inl rfl) m 1500).mpr ⟨hb, fun t _ => hs t⟩
  · rw [(examples_steps m).2]; exact (examples_run _ (Or.inr rfl) m 180).mpr ⟨hb, fun t _ => hs t⟩

end Lcode.Start
