import Verif.Diag.OldMaps

/-!
C67: `DiagnosticsTransverse` and `SaveRunState` of lcode/diagnostics/diagnostics_3d.py.

`plasma_particles` is the dictionary of the sorts (plasma3d/initialization.py:341-348), and the drain handed to the diagnostics is `MPIBeamDrain` (simulation.py:248, mpi/beam_io.py:57-69);
neither has the attributes that these classes use (`xp`, `beam_buffer`), so that the access raises AttributeError (`none`).
-/

namespace Lcode.Diag.Old

open Lcode.Py Lcode.Diag

variable {K : Type*} [Field K] [LinearOrder K] [IsStrictOrderedRing K] [FloorRing K]

/-- diagnostics_3d.py:476: the output modes. -/
inductive Mode where
  | numbers | pictures | both
  deriving DecidableEq

/-- Settings of `DiagnosticsTransverse` after `pull_config`, :480-527. -/
structure TCfg (K : Type*) where
  period : K
  dt : K
  savePeriod : K
  dxi : K
  mode : Mode
  names : List String

/-- A picture: the quantity, the layer coordinate in hundredths, and the array that is drawn. The time is not part of the name, :535. -/
abbrev Picture (K : Type*) := (String × ℤ) × List (List K)

/-- `array.T` as rows: the first index of the array runs along a row. -/
def transposed (g : Grid K) : List (List K) := (List.range g.n).map fun j => (List.range g.n).map fun i => g.at' i j

/-- :534-560: `draw_figures`. Names that are not grid quantities draw nothing. -/
def drawOne (l : Layer3 K) (name : String) : List (Picture K) :=
  match name with
  | "Ex" => [((name, pyRound (100 * l.xi)), transposed l.Ex)]
  | "Ey" => [((name, pyRound (100 * l.xi)), transposed l.Ey)]
  | "Ez" => [((name, pyRound (100 * l.xi)), transposed l.Ez)]
  | "Bx" => [((name, pyRound (100 * l.xi)), transposed l.Bx)]
  | "By" => [((name, pyRound (100 * l.xi)), transposed l.By)]
  | "Bz" => [((name, pyRound (100 * l.xi)), transposed l.Bz)]
  | "Phi" => [((name, pyRound (100 * l.xi)), transposed l.Phi)]
  | "ne" => [((name, pyRound (100 * l.xi)), transposed l.ne)]
  | "ni" => [((name, pyRound (100 * l.xi)), transposed l.ni)]
  | "rho_beam" => [((name, pyRound (100 * l.xi)), transposed l.rhoBeam)]
  | _ => []

/-- :610-615, :691-696: `conditions_check`. -/
def dueLayer (period dt savePeriod dxi time xi : K) : Bool := decide (cond time period dt ∧ cond xi savePeriod dxi)

/-- :594-608: `after_step_dxi`. `save_to_file` (:562-592) raises in every case: it asks the dictionary of the plasma particles for `xp`. -/
def transStep (c : TCfg K) (time : K) (pics : List (Picture K)) (l : Layer3 K) : Option (List (Picture K)) :=
  if dueLayer c.period c.dt c.savePeriod c.dxi time l.xi = true then
    match c.mode with
    | .pictures => some (pics ++ c.names.flatMap (drawOne l))
    | .numbers => none
    | .both => none
  else some pics

/-- The time steps of a run, push_solvers/push_solver.py:236-284; `dump` does nothing (:617-620). -/
def transRun (c : TCfg K) (pics : List (Picture K)) (hist : List (K × List (Layer3 K))) : Option (List (Picture K)) := hist.foldlM (fun pics s => s.2.foldlM (transStep c s.1) pics) pics

/-- The picture of a given name on the disk: that drawn last. -/
def picture (pics : List (Picture K)) (name : String) (code : ℤ) : Option (List (List K)) := (pics.reverse.find? fun p => p.1 == (name, code)).map Prod.snd

/-! ### Specification -/

/-- The layers that are due, with the times at which they are, in the order of the run. -/
def dueLayers (c : TCfg K) (hist : List (K × List (Layer3 K))) : List (Layer3 K) := hist.flatMap fun s => s.2.filter fun l => decide (cond s.1 c.period c.dt ∧ cond l.xi c.savePeriod c.dxi)

/-! ### Proofs -/

theorem transRun_eq (c : TCfg K) (hm : c.mode = .pictures) (hist : List (K × List (Layer3 K))) (pics : List (Picture K)) :
    transRun c pics hist = some (pics ++ (dueLayers c hist).flatMap fun l => c.names.flatMap (drawOne l)) := by
  have layers : ∀ (time : K) (ls : List (Layer3 K)) (pics : List (Picture K)), ls.foldlM (transStep c time) pics =
      some (pics ++ (ls.filter fun l => decide (cond time c.period c.dt ∧ cond l.xi c.savePeriod c.dxi)).flatMap fun l => c.names.flatMap (drawOne l)) := by
    intro time ls
    induction ls with
    | nil => intro pics; simp
    | cons l ls ih =>
      intro pics
      rw [List.foldlM_cons, List.filter_cons]
      by_cases hd : dueLayer c.period c.dt c.savePeriod c.dxi time l.xi = true
      · have hd' : decide (cond time c.period c.dt ∧ cond l.xi c.savePeriod c.dxi) = true := hd
        have e : transStep c time pics l = some (pics ++ c.names.flatMap (drawOne l)) := by unfold transStep; rw [if_pos hd, hm]
        rw [e, if_pos hd']
        show ls.foldlM (transStep c time) _ = _
        rw [ih, List.flatMap_cons, List.append_assoc]
      · have hd' : ¬ decide (cond time c.period c.dt ∧ cond l.xi c.savePeriod c.dxi) = true := hd
        have e : transStep c time pics l = some pics := by unfold transStep; rw [if_neg hd]
        rw [e, if_neg hd']
        show ls.foldlM (transStep c time) _ = _
        rw [ih]
  unfold transRun dueLayers
  induction hist generalizing pics with
  | nil => simp
  | cons s rest ih =>
    rw [List.foldlM_cons, layers]
    show List.foldlM _ _ rest = _
    rw [ih, List.flatMap_cons, List.flatMap_append, List.append_assoc]

theorem drawOne_grid (l : Layer3 K) (q : String × ℕ × (Layer3 K → Grid K)) (hq : q ∈ (grids3 : List (String × ℕ × (Layer3 K → Grid K)))) : drawOne l q.1 = [((q.1, pyRound (100 * l.xi)), transposed (q.2.2 l))] := by
  simp only [grids3, List.mem_cons, List.not_mem_nil, or_false] at hq
  rcases hq with rfl | rfl | rfl | rfl | rfl | rfl | rfl | rfl | rfl | rfl <;> rfl

/-- Every drawn picture carries a name that was asked for and the coordinate of the layer. -/
theorem drawOne_key (l : Layer3 K) (name : String) (p : Picture K) (hp : p ∈ drawOne l name) : p.1 = (name, pyRound (100 * l.xi)) := by
  unfold drawOne at hp
  split at hp <;> first | (rw [List.mem_singleton] at hp; rw [hp]) | (simp at hp)

theorem find_append_none {A : Type*} (l m : List A) (p : A → Bool) (h : ∀ a ∈ m, p a = false) : (l ++ m).reverse.find? p = l.reverse.find? p := by
  rw [List.reverse_append, List.find?_append]
  have : m.reverse.find? p = none := by
    rw [List.find?_eq_none]; intro x hx; rw [h x (List.mem_reverse.mp hx)]; simp
  rw [this, Option.none_or]

/-- C67: with `colormaps_type = 'pictures'`, a run raises nothing, and the picture of a quantity at a layer coordinate shows the array of the last due layer with that coordinate (to two decimals),
over all time steps: the output of earlier time steps is overwritten. -/
theorem picture_of_layer (c : TCfg K) (hm : c.mode = .pictures) (hist : List (K × List (Layer3 K))) (q : String × ℕ × (Layer3 K → Grid K)) (hq : q ∈ (grids3 : List (String × ℕ × (Layer3 K → Grid K)))) (hn : q.1 ∈ c.names)
    (pre post : List (Layer3 K)) (l : Layer3 K) (hd : dueLayers c hist = pre ++ l :: post) (hlast : ∀ l' ∈ post, pyRound (100 * l'.xi) ≠ pyRound (100 * l.xi)) :
    ∃ pics, transRun c [] hist = some pics ∧ picture pics q.1 (pyRound (100 * l.xi)) = some (transposed (q.2.2 l)) := by
  refine ⟨_, transRun_eq c hm hist [], ?_⟩
  rw [hd, List.nil_append, List.flatMap_append, List.flatMap_cons, ← List.append_assoc]
  unfold picture
  rw [find_append_none _ (post.flatMap _)]
  · obtain ⟨a, b, e, hb⟩ : ∃ a b, c.names = a ++ q.1 :: b ∧ q.1 ∉ b := by
      clear hd hlast
      generalize c.names = names at hn
      induction names with
      | nil => simp at hn
      | cons n names ih =>
        by_cases hin : q.1 ∈ names
        · obtain ⟨a, b, e, hb⟩ := ih hin
          exact ⟨n :: a, b, by rw [e]; rfl, hb⟩
        · have : n = q.1 := by rcases List.mem_cons.mp hn with h | h; exacts [h.symm, absurd h hin]
          exact ⟨[], names, by rw [this]; rfl, hin⟩
    rw [e, List.flatMap_append, List.flatMap_cons, drawOne_grid l q hq, ← List.append_assoc, ← List.append_assoc]
    rw [find_append_none _ (b.flatMap _)]
    · rw [List.reverse_append]
      simp
    · intro p hp
      obtain ⟨n, hnb, hpn⟩ := List.mem_flatMap.mp hp
      rw [drawOne_key l n p hpn]
      have : n ≠ q.1 := by rintro rfl; exact hb hnb
      simp [this]
  · intro p hp
    obtain ⟨l', hl', hp⟩ := List.mem_flatMap.mp hp
    obtain ⟨n, _, hpn⟩ := List.mem_flatMap.mp hp
    rw [drawOne_key l' n p hpn]
    simp [hlast l' hl']

/-- C67: row `j` of the picture shows the values `array[i, j]`, with the first coordinate along the row. -/
theorem picture_rows (g : Grid K) : (transposed g).length = g.n ∧ ∀ i j, i < g.n → j < g.n → ((transposed g)[j]?).bind (fun r => r[i]?) = some (g.at' i j) := by
  unfold transposed
  refine ⟨by simp, fun i j hi hj => ?_⟩
  simp [hi, hj]

/-- C67: every picture on the disk comes from a due layer of the run and a name that was asked for. -/
theorem pictures_only (c : TCfg K) (hm : c.mode = .pictures) (hist : List (K × List (Layer3 K))) (pics : List (Picture K)) (hr : transRun c [] hist = some pics) (p : Picture K) (hp : p ∈ pics) :
    ∃ l ∈ dueLayers c hist, ∃ n ∈ c.names, p.1 = (n, pyRound (100 * l.xi)) := by
  rw [transRun_eq c hm hist [], List.nil_append] at hr
  cases hr
  obtain ⟨l, hl, hp⟩ := List.mem_flatMap.mp hp
  obtain ⟨n, hn, hpn⟩ := List.mem_flatMap.mp hp
  exact ⟨l, hl, n, hn, drawOne_key l n p hpn⟩

/-- C67, refutation of "the transverse diagnostics can save numbers": with 'numbers' or 'both', a run raises as soon as a layer is due, and only then. -/
theorem numbers_raise (c : TCfg K) (hm : c.mode ≠ .pictures) (hist : List (K × List (Layer3 K))) (pics : List (Picture K)) : transRun c pics hist = if dueLayers c hist = [] then some pics else none := by
  have layers : ∀ (time : K) (ls : List (Layer3 K)) (pics : List (Picture K)), ls.foldlM (transStep c time) pics =
      if (ls.filter fun l => decide (cond time c.period c.dt ∧ cond l.xi c.savePeriod c.dxi)) = [] then some pics else none := by
    intro time ls
    induction ls with
    | nil => intro pics; rfl
    | cons l ls ih =>
      intro pics
      rw [List.foldlM_cons, List.filter_cons]
      by_cases hd : dueLayer c.period c.dt c.savePeriod c.dxi time l.xi = true
      · have hd' : decide (cond time c.period c.dt ∧ cond l.xi c.savePeriod c.dxi) = true := hd
        have e : transStep c time pics l = none := by
          unfold transStep; rw [if_pos hd]
          cases hc : c.mode with
          | pictures => exact absurd hc hm
          | numbers => rfl
          | both => rfl
        rw [e, if_pos hd', if_neg (by simp)]
        rfl
      · have hd' : ¬ decide (cond time c.period c.dt ∧ cond l.xi c.savePeriod c.dxi) = true := hd
        have e : transStep c time pics l = some pics := by unfold transStep; rw [if_neg hd]
        rw [e, if_neg hd']
        show ls.foldlM (transStep c time) _ = _
        exact ih pics
  unfold transRun dueLayers
  induction hist generalizing pics with
  | nil => rfl
  | cons s rest ih =>
    rw [List.foldlM_cons, layers, List.flatMap_cons]
    by_cases hs : (s.2.filter fun l => decide (cond s.1 c.period c.dt ∧ cond l.xi c.savePeriod c.dxi)) = []
    · rw [if_pos hs, hs, List.nil_append]
      show List.foldlM _ _ rest = _
      exact ih pics
    · rw [if_neg hs, if_neg (by simp only [List.append_eq_nil_iff]; exact fun h => hs h.1)]
      rfl

/-! ### SaveRunState -/

/-- Settings of `SaveRunState` after `pull_config`, :624-654. -/
structure RCfg (K : Type*) where
  period : K
  dt : K
  savePeriod : K
  dxi : K
  saveBeam : Bool
  savePlasma : Bool

/-- :641-654: `pull_config`; saving a rigid beam is refused. -/
def rPull (outputPeriod savingPeriod dt dxi : K) (saveBeam savePlasma rigid : Bool) : Option (RCfg K) :=
  if rigid = true ∧ saveBeam = true then none else some ⟨adjust outputPeriod dt, dt, adjust savingPeriod dxi, dxi, saveBeam, savePlasma⟩

/-- :656-689: `after_step_dxi` asks the dictionary of the plasma particles for `xp`. -/
def rAfter (c : RCfg K) (time : K) (xi : K) : Option Unit := if dueLayer c.period c.dt c.savePeriod c.dxi time xi = true ∧ c.savePlasma = true then none else some ()

/-- :698-738: `dump` asks the drain for `beam_buffer`, and the dictionary of the plasma particles for `xp`. -/
def rDump (c : RCfg K) (time : K) : Option Unit :=
  if cond time c.period c.dt then (if c.saveBeam = true then none else some ()).bind fun _ => if c.savePlasma = true then none else some () else some ()

/-- The time steps of a run; a step is its time and the coordinates of its layers. -/
def rRun (c : RCfg K) (hist : List (K × List K)) : Option Unit := hist.foldlM (fun _ s => (s.2.foldlM (fun _ xi => rAfter c s.1 xi) ()).bind fun _ => rDump c s.1) ()

/-- C67, refutation of "the state of a run can be saved": a run with `SaveRunState` that is to save the beam or the plasma raises as soon as a time step is due, and only then. -/
theorem save_raises (c : RCfg K) (hs : c.saveBeam = true ∨ c.savePlasma = true) (hist : List (K × List K)) : rRun c hist = if ∃ s ∈ hist, cond s.1 c.period c.dt then none else some () := by
  unfold rRun
  induction hist with
  | nil => rfl
  | cons s rest ih =>
    rw [List.foldlM_cons]
    have quiet : ∀ xs : List K, ¬ cond s.1 c.period c.dt → xs.foldlM (fun _ xi => rAfter c s.1 xi) () = some () := by
      intro xs hn
      induction xs with
      | nil => rfl
      | cons x xs ih =>
        rw [List.foldlM_cons]
        unfold rAfter dueLayer at ih ⊢
        rw [if_neg (by rintro ⟨h, _⟩; exact hn (by simpa using (of_decide_eq_true h).1))]
        exact ih
    by_cases hc : cond s.1 c.period c.dt
    · have hd : rDump c s.1 = none := by
        unfold rDump
        rw [if_pos hc]
        rcases hs with h | h
        · rw [if_pos h]; rfl
        · by_cases hb : c.saveBeam = true
          · rw [if_pos hb]; rfl
          · rw [if_neg hb, Option.bind_some, if_pos h]
      rw [if_pos ⟨s, List.mem_cons_self, hc⟩, hd]
      cases (s.2.foldlM (fun _ xi => rAfter c s.1 xi) ()) <;> rfl
    · have hd : rDump c s.1 = some () := by unfold rDump; rw [if_neg hc]
      rw [quiet s.2 hc, hd]
      show List.foldlM _ _ rest = _
      rw [ih]
      congr 1
      simp only [List.mem_cons, exists_eq_or_imp, hc, false_or]

/-- C67: with nothing to save, `SaveRunState` raises nothing and writes nothing. -/
theorem save_nothing (c : RCfg K) (hb : c.saveBeam = false) (hp : c.savePlasma = false) (hist : List (K × List K)) : rRun c hist = some () := by
  unfold rRun
  induction hist with
  | nil => rfl
  | cons s rest ih =>
    rw [List.foldlM_cons]
    have h1 : ∀ xs : List K, xs.foldlM (fun _ xi => rAfter c s.1 xi) () = some () := by
      intro xs
      induction xs with
      | nil => rfl
      | cons x xs ih =>
        rw [List.foldlM_cons]
        unfold rAfter at ih ⊢
        rw [if_neg (by rw [hp]; simp)]
        exact ih
    have h2 : rDump c s.1 = some () := by
      unfold rDump
      rw [hb, hp]
      split_ifs <;> first | rfl | contradiction
    rw [h1, h2]
    exact ih

end Lcode.Diag.Old
