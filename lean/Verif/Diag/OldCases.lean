import Verif.Diag.OldOther
import Mathlib.Data.Rat.Floor

/-! Concrete cases for C67. -/

namespace Lcode.Diag.Old.Cases

open Lcode.Py Lcode.Diag Lcode.Diag.Old

instance : DecidableEq (Data (Val ℚ)) := inferInstanceAs (DecidableEq (List (String × List (Val ℚ))))

/-- A field on a grid of three nodes. -/
def g (a : ℚ) : Grid ℚ := ⟨3, fun i j => a + 10 * i + j⟩

def electrons : Electrons3 ℚ := ⟨[1], [0], [0], [0], ⟨6, fun i j => i - j⟩, ⟨6, fun i j => i + j⟩⟩

/-- The layer at `xi`. -/
def layer (xi a : ℚ) : Layer3 ℚ := ⟨xi, g a, g (a + 1), g (a + 2), g 0, g 0, g 0, g 0, g 0, g 0, g 0, electrons⟩

def text : List Char := " Ez , Ex,,dy_chaotic".toList

theorem text_lists : Lists text ["Ez".toList, "Ex".toList, "dy_chaotic".toList] :=
  ⟨[" Ez ".toList, " Ex".toList, [], "dy_chaotic".toList], by decide, by decide, by decide, by decide⟩

theorem text_names : parseNames allowedFXi text = some ["Ez", "Ex", "dy_chaotic"] := by
  rw [parse_iff allowedFXi text _ text_lists, if_pos (by decide)]; decide

theorem rejected : parseNames allowedFXi "Ez,ni".toList = none :=
  ni_rejected _ ["Ez".toList, "ni".toList] ⟨["Ez".toList, "ni".toList], by decide, by decide, by decide, by decide⟩ (Or.inl (by decide))

theorem joined : parseNames allowedFXi "nirho_beam".toList = some ["nirho_beam"] :=
  joined_accepted _ ⟨["nirho_beam".toList], by decide, by decide, by decide, by decide⟩

def probes : Probes := .single 1 2

/-- The run, with the names of `text`; periods 4 in time and 1 in `xi`: the step at time 4 writes, that at 6 does not. -/
theorem fxi_run : (runDiag (oldFXi id 1 1 1 4 1 probes ["Ez", "Ex", "dy_chaotic"]) (start ["Ez", "Ex", "dy_chaotic"]) [(4, [layer (-1) 7, layer (-2) 8]), (6, [layer (-1) 9])]).map
      (fun b => (content b.files 400, content b.files 600)) =
    some (some [("Ez", [.num 21, .num 22]), ("Ex", [.num 19, .num 20]), ("dy_chaotic", [.num 10, .num 10]), ("xi", [.num (-1), .num (-2)])], none) := by
  decide +kernel

/-- The hypotheses of `old_fxi_files` hold for this run. -/
theorem fxi_file : ∃ (b' : OBuf (Val ℚ) (Data (Val ℚ))) (f : Data (Val ℚ)), content b'.files (pyRound (100 * (4 : ℚ))) = some f ∧ HoldsFXi id 1 probes ["Ez", "Ex", "dy_chaotic"] f [layer (-1) 7, layer (-2) 8] := by
  have hsome : (runDiag (oldFXi id 1 1 1 4 1 probes ["Ez", "Ex", "dy_chaotic"]) (start ["Ez", "Ex", "dy_chaotic"]) ([(3, [layer (-1) 5])] ++ (4, [layer (-1) 7, layer (-2) 8]) :: [(6, [layer (-1) 9])])).isSome := by decide +kernel
  obtain ⟨b', hb'⟩ := Option.isSome_iff_exists.mp hsome
  obtain ⟨f, hf⟩ := old_fxi_files id 1 1 1 4 1 probes text ["Ez", "Ex", "dy_chaotic"] text_names [(3, [layer (-1) 5])] [(6, [layer (-1) 9])] (4, [layer (-1) 7, layer (-2) 8]) b' hb' (by decide +kernel)
    (by intro s' hs'; rw [List.mem_singleton.mp hs']; decide +kernel)
  exact ⟨b', f, hf⟩

/-- A map over the sub-window `-2 ≤ xi ≤ -1`, `-1 ≤ y < 1`. -/
theorem maps_run : (stepDiag (oldMaps 3 1 1 1 4 100 (some (-1)) (some (-2)) (some (-1)) (some 1) 1 1 ["Ez"]) (start ["Ez"]) (4, [layer 0 1, layer (-1) 2, layer (-2) 3, layer (-3) 4])).map (fun b => content b.files 400) = none := by
  decide +kernel

/-- Here the layer `xi = 0`, before the sub-window, is a multiple of the saving period: the run raises. A window that starts one layer later passes. -/
theorem maps_run_ok : (stepDiag (oldMaps 3 1 1 1 4 100 (some (-1)) (some (-2)) (some (-1)) (some 1) 1 1 ["Ez"]) (start ["Ez"]) (4, [layer (-1) 2, layer (-2) 3, layer (-3) 4])).map (fun b => content b.files 400) =
    some (some ⟨[-1, 0, 1], [-1, -2], [("Ez", [[14, 15], [15, 16]])]⟩) := by
  decide +kernel

theorem maps_sized (xi a : ℚ) : Sized 3 (layer xi a) := by
  intro q hq
  simp only [grids3, List.mem_cons, List.not_mem_nil, or_false] at hq
  rcases hq with rfl | rfl | rfl | rfl | rfl | rfl | rfl | rfl | rfl | rfl <;> rfl

theorem maps_names : GridNames (K := ℚ) ["Ez"] := by
  intro n hn
  rw [List.mem_singleton.mp hn]
  exact ⟨("Ez", 0x4, Layer3.Ez), by simp [grids3], rfl⟩

/-- The condition of `old_maps_step` fails for the first list of layers and holds for the second. -/
theorem maps_condition : ¬ (stepDiag (oldMaps 3 1 1 1 4 100 (some (-1)) (some (-2)) (some (-1)) (some 1) 1 1 ["Ez"]) (start ["Ez"]) (4, [layer 0 1, layer (-1) 2])).isSome = true := by
  rw [old_maps_step 3 (by decide) 1 1 1 4 100 (some (-1)) (some (-2)) (some (-1)) (some 1) ["Ez"] maps_names (by decide) (by decide) 1 1 ⟨le_rfl, le_rfl⟩ (4, [layer 0 1, layer (-1) 2])
    (by intro l hl; simp only [List.mem_cons, List.not_mem_nil, or_false] at hl; rcases hl with rfl | rfl <;> exact maps_sized _ _) (by decide +kernel) (start ["Ez"]) (start_empty _)]
  rintro ⟨_, h⟩
  obtain ⟨l', hl', h'⟩ := h [] (layer 0 1) [layer (-1) 2] rfl (Or.inl (by decide +kernel))
  rw [List.nil_append, List.mem_singleton] at hl'
  subst hl'
  exact absurd (h'.1 (-1) rfl) (by decide +kernel)

theorem merging_raises : stepDiag (oldMaps 3 1 1 1 4 100 none none none none 2 1 ["Ez"]) (start ["Ez"]) (4, [layer (-1) 2]) = none :=
  old_maps_merging 3 1 1 1 4 100 none none none none ["Ez"] (by decide) 2 1 (Or.inl (by decide)) _ (by decide +kernel) _

theorem y_offt_raises : stepDiag (oldMaps 3 1 1 1 4 100 none none none none 1 1 ["y_offt"]) (start ["y_offt"]) (4, [layer (-1) 2]) = none :=
  old_maps_particles 3 1 1 1 4 100 none none none none ["y_offt"] (Or.inl (by decide)) 1 1 _ (by decide +kernel) ⟨layer (-1) 2, by simp, by simp [InXi]⟩ _

/-- The columns of the map above, and a window below the grid that is read from the wrong end. -/
theorem nodes : pySlice 3 (rFrom 3 (1 : ℚ) (some (-1))) (rTo 3 (1 : ℚ) (some 1)) = [0, 1] := by decide +kernel

theorem below : pySlice 3 (rFrom 3 (1 : ℚ) none) (rTo 3 (1 : ℚ) (some (-2))) = [0, 1] := by
  have := map_below (h := (1 : ℚ)) one_pos 1 2 (by decide)
  simpa [List.range_succ] using this

def tcfg (mode : Mode) : TCfg ℚ := ⟨4, 1, 2, 1, mode, ["Ez", "px"]⟩

/-- Two time steps draw the same picture: the second stays. -/
theorem overwritten : (transRun (tcfg .pictures) [] [(4, [layer (-1) 1, layer (-2) 2]), (8, [layer (-1) 3, layer (-2) 4])]).map (fun pics => (picture pics "Ez" (-200), picture pics "Ez" (-100), pics.length)) =
    some (some [[6, 16, 26], [7, 17, 27], [8, 18, 28]], none, 2) := by
  decide +kernel

theorem overwritten_spec : ∃ pics, transRun (tcfg .pictures) [] [(4, [layer (-1) 1, layer (-2) 2]), (8, [layer (-1) 3, layer (-2) 4])] = some pics ∧ picture pics "Ez" (pyRound (100 * (-2 : ℚ))) = some (transposed (g 6)) := by
  have h := picture_of_layer (tcfg .pictures) rfl [(4, [layer (-1) 1, layer (-2) 2]), (8, [layer (-1) 3, layer (-2) 4])] ("Ez", 0x4, Layer3.Ez) (by simp [grids3]) (by decide) [layer (-2) 2] [] (layer (-2) 4) ?_ (by simp)
  · simpa [layer, show (4 : ℚ) + 2 = 6 by norm_num] using h
  · have c1 : cond 4 (4 : ℚ) 1 := by decide +kernel
    have c2 : cond 8 (4 : ℚ) 1 := by decide +kernel
    have d1 : ∀ a : ℚ, ¬ cond (layer (-1) a).xi (2 : ℚ) 1 := fun a => by show ¬ cond (-1) (2 : ℚ) 1; decide +kernel
    have d2 : ∀ a : ℚ, cond (layer (-2) a).xi (2 : ℚ) 1 := fun a => by show cond (-2) (2 : ℚ) 1; decide +kernel
    unfold dueLayers
    simp [tcfg, c1, c2, d1, d2]

theorem numbers_case : transRun (tcfg .numbers) [] [(4, [layer (-2) 2])] = none ∧ transRun (tcfg .numbers) [] [(1, [layer (-2) 2])] = some [] := by decide +kernel

theorem save_case : rRun (⟨4, 1, 100, 1, true, false⟩ : RCfg ℚ) [(1, [-1]), (4, [-1])] = none ∧ rRun (⟨4, 1, 100, 1, true, false⟩ : RCfg ℚ) [(1, [-1])] = some () := by decide +kernel

end Lcode.Diag.Old.Cases
