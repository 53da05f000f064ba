import Verif.Plasma2D.Fields

/-!
Property C55, the contrast: the field solver of the 2D code does not treat positive and negative charges alike.
-/

namespace Lcode.Plasma2D

/-! ### Specification: everything with the opposite charge -/

def Cur.conj (c : Cur) : Cur := ⟨fun i => -c.rho i, fun i => -c.jr i, fun i => -c.jf i, fun i => -c.jz i⟩

def Currents.conj (c : Currents) : Currents := ⟨c.el.conj, c.ions.map Cur.conj⟩

def Flds.conj (F : Flds) : Flds := ⟨fun i => -F.Er i, fun i => -F.Ef i, fun i => -F.Ez i, fun i => -F.Bf i, fun i => -F.Bz i⟩

theorem factor_electrons : erPreviousFactor (-24) 0 0 24 = 26 / 7 := by
  have s : Real.sqrt (1 - (0 ^ 2 + 0 ^ 2 + 24 ^ 2) / (-24 - 1) ^ 2) = 7 / 25 := by
    rw [show (1 - (0 ^ 2 + 0 ^ 2 + 24 ^ 2) / (-24 - 1) ^ 2 : ℝ) = (7 / 25) ^ 2 by norm_num]
    exact Real.sqrt_sq (by norm_num)
  unfold erPreviousFactor
  simp only
  rw [s]
  norm_num

theorem factor_positrons : erPreviousFactor 24 0 0 (-24) = 1 := by
  unfold erPreviousFactor
  norm_num

theorem factor_zero : erPreviousFactor 0 0 0 0 = 1 := by
  unfold erPreviousFactor
  norm_num

/-- The fast electrons of the refutation: a ring at node 1, its charge compensated by the ions. -/
def fastRing : Currents := ⟨⟨fun i => if i = 1 then -24 else 0, fun _ => 0, fun _ => 0, fun i => if i = 1 then 24 else 0⟩, [⟨fun i => if i = 1 then 24 else 0, fun _ => 0, fun _ => 0, fun _ => 0⟩]⟩

theorem fastRing_er (c : Currents) (hr : ∀ i, c.sum Cur.rho i = 0) (hj : ∀ i, c.sum Cur.jr i = 0) (P : Flds) (f : ℝ) (hf : erPreviousFactor (c.el.rho 1) (c.el.jr 1) (c.el.jf 1) (c.el.jz 1) = f) (hf1 : 1 ≤ f) :
    (computeFields 1 2 P P (fun _ => 0) c c 1).1.Er 2 = f * P.Er 1 / (2 * (3 + f) - 3 / 2) := by
  have hp : P.avg P = P := by unfold Flds.avg avgArr; simp only [add_self_div_two]
  unfold computeFields
  simp only [hp, computeEr, solveNeumann, tridiagonalSolve]
  rw [show 2 - 2 = 0 from rfl, sweepBack, show 2 - 1 = 0 + 1 from rfl, sweepFwd, sweepFwd]
  simp only [rowB, rowC, rowA, neumannBc, erRight, hr, hj, hf, show (0 : ℕ) + 1 = 1 from rfl]
  norm_num
  have : f ≠ 0 := by linarith
  have h2 : 3 + f ≠ 0 := by linarith
  have h3 : 2 * (3 + f) - 3 / 2 ≠ 0 := by linarith
  field_simp
  ring_nf
  rw [show -9 - f * 4 = -(9 + f * 4) by ring, inv_neg]
  ring

/-- C55, refutation for the 2D code: the same currents with all signs reversed, in reversed fields, do not give the reversed radial field. (The factor in front of the previous field is computed from the sign of the first row of the charge density.) -/
theorem conjugation_refuted_2D : ∃ (c : Currents) (F : Flds), (computeFields 1 2 F.conj F.conj (fun _ => 0) c.conj c.conj 1).1.Er 2 ≠ -(computeFields 1 2 F F (fun _ => 0) c c 1).1.Er 2 := by
  refine ⟨fastRing, ⟨fun i => if i = 1 then 1 else 0, 0, 0, 0, 0⟩, ?_⟩
  rw [fastRing_er fastRing (fun i => by simp only [Currents.sum, fastRing]; by_cases h : i = 1 <;> simp [h]) (fun i => by simp [Currents.sum, fastRing]) _ _ (by simpa [fastRing] using factor_electrons) (by norm_num),
    fastRing_er fastRing.conj (fun i => by simp only [Currents.sum, Currents.conj, Cur.conj, fastRing]; by_cases h : i = 1 <;> simp [h, Cur.conj]) (fun i => by simp [Currents.sum, Currents.conj, Cur.conj, fastRing]) _ _
      (by simpa [Currents.conj, Cur.conj, fastRing] using factor_positrons) (by norm_num)]
  simp only [Flds.conj]
  norm_num

end Lcode.Plasma2D
