import Verif.Plasma2D.Ode
import Mathlib.Analysis.SpecialFunctions.Pow.Real

/-!
Model of lcode/plasma/fields.py and property C16. Arrays of `nr + 1` radial nodes are functions on indices; floats are real numbers.
-/

namespace Lcode.Plasma2D

open Finset

/-! ### Model -/

/-- Density and current arrays of one plasma species. -/
structure Cur where
  rho : ℕ → ℝ
  jr : ℕ → ℝ
  jf : ℕ → ℝ
  jz : ℕ → ℝ

/-- `currents`: row 0 (electrons) and the further rows (ion species). -/
structure Currents where
  el : Cur
  ions : List Cur

/-- `np.sum(currents.x, axis=0)` -/
def Currents.sum (c : Currents) (f : Cur → ℕ → ℝ) (i : ℕ) : ℝ := f c.el i + (c.ions.map fun s => f s i).sum

structure Flds where
  Er : ℕ → ℝ
  Ef : ℕ → ℝ
  Ez : ℕ → ℝ
  Bf : ℕ → ℝ
  Bz : ℕ → ℝ

/-- `right_part` of compute_e_r, fields.py:43-50. -/
noncomputable def erRight (rho jr jrPrev erPrev pf : ℕ → ℝ) (h dxi : ℝ) (nr : ℕ) : ℕ → ℝ :=
  let right : ℕ → ℝ := fun i => (jr i - jrPrev i) / dxi - pf i * erPrev i
  let right : ℕ → ℝ := fun i => if 1 ≤ i ∧ i < nr then right i + (rho (i + 1) - rho (i - 1)) / 2 / h else right i
  fun i => if i = 0 then 0 else if i = nr then (rho (nr - 1) + rho nr) / 2 else right i

/-- compute_e_r, fields.py:43-52. -/
noncomputable def computeEr (rho jr jrPrev erPrev pf : ℕ → ℝ) (h dxi : ℝ) (nr : ℕ) : ℕ → ℝ :=
  solveNeumann (erRight rho jr jrPrev erPrev pf h dxi nr) pf h nr

/-- `right_part` of compute_e_phi, fields.py:82-87. -/
noncomputable def efRight (jf jfPrev efPrev pf : ℕ → ℝ) (dxi : ℝ) (nr : ℕ) : ℕ → ℝ :=
  let right : ℕ → ℝ := fun i => (jf i - jfPrev i) / dxi - pf i * efPrev i
  fun i => if i = 0 ∨ i = nr then 0 else right i

/-- compute_e_phi, fields.py:82-89. -/
noncomputable def computeEf (jf jfPrev efPrev pf : ℕ → ℝ) (h dxi : ℝ) (nr : ℕ) : ℕ → ℝ :=
  solveDirichlet (efRight jf jfPrev efPrev pf dxi nr) pf h nr

/-- compute_e_z, fields.py:110-112. -/
noncomputable def computeEz (jr : ℕ → ℝ) (h : ℝ) (nr : ℕ) : ℕ → ℝ := cumtrapzBackward jr h nr

/-- compute_b_phi, fields.py:137-147. -/
noncomputable def computeBf (rho jz er : ℕ → ℝ) (h : ℝ) : ℕ → ℝ :=
  let t := cumtrapzForward (fun i => (i : ℝ) * (rho i - jz i)) h
  let t : ℕ → ℝ := fun i => if 1 ≤ i then t i / i else t i
  fun i => er i - t i

/-- compute_b_z, fields.py:168-177. -/
noncomputable def computeBz (jf : ℕ → ℝ) (h : ℝ) (nr : ℕ) : ℕ → ℝ :=
  let b := cumtrapzBackward (fun i => -jf i) h nr
  let flux := ∑ i ∈ range (nr + 1), (2 * (i : ℝ) + 1) * b i
  fun i => b i - flux / (nr : ℝ) ^ 2

/-- _compute_e_r_previous_factor, fields.py:185-197, at one node. -/
noncomputable def erPreviousFactor (rho jr jf jz : ℝ) : ℝ :=
  let ne := rho - 1
  let pf := if ne > -(1 / 10) then 0 else
    let inv := 1 - (jr ^ 2 + jf ^ 2 + jz ^ 2) / ne ^ 2
    if inv ≤ 0 then 0 else 3 * (1 / Real.sqrt inv - 1) - 5
  (if pf < 0 then 0 else pf) + 1

noncomputable def avgArr (a b : ℕ → ℝ) : ℕ → ℝ := fun i => (a i + b i) / 2

/-- Node-wise average of two sets of fields (fields.py:228-232, :256-264). -/
noncomputable def Flds.avg (a b : Flds) : Flds :=
  ⟨avgArr a.Er b.Er, avgArr a.Ef b.Ef, avgArr a.Ez b.Ez, avgArr a.Bf b.Bf, avgArr a.Bz b.Bz⟩

/-- compute_fields, fields.py:203-266. Returns the new fields, the average, and what the argument `fields` has been overwritten with. -/
noncomputable def computeFields (h : ℝ) (nr : ℕ) (fields prev : Flds) (rhoBeam : ℕ → ℝ) (curPrev cur : Currents) (dxi : ℝ) :
    Flds × Flds × Flds :=
  let fields := fields.avg prev
  let pf : ℕ → ℝ := fun i => erPreviousFactor (cur.el.rho i) (cur.el.jr i) (cur.el.jf i) (cur.el.jz i)
  let totalRho : ℕ → ℝ := fun i => cur.sum Cur.rho i + rhoBeam i
  let er := computeEr totalRho (cur.sum Cur.jr) (curPrev.sum Cur.jr) fields.Er pf h dxi nr
  let ef := computeEf (cur.sum Cur.jf) (curPrev.sum Cur.jf) fields.Ef (fun _ => 1) h dxi nr
  let ez := computeEz (cur.sum Cur.jr) h nr
  let bf := computeBf (cur.sum Cur.rho) (cur.sum Cur.jz) er h
  let bz := computeBz (cur.sum Cur.jf) h nr
  let new : Flds := ⟨er, ef, ez, bf, bz⟩
  (new, new.avg prev, fields)

/-! ### C16 -/

/-- The screening factor is at least one, whatever the currents are (also where the currents exceed the density). -/
theorem factor_ge_one (rho jr jf jz : ℝ) : 1 ≤ erPreviousFactor rho jr jf jz := by
  unfold erPreviousFactor
  simp only
  generalize (if rho - 1 > -(1 / 10) then (0 : ℝ) else
    if 1 - (jr ^ 2 + jf ^ 2 + jz ^ 2) / (rho - 1) ^ 2 ≤ 0 then 0 else
      3 * (1 / Real.sqrt (1 - (jr ^ 2 + jf ^ 2 + jz ^ 2) / (rho - 1) ^ 2) - 1) - 5) = x
  by_cases h : x < 0
  · rw [if_pos h]; linarith
  · rw [if_neg h]; linarith

/-- The factor is exactly one when the electrons are slow (gamma below 8/3) or rarefied. -/
theorem factor_eq_one (rho jr jf jz : ℝ)
    (h : jr ^ 2 + jf ^ 2 + jz ^ 2 ≤ (1 - (3 / 8) ^ 2) * (rho - 1) ^ 2) : erPreviousFactor rho jr jf jz = 1 := by
  unfold erPreviousFactor
  simp only
  by_cases h1 : rho - 1 > -(1 / 10)
  · rw [if_pos h1]; simp
  · have hne : 0 < (rho - 1) ^ 2 := by
      have : rho - 1 < 0 := by linarith
      nlinarith
    have hi : (3 / 8 : ℝ) ^ 2 ≤ 1 - (jr ^ 2 + jf ^ 2 + jz ^ 2) / (rho - 1) ^ 2 := by
      have : (jr ^ 2 + jf ^ 2 + jz ^ 2) / (rho - 1) ^ 2 ≤ 1 - (3 / 8) ^ 2 := by
        rw [div_le_iff₀ hne]; exact h
      linarith
    have hi0 : ¬ 1 - (jr ^ 2 + jf ^ 2 + jz ^ 2) / (rho - 1) ^ 2 ≤ 0 := by
      rw [not_le]; refine lt_of_lt_of_le (by norm_num) hi
    have hs : 3 / 8 ≤ Real.sqrt (1 - (jr ^ 2 + jf ^ 2 + jz ^ 2) / (rho - 1) ^ 2) :=
      Real.le_sqrt_of_sq_le hi
    have hv : 1 / Real.sqrt (1 - (jr ^ 2 + jf ^ 2 + jz ^ 2) / (rho - 1) ^ 2) ≤ 8 / 3 := by
      rw [div_le_iff₀ (by linarith)]; linarith
    rw [if_neg h1, if_neg hi0]
    generalize 1 / Real.sqrt (1 - (jr ^ 2 + jf ^ 2 + jz ^ 2) / (rho - 1) ^ 2) = v at hv ⊢
    by_cases h3 : 3 * (v - 1) - 5 < 0
    · rw [if_pos h3]; ring
    · rw [if_neg h3]; linarith

/-- Sum of `2 i + 1` below `n` is `n²`. -/
theorem sum_odd (n : ℕ) : ∑ i ∈ range n, (2 * (i : ℝ) + 1) = (n : ℝ) ^ 2 := by
  induction n with
  | zero => simp
  | succ n ih => rw [sum_range_succ, ih]; push_cast; ring

theorem backward_last (y : ℕ → ℝ) (h : ℝ) (nr : ℕ) : cumtrapzBackward y h nr nr = 0 := by
  rw [cumtrapz_backward y h nr nr le_rfl]; simp [trapezoid]

theorem backward_diff (y : ℕ → ℝ) (h : ℝ) (nr i : ℕ) (hi : i < nr) :
    cumtrapzBackward y h nr (i + 1) - cumtrapzBackward y h nr i = h * (y i + y (i + 1)) / 2 := by
  rw [cumtrapz_backward y h nr i (by omega), cumtrapz_backward y h nr (i + 1) (by omega)]
  unfold trapezoid
  rw [sum_eq_sum_Ico_succ_bot hi]
  ring

/-- The difference quotient of the radial derivative used for the charge density. -/
noncomputable def centralDiff (h : ℝ) (f : ℕ → ℝ) (i : ℕ) : ℝ := (f (i + 1) - f (i - 1)) / (2 * h)

/-- C16. For every plasma response and beam, on every radial grid of at least two nodes:
E_r and E_f vanish on the axis and solve their discretised wave equations at every inner node with the code's relaxation terms (whose factor is at least one, and one wherever the electrons are slow), E_r meets Gauss' law at the last half cell, E_f vanishes at the wall;
E_z vanishes at the wall and dE_z/dr = j_r cell by cell; B_f vanishes on the axis and r (E_r - B_f) is the trapezoidal integral of r (rho - j_z);
dB_z/dr = -j_f cell by cell and the magnetic flux of B_z through the window is zero. -/
theorem fields_solve_equations (h : ℝ) (hh : 0 < h) (nr : ℕ) (hn : 1 ≤ nr) (fields prev : Flds) (rhoBeam : ℕ → ℝ)
    (curPrev cur : Currents) (dxi : ℝ) :
    let new := (computeFields h nr fields prev rhoBeam curPrev cur dxi).1
    let rho : ℕ → ℝ := fun i => cur.sum Cur.rho i + rhoBeam i
    (new.Er 0 = 0 ∧
      (∃ pf : ℕ → ℝ, (∀ i, 1 ≤ pf i ∧ (cur.el.jr i ^ 2 + cur.el.jf i ^ 2 + cur.el.jz i ^ 2 ≤ (1 - (3 / 8) ^ 2) * (cur.el.rho i - 1) ^ 2 → pf i = 1)) ∧
        ∀ i, 1 ≤ i → i < nr → radialLaplacian h new.Er i =
        centralDiff h rho i + (cur.sum Cur.jr i - curPrev.sum Cur.jr i) / dxi
          + pf i * (new.Er i - (fields.Er i + prev.Er i) / 2)) ∧
      ((nr * h) * new.Er nr - ((nr - 1) * h) * new.Er (nr - 1)) / h / ((nr - 1 / 2) * h) = (rho (nr - 1) + rho nr) / 2) ∧
    (new.Ef 0 = 0 ∧ new.Ef nr = 0 ∧
      ∀ i, 1 ≤ i → i < nr → radialLaplacian h new.Ef i =
        (cur.sum Cur.jf i - curPrev.sum Cur.jf i) / dxi + (new.Ef i - (fields.Ef i + prev.Ef i) / 2)) ∧
    (new.Ez nr = 0 ∧ ∀ i, i < nr → (new.Ez (i + 1) - new.Ez i) / h = (cur.sum Cur.jr i + cur.sum Cur.jr (i + 1)) / 2) ∧
    (new.Bf 0 = 0 ∧ ∀ i, i ≤ nr → (i * h) * (new.Er i - new.Bf i) =
      trapezoid (fun j => (j * h) * (cur.sum Cur.rho j - cur.sum Cur.jz j)) h 0 i) ∧
    ((∀ i, i < nr → (new.Bz (i + 1) - new.Bz i) / h = -(cur.sum Cur.jf i + cur.sum Cur.jf (i + 1)) / 2) ∧
      ∑ i ∈ range nr, (2 * (i : ℝ) + 1) * new.Bz i = 0) := by
  intro new rho
  set pf : ℕ → ℝ := fun i => erPreviousFactor (cur.el.rho i) (cur.el.jr i) (cur.el.jf i) (cur.el.jz i) with hpf
  have hpf1 : ∀ i, 1 ≤ pf i := fun i => factor_ge_one _ _ _ _
  have her : new.Er = solveNeumann (erRight rho (cur.sum Cur.jr) (curPrev.sum Cur.jr) (avgArr fields.Er prev.Er) pf h dxi nr) pf h nr := rfl
  have hef : new.Ef = solveDirichlet (efRight (cur.sum Cur.jf) (curPrev.sum Cur.jf) (avgArr fields.Ef prev.Ef) (fun _ => 1) dxi nr) (fun _ => 1) h nr := rfl
  have her0 : new.Er 0 = 0 := solve_axis _ _ _ _ _ hn
  refine ⟨⟨her0, ⟨pf, fun i => ⟨hpf1 i, fun hs => factor_eq_one _ _ _ _ hs⟩, ?_⟩, ?_⟩, ⟨?_, ?_, ?_⟩, ⟨?_, ?_⟩, ⟨?_, ?_⟩, ?_, ?_⟩
  · intro i h1 h2
    have := (neumann_solves (erRight rho (cur.sum Cur.jr) (curPrev.sum Cur.jr) (avgArr fields.Er prev.Er) pf h dxi nr) pf h hh nr hn (fun j _ _ => by linarith [hpf1 j])).2.1 i h1 h2
    rw [← show new.Er = _ from her] at this
    have h3 : ¬ i = 0 := by omega
    have h4 : ¬ i = nr := by omega
    simp only [erRight, h1, h2, h3, h4, if_false, and_self, if_true, avgArr] at this
    unfold centralDiff
    rw [show (rho (i + 1) - rho (i - 1)) / (2 * h) = (rho (i + 1) - rho (i - 1)) / 2 / h by rw [div_div]]
    linear_combination this
  · have := (neumann_solves (erRight rho (cur.sum Cur.jr) (curPrev.sum Cur.jr) (avgArr fields.Er prev.Er) pf h dxi nr) pf h hh nr hn (fun j _ _ => by linarith [hpf1 j])).2.2
    rw [← show new.Er = _ from her] at this
    have h3 : ¬ nr = 0 := by omega
    simp only [erRight, h3, if_false, if_true] at this
    exact this
  · exact solve_axis _ _ _ _ _ hn
  · have := (dirichlet_solves (efRight (cur.sum Cur.jf) (curPrev.sum Cur.jf) (avgArr fields.Ef prev.Ef) (fun _ => 1) dxi nr) (fun _ => 1) h hh nr hn (fun j _ _ => zero_le_one)).2.2
    rw [← show new.Ef = _ from hef] at this
    simpa [efRight] using this
  · intro i h1 h2
    have := (dirichlet_solves (efRight (cur.sum Cur.jf) (curPrev.sum Cur.jf) (avgArr fields.Ef prev.Ef) (fun _ => 1) dxi nr) (fun _ => 1) h hh nr hn (fun j _ _ => zero_le_one)).2.1 i h1 h2
    rw [← show new.Ef = _ from hef] at this
    have h3 : ¬ i = 0 := by omega
    have h4 : ¬ i = nr := by omega
    simp only [efRight, h3, h4, or_self, if_false, avgArr] at this
    linear_combination this
  · exact backward_last _ _ _
  · intro i hi
    have : new.Ez (i + 1) - new.Ez i = _ := backward_diff (cur.sum Cur.jr) h nr i hi
    rw [this]; field_simp
  · show new.Er 0 - _ = 0
    rw [her0]; simp [cumtrapzForward]
  · intro i hi
    have e : (i : ℝ) * (new.Er i - new.Bf i) = cumtrapzForward (fun i => (i : ℝ) * (cur.sum Cur.rho i - cur.sum Cur.jz i)) h i := by
      have hb : new.Bf = computeBf (cur.sum Cur.rho) (cur.sum Cur.jz) new.Er h := rfl
      rw [hb]
      unfold computeBf
      simp only
      rw [sub_sub_cancel]
      by_cases h1 : 1 ≤ i
      · have : (i : ℝ) ≠ 0 := by positivity
        rw [if_pos h1]; field_simp
      · have : i = 0 := by omega
        subst this; simp [cumtrapzForward]
    rw [show (i : ℝ) * h * (new.Er i - new.Bf i) = h * ((i : ℝ) * (new.Er i - new.Bf i)) by ring, e, cumtrapz_forward]
    unfold trapezoid
    rw [mul_sum]
    apply sum_congr rfl
    intro j _
    push_cast
    ring
  · intro i hi
    have e : new.Bz (i + 1) - new.Bz i = h * (-(cur.sum Cur.jf i) + -(cur.sum Cur.jf (i + 1))) / 2 := by
      have := backward_diff (fun i => -cur.sum Cur.jf i) h nr i hi
      show (_ - _) - (_ - _) = _
      linarith
    rw [e]; field_simp; ring
  · show ∑ i ∈ range nr, (2 * (i : ℝ) + 1) * (cumtrapzBackward (fun i => -cur.sum Cur.jf i) h nr i - _) = 0
    set b := cumtrapzBackward (fun i => -cur.sum Cur.jf i) h nr with hb
    have hbl : b nr = 0 := backward_last _ _ _
    rw [sum_range_succ, hbl, mul_zero, add_zero]
    simp only [mul_sub, sum_sub_distrib, ← sum_mul, sum_odd]
    have : (nr : ℝ) ≠ 0 := by positivity
    field_simp
    ring

/-- C16: the fields returned as "average" are the node-wise mean of the new fields and the previous ones (this is what pushes particles). -/
theorem fields_average (h : ℝ) (nr : ℕ) (fields prev : Flds) (rhoBeam : ℕ → ℝ) (curPrev cur : Currents) (dxi : ℝ) (i : ℕ) :
    let r := computeFields h nr fields prev rhoBeam curPrev cur dxi
    r.2.1.Er i = (r.1.Er i + prev.Er i) / 2 ∧ r.2.1.Ef i = (r.1.Ef i + prev.Ef i) / 2 ∧
    r.2.1.Ez i = (r.1.Ez i + prev.Ez i) / 2 ∧ r.2.1.Bf i = (r.1.Bf i + prev.Bf i) / 2 ∧
    r.2.1.Bz i = (r.1.Bz i + prev.Bz i) / 2 := ⟨rfl, rfl, rfl, rfl, rfl⟩

theorem neumann_zero (rhs pf : ℕ → ℝ) (h : ℝ) (hh : 0 < h) (nr : ℕ) (hn : 1 ≤ nr) (hpf : ∀ j, 0 ≤ pf j)
    (hr : ∀ i, 1 ≤ i → i ≤ nr → rhs i = 0) (i : ℕ) (hi : i ≤ nr) : solveNeumann rhs pf h nr i = 0 := by
  symm
  refine (solution_unique rhs pf h hh nr hn (fun j _ _ => hpf j) (fun _ => 0) rfl ?_).1 ?_ i hi
  · intro i h1 h2; rw [hr i h1 h2.le]; simp [radialLaplacian]
  · rw [hr nr hn le_rfl]; simp

theorem dirichlet_zero (rhs pf : ℕ → ℝ) (h : ℝ) (hh : 0 < h) (nr : ℕ) (hn : 1 ≤ nr) (hpf : ∀ j, 0 ≤ pf j)
    (hr : ∀ i, 1 ≤ i → i ≤ nr → rhs i = 0) (i : ℕ) (hi : i ≤ nr) : solveDirichlet rhs pf h nr i = 0 := by
  symm
  refine (solution_unique rhs pf h hh nr hn (fun j _ _ => hpf j) (fun _ => 0) rfl ?_).2 ?_ i hi
  · intro i h1 h2; rw [hr i h1 h2.le]; simp [radialLaplacian]
  · rw [hr nr hn le_rfl]; simp

/-- Fields that vanish on the grid. -/
def Flds.Quiet (nr : ℕ) (f : Flds) : Prop := ∀ i ≤ nr, f.Er i = 0 ∧ f.Ef i = 0 ∧ f.Ez i = 0 ∧ f.Bf i = 0 ∧ f.Bz i = 0

/-- Currents that vanish on the grid, with zero total density. -/
def Currents.Quiet (nr : ℕ) (c : Currents) : Prop :=
  ∀ i ≤ nr, c.sum Cur.rho i = 0 ∧ c.sum Cur.jr i = 0 ∧ c.sum Cur.jf i = 0 ∧ c.sum Cur.jz i = 0

/-- C16: a neutral plasma without currents and beam next to zero fields produces exactly zero fields. -/
theorem quiet_fields (h : ℝ) (hh : 0 < h) (nr : ℕ) (hn : 1 ≤ nr) (fields prev : Flds) (rhoBeam : ℕ → ℝ)
    (curPrev cur : Currents) (dxi : ℝ) (h1 : fields.Quiet nr) (h2 : prev.Quiet nr) (h3 : curPrev.Quiet nr) (h4 : cur.Quiet nr)
    (h5 : ∀ i ≤ nr, rhoBeam i = 0) :
    let r := computeFields h nr fields prev rhoBeam curPrev cur dxi
    r.1.Quiet nr ∧ r.2.1.Quiet nr := by
  intro r
  have hz : ∀ y : ℕ → ℝ, (∀ i ≤ nr, y i = 0) → ∀ i ≤ nr, cumtrapzBackward y h nr i = 0 := by
    intro y hy i hi
    rw [cumtrapz_backward y h nr i hi]
    unfold trapezoid
    rw [neg_eq_zero]
    apply sum_eq_zero
    intro j hj
    rw [mem_Ico] at hj
    rw [hy j (by omega), hy (j + 1) (by omega)]; ring
  have hnew : r.1.Quiet nr := by
    have e1 : ∀ i ≤ nr, r.1.Er i = 0 := by
      apply neumann_zero _ _ h hh nr hn (fun j => by linarith [factor_ge_one (cur.el.rho j) (cur.el.jr j) (cur.el.jf j) (cur.el.jz j)])
      intro i hi hi'
      have a : ¬ i = 0 := by omega
      have b := h4 i hi'
      have b' := h3 i hi'
      have c := h1 i hi'
      have d := h2 i hi'
      by_cases hl : i = nr
      · subst hl
        have b2 := h4 (i - 1) (by omega)
        simp only [erRight, a, if_false, if_true, b.1, b2.1, h5 (i - 1) (by omega), h5 i le_rfl]
        ring
      · have b2 := h4 (i - 1) (by omega)
        have b3 := h4 (i + 1) (by omega)
        simp only [erRight, a, hl, if_false, hi, show i < nr by omega, and_self, if_true, b.2.1, b'.2.1, b2.1, b3.1,
          h5 (i - 1) (by omega), h5 (i + 1) (by omega), Flds.avg, avgArr, c.1, d.1]
        ring
    have e2 : ∀ i ≤ nr, r.1.Ef i = 0 := by
      apply dirichlet_zero _ _ h hh nr hn (fun j => zero_le_one)
      intro i hi hi'
      have a : ¬ i = 0 := by omega
      have b := h4 i hi'
      have b' := h3 i hi'
      have c := h1 i hi'
      have d := h2 i hi'
      by_cases hl : i = nr
      · simp only [efRight, hl, or_true, if_true]
      · simp only [efRight, a, hl, or_self, if_false, b.2.2.1, b'.2.2.1, Flds.avg, avgArr, c.2.1, d.2.1]
        ring
    intro i hi
    refine ⟨e1 i hi, e2 i hi, hz _ (fun i hi => (h4 i hi).2.1) i hi, ?_, ?_⟩
    · show r.1.Er i - _ = 0
      have : cumtrapzForward (fun i => (i : ℝ) * (cur.sum Cur.rho i - cur.sum Cur.jz i)) h i = 0 := by
        rw [cumtrapz_forward]
        apply sum_eq_zero
        intro j hj
        rw [mem_Ico] at hj
        have a := h4 j (by omega)
        have b := h4 (j + 1) (by omega)
        simp only [a.1, a.2.2.2, b.1, b.2.2.2]; ring
      simp only [e1 i hi, this]; simp
    · have hb := hz (fun i => -cur.sum Cur.jf i) (fun i hi => by rw [(h4 i hi).2.2.1, neg_zero])
      show cumtrapzBackward (fun i => -cur.sum Cur.jf i) h nr i - _ = 0
      rw [hb i hi, sum_eq_zero]
      · simp
      · intro j hj
        rw [mem_range] at hj
        rw [hb j (by omega), mul_zero]
  refine ⟨hnew, fun i hi => ?_⟩
  obtain ⟨a1, a2, a3, a4, a5⟩ := hnew i hi
  obtain ⟨b1, b2, b3, b4, b5⟩ := h2 i hi
  refine ⟨?_, ?_, ?_, ?_, ?_⟩
  · show (r.1.Er i + prev.Er i) / 2 = 0
    rw [a1, b1]; simp
  · show (r.1.Ef i + prev.Ef i) / 2 = 0
    rw [a2, b2]; simp
  · show (r.1.Ez i + prev.Ez i) / 2 = 0
    rw [a3, b3]; simp
  · show (r.1.Bf i + prev.Bf i) / 2 = 0
    rw [a4, b4]; simp
  · show (r.1.Bz i + prev.Bz i) / 2 = 0
    rw [a5, b5]; simp

/-- Non-vacuity: electrons at rest of density -1 on one ion background of density 1 are quiet. -/
example : Currents.Quiet 5 ⟨⟨fun _ => -1, 0, 0, 0⟩, [⟨fun _ => 1, 0, 0, 0⟩]⟩ := by
  intro i _; simp [Currents.sum]

/-- A charge-free plasma with a uniform radial current does produce a longitudinal field: the equations are not vacuous. -/
example : (computeFields 1 2 ⟨0, 0, 0, 0, 0⟩ ⟨0, 0, 0, 0, 0⟩ 0 ⟨⟨0, 0, 0, 0⟩, []⟩ ⟨⟨0, 1, 0, 0⟩, []⟩ 1).1.Ez 0 = -2 := by
  norm_num [computeFields, computeEz, cumtrapzBackward, cumtrapzBackAux, Currents.sum]

end Lcode.Plasma2D
