import Verif.Legacy.Beam
import Verif.Py

/-!
C77: lcode/beam_generator/beam_generator2.py, the generator of beams from user-defined distributions, in exact arithmetic.
-/

namespace Lcode.Legacy.Two

open Lcode.Beam2D (Particle)

variable {S : Type}

/-! ### Model -/

/-- What make_beam raises: the `Exception` with its message (a missing distribution, a file in the way), TypeError (`None` is called), UnboundLocalError, NameError and AttributeError. -/
inductive Err2
  | exception | typeError | unbound | nameError | attributeError
  deriving DecidableEq

/-- The arguments of make_beam, beam_generator2.py:36-39. `found`: the directory `saveto` contains a file beamfile.bin (:48). `pzMed`: `pz_distr.med`. -/
structure Args where
  xi : ℕ → List ℝ
  xiMed : ℝ
  xiF0 : ℝ
  pz : ℕ → List ℝ
  pzMed : ℝ
  current : ℝ
  x : Option (ℕ → List ℝ)
  y : Option (ℕ → List ℝ)
  r : Option (ℕ → List ℝ)
  px : Option (ℕ → List ℝ)
  py : Option (ℕ → List ℝ)
  ang : Option (ℕ → List ℝ)
  qm : ℝ
  perLayer : ℝ
  savehead : Bool
  saveto : Bool
  found : Bool

/-- A line of the array in 3d, beam_generator2.py:143: the order of the columns is xi, x, y, pz, px, py, q_m, q, number. -/
structure Row3 where
  xi : ℝ
  x : ℝ
  y : ℝ
  pz : ℝ
  px : ℝ
  py : ℝ
  qm : ℝ
  q : ℝ
  id : ℕ

/-- What make_beam returns: nothing after the warning (:40-42), an array with eight or with nine columns. -/
inductive Out
  | warned
  | two (rows : List (Particle ℝ))
  | three (rows : List Row3)

/-- `q`, beam_generator2.py:50-51. -/
noncomputable def charge (a : Args) : ℝ := 2 * a.current / 17.03331478052319 / a.perLayer

/-- `N`, beam_generator2.py:53-54; for positive arguments (a negative one raises or gives an empty beam, a zero divisor raises). -/
noncomputable def number (cfg : Cfg) (a : Args) : ℕ := (Lcode.Py.pyRound (a.perLayer / cfg.xiStep / a.xiF0)).toNat

open Classical in
/-- `xi`, beam_generator2.py:55-65. -/
noncomputable def xis (cfg : Cfg) (a : Args) : List ℝ :=
  sortDown ((a.xi (number cfg a)).filter fun x => if a.savehead then decide (-cfg.window ≤ x) else decide (-cfg.window ≤ x ∧ x ≤ 0))

/-- `x`, `y` and `r`, beam_generator2.py:68-89. -/
noncomputable def radial (g : Rand S) (a : Args) (n : ℕ) (s : S) : Except Err2 (Option (List ℝ × List ℝ) × List ℝ × S) :=
  match a.r with
  | some r => .ok (none, (g.shuffle s ((r n).map fun v => |v|)).1, (g.shuffle s ((r n).map fun v => |v|)).2)
  | none =>
    match a.x with
    | none => .error .exception
    | some x =>
      let X := g.shuffle s (x n)
      let Y := g.shuffle X.2 ((a.y.getD x) n)
      .ok (some (X.1, Y.1), List.zipWith (fun u v => Real.sqrt (u ^ 2 + v ^ 2)) X.1 Y.1, Y.2)

/-- `pr` of one particle, beam_generator2.py:105; numpy gives nan for a particle exactly on the axis, the model zero. -/
noncomputable def prOf (x y r px py : ℝ) : ℝ := (x * px + y * py) / r

/-- `M` of one particle before the multiplication by the radius, beam_generator2.py:106. -/
noncomputable def azOf (x y r px py : ℝ) : ℝ := Real.sqrt (px ^ 2 + py ^ 2 - prOf x y r px py ^ 2)

/-- `pr` and `M`, beam_generator2.py:91-112. -/
noncomputable def momenta (g : Rand S) (a : Args) (n : ℕ) (xy : Option (List ℝ × List ℝ)) (r : List ℝ) (s : S) : Except Err2 (List ℝ × List ℝ × S) :=
  match a.ang with
  | some ang =>
    let pr := g.shuffle s ((ang n).map fun v => a.pzMed * v)
    let M := g.shuffle pr.2 ((ang n).map fun v => a.pzMed * v)
    .ok (pr.1, M.1, M.2)
  | none =>
    match a.px, xy with
    | some px, some (X, Y) =>
      let PX := g.shuffle s (px n)
      let PY := g.shuffle PX.2 ((a.py.getD px) n)
      .ok ((List.range n).map fun i => prOf (X.getD i 0) (Y.getD i 0) (r.getD i 0) (PX.1.getD i 0) (PY.1.getD i 0),
        (List.range n).map fun i => azOf (X.getD i 0) (Y.getD i 0) (r.getD i 0) (PX.1.getD i 0) (PY.1.getD i 0), PY.2)
    | _, _ => .error .exception

/-- The cylindrical branch, beam_generator2.py:67-122, and the stub. -/
noncomputable def circ (g : Rand S) (cfg : Cfg) (a : Args) (s : S) : Except Err2 (Out × S) := do
  let (xy, r, s) ← radial g a (xis cfg a).length s
  let (pr, M, s) ← momenta g a (xis cfg a).length xy r s
  let pz := g.shuffle s (a.pz (xis cfg a).length)
  pure (.two ((List.range (xis cfg a).length).map (rowAt a.qm (charge a) (xis cfg a) r pz.1 pr M) ++ [stub]), pz.2)

/-- The stub in 3d, beam_generator2.py:144. -/
def stub3 : Row3 := ⟨-100000, 0, 0, 0, 0, 0, 1, 0, 0⟩

/-- The 3d branch, beam_generator2.py:125-145. -/
noncomputable def flat (g : Rand S) (cfg : Cfg) (a : Args) (s : S) : Except Err2 (Out × S) :=
  match a.x, a.px with
  | some x, some px =>
    let n := (xis cfg a).length
    let X := g.shuffle s (x n)
    let Y := g.shuffle X.2 ((a.y.getD x) n)
    let PZ := g.shuffle Y.2 (a.pz n)
    let PX := g.shuffle PZ.2 (px n)
    let PY := g.shuffle PX.2 ((a.py.getD px) n)
    .ok (.three ((List.range n).map (fun i => ⟨(xis cfg a).getD i 0, X.1.getD i 0, Y.1.getD i 0, PZ.1.getD i 0, PX.1.getD i 0, PY.1.getD i 0, a.qm, charge a, i⟩) ++ [stub3]), PY.2)
  | _, _ => .error .typeError

/-- The branches by geometry, beam_generator2.py:67-145; with another geometry `beam = beam_data` (:151) raises UnboundLocalError. -/
noncomputable def branch (g : Rand S) (cfg : Cfg) (a : Args) (s : S) : Except Err2 (Out × S) :=
  if cfg.geometry = "c" ∨ cfg.geometry = "circ" then circ g cfg a s else if cfg.geometry = "3d" then flat g cfg a s else .error .unbound

/-- The end, beam_generator2.py:151-156: an array has no attribute `values`, and there is no `head`. -/
def finish (a : Args) (out : Except Err2 (Out × S)) : Except Err2 (Out × S) :=
  match out with
  | .error e => .error e
  | .ok o => if a.saveto then .error .attributeError else if a.savehead then .error .nameError else .ok o

open Classical in
/-- make_beam, beam_generator2.py:36-156. Distributions are assumed to return as many numbers as they are asked for. Simplified: what is printed. -/
noncomputable def makeBeam2 (g : Rand S) (cfg : Cfg) (a : Args) (s : S) : Except Err2 (Out × S) :=
  if a.qm = 1 ∧ a.current > 0 then .ok (.warned, s)
  else if a.saveto ∧ a.found then .error .exception
  else finish a (branch g cfg a s)

/-- scipy's standard normal distribution: the cumulative distribution function and its inverse. What is used of it. -/
structure Table where
  cdf : ℝ → ℝ
  ppf : ℝ → ℝ
  mono : StrictMono cdf
  pos : ∀ z, 0 < cdf z
  lt_one : ∀ z, cdf z < 1
  inv : ∀ p, 0 < p → p < 1 → cdf (ppf p) = p

/-- The function made by Gauss, beam_generator2.py:14-18. -/
noncomputable def gaussGen (T : Table) (med sigma : ℝ) (vmin vmax : Option ℝ) : ℕ → List ℝ :=
  quantiles (fun p => med + sigma * T.ppf p) (vmin.elim 0 T.cdf) (vmax.elim 1 T.cdf)

/-- Its attribute `f0`, beam_generator2.py:21. -/
noncomputable def gaussF0 (sigma : ℝ) : ℝ := 1 / Real.sqrt (2 * Real.pi) / sigma

/-- `stats.weibull_min.cdf(v, 2)` and `ppf(p, 2)`. -/
noncomputable def weibullCdf (v : ℝ) : ℝ := if 0 ≤ v then 1 - Real.exp (-v ^ 2) else 0
noncomputable def weibullPpf (p : ℝ) : ℝ := Real.sqrt (-Real.log (1 - p))

/-- The function made by rGauss, beam_generator2.py:24-31. -/
noncomputable def rGaussGen (_sigma : ℝ) (vmin vmax : Option ℝ) : ℕ → List ℝ :=
  quantiles weibullPpf (vmin.elim 0 weibullCdf) (vmax.elim 1 weibullCdf)

/-! ### What is returned -/

/-- C77: electrons with a positive current: a warning, and no beam. -/
theorem makeBeam2_warned (g : Rand S) (cfg : Cfg) (a : Args) (s : S) (hq : a.qm = 1) (hc : 0 < a.current) : makeBeam2 g cfg a s = .ok (.warned, s) := by
  unfold makeBeam2; rw [if_pos ⟨hq, hc⟩]

/-- C77 (finding): nothing can be saved: with `saveto` or `savehead` every call that is not stopped by the warning raises. -/
theorem never_saved (g : Rand S) (cfg : Cfg) (a : Args) (s : S) (hw : ¬ (a.qm = 1 ∧ a.current > 0)) (h : a.saveto = true ∨ a.savehead = true) : ∃ e, makeBeam2 g cfg a s = .error e := by
  unfold makeBeam2
  rw [if_neg hw]
  by_cases h1 : a.saveto ∧ a.found
  · rw [if_pos h1]; exact ⟨_, rfl⟩
  rw [if_neg h1]
  cases branch g cfg a s with
  | error e => exact ⟨e, rfl⟩
  | ok o =>
    by_cases h2 : a.saveto = true
    · exact ⟨.attributeError, by simp [finish, h2]⟩
    · have h3 := h.resolve_left h2
      exact ⟨.nameError, by simp [finish, h2, h3]⟩

/-- C77 (finding): the geometry that a Config stores for `circ` is `2d` (C01), and with it make_beam raises UnboundLocalError. Only `c`, which no solver accepts (C63), and `3d` are served. -/
theorem geometry_2d (g : Rand S) (cfg : Cfg) (a : Args) (s : S) (hw : ¬ (a.qm = 1 ∧ a.current > 0)) (hf : a.found = false) (hg : cfg.geometry ∉ ["c", "circ", "3d"]) : makeBeam2 g cfg a s = .error .unbound := by
  simp only [List.mem_cons, List.not_mem_nil, or_false, not_or] at hg
  unfold makeBeam2 branch
  rw [if_neg hw, if_neg (by simp [hf]), if_neg (by simp [hg]), if_neg hg.2.2]
  rfl

/-- The longitudinal coordinates that the distribution gives and that are inside the window. -/
def InWindow (cfg : Cfg) (a : Args) (l : List ℝ) : Prop := ∃ p : ℝ → Bool, (∀ x, p x = true ↔ -cfg.window ≤ x ∧ x ≤ 0) ∧ l.Perm ((a.xi (number cfg a)).filter p)

/-- A cylindrical beam made as ordered, the rows without the stub. -/
structure Made (cfg : Cfg) (a : Args) (rows : List (Particle ℝ)) : Prop where
  head : (rows.map Particle.xi).Pairwise (fun u v => v ≤ u)
  xi : InWindow cfg a (rows.map Particle.xi)
  same : ∀ p ∈ rows, p.qm = a.qm ∧ p.qnorm = 2 * a.current / 17.03331478052319 / a.perLayer
  ids : rows.map Particle.id = (List.range rows.length).map fun i : ℕ => (i : ℤ)
  pz : (rows.map Particle.pz).Perm (a.pz rows.length)
  radii : ∀ r, a.r = some r → (rows.map Particle.r).Perm ((r rows.length).map fun v => |v|)
  angles : ∀ ang, a.ang = some ang → (rows.map Particle.pr).Perm ((ang rows.length).map fun v => a.pzMed * v) ∧
    ∃ l, l.Perm ((ang rows.length).map fun v => a.pzMed * v) ∧ rows.map Particle.M = List.zipWith (· * ·) l (rows.map Particle.r)
  plane : a.r = none → ∃ (x : ℕ → List ℝ) (X Y : List ℝ), a.x = some x ∧ X.Perm (x rows.length) ∧ Y.Perm ((a.y.getD x) rows.length) ∧
    (∀ (i : ℕ) (p : Particle ℝ), rows[i]? = some p → p.r = Real.sqrt (X.getD i 0 ^ 2 + Y.getD i 0 ^ 2)) ∧
    (a.ang = none → ∃ (px : ℕ → List ℝ) (PX PY : List ℝ), a.px = some px ∧ PX.Perm (px rows.length) ∧ PY.Perm ((a.py.getD px) rows.length) ∧
      ∀ (i : ℕ) (p : Particle ℝ), rows[i]? = some p → 0 < p.r → p.r * p.pr = X.getD i 0 * PX.getD i 0 + Y.getD i 0 * PY.getD i 0 ∧ p.M = |X.getD i 0 * PY.getD i 0 - Y.getD i 0 * PX.getD i 0|)

theorem sortDown_spec (l : List ℝ) : (sortDown l).Pairwise (fun u v => v ≤ u) ∧ (sortDown l).Perm l := by
  refine ⟨?_, List.mergeSort_perm _ _⟩
  have := List.pairwise_mergeSort (le := fun u v : ℝ => decide (v ≤ u)) (by intro u v w h1 h2; simp at *; linarith) (by intro u v; simp; exact le_total _ _) l
  exact this.imp (by simp)

theorem xis_spec (cfg : Cfg) (a : Args) (hs : a.savehead = false) : (xis cfg a).Pairwise (fun u v => v ≤ u) ∧ InWindow cfg a (xis cfg a) := by
  refine ⟨(sortDown_spec _).1, _, ?_, (sortDown_spec _).2⟩
  intro x
  simp [hs]

theorem polar (x y px py : ℝ) (hr : 0 < Real.sqrt (x ^ 2 + y ^ 2)) :
    Real.sqrt (x ^ 2 + y ^ 2) * prOf x y (Real.sqrt (x ^ 2 + y ^ 2)) px py = x * px + y * py ∧ azOf x y (Real.sqrt (x ^ 2 + y ^ 2)) px py * Real.sqrt (x ^ 2 + y ^ 2) = |x * py - y * px| := by
  have h2 : Real.sqrt (x ^ 2 + y ^ 2) ^ 2 = x ^ 2 + y ^ 2 := Real.sq_sqrt (by positivity)
  generalize Real.sqrt (x ^ 2 + y ^ 2) = r at *
  refine ⟨by unfold prOf; field_simp, ?_⟩
  unfold azOf prOf
  rw [← Real.sqrt_sq_eq_abs, ← Real.sqrt_sq hr.le, ← Real.sqrt_mul' _ (by positivity), Real.sqrt_sq hr.le]
  congr 1
  field_simp
  linear_combination (px ^ 2 + py ^ 2) * h2

theorem map_range_getD (l : List ℝ) {n : ℕ} (h : l.length = n) : ((List.range n).map fun i => l.getD i 0) = l := by
  subst h
  apply List.ext_getElem
  · simp
  · intro i h1 h2
    simp [List.getD_eq_getElem?_getD, h2]

/-- C77: a call that returns a cylindrical beam has made it as ordered, whatever the shuffles were: head first, inside the window, equal charges, every momentum and radius of the distributions used once, and a stub behind. -/
theorem makeBeam2_two (g : Rand S) (hg : g.Valid) (cfg : Cfg) (a : Args) (s s' : S) (rows : List (Particle ℝ)) (h : makeBeam2 g cfg a s = .ok (.two rows, s'))
    (hpz : ∀ n, (a.pz n).length = n) (hr : ∀ r, a.r = some r → ∀ n, (r n).length = n) (hang : ∀ d, a.ang = some d → ∀ n, (d n).length = n) (hx : ∀ d, a.x = some d → ∀ n, (d n).length = n) (hy : ∀ d, a.y = some d → ∀ n, (d n).length = n)
    : ∃ beam : List (Particle ℝ), rows = beam ++ [stub] ∧ Made cfg a beam := by
  have hw : ¬ (a.qm = 1 ∧ a.current > 0) := by
    intro hw
    unfold makeBeam2 at h
    rw [if_pos hw] at h
    simp at h
  have hf : ¬ (a.saveto = true ∧ a.found = true) := by
    intro hf
    unfold makeBeam2 at h
    rw [if_neg hw, if_pos hf] at h
    cases h
  have hs : a.savehead = false := by
    by_contra hs
    obtain ⟨e, he⟩ := never_saved g cfg a s hw (Or.inr (by simpa using hs))
    rw [he] at h; cases h
  have ht : a.saveto = false := by
    by_contra hs
    obtain ⟨e, he⟩ := never_saved g cfg a s hw (Or.inl (by simpa using hs))
    rw [he] at h; cases h
  unfold makeBeam2 at h
  rw [if_neg hw, if_neg hf] at h
  have hb : branch g cfg a s = .ok (.two rows, s') := by
    revert h
    cases branch g cfg a s with
    | error e => intro h; cases h
    | ok o => simp only [finish, hs, ht]; intro h; simpa using h
  have hc : circ g cfg a s = .ok (.two rows, s') := by
    unfold branch at hb
    split at hb
    · exact hb
    · split at hb
      · unfold flat at hb
        split at hb
        · simp at hb
        · cases hb
      · cases hb
  obtain ⟨hp, hwin⟩ := xis_spec cfg a hs
  unfold circ at hc
  generalize xis cfg a = xi at *
  generalize hn : xi.length = n at *
  have hxi := map_range_getD xi hn
  cases hrad : radial g a n s with
  | error e => rw [hrad] at hc; cases hc
  | ok o =>
  obtain ⟨xy, r, s1⟩ := o
  rw [hrad] at hc
  simp only [bind, Except.bind] at hc
  cases hmom : momenta g a n xy r s1 with
  | error e => rw [hmom] at hc; cases hc
  | ok o =>
  obtain ⟨pr, M, s2⟩ := o
  rw [hmom] at hc
  simp only [pure, Except.pure, Except.ok.injEq, Prod.mk.injEq, Out.two.injEq] at hc
  refine ⟨_, hc.1.symm, ?_⟩
  -- lengths
  have hPZ : (g.shuffle s2 (a.pz n)).1.length = n := by rw [(hg.shuffle_perm _ _).length_eq, hpz]
  have hrl : r.length = n := by
    unfold radial at hrad
    split at hrad
    · rename_i d hd
      simp only [Except.ok.injEq, Prod.mk.injEq] at hrad
      rw [← hrad.2.1, (hg.shuffle_perm _ _).length_eq, List.length_map, hr d hd]
    · split at hrad
      · cases hrad
      · rename_i d hd
        simp only [Except.ok.injEq, Prod.mk.injEq] at hrad
        rw [← hrad.2.1, List.length_zipWith, (hg.shuffle_perm _ _).length_eq, (hg.shuffle_perm _ _).length_eq, hx d hd]
        have : ((a.y.getD d) n).length = n := by
          cases hya : a.y with
          | none => exact hx d hd n
          | some e => exact hy e hya n
        rw [this, min_self]
  have hprl : pr.length = n ∧ M.length = n := by
    unfold momenta at hmom
    split at hmom
    · rename_i d hd
      simp only [Except.ok.injEq, Prod.mk.injEq] at hmom
      rw [← hmom.1, ← hmom.2.1, (hg.shuffle_perm _ _).length_eq, (hg.shuffle_perm _ _).length_eq, List.length_map, hang d hd]
      simp
    · split at hmom
      · simp only [Except.ok.injEq, Prod.mk.injEq] at hmom
        rw [← hmom.1, ← hmom.2.1]; simp
      · cases hmom
  have cxi : ((List.range n).map (rowAt a.qm (charge a) xi r (g.shuffle s2 (a.pz n)).1 pr M)).map Particle.xi = xi := by
    rw [List.map_map]; exact hxi
  have cr : ((List.range n).map (rowAt a.qm (charge a) xi r (g.shuffle s2 (a.pz n)).1 pr M)).map Particle.r = r := by
    rw [List.map_map]; exact map_range_getD r hrl
  have cpr : ((List.range n).map (rowAt a.qm (charge a) xi r (g.shuffle s2 (a.pz n)).1 pr M)).map Particle.pr = pr := by
    rw [List.map_map]; exact map_range_getD pr hprl.1
  have cpz : ((List.range n).map (rowAt a.qm (charge a) xi r (g.shuffle s2 (a.pz n)).1 pr M)).map Particle.pz = (g.shuffle s2 (a.pz n)).1 := by
    rw [List.map_map]; exact map_range_getD _ hPZ
  have cM : ((List.range n).map (rowAt a.qm (charge a) xi r (g.shuffle s2 (a.pz n)).1 pr M)).map Particle.M = List.zipWith (· * ·) M r := by
    rw [List.map_map]
    apply List.ext_getElem
    · simp [hprl.2, hrl]
    · intro i h1 h2
      simp at h1 h2
      simp [rowAt, List.getD_eq_getElem?_getD, h2.1, h2.2]
  have clen : ((List.range n).map (rowAt a.qm (charge a) xi r (g.shuffle s2 (a.pz n)).1 pr M)).length = n := by simp
  refine ⟨?_, ?_, ?_, ?_, ?_, ?_, ?_, ?_⟩
  · rw [cxi]; exact hp
  · rw [cxi]; exact hwin
  · intro p hp
    obtain ⟨i, -, rfl⟩ := List.mem_map.mp hp
    exact ⟨rfl, rfl⟩
  · rw [clen, List.map_map]; rfl
  · rw [cpz, clen]; exact hg.shuffle_perm _ _
  · intro d hd
    rw [cr, clen]
    unfold radial at hrad
    rw [hd] at hrad
    simp only [Except.ok.injEq, Prod.mk.injEq] at hrad
    rw [← hrad.2.1]; exact hg.shuffle_perm _ _
  · intro d hd
    rw [cpr, cM, cr, clen]
    unfold momenta at hmom
    rw [hd] at hmom
    simp only [Except.ok.injEq, Prod.mk.injEq] at hmom
    refine ⟨by rw [← hmom.1]; exact hg.shuffle_perm _ _, M, by rw [← hmom.2.1]; exact hg.shuffle_perm _ _, rfl⟩
  · intro hd
    unfold radial at hrad
    rw [hd] at hrad
    simp only at hrad
    cases hxa : a.x with
    | none => rw [hxa] at hrad; cases hrad
    | some x =>
    rw [hxa] at hrad
    simp only [Except.ok.injEq, Prod.mk.injEq] at hrad
    obtain ⟨e1, e2, -⟩ := hrad
    have hXP := hg.shuffle_perm s (x n)
    have hYP := hg.shuffle_perm (g.shuffle s (x n)).2 ((a.y.getD x) n)
    have hXl : (g.shuffle s (x n)).1.length = n := by rw [hXP.length_eq, hx x hxa]
    have hYl : (g.shuffle (g.shuffle s (x n)).2 ((a.y.getD x) n)).1.length = n := by
      rw [hYP.length_eq]
      cases hya : a.y with
      | none => exact hx x hxa n
      | some e => exact hy e hya n
    generalize (g.shuffle (g.shuffle s (x n)).2 ((a.y.getD x) n)).1 = Y at *
    generalize (g.shuffle s (x n)).1 = X at *
    have er : ∀ i, i < n → r.getD i 0 = Real.sqrt (X.getD i 0 ^ 2 + Y.getD i 0 ^ 2) := by
      intro i hi
      rw [← e2]
      simp [List.getD_eq_getElem?_getD, hi, hXl, hYl]
    have row : ∀ i p, ((List.range n).map (rowAt a.qm (charge a) xi r (g.shuffle s2 (a.pz n)).1 pr M))[i]? = some p → i < n ∧ p = rowAt a.qm (charge a) xi r (g.shuffle s2 (a.pz n)).1 pr M i := by
      intro i p hi
      have hlt : i < n := by
        by_contra hc
        rw [List.getElem?_eq_none (by simpa using hc)] at hi
        cases hi
      rw [List.getElem?_map, List.getElem?_range hlt] at hi
      exact ⟨hlt, by simpa using hi.symm⟩
    refine ⟨x, X, Y, rfl, by rw [clen]; exact hXP, by rw [clen]; exact hYP, ?_, ?_⟩
    · intro i p hi
      obtain ⟨hlt, rfl⟩ := row i p hi
      exact er i hlt
    · intro ha
      unfold momenta at hmom
      rw [ha] at hmom
      simp only at hmom
      rw [← e1] at hmom
      cases hpx : a.px with
      | none => rw [hpx] at hmom; cases hmom
      | some px =>
      rw [hpx] at hmom
      simp only [Except.ok.injEq, Prod.mk.injEq] at hmom
      obtain ⟨m1, m2, -⟩ := hmom
      refine ⟨px, (g.shuffle s1 (px n)).1, (g.shuffle (g.shuffle s1 (px n)).2 ((a.py.getD px) n)).1, rfl, by rw [clen]; exact hg.shuffle_perm _ _, by rw [clen]; exact hg.shuffle_perm _ _, ?_⟩
      generalize (g.shuffle (g.shuffle s1 (px n)).2 ((a.py.getD px) n)).1 = PY at *
      generalize (g.shuffle s1 (px n)).1 = PX at *
      intro i p hi hpos
      obtain ⟨hlt, rfl⟩ := row i p hi
      simp only [rowAt] at hpos ⊢
      rw [← m1, ← m2]
      simp only [List.getD_eq_getElem?_getD, List.getElem?_map, List.getElem?_range hlt, Option.map_some, Option.getD_some]
      simp only [← List.getD_eq_getElem?_getD]
      rw [er i hlt] at hpos ⊢
      exact polar _ _ _ _ hpos

/-- C77: which cylindrical beams are made: radii from a radial or a plane distribution, momenta from angles or, for a plane distribution only, from transverse momenta. -/
theorem makeBeam2_succeeds (g : Rand S) (cfg : Cfg) (a : Args) (s : S) (hw : ¬ (a.qm = 1 ∧ a.current > 0)) (hs : a.savehead = false) (ht : a.saveto = false) (hg : cfg.geometry = "c" ∨ cfg.geometry = "circ") :
    (∃ rows s', makeBeam2 g cfg a s = .ok (.two rows, s')) ↔ (a.r.isSome ∨ a.x.isSome) ∧ (a.ang.isSome ∨ (a.r = none ∧ a.x.isSome ∧ a.px.isSome)) := by
  have e : makeBeam2 g cfg a s = circ g cfg a s := by
    unfold makeBeam2 branch
    rw [if_neg hw, if_neg (by simp [ht]), if_pos hg]
    cases circ g cfg a s with
    | error e => rfl
    | ok o => simp [finish, hs, ht]
  rw [e]
  unfold circ radial momenta
  cases a.r <;> cases a.x <;> cases a.ang <;> cases a.px <;> simp [bind, Except.bind, pure, Except.pure]

/-- C77 (finding): made from plane distributions of position and momentum every particle off the axis gets an angular momentum of the same sign: M = |x p_y - y p_x|. So a beam without rotation becomes a rotating one. -/
theorem rotates_one_way (g : Rand S) (hg : g.Valid) (cfg : Cfg) (a : Args) (s s' : S) (rows : List (Particle ℝ)) (h : makeBeam2 g cfg a s = .ok (.two rows, s'))
    (hpz : ∀ n, (a.pz n).length = n) (hx : ∀ d, a.x = some d → ∀ n, (d n).length = n) (hy : ∀ d, a.y = some d → ∀ n, (d n).length = n) (hr : a.r = none) (ha : a.ang = none) :
    ∀ p ∈ rows, 0 < p.r → 0 ≤ p.M := by
  obtain ⟨beam, rfl, hm⟩ := makeBeam2_two g hg cfg a s s' rows h hpz (by simp [hr]) (by simp [ha]) hx hy
  intro p hp hpos
  rw [List.mem_append] at hp
  rcases hp with hp | hp
  · obtain ⟨x, X, Y, -, -, -, -, h2⟩ := hm.plane hr
    obtain ⟨px, PX, PY, -, -, -, h3⟩ := h2 ha
    obtain ⟨i, hi⟩ := List.mem_iff_getElem?.mp hp
    rw [(h3 i p hi hpos).2]
    exact abs_nonneg _
  · rw [List.mem_singleton] at hp
    subst hp
    simp [stub] at hpos

/-- A 3d beam made as ordered, the rows without the stub. -/
structure Made3 (cfg : Cfg) (a : Args) (rows : List Row3) : Prop where
  head : (rows.map Row3.xi).Pairwise (fun u v => v ≤ u)
  xi : InWindow cfg a (rows.map Row3.xi)
  same : ∀ p ∈ rows, p.qm = a.qm ∧ p.q = 2 * a.current / 17.03331478052319 / a.perLayer
  ids : rows.map Row3.id = List.range rows.length
  pz : (rows.map Row3.pz).Perm (a.pz rows.length)
  x : ∃ d, a.x = some d ∧ (rows.map Row3.x).Perm (d rows.length) ∧ (rows.map Row3.y).Perm ((a.y.getD d) rows.length)
  px : ∃ d, a.px = some d ∧ (rows.map Row3.px).Perm (d rows.length) ∧ (rows.map Row3.py).Perm ((a.py.getD d) rows.length)

/-- C77: the same in 3d. -/
theorem makeBeam2_three (g : Rand S) (hg : g.Valid) (cfg : Cfg) (a : Args) (s s' : S) (rows : List Row3) (h : makeBeam2 g cfg a s = .ok (.three rows, s'))
    (hl : ∀ d, (d = a.pz ∨ a.x = some d ∨ a.y = some d ∨ a.px = some d ∨ a.py = some d) → ∀ n, (d n).length = n) : ∃ beam : List Row3, rows = beam ++ [stub3] ∧ Made3 cfg a beam := by
  have hw : ¬ (a.qm = 1 ∧ a.current > 0) := by
    intro hw
    unfold makeBeam2 at h
    rw [if_pos hw] at h
    simp at h
  have hf : ¬ (a.saveto = true ∧ a.found = true) := by
    intro hf
    unfold makeBeam2 at h
    rw [if_neg hw, if_pos hf] at h
    cases h
  have hs : a.savehead = false := by
    by_contra hs
    obtain ⟨e, he⟩ := never_saved g cfg a s hw (Or.inr (by simpa using hs))
    rw [he] at h; cases h
  have ht : a.saveto = false := by
    by_contra hs
    obtain ⟨e, he⟩ := never_saved g cfg a s hw (Or.inl (by simpa using hs))
    rw [he] at h; cases h
  unfold makeBeam2 at h
  rw [if_neg hw, if_neg hf] at h
  have hb : branch g cfg a s = .ok (.three rows, s') := by
    revert h
    cases branch g cfg a s with
    | error e => intro h; cases h
    | ok o => simp only [finish, hs, ht]; intro h; simpa using h
  have hc : flat g cfg a s = .ok (.three rows, s') := by
    unfold branch at hb
    split at hb
    · unfold circ at hb
      cases hrad : radial g a (xis cfg a).length s with
      | error e => rw [hrad] at hb; cases hb
      | ok o =>
        rw [hrad] at hb
        simp only [bind, Except.bind] at hb
        cases hmom : momenta g a (xis cfg a).length o.1 o.2.1 o.2.2 with
        | error e => rw [hmom] at hb; cases hb
        | ok o => rw [hmom] at hb; simp [pure, Except.pure] at hb
    · split at hb
      · exact hb
      · cases hb
  obtain ⟨hp, hwin⟩ := xis_spec cfg a hs
  unfold flat at hc
  cases hx : a.x with
  | none => rw [hx] at hc; cases hc
  | some x =>
  cases hpx : a.px with
  | none => rw [hx, hpx] at hc; cases hc
  | some px =>
  rw [hx, hpx] at hc
  simp only [Except.ok.injEq, Prod.mk.injEq, Out.three.injEq] at hc
  generalize xis cfg a = xi at *
  generalize hn : xi.length = n at *
  have hyl : ((a.y.getD x) n).length = n := by
    cases hy : a.y with
    | none => exact hl x (by simp [hx]) n
    | some d => exact hl d (by simp [hy]) n
  have hpyl : ((a.py.getD px) n).length = n := by
    cases hy : a.py with
    | none => exact hl px (by simp [hpx]) n
    | some d => exact hl d (by simp [hy]) n
  have shuf : ∀ (t : S) (l : List ℝ), l.length = n → ((List.range n).map fun i => (g.shuffle t l).1.getD i 0).Perm l := by
    intro t l hl
    rw [map_range_getD _ ((hg.shuffle_perm _ _).length_eq.trans hl)]
    exact hg.shuffle_perm _ _
  refine ⟨_, hc.1.symm, ?_⟩
  refine ⟨?_, ?_, ?_, ?_, ?_, ⟨x, hx, ?_, ?_⟩, ⟨px, hpx, ?_, ?_⟩⟩
  · rw [List.map_map]; exact (map_range_getD xi hn).symm ▸ hp
  · rw [List.map_map]; exact (map_range_getD xi hn).symm ▸ hwin
  · intro p hp
    obtain ⟨i, -, rfl⟩ := List.mem_map.mp hp
    exact ⟨rfl, rfl⟩
  · rw [List.map_map]; simp [Function.comp_def]
  all_goals
    rw [List.map_map, List.length_map, List.length_range]
    apply shuf
  · exact hl _ (Or.inl rfl) n
  · exact hl x (by simp [hx]) n
  · exact hyl
  · exact hl px (by simp [hpx]) n
  · exact hpyl

/-! ### The distributions -/

/-- How many of 1, ..., n are above A and at most B. -/
theorem count_between (n : ℕ) (A B : ℝ) (h0 : 0 ≤ A) (hAB : A ≤ B) : (List.range n).countP (fun k : ℕ => decide (A < (k : ℝ) + 1 ∧ (k : ℝ) + 1 ≤ B)) = min n ⌊B⌋₊ - min n ⌊A⌋₊ := by
  have hm := Nat.floor_le_floor hAB
  induction n with
  | zero => simp
  | succ n ih =>
    rw [List.range_succ, List.countP_append, ih]
    have hA : A < (n : ℝ) + 1 ↔ ⌊A⌋₊ < n + 1 := by
      rw [Nat.floor_lt h0]; push_cast; rfl
    have hB : (n : ℝ) + 1 ≤ B ↔ n + 1 ≤ ⌊B⌋₊ := by
      rw [Nat.le_floor_iff (h0.trans hAB)]; push_cast; rfl
    have e : decide (A < (n : ℝ) + 1 ∧ (n : ℝ) + 1 ≤ B) = decide (⌊A⌋₊ < n + 1 ∧ n + 1 ≤ ⌊B⌋₊) := by rw [decide_eq_decide, hA, hB]
    rw [List.countP_singleton, e]
    by_cases hc : ⌊A⌋₊ < n + 1 ∧ n + 1 ≤ ⌊B⌋₊
    · rw [if_pos (by simpa using hc)]; omega
    · rw [if_neg (by simpa using hc)]; omega

/-- Quantiles of a distribution between p1 and p2 fill any interval in proportion to the probability of it, to within one particle. -/
theorem count_quantiles (ppf cdf : ℝ → ℝ) (p1 p2 : ℝ) (h12 : p1 < p2) (n : ℕ) (u v : ℝ) (huv : cdf u ≤ cdf v) (h1 : p1 ≤ cdf u) (h2 : cdf v ≤ p2)
    (hlt : ∀ p, p1 < p → p < p2 → (u < ppf p ↔ cdf u < p)) (hle : ∀ p, p1 < p → p < p2 → (ppf p ≤ v ↔ p ≤ cdf v)) :
    |(((quantiles ppf p1 p2 n).countP fun x => decide (u < x ∧ x ≤ v) : ℕ) : ℝ) - (n + 1) * ((cdf v - cdf u) / (p2 - p1))| ≤ 1 := by
  have hd : 0 < p2 - p1 := by linarith
  have hn : (0 : ℝ) < n + 1 := by positivity
  have hc : (quantiles ppf p1 p2 n).countP (fun x => decide (u < x ∧ x ≤ v)) =
      (List.range n).countP fun k : ℕ => decide ((cdf u - p1) * (n + 1) / (p2 - p1) < (k : ℝ) + 1 ∧ (k : ℝ) + 1 ≤ (cdf v - p1) * (n + 1) / (p2 - p1)) := by
    unfold quantiles
    rw [List.countP_map]
    apply List.countP_congr
    intro k hk
    rw [List.mem_range] at hk
    have hk' : (k : ℝ) + 1 ≤ n := by exact_mod_cast hk
    have b1 : p1 < p1 + (p2 - p1) * ((k : ℝ) + 1) / ((n : ℝ) + 1) := by
      have : 0 < (p2 - p1) * ((k : ℝ) + 1) / ((n : ℝ) + 1) := by positivity
      linarith
    have b2 : p1 + (p2 - p1) * ((k : ℝ) + 1) / ((n : ℝ) + 1) < p2 := by
      have : (p2 - p1) * ((k : ℝ) + 1) / ((n : ℝ) + 1) < p2 - p1 := by
        rw [div_lt_iff₀ hn]
        exact mul_lt_mul_of_pos_left (by linarith) hd
      linarith
    simp only [Function.comp_apply, decide_eq_true_eq]
    rw [hlt _ b1 b2, hle _ b1 b2, div_lt_iff₀ hd, le_div_iff₀ hd]
    rw [← sub_lt_iff_lt_add', ← le_sub_iff_add_le', lt_div_iff₀ hn, div_le_iff₀ hn]
    constructor <;> rintro ⟨x1, x2⟩ <;> constructor <;> linarith
  have e : (n + 1 : ℝ) * ((cdf v - cdf u) / (p2 - p1)) = (cdf v - p1) * (n + 1) / (p2 - p1) - (cdf u - p1) * (n + 1) / (p2 - p1) := by ring
  have hA : 0 ≤ (cdf u - p1) * (n + 1) / (p2 - p1) := div_nonneg (mul_nonneg (by linarith) hn.le) hd.le
  have hAB : (cdf u - p1) * (n + 1) / (p2 - p1) ≤ (cdf v - p1) * (n + 1) / (p2 - p1) := by
    apply div_le_div_of_nonneg_right _ hd.le
    exact mul_le_mul_of_nonneg_right (by linarith) hn.le
  have hB : (cdf v - p1) * (n + 1) / (p2 - p1) ≤ n + 1 := by
    rw [div_le_iff₀ hd, mul_comm]
    exact mul_le_mul_of_nonneg_left (by linarith) hn.le
  rw [hc, e, count_between n _ _ hA hAB]
  generalize (cdf u - p1) * (n + 1) / (p2 - p1) = A at *
  generalize (cdf v - p1) * (n + 1) / (p2 - p1) = B at *
  have fA := Nat.floor_le hA
  have fA' := Nat.lt_floor_add_one A
  have fB := Nat.floor_le (hA.trans hAB)
  have fB' := Nat.lt_floor_add_one B
  have hm := Nat.floor_le_floor hAB
  have hBn : ⌊B⌋₊ ≤ n + 1 := by
    have : ((⌊B⌋₊ : ℕ) : ℝ) ≤ ((n + 1 : ℕ) : ℝ) := by push_cast; linarith
    exact_mod_cast this
  generalize ⌊A⌋₊ = i at *
  generalize ⌊B⌋₊ = j at *
  rw [abs_le]
  rcases Nat.lt_or_ge n j with hj | hj
  · obtain rfl : j = n + 1 := by omega
    push_cast at fB fB'
    rcases Nat.lt_or_ge n i with hi | hi
    · obtain rfl : i = n + 1 := by omega
      push_cast at fA fA'
      rw [min_eq_left (by omega)]
      simp only [Nat.sub_self, Nat.cast_zero]
      constructor <;> linarith
    · rw [min_eq_left (by omega), min_eq_right hi, Nat.cast_sub hi]
      constructor <;> linarith
  · rw [min_eq_right hj, min_eq_right (by omega), Nat.cast_sub hm]
    constructor <;> linarith

/-- C77: the particles of `Gauss` are between med + sigma vmin and med + sigma vmax: the limits are counted from the centre, in units of sigma. -/
theorem gauss_range (T : Table) (med sigma vmin vmax : ℝ) (hs : 0 < sigma) (hv : vmin < vmax) (n : ℕ) : (gaussGen T med sigma (some vmin) (some vmax) n).length = n ∧
    ∀ x ∈ gaussGen T med sigma (some vmin) (some vmax) n, med + sigma * vmin < x ∧ x < med + sigma * vmax := by
  refine ⟨quantiles_length _ _ _ _, ?_⟩
  intro x hx
  unfold gaussGen quantiles at hx
  obtain ⟨k, hk, rfl⟩ := List.mem_map.mp hx
  rw [List.mem_range] at hk
  have hk' : (k : ℝ) + 1 ≤ n := by exact_mod_cast hk
  simp only [Option.elim_some]
  have hd : 0 < T.cdf vmax - T.cdf vmin := sub_pos.mpr (T.mono hv)
  have hn : (0 : ℝ) < n + 1 := by positivity
  have b1 : 0 < (T.cdf vmax - T.cdf vmin) * ((k : ℝ) + 1) / ((n : ℝ) + 1) := by positivity
  have b2 : (T.cdf vmax - T.cdf vmin) * ((k : ℝ) + 1) / ((n : ℝ) + 1) < T.cdf vmax - T.cdf vmin := by
    rw [div_lt_iff₀ hn]; exact mul_lt_mul_of_pos_left (by linarith) hd
  have hp := T.inv (T.cdf vmin + (T.cdf vmax - T.cdf vmin) * ((k : ℝ) + 1) / ((n : ℝ) + 1)) (by linarith [T.pos vmin]) (by linarith [T.lt_one vmax])
  have c1 : T.cdf vmin < T.cdf vmin + (T.cdf vmax - T.cdf vmin) * ((k : ℝ) + 1) / ((n : ℝ) + 1) := by linarith
  have c2 : T.cdf vmin + (T.cdf vmax - T.cdf vmin) * ((k : ℝ) + 1) / ((n : ℝ) + 1) < T.cdf vmax := by linarith
  generalize T.cdf vmin + (T.cdf vmax - T.cdf vmin) * ((k : ℝ) + 1) / ((n : ℝ) + 1) = p at *
  rw [← hp, T.mono.lt_iff_lt] at c1
  rw [← hp, T.mono.lt_iff_lt] at c2
  exact ⟨by have := mul_lt_mul_of_pos_left c1 hs; linarith, by have := mul_lt_mul_of_pos_left c2 hs; linarith⟩

/-- The probability that a normal variable with mean `med` and deviation `sigma` is in (u, v]. -/
noncomputable def share (T : Table) (med sigma u v : ℝ) : ℝ := T.cdf ((v - med) / sigma) - T.cdf ((u - med) / sigma)

/-- The probability that is inside the limits, in units of sigma from the centre. -/
noncomputable def inside (T : Table) (vmin vmax : Option ℝ) : ℝ := vmax.elim 1 T.cdf - vmin.elim 0 T.cdf

/-- C77: the particles of `Gauss` fill any interval inside the limits in proportion to its probability, to within one particle. -/
theorem gauss_count (T : Table) (med sigma : ℝ) (vmin vmax : Option ℝ) (hs : 0 < sigma) (hv : 0 < inside T vmin vmax) (n : ℕ) (u v : ℝ) (huv : u ≤ v)
    (h1 : ∀ z, vmin = some z → med + sigma * z ≤ u) (h2 : ∀ z, vmax = some z → v ≤ med + sigma * z) :
    |(((gaussGen T med sigma vmin vmax n).countP fun x => decide (u < x ∧ x ≤ v) : ℕ) : ℝ) - (n + 1) * (share T med sigma u v / inside T vmin vmax)| ≤ 1 := by
  have p0 : 0 ≤ vmin.elim 0 T.cdf := by cases vmin; exact le_rfl; exact (T.pos _).le
  have p1 : vmax.elim 1 T.cdf ≤ 1 := by cases vmax; exact le_rfl; exact (T.lt_one _).le
  unfold gaussGen share inside at *
  refine count_quantiles _ (fun x => T.cdf ((x - med) / sigma)) _ _ (by linarith) n u v ?_ ?_ ?_ ?_ ?_
  · exact T.mono.monotone (by gcongr)
  · cases vmin with
    | none => exact (T.pos _).le
    | some z => exact T.mono.monotone (by rw [le_div_iff₀ hs]; linarith [h1 z rfl])
  · cases vmax with
    | none => exact (T.lt_one _).le
    | some z => exact T.mono.monotone (by rw [div_le_iff₀ hs]; linarith [h2 z rfl])
  · intro p hp1 hp2
    have hi := T.inv p (by linarith) (by linarith)
    conv_rhs => rw [← hi]
    rw [T.mono.lt_iff_lt, div_lt_iff₀ hs]
    constructor <;> intro h <;> linarith
  · intro p hp1 hp2
    have hi := T.inv p (by linarith) (by linarith)
    conv_rhs => rw [← hi]
    rw [T.mono.le_iff_le, le_div_iff₀ hs]
    constructor <;> intro h <;> linarith

/-- C77 (finding): how many particles a layer of a beam with a `Gauss` longitudinal distribution gets. At the centre, where share = xi-step f0, it is particles-in-layer divided by the probability inside the limits: the beam is cut at the limits and what is cut off is added to the rest, so that
the current at the centre is the peak current only for `vmin = vmax = None`; with the default limits (-1, 0) it is 2.9 times as much. -/
theorem layer_count (T : Table) (cfg : Cfg) (a : Args) (sigma : ℝ) (vmin vmax : Option ℝ) (hxi : a.xi = gaussGen T a.xiMed sigma vmin vmax) (hs : 0 < sigma) (hv : 0 < inside T vmin vmax) (hp : 0 ≤ a.perLayer / cfg.xiStep / a.xiF0)
    (l : List ℝ) (hl : InWindow cfg a l) (u v : ℝ) (huv : u ≤ v) (hu : -cfg.window ≤ u) (hv0 : v ≤ 0) (h1 : ∀ z, vmin = some z → a.xiMed + sigma * z ≤ u) (h2 : ∀ z, vmax = some z → v ≤ a.xiMed + sigma * z) :
    |((l.countP fun x => decide (u < x ∧ x ≤ v) : ℕ) : ℝ) - a.perLayer / cfg.xiStep / a.xiF0 * (share T a.xiMed sigma u v / inside T vmin vmax)| ≤ 1 + 3 / 2 * (share T a.xiMed sigma u v / inside T vmin vmax) := by
  obtain ⟨p, hp', hperm⟩ := hl
  have hc : l.countP (fun x => decide (u < x ∧ x ≤ v)) = (a.xi (number cfg a)).countP fun x => decide (u < x ∧ x ≤ v) := by
    rw [hperm.countP_eq, List.countP_filter]
    apply List.countP_congr
    intro x _
    simp only [Bool.and_eq_true, decide_eq_true_eq, hp']
    constructor
    · exact fun h => h.1
    · exact fun h => ⟨h, by linarith [h.1], by linarith [h.2]⟩
  have hn : |((number cfg a : ℕ) : ℝ) - a.perLayer / cfg.xiStep / a.xiF0| ≤ 1 / 2 := by
    unfold number
    have h0 := Lcode.Py.pyRound_nonneg hp
    have := Lcode.Py.abs_pyRound_sub_le (a.perLayer / cfg.xiStep / a.xiF0)
    rwa [← Int.toNat_of_nonneg h0, Int.cast_natCast] at this
  have hG := gauss_count T a.xiMed sigma vmin vmax hs hv (number cfg a) u v huv h1 h2
  rw [hc, hxi]
  have hsh : 0 ≤ share T a.xiMed sigma u v / inside T vmin vmax := by
    apply div_nonneg _ hv.le
    unfold share
    exact sub_nonneg.mpr (T.mono.monotone (by gcongr))
  generalize share T a.xiMed sigma u v / inside T vmin vmax = w at *
  generalize a.perLayer / cfg.xiStep / a.xiF0 = m at *
  generalize ((number cfg a : ℕ) : ℝ) = N at *
  obtain ⟨g1, g2⟩ := abs_le.mp hG
  obtain ⟨n1, n2⟩ := abs_le.mp hn
  rw [abs_le]
  have k1 : (N - m) * w ≤ 1 / 2 * w := mul_le_mul_of_nonneg_right n2 hsh
  have k2 : -(1 / 2) * w ≤ (N - m) * w := mul_le_mul_of_nonneg_right n1 hsh
  constructor <;> linarith

/-- C77 (finding): `rGauss` does not use its sigma. The radii are always those of a beam in which the part inside the radius R is 1 - exp (-R²), that is sigma = 1/√2, cut at vmin and vmax. -/
theorem rGauss_ignores_sigma (sigma sigma' : ℝ) (vmin vmax : Option ℝ) : rGaussGen sigma vmin vmax = rGaussGen sigma' vmin vmax := rfl

theorem weibull_inv {p : ℝ} (h0 : 0 ≤ p) (h1 : p < 1) : 0 ≤ weibullPpf p ∧ 1 - Real.exp (-(weibullPpf p) ^ 2) = p := by
  have hl : 0 ≤ -Real.log (1 - p) := by linarith [Real.log_nonpos (by linarith : (0 : ℝ) ≤ 1 - p) (by linarith)]
  refine ⟨Real.sqrt_nonneg _, ?_⟩
  unfold weibullPpf
  rw [Real.sq_sqrt hl, neg_neg, Real.exp_log (by linarith)]
  ring

/-- The radial distribution of rGauss: how many of n particles are nearer to the axis than R. -/
theorem rGauss_count (sigma : ℝ) (n : ℕ) (R : ℝ) (hR : 0 ≤ R) : |(((rGaussGen sigma none none n).countP fun x => decide (0 < x ∧ x ≤ R) : ℕ) : ℝ) - (n + 1) * (1 - Real.exp (-R ^ 2))| ≤ 1 := by
  have hmono : ∀ x y : ℝ, 0 ≤ x → 0 ≤ y → (1 - Real.exp (-x ^ 2) ≤ 1 - Real.exp (-y ^ 2) ↔ x ≤ y) := by
    intro x y hx hy
    rw [sub_le_sub_iff_left, Real.exp_le_exp, neg_le_neg_iff, sq_le_sq₀ hx hy]
  have hpos : Real.exp (-R ^ 2) ≤ 1 := Real.exp_le_one_iff.mpr (by nlinarith [sq_nonneg R])
  have h := count_quantiles weibullPpf (fun x => 1 - Real.exp (-x ^ 2)) 0 1 (by norm_num) n 0 R (by simpa using hpos) (by simp) (by linarith [Real.exp_pos (-R ^ 2)])
    (by
      intro p h0 h1
      obtain ⟨q1, q2⟩ := weibull_inv h0.le h1
      simp only [ne_eq, OfNat.ofNat_ne_zero, not_false_eq_true, zero_pow, neg_zero, Real.exp_zero, sub_self]
      refine ⟨fun _ => h0, fun _ => ?_⟩
      rcases q1.lt_or_eq with h | h
      · exact h
      · rw [← h] at q2; simp at q2; linarith)
    (by
      intro p h0 h1
      obtain ⟨q1, q2⟩ := weibull_inv h0.le h1
      conv_rhs => rw [← q2]
      exact (hmono _ _ q1 hR).symm)
  unfold rGaussGen
  simpa using h

/-! ### Cases that meet the hypotheses -/

/-- The logistic distribution in place of the normal one: all that the theorems use. -/
noncomputable def logistic : Table where
  cdf z := 1 / (1 + Real.exp (-z))
  ppf p := -Real.log (1 / p - 1)
  mono := by
    intro x y h
    have := Real.exp_lt_exp.mpr (neg_lt_neg h)
    exact one_div_lt_one_div_of_lt (by positivity) (by linarith)
  pos z := by positivity
  lt_one z := by
    rw [div_lt_one (by positivity)]
    linarith [Real.exp_pos (-z)]
  inv p h0 h1 := by
    have : 0 < 1 / p - 1 := by rw [sub_pos, lt_div_iff₀ h0]; linarith
    rw [neg_neg, Real.exp_log this]
    field_simp
    ring

/-- No random numbers at all: the shuffle leaves a list as it is. -/
def noShuffle : Rand Unit := ⟨fun s n => (List.replicate n 0, s), fun s l => (l, s)⟩

theorem noShuffle_valid : noShuffle.Valid := ⟨by simp [noShuffle], by simp [noShuffle], by simp [noShuffle]⟩

/-- Electrons, -1 kA, distributions of positions and momenta in x and y. -/
noncomputable def someArgs : Args :=
  ⟨gaussGen logistic (-2) 1 none none, -2, gaussF0 1, quantiles (fun p => 1000 + logistic.ppf p) 0 1, 1000, -1, some (quantiles logistic.ppf 0 1), none, none, some (quantiles logistic.ppf 0 1), none, none, 1, 200, false, false, false⟩

example : ∃ rows s', makeBeam2 noShuffle ⟨"c", 5, 1 / 20⟩ someArgs () = .ok (.two rows, s') ∧ (∀ p ∈ rows, 0 < p.r → 0 ≤ p.M) ∧ ∃ beam : List (Particle ℝ), rows = beam ++ [stub] ∧ Made ⟨"c", 5, 1 / 20⟩ someArgs beam := by
  obtain ⟨rows, s', h⟩ := (makeBeam2_succeeds noShuffle ⟨"c", 5, 1 / 20⟩ someArgs () (by norm_num [someArgs]) rfl rfl (Or.inl rfl)).mpr (by simp [someArgs])
  have hpz : ∀ n, (someArgs.pz n).length = n := fun n => by simp [someArgs, quantiles_length]
  have hx : ∀ d, someArgs.x = some d → ∀ n, (d n).length = n := by
    intro d hd n
    simp only [someArgs, Option.some.injEq] at hd
    subst hd
    exact quantiles_length _ _ _ _
  exact ⟨rows, s', h, rotates_one_way _ noShuffle_valid _ _ _ _ _ h hpz hx (by simp [someArgs]) rfl rfl, makeBeam2_two _ noShuffle_valid _ _ _ _ _ h hpz (by simp [someArgs]) (by simp [someArgs]) hx (by simp [someArgs])⟩

example : makeBeam2 noShuffle ⟨"2d", 5, 1 / 20⟩ someArgs () = .error .unbound := geometry_2d _ _ _ _ (by norm_num [someArgs]) rfl (by decide)

/-- A layer from -2.05 to -2 of a beam of 200 particles per layer. -/
example (l : List ℝ) (hl : InWindow ⟨"c", 5, 1 / 20⟩ someArgs l) :
    |((l.countP fun x => decide (-2.05 < x ∧ x ≤ (-2 : ℝ)) : ℕ) : ℝ) - 200 / (1 / 20) / gaussF0 1 * (share logistic (-2) 1 (-2.05) (-2) / inside logistic none none)| ≤ 1 + 3 / 2 * (share logistic (-2) 1 (-2.05) (-2) / inside logistic none none) :=
  layer_count logistic ⟨"c", 5, 1 / 20⟩ someArgs 1 none none rfl (by norm_num) (by simp [inside])
    (div_nonneg (by norm_num [someArgs]) (by show 0 ≤ gaussF0 1; unfold gaussF0; positivity)) l hl _ _ (by norm_num) (by norm_num) (by norm_num) (by simp) (by simp)

end Lcode.Legacy.Two
