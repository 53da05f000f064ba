import Verif.Legacy.Layers

/-!
Model of lcode/beam_generator/beam_generator.py:27-109 (make_beam, make_beam_from_c_beam_profile) and beam_profiles.py:141-183 (distrs_from_shapes). Property C57.
-/

namespace Lcode.Legacy

open Lcode.Beam2D (Particle)

variable {S : Type}

/-- The options that make_beam reads from its config. -/
structure Cfg where
  geometry : String
  window : ℝ
  xiStep : ℝ

/-- The dict `distrs`: the longitudinal distribution with its amplitude and four others. -/
structure Distrs (S : Type) where
  xi : ℝ → ℝ → S → Except Err (List ℝ × S)
  amp : ℝ
  r : ℕ → List ℝ
  pz : ℕ → List ℝ
  pr : ℕ → List ℝ
  M : ℕ → List ℝ

/-- `np.sort(xi)[::-1]`, beam_generator.py:50 -/
noncomputable def sortDown (l : List ℝ) : List ℝ := l.mergeSort fun a b => decide (b ≤ a)

/-- The stub, beam_generator.py:65-68. -/
def stub : Particle ℝ := ⟨-100000, 0, 0, 0, 0, 1, 0, 0⟩

/-- One line of the particle array, beam_generator.py:57-65; the last distribution is multiplied by the radius (:57-58). -/
noncomputable def rowAt (qm q : ℝ) (xi r pz pr M : List ℝ) (i : ℕ) : Particle ℝ :=
  ⟨xi.getD i 0, r.getD i 0, pz.getD i 0, pr.getD i 0, M.getD i 0 * r.getD i 0, qm, q, i⟩

open Classical in
/-- make_beam, beam_generator.py:27-82, with `saveto = False` and `savehead = False` (as it is called at :93-96). With the distributions of distrs_from_shapes, geometry `3d` asks for `x` (KeyError, after the longitudinal distribution is drawn), `p` has no dtype and all others no list of distributions. -/
noncomputable def makeBeam (g : Rand S) (cfg : Cfg) (d : Distrs S) (qm p : ℝ) (s : S) : Except Err (List (Particle ℝ) × S) :=
  if cfg.geometry = "c" ∨ cfg.geometry = "circ" then do
    let (drawn, s) ← d.xi p cfg.xiStep s
    let xi := sortDown (drawn.filter fun x => decide (-cfg.window ≤ x ∧ x ≤ 0))
    let r := g.shuffle s (d.r xi.length)
    let pz := g.shuffle r.2 (d.pz xi.length)
    let pr := g.shuffle pz.2 (d.pr xi.length)
    let M := g.shuffle pr.2 (d.M xi.length)
    pure ((List.range xi.length).map (rowAt qm (2 * d.amp / p) xi r.1 pz.1 pr.1 M.1) ++ [stub], M.2)
  else if cfg.geometry = "3d" then do
    let _ ← d.xi p cfg.xiStep s
    .error .keyError
  else .error .keyError

/-- `segment[k]`, a number. -/
def Segment.num (seg : Segment) (k : String) : Except Err ℝ :=
  match seg k with
  | some (.num x) => .ok x
  | some (.text _) => .error .typeError
  | none => .error .keyError

/-- `segment[k]` used as the key of a table of shapes. -/
def Segment.key {α : Type} (seg : Segment) (k : String) (table : String → Option α) : Except Err α :=
  match seg k with
  | some (.text n) => match table n with | some a => .ok a | none => .error .keyError
  | _ => .error .keyError

/-- rshape_to_distr, beam_profiles.py:153-156 -/
noncomputable def rTable : String → Option (ℝ → ℕ → List ℝ)
  | "g" => some fun radius => quantiles (rPpf radius) 0 1
  | _ => none

/-- angshape_to_distr, beam_profiles.py:157-162; `z` is the quantile function of the standard normal distribution. -/
noncomputable def angTable (z : ℝ → ℝ) : String → Option (ℝ → ℝ → ℕ → List ℝ)
  | "g" => some fun angspread energy => quantiles (fun p => 0 + energy * angspread * z p) 0 1
  | "l" => some fun angspread energy => quantiles (fun p => 0 + energy * angspread * z p) 0 1
  | _ => none

/-- eshape_to_distr, beam_profiles.py:163-168. (scipy returns nan for a spread of zero; here the quantiles are then all equal.) -/
noncomputable def eTable (z : ℝ → ℝ) : String → Option (ℝ → ℝ → ℕ → List ℝ)
  | "g" => some fun energy espread => quantiles (fun p => energy + espread * z p) 0 1
  | "m" => some fun energy _ => quantiles (fun p => energy + 1e-15 * z p) 0 1
  | _ => none

/-- distrs_from_shapes, beam_profiles.py:171-183 -/
noncomputable def distrsFromShapes (g : Rand S) (z : ℝ → ℝ) (seg : Segment) (current : ℝ) : Except Err (Distrs S) := do
  let f ← seg.key "xishape" xiProfile
  let xi0 ← seg.num "xi0"
  let len ← seg.num "length"
  let ampl ← seg.num "ampl"
  let r ← seg.key "rshape" rTable
  let radius ← seg.num "radius"
  let e ← seg.key "eshape" (eTable z)
  let energy ← seg.num "energy"
  let espread ← seg.num "espread"
  let a ← seg.key "angshape" (angTable z)
  let angspread ← seg.num "angspread"
  pure ⟨fun p dxi s => stepwiseXi g (f xi0 len) xi0 (xi0 - len) xi0 p dxi s, ampOf (f xi0 len) xi0 (ampl * current), r radius, e energy espread, a angspread energy, a angspread energy⟩

/-- One turn of the loop over the segments, beam_generator.py:92-96: `new_beam`. -/
noncomputable def segmentBeam (g : Rand S) (z : ℝ → ℝ) (cfg : Cfg) (current p : ℝ) (seg : Option Segment) (s : S) : Except Err (List (Particle ℝ) × S) :=
  match seg with
  | none => .error .typeError
  | some seg => do
    let d ← distrsFromShapes g z seg current
    let mq ← seg.num "m/q"
    if mq = 0 then .error .zeroDivision else makeBeam g cfg d (1 / mq) p s

/-- beam_generator.py:97-100: `beam = new_beam` or `np.hstack([beam[:-1], new_beam])`. -/
def addBeam (beam : Option (List (Particle ℝ))) (new : List (Particle ℝ)) : List (Particle ℝ) :=
  match beam with
  | none => new
  | some b => b.dropLast ++ new

/-- The loop over the segments, beam_generator.py:90-100: `beam[:-1]` of what there is, then the new beam with its stub. -/
noncomputable def joinBeams (g : Rand S) (z : ℝ → ℝ) (cfg : Cfg) (current p : ℝ) : List (Option Segment) → Option (List (Particle ℝ)) → S → Except Err (Option (List (Particle ℝ)) × S)
  | [], beam, s => .ok (beam, s)
  | seg :: t, beam, s => do
    let (new, s) ← segmentBeam g z cfg current p seg s
    joinBeams g z cfg current p t (some (addBeam beam new)) s

open Classical in
/-- make_beam_from_c_beam_profile behind the reading of the text, beam_generator.py:90-109: the beam that is returned (and saved), and the head that is saved with `savehead`. `sorter` is `beam[::-1].sort(order='xi')` (:101). -/
noncomputable def beamFromSegments (g : Rand S) (z : ℝ → ℝ) (sorter : List (Particle ℝ) → List (Particle ℝ)) (cfg : Cfg) (current p : ℝ) (segs : List (Option Segment)) (s : S) : Except Err (List (Particle ℝ) × List (Particle ℝ)) := do
  let (beam, _) ← joinBeams g z cfg current p segs none s
  match beam with
  | none => .error .typeError
  | some b => pure ((sorter b).filter (fun q => decide (q.xi ≤ 0)), (sorter b).filter fun q => decide (q.xi > 0))

/-! ### Specification -/

/-- What a sort by xi in descending order does. -/
structure SortsDown (sorter : List (Particle ℝ) → List (Particle ℝ)) : Prop where
  perm : ∀ l, (sorter l).Perm l
  sorted : ∀ l, (sorter l).Pairwise fun a b => b.xi ≤ a.xi

/-- The numbers a segment is made of. -/
structure SegPar where
  f : ℝ → ℝ → ℝ → ℝ
  xi0 : ℝ
  len : ℝ
  ampl : ℝ
  mq : ℝ
  radius : ℝ
  energy : ℝ
  spread : ℝ
  angle : ℝ

/-- The energy spread of a segment: as written for the shape `g`, almost none for the shape `m`. -/
def SpreadOf (seg : Segment) (x : ℝ) : Prop := seg "eshape" = some (.text "g") ∧ seg "espread" = some (.num x) ∨ seg "eshape" = some (.text "m") ∧ x = 1e-15

/-- A segment with these numbers. -/
def Describes (seg : Segment) (q : SegPar) : Prop :=
  (∃ n, seg "xishape" = some (.text n) ∧ xiProfile n = some q.f) ∧ seg "xi0" = some (.num q.xi0) ∧ seg "length" = some (.num q.len) ∧ seg "ampl" = some (.num q.ampl) ∧ seg "m/q" = some (.num q.mq) ∧ seg "radius" = some (.num q.radius) ∧
    seg "energy" = some (.num q.energy) ∧ SpreadOf seg q.spread ∧ seg "angspread" = some (.num q.angle)

variable {z : ℝ → ℝ}

/-- The coordinates drawn for a segment: for each layer of the grid between its rounded ends as many as the profile in the middle of the layer says, inside the layer. -/
def Drawn (q : SegPar) (p dxi : ℝ) (out : List (List ℝ)) : Prop :=
  List.Forall₂ (fun (k : ℤ) (l : List ℝ) => (l.length : ℤ) = ⌊p * q.f q.xi0 q.len (((k : ℝ) - 1 / 2) * dxi)⌋ ∧ ∀ x ∈ l, ((k : ℝ) - 1) * dxi ≤ x ∧ x < (k : ℝ) * dxi) (layersOf ⌊q.xi0 / dxi⌋ ⌊(q.xi0 - q.len) / dxi⌋) out

open Classical in
/-- The particles of one segment; `z` is the quantile function of the standard normal distribution. The angular momentum is a second normally distributed transverse momentum times the radius. -/
structure FromSegment (z : ℝ → ℝ) (cfg : Cfg) (current p : ℝ) (q : SegPar) (rows : List (Particle ℝ)) : Prop where
  xi : ∃ out, Drawn q p cfg.xiStep out ∧ (rows.map Particle.xi).Perm (out.flatten.filter fun x => decide (-cfg.window ≤ x ∧ x ≤ 0))
  sorted : rows.Pairwise fun a b => b.xi ≤ a.xi
  qm : ∀ a ∈ rows, a.qm = 1 / q.mq
  charge : ∀ a ∈ rows, a.qnorm = 2 * (if q.ampl * current = 0 then 1 else q.ampl * current) / p
  ids : rows.map Particle.id = (List.range rows.length).map fun i : ℕ => (i : ℤ)
  radii : (rows.map Particle.r).Perm (quantiles (rPpf q.radius) 0 1 rows.length)
  energies : (rows.map Particle.pz).Perm (quantiles (fun p => q.energy + q.spread * z p) 0 1 rows.length)
  radial : (rows.map Particle.pr).Perm (quantiles (fun p => q.energy * q.angle * z p) 0 1 rows.length)
  angular : ∃ l, l.Perm (quantiles (fun p => q.energy * q.angle * z p) 0 1 rows.length) ∧ rows.map Particle.M = List.zipWith (· * ·) l (rows.map Particle.r)

/-! ### One segment -/

theorem bind_ok {α β : Type} {x : Except Err α} {f : α → Except Err β} {b : β} (h : (x >>= f) = .ok b) : ∃ a, x = .ok a ∧ f a = .ok b := by
  cases x with
  | error e => cases h
  | ok a => exact ⟨a, rfl, h⟩

theorem num_ok {seg : Segment} {k : String} {x : ℝ} (h : seg.num k = .ok x) : seg k = some (.num x) := by
  unfold Segment.num at h
  split at h
  · rename_i y hy; rw [hy]; cases h; rfl
  · cases h
  · cases h

theorem key_ok {α : Type} {seg : Segment} {k : String} {t : String → Option α} {a : α} (h : seg.key k t = .ok a) : ∃ n, seg k = some (.text n) ∧ t n = some a := by
  unfold Segment.key at h
  split at h
  · rename_i n hn
    split at h
    · rename_i b hb; cases h; exact ⟨n, hn, hb⟩
    · cases h
  · cases h

theorem rTable_some {n : String} {r : ℝ → ℕ → List ℝ} (h : rTable n = some r) : r = fun radius => quantiles (rPpf radius) 0 1 := by
  unfold rTable at h
  split at h
  · exact (Option.some.inj h).symm
  · cases h

theorem eTable_some {z : ℝ → ℝ} {n : String} {e : ℝ → ℝ → ℕ → List ℝ} (h : eTable z n = some e) : n = "g" ∧ (e = fun energy espread => quantiles (fun p => energy + espread * z p) 0 1) ∨ n = "m" ∧ e = fun energy _ => quantiles (fun p => energy + 1e-15 * z p) 0 1 := by
  unfold eTable at h
  split at h
  · exact Or.inl ⟨rfl, (Option.some.inj h).symm⟩
  · exact Or.inr ⟨rfl, (Option.some.inj h).symm⟩
  · cases h

theorem angTable_some {z : ℝ → ℝ} {n : String} {a : ℝ → ℝ → ℕ → List ℝ} (h : angTable z n = some a) : a = fun angspread energy => quantiles (fun p => energy * angspread * z p) 0 1 := by
  unfold angTable at h
  split at h
  · rw [← Option.some.inj h]; simp only [zero_add]
  · rw [← Option.some.inj h]; simp only [zero_add]
  · cases h

theorem zip_range (M R : List ℝ) (n : ℕ) (hM : M.length = n) (hR : R.length = n) : (List.range n).map (fun i => M.getD i 0 * R.getD i 0) = List.zipWith (· * ·) M R := by
  apply List.ext_getElem
  · simp [hM, hR]
  · intro i h1 h2
    simp only [List.length_map, List.length_range] at h1
    simp only [List.getElem_map, List.getElem_range, List.getElem_zipWith]
    rw [List.getD_eq_getElem _ _ (by omega), List.getD_eq_getElem _ _ (by omega)]

theorem sortDown_perm (l : List ℝ) : (sortDown l).Perm l := List.mergeSort_perm _ _

theorem sortDown_sorted (l : List ℝ) : (sortDown l).Pairwise fun a b => b ≤ a := by
  have := List.pairwise_mergeSort (le := fun a b : ℝ => decide (b ≤ a)) (by intro a b c h1 h2; simp only [decide_eq_true_eq] at *; linarith)
    (by intro a b; simp only [Bool.or_eq_true, decide_eq_true_eq]; exact le_total b a) l
  exact this.imp fun h => by simpa using h

theorem map_getD_range (l : List ℝ) : (List.range l.length).map (fun i => l.getD i 0) = l := by
  apply List.ext_getElem
  · simp
  · intro i h1 h2
    simp only [List.getElem_map, List.getElem_range]
    exact List.getD_eq_getElem _ _ h2

theorem ampOf_profile {name : String} {f : ℝ → ℝ → ℝ → ℝ} (h : xiProfile name = some f) (xi0 len a : ℝ) : ampOf (f xi0 len) xi0 a = if a = 0 then 1 else a := by
  unfold ampOf
  by_cases h0 : a = 0
  · rw [if_neg (by simpa using h0), if_pos h0, (profile_range name f h xi0 len xi0).2.2]
  · rw [if_pos h0, if_neg h0]

theorem stepwise_ok (g : Rand S) (f : ℝ → ℝ) (xiMax vmin vmax p dxi : ℝ) (s : S) (l : List ℝ) (s' : S) (h : stepwiseXi g f xiMax vmin vmax p dxi s = .ok (l, s')) :
    ∃ out, drawLayers g f xiMax p dxi (intervals vmin vmax dxi) s = .ok (out, s') ∧ l = out.flatten := by
  unfold stepwiseXi at h
  obtain ⟨⟨out, so⟩, h1, h2⟩ := bind_ok h
  simp only at h2
  split at h2
  · cases h2
  · simp only [pure, Except.pure, Except.ok.injEq, Prod.mk.injEq] at h2
    exact ⟨out, by rw [← h2.2]; exact h1, h2.1.symm⟩

theorem segmentBeam_spec (g : Rand S) (hg : g.Valid) (z : ℝ → ℝ) (cfg : Cfg) (hd : 0 < cfg.xiStep) (current p : ℝ) (hp : 0 ≤ p) (seg : Option Segment) (s : S) (new : List (Particle ℝ)) (s' : S)
    (h : segmentBeam g z cfg current p seg s = .ok (new, s')) : ∃ sg q rows, seg = some sg ∧ Describes sg q ∧ new = rows ++ [stub] ∧ FromSegment z cfg current p q rows := by
  classical
  cases seg with
  | none => cases h
  | some sg =>
    unfold segmentBeam at h
    simp only at h
    obtain ⟨d, hdist, h⟩ := bind_ok h
    obtain ⟨mq, hmq, h⟩ := bind_ok h
    by_cases h0 : mq = 0
    · rw [if_pos h0] at h; cases h
    rw [if_neg h0] at h
    unfold distrsFromShapes at hdist
    obtain ⟨f, hf, hdist⟩ := bind_ok hdist
    obtain ⟨xi0, hxi0, hdist⟩ := bind_ok hdist
    obtain ⟨len, hlen, hdist⟩ := bind_ok hdist
    obtain ⟨ampl, hampl, hdist⟩ := bind_ok hdist
    obtain ⟨r, hr, hdist⟩ := bind_ok hdist
    obtain ⟨radius, hradius, hdist⟩ := bind_ok hdist
    obtain ⟨e, he, hdist⟩ := bind_ok hdist
    obtain ⟨energy, henergy, hdist⟩ := bind_ok hdist
    obtain ⟨espread, hespread, hdist⟩ := bind_ok hdist
    obtain ⟨a, ha, hdist⟩ := bind_ok hdist
    obtain ⟨angspread, hang, hdist⟩ := bind_ok hdist
    obtain ⟨n, hn, hfn⟩ := key_ok hf
    obtain ⟨nr, -, hrn⟩ := key_ok hr
    have hrt := rTable_some hrn
    obtain ⟨ne, hne, hen⟩ := key_ok he
    obtain ⟨na, -, han⟩ := key_ok ha
    have hat := angTable_some han
    have hsp : ∃ sp, SpreadOf sg sp ∧ ∀ k, e energy espread k = quantiles (fun p => energy + sp * z p) 0 1 k := by
      rcases eTable_some hen with ⟨rfl, rfl⟩ | ⟨rfl, rfl⟩
      · exact ⟨espread, Or.inl ⟨hne, num_ok hespread⟩, fun _ => rfl⟩
      · exact ⟨1e-15, Or.inr ⟨hne, rfl⟩, fun _ => rfl⟩
    obtain ⟨sp, hsp, hesp⟩ := hsp
    cases hdist
    unfold makeBeam at h
    by_cases hgeo : cfg.geometry = "c" ∨ cfg.geometry = "circ"
    · rw [if_pos hgeo] at h
      obtain ⟨⟨drawn, sd⟩, hdr, h⟩ := bind_ok h
      obtain ⟨out, hout, rfl⟩ := stepwise_ok g _ _ _ _ _ _ _ _ _ hdr
      rw [intervals_eq _ _ _ hd] at hout
      have hspec := drawLayers_spec g hg _ _ _ _ hd _ _ _ _ hout
      simp only [pure, Except.pure, Except.ok.injEq, Prod.mk.injEq] at h
      set xi := sortDown (out.flatten.filter fun x => decide (-cfg.window ≤ x ∧ x ≤ 0)) with hxi
      set R := g.shuffle sd (r radius xi.length) with hR
      set PZ := g.shuffle R.2 (e energy espread xi.length)
      set PR := g.shuffle PZ.2 (a angspread energy xi.length)
      set MM := g.shuffle PR.2 (a angspread energy xi.length)
      refine ⟨sg, ⟨f, xi0, len, ampl, mq, radius, energy, sp, angspread⟩, (List.range xi.length).map (rowAt (1 / mq) (2 * ampOf (f xi0 len) xi0 (ampl * current) / p) xi R.1 PZ.1 PR.1 MM.1), rfl,
        ⟨⟨n, hn, hfn⟩, num_ok hxi0, num_ok hlen, num_ok hampl, num_ok hmq, num_ok hradius, num_ok henergy, hsp, num_ok hang⟩, h.1.symm, ?_⟩
      have hmapxi : ((List.range xi.length).map (rowAt (1 / mq) (2 * ampOf (f xi0 len) xi0 (ampl * current) / p) xi R.1 PZ.1 PR.1 MM.1)).map Particle.xi = xi := by
        rw [List.map_map]
        exact map_getD_range xi
      have hlenR : R.1.length = xi.length := by
        rw [(hg.shuffle_perm _ _).length_eq, hrt, quantiles_length]
      have hmapr : ((List.range xi.length).map (rowAt (1 / mq) (2 * ampOf (f xi0 len) xi0 (ampl * current) / p) xi R.1 PZ.1 PR.1 MM.1)).map Particle.r = R.1 := by
        rw [List.map_map, ← hlenR]; exact map_getD_range R.1
      have hlenPZ : PZ.1.length = xi.length := by rw [(hg.shuffle_perm _ _).length_eq, hesp, quantiles_length]
      have hlenPR : PR.1.length = xi.length := by rw [(hg.shuffle_perm _ _).length_eq, hat, quantiles_length]
      have hlenM : MM.1.length = xi.length := by rw [(hg.shuffle_perm _ _).length_eq, hat, quantiles_length]
      refine ⟨⟨out, ?_, ?_⟩, ?_, ?_, ?_, ?_, ?_, ?_, ?_, MM.1, ?_, ?_⟩
      · unfold Drawn
        simp only [layerCount_profile n f hfn xi0 len p _ hp] at hspec
        exact hspec
      · rw [hmapxi, hxi]; exact sortDown_perm _
      · have := sortDown_sorted (out.flatten.filter fun x => decide (-cfg.window ≤ x ∧ x ≤ 0))
        rw [← hxi, ← hmapxi, List.pairwise_map] at this
        exact this
      · intro b hb
        obtain ⟨i, -, rfl⟩ := List.mem_map.mp hb
        rfl
      · intro b hb
        obtain ⟨i, -, rfl⟩ := List.mem_map.mp hb
        show 2 * ampOf (f xi0 len) xi0 (ampl * current) / p = _
        rw [ampOf_profile hfn]
      · rw [List.length_map, List.length_range, List.map_map]; rfl
      · rw [List.length_map, List.length_range, List.map_map]
        have : (List.range xi.length).map (Particle.r ∘ rowAt (1 / mq) (2 * ampOf (f xi0 len) xi0 (ampl * current) / p) xi R.1 PZ.1 PR.1 MM.1) = R.1 := by
          rw [← hlenR]; exact map_getD_range R.1
        rw [this]
        refine (hg.shuffle_perm _ _).trans (List.Perm.of_eq ?_)
        rw [hrt]
      · rw [List.length_map, List.length_range, List.map_map]
        have : (List.range xi.length).map (Particle.pz ∘ rowAt (1 / mq) (2 * ampOf (f xi0 len) xi0 (ampl * current) / p) xi R.1 PZ.1 PR.1 MM.1) = PZ.1 := by
          rw [← hlenPZ]; exact map_getD_range PZ.1
        rw [this]
        exact (hg.shuffle_perm _ _).trans (List.Perm.of_eq (hesp _))
      · rw [List.length_map, List.length_range, List.map_map]
        have : (List.range xi.length).map (Particle.pr ∘ rowAt (1 / mq) (2 * ampOf (f xi0 len) xi0 (ampl * current) / p) xi R.1 PZ.1 PR.1 MM.1) = PR.1 := by
          rw [← hlenPR]; exact map_getD_range PR.1
        rw [this]
        exact (hg.shuffle_perm _ _).trans (List.Perm.of_eq (by rw [hat]))
      · rw [List.length_map, List.length_range]
        exact (hg.shuffle_perm _ _).trans (List.Perm.of_eq (by rw [hat]))
      · rw [hmapr, List.map_map]
        exact zip_range MM.1 R.1 xi.length hlenM hlenR
    · rw [if_neg hgeo] at h
      by_cases h3 : cfg.geometry = "3d"
      · rw [if_pos h3] at h
        obtain ⟨x, -, h⟩ := bind_ok h
        cases h
      · rw [if_neg h3] at h; cases h

/-! ### All segments -/

/-- The particles of the segments, one list per segment. -/
def Parts (z : ℝ → ℝ) (cfg : Cfg) (current p : ℝ) (segs : List (Option Segment)) (qs : List SegPar) (parts : List (List (Particle ℝ))) : Prop :=
  List.Forall₂ (fun seg q => ∃ sg, seg = some sg ∧ Describes sg q) segs qs ∧ List.Forall₂ (FromSegment z cfg current p) qs parts

theorem joinBeams_spec (g : Rand S) (hg : g.Valid) (z : ℝ → ℝ) (cfg : Cfg) (hd : 0 < cfg.xiStep) (current p : ℝ) (hp : 0 ≤ p) (segs : List (Option Segment)) (hne : segs ≠ []) (beam : Option (List (Particle ℝ))) (body : List (Particle ℝ))
    (hbeam : beam = none ∧ body = [] ∨ beam = some (body ++ [stub])) (s : S) (res : Option (List (Particle ℝ))) (s' : S) (h : joinBeams g z cfg current p segs beam s = .ok (res, s')) :
    ∃ qs parts, Parts z cfg current p segs qs parts ∧ res = some (body ++ parts.flatten ++ [stub]) := by
  induction segs generalizing beam body s with
  | nil => exact absurd rfl hne
  | cons seg t ih =>
    rw [joinBeams] at h
    obtain ⟨⟨new, sn⟩, h1, h2⟩ := bind_ok h
    obtain ⟨sg, q, rows, rfl, hq, rfl, hrows⟩ := segmentBeam_spec g hg z cfg hd current p hp seg s new sn h1
    have hb' : addBeam beam (rows ++ [stub]) = (body ++ rows) ++ [stub] := by
      rcases hbeam with ⟨rfl, rfl⟩ | rfl
      · simp [addBeam]
      · simp [addBeam]
    simp only at h2
    rw [hb'] at h2
    by_cases ht : t = []
    · subst ht
      simp only [joinBeams, Except.ok.injEq, Prod.mk.injEq] at h2
      refine ⟨[q], [rows], ⟨.cons ⟨sg, rfl, hq⟩ .nil, .cons hrows .nil⟩, ?_⟩
      rw [← h2.1]; simp
    · obtain ⟨qs, parts, ⟨p1, p2⟩, hres⟩ := ih ht (some ((body ++ rows) ++ [stub])) (body ++ rows) (Or.inr rfl) sn h2
      refine ⟨q :: qs, rows :: parts, ⟨.cons ⟨sg, rfl, hq⟩ p1, .cons hrows p2⟩, ?_⟩
      rw [hres]; simp

theorem forall₂_mem_right {α β : Type} {R : α → β → Prop} {a : List α} {b : List β} (h : List.Forall₂ R a b) {y : β} (hy : y ∈ b) : ∃ x ∈ a, R x y := by
  induction h with
  | nil => cases hy
  | cons h1 _ ih =>
    rcases List.mem_cons.mp hy with rfl | hy
    · exact ⟨_, List.mem_cons_self, h1⟩
    · obtain ⟨x, hx, hr⟩ := ih hy
      exact ⟨x, List.mem_cons_of_mem _ hx, hr⟩

theorem parts_window {cfg : Cfg} {current p : ℝ} {segs : List (Option Segment)} {qs : List SegPar} {parts : List (List (Particle ℝ))} (h : Parts z cfg current p segs qs parts) : ∀ a ∈ parts.flatten, -cfg.window ≤ a.xi ∧ a.xi ≤ 0 := by
  intro a ha
  obtain ⟨rows, hr, har⟩ := List.mem_flatten.mp ha
  obtain ⟨q, -, hf⟩ := forall₂_mem_right h.2 hr
  obtain ⟨out, -, hp⟩ := hf.xi
  have := hp.mem_iff.mp (List.mem_map_of_mem har)
  have := (List.mem_filter.mp this).2
  simpa using this

/-- C57: the beam made from a profile. It is sorted, its last line is the stub, there is no other stub; all particles are in the window and are, segment by segment, the particles that the segment prescribes. The separate head is empty. -/
theorem legacy_beam (g : Rand S) (hg : g.Valid) (z : ℝ → ℝ) (sorter : List (Particle ℝ) → List (Particle ℝ)) (hs : SortsDown sorter) (cfg : Cfg) (hd : 0 < cfg.xiStep) (hw : cfg.window < 100000) (current p : ℝ) (hp : 0 ≤ p)
    (segs : List (Option Segment)) (hne : segs ≠ []) (s : S) (beam head : List (Particle ℝ)) (h : beamFromSegments g z sorter cfg current p segs s = .ok (beam, head)) :
    head = [] ∧ ∃ qs parts body, Parts z cfg current p segs qs parts ∧ beam = body ++ [stub] ∧ body.Perm parts.flatten ∧ beam.Pairwise (fun a b => b.xi ≤ a.xi) ∧ ∀ a ∈ body, -cfg.window ≤ a.xi ∧ a.xi ≤ 0 := by
  classical
  unfold beamFromSegments at h
  obtain ⟨⟨res, sn⟩, h1, h2⟩ := bind_ok h
  obtain ⟨qs, parts, hparts, rfl⟩ := joinBeams_spec g hg z cfg hd current p hp segs hne none [] (Or.inl ⟨rfl, rfl⟩) s res sn h1
  simp only [pure, Except.pure, Except.ok.injEq, Prod.mk.injEq, List.nil_append] at h2
  have hwin := parts_window hparts
  have hperm := hs.perm (parts.flatten ++ [stub])
  have hsort := hs.sorted (parts.flatten ++ [stub])
  generalize sorter (parts.flatten ++ [stub]) = L at h2 hperm hsort
  have hall : ∀ a ∈ L, a.xi ≤ 0 := by
    intro a ha
    rcases List.mem_append.mp (hperm.mem_iff.mp ha) with ha | ha
    · exact (hwin a ha).2
    · rw [List.mem_singleton.mp ha]; norm_num [stub]
  have hb : L.filter (fun q => decide (q.xi ≤ 0)) = L := List.filter_eq_self.mpr fun a ha => decide_eq_true (hall a ha)
  have hh : L.filter (fun q => decide (q.xi > 0)) = [] := List.filter_eq_nil_iff.mpr fun a ha => by have := hall a ha; simpa using this
  rw [hb] at h2
  rw [hh] at h2
  refine ⟨h2.2.symm, qs, parts, L.dropLast, hparts, ?_⟩
  have hLne : L ≠ [] := by
    intro h0
    have := hperm.length_eq
    rw [h0] at this
    simp at this
  have hlast : L.getLast hLne = stub := by
    by_contra hne'
    have hm : L.getLast hLne ∈ parts.flatten := by
      rcases List.mem_append.mp (hperm.mem_iff.mp (List.getLast_mem hLne)) with h | h
      · exact h
      · exact absurd (List.mem_singleton.mp h) hne'
    have hx := (hwin _ hm).1
    have hstub : stub ∈ L := hperm.mem_iff.mpr (by simp)
    have hdl := List.dropLast_append_getLast hLne
    have hs1 : stub ∈ L.dropLast := by
      rw [← hdl] at hstub
      rcases List.mem_append.mp hstub with h | h
      · exact h
      · exact absurd (List.mem_singleton.mp h).symm hne'
    have := hsort
    rw [← hdl, List.pairwise_append] at this
    have h3 := this.2.2 stub hs1 _ (List.mem_singleton.mpr rfl)
    have h4 : stub.xi = -100000 := rfl
    linarith
  have hdl := List.dropLast_append_getLast hLne
  rw [hlast] at hdl
  have hbp : L.dropLast.Perm parts.flatten := by
    rw [← hdl] at hperm
    exact (List.perm_append_right_iff _).mp hperm
  refine ⟨by rw [hdl, h2.1], hbp, by rw [← h2.1]; exact hsort, ?_⟩
  intro a ha
  exact hwin a (hbp.mem_iff.mp ha)

/-! ### Particles per layer -/

open Classical in
/-- The number of particles with coordinates in the layer `k` of the grid. -/
noncomputable def inLayer (dxi : ℝ) (k : ℤ) (l : List (Particle ℝ)) : ℕ := (l.filter fun a => decide (((k : ℝ) - 1) * dxi ≤ a.xi ∧ a.xi < (k : ℝ) * dxi)).length

theorem drawn_count (q : SegPar) (p dxi : ℝ) (hd : 0 < dxi) (ks : List ℤ) (hnd : ks.Nodup) (out : List (List ℝ)) (k : ℤ)
    (h : List.Forall₂ (fun (k : ℤ) (l : List ℝ) => (l.length : ℤ) = ⌊p * q.f q.xi0 q.len (((k : ℝ) - 1 / 2) * dxi)⌋ ∧ ∀ x ∈ l, ((k : ℝ) - 1) * dxi ≤ x ∧ x < (k : ℝ) * dxi) ks out) :
    (((out.flatten.filter fun x => decide (((k : ℝ) - 1) * dxi ≤ x ∧ x < (k : ℝ) * dxi)).length : ℕ) : ℤ) = if k ∈ ks then ⌊p * q.f q.xi0 q.len (((k : ℝ) - 1 / 2) * dxi)⌋ else 0 := by
  classical
  induction h with
  | nil => simp
  | @cons j l ks out hjl _ ih =>
    rw [List.nodup_cons] at hnd
    rw [List.flatten_cons, List.filter_append, List.length_append]
    push_cast
    rw [ih hnd.2]
    by_cases hk : k = j
    · subst hk
      rw [if_neg hnd.1, if_pos List.mem_cons_self, add_zero, ← hjl.1]
      congr 2
      exact List.filter_eq_self.mpr fun x hx => decide_eq_true (hjl.2 x hx)
    · have h0 : l.filter (fun x => decide (((k : ℝ) - 1) * dxi ≤ x ∧ x < (k : ℝ) * dxi)) = [] := by
        rw [List.filter_eq_nil_iff]
        intro x hx
        obtain ⟨h1, h2⟩ := hjl.2 x hx
        simp only [decide_eq_true_eq, not_and, not_lt]
        intro h3
        by_contra h4
        push Not at h4
        have a1 : ((k : ℝ) - 1) * dxi < (j : ℝ) * dxi := by linarith
        have a2 : ((j : ℝ) - 1) * dxi < (k : ℝ) * dxi := by linarith
        have b1 : (k : ℝ) - 1 < j := lt_of_mul_lt_mul_right a1 hd.le
        have b2 : (j : ℝ) - 1 < k := lt_of_mul_lt_mul_right a2 hd.le
        have c1 : k - 1 < j := by exact_mod_cast b1
        have c2 : j - 1 < k := by exact_mod_cast b2
        omega
      rw [h0]
      simp only [List.mem_cons, hk, false_or, List.length_nil, Nat.cast_zero, zero_add]

/-- The particles of one segment in one layer of the grid inside the window. -/
theorem segment_count (cfg : Cfg) (hd : 0 < cfg.xiStep) (current p : ℝ) (q : SegPar) (rows : List (Particle ℝ)) (h : FromSegment z cfg current p q rows) (k : ℤ) (hk : k ≤ 0) (hkw : -cfg.window ≤ ((k : ℝ) - 1) * cfg.xiStep) :
    (inLayer cfg.xiStep k rows : ℤ) = if k ∈ layersOf ⌊q.xi0 / cfg.xiStep⌋ ⌊(q.xi0 - q.len) / cfg.xiStep⌋ then ⌊p * q.f q.xi0 q.len (((k : ℝ) - 1 / 2) * cfg.xiStep)⌋ else 0 := by
  classical
  obtain ⟨out, hout, hperm⟩ := h.xi
  rw [← drawn_count q p cfg.xiStep hd _ (layersOf_nodup _ _) out k hout]
  unfold inLayer
  congr 1
  have e : ((rows.filter fun a => decide (((k : ℝ) - 1) * cfg.xiStep ≤ a.xi ∧ a.xi < (k : ℝ) * cfg.xiStep))).length = ((rows.map Particle.xi).filter fun x => decide (((k : ℝ) - 1) * cfg.xiStep ≤ x ∧ x < (k : ℝ) * cfg.xiStep)).length := by
    rw [List.filter_map, List.length_map]; rfl
  have hk0 : (k : ℝ) * cfg.xiStep ≤ 0 := mul_nonpos_of_nonpos_of_nonneg (by exact_mod_cast hk) hd.le
  rw [e, (hperm.filter _).length_eq, List.filter_filter]
  congr 1
  apply List.filter_congr
  intro x _
  by_cases hx : ((k : ℝ) - 1) * cfg.xiStep ≤ x ∧ x < (k : ℝ) * cfg.xiStep
  · have : -cfg.window ≤ x ∧ x ≤ 0 := ⟨hkw.trans hx.1, by linarith [hx.2]⟩
    simp [hx, this]
  · simp [hx]

theorem inLayer_append (dxi : ℝ) (k : ℤ) (a b : List (Particle ℝ)) : inLayer dxi k (a ++ b) = inLayer dxi k a + inLayer dxi k b := by
  unfold inLayer; rw [List.filter_append, List.length_append]

/-- Segments one behind the other: the next begins where the one before ends. -/
def Chained : ℝ → List SegPar → Prop
  | _, [] => True
  | x, q :: t => q.xi0 = x ∧ 0 ≤ q.len ∧ Chained (x - q.len) t

theorem floor_step (x len dxi : ℝ) (hl : 0 ≤ len) (hd : 0 < dxi) : ⌊(x - len) / dxi⌋ ≤ ⌊x / dxi⌋ := Int.floor_le_floor (div_le_div_of_nonneg_right (by linarith) hd.le)

theorem chained_below (cfg : Cfg) (hd : 0 < cfg.xiStep) (current p : ℝ) (qs : List SegPar) (parts : List (List (Particle ℝ))) (h : List.Forall₂ (FromSegment z cfg current p) qs parts) (x : ℝ) (hc : Chained x qs)
    (k : ℤ) (hk : k ≤ 0) (hkw : -cfg.window ≤ ((k : ℝ) - 1) * cfg.xiStep) (hx : ⌊x / cfg.xiStep⌋ < k) : inLayer cfg.xiStep k parts.flatten = 0 := by
  induction h generalizing x with
  | nil => rfl
  | @cons q rows qs parts hr _ ih =>
    obtain ⟨hc1, hl, hc2⟩ := hc
    rw [List.flatten_cons, inLayer_append, ih _ hc2 (lt_of_le_of_lt (floor_step x q.len _ hl hd) hx), add_zero]
    have := segment_count cfg hd current p q rows hr k hk hkw
    rw [if_neg (by rw [mem_layersOf, hc1]; omega)] at this
    exact_mod_cast this

/-- C57: in the layer `k` of the grid, inside the window, lie exactly as many particles as the segment that contains the layer prescribes in its middle: no layer is empty, filled twice or filled by a neighbour where segments meet. -/
theorem chained_count (cfg : Cfg) (hd : 0 < cfg.xiStep) (current p : ℝ) (qs : List SegPar) (parts : List (List (Particle ℝ))) (h : List.Forall₂ (FromSegment z cfg current p) qs parts) (x : ℝ) (hc : Chained x qs)
    (k : ℤ) (hk : k ≤ 0) (hkw : -cfg.window ≤ ((k : ℝ) - 1) * cfg.xiStep) (q : SegPar) (hq : q ∈ qs) (hlow : ⌊(q.xi0 - q.len) / cfg.xiStep⌋ < k) (hhigh : k ≤ ⌊q.xi0 / cfg.xiStep⌋) :
    (inLayer cfg.xiStep k parts.flatten : ℤ) = ⌊p * q.f q.xi0 q.len (((k : ℝ) - 1 / 2) * cfg.xiStep)⌋ := by
  induction h generalizing x with
  | nil => cases hq
  | @cons q' rows qs parts hr hrest ih =>
    obtain ⟨hc1, hl, hc2⟩ := hc
    have hs := segment_count cfg hd current p q' rows hr k hk hkw
    rw [List.flatten_cons, inLayer_append]
    rcases List.mem_cons.mp hq with rfl | hq'
    · rw [if_pos (by rw [mem_layersOf]; exact ⟨hlow, hhigh⟩)] at hs
      have h0 := chained_below cfg hd current p qs parts hrest _ hc2 k hk hkw (by rw [← hc1]; exact hlow)
      rw [h0]
      push_cast
      omega
    · have hbelow : ∀ (l : List SegPar) (y : ℝ), Chained y l → ∀ a ∈ l, ⌊a.xi0 / cfg.xiStep⌋ ≤ ⌊y / cfg.xiStep⌋ := by
        intro l
        induction l with
        | nil => intro y _ a ha; cases ha
        | cons b l ihl =>
          rintro y ⟨e1, e2, e3⟩ a ha
          rcases List.mem_cons.mp ha with rfl | ha
          · rw [e1]
          · exact (ihl _ e3 a ha).trans (floor_step y b.len _ e2 hd)
      have hb := hbelow qs _ hc2 q hq'
      rw [if_neg (by rw [mem_layersOf, hc1]; omega)] at hs
      have := ih _ hc2 hq'
      push_cast
      omega

/-! ### From the segments of a profile -/

/-- The segments that a profile describes are one behind the other, from 0. -/
theorem blocks_chained (flt : String → Option ℝ) (bs : List (List (String × String))) (hbs : ∀ b ∈ bs, Block flt b) (hx : ∀ b ∈ bs, ∀ a ∈ b, a.1 ≠ "xi0") (hlen : ∀ b ∈ bs, 0 ≤ lengthOf flt b) (x : ℝ) (qs : List SegPar)
    (h : List.Forall₂ (fun seg q => ∃ sg, seg = some sg ∧ Describes sg q) ((List.range bs.length).map fun i => some fun k => entry flt (bs.getD i []) (x + startOf flt bs i) k) qs) : Chained x qs := by
  induction bs generalizing x qs with
  | nil => simp only [List.length_nil, List.range_zero, List.map_nil] at h; cases h; exact trivial
  | cons b bs ih =>
    rw [List.length_cons, List.range_succ_eq_map, List.map_cons, List.map_map] at h
    cases h with
    | @cons _ q _ qs h1 h2 =>
      obtain ⟨sg, hsg, -, d2, d3, -⟩ := h1
      cases hsg
      simp only [List.getD_cons_zero] at d2 d3
      have e0 : x + startOf flt (b :: bs) 0 = x := by simp [startOf]
      rw [e0] at d2 d3
      rw [entry_length flt b (hbs b List.mem_cons_self)] at d3
      have hnox : lastWritten b "xi0" = none := by
        unfold lastWritten
        rw [List.filter_eq_nil_iff.mpr (fun a ha => by simpa using hx b List.mem_cons_self a ha)]
        rfl
      have hq0 : q.xi0 = x := by
        unfold entry at d2
        rw [hnox] at d2
        simp only [if_true, Option.some.injEq, Val.num.injEq] at d2
        exact d2.symm
      have hql : q.len = lengthOf flt b := by
        simp only [Option.some.injEq, Val.num.injEq] at d3
        exact d3.symm
      refine ⟨hq0, by rw [hql]; exact hlen b List.mem_cons_self, ?_⟩
      refine ih (fun c hc => hbs c (List.mem_cons_of_mem _ hc)) (fun c hc => hx c (List.mem_cons_of_mem _ hc)) (fun c hc => hlen c (List.mem_cons_of_mem _ hc)) _ qs ?_
      convert h2 using 1
      apply List.map_congr_left
      intro i _
      simp only [Function.comp, List.getD_cons_succ]
      congr 2
      funext k
      congr 1
      rw [hql]
      unfold startOf
      simp only [List.take_succ_cons, List.map_cons, List.sum_cons]
      ring

/-- make_beam_from_c_beam_profile, beam_generator.py:84-109: from the text to the beam and the head. -/
noncomputable def beamFromProfile (g : Rand S) (z : ℝ → ℝ) (sorter : List (Particle ℝ) → List (Particle ℝ)) (flt : String → Option ℝ) (cfg : Cfg) (current p : ℝ) (text : List Char) (s : S) : Except Err (List (Particle ℝ) × List (Particle ℝ)) := do
  let segs ← splitIntoSegments flt ((findPars text).map fun a => (String.ofList a.1, String.ofList a.2))
  beamFromSegments g z sorter cfg current p segs s

/-- C57, from the segments of a profile to the number of particles in every layer: if the profile is accepted and no length is negative, then every layer of the grid inside the window that belongs to the segment `i` holds exactly the prescribed number of particles. -/
theorem profile_layers (g : Rand S) (hg : g.Valid) (z : ℝ → ℝ) (sorter : List (Particle ℝ) → List (Particle ℝ)) (hs : SortsDown sorter) (flt : String → Option ℝ) (cfg : Cfg) (hd : 0 < cfg.xiStep) (hw : cfg.window < 100000) (current p : ℝ) (hp : 0 ≤ p)
    (bs : List (List (String × String))) (hne : bs ≠ []) (hbs : ∀ b ∈ bs, Block flt b) (hx : ∀ b ∈ bs, ∀ a ∈ b, a.1 ≠ "xi0") (hlen : ∀ b ∈ bs, 0 ≤ lengthOf flt b)
    (segs : List (Option Segment)) (hsegs : splitIntoSegments flt bs.flatten = .ok segs) (s : S) (beam head : List (Particle ℝ)) (h : beamFromSegments g z sorter cfg current p segs s = .ok (beam, head)) :
    ∃ qs : List SegPar, qs.length = bs.length ∧ Chained 0 qs ∧ (∀ i (h1 : i < qs.length) (h2 : i < bs.length), qs[i].xi0 = startOf flt bs i ∧ qs[i].len = lengthOf flt bs[i]) ∧
      ∀ q ∈ qs, ∀ k : ℤ, k ≤ 0 → -cfg.window ≤ ((k : ℝ) - 1) * cfg.xiStep → ⌊(q.xi0 - q.len) / cfg.xiStep⌋ < k → k ≤ ⌊q.xi0 / cfg.xiStep⌋ →
        (inLayer cfg.xiStep k beam : ℤ) = ⌊p * q.f q.xi0 q.len (((k : ℝ) - 1 / 2) * cfg.xiStep)⌋ := by
  classical
  have hsp := split_segments flt bs hne hbs
  rw [hsp] at hsegs
  cases hsegs
  have hne' : ((List.range bs.length).map fun i => (some fun k => entry flt (bs.getD i []) (startOf flt bs i) k : Option Segment)) ≠ [] := by
    obtain ⟨b, t, rfl⟩ := List.exists_cons_of_ne_nil hne
    simp
  obtain ⟨-, qs, parts, body, hparts, rfl, hperm, -, -⟩ := legacy_beam g hg z sorter hs cfg hd hw current p hp _ hne' s beam head h
  have hch : Chained 0 qs := blocks_chained flt bs hbs hx hlen 0 qs (by simpa using hparts.1)
  have hlq : qs.length = bs.length := by
    have := hparts.1.length_eq
    simp only [List.length_map, List.length_range] at this
    exact this.symm
  refine ⟨qs, hlq, hch, ?_, ?_⟩
  · intro i h1 h2
    have := List.forall₂_iff_get.mp hparts.1
    obtain ⟨sg, hsg, -, d2, d3, -⟩ := this.2 i (by simpa using h2) h1
    simp only [List.get_eq_getElem, List.getElem_map, List.getElem_range, Option.some.injEq] at hsg
    subst hsg
    rw [List.getD_eq_getElem _ _ h2] at d2 d3
    beta_reduce at d2 d3
    rw [entry_length flt _ (hbs _ (List.getElem_mem h2))] at d3
    have hnox : lastWritten bs[i] "xi0" = none := by
      unfold lastWritten
      rw [List.filter_eq_nil_iff.mpr (fun a ha => by simpa using hx _ (List.getElem_mem h2) a ha)]
      rfl
    unfold entry at d2
    rw [hnox] at d2
    simp only [if_true, Option.some.injEq, Val.num.injEq] at d2 d3
    exact ⟨d2.symm, d3.symm⟩
  · intro q hq k hk hkw hlow hhigh
    have hc := chained_count cfg hd current p qs parts hparts.2 0 hch k hk hkw q hq hlow hhigh
    rw [← hc, inLayer_append]
    have h1 : inLayer cfg.xiStep k body = inLayer cfg.xiStep k parts.flatten := (hperm.filter _).length_eq
    have h2 : inLayer cfg.xiStep k [stub] = 0 := by
      unfold inLayer
      rw [List.length_eq_zero_iff, List.filter_eq_nil_iff]
      intro a ha
      rw [List.mem_singleton.mp ha]
      simp only [decide_eq_true_eq, not_and]
      intro h3
      have : stub.xi = -100000 := rfl
      linarith
    rw [h1, h2, add_zero]

/-! ### Findings -/

/-- C57, finding: with the geometry that a Config object makes out of `circ`, no beam is ever made. -/
theorem geometry_2d_refused (g : Rand S) (z : ℝ → ℝ) (sorter : List (Particle ℝ) → List (Particle ℝ)) (cfg : Cfg) (hgeo : cfg.geometry ≠ "c" ∧ cfg.geometry ≠ "circ") (current p : ℝ) (segs : List (Option Segment)) (s : S) :
    ∃ e, beamFromSegments g z sorter cfg current p segs s = .error e := by
  have hm : ∀ (d : Distrs S) (qm : ℝ) (s : S) r, makeBeam g cfg d qm p s ≠ .ok r := by
    intro d qm s r h
    unfold makeBeam at h
    rw [if_neg (by tauto)] at h
    by_cases h3 : cfg.geometry = "3d"
    · rw [if_pos h3] at h
      obtain ⟨x, -, h⟩ := bind_ok h
      cases h
    · rw [if_neg h3] at h; cases h
  cases hres : beamFromSegments g z sorter cfg current p segs s with
  | error e => exact ⟨e, rfl⟩
  | ok r =>
    exfalso
    unfold beamFromSegments at hres
    obtain ⟨⟨res, sn⟩, h1, h2⟩ := bind_ok hres
    cases segs with
    | nil =>
      rw [joinBeams] at h1
      cases h1
      cases h2
    | cons seg t =>
      rw [joinBeams] at h1
      obtain ⟨⟨new, s2⟩, h3, -⟩ := bind_ok h1
      cases seg with
      | none => cases h3
      | some sg =>
        unfold segmentBeam at h3
        simp only at h3
        obtain ⟨d, -, h3⟩ := bind_ok h3
        obtain ⟨mq, -, h3⟩ := bind_ok h3
        split at h3
        · cases h3
        · exact hm _ _ _ _ h3

/-- C57, finding: every segment numbers its particles from zero, so particles of two segments share their ids. -/
theorem ids_not_unique (cfg : Cfg) (current p : ℝ) (segs : List (Option Segment)) (qs : List SegPar) (parts : List (List (Particle ℝ))) (h : Parts z cfg current p segs qs parts) (i j : ℕ) (hi : i < parts.length) (hj : j < parts.length)
    (hni : parts[i] ≠ []) (hnj : parts[j] ≠ []) : ∃ a ∈ parts[i], ∃ b ∈ parts[j], a.id = b.id := by
  have first : ∀ rows ∈ parts, rows ≠ [] → ∃ a ∈ rows, a.id = 0 := by
    intro rows hr hne
    obtain ⟨q, -, hf⟩ := forall₂_mem_right h.2 hr
    obtain ⟨a, t, rfl⟩ := List.exists_cons_of_ne_nil hne
    refine ⟨a, List.mem_cons_self, ?_⟩
    have := hf.ids
    rw [List.length_cons, List.range_succ_eq_map] at this
    simp only [List.map_cons, List.cons.injEq] at this
    simpa using this.1
  obtain ⟨a, ha, ha0⟩ := first _ (List.getElem_mem hi) hni
  obtain ⟨b, hb, hb0⟩ := first _ (List.getElem_mem hj) hnj
  exact ⟨a, ha, b, hb, by rw [ha0, hb0]⟩

/-! ### A profile that is accepted -/

theorem default_segment_ok (g : Rand S) (z : ℝ → ℝ) (cfg : Cfg) (hgeo : cfg.geometry = "c") (hd : 0 < cfg.xiStep) (hd2 : cfg.xiStep < 6) (current p : ℝ) (hp : 0 ≤ p) (s : S) : ∃ r, segmentBeam g z cfg current p (some defaults) s = .ok r := by
  have hf := fun x => (profile_range "cos" _ rfl 0 (2 * Real.pi) x).1
  obtain ⟨r, hr⟩ := drawLayers_ok g _ hf 0 p cfg.xiStep hp (intervals (0 - 2 * Real.pi) 0 cfg.xiStep) s
  have hne : r.1 ≠ [] := by
    intro h0
    obtain ⟨out, so⟩ := r
    simp only at h0
    subst h0
    have hint : intervals (0 - 2 * Real.pi) 0 cfg.xiStep ≠ [] := by
      rw [intervals_eq _ _ _ hd]
      have h1 : ⌊(0 - 2 * Real.pi) / cfg.xiStep⌋ < 0 := by
        rw [Int.floor_lt]
        have := Real.pi_pos
        push_cast
        exact div_neg_of_neg_of_pos (by linarith) hd
      have h2 : (0 : ℤ) ∈ layersOf ⌊(0 : ℝ) / cfg.xiStep⌋ ⌊(0 - 2 * Real.pi) / cfg.xiStep⌋ := by
        rw [mem_layersOf]; exact ⟨h1, by simp⟩
      intro h
      have := List.map_eq_nil_iff.mp h
      rw [this] at h2
      cases h2
    obtain ⟨⟨l, rr⟩, t, ht⟩ := List.exists_cons_of_ne_nil hint
    rw [ht, drawLayers] at hr
    obtain ⟨x, -, hr⟩ := bind_ok hr
    obtain ⟨y, -, hr⟩ := bind_ok hr
    cases hr
  have hstep : stepwiseXi g (fun x => cosine x 0 (2 * (2 * Real.pi))) 0 (0 - 2 * Real.pi) 0 p cfg.xiStep s = .ok (r.1.flatten, r.2) := by
    unfold stepwiseXi
    rw [hr]
    simp only [bind, Except.bind, if_neg hne]
    rfl
  unfold segmentBeam distrsFromShapes
  simp only [Segment.num, Segment.key, defaults, xiProfile, rTable, eTable, angTable, bind, Except.bind, pure, Except.pure]
  rw [if_neg one_ne_zero]
  unfold makeBeam
  rw [if_pos (Or.inl hgeo)]
  simp only [bind, Except.bind, pure, Except.pure]
  rw [hstep]
  exact ⟨_, rfl⟩

/-- Non-vacuity of `legacy_beam` and `profile_layers`: the profile `xishape=cos` is accepted. -/
example (g : Rand S) (z : ℝ → ℝ) (sorter : List (Particle ℝ) → List (Particle ℝ)) (flt : String → Option ℝ) (s : S) :
    ∃ beam head, Block flt [("xishape", "cos")] ∧ (∃ segs, splitIntoSegments flt [[("xishape", "cos")]].flatten = .ok segs ∧ beamFromSegments g z sorter ⟨"c", 15, 0.1⟩ 1 200 segs s = .ok (beam, head)) := by
  have hb : Block flt [("xishape", "cos")] := ⟨⟨"cos", [], rfl, by simp⟩, fun p hp h => by rw [List.mem_singleton.mp hp] at h; exact absurd shape_xishape h⟩
  have hsp := split_segments flt [[("xishape", "cos")]] (by simp) (by intro b hb'; rw [List.mem_singleton.mp hb']; exact hb)
  have hseg : (fun k => entry flt (([[("xishape", "cos")]] : List (List (String × String))).getD 0 []) (startOf flt [[("xishape", "cos")]] 0) k) = defaults := by
    funext k
    have e0 : startOf flt [[("xishape", "cos")]] 0 = 0 := by simp [startOf]
    rw [e0, List.getD_cons_zero]
    unfold entry lastWritten
    by_cases hk : k = "xishape"
    · subst hk
      simp only [List.filter_cons, decide_true, if_true, List.filter_nil, List.getLast?_singleton, Option.map_some]
      unfold meaning
      rw [if_pos shape_xishape]
      rfl
    · have : (([("xishape", "cos")] : List (String × String)).filter fun p => p.1 = k) = [] := by simp [Ne.symm hk]
      rw [this]
      simp only [List.getLast?_nil, Option.map_none]
      by_cases h0 : k = "xi0"
      · subst h0; rfl
      · rw [if_neg h0]
  obtain ⟨r, hr⟩ := default_segment_ok g z ⟨"c", 15, 0.1⟩ rfl (by norm_num) (by norm_num) 1 200 (by norm_num) s
  have hres : ∃ res, beamFromSegments g z sorter ⟨"c", 15, 0.1⟩ 1 200 [some (fun k => entry flt (([[("xishape", "cos")]] : List (List (String × String))).getD 0 []) (startOf flt [[("xishape", "cos")]] 0) k)] s = .ok res := by
    unfold beamFromSegments
    rw [hseg, joinBeams, hr]
    exact ⟨_, rfl⟩
  obtain ⟨⟨beam, head⟩, hres⟩ := hres
  exact ⟨beam, head, hb, _, hsp, hres⟩

end Lcode.Legacy
