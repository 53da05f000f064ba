import Verif.Mem.Heap
import Mathlib.Data.List.Forall2

/-!
The xi loop of a time step on a store of shared arrays (lcode/push_solvers/push_solver.py:53-135, the same text for 2D and 3D), with the beam density buffer of the beam calculators
(beam/beam_calculate.py:375-413, beam3d/beam_calculator.py:74-93) and with diagnostics that keep references to arrays until they write (diagnostics/slice.py:101-133, :180-215). Property C62.
-/

namespace Lcode.Mem

variable {G P C B ι : Type}

/-! ### Model -/

/-- A plasma solver on the store, and the value model it is compared with. `R` are references to a plasma state, `W` its values, `F` the fields as a record. -/
structure PlasmaH (G P C B ι R W F : Type) where
  /-- `solver.step_dxi(pl_particles, pl_fields, pl_currents, pl_const_arrays, rho_beam, rho_beam_prev)`, push_solver.py:110-113 -/
  step : R → ℕ → ℕ → Prog G P C B ι R
  /-- `pl_fields` -/
  fields : R → ℕ
  /-- `pl_currents` -/
  cur : R → ℕ
  /-- the attribute names of `pl_fields` -/
  names : List ι
  /-- the fields as a record -/
  record : (ι → G) → F
  /-- the value model of step_dxi -/
  value : W → B → B → W
  fieldsW : W → F
  curW : W → C

/-- The beam side of a time step, as values: `β` holds the source, the drain and the particles to move; `L` is a layer of particles. -/
structure BeamV (B F β L : Type) where
  /-- `_get_beam_layer` -/
  layer : β → ℕ → L × β
  /-- the deposition of a layer: the two arrays written in place, as they are before and after -/
  deposit : L → ℕ → B → B → B × B
  /-- the normalisation of a finished density -/
  norm : B → B
  /-- move_beam_layer, append, push_beam_slice: `prev_pl_fields`, then `pl_fields` -/
  move : β → L → ℕ → F → F → β

/-- What a slice diagnostic keeps of a layer until it writes: references (numpy views) to the arrays of the fields, to the currents, and to the beam density. -/
structure Rec (ι : Type) where
  fields : ι → ℕ
  cur : ℕ
  rho : ℕ

/-- The variables of the loop. `buf` is `beam_calc.rho_layout`, `prev` is `rho_beam_prev`. -/
structure LoopH (G P C B ι R β : Type) where
  r : R
  buf : ℕ
  prev : ℕ
  beam : β
  recs : List (Rec ι)
  H : Heap G P C B ι

/-- layout_beam_layer, beam/beam_calculate.py:396-413 and beam3d/beam_calculator.py:82-93: a new array of zeros; the layer is deposited in place into the old buffer and the new array;
the old buffer is normalised in place and returned; the new array becomes the buffer. -/
def layoutH {β L F : Type} (bv : BeamV B F β L) (zero : B) (l : L) (xiI : ℕ) (buf : ℕ) : Prog G P C B ι (ℕ × ℕ) := fun H =>
  let n := newBeam zero H
  let d := bv.deposit l xiI (n.2.beam buf) (n.2.beam n.1)
  let H1 := (setBeam buf d.1 n.2).2
  let H2 := (setBeam n.1 d.2 H1).2
  let H3 := (setBeam buf (bv.norm (H2.beam buf)) H2).2
  ((buf, n.1), H3)

/-- One turn of the loop, push_solver.py:98-129. -/
def turnLoopH {R W F β L : Type} [DecidableEq ι] (pl : PlasmaH G P C B ι R W F) (bv : BeamV B F β L) (zero : B) (s : LoopH G P C B ι R β) (xiI : ℕ) : LoopH G P C B ι R β :=
  let l := bv.layer s.beam xiI
  let rho := layoutH bv zero l.1 xiI s.buf s.H
  -- prev_pl_fields = pl_fields.copy()
  let pf := newGroup pl.names (rho.2.val (pl.fields s.r)) rho.2
  let st := pl.step s.r rho.1.1 s.prev pf.2
  let b := bv.move l.2 l.1 xiI (pl.record (st.2.val pf.1)) (pl.record (st.2.val (pl.fields st.1)))
  -- rho_beam_prev = rho_beam.copy()
  let pv := newBeam (st.2.beam rho.1.1) st.2
  ⟨st.1, rho.1.2, pv.1, b, s.recs ++ [⟨pv.2.obj (pl.fields st.1), pl.cur st.1, rho.1.1⟩], pv.2⟩

/-- start_time_step and `_set_rho_beam_array`, push_solver.py:89-97. -/
def startLoopH {R β : Type} (zero : B) (r : R) (b : β) (H : Heap G P C B ι) : LoopH G P C B ι R β :=
  let a := newBeam zero H
  let p := newBeam zero a.2
  ⟨r, a.1, p.1, b, [], p.2⟩

/-- step_dt, push_solver.py:55-135, from layer 0 to layer `N`. -/
def stepDtH {R W F β L : Type} [DecidableEq ι] (pl : PlasmaH G P C B ι R W F) (bv : BeamV B F β L) (zero : B) (r : R) (b : β) (N : ℕ) (H : Heap G P C B ι) : LoopH G P C B ι R β :=
  (List.range (N + 1)).foldl (turnLoopH pl bv zero) (startLoopH zero r b H)

/-- Time steps one after the other, simulation.py:240-262: the plasma of a time step comes from `start` (init_plasma, or always the loaded state), the beam goes on through `next` (the transport), and the
diagnostics write what they have kept at the end of each step (push_solver.py:131-133) - `dump` reads it from the store as it is then. -/
def runH {R W F β L : Type} [DecidableEq ι] (pl : PlasmaH G P C B ι R W F) (bv : BeamV B F β L) (zero : B) (start : ℕ → Prog G P C B ι R) (next : β → β) (N : ℕ) :
    ℕ → β → Heap G P C B ι → List (List (F × C × B)) × β × Heap G P C B ι
  | 0, b, H => ([], b, H)
  | g + 1, b, H =>
    let p := runH pl bv zero start next N g b H
    let st := start g p.2.2
    let s := stepDtH pl bv zero st.1 p.2.1 N st.2
    (p.1 ++ [s.recs.map fun k => (pl.record (fun i => s.H.grid (k.fields i)), s.H.cur k.cur, s.H.beam k.rho)], next s.beam, s.H)

/-! ### Specification: the loop on values -/

/-- The variables of the loop, as values, and what the diagnostics are shown in each layer. -/
structure LoopV (C B W F β : Type) where
  w : W
  buf : B
  prev : B
  beam : β
  log : List (F × C × B)

/-- One layer on values: nothing is shared. -/
def turnV {R W F β L : Type} (pl : PlasmaH G P C B ι R W F) (bv : BeamV B F β L) (zero : B) (s : LoopV C B W F β) (xiI : ℕ) : LoopV C B W F β :=
  let l := bv.layer s.beam xiI
  let d := bv.deposit l.1 xiI s.buf zero
  let w := pl.value s.w (bv.norm d.1) s.prev
  ⟨w, d.2, bv.norm d.1, bv.move l.2 l.1 xiI (pl.fieldsW s.w) (pl.fieldsW w), s.log ++ [(pl.fieldsW w, pl.curW w, bv.norm d.1)]⟩

/-- A time step on values. -/
def stepV {R W F β L : Type} (pl : PlasmaH G P C B ι R W F) (bv : BeamV B F β L) (zero : B) (w : W) (b : β) (N : ℕ) : LoopV C B W F β :=
  (List.range (N + 1)).foldl (turnV pl bv zero) ⟨w, zero, zero, b, []⟩

/-- Time steps on values: each starts from its own plasma state. -/
def runV {R W F β L : Type} (pl : PlasmaH G P C B ι R W F) (bv : BeamV B F β L) (zero : B) (w : ℕ → W) (next : β → β) (N : ℕ) : ℕ → β → List (List (F × C × B)) × β
  | 0, b => ([], b)
  | g + 1, b =>
    let p := runV pl bv zero w next N g b
    let s := stepV pl bv zero (w g) p.2 N
    (p.1 ++ [s.log], next s.beam)

/-- The solver on the store does what the value model does and changes nothing that it was given. `shows` says that references show a plasma state. -/
structure PlasmaOk {R W F : Type} (pl : PlasmaH G P C B ι R W F) (shows' : Heap G P C B ι → R → W → Prop) : Prop where
  names : ∀ i, i ∈ pl.names
  keeps : ∀ H H' r w, shows' H r w → Keeps H H' → shows' H' r w
  fields : ∀ H r w, shows' H r w → pl.fields r < H.no ∧ pl.record (H.val (pl.fields r)) = pl.fieldsW w
  cur : ∀ H r w, shows' H r w → pl.cur r < H.nc ∧ H.cur (pl.cur r) = pl.curW w
  step : ∀ (H : Heap G P C B ι) r w b b', H.Ok → shows' H r w → b < H.nb → b' < H.nb →
    Keeps H (pl.step r b b' H).2 ∧ (pl.step r b b' H).2.Ok ∧ shows' (pl.step r b b' H).2 (pl.step r b b' H).1 (pl.value w (H.beam b) (H.beam b'))

/-! ### C62 for the loop -/

/-- What was kept of a layer still shows what the layer showed. -/
def RecOk {R W F : Type} (pl : PlasmaH G P C B ι R W F) (H : Heap G P C B ι) (buf : ℕ) (k : Rec ι) (v : F × C × B) : Prop :=
  (∀ i, k.fields i < H.ng) ∧ pl.record (fun i => H.grid (k.fields i)) = v.1 ∧ k.cur < H.nc ∧ H.cur k.cur = v.2.1 ∧ k.rho < H.nb ∧ k.rho ≠ buf ∧ H.beam k.rho = v.2.2

/-- The two loops are in step. -/
structure LoopRel {R W F β : Type} (pl : PlasmaH G P C B ι R W F) (shows' : Heap G P C B ι → R → W → Prop) (H0 : Heap G P C B ι) (s : LoopH G P C B ι R β) (v : LoopV C B W F β) : Prop where
  keeps : Keeps H0 s.H
  ok : s.H.Ok
  shown : shows' s.H s.r v.w
  buf : H0.nb ≤ s.buf ∧ s.buf < s.H.nb ∧ s.H.beam s.buf = v.buf
  prev : s.prev < s.H.nb ∧ s.prev ≠ s.buf ∧ s.H.beam s.prev = v.prev
  beam : s.beam = v.beam
  recs : List.Forall₂ (RecOk pl s.H s.buf) s.recs v.log

theorem recOk_keeps {R W F : Type} (pl : PlasmaH G P C B ι R W F) {H H' : Heap G P C B ι} (h : Keeps H H') {buf buf' : ℕ} (hb : H.nb ≤ buf' ∨ buf' = buf) {k : Rec ι} {v : F × C × B}
    (hk : RecOk pl H buf k v) : RecOk pl H' buf' k v := by
  obtain ⟨h1, h2, h3, h4, h5, h6, h7⟩ := hk
  refine ⟨fun i => lt_of_lt_of_le (h1 i) h.ng, ?_, lt_of_lt_of_le h3 h.nc, (h.cur _ h3).trans h4, lt_of_lt_of_le h5 h.nb, by rcases hb with hb | hb <;> omega, (h.beam _ h5).trans h7⟩
  rw [← h2]
  congr 1
  funext i
  exact h.grid _ (h1 i)

theorem turn_rel {R W F β L : Type} [DecidableEq ι] (pl : PlasmaH G P C B ι R W F) (bv : BeamV B F β L) (zero : B) (shows' : Heap G P C B ι → R → W → Prop) (hp : PlasmaOk pl shows')
    (hsame : ∀ H H' r w, shows' H r w → H'.grid = H.grid → H'.part = H.part → H'.cur = H.cur → H'.obj = H.obj → H'.ng = H.ng → H'.np = H.np → H'.nc = H.nc → H'.no = H.no → shows' H' r w)
    (H0 : Heap G P C B ι) (s : LoopH G P C B ι R β) (v : LoopV C B W F β) (h : LoopRel pl shows' H0 s v) (xiI : ℕ) :
    LoopRel pl shows' H0 (turnLoopH pl bv zero s xiI) (turnV pl bv zero v xiI) := by
  obtain ⟨hk, hok, hsh, ⟨hb0, hb1, hb2⟩, ⟨hp0, hp1, hp2⟩, hbm, hrec⟩ := h
  -- the density
  obtain ⟨n1, n2, n3, n4, n5⟩ := newBeam_keeps zero s.H hok
  have hbuf : s.buf ≠ s.H.nb := by omega
  set lay := layoutH (G := G) (P := P) (C := C) (ι := ι) bv zero (bv.layer s.beam xiI).1 xiI s.buf s.H with hlay
  have e1 : lay.1 = (s.buf, s.H.nb) := rfl
  have eb : ∀ a, lay.2.beam a = if a = s.buf then bv.norm (bv.deposit (bv.layer s.beam xiI).1 xiI v.buf zero).1
      else if a = s.H.nb then (bv.deposit (bv.layer s.beam xiI).1 xiI v.buf zero).2 else s.H.beam a := by
    have d1 : (newBeam zero s.H).2.beam s.buf = v.buf := by rw [n1.beam _ hb1]; exact hb2
    have d2 : (newBeam zero s.H).2.beam s.H.nb = zero := n5
    intro a
    have : lay.2.beam = Function.update (Function.update (Function.update (newBeam zero s.H).2.beam s.buf
        (bv.deposit (bv.layer s.beam xiI).1 xiI ((newBeam zero s.H).2.beam s.buf) ((newBeam zero s.H).2.beam s.H.nb)).1) s.H.nb
        (bv.deposit (bv.layer s.beam xiI).1 xiI ((newBeam zero s.H).2.beam s.buf) ((newBeam zero s.H).2.beam s.H.nb)).2) s.buf
        (bv.norm (Function.update (Function.update (newBeam zero s.H).2.beam s.buf
        (bv.deposit (bv.layer s.beam xiI).1 xiI ((newBeam zero s.H).2.beam s.buf) ((newBeam zero s.H).2.beam s.H.nb)).1) s.H.nb
        (bv.deposit (bv.layer s.beam xiI).1 xiI ((newBeam zero s.H).2.beam s.buf) ((newBeam zero s.H).2.beam s.H.nb)).2 s.buf)) := rfl
    rw [this, d1, d2, Function.update_of_ne hbuf, Function.update_self]
    by_cases ha : a = s.buf
    · subst ha; rw [Function.update_self, if_pos rfl]
    · rw [Function.update_of_ne ha, if_neg ha]
      by_cases ha2 : a = s.H.nb
      · subst ha2; rw [Function.update_self, if_pos rfl]
      · rw [Function.update_of_ne ha2, if_neg ha2, Function.update_of_ne ha]
        exact Function.update_of_ne ha2 _ _
  have eg : lay.2.grid = s.H.grid := rfl
  have ep : lay.2.part = s.H.part := rfl
  have ec : lay.2.cur = s.H.cur := rfl
  have eo : lay.2.obj = s.H.obj := rfl
  have eng : lay.2.ng = s.H.ng := rfl
  have enp : lay.2.np = s.H.np := rfl
  have enc : lay.2.nc = s.H.nc := rfl
  have eno : lay.2.no = s.H.no := rfl
  have enb : lay.2.nb = s.H.nb + 1 := rfl
  have okl : lay.2.Ok := hok
  have shl : shows' lay.2 s.r v.w := hsame _ _ _ _ hsh eg ep ec eo eng enp enc eno
  have kl : Keeps H0 lay.2 := by
    refine ⟨hk.ng, hk.np, hk.nc, by rw [enb]; exact Nat.le_succ_of_le hk.nb, hk.no, hk.grid, hk.part, hk.cur, fun a ha => ?_, hk.val⟩
    rw [eb, if_neg (by omega), if_neg (by have := hk.nb; omega)]
    exact hk.beam a ha
  have rl : List.Forall₂ (RecOk pl lay.2 s.H.nb) s.recs v.log := by
    refine hrec.imp fun k u hk' => ?_
    obtain ⟨h1, h2, h3, h4, h5, h6, h7⟩ := hk'
    refine ⟨h1, h2, h3, h4, by omega, by omega, ?_⟩
    rw [eb, if_neg h6, if_neg (by omega)]
    exact h7
  have bl1 : lay.2.beam s.buf = bv.norm (bv.deposit (bv.layer s.beam xiI).1 xiI v.buf zero).1 := by rw [eb, if_pos rfl]
  have bl2 : lay.2.beam s.H.nb = (bv.deposit (bv.layer s.beam xiI).1 xiI v.buf zero).2 := by rw [eb, if_neg (Ne.symm hbuf), if_pos rfl]
  have bl3 : lay.2.beam s.prev = v.prev := by rw [eb, if_neg hp1, if_neg (by omega)]; exact hp2
  clear_value lay
  -- prev_pl_fields
  obtain ⟨g1, g2, g3, g4, g5⟩ := newGroup_keeps pl.names hp.names (lay.2.val (pl.fields s.r)) lay.2 okl
  set pf := newGroup (P := P) (C := C) (B := B) pl.names (lay.2.val (pl.fields s.r)) lay.2 with hpf
  clear_value pf
  obtain ⟨t1, t2, t3⟩ := hp.step pf.2 s.r v.w s.buf s.prev g2 (hp.keeps _ _ _ _ shl g1) (by have := g1.nb; omega) (by have := g1.nb; omega)
  rw [g1.beam _ (by omega), g1.beam _ (by omega), bl1, bl3] at t3
  set st := pl.step s.r s.buf s.prev pf.2 with hst
  obtain ⟨p1, p2, p3, p4, p5⟩ := newBeam_keeps (st.2.beam s.buf) st.2 t2
  have e : turnLoopH pl bv zero s xiI = ⟨st.1, s.H.nb, (newBeam (st.2.beam s.buf) st.2).1,
      bv.move (bv.layer s.beam xiI).2 (bv.layer s.beam xiI).1 xiI (pl.record (st.2.val pf.1)) (pl.record (st.2.val (pl.fields st.1))),
      s.recs ++ [⟨(newBeam (st.2.beam s.buf) st.2).2.obj (pl.fields st.1), pl.cur st.1, s.buf⟩], (newBeam (st.2.beam s.buf) st.2).2⟩ := by
    unfold turnLoopH
    simp only [← hlay, e1, ← hpf, ← hst]
  clear_value st
  rw [e]
  have kall : Keeps lay.2 (newBeam (st.2.beam s.buf) st.2).2 := (g1.trans t1).trans p1
  have ktl : Keeps lay.2 st.2 := g1.trans t1
  have hbs : st.2.beam s.buf = bv.norm (bv.deposit (bv.layer s.beam xiI).1 xiI v.buf zero).1 := by rw [ktl.beam _ (by omega), bl1]
  have shn := hp.keeps _ _ _ _ t3 p1
  have hfl := hp.fields _ _ _ shn
  have hflst := hp.fields _ _ _ t3
  have hfl0 := hp.fields _ _ _ shl
  have hcu := hp.cur _ _ _ shn
  have hnb := ktl.nb
  unfold turnV
  dsimp only
  rw [← hbm]
  refine ⟨kl.trans kall, p2, shn, ⟨by have := hk.nb; dsimp only; omega, by dsimp only; omega, ?_⟩, ⟨?_, ?_, ?_⟩, ?_, ?_⟩
  · dsimp only; rw [kall.beam _ (by omega), bl2]
  · dsimp only; omega
  · dsimp only; omega
  · dsimp only; rw [p3, p5, hbs]
  · dsimp only
    rw [hflst.2, t1.val pf.1 (by omega), g3, g5, hfl0.2]
  · refine List.rel_append (rl.imp fun k u hku => recOk_keeps pl kall (Or.inr rfl) hku) (List.Forall₂.cons ?_ List.Forall₂.nil)
    exact ⟨fun i => p2 _ hfl.1 i, hfl.2, hcu.1, hcu.2, by dsimp only; rw [p4]; omega, by dsimp only; omega, by
      dsimp only
      rw [kall.beam _ (by omega), bl1]⟩

/-- C62: a time step on the store. Everything that existed before the time step is unchanged (the plasma state it started from among it), the plasma state, the beam and the densities are those of the
value model, and what the diagnostics kept of each layer still shows, at the end of the time step, what that layer showed. -/
theorem stepDtH_rel {R W F β L : Type} [DecidableEq ι] (pl : PlasmaH G P C B ι R W F) (bv : BeamV B F β L) (zero : B) (shows' : Heap G P C B ι → R → W → Prop) (hp : PlasmaOk pl shows')
    (hsame : ∀ H H' r w, shows' H r w → H'.grid = H.grid → H'.part = H.part → H'.cur = H.cur → H'.obj = H.obj → H'.ng = H.ng → H'.np = H.np → H'.nc = H.nc → H'.no = H.no → shows' H' r w)
    (H : Heap G P C B ι) (hH : H.Ok) (r : R) (w : W) (hr : shows' H r w) (b : β) (N : ℕ) :
    LoopRel pl shows' H (stepDtH pl bv zero r b N H) (stepV pl bv zero w b N) := by
  unfold stepDtH stepV
  have base : LoopRel pl shows' H (startLoopH zero r b H) (⟨w, zero, zero, b, []⟩ : LoopV C B W F β) := by
    obtain ⟨n1, n2, n3, n4, n5⟩ := newBeam_keeps zero H hH
    obtain ⟨m1, m2, m3, m4, m5⟩ := newBeam_keeps zero (newBeam zero H).2 n2
    have e : startLoopH zero r b H = ⟨r, H.nb, (newBeam zero H).2.nb, b, [], (newBeam zero (newBeam zero H).2).2⟩ := rfl
    rw [e]
    refine ⟨n1.trans m1, m2, hp.keeps _ _ _ _ hr (n1.trans m1), ⟨le_rfl, by dsimp only; omega, ?_⟩, ⟨by dsimp only; omega, by dsimp only; omega, m5⟩, rfl, List.Forall₂.nil⟩
    dsimp only
    rw [m1.beam _ (by omega)]; exact n5
  generalize startLoopH zero r b H = s0 at base ⊢
  generalize (⟨w, zero, zero, b, []⟩ : LoopV C B W F β) = v0 at base ⊢
  generalize List.range (N + 1) = xs
  induction xs generalizing s0 v0 with
  | nil => exact base
  | cons x xs ih => exact ih _ _ (turn_rel pl bv zero shows' hp hsame H s0 v0 base x)

/-- What the diagnostics write at the end of the time step is what the layers showed. -/
theorem dump_eq {R W F : Type} (pl : PlasmaH G P C B ι R W F) (H : Heap G P C B ι) (buf : ℕ) (ks : List (Rec ι)) (vs : List (F × C × B)) (h : List.Forall₂ (RecOk pl H buf) ks vs) :
    (ks.map fun k => (pl.record (fun i => H.grid (k.fields i)), H.cur k.cur, H.beam k.rho)) = vs := by
  induction h with
  | nil => rfl
  | cons hk _ ih =>
    obtain ⟨-, h2, -, h4, -, -, h7⟩ := hk
    rw [List.map_cons, ih, h2, h4, h7]

/-- C62: time steps on the store. Whatever `start` does, as long as it hands out references that show the plasma state `w g` and changes nothing that exists, everything the diagnostics write in every time
step and the beam after any number of time steps are those of the value model, and nothing that existed before the run is changed. -/
theorem runH_eq {R W F β L : Type} [DecidableEq ι] (pl : PlasmaH G P C B ι R W F) (bv : BeamV B F β L) (zero : B) (shows' : Heap G P C B ι → R → W → Prop) (hp : PlasmaOk pl shows')
    (hsame : ∀ H H' r w, shows' H r w → H'.grid = H.grid → H'.part = H.part → H'.cur = H.cur → H'.obj = H.obj → H'.ng = H.ng → H'.np = H.np → H'.nc = H.nc → H'.no = H.no → shows' H' r w)
    (H : Heap G P C B ι) (hH : H.Ok) (start : ℕ → Prog G P C B ι R) (w : ℕ → W)
    (hstart : ∀ g H', Keeps H H' → H'.Ok → Keeps H' (start g H').2 ∧ (start g H').2.Ok ∧ shows' (start g H').2 (start g H').1 (w g)) (next : β → β) (N n : ℕ) (b : β) :
    (runH pl bv zero start next N n b H).1 = (runV pl bv zero w next N n b).1 ∧ (runH pl bv zero start next N n b H).2.1 = (runV pl bv zero w next N n b).2 ∧
      Keeps H (runH pl bv zero start next N n b H).2.2 ∧ (runH pl bv zero start next N n b H).2.2.Ok := by
  induction n with
  | zero => exact ⟨rfl, rfl, Keeps.refl H, hH⟩
  | succ g ih =>
    obtain ⟨i1, i2, i3, i4⟩ := ih
    obtain ⟨s1, s2, s3⟩ := hstart g _ i3 i4
    have hr := stepDtH_rel pl bv zero shows' hp hsame _ s2 _ _ s3 (runH pl bv zero start next N g b H).2.1 N
    have hd := dump_eq pl _ _ _ _ hr.recs
    rw [i2] at hr hd
    simp only [runH, runV]
    rw [i1, i2, hd, hr.beam]
    exact ⟨rfl, rfl, (i3.trans s1).trans hr.keeps, hr.ok⟩

end Lcode.Mem
