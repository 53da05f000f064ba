import Verif.Gen.Charge
import Verif.Beam2D.DataProps
import Verif.Beam2D.Pusher
import Verif.Beam3D.Move

/-!
Generated beams as the solvers receive them, and the user's parameters (C35).
-/

namespace Lcode.Gen

open Lcode.Beam2D (IsArgsort gather)
open Lcode.Beam3D (InLayer)

variable {S T : Type}

/-- Parameters of a beam for which C35 is claimed. -/
structure Shape.Valid (b : Shape) : Prop where
  dxi : 0 < b.dxi
  rMax : 0 < b.rMax
  perLayer : 0 < b.perLayer
  current : b.current ≠ 0
  length : ∀ p ∈ b.segs, 0 < p.length
  radius : ∀ p ∈ b.segs, 0 < p.radius
  levels : ∀ p ∈ b.segs, ∀ m, p.eshape = .multi m → 0 < m

/-- C35 in 2D. -/
theorem generated_2d (b : Shape) (hb : b.Valid) (g : Rng S) (hg : g.Valid) (argsort : List ℝ → List ℕ) (hs : IsArgsort (· ≤ ·) argsort) (s : S) (beam : List (GRow Tr2))
    (h : generateArray Segment.trans2 b g s argsort = some beam) :
    (beam.map GRow.id).Perm ((List.range beam.length).map fun i : ℕ => (i : ℤ) + 1) ∧
    beam.Pairwise (fun p q => q.xi ≤ p.xi) ∧
    (∀ r ∈ beam, ∃ k : ℕ, (k + 1 / 2) * b.dxi < totalLength b.segs ∧ InLayer b.dxi k r.xi) ∧
    (∀ k : ℕ, (k + 1 / 2) * b.dxi < totalLength b.segs → LayerOk (Ok2 b.rMax) OkE b k (beam.filter fun r => decide (InLayer b.dxi k r.xi))) ∧
    beam.length = ((List.range (layersNumber b)).map (layerCount b)).sum :=
  generated_beam Segment.trans2 (Ok2 b.rMax) OkE b g hg hb.dxi hb.length (fun p hp s d n o ho => trans2_ok g hg b.rMax hb.rMax p (hb.radius p hp) s d n o ho)
    (fun p hp s d n o ho => energy_ok g hg p (hb.levels p hp) s d n o ho) argsort hs s beam h

/-- C35 in 3D. -/
theorem generated_3d (b : Shape) (hb : b.Valid) (g : Rng S) (hg : g.Valid) (argsort : List ℝ → List ℕ) (hs : IsArgsort (· ≤ ·) argsort) (s : S) (beam : List (GRow Tr3))
    (h : generateArray Segment.trans3 b g s argsort = some beam) :
    (beam.map GRow.id).Perm ((List.range beam.length).map fun i : ℕ => (i : ℤ) + 1) ∧
    beam.Pairwise (fun p q => q.xi ≤ p.xi) ∧
    (∀ r ∈ beam, ∃ k : ℕ, (k + 1 / 2) * b.dxi < totalLength b.segs ∧ InLayer b.dxi k r.xi) ∧
    (∀ k : ℕ, (k + 1 / 2) * b.dxi < totalLength b.segs → LayerOk (Ok3 b.rMax) OkE b k (beam.filter fun r => decide (InLayer b.dxi k r.xi))) ∧
    beam.length = ((List.range (layersNumber b)).map (layerCount b)).sum :=
  generated_beam Segment.trans3 (Ok3 b.rMax) OkE b g hg hb.dxi hb.length (fun p hp s d n o ho => trans3_ok g hg b.rMax hb.rMax p (hb.radius p hp) s d n o ho)
    (fun p hp s d n o ho => energy_ok g hg p (hb.levels p hp) s d n o ho) argsort hs s beam h

theorem inLayer_neg {h : ℝ} (hh : 0 < h) {k : ℕ} {z : ℝ} (hz : InLayer h k z) : z < 0 := by
  have : 0 ≤ h * (k : ℝ) := by positivity
  linarith [hz.2]

theorem no_layer (b : Shape) (hd : 0 < b.dxi) (beam : List (GRow T)) (h : ∀ r ∈ beam, ∃ k : ℕ, (k + 1 / 2) * b.dxi < totalLength b.segs ∧ InLayer b.dxi k r.xi) (k : ℕ) (hk : ¬ (k + 1 / 2) * b.dxi < totalLength b.segs) :
    (beam.filter fun r => decide (InLayer b.dxi k r.xi)) = [] := by
  rw [List.filter_eq_nil_iff]
  intro r hr
  simp only [decide_eq_true_eq]
  intro hin
  obtain ⟨k', h1, h2⟩ := h r hr
  rw [inLayer_unique hd h2 hin] at h1
  exact hk h1

/-- C35: a generated 3D beam as the solver receives it: layer `k` gets the prescribed number of macroparticles, with the prescribed total charge (up to less than one macroparticle where the current has the sign of the beam), and after the layers of the beam there is nothing left. -/
theorem generated_3d_delivered (b : Shape) (hb : b.Valid) (g : Rng S) (hg : g.Valid) (argsort : List ℝ → List ℕ) (hs : IsArgsort (· ≤ ·) argsort) (s : S) (beam : List (GRow Tr3))
    (h : generateArray Segment.trans3 b g s argsort = some beam) (srt : List ℝ → List ℕ) (hsrt : IsArgsort (· ≤ ·) srt) (n : ℕ) (layers : List (Lcode.Beam3D.Beam ℝ))
    (hl : layers = (Lcode.Beam3D.sourceLayers b.dxi (Lcode.Beam3D.sourceInit srt (Lcode.Beam3D.Beam.initGenerated (beam.map GRow.to3))) 0 n).1) :
    layers.length = n ∧ ∀ (k : ℕ) l, layers[k]? = some l →
      l.rows.length = (if (k + 1 / 2) * b.dxi < totalLength b.segs then layerCount b k else 0) ∧
      (l.rows.map Lcode.Beam3D.Row.qnorm).sum = (if (k + 1 / 2) * b.dxi < totalLength b.segs then layerCount b k * (2 * b.current / b.perLayer) else 0) ∧
      (∀ r ∈ l.rows, InLayer b.dxi k r.xi) := by
  obtain ⟨hid, hsort, hin, hlay, hlen⟩ := generated_3d b hb g hg argsort hs s beam h
  set t := (beam.map GRow.to3).map fun r => ({ r with dt := 0, remaining := 0 } : Lcode.Beam3D.Row ℝ) with ht
  have hrows : (Lcode.Beam3D.Beam.initGenerated (beam.map GRow.to3)).rows = t := Lcode.Beam3D.initGenerated_rows _
  have hwf : (Lcode.Beam3D.Beam.initGenerated (beam.map GRow.to3)).WF beam.length := by
    constructor <;> simp [Lcode.Beam3D.Beam.initGenerated]
  have hneg : ∀ r ∈ (Lcode.Beam3D.Beam.initGenerated (beam.map GRow.to3)).rows, r.xi < 0 := by
    intro r hr
    rw [hrows, ht, List.map_map] at hr
    obtain ⟨r0, hr0, rfl⟩ := List.mem_map.mp hr
    obtain ⟨k, -, h2⟩ := hin r0 hr0
    exact inLayer_neg hb.dxi h2
  obtain ⟨hsl, -⟩ := Lcode.Beam3D.source_layers srt hsrt _ _ hwf b.dxi hb.dxi hneg n
  obtain ⟨hp, -, -⟩ := Lcode.Beam3D.source_sorted srt hsrt _ _ hwf
  rw [← hl] at hsl
  rw [hrows] at hp
  constructor
  · have := congrArg List.length hsl
    simpa using this
  · intro k l hk
    have hk' : (layers.map Lcode.Beam3D.Beam.rows)[k]? = some l.rows := by rw [List.getElem?_map, hk]; rfl
    rw [hsl] at hk'
    obtain ⟨hkn, hk''⟩ := List.getElem?_eq_some_iff.mp hk'
    simp only [List.getElem_map, List.getElem_range] at hk''
    have hperm : l.rows.Perm ((beam.filter fun r => decide (InLayer b.dxi k r.xi)).map fun r => ({ r.to3 with dt := 0, remaining := 0 } : Lcode.Beam3D.Row ℝ)) := by
      rw [← hk'']
      refine (hp.filter _).trans (List.Perm.of_eq ?_)
      rw [ht, List.map_map, List.filter_map]
      rfl
    refine ⟨?_, ?_, ?_⟩
    · rw [hperm.length_eq, List.length_map]
      split
      · rename_i hc; exact (hlay k hc).count
      · rename_i hc; rw [no_layer b hb.dxi beam hin k hc]; rfl
    · rw [(hperm.map _).sum_eq, List.map_map]
      have e : (beam.filter fun r => decide (InLayer b.dxi k r.xi)).map (Lcode.Beam3D.Row.qnorm ∘ fun r => ({ r.to3 with dt := 0, remaining := 0 } : Lcode.Beam3D.Row ℝ)) =
          (beam.filter fun r => decide (InLayer b.dxi k r.xi)).map GRow.qnorm := rfl
      rw [e]
      split
      · rename_i hc; exact layer_charge (hlay k hc) hb.current hb.perLayer
      · rename_i hc; rw [no_layer b hb.dxi beam hin k hc]; rfl
    · intro r hr
      obtain ⟨r0, hr0, rfl⟩ := List.mem_map.mp (hperm.mem_iff.mp hr)
      have : InLayer b.dxi k r0.xi := by simpa using (List.mem_filter.mp hr0).2
      exact this

theorem inLayer2_iff {h : ℝ} {k : ℕ} {z : ℝ} (hz : z < 0) : Lcode.Beam2D.InLayer h k z ↔ InLayer h k z := by
  unfold Lcode.Beam2D.InLayer InLayer
  have e1 : -(((k : ℝ) + 1) * h) = -(h * (k + 1)) := by ring
  have e2 : -((k : ℝ) * h) = -(h * k) := by ring
  rw [e1, e2]
  constructor
  · rintro ⟨a, b | rfl⟩
    · exact ⟨a, b⟩
    · exact ⟨a, by simpa using hz⟩
  · rintro ⟨a, b⟩; exact ⟨a, Or.inl b⟩

/-- C35: the same for a generated 2D beam (within the length of window the 2D beam source supports). -/
theorem generated_2d_delivered (b : Shape) (hb : b.Valid) (g : Rng S) (hg : g.Valid) (argsort : List ℝ → List ℕ) (hs : IsArgsort (· ≤ ·) argsort) (s : S) (beam : List (GRow Tr2))
    (h : generateArray Segment.trans2 b g s argsort = some beam) (srt : List ℝ → List ℕ) (hsrt : IsArgsort (· ≤ ·) srt) (n : ℕ) (hlim : n * b.dxi ≤ 99999) (layers : List (Lcode.Beam2D.Beam ℝ))
    (hl : layers = (Lcode.Beam2D.Source.layers b.dxi (Lcode.Beam2D.Source.init srt (Lcode.Beam2D.Beam.fresh (beam.map GRow.to2))) 0 n).1) :
    layers.length = n ∧ ∀ (k : ℕ) l, layers[k]? = some l →
      l.particles.length = (if (k + 1 / 2) * b.dxi < totalLength b.segs then layerCount b k else 0) ∧
      (l.particles.map Lcode.Beam2D.Particle.qnorm).sum = (if (k + 1 / 2) * b.dxi < totalLength b.segs then layerCount b k * (2 * b.current / b.perLayer) else 0) ∧
      (∀ r ∈ l.particles, InLayer b.dxi k r.xi ∧ 0 ≤ r.r ∧ r.r < b.rMax) := by
  obtain ⟨hid, hsort, hin, hlay, hlen⟩ := generated_2d b hb g hg argsort hs s beam h
  have hneg : ∀ r ∈ beam, r.xi < 0 := fun r hr => by
    obtain ⟨k, -, h2⟩ := hin r hr
    exact inLayer_neg hb.dxi h2
  have hneg' : ∀ p ∈ (Lcode.Beam2D.Beam.fresh (beam.map GRow.to2)).particles, p.xi < 0 := by
    intro p hp
    obtain ⟨r, hr, rfl⟩ := List.mem_map.mp hp
    exact hneg r hr
  obtain ⟨Sr, hp, -, hsl⟩ := Lcode.Beam2D.source_layers srt hsrt _ (Lcode.Beam2D.wf_fresh _) (fun p hp => (hneg' p hp).le) b.dxi hb.dxi n hlim
  rw [← hl] at hsl
  constructor
  · rw [hsl]; simp
  · intro k l hk
    rw [hsl] at hk
    obtain ⟨hkn, hk'⟩ := List.getElem?_eq_some_iff.mp hk
    simp only [List.getElem_map, List.getElem_range] at hk'
    have hperm : l.particles.Perm ((beam.filter fun r => decide (InLayer b.dxi k r.xi)).map GRow.to2) := by
      rw [← hk']
      refine (hp.filter _).trans (List.Perm.of_eq ?_)
      show (beam.map GRow.to2).filter _ = _
      rw [List.filter_map]
      congr 1
      apply List.filter_congr
      intro r hr
      have : Lcode.Beam2D.InLayer b.dxi k r.xi ↔ InLayer b.dxi k r.xi := inLayer2_iff (hneg r hr)
      exact decide_eq_decide.mpr this
    refine ⟨?_, ?_, ?_⟩
    · rw [hperm.length_eq, List.length_map]
      split
      · rename_i hc; exact (hlay k hc).count
      · rename_i hc; rw [no_layer b hb.dxi beam hin k hc]; rfl
    · rw [(hperm.map _).sum_eq, List.map_map]
      have e : (beam.filter fun r => decide (InLayer b.dxi k r.xi)).map (Lcode.Beam2D.Particle.qnorm ∘ GRow.to2) =
          (beam.filter fun r => decide (InLayer b.dxi k r.xi)).map GRow.qnorm := rfl
      rw [e]
      split
      · rename_i hc; exact layer_charge (hlay k hc) hb.current hb.perLayer
      · rename_i hc; rw [no_layer b hb.dxi beam hin k hc]; rfl
    · intro r hr
      obtain ⟨r0, hr0, rfl⟩ := List.mem_map.mp (hperm.mem_iff.mp hr)
      have hin0 : InLayer b.dxi k r0.xi := by simpa using (List.mem_filter.mp hr0).2
      have hc : (k + 1 / 2) * b.dxi < totalLength b.segs := by
        by_contra hc
        rw [no_layer b hb.dxi beam hin k hc] at hr0
        cases hr0
      obtain ⟨j, p, -, -, -, hrow⟩ := (hlay k hc).seg
      have := (hrow r0 hr0).2.1
      exact ⟨hin0, this.1, this.2.1⟩

end Lcode.Gen
