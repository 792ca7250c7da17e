import Verif.Props.RoundedRng
import Verif.Props.RoundedCrossing
import Verif.Props.RoundedSelect
import Verif.Lemmas.Transport

/-!
# The rounded functions without rounding

With the identity in place of rounding, the functions of `Verif.Model.Rounded` are those of the rest
of the model, so the two descriptions of the code agree on everything but rounding.
-/

namespace Minimc

theorem Rounded.selectLoop_id {α : Type _} (f : α → Res ℝ) (θ : ℝ) :
    ∀ (acc : ℝ) (xs : List α), Rounded.selectLoop id f θ acc xs = Minimc.selectLoop f θ acc xs
  | _, [] => rfl
  | acc, x :: xs => by
    rw [Rounded.selectLoop, Minimc.selectLoop]
    simp only [id, selectLoop_id f θ (acc + _) xs]

theorem Rounded.sumLoop_id {α : Type _} (f : α → Res ℝ) :
    ∀ (acc : ℝ) (xs : List α), Rounded.sumLoop id f acc xs = Minimc.sumLoop f acc xs
  | _, [] => rfl
  | acc, x :: xs => by
    rw [Rounded.sumLoop, Minimc.sumLoop]
    simp only [id, sumLoop_id f (acc + _) xs]

namespace Props

/-- Choosing a nuclide. -/
theorem C73_exact_nuclide {p : Particle} (hr : Rng.Valid p.rng) :
    Rounded.sampleNuclide id Nuclide.getTotal p = p.sampleNuclide := by
  simp only [Rounded.sampleNuclide, Particle.sampleNuclide, Rounded.getMicroscopicTotal,
    Material.getMicroscopicTotal, Rounded.sample, Particle.sample, Rounded.selectNuclide,
    Material.selectNuclide, Rounded.selectLoop_id, Rounded.sumLoop_id, C72_exact hr, id]
  rfl

/-- Tables and choices of the multigroup classes. -/
theorem C73_exact_multigroup {rng : ℕ} (hr : Rng.Valid rng) (column : List ℝ) (G : ℕ)
    (reactions : List (Reaction × List ℝ)) (probs : List ℝ) (nu : ℝ) (m : Multigroup) (p : Particle)
    (hp : p.energy = .group G) :
    Rounded.columnSum id column = Multigroup.columnSum column ∧
    Rounded.normalizeColumn id column = Multigroup.normalizeColumn column ∧
    Rounded.createTotalXS id G reactions = Multigroup.createTotalXS G reactions ∧
    Rounded.sampleGroup id G probs rng =
      (do match ← Multigroup.selectGroup G probs (Rng.canonical rng).1 with
          | some g => .ok g
          | none => .error .assertFail) ∧
    noexcept (Rounded.sampleReaction id m.total m.reactions G rng) =
      noexcept (do
        let t ← m.getTotal p
        match ← m.selectReaction p ((Rng.canonical rng).1 * t) with
        | some r => .ok r.1
        | none => .error .assertFail) ∧
    Rounded.fissionYield id nu rng = toSize (nu + (Rng.canonical rng).1) := by
  refine ⟨rfl, rfl, rfl, ?_, ?_, ?_⟩
  · simp only [Rounded.sampleGroup, Multigroup.selectGroup, Rounded.selectLoop_id, C72_exact hr]
    rfl
  · have hg : p.energy.getGroup = .ok G := by rw [hp]; rfl
    simp only [Rounded.sampleReaction, Multigroup.getTotal, Multigroup.selectReaction, hg, id,
      Rounded.selectLoop_id, C72_exact hr, bind, Except.bind]
    rcases Multigroup.oneAt m.total G with e | t
    · cases e <;> rfl
    · rfl
  · simp only [Rounded.fissionYield, C72_exact hr, id]

/-- Surfaces and cells. -/
theorem C75_exact_geometry (s : Surface) (c : Cell) (w : World) (p : Point) (d : Direction) :
    Rounded.distance id s p d = s.distance p d ∧ Rounded.contains id s p = s.contains p ∧
    Rounded.cellContains id c p = c.contains p ∧
    Rounded.nearestSurface id c p d = c.nearestSurface p d ∧
    Rounded.findCellContaining id w p = w.findCellContaining p := by
  have hdist : ∀ s : Surface, Rounded.distance id s p d = s.distance p d := by
    intro s
    cases s with
    | sphere center radius => rfl
    | planeX c => rfl
    | cylinderX radius => rfl
  have hcont : ∀ s : Surface, Rounded.contains id s p = s.contains p := by
    intro s
    cases s with
    | sphere center radius => rfl
    | planeX c => rfl
    | cylinderX radius =>
      simp only [Rounded.contains, Surface.contains, Surface.cylinderXContains, Rounded.dot, id,
        Point.dot]
      congr 1
      simp only [eq_iff_iff, and_iff_right_iff_imp]
      intro _
      nlinarith [mul_self_nonneg p.y, mul_self_nonneg p.z]
  have hcell : ∀ c : Cell, Rounded.cellContains id c p = c.contains p := by
    intro c
    simp only [Rounded.cellContains, Cell.contains, hcont]
  refine ⟨hdist s, hcont s, hcell c, ?_, ?_⟩
  · have hfrom : ∀ (ss : List (SurfaceObj × Bool)) (best : SurfaceObj),
        Rounded.nearestFrom id p d best ss = Cell.nearestFrom p d best ss := by
      intro ss
      induction ss with
      | nil => intro best; rfl
      | cons s ss ih =>
        intro best
        simp only [Rounded.nearestFrom, Cell.nearestFrom, hdist, ih]
    simp only [Rounded.nearestSurface, Cell.nearestSurface, hfrom, hdist]
    rfl
  · simp only [Rounded.findCellContaining, World.findCellContaining, hcell]
    rfl

/-- Crossing a surface without perturbations. -/
theorem C75_exact_crossing (w : World) (p : Particle) (s : SurfaceObj) (d : WithTop ℝ)
    (hp : p.indirectEffects = []) (method : Method) :
    Rounded.crossSurface id w p s d = crossSurface method w p s d := by
  have hfind : ∀ q, Rounded.findCellContaining id w q = w.findCellContaining q :=
    fun q => (C75_exact_geometry (.planeX 0) ⟨"", [], none, .constant 0⟩ w q ⟨1, 0, 0⟩).2.2.2.2
  induction d using WithTop.recTopCoe with
  | top => rfl
  | coe d =>
    have e1 : ((d : WithTop ℝ) + (nudge : WithTop ℝ)) = ((d + nudge : ℝ) : WithTop ℝ) := by
      exact_mod_cast rfl
    have e2 : Rounded.stream id p (Rounded.nudged id (d : WithTop ℝ)) =
        p.stream method ((d + nudge : ℝ) : WithTop ℝ) := by
      change _ = (do
        let effects ← streamEffects method p (d + nudge) p.indirectEffects
        .ok { p with
          indirectEffects := effects
          position := p.position + p.direction.smul (d + nudge) })
      simp only [hp, streamEffects, bind, Except.bind]
      change Except.ok _ = _
      rw [← hp]
      rfl
    rw [Rounded.crossSurface, crossSurface, e1, e2]
    rcases p.stream method ((d + nudge : ℝ) : WithTop ℝ) with e | q
    · rfl
    · simp only [bind, Except.bind, hfind, Particle.locate]
      rcases w.findCellContaining q.position with e | c
      · rfl
      · rfl

/-- One flight is the part of a round of the transport loop after the distance to the next collision
has been sampled, up to the collision. -/
theorem C75_exact_flight (w : World) (p : Particle) (dc : WithTop ℝ) (hp : p.indirectEffects = []) :
    Rounded.flight id w p dc = (do
      let c ← p.getCell
      let (s, ds) ← c.nearestSurface p.position p.direction
      if dc < ds then do .ok (true, ← p.stream .surfaceTracking dc)
      else do .ok (false, ← crossSurface .surfaceTracking w p s ds)) := by
  have hns : ∀ c : Cell, Rounded.nearestSurface id c p.position p.direction =
      c.nearestSurface p.position p.direction :=
    fun c => (C75_exact_geometry (.planeX 0) c w p.position p.direction).2.2.2.1
  have hst : Rounded.stream id p dc = p.stream .surfaceTracking dc := by
    induction dc using WithTop.recTopCoe with
    | top => rfl
    | coe d =>
      change _ = (do
        let effects ← streamEffects .surfaceTracking p d p.indirectEffects
        .ok { p with
          indirectEffects := effects
          position := p.position + p.direction.smul d })
      simp only [hp, streamEffects, bind, Except.bind]
      change Except.ok _ = _
      rw [← hp]
      rfl
  simp only [Rounded.flight, hns, hst, C75_exact_crossing w p _ _ hp .surfaceTracking]

/-- Instance: a particle without perturbations. -/
example : (Particle.ofBorn ⟨⟨1, 2, 3⟩, ⟨1, 0, 0⟩, .group 1, .neutron, 5, none⟩).indirectEffects = [] ∧
    Rng.Valid 5 ∧ (Particle.ofBorn ⟨⟨1, 2, 3⟩, ⟨1, 0, 0⟩, .group 1, .neutron, 5, none⟩).energy = .group 1 :=
  ⟨rfl, ⟨by norm_num, by norm_num⟩, rfl⟩

end Props
end Minimc
