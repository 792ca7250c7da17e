import Verif.Lemmas.ShiftRun
import Verif.Props.Solve
import Verif.Props.RoundedCrossing

/-!
# Where the origin is

A problem that is moved as a whole — surfaces, temperatures and the source — is the same problem.
In exact arithmetic every history of the moved problem is the moved history, and the program can
write exactly the same outputs.  In double precision this is lost: a neutron that leaves a slab near
the origin stays in the same slab further away.
-/

namespace Minimc.Props

open Classical Spec

/-- The tracking method that an input gets, or the error, does not depend on the origin. -/
theorem C95_method (v : Point) (t : TrackingType) (w : World) :
    createMethod t (shiftWorld v w) = createMethod t w := by
  have : (shiftWorld v w).hasConstantTemperature = w.hasConstantTemperature := by
    unfold World.hasConstantTemperature shiftWorld
    dsimp only
    rw [shift_isConstant]
  unfold createMethod
  rw [this]

/-- Every history of the moved problem is the moved history: it fails in the same way, or has the
same particles with the same events, energies, directions, weights and indirect effects, at moved
places. -/
theorem C95_history_partial (v : Point) {P : Problem}
    (h : ∀ c ∈ P.world.cells, CanShift v c) (fuel e : ℕ) :
    (shiftProblem v P).history fuel e = (P.history fuel e).map (List.map (shiftParticle v)) :=
  shift_history v h fuel e

/-- The result of a run does not depend on the origin. -/
theorem C95_results_partial (v : Point) {P : Problem}
    (h : ∀ c ∈ P.world.cells, CanShift v c) (fuel k k' : ℕ) (r : EstimatorSet) :
    SolveResult (shiftProblem v P) fuel k (shiftSet v r) k' ↔ SolveResult P fuel k r k' := by
  refine ⟨fun hr => ?_, shift_solve v h⟩
  have hb : ∀ c ∈ (shiftProblem v P).world.cells, CanShift (back v) c := by
    intro c hc
    obtain ⟨c', hc', rfl⟩ := List.mem_map.1 hc
    exact canShift_back v (h c' hc')
  have := shift_solve (back v) hb hr
  rwa [shift_back_problem, shift_back_set] at this

/-- The outputs that the program can write, over all schedules of the threads. -/
def outputs (P : Problem) (fuel : ℕ) : Set Chars :=
  { t | ∃ r k, SolveResult P fuel 0 r k ∧ t = outputText P.batchsize r }

/-- The output does not depend on the origin. -/
theorem C95_output_partial (v : Point) {P : Problem}
    (h : ∀ c ∈ P.world.cells, CanShift v c) (fuel : ℕ) :
    outputs (shiftProblem v P) fuel = outputs P fuel := by
  have hle : ∀ (v : Point) (P : Problem), (∀ c ∈ P.world.cells, CanShift v c) →
      outputs P fuel ⊆ outputs (shiftProblem v P) fuel := by
    rintro v P h _ ⟨r, k, hr, rfl⟩
    exact ⟨shiftSet v r, k, shift_solve v h hr, (shift_text v _ r).symm⟩
  refine Set.Subset.antisymm ?_ (hle v P h)
  have hb : ∀ c ∈ (shiftProblem v P).world.cells, CanShift (back v) c := by
    intro c hc
    obtain ⟨c', hc', rfl⟩ := List.mem_map.1 hc
    exact canShift_back v (h c' hc')
  have := hle (back v) (shiftProblem v P) hb
  rwa [shift_back_problem] at this

/-- Instance: the slab of `slabProblem` can be moved anywhere, and then has planes elsewhere. -/
theorem slab_canShift (v : Point) (n t : ℕ) :
    ∀ c ∈ (slabProblem n t).world.cells, CanShift v c := by
  intro c hc
  right
  have hc : c ∈ (absorbingWorld slabWalls 0).cells := hc
  simp only [absorbingWorld, List.mem_cons, List.not_mem_nil, or_false] at hc
  rcases hc with rfl | rfl | rfl <;> simp [slabWalls, plane1, plane3]

example : ∃ r k, SolveResult (shiftProblem ⟨5, -2, 1 / 3⟩ (slabProblem 1000 8)) 1 0 r k ∧
    (shiftProblem ⟨5, -2, 1 / 3⟩ (slabProblem 1000 8)).source.position = ⟨7, -2, 1 / 3⟩ := by
  obtain ⟨r, k, h⟩ := C32_result_exists (slabProblem_fresh 1000 8) (slabProblem_histories 1000 8)
  refine ⟨_, k, (C95_results_partial _ (slab_canShift _ 1000 8) 1 0 k r).2 h, ?_⟩
  change (⟨2, 0, 0⟩ : Point) + ⟨5, -2, 1 / 3⟩ = _
  change (⟨2 + 5, 0 + -2, 0 + 1 / 3⟩ : Point) = _
  norm_num

/-- A cell with a cylinder can be moved along the axis, and no further. -/
example : CanShift ⟨5, 0, 0⟩ ⟨"pipe", [(⟨1, "wall", .cylinderX 2⟩, true)], none, .constant 300⟩ ∧
    ¬ CanShift ⟨0, 1, 0⟩ ⟨"pipe", [(⟨1, "wall", .cylinderX 2⟩, true)], none, .constant 300⟩ := by
  constructor
  · exact Or.inl ⟨rfl, rfl⟩
  · rintro (h | h)
    · exact one_ne_zero h.1
    · exact h _ (List.mem_singleton.2 rfl) 2 rfl

/-- In double precision the same neutron leaves a slab between planes at 0 and 2 and, with
everything moved by 64, stays in it: it is reported as having crossed the surface into the slab. -/
theorem C95_double_violated {rnd : ℝ → ℝ} (h : Nearest rnd) (m : Material) {p : Particle}
    (hc : p.cell = some (slabCell m)) (hp : p.position = ⟨65, 0, 0⟩)
    (hd : p.direction = ⟨-1, 0, 0⟩) {dc : ℝ} (h1 : 1 ≤ dc) :
    (∃ q, Rounded.flight rnd (slabWorld m) p (dc : WithTop ℝ) = .ok (false, q) ∧
      q.isAlive = true ∧ q.event = .surfaceCross ∧ q.cell = some (slabCell m)) ∧
    (shiftParticle ⟨-64, 0, 0⟩ p).position = ⟨1, 0, 0⟩ ∧
    ∃ q, Rounded.flight rnd (shiftWorld ⟨-64, 0, 0⟩ (slabWorld m))
        (shiftParticle ⟨-64, 0, 0⟩ p) (dc : WithTop ℝ) = .ok (false, q) ∧
      q.isAlive = false ∧ q.event = .leak := by
  refine ⟨?_, ?_, ?_⟩
  · obtain ⟨q, r, h2, h3, h4, -⟩ := C75_leak_violated h m hc hp hd h1 h1
    exact ⟨q, h2, by simp [Particle.isAlive, h3], h3, h4⟩
  · change p.position + ⟨-64, 0, 0⟩ = _
    rw [hp]
    change (⟨65 + -64, 0 + 0, 0 + 0⟩ : Point) = _
    norm_num
  · have d0 := IsDouble.zero
    have d1 := IsDouble.one
    have hlow0 : shiftSurface ⟨-64, 0, 0⟩ slabLow = ⟨1, "low", .planeX 0⟩ := by
      change (⟨1, "low", .planeX (64 + -64)⟩ : SurfaceObj) = _
      norm_num
    have hhigh0 : shiftSurface ⟨-64, 0, 0⟩ slabHigh = ⟨2, "high", .planeX 2⟩ := by
      change (⟨2, "high", .planeX (66 + -64)⟩ : SurfaceObj) = _
      norm_num
    set cell : Cell := ⟨"slab", [(⟨1, "low", .planeX 0⟩, false), (⟨2, "high", .planeX 2⟩, true)],
      some m, .constant 300⟩ with hcell0
    have hslab : shiftCell ⟨-64, 0, 0⟩ (slabCell m) = cell := by
      simp only [shiftCell, slabCell, List.map_cons, List.map_nil, hlow0, hhigh0, shiftField, cell]
    set pp := shiftParticle ⟨-64, 0, 0⟩ p with hpp
    have hpos : pp.position = ⟨1, 0, 0⟩ := by
      change p.position + ⟨-64, 0, 0⟩ = _
      rw [hp]
      change (⟨65 + -64, 0 + 0, 0 + 0⟩ : Point) = _
      norm_num
    have hdir : pp.direction = ⟨-1, 0, 0⟩ := hd
    have hcl : pp.getCell = .ok cell := by
      have : pp.cell = some cell := by
        change p.cell.map _ = _
        rw [hc, Option.map_some, hslab]
      simp [Particle.getCell, this]
    have hlow : Rounded.distance rnd (.planeX 0) ⟨1, 0, 0⟩ ⟨-1, 0, 0⟩ =
        ((1 : ℝ) : WithTop ℝ) := by
      rw [Rounded.plane_distance_eq h (by exact d1) (by exact d1.neg)] <;> norm_num [d1, d1.neg]
    have hhigh : Rounded.distance rnd (.planeX 2) ⟨1, 0, 0⟩ ⟨-1, 0, 0⟩ = ⊤ := by
      rw [Rounded.plane_distance_eq h (by exact d1) (by exact d1.neg)] <;> norm_num [d1, d1.neg]
    have hns : Rounded.nearestSurface rnd cell pp.position pp.direction =
        .ok (⟨1, "low", .planeX 0⟩, ((1 : ℝ) : WithTop ℝ)) := by
      rw [hpos, hdir]
      have : Rounded.nearestFrom rnd ⟨1, 0, 0⟩ ⟨-1, 0, 0⟩ ⟨1, "low", .planeX 0⟩
          [(⟨2, "high", .planeX 2⟩, true)] = ⟨1, "low", .planeX 0⟩ := by
        rw [Rounded.nearestFrom, if_neg]
        · rfl
        · change ¬ Rounded.distance rnd (.planeX 2) _ _ < Rounded.distance rnd (.planeX 0) _ _
          rw [hlow, hhigh]
          simp
      simp only [Rounded.nearestSurface, cell, this]
      exact congrArg (fun d => Except.ok ((⟨1, "low", .planeX 0⟩ : SurfaceObj), d)) hlow
    have hlt : ¬ ((dc : WithTop ℝ) < ((1 : ℝ) : WithTop ℝ)) := by
      rw [WithTop.coe_lt_coe]; linarith
    set x := rnd ((1 : ℝ) + rnd (-1 * rnd (1 + nudge))) with hx
    have hx0 : x < 0 := by
      rw [hx, h.self Rounded.isDouble_step, neg_one_mul, h.self Rounded.isDouble_step.neg]
      have he : (1 : ℝ) + -(1 + nudge) = -(20 / 2 ^ 53) := by rw [Rounded.nudge_eq]; ring
      rw [he]
      have := (abs_le.1 (h.err (-(20 / 2 ^ 53)))).2
      rw [abs_neg] at this
      norm_num at this ⊢
      linarith
    have hxd : IsDouble x := h.isDouble _
    have hz : ∀ s : ℝ, rnd (0 + rnd (0 * s)) = 0 := by
      intro s; rw [zero_mul, h.zero, add_zero, h.zero]
    have hfind : Rounded.findCellContaining rnd (shiftWorld ⟨-64, 0, 0⟩ (slabWorld m)) ⟨x, 0, 0⟩ =
        .ok ⟨"below", [(⟨1, "low", .planeX 0⟩, true)], none, .constant 300⟩ := by
      have hw : (shiftWorld ⟨-64, 0, 0⟩ (slabWorld m)).cells = [cell,
          ⟨"below", [(⟨1, "low", .planeX 0⟩, true)], none, .constant 300⟩,
          ⟨"above", [(⟨2, "high", .planeX 2⟩, false)], none, .constant 300⟩] := by
        simp only [shiftWorld, slabWorld, List.map_cons, List.map_nil, hslab]
        simp only [shiftCell, List.map_cons, List.map_nil, hlow0, hhigh0, shiftField]
      have hlow' : Rounded.contains rnd (.planeX 0) ⟨x, 0, 0⟩ = true := by
        rw [Rounded.plane_contains h (by exact hxd)]
        exact decide_eq_true hx0
      have h2 : Rounded.cellContains rnd cell ⟨x, 0, 0⟩ = false := by
        simp only [Rounded.cellContains, cell, List.all_cons, hlow']
        rfl
      have h3 : Rounded.cellContains rnd
          ⟨"below", [(⟨1, "low", .planeX 0⟩, true)], none, .constant 300⟩ ⟨x, 0, 0⟩ = true := by
        simp only [Rounded.cellContains, List.all_cons, hlow']
        rfl
      rw [Rounded.findCellContaining, hw]
      simp [h2, h3]
    refine ⟨{ pp with
      position := ⟨x, 0, 0⟩
      cell := some ⟨"below", [(⟨1, "low", .planeX 0⟩, true)], none, .constant 300⟩
      currentSurface := some ⟨1, "low", .planeX 0⟩, event := .leak }, ?_, rfl, rfl⟩
    rw [Rounded.flight, hcl]
    simp only [bind, Except.bind, hns]
    simp only [hlt, if_false, Rounded.crossSurface, bind, Except.bind, Rounded.nudged,
      Rounded.stream, Rounded.add, Rounded.smul, hpos, hdir, ← hx, hz, hfind]
    simp

/-- Such a particle exists, and so does a rounding. -/
example (m : Material) : Nearest double ∧ ∃ p : Particle, p.cell = some (slabCell m) ∧
    p.position = ⟨65, 0, 0⟩ ∧ p.direction = ⟨-1, 0, 0⟩ :=
  ⟨double_nearest,
    { Particle.ofBorn ⟨⟨65, 0, 0⟩, ⟨-1, 0, 0⟩, .group 1, .neutron, 1, none⟩ with
      cell := some (slabCell m) }, rfl, rfl, rfl⟩

end Minimc.Props
