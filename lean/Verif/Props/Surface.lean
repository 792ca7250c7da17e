import Verif.Lemmas.Surface

/-!
# C04, C05, C06: rays and surfaces
-/

namespace Minimc.Props

open Minimc Spec

/-- **C04** A finite distance is positive, is reached on the surface, and no earlier
point of the ray is on the surface. -/
theorem C04_distance_first_crossing (s : Surface) (o : Point) (d : Direction) (t : ℝ)
    (hd : UnitVec d) (h : s.distance o d = (t : WithTop ℝ)) :
    0 < t ∧ OnSurface s (along o d t) ∧ ∀ t', 0 < t' → t' < t → ¬ OnSurface s (along o d t') := by
  have hc := firstCrossing_surface s o d hd
  exact ⟨hc.pos t h, hc.zero t h, hc.first t h⟩

/-- **C04** No crossing is missed: if the ray is on different sides at two positive
distances, the reported distance is finite and not beyond the larger of the two. -/
theorem C04_no_missed_crossing (s : Surface) (o : Point) (d : Direction) (t₁ t₂ : ℝ)
    (hd : UnitVec d) (h1 : 0 < t₁) (h12 : t₁ ≤ t₂)
    (hside : ¬ (Inside s (along o d t₁) ↔ Inside s (along o d t₂))) :
    ∃ t : ℝ, s.distance o d = (t : WithTop ℝ) ∧ t ≤ t₂ := by
  have hc := firstCrossing_surface s o d hd
  have hle : s.distance o d ≤ (t₂ : WithTop ℝ) := by
    by_contra hlt
    rw [not_le] at hlt
    apply hside
    exact hc.before t₁ t₂ h1 (lt_of_le_of_lt (WithTop.coe_le_coe.2 h12) hlt) (by linarith) hlt
  obtain ⟨t, ht⟩ := WithTop.ne_top_iff_exists.1 (ne_top_of_le_ne_top WithTop.coe_ne_top hle)
  exact ⟨t, ht.symm, by rw [← ht] at hle; exact WithTop.coe_le_coe.1 hle⟩

/-- Entering a sphere of radius 2 at the origin from (-3, 0, 0) along +x. -/
example : (Surface.sphere ⟨0, 0, 0⟩ 2).distance ⟨-3, 0, 0⟩ ⟨1, 0, 0⟩ = ((1 : ℝ) : WithTop ℝ) := by
  have h4 : Real.sqrt 16 = 4 := by
    rw [show (16:ℝ) = 4 ^ 2 by norm_num]; exact Real.sqrt_sq (by norm_num)
  unfold Surface.distance Surface.sphereDistance Surface.solveQuadratic
  simp only [Point.dot, Point.sub_x, Point.sub_y, Point.sub_z]
  norm_num [h4]

example : ∃ t : ℝ, (Surface.sphere ⟨0, 0, 0⟩ 2).distance ⟨-3, 0, 0⟩ ⟨1, 0, 0⟩ = (t : WithTop ℝ) ∧
    t ≤ 3 := by
  apply C04_no_missed_crossing _ _ _ (1 / 2) 3 (by norm_num [UnitVec]) (by norm_num) (by norm_num)
  norm_num [Inside, surfaceValue, along]

/-- Crossing the plane x = 3 from the origin along (3/5, 4/5, 0). -/
example : (Surface.planeX 3).distance ⟨0, 0, 0⟩ ⟨3 / 5, 4 / 5, 0⟩ = ((5 : ℝ) : WithTop ℝ) := by
  unfold Surface.distance Surface.planeXDistance
  simp only [Point.dot]
  norm_num

/-- Leaving a cylinder of radius 2 from its axis. -/
example : (Surface.cylinderX 2).distance ⟨7, 0, 0⟩ ⟨0, 1, 0⟩ = ((2 : ℝ) : WithTop ℝ) := by
  have h4 : Real.sqrt 16 = 4 := by
    rw [show (16:ℝ) = 4 ^ 2 by norm_num]; exact Real.sqrt_sq (by norm_num)
  unfold Surface.distance Surface.cylinderXDistance Surface.solveQuadratic
  simp only [Point.dot]
  norm_num [h4]

/-- **C05** An infinite distance means that all points further along the ray are on
the same side of the surface. -/
theorem C05_infinite_never_crosses (s : Surface) (o : Point) (d : Direction)
    (hd : UnitVec d) (h : s.distance o d = ⊤) (t₁ t₂ : ℝ) (h1 : 0 < t₁) (h2 : 0 < t₂) :
    Inside s (along o d t₁) ↔ Inside s (along o d t₂) := by
  have hc := firstCrossing_surface s o d hd
  rw [h] at hc
  exact hc.before t₁ t₂ h1 (WithTop.coe_lt_top _) h2 (WithTop.coe_lt_top _)

/-- A tangent ray grazes the unit sphere at (0, 1, 0): no crossing is reported. -/
example : (Surface.sphere ⟨0, 0, 0⟩ 1).distance ⟨-3, 1, 0⟩ ⟨1, 0, 0⟩ = ⊤ := by
  unfold Surface.distance Surface.sphereDistance Surface.solveQuadratic
  simp only [Point.dot, Point.sub_x, Point.sub_y, Point.sub_z]
  norm_num

/-- Surfaces whose `Contains` agrees with their `Distance`: spheres, planes, and
cylinders of radius 0 or 1 (see `C06_side_changes_violated` for the others). -/
def Conforming : Surface → Prop
  | .cylinderX r => r ^ 2 = r ^ 4
  | _ => True

/-- **C06** (conforming surfaces) `Contains` is the documented strict negative side. -/
theorem C06_contains_partial (s : Surface) (hs : Conforming s) (p : Point) :
    s.contains p = true ↔ Inside s p := by
  cases s with
  | sphere c r => exact sphereContains_iff c r p
  | planeX c => exact planeXContains_iff c p
  | cylinderX r =>
    unfold Conforming at hs
    rw [cylinderXContains_iff, ← hs]
    unfold Inside surfaceValue
    constructor <;> intro h <;> linarith

/-- **C06** exactly the conforming surfaces have a `Contains` that is the documented
negative side. -/
theorem C06_contains_iff_conforming (s : Surface) :
    (∀ p, s.contains p = true ↔ Inside s p) ↔ Conforming s := by
  refine ⟨fun h => ?_, fun hs p => C06_contains_partial s hs p⟩
  cases s with
  | sphere c r => trivial
  | planeX c => trivial
  | cylinderX r =>
    by_contra hne
    unfold Conforming at hne
    -- a point whose squared distance from the axis is the smaller of the two thresholds
    have key : ∀ m : ℝ, 0 ≤ m → (m < r ^ 4 ↔ m < r ^ 2) := by
      intro m hm
      have := h ⟨0, Real.sqrt m, 0⟩
      rw [cylinderXContains_iff] at this
      unfold Inside surfaceValue at this
      simp only [Real.sq_sqrt hm] at this
      constructor
      · intro h'; have := this.1 (by linarith); linarith
      · intro h'; have := this.2 (by linarith); linarith
    have h2 : (0:ℝ) ≤ r ^ 2 := by positivity
    have h4 : (0:ℝ) ≤ r ^ 4 := by positivity
    rcases lt_or_gt_of_ne hne with hlt | hlt
    · exact lt_irrefl _ ((key _ h2).1 hlt)
    · exact lt_irrefl _ ((key _ h4).2 hlt)

/-- **C06** (conforming surfaces) From a point off the surface, the side does not change
before the reported distance. -/
theorem C06_side_constant_before_partial (s : Surface) (hs : Conforming s) (o : Point)
    (d : Direction) (hd : UnitVec d) (ho : ¬ OnSurface s o) (t : ℝ) (h0 : 0 ≤ t)
    (ht : (t : WithTop ℝ) < s.distance o d) :
    s.contains (along o d t) = s.contains o := by
  have hc := firstCrossing_surface s o d hd
  have e0 : along o d 0 = o := by ext <;> simp [along]
  rcases eq_or_lt_of_le h0 with rfl | hpos
  · rw [e0]
  · have := hc.start (by rw [e0]; exact ho) t hpos ht
    rw [e0] at this
    rw [Bool.eq_iff_iff, C06_contains_partial s hs, C06_contains_partial s hs]
    exact this

/-- **C06** (conforming surfaces) Just beyond the reported distance the side is the
opposite one. -/
theorem C06_side_flips_after_partial (s : Surface) (hs : Conforming s) (o : Point)
    (d : Direction) (hd : UnitVec d) (ho : ¬ OnSurface s o) (t : ℝ)
    (ht : s.distance o d = (t : WithTop ℝ)) :
    ∃ ε > 0, ∀ t', t < t' → t' < t + ε → s.contains (along o d t') = !s.contains o := by
  have hc := firstCrossing_surface s o d hd
  have hpos := hc.pos t ht
  obtain ⟨ε, hε, h⟩ := hc.after t ht
  refine ⟨ε, hε, fun t' h1 h2 => ?_⟩
  have hb := C06_side_constant_before_partial s hs o d hd ho (t / 2) (by linarith)
    (by rw [ht]; exact WithTop.coe_lt_coe.2 (by linarith))
  rw [← hb, Bool.eq_iff_iff, C06_contains_partial s hs, Bool.not_eq_true',
    ← Bool.not_eq_true, C06_contains_partial s hs]
  exact h (t / 2) t' (by linarith) (by linarith) h1 h2

/-- The hypotheses are met by a sphere seen from inside, with a finite distance. -/
example : (Surface.sphere ⟨0, 0, 0⟩ 2).contains (along ⟨0, 0, 0⟩ ⟨0, 0, 1⟩ 1)
    = (Surface.sphere ⟨0, 0, 0⟩ 2).contains ⟨0, 0, 0⟩ := by
  have h4 : Real.sqrt 16 = 4 := by
    rw [show (16:ℝ) = 4 ^ 2 by norm_num]; exact Real.sqrt_sq (by norm_num)
  apply C06_side_constant_before_partial _ (show Conforming (.sphere _ _) from trivial) _ _
    (by norm_num [UnitVec])
    (by norm_num [OnSurface, surfaceValue]) _ (by norm_num)
  unfold Surface.distance Surface.sphereDistance Surface.solveQuadratic
  simp only [Point.dot, Point.sub_x, Point.sub_y, Point.sub_z]
  norm_num [h4]

/-- **C06 is violated** by cylinders: for radius 2, from a point 3 away from the axis and
heading away from it, the distance is infinite, yet `Contains` changes from true to
false along the ray (the code compares the distance from the axis to the squared
radius). -/
theorem C06_side_changes_violated :
    ∃ (s : Surface) (o : Point) (d : Direction) (t : ℝ), UnitVec d ∧ ¬ OnSurface s o ∧ 0 ≤ t ∧
      (t : WithTop ℝ) < s.distance o d ∧ s.contains (along o d t) ≠ s.contains o := by
  refine ⟨.cylinderX 2, ⟨0, 3, 0⟩, ⟨0, 1, 0⟩, 2, by norm_num [UnitVec],
    by norm_num [OnSurface, surfaceValue], by norm_num, ?_, ?_⟩
  · have h16 : Real.sqrt 16 = 4 := by
      rw [show (16:ℝ) = 4 ^ 2 by norm_num]; exact Real.sqrt_sq (by norm_num)
    have : (Surface.cylinderX 2).distance ⟨0, 3, 0⟩ ⟨0, 1, 0⟩ = ⊤ := by
      unfold Surface.distance Surface.cylinderXDistance Surface.solveQuadratic
      simp only [Point.dot]
      norm_num [h16]
    rw [this]
    exact WithTop.coe_lt_top _
  · have h1 : (Surface.cylinderX 2).contains ⟨0, 3, 0⟩ = true := by
      rw [cylinderXContains_iff]; norm_num
    have h2 : (Surface.cylinderX 2).contains (along ⟨0, 3, 0⟩ ⟨0, 1, 0⟩ 2) = false := by
      rw [← Bool.not_eq_true, cylinderXContains_iff]; norm_num [along]
    rw [h1, h2]
    decide

/-- **C06** The condition that the origin is off the surface is needed: from a point of
the plane x = 0 heading to negative x, no crossing is reported but `Contains` is
false at the start and true afterwards. -/
theorem C06_on_surface_violated :
    ∃ (s : Surface) (o : Point) (d : Direction), Conforming s ∧ UnitVec d ∧ OnSurface s o ∧
      s.distance o d = ⊤ ∧ s.contains o = false ∧
      ∀ t > 0, s.contains (along o d t) = true := by
  refine ⟨.planeX 0, ⟨0, 0, 0⟩, ⟨-1, 0, 0⟩, trivial, by norm_num [UnitVec],
    by norm_num [OnSurface, surfaceValue], ?_, ?_, ?_⟩
  · unfold Surface.distance Surface.planeXDistance
    simp [Point.dot]
  · rw [← Bool.not_eq_true, planeXContains_iff]; norm_num [Inside, surfaceValue]
  · intro t ht
    rw [planeXContains_iff]
    simp only [Inside, surfaceValue, along]
    linarith

end Minimc.Props
