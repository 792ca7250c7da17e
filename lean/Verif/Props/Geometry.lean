import Verif.Model.Geometry
import Verif.Props.Surface

/-! # Properties C07, C08 and C38: nearest surface, cell lookup, temperature fields -/

namespace Minimc.Props

open Classical Spec

/-! ## C07 -/

theorem nearestFrom_spec (p : Point) (d : Direction) :
    ∀ (ss : List (SurfaceObj × Bool)) (best : SurfaceObj),
      (Cell.nearestFrom p d best ss = best ∧
        ∀ s ∈ ss, best.shape.distance p d ≤ s.1.shape.distance p d) ∨
      ∃ l b r, ss = l ++ (Cell.nearestFrom p d best ss, b) :: r ∧
        (Cell.nearestFrom p d best ss).shape.distance p d < best.shape.distance p d ∧
        (∀ s ∈ l, (Cell.nearestFrom p d best ss).shape.distance p d < s.1.shape.distance p d) ∧
        (∀ s ∈ r, (Cell.nearestFrom p d best ss).shape.distance p d ≤ s.1.shape.distance p d)
  | [], best => .inl ⟨rfl, by simp⟩
  | s :: ss, best => by
    rw [Cell.nearestFrom]
    by_cases h : s.1.shape.distance p d < best.shape.distance p d
    · rw [if_pos h]
      right
      rcases nearestFrom_spec p d ss s.1 with ⟨h1, h2⟩ | ⟨l, b, r, h1, h2, h3, h4⟩
      · rw [h1]
        exact ⟨[], s.2, ss, rfl, h, by simp, h2⟩
      · refine ⟨s :: l, b, r, ?_, lt_trans h2 h, ?_, h4⟩
        · rw [List.cons_append]; exact congrArg (s :: ·) h1
        · intro s' hs'
          rcases List.mem_cons.1 hs' with rfl | hs'
          · exact h2
          · exact h3 s' hs'
    · rw [if_neg h]
      push Not at h
      rcases nearestFrom_spec p d ss best with ⟨h1, h2⟩ | ⟨l, b, r, h1, h2, h3, h4⟩
      · left
        refine ⟨h1, ?_⟩
        intro s' hs'
        rcases List.mem_cons.1 hs' with rfl | hs'
        · exact h
        · exact h2 s' hs'
      · right
        refine ⟨s :: l, b, r, ?_, h2, ?_, h4⟩
        · rw [List.cons_append]; exact congrArg (s :: ·) h1
        · intro s' hs'
          rcases List.mem_cons.1 hs' with rfl | hs'
          · exact lt_of_lt_of_le h2 h
          · exact h3 s' hs'

/-- The surface returned is one of the cell, the distance returned is the distance to it, and no
surface of the cell is nearer.  Among several nearest ones it is the first of the map. -/
theorem C07_nearest {c : Cell} {p : Point} {d : Direction} {s : SurfaceObj} {t : WithTop ℝ}
    (h : c.nearestSurface p d = .ok (s, t)) :
    t = s.shape.distance p d ∧
    (∀ e ∈ c.surfaceSenses, t ≤ e.1.shape.distance p d) ∧
    ∃ l b r, c.surfaceSenses = l ++ (s, b) :: r ∧ ∀ e ∈ l, t < e.1.shape.distance p d := by
  rw [Cell.nearestSurface] at h
  split at h
  · cases h
  · rename_i s₀ ss hss
    simp only [Except.ok.injEq, Prod.mk.injEq] at h
    obtain ⟨rfl, rfl⟩ := h
    refine ⟨rfl, ?_, ?_⟩
    · rw [hss]
      intro e he
      rcases nearestFrom_spec p d ss s₀.1 with ⟨h1, h2⟩ | ⟨l, b, r, h1, h2, h3, h4⟩
      · rw [h1]
        rcases List.mem_cons.1 he with rfl | he
        · exact le_rfl
        · exact h2 e he
      · rcases List.mem_cons.1 he with rfl | he
        · exact h2.le
        · rw [h1] at he
          rcases List.mem_append.1 he with he | he
          · exact (h3 e he).le
          · rcases List.mem_cons.1 he with rfl | he
            · exact le_rfl
            · exact h4 e he
    · rcases nearestFrom_spec p d ss s₀.1 with ⟨h1, h2⟩ | ⟨l, b, r, h1, h2, h3, h4⟩
      · rw [h1]
        exact ⟨[], s₀.2, ss, hss, by simp⟩
      · refine ⟨s₀ :: l, b, r, ?_, ?_⟩
        · rw [hss, List.cons_append]; exact congrArg (s₀ :: ·) h1
        · intro e he
          rcases List.mem_cons.1 he with rfl | he
          · exact h2
          · exact h3 e he

/-- An exception is raised exactly when the cell has no surfaces; otherwise there is a
result. -/
theorem C07_raises_iff_no_surfaces (c : Cell) (p : Point) (d : Direction) :
    (c.nearestSurface p d = .error .runtimeError ↔ c.surfaceSenses = []) ∧
    (c.surfaceSenses ≠ [] → ∃ r, c.nearestSurface p d = .ok r) := by
  rw [Cell.nearestSurface]
  rcases c.surfaceSenses with _ | ⟨s, ss⟩
  · simp
  · simp

/-- Two planes at x = 1 and x = 3 used in the instances. -/
def plane1 : SurfaceObj := ⟨0, "a", .planeX 1⟩

/-- See `plane1`. -/
def plane3 : SurfaceObj := ⟨1, "b", .planeX 3⟩

/-- A slab between the two planes. -/
noncomputable def slab : Cell := ⟨"slab", [(plane1, false), (plane3, true)], none, .constant 300⟩

/-- Instance: from x = 2 along +x the nearest surface of the slab is the plane at x = 3, at
distance 1. -/
example : slab.nearestSurface ⟨2, 0, 0⟩ ⟨1, 0, 0⟩ = .ok (plane3, ((1 : ℝ) : WithTop ℝ)) := by
  have h1 : plane1.shape.distance ⟨2, 0, 0⟩ ⟨1, 0, 0⟩ = ⊤ := by
    norm_num [plane1, Surface.distance, Surface.planeXDistance, Point.dot]
  have h3 : plane3.shape.distance ⟨2, 0, 0⟩ ⟨1, 0, 0⟩ = ((1 : ℝ) : WithTop ℝ) := by
    norm_num [plane3, Surface.distance, Surface.planeXDistance, Point.dot]
  simp only [Cell.nearestSurface, slab, Cell.nearestFrom]
  rw [h1, h3, if_pos (WithTop.coe_lt_top _), h3]

/-! ## C08 -/

/-- The point is on the side of the surface that the sense asks for, going by the surface's own
`Contains`. -/
def OnRequiredSide (e : SurfaceObj × Bool) (p : Point) : Prop := e.1.shape.contains p = e.2

theorem contains_iff (c : Cell) (p : Point) :
    c.contains p = true ↔ ∀ e ∈ c.surfaceSenses, OnRequiredSide e p := by
  simp [Cell.contains, OnRequiredSide]

/-- The cell returned is the first one, in input order, all of whose surfaces have the point on
the required side. -/
theorem C08_first_cell_partial (w : World) (p : Point) (c : Cell) :
    w.findCellContaining p = .ok c ↔
      ∃ l r, w.cells = l ++ c :: r ∧ (∀ e ∈ c.surfaceSenses, OnRequiredSide e p) ∧
        ∀ c' ∈ l, ∃ e ∈ c'.surfaceSenses, ¬ OnRequiredSide e p := by
  rw [World.findCellContaining]
  have key : w.cells.find? (fun c => c.contains p) = some c ↔
      ∃ l r, w.cells = l ++ c :: r ∧ (∀ e ∈ c.surfaceSenses, OnRequiredSide e p) ∧
        ∀ c' ∈ l, ∃ e ∈ c'.surfaceSenses, ¬ OnRequiredSide e p := by
    rw [List.find?_eq_some_iff_append]
    constructor
    · rintro ⟨h1, l, r, h2, h3⟩
      refine ⟨l, r, h2, (contains_iff c p).1 h1, ?_⟩
      intro c' hc'
      have := h3 c' hc'
      have hn : ¬ c'.contains p = true := by simpa using this
      rw [contains_iff] at hn
      push Not at hn
      exact hn
    · rintro ⟨l, r, h1, h2, h3⟩
      refine ⟨(contains_iff c p).2 h2, l, r, h1, ?_⟩
      intro c' hc'
      obtain ⟨e, he, hne⟩ := h3 c' hc'
      have : ¬ c'.contains p = true := by
        rw [contains_iff]
        push Not
        exact ⟨e, he, hne⟩
      simpa using this
  rw [← key]
  generalize w.cells.find? (fun c => c.contains p) = o
  rcases o with _ | c' <;> simp

/-- The lookup raises exactly when every cell has a surface with the point on the wrong
side. -/
theorem C08_raises_partial (w : World) (p : Point) :
    w.findCellContaining p = .error .runtimeError ↔
      ∀ c ∈ w.cells, ∃ e ∈ c.surfaceSenses, ¬ OnRequiredSide e p := by
  rw [World.findCellContaining]
  have key : w.cells.find? (fun c => c.contains p) = none ↔
      ∀ c ∈ w.cells, ∃ e ∈ c.surfaceSenses, ¬ OnRequiredSide e p := by
    rw [List.find?_eq_none]
    constructor
    · intro h c hc
      have := h c hc
      rw [contains_iff] at this
      push Not at this
      exact this
    · intro h c hc
      rw [contains_iff]
      push Not
      exact h c hc
  rw [← key]
  generalize w.cells.find? (fun c => c.contains p) = o
  rcases o with _ | c' <;> simp

/-- For spheres, planes and cylinders of squared radius 0 or 1 the required side is the
geometric one: strictly inside for sense -1, on or outside for sense +1. -/
theorem C08_geometric_side_partial (e : SurfaceObj × Bool) (hs : Conforming e.1.shape) (p : Point) :
    OnRequiredSide e p ↔ (Inside e.1.shape p ↔ e.2 = true) := by
  have := C06_contains_partial e.1.shape hs p
  rw [OnRequiredSide, ← this]
  rcases e.2 with _ | _ <;> simp

/-- The code violates the property for other cylinders: the point at distance 3 from the axis
of the cylinder of radius 2 is found in the cell inside the cylinder. -/
theorem C08_cylinder_violated :
    ∃ (w : World) (c : Cell) (p : Point), w.findCellContaining p = .ok c ∧
      ∃ e ∈ c.surfaceSenses, e.2 = true ∧ ¬ Inside e.1.shape p := by
  refine ⟨⟨[], [], [], .constant 300, [⟨"in", [(⟨0, "cyl", .cylinderX 2⟩, true)], none, .constant 300⟩]⟩,
    ⟨"in", [(⟨0, "cyl", .cylinderX 2⟩, true)], none, .constant 300⟩, ⟨0, 3, 0⟩, ?_, ?_⟩
  · rw [C08_first_cell_partial]
    refine ⟨[], [], rfl, ?_, by simp⟩
    intro e he
    rw [List.mem_singleton.1 he]
    change (Surface.cylinderX 2).contains ⟨0, 3, 0⟩ = true
    rw [cylinderXContains_iff]
    norm_num
  · refine ⟨_, List.mem_singleton_self _, rfl, ?_⟩
    norm_num [Inside, surfaceValue]

/-- Instance: in a world of a slab followed by everything else, x = 2 is in the slab. -/
example : (⟨[plane1, plane3], [], [], .constant 300, [slab, ⟨"rest", [], none, .constant 300⟩]⟩ :
    World).findCellContaining ⟨2, 0, 0⟩ = .ok slab := by
  rw [C08_first_cell_partial]
  refine ⟨[], _, rfl, ?_, by simp⟩
  intro e he
  simp only [slab, List.mem_cons, List.not_mem_nil, or_false] at he
  rcases he with rfl | rfl <;>
    norm_num [OnRequiredSide, plane1, plane3, Surface.contains, Surface.planeXContains, Point.dot]

/-! ## C38 -/

/-- A field says that it is constant exactly when it has the same value everywhere. -/
theorem C38_constant_iff (f : ScalarField) :
    f.isConstant = true ↔ ∀ p q : Point, f.at' p = f.at' q := by
  cases f with
  | constant c => simp [ScalarField.isConstant, ScalarField.at']
  | linear u l g b =>
    simp only [ScalarField.isConstant, ScalarField.at', Point.dot, decide_eq_true_eq]
    constructor
    · rintro ⟨h1, h2, h3⟩ p q
      rw [h1, h2, h3]; ring
    · intro h
      have h1 := h ⟨1, 0, 0⟩ ⟨0, 0, 0⟩
      have h2 := h ⟨0, 1, 0⟩ ⟨0, 0, 0⟩
      have h3 := h ⟨0, 0, 1⟩ ⟨0, 0, 0⟩
      norm_num at h1 h2 h3
      exact ⟨h1, h2, h3⟩

/-- A `ConstantField` lies between its bounds at every point, and they are its value. -/
theorem C38_constant_bounds_partial (c : ℝ) (p : Point) :
    (ScalarField.constant c).lowerBound ≤ (ScalarField.constant c).at' p ∧
      (ScalarField.constant c).at' p ≤ (ScalarField.constant c).upperBound ∧
      (ScalarField.constant c).at' p = c :=
  ⟨le_rfl, le_rfl, rfl⟩

/-- A `LinearField` is affine: if the bounds given by the user hold at the corners of a box, they
hold everywhere in the box. -/
theorem C38_linear_box_partial (u l : ℝ) (g : Point) (b : ℝ) (lo hi : Point)
    (hc : ∀ x ∈ [lo.x, hi.x], ∀ y ∈ [lo.y, hi.y], ∀ z ∈ [lo.z, hi.z],
      l ≤ (ScalarField.linear u l g b).at' ⟨x, y, z⟩ ∧
        (ScalarField.linear u l g b).at' ⟨x, y, z⟩ ≤ u)
    (p : Point) (hx : lo.x ≤ p.x ∧ p.x ≤ hi.x) (hy : lo.y ≤ p.y ∧ p.y ≤ hi.y)
    (hz : lo.z ≤ p.z ∧ p.z ≤ hi.z) :
    (ScalarField.linear u l g b).lowerBound ≤ (ScalarField.linear u l g b).at' p ∧
      (ScalarField.linear u l g b).at' p ≤ (ScalarField.linear u l g b).upperBound := by
  simp only [ScalarField.at', ScalarField.lowerBound, ScalarField.upperBound, Point.dot] at *
  have term : ∀ c a d v : ℝ, a ≤ v → v ≤ d →
      (∃ m ∈ [a, d], c * m ≤ c * v) ∧ ∃ m ∈ [a, d], c * v ≤ c * m := by
    intro c a d v h1 h2
    rcases le_total 0 c with hc | hc
    · exact ⟨⟨a, by simp, mul_le_mul_of_nonneg_left h1 hc⟩,
        ⟨d, by simp, mul_le_mul_of_nonneg_left h2 hc⟩⟩
    · exact ⟨⟨d, by simp, mul_le_mul_of_nonpos_left h2 hc⟩,
        ⟨a, by simp, mul_le_mul_of_nonpos_left h1 hc⟩⟩
  obtain ⟨⟨x1, hx1, ex1⟩, ⟨x2, hx2, ex2⟩⟩ := term g.x _ _ _ hx.1 hx.2
  obtain ⟨⟨y1, hy1, ey1⟩, ⟨y2, hy2, ey2⟩⟩ := term g.y _ _ _ hy.1 hy.2
  obtain ⟨⟨z1, hz1, ez1⟩, ⟨z2, hz2, ez2⟩⟩ := term g.z _ _ _ hz.1 hz.2
  have a1 := (hc x1 hx1 y1 hy1 z1 hz1).1
  have a2 := (hc x2 hx2 y2 hy2 z2 hz2).2
  constructor <;> linarith

/-- The code violates the property for every non-constant `LinearField`: the bounds are taken
from the input unchecked, and whatever they are some point has a value outside of them. -/
theorem C38_linear_bounds_violated (u l : ℝ) (g : Point) (b : ℝ)
    (hg : (ScalarField.linear u l g b).isConstant = false) :
    ∃ p, (ScalarField.linear u l g b).upperBound < (ScalarField.linear u l g b).at' p := by
  have hg' : 0 < g.x * g.x + g.y * g.y + g.z * g.z := by
    by_contra hle
    push Not at hle
    have hx : g.x = 0 := by nlinarith [mul_self_nonneg g.x, mul_self_nonneg g.y, mul_self_nonneg g.z]
    have hy : g.y = 0 := by nlinarith [mul_self_nonneg g.x, mul_self_nonneg g.y, mul_self_nonneg g.z]
    have hz : g.z = 0 := by nlinarith [mul_self_nonneg g.x, mul_self_nonneg g.y, mul_self_nonneg g.z]
    simp [ScalarField.isConstant, hx, hy, hz] at hg
  refine ⟨g.smul ((u + 1 - b) / (g.x * g.x + g.y * g.y + g.z * g.z)), ?_⟩
  simp only [ScalarField.upperBound, ScalarField.at', Point.dot, Point.smul]
  have : g.x * (g.x * ((u + 1 - b) / (g.x * g.x + g.y * g.y + g.z * g.z))) +
      g.y * (g.y * ((u + 1 - b) / (g.x * g.x + g.y * g.y + g.z * g.z))) +
      g.z * (g.z * ((u + 1 - b) / (g.x * g.x + g.y * g.y + g.z * g.z))) = u + 1 - b := by
    have e : ∀ k : ℝ, g.x * (g.x * k) + g.y * (g.y * k) + g.z * (g.z * k) =
        k * (g.x * g.x + g.y * g.y + g.z * g.z) := fun k => by ring
    rw [e, div_mul_cancel₀ _ hg'.ne']
  rw [this]; linarith

/-- Instance: a field rising along x from 300 to 400 is within 300 and 400 in the unit box, and
is not constant. -/
example : (ScalarField.linear 400 300 ⟨100, 0, 0⟩ 300).isConstant = false ∧
    (ScalarField.linear 400 300 ⟨100, 0, 0⟩ 300).lowerBound ≤
      (ScalarField.linear 400 300 ⟨100, 0, 0⟩ 300).at' ⟨1 / 2, 1 / 3, 1⟩ ∧
    (ScalarField.linear 400 300 ⟨100, 0, 0⟩ 300).at' ⟨1 / 2, 1 / 3, 1⟩ ≤
      (ScalarField.linear 400 300 ⟨100, 0, 0⟩ 300).upperBound := by
  refine ⟨by simp [ScalarField.isConstant], ?_⟩
  apply C38_linear_box_partial 400 300 ⟨100, 0, 0⟩ 300 ⟨0, 0, 0⟩ ⟨1, 1, 1⟩
  · intro x hx y hy z hz
    simp only [List.mem_cons, List.not_mem_nil, or_false] at hx hy hz
    rcases hx with rfl | rfl <;> norm_num [ScalarField.at', Point.dot]
  all_goals norm_num

end Minimc.Props
