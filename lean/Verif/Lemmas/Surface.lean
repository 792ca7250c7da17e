import Verif.Spec.Surface
import Verif.Lemmas.Point

/-! Helper lemmas: first crossing of a ray. -/

namespace Minimc

open Spec

/-- What it means for `dist` to be the first crossing of the ray on which the surface
function takes the values `f`. -/
structure FirstCrossing (f : ℝ → ℝ) (dist : WithTop ℝ) : Prop where
  pos : ∀ t : ℝ, dist = t → 0 < t
  zero : ∀ t : ℝ, dist = t → f t = 0
  first : ∀ t : ℝ, dist = t → ∀ s, 0 < s → s < t → f s ≠ 0
  before : ∀ s s' : ℝ, 0 < s → (s : WithTop ℝ) < dist → 0 < s' → (s' : WithTop ℝ) < dist →
    (f s < 0 ↔ f s' < 0)
  start : f 0 ≠ 0 → ∀ s : ℝ, 0 < s → (s : WithTop ℝ) < dist → (f s < 0 ↔ f 0 < 0)
  after : ∀ t : ℝ, dist = t → ∃ ε > 0, ∀ s s', 0 < s → s < t → t < s' → s' < t + ε →
    (f s' < 0 ↔ ¬ f s < 0)

theorem quad_neg_iff {a r1 r2 s : ℝ} (ha : 0 < a) (h12 : r1 < r2) :
    a * (s - r1) * (s - r2) < 0 ↔ r1 < s ∧ s < r2 := by
  constructor
  · intro h
    have h' : (s - r1) * (s - r2) < 0 := by
      by_contra hn
      push Not at hn
      have : 0 ≤ a * ((s - r1) * (s - r2)) := mul_nonneg ha.le hn
      nlinarith
    rcases mul_neg_iff.1 h' with ⟨h1, h2⟩ | ⟨h1, h2⟩
    · exact ⟨by linarith, by linarith⟩
    · exfalso; linarith
  · rintro ⟨h1, h2⟩
    have h3 : 0 < a * (s - r1) := mul_pos ha (by linarith)
    exact mul_neg_of_pos_of_neg h3 (by linarith)

theorem quad_zero_iff {a r1 r2 s : ℝ} (ha : 0 < a) :
    a * (s - r1) * (s - r2) = 0 ↔ s = r1 ∨ s = r2 := by
  rw [mul_eq_zero, mul_eq_zero]
  constructor
  · rintro ((h | h) | h)
    · exact absurd h ha.ne'
    · exact Or.inl (by linarith)
    · exact Or.inr (by linarith)
  · rintro (h | h)
    · exact Or.inl (Or.inr (by linarith))
    · exact Or.inr (by linarith)

/-- Closed form of the solver for a convex quadratic. -/
theorem solveQuadratic_pos {a b c : ℝ} (ha : 0 < a) (hD : 0 < b * b - 4 * a * c) :
    ∃ r1 r2 : ℝ, r1 < r2 ∧ (∀ s, a * s ^ 2 + b * s + c = a * (s - r1) * (s - r2)) ∧
      Surface.solveQuadratic a b c =
        if r1 > 0 then (r1 : WithTop ℝ) else if r2 > 0 then (r2 : WithTop ℝ) else ⊤ := by
  have hq : 0 < Real.sqrt (b * b - 4 * a * c) := Real.sqrt_pos.2 hD
  have hqq : Real.sqrt (b * b - 4 * a * c) * Real.sqrt (b * b - 4 * a * c) = b * b - 4 * a * c :=
    Real.mul_self_sqrt hD.le
  refine ⟨(-b - Real.sqrt (b * b - 4 * a * c)) / (2 * a),
    (-b + Real.sqrt (b * b - 4 * a * c)) / (2 * a), ?_, ?_, ?_⟩
  · apply div_lt_div_of_pos_right _ (by linarith)
    linarith
  · intro s
    generalize Real.sqrt (b * b - 4 * a * c) = q at *
    have ha' := ha.ne'
    field_simp
    nlinarith
  · unfold Surface.solveQuadratic
    simp only
    rw [if_neg (not_le.2 hD)]
    generalize Real.sqrt (b * b - 4 * a * c) = q at *
    by_cases hb : b > 0
    · have e : 2 * c / (-b - q) = (-b + q) / (2 * a) := by
        have h1 : -b - q ≠ 0 := by linarith
        have h2 : 2 * a ≠ 0 := by linarith
        rw [div_eq_div_iff h1 h2]
        nlinarith
      simp only [if_pos hb, e]
    · have e : 2 * c / (-b + q) = (-b - q) / (2 * a) := by
        have h1 : -b + q ≠ 0 := by linarith
        have h2 : 2 * a ≠ 0 := by linarith
        rw [div_eq_div_iff h1 h2]
        nlinarith
      simp only [if_neg hb, e]

/-- The solver finds the first crossing of a convex quadratic, or of a constant. -/
theorem firstCrossing_quadratic {a b c : ℝ} (h : 0 < a ∨ (a = 0 ∧ b = 0)) :
    FirstCrossing (fun t => a * t ^ 2 + b * t + c) (Surface.solveQuadratic a b c) := by
  by_cases hD : b * b - 4 * a * c ≤ 0
  · have htop : Surface.solveQuadratic a b c = ⊤ := by
      unfold Surface.solveQuadratic; simp only; rw [if_pos hD]
    rw [htop]
    -- the function keeps one sign
    have hsign : ∀ s s' : ℝ, (a * s ^ 2 + b * s + c < 0 ↔ a * s' ^ 2 + b * s' + c < 0) := by
      rcases h with ha | ⟨ha, hb⟩
      · have hnn : ∀ s : ℝ, ¬ (a * s ^ 2 + b * s + c < 0) := by
          intro s hs
          have : 4 * a * (a * s ^ 2 + b * s + c) < 0 := mul_neg_of_pos_of_neg (by linarith) hs
          nlinarith [sq_nonneg (2 * a * s + b)]
        intro s s'
        exact ⟨fun h => absurd h (hnn s), fun h => absurd h (hnn s')⟩
      · intro s s'
        simp [ha, hb]
    refine ⟨?_, ?_, ?_, ?_, ?_, ?_⟩
    · intro t h; simp at h
    · intro t h; simp at h
    · intro t h; simp at h
    · intro s s' _ _ _ _; exact hsign s s'
    · intro _ s _ _; exact hsign s 0
    · intro t h; simp at h
  · rw [not_le] at hD
    have ha : 0 < a := by
      rcases h with h | ⟨h1, h2⟩
      · exact h
      · rw [h1, h2] at hD; norm_num at hD
    obtain ⟨r1, r2, h12, hf, hsol⟩ := solveQuadratic_pos ha hD
    have hneg : ∀ s : ℝ, a * s ^ 2 + b * s + c < 0 ↔ r1 < s ∧ s < r2 := by
      intro s; rw [hf]; exact quad_neg_iff ha h12
    have hzero : ∀ s : ℝ, a * s ^ 2 + b * s + c = 0 ↔ s = r1 ∨ s = r2 := by
      intro s; rw [hf]; exact quad_zero_iff ha
    by_cases h1 : r1 > 0
    · rw [if_pos h1] at hsol
      rw [hsol]
      refine ⟨?_, ?_, ?_, ?_, ?_, ?_⟩
      · intro t h; rw [WithTop.coe_inj] at h; linarith
      · intro t h; rw [WithTop.coe_inj] at h; exact (hzero t).2 (Or.inl h.symm)
      · intro t h s hs hst
        rw [WithTop.coe_inj] at h
        rw [Ne, hzero]
        rintro (h | h) <;> linarith
      · intro s s' _ hst _ hst'
        rw [WithTop.coe_lt_coe] at hst hst'
        rw [hneg, hneg]
        constructor <;> rintro ⟨h, _⟩ <;> linarith
      · intro _ s _ hst
        rw [WithTop.coe_lt_coe] at hst
        rw [hneg, hneg]
        constructor <;> rintro ⟨h, _⟩ <;> linarith
      · intro t h
        rw [WithTop.coe_inj] at h
        refine ⟨r2 - r1, by linarith, ?_⟩
        intro s s' _ hst ht hs'
        rw [hneg, hneg]
        constructor
        · rintro _ ⟨h, _⟩; linarith
        · intro _; exact ⟨by linarith, by linarith⟩
    · rw [if_neg h1] at hsol
      by_cases h2 : r2 > 0
      · rw [if_pos h2] at hsol
        rw [hsol]
        refine ⟨?_, ?_, ?_, ?_, ?_, ?_⟩
        · intro t h; rw [WithTop.coe_inj] at h; linarith
        · intro t h; rw [WithTop.coe_inj] at h; exact (hzero t).2 (Or.inr h.symm)
        · intro t h s hs hst
          rw [WithTop.coe_inj] at h
          rw [Ne, hzero]
          rintro (h | h) <;> linarith
        · intro s s' hs hst hs' hst'
          rw [WithTop.coe_lt_coe] at hst hst'
          rw [hneg, hneg]
          constructor <;> intro _ <;> constructor <;> linarith
        · intro h0 s hs hst
          rw [WithTop.coe_lt_coe] at hst
          rw [Ne, hzero] at h0
          rw [hneg, hneg]
          have : r1 < 0 := lt_of_le_of_ne (not_lt.1 h1) (fun e => h0 (Or.inl e.symm))
          constructor <;> intro _ <;> constructor <;> linarith
        · intro t h
          rw [WithTop.coe_inj] at h
          refine ⟨1, one_pos, ?_⟩
          intro s s' hs hst ht hs'
          rw [hneg, hneg]
          constructor
          · rintro ⟨_, h⟩; linarith
          · intro hn; exact absurd ⟨by linarith, by linarith⟩ hn
      · rw [if_neg h2] at hsol
        rw [hsol]
        refine ⟨?_, ?_, ?_, ?_, ?_, ?_⟩
        · intro t h; simp at h
        · intro t h; simp at h
        · intro t h; simp at h
        · intro s s' hs _ hs' _
          rw [hneg, hneg]
          constructor <;> rintro ⟨_, h⟩ <;> linarith
        · intro h0 s hs _
          rw [hneg, hneg]
          constructor <;> rintro ⟨_, h⟩ <;> linarith
        · intro t h; simp at h

/-- First crossing of a plane by a ray. -/
theorem firstCrossing_linear (v d : ℝ) :
    FirstCrossing (fun t => t * d - v) (if v / d > 0 then ((v / d : ℝ) : WithTop ℝ) else ⊤) := by
  by_cases hpos : v / d > 0
  · rw [if_pos hpos]
    have hd : d ≠ 0 := by rintro rfl; simp at hpos
    have hv : v = (v / d) * d := by field_simp
    set r := v / d with hr
    rcases lt_or_gt_of_ne hd with hd' | hd'
    · refine ⟨?_, ?_, ?_, ?_, ?_, ?_⟩
      · intro t h; rw [WithTop.coe_inj] at h; linarith
      · intro t h; rw [WithTop.coe_inj] at h; rw [← h]; linarith
      · intro t h s hs hst
        rw [WithTop.coe_inj] at h
        intro e
        have : (s - r) * d = 0 := by linarith
        rcases mul_eq_zero.1 this with h' | h'
        · linarith
        · exact hd h'
      · intro s s' hs hst hs' hst'
        rw [WithTop.coe_lt_coe] at hst hst'
        constructor <;> intro h <;> exfalso <;> nlinarith
      · intro _ s hs hst
        rw [WithTop.coe_lt_coe] at hst
        constructor <;> intro h <;> exfalso <;> nlinarith
      · intro t h
        rw [WithTop.coe_inj] at h
        refine ⟨1, one_pos, ?_⟩
        intro s s' hs hst ht hs'
        constructor
        · intro _; nlinarith
        · intro _; nlinarith
    · refine ⟨?_, ?_, ?_, ?_, ?_, ?_⟩
      · intro t h; rw [WithTop.coe_inj] at h; linarith
      · intro t h; rw [WithTop.coe_inj] at h; rw [← h]; linarith
      · intro t h s hs hst
        rw [WithTop.coe_inj] at h
        intro e
        have : (s - r) * d = 0 := by linarith
        rcases mul_eq_zero.1 this with h' | h'
        · linarith
        · exact hd h'
      · intro s s' hs hst hs' hst'
        rw [WithTop.coe_lt_coe] at hst hst'
        constructor <;> intro h <;> nlinarith
      · intro _ s hs hst
        rw [WithTop.coe_lt_coe] at hst
        constructor <;> intro h <;> nlinarith
      · intro t h
        rw [WithTop.coe_inj] at h
        refine ⟨1, one_pos, ?_⟩
        intro s s' hs hst ht hs'
        constructor
        · intro _; nlinarith
        · intro h; exfalso; apply h; nlinarith
  · rw [if_neg hpos]
    have key : ∀ s : ℝ, 0 < s → (s * d - v < 0 ↔ (d < 0 ∨ (d = 0 ∧ 0 < v))) ∧
        ((0:ℝ) * d - v ≠ 0 → (s * d - v < 0 ↔ 0 * d - v < 0)) := by
      intro s hs
      rcases lt_trichotomy d 0 with hd | hd | hd
      · have hv : 0 ≤ v := by
          by_contra hv; push Not at hv
          exact hpos (div_pos_of_neg_of_neg hv hd)
        have : s * d - v < 0 := by nlinarith
        refine ⟨⟨fun _ => Or.inl hd, fun _ => this⟩, fun h0 => ⟨fun _ => ?_, fun _ => this⟩⟩
        have : v ≠ 0 := by intro e; apply h0; rw [e]; ring
        have : 0 < v := lt_of_le_of_ne hv (Ne.symm this)
        linarith
      · subst hd
        simp
      · have hv : v ≤ 0 := by
          by_contra hv; push Not at hv
          exact hpos (div_pos hv hd)
        have : ¬ (s * d - v < 0) := by nlinarith
        refine ⟨⟨fun h => absurd h this, ?_⟩, fun _ => ⟨fun h => absurd h this, fun h => ?_⟩⟩
        · rintro (h | ⟨h, _⟩) <;> linarith
        · linarith
    refine ⟨?_, ?_, ?_, ?_, ?_, ?_⟩
    · intro t h; simp at h
    · intro t h; simp at h
    · intro t h; simp at h
    · intro s s' hs _ hs' _
      exact ((key s hs).1).trans ((key s' hs').1).symm
    · intro h0 s hs _
      exact (key s hs).2 h0
    · intro t h; simp at h

/-- The distance function of every surface finds the first crossing. -/
theorem firstCrossing_surface (s : Surface) (o d : Point) (hd : UnitVec d) :
    FirstCrossing (fun t => surfaceValue s (along o d t)) (s.distance o d) := by
  unfold UnitVec at hd
  cases s with
  | sphere c r =>
    have e : (fun t => surfaceValue (.sphere c r) (along o d t))
        = fun t => 1 * t ^ 2 + (2 * (o - c).dot d) * t + ((o - c).dot (o - c) - r * r) := by
      funext t
      simp only [surfaceValue, along, Point.dot, Point.sub_x, Point.sub_y, Point.sub_z]
      linear_combination t ^ 2 * hd
    rw [e]
    exact firstCrossing_quadratic (Or.inl one_pos)
  | planeX c =>
    have e : (fun t => surfaceValue (.planeX c) (along o d t))
        = fun t => t * d.dot ⟨1, 0, 0⟩ - (c - o.dot ⟨1, 0, 0⟩) := by
      funext t
      simp only [surfaceValue, along, Point.dot]
      ring
    rw [e]
    exact firstCrossing_linear _ _
  | cylinderX r =>
    have e : (fun t => surfaceValue (.cylinderX r) (along o d t))
        = fun t => (1 - d.dot ⟨1, 0, 0⟩ * d.dot ⟨1, 0, 0⟩) * t ^ 2
          + (2 * (o.dot d - o.dot ⟨1, 0, 0⟩ * d.dot ⟨1, 0, 0⟩)) * t
          + (o.dot o - o.dot ⟨1, 0, 0⟩ * o.dot ⟨1, 0, 0⟩ - r * r) := by
      funext t
      simp only [surfaceValue, along, Point.dot]
      linear_combination t ^ 2 * hd
    rw [e]
    apply firstCrossing_quadratic
    simp only [Point.dot]
    by_cases h : d.y ^ 2 + d.z ^ 2 = 0
    · right
      have hy : d.y = 0 := by nlinarith [sq_nonneg d.y, sq_nonneg d.z]
      have hz : d.z = 0 := by nlinarith [sq_nonneg d.y, sq_nonneg d.z]
      refine ⟨?_, ?_⟩
      · nlinarith
      · rw [hy, hz]; ring
    · left
      have : 0 < d.y ^ 2 + d.z ^ 2 := lt_of_le_of_ne (by positivity) (Ne.symm h)
      nlinarith

/-- `Contains` of a sphere or a plane is the specified side. -/
theorem sphereContains_iff (c : Point) (r : ℝ) (p : Point) :
    (Surface.sphere c r).contains p = true ↔ Inside (.sphere c r) p := by
  unfold Inside surfaceValue Surface.contains Surface.sphereContains
  simp only [decide_eq_true_eq]
  simp only [Point.dot, Point.sub_x, Point.sub_y, Point.sub_z]
  constructor <;> intro h <;> nlinarith

theorem planeXContains_iff (c : ℝ) (p : Point) :
    (Surface.planeX c).contains p = true ↔ Inside (.planeX c) p := by
  unfold Inside surfaceValue Surface.contains Surface.planeXContains
  simp only [decide_eq_true_eq]
  simp only [Point.dot]
  constructor <;> intro h <;> linarith

/-- What `CylinderX::Contains` computes: the distance from the axis is less than the
square of the radius. -/
theorem cylinderXContains_iff (r : ℝ) (p : Point) :
    (Surface.cylinderX r).contains p = true ↔ p.y ^ 2 + p.z ^ 2 < r ^ 4 := by
  unfold Surface.contains Surface.cylinderXContains
  simp only [decide_eq_true_eq]
  simp only [Point.dot]
  have e : p.x * p.x + p.y * p.y + p.z * p.z - (p.x * 1 + p.y * 0 + p.z * 0) * (p.x * 1 + p.y * 0 + p.z * 0)
      = p.y ^ 2 + p.z ^ 2 := by ring
  rw [e]
  by_cases hr : r = 0
  · subst hr
    simp only [mul_zero]
    constructor
    · intro h; exact absurd h (not_lt.2 (Real.sqrt_nonneg _))
    · intro h; nlinarith [sq_nonneg p.y, sq_nonneg p.z]
  · rw [Real.sqrt_lt' (mul_self_pos.2 hr)]
    constructor <;> intro h <;> nlinarith

end Minimc
