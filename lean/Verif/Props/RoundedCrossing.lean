import Verif.Lemmas.RoundedCrossing
import Verif.Lemmas.Surface

/-!
# Crossing surfaces in double precision

To cross a surface the program moves a particle by the computed distance plus `nudge`, ten units in
the last place of 1.  Near planes with small coordinates, hit at not too small an angle, the particle
ends on the other side whatever the rounding to nearest.  At coordinates of 64 and above it need not:
the nudge is rounded away, the particle stays on the plane and is found in the cell it came from,
from where the plane is no longer seen, and the next collision may happen outside that cell.
-/

namespace Minimc.Props

open Minimc

variable {rnd : ℝ → ℝ}

/-- A plane is seen exactly when it is seen without rounding, and its distance is within two
roundings of the exact one. -/
theorem C75_plane_distance (h : Nearest rnd) {c : ℝ} {p : Point} {d : Direction}
    (hx : IsDouble p.x) (hd : IsDouble d.x) :
    (Rounded.distance rnd (.planeX c) p d = ⊤ ↔ (Surface.planeX c).distance p d = ⊤) ∧
    ∀ s : ℝ, (Surface.planeX c).distance p d = (s : WithTop ℝ) →
      ∃ s' : ℝ, Rounded.distance rnd (.planeX c) p d = (s' : WithTop ℝ) ∧ 0 < s' ∧
        s * (1 - 2 / 2 ^ 53) ≤ s' ∧ s' * (1 - 2 / 2 ^ 53) ≤ s := by
  have hex : (Surface.planeX c).distance p d =
      if (c - p.x) / d.x > 0 then (((c - p.x) / d.x : ℝ) : WithTop ℝ) else ⊤ := by
    simp [Surface.distance, Surface.planeXDistance, Point.dot]
  rw [hex]
  rcases Rounded.plane_distance h (c := c) hx hd with ⟨h1, s', h2, h3, h4⟩ | ⟨h1, h2⟩
  · rw [if_pos h1, h2]
    refine ⟨by simp, fun s hs => ⟨s', rfl, h3, ?_⟩⟩
    have hs' : (c - p.x) / d.x = s := by exact_mod_cast hs
    rw [hs'] at h4 h1
    have hf := Near.fac_ge 2
    push_cast at hf
    exact ⟨(mul_le_mul_of_nonneg_left hf h1.le).trans h4.1,
      (mul_le_mul_of_nonneg_left hf h3.le).trans h4.2⟩
  · rw [if_neg (not_lt.2 h1), h2]
    exact ⟨by simp, fun s hs => by simp at hs⟩

/-- Towards smaller x: the particle ends below the plane if the coordinate of the plane and the
distance to it are small enough. -/
theorem C75_cross_down_partial (h : Nearest rnd) {c : ℝ} {p : Particle}
    (hx : IsDouble p.position.x) (hd : IsDouble p.direction.x) (hside : c < p.position.x)
    (hdir : p.direction.x < 0)
    (hm : 4 * (p.position.x - c) + |c| ≤ 19 * |p.direction.x|) :
    Rounded.contains rnd (.planeX c) p.position = false ∧
    ∃ q, Rounded.stream rnd p
        (Rounded.nudged rnd (Rounded.distance rnd (.planeX c) p.position p.direction)) = .ok q ∧
      Rounded.contains rnd (.planeX c) q.position = true := by
  rw [Rounded.plane_contains h hx]
  refine ⟨by simp [hside.le], ?_⟩
  set a := -p.direction.x with ha
  set Δ := p.position.x - c with hΔ
  have ha0 : 0 < a := by linarith
  have hΔ0 : 0 < Δ := by linarith
  rw [abs_of_neg hdir, ← ha] at hm
  rcases Rounded.plane_distance h (c := c) hx hd with ⟨h1, s, h2, h3, h4⟩ | ⟨h1, h2⟩
  · rw [h2]
    have h4' : Near 2 (Δ / a) s := by
      rw [hΔ, ha, ← neg_div_neg_eq, neg_neg, neg_sub]; exact h4
    have h5 := Rounded.step_length h ha0 hΔ0 h4'
    refine ⟨_, rfl, ?_⟩
    rw [Rounded.plane_contains h (by exact h.isDouble _)]
    simp only [Rounded.add, Rounded.smul]
    refine decide_eq_true ?_
    have hs0 : 0 ≤ rnd (s + nudge) := h.nonneg (by rw [Rounded.nudge_eq]; positivity)
    have h6 := Rounded.neg_near h (x := p.direction.x * rnd (s + nudge))
      (mul_nonpos_of_nonpos_of_nonneg hdir.le hs0)
    have h7 := h6.1
    rw [pow_one, ← neg_mul, ← ha] at h7
    set m := rnd (p.direction.x * rnd (s + nudge))
    have hm' : Δ * (1 - 4 / 2 ^ 53) + 20 / 2 ^ 53 * a * (1 - 2 / 2 ^ 53) ≤ -m := h5.trans h7
    set η := 1 / 2 ^ 53 * (a * (1 - 40 / 2 ^ 53) + |c|) with hη
    have hy : p.position.x + m ≤ c - η := by
      have : p.position.x = c + Δ := by rw [hΔ]; ring
      rw [this, hη]
      norm_num at hm' ⊢
      linarith
    have hη0 : 0 < η := by
      rw [hη]
      have := abs_nonneg c
      have h8 : 0 < a * (1 - 40 / 2 ^ 53) := mul_pos ha0 (by norm_num)
      positivity
    refine lt_of_le_of_lt (h.mono hy) ?_
    have h8 := (abs_le.1 (h.err (c - η))).2
    have h9 : |c - η| ≤ |c| + η := by
      refine (abs_sub c η).trans ?_
      rw [abs_of_pos hη0]
    have h10 : |c| ≤ 19 * a := by linarith
    have h11 : |c - η| / 2 ^ 53 ≤ (|c| + η) / 2 ^ 53 := by gcongr
    have h12 := abs_nonneg c
    rw [hη] at h8 h9 h11 ⊢
    norm_num at h8 h9 h11 ⊢
    linarith
  · exfalso
    rw [← neg_div_neg_eq] at h1
    have : 0 < -(c - p.position.x) / -p.direction.x := div_pos (by linarith) (by linarith)
    linarith

/-- Towards larger x: the particle ends at or above the plane if it is near enough. -/
theorem C75_cross_up_partial (h : Nearest rnd) {c : ℝ} (hc : IsDouble c) {p : Particle}
    (hx : IsDouble p.position.x) (hd : IsDouble p.direction.x) (hside : p.position.x < c)
    (hdir : 0 < p.direction.x)
    (hm : 4 * (c - p.position.x) ≤ 19 * p.direction.x) :
    Rounded.contains rnd (.planeX c) p.position = true ∧
    ∃ q, Rounded.stream rnd p
        (Rounded.nudged rnd (Rounded.distance rnd (.planeX c) p.position p.direction)) = .ok q ∧
      Rounded.contains rnd (.planeX c) q.position = false := by
  rw [Rounded.plane_contains h hx]
  refine ⟨by simp [hside], ?_⟩
  rcases Rounded.plane_distance h (c := c) hx hd with ⟨h1, s, h2, h3, h4⟩ | ⟨h1, h2⟩
  · rw [h2]
    have h5 := Rounded.step_length h hdir (by linarith : 0 < c - p.position.x) h4
    refine ⟨_, rfl, ?_⟩
    rw [Rounded.plane_contains h (by exact h.isDouble _)]
    simp only [Rounded.add, Rounded.smul]
    refine decide_eq_false (not_lt.2 ?_)
    have hs0 : 0 ≤ rnd (s + nudge) := h.nonneg (by rw [Rounded.nudge_eq]; positivity)
    have h6 := h.ge_of_nonneg (x := p.direction.x * rnd (s + nudge)) (mul_nonneg hdir.le hs0)
    calc c = rnd c := (h.self hc).symm
      _ ≤ _ := h.mono ?_
    have h7 := h5.trans h6
    norm_num at h7 ⊢
    linarith
  · exfalso
    have : 0 < (c - p.position.x) / p.direction.x := div_pos (by linarith) hdir
    linarith

/-- Instances: a plane at 3, a particle at 4 flying down and one at 2 flying up at an angle. -/
example : (4 : ℝ) * (4 - 3) + |3| ≤ 19 * |(-1 / 2 : ℝ)| ∧ 4 * ((3 : ℝ) - 2) ≤ 19 * (1 / 2) := by
  constructor <;> norm_num [abs_of_pos, abs_of_neg]

/-- The nudge is lost: a particle one unit above a plane at an integer coordinate of at least 64,
flying straight at it, is sent across the plane, lands on it, is not on the other side and no longer
sees it. -/
theorem C75_cross_down_violated (h : Nearest rnd) {c : ℕ} (h1 : 64 ≤ c) (h2 : c ≤ 2 ^ 52)
    {p : Particle} {y z : ℝ} (hp : p.position = ⟨c + 1, y, z⟩) (hd : p.direction = ⟨-1, 0, 0⟩) :
    Rounded.distance rnd (.planeX c) p.position p.direction = ((1 : ℝ) : WithTop ℝ) ∧
    ∃ q, Rounded.stream rnd p (Rounded.nudged rnd ((1 : ℝ) : WithTop ℝ)) = .ok q ∧
      q.position.x = c ∧ q.direction = p.direction ∧ q.cell = p.cell ∧
      Rounded.contains rnd (.planeX c) q.position = false ∧
      Rounded.distance rnd (.planeX c) q.position q.direction = ⊤ := by
  have hcx : IsDouble ((c : ℝ) + 1) := by
    have := IsDouble.nat (m := c + 1) (by omega)
    simpa using this
  have hc : IsDouble (c : ℝ) := IsDouble.nat (by omega)
  have hm1 : IsDouble (-1 : ℝ) := IsDouble.one.neg
  constructor
  · rw [hp, hd, Rounded.plane_distance_eq h hcx hm1]
    · have : ((c : ℝ) - (c + 1)) / -1 = 1 := by ring
      simp only [this]
      rw [if_pos one_pos]
    · have : ((c : ℝ) - (c + 1)) = -1 := by ring
      simp only [this]; exact hm1
    · have : ((c : ℝ) - (c + 1)) / -1 = 1 := by ring
      simp only [this]; exact IsDouble.one
  · have hx : rnd ((c : ℝ) + 1 + rnd (-1 * rnd (1 + nudge))) = c := by
      rw [h.self Rounded.isDouble_step, neg_one_mul, h.self Rounded.isDouble_step.neg,
        Rounded.nudge_lost h h1 h2]
    refine ⟨_, rfl, ?_, rfl, rfl, ?_, ?_⟩
    · simp only [Rounded.add, Rounded.smul, hp, hd]
      exact hx
    · simp only [Rounded.add, Rounded.smul, hp, hd, hx]
      rw [Rounded.plane_contains h (by exact hc)]
      simp
    · simp only [Rounded.add, Rounded.smul, hp, hd, hx]
      rw [Rounded.plane_distance_eq h (by exact hc) (by exact hm1)]
      · simp
      · simp [IsDouble.zero]
      · simp [IsDouble.zero]

/-- Two planes at 64 and 66 with material between them. -/
def slabLow : SurfaceObj := ⟨1, "low", .planeX 64⟩
/-- See `slabLow`. -/
def slabHigh : SurfaceObj := ⟨2, "high", .planeX 66⟩
/-- The cell between the planes. -/
def slabCell (m : Material) : Cell :=
  ⟨"slab", [(slabLow, false), (slabHigh, true)], some m, .constant 300⟩
/-- The slab with nothing around it. -/
def slabWorld (m : Material) : World :=
  ⟨[slabLow, slabHigh], [], [m], .constant 300,
    [slabCell m, ⟨"below", [(slabLow, true)], none, .constant 300⟩,
      ⟨"above", [(slabHigh, false)], none, .constant 300⟩]⟩

/-- In a slab of material between planes at 64 and 66, surrounded by void, a particle at 65 flying
towards the lower plane is sent across it, is found in the slab again and — however far the next
collision is, from one unit upwards — collides outside, at 63 or below. -/
theorem C75_leak_violated (h : Nearest rnd) (m : Material) {p : Particle}
    (hc : p.cell = some (slabCell m)) (hp : p.position = ⟨65, 0, 0⟩)
    (hd : p.direction = ⟨-1, 0, 0⟩) {dc dc' : ℝ} (h1 : 1 ≤ dc) (h2 : 1 ≤ dc') :
    ∃ q r, Rounded.flight rnd (slabWorld m) p (dc : WithTop ℝ) = .ok (false, q) ∧
      q.event = .surfaceCross ∧ q.cell = some (slabCell m) ∧ q.position = ⟨64, 0, 0⟩ ∧
      Rounded.flight rnd (slabWorld m) q (dc' : WithTop ℝ) = .ok (true, r) ∧
      r.cell = some (slabCell m) ∧ r.position.x ≤ 63 ∧
      Rounded.cellContains rnd (slabCell m) r.position = false := by
  have dn (n : ℕ) (hn : n ≤ 66) : IsDouble (n : ℝ) := IsDouble.nat (le_trans hn (by norm_num))
  have d64 : IsDouble (64 : ℝ) := by simpa using dn 64 (by norm_num)
  have d65 : IsDouble (65 : ℝ) := by simpa using dn 65 (by norm_num)
  have d63 : IsDouble (63 : ℝ) := by simpa using dn 63 (by norm_num)
  have d2 : IsDouble (2 : ℝ) := by simpa using dn 2 (by norm_num)
  have d1 := IsDouble.one
  have d0 := IsDouble.zero
  have hlow : Rounded.distance rnd (.planeX 64) ⟨65, 0, 0⟩ ⟨-1, 0, 0⟩ = ((1 : ℝ) : WithTop ℝ) := by
    rw [Rounded.plane_distance_eq h (by exact d65) (by exact d1.neg)] <;> norm_num [d1, d1.neg]
  have hhigh : Rounded.distance rnd (.planeX 66) ⟨65, 0, 0⟩ ⟨-1, 0, 0⟩ = ⊤ := by
    rw [Rounded.plane_distance_eq h (by exact d65) (by exact d1.neg)] <;> norm_num [d1, d1.neg]
  have hlow' : Rounded.distance rnd (.planeX 64) ⟨64, 0, 0⟩ ⟨-1, 0, 0⟩ = ⊤ := by
    rw [Rounded.plane_distance_eq h (by exact d64) (by exact d1.neg)] <;> norm_num [d0]
  have hhigh' : Rounded.distance rnd (.planeX 66) ⟨64, 0, 0⟩ ⟨-1, 0, 0⟩ = ⊤ := by
    rw [Rounded.plane_distance_eq h (by exact d64) (by exact d1.neg)] <;> norm_num [d2, d2.neg]
  have hx : rnd ((65 : ℝ) + rnd (-1 * rnd (1 + nudge))) = 64 := by
    rw [h.self Rounded.isDouble_step, neg_one_mul, h.self Rounded.isDouble_step.neg]
    have := Rounded.nudge_lost h (c := 64) le_rfl (by norm_num)
    norm_num at this ⊢
    exact this
  have hz : ∀ s : ℝ, rnd (0 + rnd (0 * s)) = 0 := by
    intro s; rw [zero_mul, h.zero, add_zero, h.zero]
  let q : Particle := { p with
    position := ⟨64, 0, 0⟩, cell := some (slabCell m), currentSurface := some slabLow,
    event := .surfaceCross }
  have hfind : Rounded.findCellContaining rnd (slabWorld m) ⟨64, 0, 0⟩ = .ok (slabCell m) := by
    have : Rounded.cellContains rnd (slabCell m) ⟨64, 0, 0⟩ = true := by
      simp only [Rounded.cellContains, slabCell, slabLow, slabHigh, List.all_cons, List.all_nil]
      rw [Rounded.plane_contains h (by exact d64), Rounded.plane_contains h (by exact d64)]
      norm_num
    simp [Rounded.findCellContaining, slabWorld, this]
  have hstep : Rounded.flight rnd (slabWorld m) p (dc : WithTop ℝ) = .ok (false, q) := by
    have hcell : p.getCell = .ok (slabCell m) := by simp [Particle.getCell, hc]
    have hns : Rounded.nearestSurface rnd (slabCell m) p.position p.direction =
        .ok (slabLow, ((1 : ℝ) : WithTop ℝ)) := by
      rw [hp, hd]
      have : Rounded.nearestFrom rnd ⟨65, 0, 0⟩ ⟨-1, 0, 0⟩ slabLow [(slabHigh, true)] = slabLow := by
        rw [Rounded.nearestFrom, if_neg]
        · rfl
        · change ¬ Rounded.distance rnd (.planeX 66) _ _ < Rounded.distance rnd (.planeX 64) _ _
          rw [hlow, hhigh]
          simp
      simp only [Rounded.nearestSurface, slabCell, this]
      exact congrArg (fun d => Except.ok (slabLow, d)) hlow
    have hlt : ¬ ((dc : WithTop ℝ) < ((1 : ℝ) : WithTop ℝ)) := by
      rw [WithTop.coe_lt_coe]; linarith
    rw [Rounded.flight, hcell]
    simp only [bind, Except.bind, hns]
    simp only [hlt, if_false, Rounded.crossSurface, bind, Except.bind, Rounded.nudged, Rounded.stream,
      Rounded.add, Rounded.smul, hp, hd, hx, hz, hfind]
    simp [slabCell, q, hd]
  have hq : Rounded.flight rnd (slabWorld m) q (dc' : WithTop ℝ) = .ok (true,
      { q with position := Rounded.add rnd q.position (Rounded.smul rnd q.direction dc') }) := by
    have hcell : q.getCell = .ok (slabCell m) := by simp [Particle.getCell, q]
    have hns : Rounded.nearestSurface rnd (slabCell m) q.position q.direction = .ok (slabLow, ⊤) := by
      have e1 : q.position = ⟨64, 0, 0⟩ := rfl
      have e2 : q.direction = ⟨-1, 0, 0⟩ := hd
      rw [e1, e2]
      have : Rounded.nearestFrom rnd ⟨64, 0, 0⟩ ⟨-1, 0, 0⟩ slabLow [(slabHigh, true)] = slabLow := by
        rw [Rounded.nearestFrom, if_neg]
        · rfl
        · change ¬ Rounded.distance rnd (.planeX 66) _ _ < Rounded.distance rnd (.planeX 64) _ _
          rw [hlow', hhigh']
          simp
      simp only [Rounded.nearestSurface, slabCell, this]
      exact congrArg (fun d => Except.ok (slabLow, d)) hlow'
    rw [Rounded.flight, hcell]
    simp only [bind, Except.bind, hns, WithTop.coe_lt_top, if_true, Rounded.stream]
  have hpos : rnd (64 + rnd (-1 * dc')) ≤ 63 := by
    calc rnd (64 + rnd (-1 * dc')) ≤ rnd 63 := h.mono (by
          have : rnd (-1 * dc') ≤ rnd (-1) := h.mono (by linarith)
          rw [h.self d1.neg] at this
          linarith)
      _ = 63 := h.self d63
  refine ⟨q, _, hstep, rfl, rfl, rfl, hq, rfl, ?_, ?_⟩
  · simp only [Rounded.add, Rounded.smul, q, hd]
    exact hpos
  · simp only [Rounded.cellContains, slabCell, slabLow, slabHigh, List.all_cons, List.all_nil,
      Rounded.add, Rounded.smul, q, hd]
    rw [Rounded.plane_contains h (by exact h.isDouble _)]
    rw [decide_eq_true (show rnd (64 + rnd (-1 * dc')) < 64 by linarith)]
    rfl

/-- Such a particle exists. -/
example (m : Material) : ∃ p : Particle, p.cell = some (slabCell m) ∧ p.position = ⟨65, 0, 0⟩ ∧
    p.direction = ⟨-1, 0, 0⟩ :=
  ⟨{ Particle.ofBorn ⟨⟨65, 0, 0⟩, ⟨-1, 0, 0⟩, .group 1, .neutron, 1, none⟩ with
      cell := some (slabCell m) }, rfl, rfl, rfl⟩

/-- `CylinderX::Contains` never takes the root of a negative number. -/
theorem C75_cylinder_root (h : Nearest rnd) {p : Point} (hx : IsDouble p.x) :
    0 ≤ rnd (Rounded.dot rnd p p -
      rnd (Rounded.dot rnd p ⟨1, 0, 0⟩ * Rounded.dot rnd p ⟨1, 0, 0⟩)) := by
  rw [Rounded.dot_axis h hx]
  apply h.nonneg
  rw [sub_nonneg, Rounded.dot]
  have h1 : rnd (p.x * p.x) ≤ rnd (rnd (p.x * p.x) + rnd (p.y * p.y)) := by
    calc rnd (p.x * p.x) = rnd (rnd (p.x * p.x)) := (h.self (h.isDouble _)).symm
      _ ≤ _ := h.mono (by linarith [h.nonneg (mul_self_nonneg p.y)])
  calc rnd (p.x * p.x) ≤ rnd (rnd (p.x * p.x) + rnd (p.y * p.y)) := h1
    _ = rnd (rnd (rnd (p.x * p.x) + rnd (p.y * p.y))) := (h.self (h.isDouble _)).symm
    _ ≤ _ := h.mono (by linarith [h.nonneg (mul_self_nonneg p.z)])

example : IsDouble (3 / 2 : ℝ) := ⟨3, -1, by norm_num, by norm_num⟩

/-- Far along the axis the distance from it is lost: a point at distance 1 from the axis counts as
inside a cylinder of radius one half. -/
theorem C75_cylinder_violated (h : Nearest rnd) :
    Rounded.contains rnd (.cylinderX (1 / 2)) ⟨2 ^ 30, 1, 0⟩ = true ∧
    (Surface.cylinderX (1 / 2)).contains ⟨2 ^ 30, 1, 0⟩ = false := by
  have d30 : IsDouble (2 ^ 30 : ℝ) := by
    have := IsDouble.nat (m := 2 ^ 30) (by norm_num)
    norm_num at this ⊢
    exact this
  have d60 : IsDouble ((2 : ℝ) ^ 30 * 2 ^ 30) := by
    have := d30.scale 30
    exact_mod_cast this
  have dq : IsDouble (1 / 2 * (1 / 2) : ℝ) := ⟨1, -2, by norm_num, by norm_num⟩
  constructor
  · have h1 : rnd ((2 : ℝ) ^ 30 * 2 ^ 30 + 1) = 2 ^ 30 * 2 ^ 30 := by
      set y : ℝ := (2 : ℝ) ^ 30 * 2 ^ 30 + 1 with hy
      have hn := h.nearest y _ d60
      rw [show (2 : ℝ) ^ 30 * 2 ^ 30 - y = -1 by rw [hy]; ring, abs_neg, abs_one] at hn
      obtain ⟨h3, h4⟩ := abs_le.1 hn
      have hge : (2 : ℝ) ^ 30 * 2 ^ 30 ≤ rnd y := by
        rw [← h.self d60]; exact h.mono (by rw [hy]; linarith)
      obtain ⟨n, hn'⟩ := (h.isDouble y).multiple (k := 60) (by
        refine le_trans (le_of_eq ?_) (hge.trans (le_abs_self _))
        norm_num)
      have h256 : (2 : ℝ) ^ ((60 : ℤ) - 52) = 256 := by norm_num
      rw [h256] at hn'
      have e1 : (n : ℝ) * 256 ≤ 1152921504606846976 + 2 := by
        rw [← hn']; rw [hy] at h4; norm_num at h4 ⊢; linarith
      have e2 : (1152921504606846976 : ℝ) ≤ n * 256 := by
        rw [← hn']; norm_num at hge ⊢; linarith
      have e1' : n * 256 ≤ 1152921504606846976 + 2 := by exact_mod_cast e1
      have e2' : 1152921504606846976 ≤ n * 256 := by exact_mod_cast e2
      have : n = 4503599627370496 := by omega
      rw [hn', this]; norm_num
    simp only [Rounded.contains]
    rw [Rounded.dot_axis h (by exact d30)]
    simp only [Rounded.dot, mul_one, mul_zero, h.zero, add_zero, h.one, h.self d60, h1, sub_self,
      Real.sqrt_zero, h.self dq]
    norm_num
  · simp only [Surface.contains, Surface.cylinderXContains, Point.dot]
    norm_num

end Minimc.Props
