import Verif.Lemmas.RoundedCrossing
import Verif.Lemmas.RoundedSphere
import Verif.Props.RoundedDirection
import Verif.Spec.RoundedSphere

/-!
# Spheres in double precision

The distance to a sphere comes from a quadratic equation, in which digits can cancel.  Whatever the
rounding to nearest and wherever the particle is, a distance that is found leads to the surface, a
sphere is left by its far side, and a sphere that is not seen is not entered, up to errors of some
units in the last place of the squares involved.  Crossing the surface is another matter: from a
radius of 64 on, a particle sent into the sphere can land exactly on it, is found outside, and next
sees the far side, so that it flies through the sphere as if the outer material were there.
-/

namespace Minimc.Props

open Minimc

variable {rnd : ℝ → ℝ}

theorem apart_eq (p q : Point) : Spec.apart p q = len (p - q) := by
  simp only [Spec.apart, len, Point.dot, Point.sub_x, Point.sub_y, Point.sub_z]
  congr 1
  ring

theorem along_eq (p : Point) (d : Direction) (s : ℝ) (c : Point) :
    Spec.along p d s - c = p - c + d.smul s := by
  ext <;> simp [Spec.along] <;> ring

theorem apart_squared (p q : Point) : Spec.apart p q ^ 2 = (p - q).dot (p - q) := by
  rw [apart_eq, len_sq]

theorem scale_spec {center : Point} {R : ℝ} {p : Point} (hR : 0 < R) :
    0 < Spec.scale center R p ∧ len (p - center) ≤ Spec.scale center R p ∧
      R ≤ Spec.scale center R p := by
  refine ⟨hR.trans_le (le_max_left _ _), ?_, le_max_left _ _⟩
  rw [← apart_eq]
  exact le_max_right _ _

theorem sphere_contains_iff (h : Nearest rnd) {center p : Point} {R : ℝ} :
    Rounded.contains rnd (.sphere center R) p = true ↔
      rnd (Rounded.dot rnd (Rounded.sub rnd p center) (Rounded.sub rnd p center) - rnd (R * R)) < 0 := by
  simp only [Rounded.contains, decide_eq_true_eq]
  constructor
  · intro hlt
    exact h.neg (by linarith)
  · intro hlt
    by_contra hcon
    have := h.nonneg (sub_nonneg.2 (not_lt.1 hcon))
    linarith

/-- On which side of a sphere a point is, up to rounding. -/
theorem C89_contains (h : Nearest rnd) {center p : Point} {R : ℝ} (hR : 0 < R) :
    (Rounded.contains rnd (.sphere center R) p = true →
      Spec.apart p center ^ 2 < R ^ 2 + 9 * Spec.scale center R p ^ 2 / 2 ^ 53) ∧
    (Rounded.contains rnd (.sphere center R) p = false →
      R ^ 2 - 9 * Spec.scale center R p ^ 2 / 2 ^ 53 ≤ Spec.apart p center ^ 2) := by
  obtain ⟨hL, hx, hRL⟩ := scale_spec (center := center) (p := p) hR
  have hu : |(⟨1, 0, 0⟩ : Point).dot ⟨1, 0, 0⟩ - 1| ≤ 32 * eps := by
    simp [Point.dot, eps_pos.le]
  have hC := (Rounded.sphere_coeffs h (center := center) (p := p) (R := R) hu
    (by linarith) hL hR.le (by linarith)).2
  have hiff := sphere_contains_iff h (center := center) (p := p) (R := R)
  rw [apart_squared]
  have e : 9 * Spec.scale center R p ^ 2 / 2 ^ 53 = 9 * eps * Spec.scale center R p ^ 2 := by
    unfold eps; ring
  rw [e]
  constructor
  · intro hc
    have := hiff.1 hc
    linarith [(abs_le.1 hC).1]
  · intro hc
    have : ¬ _ := fun h' => by
      have := hiff.2 h'
      rw [hc] at this
      cases this
    linarith [(abs_le.1 hC).2, not_lt.1 this]

/-- What the quadratic equation gives, with the bounds on its coefficients. -/
theorem sphere_facts (h : Nearest rnd) {center p : Point} {d : Direction} {R : ℝ} (hR : 0 < R)
    (hd : Spec.NearlyUnit d) :
    ∃ B C, Rounded.distance rnd (.sphere center R) p d = Rounded.solveQuadratic rnd 1 B C ∧
      IsDouble C ∧ (Rounded.contains rnd (.sphere center R) p = true ↔ C < 0) ∧
      |B - 2 * (p - center).dot d| ≤ 9 * eps * Spec.scale center R p ∧
      |C - ((p - center).dot (p - center) - R ^ 2)| ≤ 9 * eps * Spec.scale center R p ^ 2 := by
  obtain ⟨hL, hx, hRL⟩ := scale_spec (center := center) (p := p) hR
  obtain ⟨h1, h2⟩ := Rounded.sphere_coeffs h (center := center) (p := p) (R := R)
    (nearlyUnit_iff.1 hd) (by linarith) hL hR.le (by linarith)
  exact ⟨_, _, rfl, h.isDouble _, sphere_contains_iff h, h1, h2⟩

/-- Inside, `T ≤ 5 L` for the solution. -/
theorem solution_le {B C T L : ℝ} (hL : 0 < L) (hB : -(3 * L) ≤ B) (hC : -(2 * L ^ 2) ≤ C)
    (hTq : T ^ 2 + B * T + C = 0) : T ≤ 5 * L := by
  by_contra hcon
  push Not at hcon
  have h1 : 0 < T := by linarith
  have h2 : 0 ≤ (T - 5 * L) * T := mul_nonneg (by linarith) h1.le
  have h3 : 0 ≤ (B + 3 * L) * T := mul_nonneg (by linarith) h1.le
  have h4 : 0 ≤ (T - 5 * L) * L := mul_nonneg (by linarith) hL.le
  have h5 : 0 < L ^ 2 := by positivity
  linarith

/-- Crude bounds for the coefficients. -/
theorem coeffs_crude {x : Point} {d : Direction} {B C R L : ℝ} (hd : Spec.NearlyUnit d)
    (hx : len x ≤ L) (hL : 0 < L) (hR0 : 0 < R) (hR : R ≤ L)
    (hB : |B - 2 * x.dot d| ≤ 9 * eps * L)
    (hC : |C - (x.dot x - R ^ 2)| ≤ 9 * eps * L ^ 2) :
    |B| ≤ 201 / 100 * L ∧ |C| ≤ 101 / 100 * L ^ 2 := by
  have he := eps_pos
  have hsm := eps_le
  have D := abs_le.1 (Rounded.len_near (nearlyUnit_iff.1 hd))
  have D2 : len d ≤ 1001 / 1000 := by linarith [D.2]
  have d0 := len_nonneg d
  have x0 := len_nonneg x
  have eL : eps * L ≤ L / 10 ^ 15 := by
    have := mul_le_mul_of_nonneg_right hsm hL.le
    linarith
  have L2 : 0 < L ^ 2 := by positivity
  have eL2 : eps * L ^ 2 ≤ L ^ 2 / 10 ^ 15 := by
    have := mul_le_mul_of_nonneg_right hsm L2.le
    linarith
  constructor
  · have xd : |x.dot d| ≤ 1001 / 1000 * L := by
      refine (dot_le_len x d).trans ?_
      have := mul_le_mul hx D2 d0 hL.le
      linarith
    have := abs_sub_abs_le_abs_sub B (2 * x.dot d)
    rw [abs_mul, abs_two] at this
    linarith
  · have h1 : x.dot x ≤ L ^ 2 := by
      rw [← len_sq]
      exact pow_le_pow_left₀ x0 hx 2
    have h2 := Point.dot_self_nonneg x
    have h3 : R ^ 2 ≤ L ^ 2 := pow_le_pow_left₀ hR0.le hR 2
    have h4 := sq_nonneg R
    rw [abs_le] at hC ⊢
    constructor <;> linarith [hC.1, hC.2]

/-- A distance that is found is positive and leads to the sphere. -/
theorem C89_reached (h : Nearest rnd) {center p : Point} {d : Direction} {R t : ℝ} (hR : 0 < R)
    (hd : Spec.NearlyUnit d)
    (ht : Rounded.distance rnd (.sphere center R) p d = (t : WithTop ℝ)) :
    0 < t ∧ |Spec.apart (Rounded.add rnd p (Rounded.smul rnd d t)) center - R| ≤
      (192 * (Spec.scale center R p ^ 2 / R) + Spec.apart center ⟨0, 0, 0⟩) / 2 ^ 53 := by
  obtain ⟨hL, hx, hRL⟩ := scale_spec (center := center) (p := p) hR
  obtain ⟨B, C, e, hC0, -, hB, hC⟩ := sphere_facts h (center := center) (p := p) hR hd
  obtain ⟨cB, cC⟩ := coeffs_crude hd hx hL hR hRL hB hC
  set L := Spec.scale center R p
  have he := eps_pos
  have hd' := nearlyUnit_iff.1 hd
  have L2 : 0 < eps * L ^ 2 := by positivity
  rw [e] at ht
  have main : ∃ T, 0 < T ∧ T ≤ 5 * L ∧ |T ^ 2 + B * T + C| ≤ 3 * eps * L ^ 2 ∧ 0 < t ∧
      Near 5 T t := by
    rcases lt_trichotomy C 0 with hneg | hzero | hpos
    · obtain ⟨t', T, h1, h2, h3, h4, h5⟩ := Rounded.quadratic_inside h (b := B) hC0 hneg
      rw [h1] at ht
      have : t' = t := by exact_mod_cast ht
      subst this
      refine ⟨T, h3, solution_le hL (by linarith [(abs_le.1 cB).1])
        (by nlinarith [(abs_le.1 cC).1, sq_nonneg L]) h4, ?_, h2, h5⟩
      rw [h4, abs_zero]
      linarith
    · subst hzero
      obtain ⟨h1, h2⟩ := Rounded.quadratic_on h (b := B)
      rcases le_or_gt 0 B with hb | hb
      · rw [h1 hb] at ht
        simp at ht
      · obtain ⟨t', h3, h4, h5⟩ := h2 hb
        rw [h3] at ht
        have : t' = t := by exact_mod_cast ht
        subst this
        refine ⟨-B, by linarith, by linarith [(abs_le.1 cB).1], ?_, h4, h5⟩
        rw [show (-B) ^ 2 + B * -B + 0 = 0 by ring, abs_zero]
        linarith
    · obtain ⟨h1, h2⟩ := Rounded.quadratic_outside h (b := B) hC0 hpos
      rcases le_or_gt 0 B with hb | hb
      · rw [h1 hb] at ht
        simp at ht
      · rcases h2 hb with ⟨h3, -⟩ | ⟨t', T, h3, h4, h5, h6, h7, h8⟩
        · rw [h3] at ht
          simp at ht
        · rw [h3] at ht
          have : t' = t := by exact_mod_cast ht
          subst this
          refine ⟨T, h5, ?_, h7.trans ?_, h4, h8⟩
          · have : -B / 2 * (1 + eps) ≤ 201 / 100 * L / 2 * 2 :=
              mul_le_mul (by linarith [(abs_le.1 cB).1]) (by linarith [eps_le]) (by linarith)
                (by linarith)
            linarith
          · have := mul_le_mul_of_nonneg_left ((le_abs_self C).trans cC) he.le
            linarith
  obtain ⟨T, t1, t2, t3, t4, t5⟩ := main
  obtain ⟨r1, r2⟩ := Rounded.sphere_solution hd' (by linarith) hL hR (by linarith) hB hC t1 t2 t3
  have r3 := Rounded.sphere_reached h hd' (by linarith) hL hR (by linarith) t1 r1 r2 t5
  refine ⟨t4, ?_⟩
  rw [apart_eq, apart_eq]
  rw [show center - (⟨0, 0, 0⟩ : Point) = center by ext <;> simp]
  refine r3.trans (le_of_eq ?_)
  unfold eps
  ring

/-- From inside, the sphere is always seen, and the way to it stays inside. -/
theorem C89_inside (h : Nearest rnd) {center p : Point} {d : Direction} {R : ℝ} (hR : 0 < R)
    (hd : Spec.NearlyUnit d) (hin : Rounded.contains rnd (.sphere center R) p = true) :
    ∃ t : ℝ, Rounded.distance rnd (.sphere center R) p d = (t : WithTop ℝ) ∧
      ∀ s, 0 ≤ s → s ≤ t → Spec.apart (Spec.along p d s) center ^ 2 ≤
        R ^ 2 + 256 * Spec.scale center R p ^ 2 / 2 ^ 53 := by
  obtain ⟨hL, hx, hRL⟩ := scale_spec (center := center) (p := p) hR
  obtain ⟨B, C, e, hC0, hiff, hB, hC⟩ := sphere_facts h (center := center) (p := p) hR hd
  obtain ⟨cB, cC⟩ := coeffs_crude hd hx hL hR hRL hB hC
  set L := Spec.scale center R p
  have hneg := hiff.1 hin
  have hd' := nearlyUnit_iff.1 hd
  obtain ⟨t, T, h1, h2, h3, h4, h5⟩ := Rounded.quadratic_inside h (b := B) hC0 hneg
  rw [e, h1]
  refine ⟨t, rfl, fun s hs0 hs => ?_⟩
  have t2 := solution_le hL (by linarith [(abs_le.1 cB).1])
    (by nlinarith [(abs_le.1 cC).1, sq_nonneg L]) h4
  have L2 : 0 < eps * L ^ 2 := by have := eps_pos; positivity
  obtain ⟨r1, -⟩ := Rounded.sphere_solution hd' (by linarith) hL hR (by linarith) hB hC h3 t2
    (by rw [h4, abs_zero]; linarith)
  have := Rounded.sphere_within hd' hx hL hB hC h3 r1 hneg.le h4 h5 hs0 hs
  rw [apart_squared, along_eq]
  refine this.trans (le_of_eq ?_)
  unfold eps
  ring

/-- From outside, the distance leads to the near side: nothing of the sphere is on the way. -/
theorem C89_first (h : Nearest rnd) {center p : Point} {d : Direction} {R t : ℝ} (hR : 0 < R)
    (hd : Spec.NearlyUnit d)
    (hout : R ^ 2 + 10 * Spec.scale center R p ^ 2 / 2 ^ 53 ≤ Spec.apart p center ^ 2)
    (ht : Rounded.distance rnd (.sphere center R) p d = (t : WithTop ℝ)) :
    ∀ s, 0 ≤ s → s ≤ t →
      R ^ 2 - 96 * Spec.scale center R p ^ 2 / 2 ^ 53 ≤
        Spec.apart (Spec.along p d s) center ^ 2 := by
  obtain ⟨hL, hx, hRL⟩ := scale_spec (center := center) (p := p) hR
  obtain ⟨B, C, e, hC0, hiff, hB, hC⟩ := sphere_facts h (center := center) (p := p) hR hd
  rw [apart_squared] at hout
  set L := Spec.scale center R p
  have L2 : 0 < eps * L ^ 2 := by have := eps_pos; positivity
  have e1 : 10 * L ^ 2 / 2 ^ 53 = 10 * (eps * L ^ 2) := by unfold eps; ring
  have hpos : 0 < C := by linarith [(abs_le.1 hC).1]
  have hd' := nearlyUnit_iff.1 hd
  rw [e] at ht
  intro s hs0 hs
  obtain ⟨h1, h2⟩ := Rounded.quadratic_outside h (b := B) hC0 hpos
  rcases le_or_gt 0 B with hb | hb
  · rw [h1 hb] at ht
    simp at ht
  · rcases h2 hb with ⟨h3, -⟩ | ⟨t', T, h3, h4, h5, h6, h7, h8⟩
    · rw [h3] at ht
      simp at ht
    · rw [h3] at ht
      have : t' = t := by exact_mod_cast ht
      subst this
      have := Rounded.sphere_before hd' hx hL hB hC h5 h6 h7 h8 hs0 hs
      rw [apart_squared, along_eq]
      refine le_trans (le_of_eq ?_) this
      unfold eps
      ring

/-- A sphere that is not seen does not contain the particle and is not entered by it. -/
theorem C89_overlooked (h : Nearest rnd) {center p : Point} {d : Direction} {R : ℝ} (hR : 0 < R)
    (hd : Spec.NearlyUnit d) (ht : Rounded.distance rnd (.sphere center R) p d = ⊤) :
    Rounded.contains rnd (.sphere center R) p = false ∧
    ∀ s, 0 ≤ s → R ^ 2 - 96 * Spec.scale center R p ^ 2 / 2 ^ 53 ≤
        Spec.apart (Spec.along p d s) center ^ 2 := by
  obtain ⟨hL, hx, hRL⟩ := scale_spec (center := center) (p := p) hR
  obtain ⟨B, C, e, hC0, hiff, hB, hC⟩ := sphere_facts h (center := center) (p := p) hR hd
  set L := Spec.scale center R p
  have hd' := nearlyUnit_iff.1 hd
  rw [e] at ht
  have hnn : 0 ≤ C := by
    by_contra hcon
    obtain ⟨t', T, h1, -⟩ := Rounded.quadratic_inside h (b := B) hC0 (not_le.1 hcon)
    rw [h1] at ht
    simp at ht
  have hm : 0 ≤ B ∨ B ^ 2 * (1 - eps) ≤ 4 * C := by
    rcases le_or_gt 0 B with hb | hb
    · exact .inl hb
    · rcases hnn.lt_or_eq with hpos | hzero
      · rcases (Rounded.quadratic_outside h (b := B) hC0 hpos).2 hb with ⟨-, h3⟩ | ⟨t', T, h3, -⟩
        · exact .inr h3
        · rw [h3] at ht
          simp at ht
      · obtain ⟨t', h3, -⟩ := (Rounded.quadratic_on h (b := B)).2 hb
        rw [← hzero, h3] at ht
        simp at ht
  refine ⟨?_, fun s hs0 => ?_⟩
  · rw [Bool.eq_false_iff]
    intro hin
    linarith [hiff.1 hin]
  · have := Rounded.sphere_missed hd' hx hL hB hC hnn hm hs0
    rw [apart_squared, along_eq]
    refine le_trans (le_of_eq ?_) this
    unfold eps
    ring

/-- Instances: a point inside a sphere of radius 2 and a point outside, in doubles, with a direction
of unit length. -/
example : Spec.NearlyUnit ⟨3 / 5, 4 / 5, 0⟩ ∧
    (2 : ℝ) ^ 2 + 10 * Spec.scale ⟨1, 0, 0⟩ 2 ⟨5, 0, 0⟩ ^ 2 / 2 ^ 53 ≤
      Spec.apart ⟨5, 0, 0⟩ ⟨1, 0, 0⟩ ^ 2 := by
  have e : Spec.apart ⟨5, 0, 0⟩ ⟨1, 0, 0⟩ = 4 := by
    rw [Spec.apart, show ((5 : ℝ) - 1) ^ 2 + (0 - 0) ^ 2 + (0 - 0) ^ 2 = 4 ^ 2 by norm_num]
    exact Real.sqrt_sq (by norm_num)
  constructor
  · norm_num [Spec.NearlyUnit]
  · rw [Spec.scale, e]
    norm_num

/-! ### Flying through a sphere -/

/-- A ball around the origin. -/
def roundBall (n : ℕ) : SurfaceObj := ⟨1, "ball", .sphere ⟨0, 0, 0⟩ n⟩
/-- The inside of the ball. -/
def roundBallInner (n : ℕ) (m : Material) : Cell := ⟨"inner", [(roundBall n, true)], some m, .constant 300⟩
/-- The outside of the ball. -/
def roundBallOuter (n : ℕ) (m : Material) : Cell := ⟨"outer", [(roundBall n, false)], some m, .constant 300⟩
/-- A ball of one material in another. -/
def roundBallWorld (n : ℕ) (m₁ m₂ : Material) : World :=
  ⟨[roundBall n], [], [m₁, m₂], .constant 300, [roundBallInner n m₁, roundBallOuter n m₂]⟩

theorem axis_sub (h : Nearest rnd) {x : ℝ} (hx : IsDouble x) :
    Rounded.sub rnd ⟨x, 0, 0⟩ ⟨0, 0, 0⟩ = ⟨x, 0, 0⟩ := by
  simp only [Rounded.sub, sub_zero, h.self hx, h.zero]

theorem axis_dot (h : Nearest rnd) (x y : ℝ) :
    Rounded.dot rnd ⟨x, 0, 0⟩ ⟨y, 0, 0⟩ = rnd (x * y) := by
  simp only [Rounded.dot, mul_zero, h.zero, add_zero, h.self (h.isDouble _)]

theorem roundBall_contains (h : Nearest rnd) {n : ℕ} (hn : n ≤ 2 ^ 26) {x : ℝ} (hx : IsDouble x) :
    Rounded.contains rnd (.sphere ⟨0, 0, 0⟩ n) ⟨x, 0, 0⟩ = decide (rnd (x * x) < (n : ℝ) * n) := by
  have hnn : IsDouble ((n : ℝ) * n) := by
    have : n * n ≤ 2 ^ 26 * 2 ^ 26 := Nat.mul_le_mul hn hn
    have := IsDouble.nat (m := n * n) (this.trans (by norm_num))
    push_cast at this
    exact this
  simp only [Rounded.contains, axis_sub h hx, axis_dot h, h.self hnn]

/-- In a ball of integer radius of at least 64, surrounded by another material, a particle one unit
above the ball and flying at its centre is sent into the ball, lands on it, is found outside, and
sees next the far side of the ball: every collision that is sampled to happen inside the ball happens
there with the outer material. -/
theorem C89_fly_through_violated (h : Nearest rnd) {n : ℕ} (h64 : 64 ≤ n) (hn : n ≤ 2 ^ 25)
    (m₁ m₂ : Material) {p : Particle} (hc : p.cell = some (roundBallOuter n m₂))
    (hp : p.position = ⟨n + 1, 0, 0⟩) (hd : p.direction = ⟨-1, 0, 0⟩) {dc dc' : ℝ} (h1 : 1 ≤ dc)
    (h2 : 1 ≤ dc') (h3 : dc' ≤ 2 * n - 1) :
    ∃ q r, Rounded.flight rnd (roundBallWorld n m₁ m₂) p (dc : WithTop ℝ) = .ok (false, q) ∧
      q.event = .surfaceCross ∧ q.cell = some (roundBallOuter n m₂) ∧ q.position = ⟨n, 0, 0⟩ ∧
      Rounded.flight rnd (roundBallWorld n m₁ m₂) q (dc' : WithTop ℝ) = .ok (true, r) ∧
      r.cell = some (roundBallOuter n m₂) ∧ |r.position.x| ≤ n - 1 ∧ r.position.y = 0 ∧
      r.position.z = 0 ∧ Rounded.cellContains rnd (roundBallOuter n m₂) r.position = false ∧
      Rounded.cellContains rnd (roundBallInner n m₁) r.position = true := by
  have hnR : (64 : ℝ) ≤ n := by exact_mod_cast h64
  have dn : ∀ k : ℕ, k ≤ 2 ^ 53 → IsDouble (k : ℝ) := fun k hk => IsDouble.nat hk
  have sq : ∀ k : ℕ, k ≤ 2 ^ 26 → IsDouble ((k : ℝ) * k) := by
    intro k hk
    have : k * k ≤ 2 ^ 26 * 2 ^ 26 := Nat.mul_le_mul hk hk
    have := IsDouble.nat (m := k * k) (this.trans (by norm_num))
    push_cast at this
    exact this
  have dN : IsDouble (n : ℝ) := dn n (hn.trans (by norm_num))
  have dN1 : IsDouble ((n : ℝ) + 1) := by simpa using dn (n + 1) (by omega)
  have sN := sq n (by omega)
  have sN1 : IsDouble (((n : ℝ) + 1) * (n + 1)) := by simpa using sq (n + 1) (by omega)
  have d1 := IsDouble.one
  -- the first distance
  have hfirst : Rounded.distance rnd (.sphere ⟨0, 0, 0⟩ n) ⟨n + 1, 0, 0⟩ ⟨-1, 0, 0⟩ =
      ((1 : ℝ) : WithTop ℝ) := by
    simp only [Rounded.distance, axis_sub h dN1, axis_dot h, h.self sN, h.self sN1]
    have e1 : rnd (((n : ℝ) + 1) * -1) = -(n + 1) := by rw [mul_neg_one, h.self dN1.neg]
    have e2 : rnd (2 * -((n : ℝ) + 1)) = -(2 * (n + 1)) := by
      rw [Rounded.scale_two h dN1.neg]; ring
    have e3 : rnd (((n : ℝ) + 1) * (n + 1) - n * n) = 2 * n + 1 := by
      have : IsDouble (2 * (n : ℝ) + 1) := by simpa using dn (2 * n + 1) (by omega)
      rw [show ((n : ℝ) + 1) * (n + 1) - n * n = 2 * n + 1 by ring, h.self this]
    rw [e1, e2, e3]
    unfold Rounded.solveQuadratic
    have four : rnd (4 * 1) = 4 := by rw [Rounded.scale_four h d1, mul_one]
    have two : rnd (2 * 1) = 2 := by rw [Rounded.scale_two h d1, mul_one]
    have dd : IsDouble (2 * (n : ℝ) + 1) := by simpa using dn (2 * n + 1) (by omega)
    have e4 : rnd (-(2 * ((n : ℝ) + 1)) * -(2 * (n + 1))) = 4 * ((n + 1) * (n + 1)) := by
      rw [show -(2 * ((n : ℝ) + 1)) * -(2 * (n + 1)) = 4 * ((n + 1) * (n + 1)) by ring]
      exact Rounded.scale_four h sN1
    have e5 : rnd (4 * (((n : ℝ) + 1) * (n + 1)) - 4 * (2 * n + 1)) = 4 * (n * n) := by
      rw [show 4 * (((n : ℝ) + 1) * (n + 1)) - 4 * (2 * n + 1) = 4 * (n * n) by ring]
      exact Rounded.scale_four h sN
    have e6 : Real.sqrt (4 * ((n : ℝ) * n)) = 2 * n := by
      rw [show 4 * ((n : ℝ) * n) = (2 * n) ^ 2 by ring]
      exact Real.sqrt_sq (by positivity)
    rw [four, two, Rounded.scale_four h dd, e4, e5]
    dsimp only
    rw [e6, Rounded.scale_two h dN, Rounded.scale_two h dd, neg_neg]
    have dd' : IsDouble (2 * (2 * (n : ℝ) + 1)) := by
      simpa using dn (2 * (2 * n + 1)) (by omega)
    have e7 : rnd (2 * ((n : ℝ) + 1) + 2 * n) = 2 * (2 * n + 1) := by
      rw [show 2 * ((n : ℝ) + 1) + 2 * n = 2 * (2 * n + 1) by ring, h.self dd']
    rw [e7, if_neg (by nlinarith : ¬ 4 * ((n : ℝ) * n) ≤ 0),
      if_neg (by linarith : ¬ -(2 * ((n : ℝ) + 1)) > 0), div_self (by linarith), h.one,
      if_pos one_pos]
  -- the second distance
  have hsecond : Rounded.distance rnd (.sphere ⟨0, 0, 0⟩ n) ⟨n, 0, 0⟩ ⟨-1, 0, 0⟩ =
      ((2 * n : ℝ) : WithTop ℝ) := by
    simp only [Rounded.distance, axis_sub h dN, axis_dot h, h.self sN]
    have e1 : rnd ((n : ℝ) * -1) = -n := by rw [mul_neg_one, h.self dN.neg]
    have e2 : rnd (2 * -(n : ℝ)) = -(2 * n) := by
      rw [Rounded.scale_two h dN.neg]; ring
    rw [e1, e2, sub_self, h.zero]
    unfold Rounded.solveQuadratic
    have four : rnd (4 * 1) = 4 := by rw [Rounded.scale_four h d1, mul_one]
    have two : rnd (2 * 1) = 2 := by rw [Rounded.scale_two h d1, mul_one]
    have e4 : rnd (-(2 * (n : ℝ)) * -(2 * n)) = 4 * (n * n) := by
      rw [show -(2 * (n : ℝ)) * -(2 * n) = 4 * (n * n) by ring]
      exact Rounded.scale_four h sN
    have e6 : Real.sqrt (4 * ((n : ℝ) * n)) = 2 * n := by
      rw [show 4 * ((n : ℝ) * n) = (2 * n) ^ 2 by ring]
      exact Real.sqrt_sq (by positivity)
    rw [four, two, mul_zero, mul_zero, h.zero, e4, sub_zero, Rounded.scale_four h sN]
    dsimp only
    rw [e6, Rounded.scale_two h dN, zero_div, h.zero, neg_neg]
    have e7 : rnd (2 * (n : ℝ) + 2 * n) = 4 * n := by
      rw [show 2 * (n : ℝ) + 2 * n = 4 * n by ring, Rounded.scale_four h dN]
    rw [e7, if_neg (by nlinarith : ¬ 4 * ((n : ℝ) * n) ≤ 0),
      if_neg (by linarith : ¬ -(2 * (n : ℝ)) > 0), if_neg (lt_irrefl _),
      if_neg (by linarith : ¬ -(2 * (n : ℝ)) > 0),
      show 4 * (n : ℝ) / 2 = 2 * n by ring, Rounded.scale_two h dN, if_pos (by linarith)]
  have hx : rnd ((n : ℝ) + 1 + rnd (-1 * rnd (1 + nudge))) = n := by
    rw [h.self Rounded.isDouble_step, neg_one_mul, h.self Rounded.isDouble_step.neg,
      Rounded.nudge_lost h h64 (hn.trans (by norm_num))]
  have hz : ∀ s : ℝ, rnd (0 + rnd (0 * s)) = 0 := by
    intro s; rw [zero_mul, h.zero, add_zero, h.zero]
  let q : Particle := { p with
    position := ⟨n, 0, 0⟩, cell := some (roundBallOuter n m₂), currentSurface := some (roundBall n),
    event := .surfaceCross }
  have hn26 : n ≤ 2 ^ 26 := hn.trans (by norm_num)
  have hfind : Rounded.findCellContaining rnd (roundBallWorld n m₁ m₂) ⟨n, 0, 0⟩ =
      .ok (roundBallOuter n m₂) := by
    have hb := roundBall_contains h hn26 dN
    rw [h.self sN, decide_eq_false (lt_irrefl _)] at hb
    have f1 : Rounded.cellContains rnd (roundBallInner n m₁) ⟨n, 0, 0⟩ = false := by
      simp [Rounded.cellContains, roundBallInner, roundBall, hb]
    have f2 : Rounded.cellContains rnd (roundBallOuter n m₂) ⟨n, 0, 0⟩ = true := by
      simp [Rounded.cellContains, roundBallOuter, roundBall, hb]
    simp [Rounded.findCellContaining, roundBallWorld, f1, f2]
  have hnear : ∀ (a : Point) (b : Direction),
      Rounded.nearestSurface rnd (roundBallOuter n m₂) a b =
        .ok (roundBall n, Rounded.distance rnd (.sphere ⟨0, 0, 0⟩ n) a b) := fun a b => rfl
  have hstep : Rounded.flight rnd (roundBallWorld n m₁ m₂) p (dc : WithTop ℝ) = .ok (false, q) := by
    have hcell : p.getCell = .ok (roundBallOuter n m₂) := by simp [Particle.getCell, hc]
    have hlt : ¬ ((dc : WithTop ℝ) < ((1 : ℝ) : WithTop ℝ)) := by
      rw [WithTop.coe_lt_coe]; linarith
    rw [Rounded.flight, hcell]
    simp only [bind, Except.bind, hnear, hp, hd, hfirst]
    simp only [hlt, if_false, Rounded.crossSurface, bind, Except.bind, Rounded.nudged, Rounded.stream,
      Rounded.add, Rounded.smul, hp, hd, hx, hz, hfind]
    simp [roundBallOuter, q, hd]
  have hq : Rounded.flight rnd (roundBallWorld n m₁ m₂) q (dc' : WithTop ℝ) = .ok (true,
      { q with position := Rounded.add rnd q.position (Rounded.smul rnd q.direction dc') }) := by
    have hcell : q.getCell = .ok (roundBallOuter n m₂) := by simp [Particle.getCell, q]
    have e1 : q.position = ⟨n, 0, 0⟩ := rfl
    have e2 : q.direction = ⟨-1, 0, 0⟩ := hd
    have hlt : (dc' : WithTop ℝ) < ((2 * n : ℝ) : WithTop ℝ) := by
      rw [WithTop.coe_lt_coe]; linarith
    rw [Rounded.flight, hcell]
    simp only [bind, Except.bind, hnear, e1, e2, hsecond, hlt, if_true, Rounded.stream]
  have dm : IsDouble ((n : ℝ) - 1) := by
    have := dn (n - 1) (by omega)
    rwa [Nat.cast_sub (by omega), Nat.cast_one] at this
  have dm2 : IsDouble (2 * (n : ℝ) - 1) := by
    have := dn (2 * n - 1) (by omega)
    rw [Nat.cast_sub (by omega)] at this
    simpa using this
  set x := rnd ((n : ℝ) + rnd (-1 * dc')) with hxdef
  have hxu : x ≤ n - 1 := by
    rw [hxdef, ← h.self dm]
    apply h.mono
    have : rnd (-1 * dc') ≤ rnd (-1) := h.mono (by linarith)
    rw [h.self d1.neg] at this
    linarith
  have hxl : -((n : ℝ) - 1) ≤ x := by
    rw [hxdef, ← h.self dm.neg]
    apply h.mono
    have : rnd (-(2 * n - 1)) ≤ rnd (-1 * dc') := h.mono (by linarith)
    rw [h.self dm2.neg] at this
    linarith
  have hin : Rounded.contains rnd (.sphere ⟨0, 0, 0⟩ n) ⟨x, 0, 0⟩ = true := by
    rw [roundBall_contains h hn26 (h.isDouble _)]
    refine decide_eq_true ?_
    have sm : IsDouble (((n : ℝ) - 1) * (n - 1)) := by
      have := sq (n - 1) (by omega)
      rwa [Nat.cast_sub (by omega), Nat.cast_one] at this
    have hle : rnd (x * x) ≤ (n - 1) * (n - 1) := by
      rw [← h.self sm]
      apply h.mono
      rw [← abs_mul_abs_self x]
      exact mul_self_le_mul_self (abs_nonneg x) (abs_le.2 ⟨hxl, hxu⟩)
    nlinarith
  have hpos : Rounded.add rnd q.position (Rounded.smul rnd q.direction dc') = ⟨x, 0, 0⟩ := by
    simp only [Rounded.add, Rounded.smul, q, hd, hz]
    rfl
  refine ⟨q, _, hstep, rfl, rfl, rfl, hq, rfl, ?_, ?_, ?_, ?_, ?_⟩
  · rw [hpos]; exact abs_le.2 ⟨hxl, hxu⟩
  · rw [hpos]
  · rw [hpos]
  · rw [hpos]
    simp [Rounded.cellContains, roundBallOuter, roundBall, hin]
  · rw [hpos]
    simp [Rounded.cellContains, roundBallInner, roundBall, hin]

/-- Such a particle exists. -/
example (m : Material) : ∃ p : Particle, p.cell = some (roundBallOuter 100 m) ∧
    p.position = ⟨(100 : ℕ) + 1, 0, 0⟩ ∧ p.direction = ⟨-1, 0, 0⟩ :=
  ⟨{ Particle.ofBorn ⟨⟨(100 : ℕ) + 1, 0, 0⟩, ⟨-1, 0, 0⟩, .group 1, .neutron, 1, none⟩ with
      cell := some (roundBallOuter 100 m) }, rfl, rfl, rfl⟩

end Minimc.Props
