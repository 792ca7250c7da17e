import Verif.Lemmas.Keeps
import Verif.Props.Point

/-! # Property C43 -/

namespace Minimc.Props

open Classical Spec

/-- Square of the length of a vector. -/
def sqLength (v : Point) : ℝ := v.x ^ 2 + v.y ^ 2 + v.z ^ 2

/-- A collision of masses 1 and `A` conserves momentum and kinetic energy. -/
def Elastic (A : ℝ) (v V v' V' : Point) : Prop :=
  v.x + A * V.x = v'.x + A * V'.x ∧ v.y + A * V.y = v'.y + A * V'.y ∧
  v.z + A * V.z = v'.z + A * V'.z ∧
  sqLength v + A * sqLength V = sqLength v' + A * sqLength V'

theorem sqLength_eq_dot (v : Point) : v.dot v = sqLength v := by
  unfold Point.dot sqLength
  ring

theorem sqLength_nonneg (v : Point) : 0 ≤ sqLength v := by
  unfold sqLength
  positivity

/-- **C43** Whatever the target velocity and the scattering angles in the centre-of-mass frame, the
outgoing neutron velocity and the target velocity that follows from momentum conservation have
the same total kinetic energy as before. -/
theorem C43_elastic {A : ℝ} (hA : 0 < A) (v V : Point) {mu phi : ℝ} (h1 : -1 ≤ mu) (h2 : mu ≤ 1)
    {v' : Point} (h : FreeGas.outgoingVelocity A v V mu phi = .ok v') :
    ∃ V', Elastic A v V v' V' := by
  unfold FreeGas.outgoingVelocity at h
  simp only [res_bind_ok] at h
  obtain ⟨d, hd, d', hd', hv'⟩ := h
  have hne : (v - FreeGas.centreOfMass A v V) ≠ ⟨0, 0, 0⟩ := by
    intro e
    have := (C01_direction_nan_iff (v - FreeGas.centreOfMass A v V)).2 e
    rw [this] at hd
    cases hd
  obtain ⟨d₁, _, e1, hu, _⟩ := C01_direction_of_point_unit _ hne
  rw [e1] at hd
  cases hd
  obtain ⟨r, e2, hr, _⟩ := C03_rotated_direction d mu phi hu h1 h2
  rw [e2] at hd'
  cases hd'
  simp only [Except.ok.injEq] at hv'
  have hL := sqLength_nonneg (v - FreeGas.centreOfMass A v V)
  have hsq := Real.sq_sqrt hL
  rw [sqLength_eq_dot] at hv'
  set L := Real.sqrt (sqLength (v - FreeGas.centreOfMass A v V)) with hLdef
  have hA1 : (1 + A) ≠ 0 := by linarith
  have hA0 : A ≠ 0 := hA.ne'
  refine ⟨⟨V.x + (v.x - v'.x) / A, V.y + (v.y - v'.y) / A, V.z + (v.z - v'.z) / A⟩, ?_, ?_, ?_, ?_⟩
  · field_simp; ring
  · field_simp; ring
  · field_simp; ring
  · -- energy: reduce to equality of the relative speeds
    clear_value L
    obtain ⟨vx, vy, vz⟩ := v
    obtain ⟨Vx, Vy, Vz⟩ := V
    obtain ⟨rx, ry, rz⟩ := d'
    subst hv'
    unfold UnitVec at hr
    unfold sqLength FreeGas.centreOfMass Point.sdiv at *
    simp only [Point.add_x, Point.add_y, Point.add_z, Point.sub_x, Point.sub_y, Point.sub_z,
      Point.smul_x, Point.smul_y, Point.smul_z] at *
    set cx := (vx + Vx * A) / (1 + A) with hcx
    set cy := (vy + Vy * A) / (1 + A) with hcy
    set cz := (vz + Vz * A) / (1 + A) with hcz
    have ex : vx + A * Vx = (1 + A) * cx := by rw [hcx]; field_simp
    have ey : vy + A * Vy = (1 + A) * cy := by rw [hcy]; field_simp
    have ez : vz + A * Vz = (1 + A) * cz := by rw [hcz]; field_simp
    clear_value cx cy cz
    have fx : Vx = ((1 + A) * cx - vx) / A := by field_simp; linarith
    have fy : Vy = ((1 + A) * cy - vy) / A := by field_simp; linarith
    have fz : Vz = ((1 + A) * cz - vz) / A := by field_simp; linarith
    rw [fx, fy, fz]
    have hr2 : L ^ 2 * (rx ^ 2 + ry ^ 2 + rz ^ 2) = L ^ 2 := by rw [hr, mul_one]
    field_simp
    linear_combination (-(1 + A)) * (hr2 + hsq)

/-- **C43** The acceptance probability of a candidate target lies between zero and one. -/
theorem C43_accept_prob {x y mu : ℝ} (hx : 0 < x) (hy : 0 ≤ y) (h1 : -1 ≤ mu) (_h2 : mu ≤ 1) :
    0 ≤ FreeGas.acceptProb x y mu ∧ FreeGas.acceptProb x y mu ≤ 1 := by
  unfold FreeGas.acceptProb
  have hs : 0 < x + y := by linarith
  refine ⟨div_nonneg (Real.sqrt_nonneg _) hs.le, (div_le_one hs).2 ?_⟩
  apply Real.sqrt_le_iff.2
  refine ⟨hs.le, ?_⟩
  nlinarith [mul_nonneg hx.le hy]

/-- **C43** It is the relative speed of neutron and target, over the sum of their speeds. -/
theorem C43_accept_relative_speed {v V : Point} {x y mu : ℝ} (hv : sqLength v = y ^ 2)
    (hV : sqLength V = x ^ 2) (hmu : cosAngle v V = x * y * mu) :
    FreeGas.acceptProb x y mu = Real.sqrt (sqLength (v - V)) / (x + y) := by
  unfold FreeGas.acceptProb
  congr 2
  unfold sqLength at *
  unfold cosAngle at hmu
  simp only [Point.sub_x, Point.sub_y, Point.sub_z]
  linear_combination -hv - hV + 2 * hmu

/-- **C43** Every candidate has a positive speed and a cosine between minus one and one. -/
theorem C43_candidate {y : ℝ} {p : Particle} (hr : Rng.Valid p.rng) {x mu : ℝ} {p' : Particle}
    (h : FreeGas.candidate y p = (x, mu, p')) :
    0 < x ∧ -1 < mu ∧ mu < 1 ∧ Rng.Valid p'.rng ∧ ∃ g, p' = { p with rng := g } := by
  unfold FreeGas.candidate at h
  simp only [Particle.sample] at h
  have v1 := Rng.valid_canonical hr
  have v2 := Rng.valid_canonical v1
  have v3 := Rng.valid_canonical v2
  have v4 := Rng.valid_canonical v3
  have p1 := Rng.canonical_pos hr
  have l1 := Rng.canonical_lt_one hr
  have p2 := Rng.canonical_pos v1
  have l2 := Rng.canonical_lt_one v1
  by_cases hb : (Rng.canonical (Rng.canonical (Rng.canonical p.rng).2).2).1 <
      FreeGas.branchProb y
  · erw [if_pos hb] at h
    simp only [Prod.mk.injEq] at h
    obtain ⟨rfl, rfl, rfl⟩ := h
    refine ⟨?_, by linarith [Rng.canonical_pos v3], by linarith [Rng.canonical_lt_one v3],
      Rng.valid_canonical v3, _, rfl⟩
    unfold FreeGas.speedA
    apply Real.sqrt_pos.2
    have : Real.log ((Rng.canonical p.rng).1 * (Rng.canonical (Rng.canonical p.rng).2).1) < 0 :=
      Real.log_neg (by positivity) (by nlinarith)
    linarith
  · erw [if_neg hb] at h
    simp only [Prod.mk.injEq] at h
    obtain ⟨rfl, rfl, rfl⟩ := h
    refine ⟨?_, by linarith [Rng.canonical_pos v4], by linarith [Rng.canonical_lt_one v4],
      Rng.valid_canonical v4, _, rfl⟩
    unfold FreeGas.speedB
    apply Real.sqrt_pos.2
    have h1 := Real.log_neg p1 l1
    have h2 := Real.log_neg p2 l2
    have h3 := mul_self_nonneg (Real.cos (Real.pi * (Rng.canonical (Rng.canonical
      (Rng.canonical (Rng.canonical p.rng).2).2).2).1 / 2))
    nlinarith

theorem targetLoop_ok {y : ℝ} : ∀ {n : ℕ} {p : Particle} (_ : Rng.Valid p.rng) {x mu : ℝ}
    {p' : Particle} (_ : FreeGas.targetLoop y n p = .ok (x, mu, p')),
    0 < x ∧ -1 < mu ∧ mu < 1 ∧ Rng.Valid p'.rng ∧ ∃ g, p' = { p with rng := g }
  | 0, _, _, _, _, _, h => by cases h
  | n + 1, p, hr, x, mu, p', h => by
    rw [FreeGas.targetLoop] at h
    rcases hc : FreeGas.candidate y p with ⟨x₁, mu₁, p₁⟩
    obtain ⟨h1, h2, h3, h4, g, h5⟩ := C43_candidate hr hc
    rw [hc] at h
    simp only [Particle.sample] at h
    by_cases hb : (Rng.canonical p₁.rng).1 ≥ FreeGas.acceptProb x₁ y mu₁
    · erw [if_pos hb] at h
      obtain ⟨k1, k2, k3, k4, g', k5⟩ := targetLoop_ok (n := n) (Rng.valid_canonical h4) h
      exact ⟨k1, k2, k3, k4, g', by rw [k5, h5]⟩
    · erw [if_neg hb] at h
      simp only [Except.ok.injEq, Prod.mk.injEq] at h
      obtain ⟨rfl, rfl, rfl⟩ := h
      exact ⟨h1, h2, h3, Rng.valid_canonical h4, _, by rw [h5]⟩

theorem neutronMass_pos : 0 < neutronMass := by unfold neutronMass; norm_num

theorem betaOf_nonneg (awr t : ℝ) : 0 ≤ FreeGas.betaOf awr t := Real.sqrt_nonneg _

/-- The sampled target has a non-negative speed and a cosine between minus one and one. -/
theorem sampleTarget_ok {fuel : ℕ} {awr e t : ℝ} {p : Particle} (hr : Rng.Valid p.rng) {s mu : ℝ}
    {p' : Particle} (h : FreeGas.sampleTarget fuel awr e t p = .ok (s, mu, p')) :
    0 ≤ s ∧ -1 < mu ∧ mu < 1 ∧ Rng.Valid p'.rng ∧ ∃ g, p' = { p with rng := g } := by
  unfold FreeGas.sampleTarget at h
  by_cases h0 : t = 0
  · rw [if_pos h0] at h
    simp only [Particle.sample, Except.ok.injEq, Prod.mk.injEq] at h
    obtain ⟨rfl, rfl, rfl⟩ := h
    have v1 := Rng.valid_canonical hr
    have v2 := Rng.valid_canonical v1
    have v3 := Rng.valid_canonical v2
    have v4 := Rng.valid_canonical v3
    have v5 := Rng.valid_canonical v4
    exact ⟨le_refl _, by linarith [Rng.canonical_pos v4], by linarith [Rng.canonical_lt_one v4],
      Rng.valid_canonical v5, _, rfl⟩
  · rw [if_neg h0] at h
    simp only [res_bind_ok] at h
    obtain ⟨⟨x, m, q⟩, h1, h2⟩ := h
    obtain ⟨k1, k2, k3, k4, k5⟩ := targetLoop_ok hr h1
    simp only at h2
    split_ifs at h2 with hb
    cases h2
    exact ⟨div_nonneg k1.le (betaOf_nonneg _ _), k2, k3, k4, k5⟩

theorem cosAngle_le_one {a b : Point} (ha : UnitVec a) (hb : UnitVec b) :
    -1 ≤ cosAngle a b ∧ cosAngle a b ≤ 1 := by
  unfold UnitVec at ha hb
  unfold cosAngle
  constructor
  · nlinarith [sq_nonneg (a.x + b.x), sq_nonneg (a.y + b.y), sq_nonneg (a.z + b.z)]
  · nlinarith [sq_nonneg (a.x - b.x), sq_nonneg (a.y - b.y), sq_nonneg (a.z - b.z)]

/-- **C43** A free-gas scatter.  The neutron had velocity `v` along its direction with kinetic
energy `e`.  There are a target velocity `V` and outgoing velocities `v'`, `V'` of an elastic
collision such that the neutron leaves with the kinetic energy of `v'` and a direction of unit
length that makes the same angle with its old direction as `v'`.  Nothing else but the generator
changes. -/
theorem C43_scatter {fuel : ℕ} {A e : ℝ} (hA : 0 < A) {p p' : Particle} (hr : Rng.Valid p.rng)
    (hu : UnitVec p.direction) (he : p.energy = .continuous e)
    (h : FreeGas.interact fuel A p = .ok p') :
    ∃ (v V v' V' : Point) (s e' : ℝ), 0 ≤ s ∧ v = p.direction.smul s ∧
      e = neutronMass * sqLength v / 2 ∧ Elastic A v V v' V' ∧
      p'.energy = .continuous e' ∧ e' = neutronMass * sqLength v' / 2 ∧ 0 ≤ e' ∧
      UnitVec p'.direction ∧
      cosAngle p.direction p'.direction * Real.sqrt (sqLength v') = cosAngle p.direction v' ∧
      -1 ≤ cosAngle p.direction p'.direction ∧ cosAngle p.direction p'.direction ≤ 1 ∧
      ∃ d g, p' = { p with direction := d, energy := .continuous e', rng := g } := by
  unfold FreeGas.interact at h
  simp only [res_bind_ok, he, Energy.getContinuous] at h
  obtain ⟨e₁, he₁, t, _, h⟩ := h
  cases he₁
  have hm := neutronMass_pos
  split_ifs at h with hneg
  push Not at hneg
  simp only [res_bind_ok] at h
  obtain ⟨⟨s, mu, q⟩, h1, h2⟩ := h
  obtain ⟨hs, hmu1, hmu2, hq, g, hg⟩ := sampleTarget_ok hr h1
  simp only at h2
  unfold FreeGas.collideWith at h2
  simp only [res_bind_ok, Particle.sample] at h2
  obtain ⟨dT, hdT, v', hv', d', hd', hsc⟩ := h2
  have hqd : q.direction = p.direction := by rw [hg]
  rw [hqd] at hdT hv' hsc
  have w1 := Rng.valid_canonical hq
  have w2 := Rng.valid_canonical w1
  have w3 := Rng.valid_canonical w2
  obtain ⟨V', hel⟩ := C43_elastic hA _ _
    (by linarith [Rng.canonical_pos w1]) (by linarith [Rng.canonical_lt_one w1]) hv'
  have hne : v' ≠ ⟨0, 0, 0⟩ := by
    intro e
    have := (C01_direction_nan_iff v').2 e
    rw [this] at hd'
    cases hd'
  obtain ⟨d₁, k, e1, hu', hk, ex, ey, ez⟩ := C01_direction_of_point_unit _ hne
  rw [e1] at hd'
  cases hd'
  have hmu := cosAngle_le_one hu hu'
  unfold Particle.scatter at hsc
  simp only [res_bind_ok, Particle.sample] at hsc
  obtain ⟨dd, hdd, hp'⟩ := hsc
  simp only [Except.ok.injEq] at hp'
  obtain ⟨r, e2, hur, hcr⟩ := C03_rotated_direction p.direction (p.direction.dot d')
    _ hu hmu.1 hmu.2
  rw [e2] at hdd
  cases hdd
  have hks : Real.sqrt (sqLength v') = k := by
    have : sqLength v' = k ^ 2 := by
      unfold sqLength
      unfold UnitVec at hu'
      rw [ex, ey, ez]
      linear_combination k ^ 2 * hu'
    rw [this, Real.sqrt_sq hk.le]
  subst hp'
  refine ⟨p.direction.smul (FreeGas.neutronSpeed e), _, v', V', FreeGas.neutronSpeed e, _,
    Real.sqrt_nonneg _, rfl, ?_, hel, rfl, ?_, ?_, hur, ?_, ?_, ?_, ?_⟩
  · have : sqLength (p.direction.smul (FreeGas.neutronSpeed e)) = 2 * e / neutronMass := by
      unfold sqLength
      simp only [Point.smul_x, Point.smul_y, Point.smul_z]
      unfold UnitVec at hu
      have h3 : FreeGas.neutronSpeed e ^ 2 = 2 * e / neutronMass := by
        unfold FreeGas.neutronSpeed
        exact Real.sq_sqrt (div_nonneg (by linarith [hneg.1]) hm.le)
      linear_combination FreeGas.neutronSpeed e ^ 2 * hu + h3
    rw [this]
    field_simp
  · rw [sqLength_eq_dot]
    ring
  · have := sqLength_nonneg v'
    rw [sqLength_eq_dot]
    positivity
  · rw [hcr, hks]
    unfold cosAngle Point.dot
    rw [ex, ey, ez]
    ring
  · rw [hcr]; exact hmu.1
  · rw [hcr]; exact hmu.2
  · exact ⟨_, _, by rw [hg]⟩

/-- Instance: a head-on collision with a target of equal mass at rest, scattered by 60 degrees in
the centre-of-mass frame. -/
example : ∃ v' V', FreeGas.outgoingVelocity 1 ⟨2, 0, 0⟩ ⟨0, 0, 0⟩ (1 / 2) 0 = .ok v' ∧
    Elastic 1 ⟨2, 0, 0⟩ ⟨0, 0, 0⟩ v' V' ∧ v'.x = 3 / 2 := by
  have e0 : (⟨2, 0, 0⟩ - FreeGas.centreOfMass 1 ⟨2, 0, 0⟩ ⟨0, 0, 0⟩ : Point) = ⟨1, 0, 0⟩ := by
    unfold FreeGas.centreOfMass Point.sdiv
    ext <;> norm_num
  have hu : UnitVec (⟨1, 0, 0⟩ : Point) := by unfold UnitVec; norm_num
  have e1 : Direction.ofPoint ⟨1, 0, 0⟩ = .ok ⟨1, 0, 0⟩ := Point.normalize_of_unit hu
  obtain ⟨r, e2, _, hc⟩ := C03_rotated_direction ⟨1, 0, 0⟩ (1 / 2) 0 hu (by norm_num) (by norm_num)
  have key : FreeGas.outgoingVelocity 1 ⟨2, 0, 0⟩ ⟨0, 0, 0⟩ (1 / 2) 0 =
      .ok (r.smul (Real.sqrt ((⟨1, 0, 0⟩ : Point).dot ⟨1, 0, 0⟩)) +
        FreeGas.centreOfMass 1 ⟨2, 0, 0⟩ ⟨0, 0, 0⟩) := by
    unfold FreeGas.outgoingVelocity
    simp only [e0, e1, e2, bind, Except.bind]
  obtain ⟨V', hV'⟩ := C43_elastic one_pos _ _ (by norm_num) (by norm_num) key
  refine ⟨_, V', key, hV', ?_⟩
  have hrx : r.x = 1 / 2 := by
    unfold cosAngle at hc
    linarith
  simp only [Point.add_x, Point.smul_x, hrx]
  have : (⟨1, 0, 0⟩ : Point).dot ⟨1, 0, 0⟩ = 1 := by unfold Point.dot; norm_num
  rw [this, Real.sqrt_one]
  unfold FreeGas.centreOfMass Point.sdiv
  norm_num

end Minimc.Props
