import Verif.Spec.ContinuousRun
import Verif.Props.FreeGasScatter
import Verif.Lemmas.Adjustment

/-! # Free-gas collisions end with a neutron or at rest -/

namespace Minimc.Props

open Classical Spec

/-- An accepted target does not move with the neutron. -/
theorem targetLoop_accepts {y : ℝ} : ∀ {n : ℕ} {p : Particle} (_ : Rng.Valid p.rng) {x mu : ℝ}
    {p' : Particle} (_ : FreeGas.targetLoop y n p = .ok (x, mu, p')),
    0 < FreeGas.acceptProb x y mu
  | 0, _, _, _, _, _, h => by cases h
  | n + 1, p, hr, x, mu, p', h => by
    rw [FreeGas.targetLoop] at h
    rcases hc : FreeGas.candidate y p with ⟨x₁, mu₁, p₁⟩
    obtain ⟨h1, h2, h3, h4, g, h5⟩ := C43_candidate hr hc
    rw [hc] at h
    simp only [Particle.sample] at h
    by_cases hb : (Rng.canonical p₁.rng).1 ≥ FreeGas.acceptProb x₁ y mu₁
    · erw [if_pos hb] at h
      exact targetLoop_accepts (n := n) (Rng.valid_canonical h4) h
    · erw [if_neg hb] at h
      simp only [Except.ok.injEq, Prod.mk.injEq] at h
      obtain ⟨rfl, rfl, rfl⟩ := h
      exact (Rng.canonical_pos h4).trans (not_le.1 hb)

theorem targetLoop_cases {y : ℝ} : ∀ {n : ℕ} {p : Particle},
    (∃ r, FreeGas.targetLoop y n p = .ok r) ∨ FreeGas.targetLoop y n p = .error .fuel
  | 0, _ => Or.inr rfl
  | n + 1, p => by
    rw [FreeGas.targetLoop]
    rcases hc : FreeGas.candidate y p with ⟨x₁, mu₁, p₁⟩
    simp only [Particle.sample]
    by_cases hb : (Rng.canonical p₁.rng).1 ≥ FreeGas.acceptProb x₁ y mu₁
    · erw [if_pos hb]
      exact targetLoop_cases
    · erw [if_neg hb]
      exact Or.inl ⟨_, rfl⟩

theorem neutronSpeed_pos {e : ℝ} (he : 0 < e) : 0 < FreeGas.neutronSpeed e :=
  Real.sqrt_pos.2 (div_pos (by linarith) neutronMass_pos)

theorem betaOf_pos {A t : ℝ} (hA : 0 < A) (ht : 0 < t) : 0 < FreeGas.betaOf A t := by
  have := neutronMass_pos
  have := boltzmann_pos
  unfold FreeGas.betaOf
  positivity

/-- Sampling the target gives a target or runs out of rounds, the latter only in a gas that is not
at absolute zero, where the target is at rest. -/
theorem sampleTarget_cases {fuel : ℕ} {A e t : ℝ} (hA : 0 < A) (he : 0 < e) (ht : 0 ≤ t)
    {p : Particle} (hr : Rng.Valid p.rng) :
    (∃ s mu q, FreeGas.sampleTarget fuel A e t p = .ok (s, mu, q) ∧ (t = 0 → s = 0) ∧
      0 < s ^ 2 + FreeGas.neutronSpeed e ^ 2 - 2 * s * FreeGas.neutronSpeed e * mu) ∨
    (0 < t ∧ FreeGas.sampleTarget fuel A e t p = .error .fuel) := by
  by_cases h0 : t = 0
  · left
    unfold FreeGas.sampleTarget
    rw [if_pos h0]
    refine ⟨_, _, _, rfl, fun _ => rfl, ?_⟩
    have := neutronSpeed_pos he
    simp only [mul_zero, zero_mul, sub_zero, ne_eq, OfNat.ofNat_ne_zero, not_false_eq_true,
      zero_pow, zero_add]
    positivity
  · have hpos : 0 < t := lt_of_le_of_ne ht (Ne.symm h0)
    have hb := betaOf_pos hA hpos
    rcases targetLoop_cases (y := FreeGas.betaOf A t * FreeGas.neutronSpeed e) (n := fuel) (p := p) with
      ⟨⟨x, mu, q⟩, h⟩ | h
    · left
      refine ⟨x / FreeGas.betaOf A t, mu, q, ?_, fun h => absurd h h0, ?_⟩
      · unfold FreeGas.sampleTarget
        rw [if_neg h0, h]
        simp only [bind, Except.bind]
        rw [if_neg hb.ne']
      · have hacc := targetLoop_accepts hr h
        unfold FreeGas.acceptProb at hacc
        have hx := (targetLoop_ok hr h).1
        have hy := mul_pos hb (neutronSpeed_pos he)
        have h1 := (div_pos_iff_of_pos_right (add_pos hx hy)).1 hacc
        have h2 := Real.sqrt_pos.1 h1
        have h3 : (x / FreeGas.betaOf A t) ^ 2 + FreeGas.neutronSpeed e ^ 2 -
            2 * (x / FreeGas.betaOf A t) * FreeGas.neutronSpeed e * mu =
            (x * x + FreeGas.betaOf A t * FreeGas.neutronSpeed e *
              (FreeGas.betaOf A t * FreeGas.neutronSpeed e) -
              2 * x * (FreeGas.betaOf A t * FreeGas.neutronSpeed e) * mu) /
              FreeGas.betaOf A t ^ 2 := by
          field_simp
        rw [h3]
        positivity
    · right
      refine ⟨hpos, ?_⟩
      unfold FreeGas.sampleTarget
      rw [if_neg h0, h]
      rfl

/-- The relative velocity of neutron and target is not zero, so an outgoing velocity exists. -/
theorem outgoingVelocity_exists {A s v mu : ℝ} (hA : 0 < A) {d dT : Direction} (hd : UnitVec d)
    (hdT : UnitVec dT) (hc : cosAngle d dT = mu) (hrel : 0 < s ^ 2 + v ^ 2 - 2 * s * v * mu)
    {muCm : ℝ} (h1 : -1 ≤ muCm) (h2 : muCm ≤ 1) (phi : ℝ) :
    ∃ v', FreeGas.outgoingVelocity A (d.smul v) (dT.smul s) muCm phi = .ok v' := by
  have hne : (d.smul v - FreeGas.centreOfMass A (d.smul v) (dT.smul s)) ≠ ⟨0, 0, 0⟩ := by
    intro h
    have hA1 : (1 + A) ≠ 0 := by linarith
    have hx := congrArg Point.x h
    have hy := congrArg Point.y h
    have hz := congrArg Point.z h
    unfold FreeGas.centreOfMass Point.sdiv at hx hy hz
    simp only [Point.add_x, Point.add_y, Point.add_z, Point.sub_x, Point.sub_y, Point.sub_z,
      Point.smul_x, Point.smul_y, Point.smul_z] at hx hy hz
    field_simp at hx hy hz
    have fx : d.x * v = dT.x * s := by
      have : A * (d.x * v - dT.x * s) = 0 := by linarith
      rcases mul_eq_zero.1 this with h | h
      · exact absurd h hA.ne'
      · linarith
    have fy : d.y * v = dT.y * s := by
      have : A * (d.y * v - dT.y * s) = 0 := by linarith
      rcases mul_eq_zero.1 this with h | h
      · exact absurd h hA.ne'
      · linarith
    have fz : d.z * v = dT.z * s := by
      have : A * (d.z * v - dT.z * s) = 0 := by linarith
      rcases mul_eq_zero.1 this with h | h
      · exact absurd h hA.ne'
      · linarith
    unfold UnitVec at hd hdT
    unfold cosAngle at hc
    have e1 : s ^ 2 + v ^ 2 - 2 * s * v * mu =
        (d.x * v - dT.x * s) ^ 2 + (d.y * v - dT.y * s) ^ 2 + (d.z * v - dT.z * s) ^ 2 := by
      rw [← hc]
      linear_combination -v ^ 2 * hd - s ^ 2 * hdT
    rw [e1, fx, fy, fz] at hrel
    simp at hrel
  obtain ⟨d₁, _, e1, hu, _⟩ := C01_direction_of_point_unit _ hne
  obtain ⟨r, e2, _, _⟩ := C03_rotated_direction d₁ muCm phi hu h1 h2
  unfold FreeGas.outgoingVelocity
  simp only [e1, e2, bind, Except.bind]
  exact ⟨_, rfl⟩

/-- A neutron that hits a target at rest and is not scattered straight back keeps moving. -/
theorem outgoingVelocity_ne_zero {A v : ℝ} (hA : 0 < A) (hv : 0 < v) {d : Direction}
    (hd : UnitVec d) {dT : Direction} {muCm phi : ℝ} (h1 : -1 < muCm) (h2 : muCm ≤ 1) {v' : Point}
    (h : FreeGas.outgoingVelocity A (d.smul v) (dT.smul 0) muCm phi = .ok v') : v' ≠ ⟨0, 0, 0⟩ := by
  have hA1 : 0 < 1 + A := by linarith
  have ecm : FreeGas.centreOfMass A (d.smul v) (dT.smul 0) = d.smul (v / (1 + A)) := by
    unfold FreeGas.centreOfMass Point.sdiv
    ext <;> simp <;> ring
  have erel : d.smul v - d.smul (v / (1 + A)) = d.smul (v * A / (1 + A)) := by
    ext <;> simp <;> field_simp <;> ring
  have hk : 0 < v * A / (1 + A) := by positivity
  unfold FreeGas.outgoingVelocity at h
  simp only [ecm, erel, res_bind_ok, Except.ok.injEq] at h
  obtain ⟨d₁, hd₁, d₂, hd₂, rfl⟩ := h
  have hne : d.smul (v * A / (1 + A)) ≠ ⟨0, 0, 0⟩ := by
    intro e
    rw [(C01_direction_nan_iff _).2 e] at hd₁
    cases hd₁
  obtain ⟨d', k, e1, hu, hkp, ex, ey, ez⟩ := C01_direction_of_point_unit _ hne
  rw [hd₁] at e1
  cases e1
  simp only [Point.smul_x, Point.smul_y, Point.smul_z] at ex ey ez
  obtain ⟨r, e2, hur, hcos⟩ := C03_rotated_direction d₁ muCm phi hu h1.le h2
  rw [hd₂] at e2
  cases e2
  intro h0
  have hx := congrArg Point.x h0
  have hy := congrArg Point.y h0
  have hz := congrArg Point.z h0
  have hL : 0 < Real.sqrt ((d.smul (v * A / (1 + A))).dot (d.smul (v * A / (1 + A)))) := by
    apply Real.sqrt_pos.2
    rw [sqLength_eq_dot]
    unfold sqLength
    simp only [Point.smul_x, Point.smul_y, Point.smul_z]
    unfold UnitVec at hd
    have : (d.x * (v * A / (1 + A))) ^ 2 + (d.y * (v * A / (1 + A))) ^ 2 + (d.z * (v * A / (1 + A))) ^ 2 =
        (v * A / (1 + A)) ^ 2 := by linear_combination (v * A / (1 + A)) ^ 2 * hd
    rw [this]
    positivity
  set L := Real.sqrt ((d.smul (v * A / (1 + A))).dot (d.smul (v * A / (1 + A)))) with hLdef
  clear_value L
  simp only [Point.add_x, Point.add_y, Point.add_z, Point.smul_x, Point.smul_y, Point.smul_z]
    at hx hy hz
  -- d = d₁, and d₂ would have to be opposite to it
  unfold UnitVec at hd hu hur
  unfold cosAngle at hcos
  set c := v * A / (1 + A) with hc
  clear_value c
  have hkc : k = c := by
    have : k ^ 2 = c ^ 2 := by
      have : (d.x * c) ^ 2 + (d.y * c) ^ 2 + (d.z * c) ^ 2 =
          (k * d₁.x) ^ 2 + (k * d₁.y) ^ 2 + (k * d₁.z) ^ 2 := by rw [ex, ey, ez]
      linear_combination -this + c ^ 2 * hd - k ^ 2 * hu
    nlinarith
  subst hkc
  have fx : d.x = d₁.x := by
    rw [mul_comm] at ex
    exact mul_left_cancel₀ hkp.ne' ex
  have fy : d.y = d₁.y := by
    rw [mul_comm] at ey
    exact mul_left_cancel₀ hkp.ne' ey
  have fz : d.z = d₁.z := by
    rw [mul_comm] at ez
    exact mul_left_cancel₀ hkp.ne' ez
  set w := v / (1 + A) with hw
  have hwp : 0 < w := by rw [hw]; positivity
  clear_value w
  rw [fx] at hx
  rw [fy] at hy
  rw [fz] at hz
  have hLw : L ^ 2 = w ^ 2 := by
    have : (d₂.x * L) ^ 2 + (d₂.y * L) ^ 2 + (d₂.z * L) ^ 2 =
        (d₁.x * w) ^ 2 + (d₁.y * w) ^ 2 + (d₁.z * w) ^ 2 := by
      have a1 : d₂.x * L = -(d₁.x * w) := by linarith
      have a2 : d₂.y * L = -(d₁.y * w) := by linarith
      have a3 : d₂.z * L = -(d₁.z * w) := by linarith
      rw [a1, a2, a3]; ring
    linear_combination this - L ^ 2 * hur + w ^ 2 * hu
  have hLw' : L = w := by nlinarith
  subst hLw'
  have : L * muCm = -L := by
    rw [← hcos]
    linear_combination d₁.x * hx + d₁.y * hy + d₁.z * hz - L * hu
  nlinarith

/-- A free-gas collision of a neutron of positive energy leaves a neutron of positive energy, or
the sampling runs out of rounds, or the neutron is left exactly at rest, the latter two only in a
gas that is not at absolute zero. -/
theorem freeGas_cases {fuel : ℕ} {A e t : ℝ} (hA : 0 < A) {p : Particle} (hr : Rng.Valid p.rng)
    (hu : UnitVec p.direction) (he : p.energy = .continuous e) (he0 : 0 < e)
    (ht : p.temperatureAt = .ok t) (ht0 : 0 ≤ t) :
    (∃ p' e', FreeGas.interact fuel A p = .ok p' ∧ p'.energy = .continuous e' ∧ 0 < e') ∨
    (0 < t ∧ FreeGas.interact fuel A p = .error .fuel) ∨
    (StopsDead fuel A p ∧ FreeGas.interact fuel A p = .error .nan) := by
  have hint : FreeGas.interact fuel A p =
      (FreeGas.sampleTarget fuel A e t p >>= fun r => FreeGas.collideWith A e r.1 r.2.1 r.2.2) := by
    unfold FreeGas.interact
    rw [he, ht]
    simp only [Energy.getContinuous, bind, Except.bind]
    rw [if_neg (by push Not; exact ⟨he0.le, ht0, hA.le⟩)]
  rcases sampleTarget_cases hA he0 ht0 (fuel := fuel) hr with ⟨s, mu, q, hs, hs0, hrel⟩ | ⟨h1, h2⟩
  swap
  · exact Or.inr (Or.inl ⟨h1, by rw [hint, h2]; rfl⟩)
  obtain ⟨_, hmu1, hmu2, hq, g, hg⟩ := sampleTarget_ok hr hs
  have hqd : q.direction = p.direction := by rw [hg]
  obtain ⟨V, hV, hVu, hVc⟩ := C03_rotated_direction p.direction mu
    (2 * Real.pi * (Rng.canonical q.rng).1) hu hmu1.le hmu2.le
  have w1 := Rng.valid_canonical hq
  have w2 := Rng.valid_canonical w1
  obtain ⟨v', hv'⟩ := outgoingVelocity_exists (A := A) hA hu hVu hVc hrel
    (muCm := 2 * (Rng.canonical (Rng.canonical q.rng).2).1 - 1)
    (by linarith [Rng.canonical_pos w1]) (by linarith [Rng.canonical_lt_one w1])
    (2 * Real.pi * (Rng.canonical (Rng.canonical (Rng.canonical q.rng).2).2).1)
  have hcol : FreeGas.interact fuel A p = (Direction.ofPoint v' >>= fun d' =>
      Particle.scatter { q with rng := (Rng.canonical (Rng.canonical (Rng.canonical q.rng).2).2).2 }
        (p.direction.dot d') (.continuous (1 / 2 * neutronMass * v'.dot v'))) := by
    rw [hint, hs]
    change FreeGas.collideWith A e s mu q = _
    unfold FreeGas.collideWith
    simp only [Particle.sample, hqd, hV, hv', bind, Except.bind]
  by_cases h0 : v' = ⟨0, 0, 0⟩
  · have htp : 0 < t := by
      refine lt_of_le_of_ne ht0 fun h => ?_
      have := hs0 h.symm
      subst this
      exact outgoingVelocity_ne_zero hA (neutronSpeed_pos he0) hu
        (by linarith [Rng.canonical_pos w1]) (by linarith [Rng.canonical_lt_one w1]) hv' h0
    right; right
    subst h0
    refine ⟨⟨e, t, s, mu, q, V, he, ht, htp, hs, hV, hv'⟩, ?_⟩
    rw [hcol, (C01_direction_nan_iff _).2 rfl]
    rfl
  · left
    obtain ⟨d', k, e1, hu', hk, ex, ey, ez⟩ := C01_direction_of_point_unit _ h0
    have hmu := cosAngle_le_one hu hu'
    obtain ⟨r, e2, _, _⟩ := C03_rotated_direction p.direction (p.direction.dot d')
      (2 * Real.pi * (Rng.canonical
        (Rng.canonical (Rng.canonical (Rng.canonical q.rng).2).2).2).1) hu hmu.1 hmu.2
    refine ⟨{ q with
        rng := (Rng.canonical (Rng.canonical (Rng.canonical (Rng.canonical q.rng).2).2).2).2
        direction := r
        energy := .continuous (1 / 2 * neutronMass * v'.dot v') },
      1 / 2 * neutronMass * v'.dot v', ?_, rfl, ?_⟩
    · rw [hcol, e1]
      simp only [bind, Except.bind]
      unfold Particle.scatter
      simp only [Particle.sample, hqd, e2, bind, Except.bind]
    · have hm := neutronMass_pos
      have : 0 < v'.dot v' := by
        rw [sqLength_eq_dot]
        have : sqLength v' = k ^ 2 := by
          unfold sqLength
          unfold UnitVec at hu'
          rw [ex, ey, ez]
          linear_combination k ^ 2 * hu'
        rw [this]
        positivity
      positivity

end Minimc.Props
