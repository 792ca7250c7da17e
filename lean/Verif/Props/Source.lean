import Verif.Model.Source
import Verif.Spec.Select
import Verif.Lemmas.Keeps
import Verif.Props.Point
import Verif.Props.Rng

/-! # Property C51 -/

namespace Minimc.Props

open Classical Spec

/-- The direction a source is configured with has unit length; this is what the constructor of
`Direction` provides (C01). -/
def Configured : DirectionDist → Prop
  | .constant d => UnitVec d
  | .isotropic => True
  | .isotropicFlux r => UnitVec r

theorem isotropicFluxOf_ok {r : Direction} (hr : UnitVec r) {u : ℝ} (h1 : u < 1)
    (v : ℝ) : ∃ d, isotropicFluxOf r u v = .ok d ∧ UnitVec d ∧ cosAngle r d = Real.sqrt u := by
  have hs : Real.sqrt u ≤ 1 := by
    rw [Real.sqrt_le_iff]
    exact ⟨zero_le_one, by linarith⟩
  exact C03_rotated_direction r _ _ hr (by linarith [Real.sqrt_nonneg u]) hs

/-- **C51** Every seed gives a particle; its position, energy and type are those requested, its
direction has unit length, and it has no cell yet. -/
theorem C51_source_particle (s : Source) (hs : Configured s.direction) (seed : ℕ) :
    ∃ b, s.sample seed = .ok b ∧ b.position = s.position ∧ b.energy = s.energy ∧
      b.type = s.type ∧ UnitVec b.direction ∧ b.cell = none := by
  unfold Source.sample DirectionDist.sample
  cases hd : s.direction with
  | constant d =>
    rw [hd] at hs
    exact ⟨_, rfl, rfl, rfl, rfl, hs, rfl⟩
  | isotropic =>
    exact ⟨_, rfl, rfl, rfl, rfl, C02_random_direction_unit seed 0, rfl⟩
  | isotropicFlux r =>
    rw [hd] at hs
    have hv := Rng.valid_ofSeed seed
    obtain ⟨d, h1, h2, _⟩ := isotropicFluxOf_ok hs
      (Rng.canonical_lt_one hv) (Rng.canonical (Rng.canonical (Rng.ofSeed seed)).2).1
    refine ⟨⟨s.position, d, s.energy, s.type,
      Rng.next (Rng.canonical (Rng.canonical (Rng.ofSeed seed)).2).2, none⟩, ?_, rfl, rfl, rfl, h2,
      rfl⟩
    simp only [h1, bind, Except.bind]

/-- **C51** A constant source has exactly the requested direction. -/
theorem C51_constant_direction (s : Source) (d : Direction) (hs : s.direction = .constant d)
    (seed : ℕ) (b : Born) (h : s.sample seed = .ok b) : b.direction = d := by
  unfold Source.sample DirectionDist.sample at h
  rw [hs] at h
  cases h
  rfl

/-- **C51** An isotropic source has the direction of C02: cosine with the x axis `2 u₁ - 1` and
azimuth `2 π u₂`, of the first two uniform numbers that follow the seed. -/
theorem C51_isotropic_direction (s : Source) (hs : s.direction = .isotropic) (seed : ℕ) (b : Born)
    (h : s.sample seed = .ok b) :
    let u₁ := (Rng.canonical (Rng.ofSeed seed)).1
    let u₂ := (Rng.canonical (Rng.next^[2] (Rng.ofSeed seed))).1
    b.direction = ⟨2 * u₁ - 1,
      Real.sqrt (1 - (2 * u₁ - 1) ^ 2) * Real.cos (2 * Real.pi * u₂),
      Real.sqrt (1 - (2 * u₁ - 1) ^ 2) * Real.sin (2 * Real.pi * u₂)⟩ := by
  unfold Source.sample DirectionDist.sample at h
  rw [hs] at h
  cases h
  exact (C02_random_direction_formula (Rng.ofSeed seed)).1

/-- **C51** The particle starts with the generator state that the source left behind: it never
reuses the numbers that determined its direction.  One draw was made if the direction is
constant, five otherwise. -/
theorem C51_particle_stream (s : Source) (seed : ℕ) (b : Born) (h : s.sample seed = .ok b) :
    ∃ n, (n = 1 ∨ n = 5) ∧ (n = 1 ↔ ∃ d, s.direction = .constant d) ∧
      (Particle.ofBorn b).rng = Rng.next^[n] (Rng.ofSeed seed) := by
  have key : ∀ g : ℕ, Rng.Valid g → Rng.ofSeed g = g := by
    intro g hg
    unfold Rng.Valid at hg
    unfold Rng.ofSeed Rng.modulus
    rw [Nat.mod_eq_of_lt (by omega), if_neg (by omega)]
  unfold Source.sample DirectionDist.sample at h
  cases hd : s.direction with
  | constant d =>
    rw [hd] at h
    cases h
    exact ⟨1, .inl rfl, ⟨fun _ => ⟨d, rfl⟩, fun _ => rfl⟩,
      key _ (Rng.valid_next (Rng.valid_ofSeed seed))⟩
  | isotropic =>
    rw [hd] at h
    cases h
    refine ⟨5, .inr rfl, ⟨by omega, by rintro ⟨d, h⟩; cases h⟩, ?_⟩
    exact key (Rng.next^[5] (Rng.ofSeed seed)) (Rng.valid_iterate (Rng.valid_ofSeed seed) 5)
  | isotropicFlux r =>
    rw [hd] at h
    refine ⟨5, .inr rfl, ⟨by omega, by rintro ⟨d, h⟩; cases h⟩, ?_⟩
    simp only [res_bind_ok] at h
    obtain ⟨x, ⟨d, _, hx⟩, hb⟩ := h
    cases hx
    cases hb
    exact key (Rng.next^[5] (Rng.ofSeed seed)) (Rng.valid_iterate (Rng.valid_ofSeed seed) 5)

/-- **C51** An isotropic-flux source emits into the open half space of its reference direction.
-/
theorem C51_isotropic_flux_forward (s : Source) (r : Direction) (hr : UnitVec r)
    (hs : s.direction = .isotropicFlux r) (seed : ℕ) (b : Born) (h : s.sample seed = .ok b) :
    0 < cosAngle r b.direction ∧ cosAngle r b.direction < 1 ∧
      cosAngle r b.direction ^ 2 = (Rng.canonical (Rng.ofSeed seed)).1 := by
  have hv := Rng.valid_ofSeed seed
  unfold Source.sample DirectionDist.sample at h
  rw [hs] at h
  simp only [res_bind_ok] at h
  obtain ⟨x, ⟨d, h1, hx⟩, hb⟩ := h
  cases hx
  cases hb
  obtain ⟨d', h2, _, h3⟩ := isotropicFluxOf_ok hr
    (Rng.canonical_lt_one hv) (Rng.canonical (Rng.canonical (Rng.ofSeed seed)).2).1
  rw [h2] at h1
  cases h1
  change 0 < cosAngle r d ∧ cosAngle r d < 1 ∧ cosAngle r d ^ 2 = _
  rw [h3]
  refine ⟨Real.sqrt_pos.2 (Rng.canonical_pos hv), ?_, Real.sq_sqrt (Rng.canonical_pos hv).le⟩
  rw [Real.sqrt_lt' one_pos, one_pow]
  exact Rng.canonical_lt_one hv

/-- **C51** The cosine of an isotropic flux has distribution function μ², whatever the azimuth. -/
theorem C51_isotropic_flux_distribution (r : Direction) (hr : UnitVec r) (v c : ℝ) (h0 : 0 ≤ c)
    (h1 : c ≤ 1) :
    prob {u | ∃ d, isotropicFluxOf r u v = .ok d ∧ cosAngle r d < c} = ENNReal.ofReal (c ^ 2) := by
  have : {u | ∃ d, isotropicFluxOf r u v = .ok d ∧ cosAngle r d < c} ∩ Set.Ico 0 1
      = Set.Ico 0 (c ^ 2) := by
    ext u
    simp only [Set.mem_inter_iff, Set.mem_ofPred_eq, Set.mem_Ico]
    constructor
    · rintro ⟨⟨d, hd, hc⟩, hu0, hu1⟩
      obtain ⟨d', h2, _, h3⟩ := isotropicFluxOf_ok hr hu1 v
      rw [h2] at hd
      cases hd
      rw [h3, Real.sqrt_lt' (lt_of_le_of_lt (Real.sqrt_nonneg u) (h3 ▸ hc))] at hc
      exact ⟨hu0, hc⟩
    · rintro ⟨hu0, hu⟩
      have hu1 : u < 1 := lt_of_lt_of_le hu (by nlinarith)
      obtain ⟨d', h2, _, h3⟩ := isotropicFluxOf_ok hr hu1 v
      refine ⟨⟨d', h2, ?_⟩, hu0, hu1⟩
      rw [h3, ← Real.sqrt_sq h0]
      exact Real.sqrt_lt_sqrt hu0 hu
  unfold prob
  rw [this, Real.volume_Ico, sub_zero]

/-- **C51** The azimuth of an isotropic flux covers the whole cone: every direction in the half
space is emitted for some pair of uniform numbers. -/
theorem C51_isotropic_flux_covers (r d : Direction) (hr : UnitVec r) (hd : UnitVec d)
    (h0 : 0 ≤ cosAngle r d) (h1 : cosAngle r d < 1) :
    ∃ u v, 0 ≤ u ∧ u < 1 ∧ 0 ≤ v ∧ v < 1 ∧ isotropicFluxOf r u v = .ok d := by
  obtain ⟨phi, hp0, hp1, h⟩ := C03_cone_covered r d hr hd
  refine ⟨cosAngle r d ^ 2, phi / (2 * Real.pi), by positivity, by nlinarith, by positivity, ?_, ?_⟩
  · rw [div_lt_one (by positivity)]
    exact hp1
  · unfold isotropicFluxOf
    rw [Real.sqrt_sq h0]
    have : phi / (2 * Real.pi) * (2 * Real.pi - 0) + 0 = phi := by
      field_simp
      ring
    rw [this]
    exact h

/-- Instance: a flux entering along a direction that is not an axis. -/
example : ∃ s : Source, ∃ b, s.direction = .isotropicFlux ⟨3 / 5, 0, 4 / 5⟩ ∧
    s.sample 7 = .ok b ∧ 0 < cosAngle ⟨3 / 5, 0, 4 / 5⟩ b.direction := by
  have hr : UnitVec (⟨3 / 5, 0, 4 / 5⟩ : Direction) := by unfold UnitVec; norm_num
  let s : Source := ⟨⟨1, 2, 3⟩, .isotropicFlux ⟨3 / 5, 0, 4 / 5⟩, .continuous 1, .neutron⟩
  obtain ⟨b, h, _⟩ := C51_source_particle s hr 7
  exact ⟨s, b, rfl, h, (C51_isotropic_flux_forward s _ hr rfl 7 b h).1⟩

end Minimc.Props
