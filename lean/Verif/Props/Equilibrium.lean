import Verif.Lemmas.Balance
import Verif.Props.Target
import Verif.Props.FreeGasScatter

/-! # C80: free gas collisions keep thermal equilibrium

Neutrons with the spectrum of thermal equilibrium that move evenly in all directions collide with the atoms
of a gas of the same temperature.  As many neutrons leave collisions with given directions and energies as
enter them. -/

namespace Minimc.Props

open Classical Spec MeasureTheory
open scoped ENNReal

/-! ### The program follows the collision of the specification -/

theorem normalize_directed {v : Point} (h : normSq v ≠ 0) : v.normalize = .ok (directed v) := by
  have e : v.dot v = normSq v := by
    unfold Point.dot normSq
    ring
  unfold Point.normalize directed
  rw [e, if_neg h, if_neg h]
  congr 1
  unfold Point.sdiv combine
  ext <;> simp only <;> ring

theorem normSq_ne_zero {v : Point} : normSq v ≠ 0 ↔ v ≠ ⟨0, 0, 0⟩ := by
  rw [not_iff_not]
  constructor
  · intro h
    unfold normSq at h
    ext <;> simp only <;> nlinarith [sq_nonneg v.x, sq_nonneg v.y, sq_nonneg v.z]
  · rintro rfl
    simp [normSq]

/-- The direction from which the azimuth is counted. -/
noncomputable def sideAxis (d : Direction) : Direction := directed (d.cross (Direction.auxAxis d))

/-- The direction towards which the azimuth is counted. -/
noncomputable def upAxis (d : Direction) : Direction := d.cross (sideAxis d)

theorem frame_axes {d : Direction} (hd : UnitVec d) : Frame (sideAxis d) (upAxis d) d := by
  have hne := normSq_ne_zero.2 (Direction.cross_auxAxis_ne hd)
  have hu : UnitVec (sideAxis d) := directed_unit _
  have hdu : cosAngle d (sideAxis d) = 0 := by
    have h := Direction.dot_cross_self d (Direction.auxAxis d)
    unfold sideAxis directed
    rw [if_neg hne]
    unfold cosAngle combine
    unfold Point.dot at h
    simp only
    linear_combination (1 / Real.sqrt (normSq (d.cross (Direction.auxAxis d)))) * h
  refine ⟨hu, ?_, hdu, Direction.dot_cross_self d _, ?_, rfl⟩
  · unfold UnitVec cosAngle at *
    unfold upAxis Point.cross
    simp only
    linear_combination (sideAxis d).x ^ 2 * hd + (sideAxis d).y ^ 2 * hd + (sideAxis d).z ^ 2 * hd + hu -
      (d.x * (sideAxis d).x + d.y * (sideAxis d).y + d.z * (sideAxis d).z) * hdu
  · unfold upAxis cosAngle Point.cross
    ring

theorem frames_axes : Frames sideAxis upAxis := by
  have hx : Measurable fun d : Direction => d.x := by fun_prop
  have ha : Measurable Direction.auxAxis := by
    unfold Direction.auxAxis
    exact Measurable.ite ((measurableSet_le hx measurable_const).inter
      (measurableSet_lt measurable_const hx)) measurable_const measurable_const
  have hc : ∀ {f g : Direction → Point}, Measurable f → Measurable g →
      Measurable fun d => (f d).cross (g d) := by
    intro f g hf hg
    refine measurable_point ?_ ?_ ?_ <;> (unfold Point.cross; fun_prop)
  have h1 : Measurable sideAxis := (hc measurable_id ha).directed
  exact ⟨h1, hc measurable_id h1, fun d hd => frame_axes hd⟩

theorem rotated_tilted {d : Direction} (hd : UnitVec d) {mu : ℝ} (h1 : -1 ≤ mu) (h2 : mu ≤ 1) (u : ℝ) :
    Direction.rotated d mu (2 * Real.pi * u) = .ok (tilted (sideAxis d) (upAxis d) d mu u) := by
  have hne := normSq_ne_zero.2 (Direction.cross_auxAxis_ne hd)
  have hf := frame_axes hd
  obtain ⟨r, hr, hru, _⟩ := C03_rotated_direction d mu (2 * Real.pi * u) hd h1 h2
  rw [hr]
  have hn : ¬1 - mu * mu < 0 := by nlinarith
  unfold Direction.rotated Direction.ofPoint at hr
  rw [normalize_directed hne] at hr
  simp only [bind, Except.bind] at hr
  have e0 : (Point.cross d (directed (Point.cross d (Direction.auxAxis d)))).normalize =
      .ok (upAxis d) := Point.normalize_of_unit hf.second
  rw [e0] at hr
  simp only [if_neg hn] at hr
  have e : (sideAxis d).smul (Real.sqrt (1 - mu * mu) * Real.cos (2 * Real.pi * u)) +
      (upAxis d).smul (Real.sqrt (1 - mu * mu) * Real.sin (2 * Real.pi * u)) + d.smul mu =
      tilted (sideAxis d) (upAxis d) d mu u := by
    unfold tilted
    ext <;> simp only [Point.add_x, Point.add_y, Point.add_z, Point.smul_x, Point.smul_y, Point.smul_z,
      pow_two] <;> ring
  change Point.normalize ((sideAxis d).smul (Real.sqrt (1 - mu * mu) * Real.cos (2 * Real.pi * u)) +
      (upAxis d).smul (Real.sqrt (1 - mu * mu) * Real.sin (2 * Real.pi * u)) + d.smul mu) = _ at hr
  rw [e] at hr
  have hunit : UnitVec (tilted (sideAxis d) (upAxis d) d mu u) := (normSq_tilted' hd hf h1 h2 u).1
  rw [Point.normalize_of_unit hunit] at hr
  exact hr.symm

/-- The collision with a given atom. -/
theorem outgoingVelocity_struck {A : ℝ} (hA : 0 < A) {v V : Point}
    (hne : normSq (combine 1 v (-1) V) ≠ 0) {mu : ℝ} (h1 : -1 ≤ mu) (h2 : mu ≤ 1) (u : ℝ) :
    FreeGas.outgoingVelocity A v V mu (2 * Real.pi * u) =
      .ok (struck A v V (tilted (sideAxis (directed (combine 1 v (-1) V)))
        (upAxis (directed (combine 1 v (-1) V))) (directed (combine 1 v (-1) V)) mu u)) := by
  have hA1 : 1 + A ≠ 0 := by positivity
  set R := combine 1 v (-1) V with hR
  have hk : 0 < A / (1 + A) := by positivity
  have eV : v - FreeGas.centreOfMass A v V = R.smul (A / (1 + A)) := by
    rw [hR]
    unfold FreeGas.centreOfMass combine Point.sdiv
    ext <;> simp only [Point.add_x, Point.add_y, Point.add_z, Point.sub_x, Point.sub_y, Point.sub_z,
      Point.smul_x, Point.smul_y, Point.smul_z] <;> field_simp <;> ring
  have en : normSq (R.smul (A / (1 + A))) = (A / (1 + A)) ^ 2 * normSq R := normSq_smul _ _
  have hpos : 0 < normSq R := lt_of_le_of_ne (normSq_nonneg _) (Ne.symm hne)
  have es : Real.sqrt (normSq (R.smul (A / (1 + A)))) = A / (1 + A) * Real.sqrt (normSq R) := by
    rw [en, Real.sqrt_mul (by positivity), Real.sqrt_sq hk.le]
  have ed : directed (R.smul (A / (1 + A))) = directed R := by
    have hs := Real.sqrt_pos.2 hpos
    unfold directed
    rw [if_neg hne, if_neg (by rw [en]; positivity), es]
    unfold combine Point.smul
    ext <;> simp only <;> field_simp <;> ring
  have edot : ∀ w : Point, w.dot w = normSq w := by
    intro w
    unfold Point.dot normSq
    ring
  unfold FreeGas.outgoingVelocity Direction.ofPoint
  simp only [eV]
  rw [normalize_directed (by rw [en]; positivity), ed]
  simp only [bind, Except.bind]
  rw [rotated_tilted (directed_unit _) h1 h2]
  simp only
  rw [edot, es]
  congr 1
  unfold struck FreeGas.centreOfMass
  rw [← hR]
  unfold combine Point.sdiv
  ext <;> simp only [Point.add_x, Point.add_y, Point.add_z, Point.smul_x, Point.smul_y, Point.smul_z] <;>
    field_simp <;> ring

theorem collideWith_departure {A e s mu : ℝ} (hA : 0 < A) {p : Particle} (hr : Rng.Valid p.rng)
    (hd : UnitVec p.direction) (h1 : -1 ≤ mu) (h2 : mu ≤ 1)
    (hne : relativeSpeed (speedOf neutronMass e) s mu ≠ 0) :
    FreeGas.collideWith A e s mu p =
      if (departure sideAxis upAxis A neutronMass p.direction (speedOf neutronMass e) s mu
        (roundNumber p)).2 = 0 then .error .nan
      else .ok { p with
        direction := (departure sideAxis upAxis A neutronMass p.direction (speedOf neutronMass e) s mu
          (roundNumber p)).1
        energy := .continuous (departure sideAxis upAxis A neutronMass p.direction
          (speedOf neutronMass e) s mu (roundNumber p)).2
        rng := Rng.next^[2 * 4] p.rng } := by
  have hm := neutronMass_pos
  set d := p.direction with hdd
  set v := speedOf neutronMass e with hv
  set T := tilted (sideAxis d) (upAxis d) d mu (roundNumber p 0) with hT
  have ev : d.smul (FreeGas.neutronSpeed e) = combine v d 0 d := (combine_zero v d).symm
  have eV : T.smul s = combine s T 0 d := by
    unfold combine Point.smul
    ext <;> simp only <;> ring
  have hc := normSq_tilted' hd (frame_axes hd) h1 h2 (roundNumber p 0)
  have hrel : normSq (combine 1 (combine v d 0 d) (-1) (combine s T 0 d)) ≠ 0 := by
    have e2 : normSq (combine 1 (combine v d 0 d) (-1) (combine s T 0 d)) =
        v ^ 2 + s ^ 2 - 2 * v * s * mu := by
      obtain ⟨h3, h4⟩ := hc
      have hd' := hd
      unfold UnitVec at hd'
      unfold cosAngle at h4
      unfold normSq at h3
      unfold normSq combine
      simp only
      linear_combination v ^ 2 * hd' + s ^ 2 * h3 - 2 * v * s * h4
    intro e
    apply hne
    unfold relativeSpeed
    rw [← e2, e, Real.sqrt_zero]
  have w1 := Rng.valid_canonical hr
  have l1 := Rng.canonical_pos w1
  have l2 := Rng.canonical_lt_one w1
  have hn1 : roundNumber p 1 = (Rng.canonical (Rng.canonical p.rng).2).1 := rfl
  set W := directed (combine 1 (combine v d 0 d) (-1) (combine s T 0 d)) with hW
  set v' := struck A (combine v d 0 d) (combine s T 0 d)
    (tilted (sideAxis W) (upAxis W) W (2 * roundNumber p 1 - 1) (roundNumber p 2)) with hv'
  have edep : departure sideAxis upAxis A neutronMass d v s mu (roundNumber p) =
      (tilted (sideAxis d) (upAxis d) d (cosAngle d (directed v')) (roundNumber p 3),
        neutronMass * normSq v' / 2) := rfl
  rw [edep]
  have eout := outgoingVelocity_struck hA hrel (mu := 2 * roundNumber p 1 - 1)
    (by rw [hn1]; linarith) (by rw [hn1]; linarith) (roundNumber p 2)
  have hz : (neutronMass * normSq v' / 2 = 0) ↔ normSq v' = 0 := by
    constructor
    · intro h
      by_contra h'
      have := lt_of_le_of_ne (normSq_nonneg v') (Ne.symm h')
      have : 0 < neutronMass * normSq v' / 2 := by positivity
      linarith
    · intro h
      rw [h]; ring
  unfold FreeGas.collideWith
  simp only [bind, Except.bind]
  have er : Direction.rotated (Particle.sample p).2.direction mu (2 * Real.pi * (Particle.sample p).1) =
      .ok T := rotated_tilted hd h1 h2 _
  rw [er]
  simp only
  rw [← hdd, ev, eV]
  have eo : FreeGas.outgoingVelocity A (combine v d 0 d) (combine s T 0 d)
      (2 * (Particle.sample (Particle.sample p).2).1 - 1)
      (2 * Real.pi * (Particle.sample (Particle.sample (Particle.sample p).2).2).1) = .ok v' := eout
  rw [eo]
  simp only
  unfold Direction.ofPoint
  by_cases h0 : normSq v' = 0
  · rw [if_pos (hz.2 h0)]
    have : v' = ⟨0, 0, 0⟩ := by
      by_contra h'
      exact normSq_ne_zero.2 h' h0
    rw [(C01_direction_nan_iff v').2 this |> fun h => (h : v'.normalize = _)]
  · rw [if_neg (fun h => h0 (hz.1 h)), normalize_directed h0]
    simp only
    have hmu := cosAngle_le_one hd (directed_unit v')
    unfold Particle.scatter
    simp only [bind, Except.bind]
    have er2 : Direction.rotated d (cosAngle d (directed v')) (2 * Real.pi * roundNumber p 3) =
        .ok _ := rotated_tilted hd hmu.1 hmu.2 _
    have edot : v'.dot v' = normSq v' := by
      unfold Point.dot normSq
      ring
    rw [edot, show 1 / 2 * neutronMass * normSq v' = neutronMass * normSq v' / 2 by ring]
    have er3 : Direction.rotated
        (Particle.sample (Particle.sample (Particle.sample (Particle.sample p).2).2).2).2.direction
        (d.dot (directed v')) (2 * Real.pi *
        (Particle.sample (Particle.sample (Particle.sample (Particle.sample p).2).2).2).1) = .ok _ := er2
    rw [show (Particle.sample (Particle.sample (Particle.sample p).2).2).2.direction = d from rfl]
    rw [er3]
    rfl

/-- The rejection loop and the collision that follows it. -/
theorem loop_leaving {A e β : ℝ} (hA : 0 < A) (hβ : 0 < β) (hv : 0 < speedOf neutronMass e)
    {d' : Direction} {e' : ℝ} : ∀ {n : ℕ} {p : Particle} (_ : Rng.Valid p.rng) (_ : UnitVec p.direction),
    (∃ p', (FreeGas.targetLoop (β * speedOf neutronMass e) n p).bind
        (fun z => FreeGas.collideWith A e (z.1 / β) z.2.1 z.2.2) = .ok p' ∧
        p'.direction = d' ∧ p'.energy = .continuous e') ↔
      e' ≠ 0 ∧ leaving sideAxis upAxis A neutronMass β p.direction (speedOf neutronMass e) n
        (roundNumber p) = some (d', e')
  | 0, p, _, _ => by
    constructor
    · rintro ⟨p', h, _⟩
      cases h
    · rintro ⟨_, h⟩
      cases h
  | n + 1, p, hr, hd => by
    have hc := C43_candidate hr (candidate_eq (β * speedOf neutronMass e) p)
    rw [FreeGas.targetLoop, leaving, candidate_eq]
    generalize proposal (β * speedOf neutronMass e) (roundNumber p) = q at hc
    obtain ⟨x, μ, k⟩ := q
    obtain ⟨hx, hμ1, hμ2, hvk, _⟩ := hc
    simp only at hx hμ1 hμ2 hvk
    have hrn : (Rng.canonical (Rng.next^[2 * k] p.rng)).2 = Rng.next^[2 * (k + 1)] p.rng := by
      rw [show 2 * (k + 1) = 2 + 2 * k by ring, Function.iterate_add_apply]
      rfl
    have h2 : (Particle.sample { p with rng := Rng.next^[2 * k] p.rng }).2 =
        { p with rng := Rng.next^[2 * (k + 1)] p.rng } := by
      unfold Particle.sample
      simp only [hrn]
    have hvn : Rng.Valid (Rng.next^[2 * (k + 1)] p.rng) := hrn ▸ Rng.valid_canonical hvk
    have hnum : roundNumber { p with rng := Rng.next^[2 * (k + 1)] p.rng } =
        fun i => roundNumber p (i + (k + 1)) := funext (roundNumber_rng p (k + 1))
    by_cases h : roundNumber p k < relativeSpeed (β * speedOf neutronMass e) x μ /
        (x + β * speedOf neutronMass e)
    · have h1 : ¬(Particle.sample { p with rng := Rng.next^[2 * k] p.rng }).1 ≥
          FreeGas.acceptProb x (β * speedOf neutronMass e) μ := by
        rw [acceptProb_eq]; exact not_le.2 h
      simp only [if_neg h1, if_pos h, h2]
      have hrel : relativeSpeed (speedOf neutronMass e) (x / β) μ ≠ 0 := by
        have h0 : 0 ≤ roundNumber p k := (Rng.canonical_pos hvk).le
        have h3 : relativeSpeed (β * speedOf neutronMass e) x μ ≠ 0 := by
          intro h4
          rw [h4, zero_div] at h
          linarith
        have h5 : relativeSpeed (β * speedOf neutronMass e) x μ =
            β * relativeSpeed (speedOf neutronMass e) (x / β) μ := by
          unfold relativeSpeed
          rw [← Real.sqrt_sq hβ.le, ← Real.sqrt_mul (by positivity), Real.sqrt_sq hβ.le]
          congr 1
          field_simp
        intro h6
        exact h3 (by rw [h5, h6, mul_zero])
      change (∃ p', FreeGas.collideWith A e (x / β) μ { p with rng := Rng.next^[2 * (k + 1)] p.rng } =
        .ok p' ∧ _) ↔ _
      rw [collideWith_departure (p := { p with rng := Rng.next^[2 * (k + 1)] p.rng }) hA hvn hd hμ1.le
        hμ2.le hrel, hnum]
      set z := departure sideAxis upAxis A neutronMass p.direction (speedOf neutronMass e) (x / β) μ
        fun i => roundNumber p (i + (k + 1)) with hz
      by_cases h7 : z.2 = 0
      · rw [if_pos h7]
        constructor
        · rintro ⟨p', h8, _⟩
          cases h8
        · rintro ⟨h8, h9⟩
          have := Option.some.inj h9
          rw [this] at h7
          exact absurd h7 h8
      · rw [if_neg h7]
        constructor
        · rintro ⟨p', h8, h9, h10⟩
          cases h8
          have h11 : z.2 = e' := by simpa using h10
          exact ⟨h11 ▸ h7, congrArg some (Prod.ext h9 h11)⟩
        · rintro ⟨h8, h9⟩
          have h10 := Option.some.inj h9
          exact ⟨_, rfl, congrArg Prod.fst h10, by rw [h10]⟩
    · have h1 : (Particle.sample { p with rng := Rng.next^[2 * k] p.rng }).1 ≥
          FreeGas.acceptProb x (β * speedOf neutronMass e) μ := by
        rw [acceptProb_eq]; exact not_lt.1 h
      simp only [if_pos h1, if_neg h, h2]
      rw [← hnum]
      exact loop_leaving hA hβ hv (n := n) (p := { p with rng := Rng.next^[2 * (k + 1)] p.rng }) hvn hd

/-- **C80** The axes from which the program counts azimuths make frames about all directions, and with them
its collision is that of the specification: a neutron of energy `e` at a place of temperature `t` leaves in
the direction `d'` with the energy `e'` exactly if its random numbers say so. -/
theorem C80_interact : ∃ a b : Direction → Direction, Frames a b ∧
    ∀ {n : ℕ} {ev : ContinuousEvaluation} {A e t T : ℝ} {p : Particle} (_ : 0 < A) (_ : 0 < t)
      (_ : Thermal p e t T) (_ : Rng.Valid p.rng) (_ : UnitVec p.direction) {d' : Direction} {e' : ℝ},
      (∃ p', (ContinuousReaction.scatter ev none A).interact n p = .ok p' ∧ p'.direction = d' ∧
        p'.energy = .continuous e') ↔
      e' ≠ 0 ∧ leaving a b A neutronMass (slowness (A * neutronMass) t) p.direction
        (speedOf neutronMass e) n (roundNumber p) = some (d', e') := by
  refine ⟨sideAxis, upAxis, frames_axes, ?_⟩
  intro n ev A e t T p hA ht hp hr hd d' e'
  have hm := neutronMass_pos
  have hβ : 0 < slowness (A * neutronMass) t := slowness_pos (mul_pos hA hm) ht
  have he := hp.positive
  have key : FreeGas.interact n A { p with event := .scatter } =
      (FreeGas.targetLoop (slowness (A * neutronMass) t * speedOf neutronMass e) n
        { p with event := .scatter }).bind (fun z =>
          FreeGas.collideWith A e (z.1 / slowness (A * neutronMass) t) z.2.1 z.2.2) := by
    obtain ⟨c, hc, hct, _⟩ := hp.cell
    unfold FreeGas.interact Particle.temperatureAt Particle.getCell
    simp only [hp.energy, Energy.getContinuous, hc, bind, Except.bind, hct]
    rw [if_neg (by push Not; exact ⟨he.le, ht.le, hA.le⟩)]
    unfold FreeGas.sampleTarget
    rw [if_neg ht.ne', show FreeGas.betaOf A t = slowness (A * neutronMass) t from rfl,
      show FreeGas.neutronSpeed e = speedOf neutronMass e from rfl]
    simp only [if_neg hβ.ne', bind, Except.bind]
    generalize FreeGas.targetLoop _ n _ = L
    cases L <;> rfl
  have h := loop_leaving hA hβ (speedOf_pos hm he) (n := n) (p := { p with event := .scatter })
    (d' := d') (e' := e') hr hd
  rw [← key] at h
  refine Iff.trans ?_ h
  refine exists_congr fun p' => and_congr_left fun _ => ?_
  exact noexcept_eq_ok

/-! ### Equilibrium -/

theorem sphereMean_const_mul' (F : Direction → ℝ≥0∞) {c : ℝ≥0∞} (hc : c ≠ ∞) :
    (sphereMean fun d => c * F d) = c * sphereMean F := by
  unfold sphereMean
  simp only [lintegral_const_mul' c _ hc]
  rw [mul_left_comm]

variable {a b : Direction → Direction}

/-- **C80** A collision ends, with probability one. -/
theorem C80_ends (h : Frames a b) (A : ℝ) {β v : ℝ} (hβ : 0 < β) (hv : 0 < v) (d : Direction) :
    uniforms {us | ∃ n z, leaving a b A neutronMass β d v n us = some z} = 1 := by
  have e := uniforms_leaving h A neutronMass hβ hv d MeasurableSet.univ
  simp only [Set.indicator_univ, lintegral_const, measure_univ, mul_one] at e
  rw [lintegral_metDensity hβ hv] at e
  rw [← e]
  congr 1
  ext us
  simp only [Set.mem_ofPred_eq, Set.mem_univ, true_and]

/-- Directions with a given first component have no share of the sphere. -/
theorem sphereMean_single {F : Direction → ℝ≥0∞} {z : ℝ} (h : ∀ d, F d ≠ 0 → d.x = z) :
    sphereMean F = 0 := by
  unfold sphereMean
  have e : ∀ᵐ y : ℝ, y ≠ z := by
    simp [ae_iff]
  rw [lintegral_congr_ae (g := fun _ => 0)]
  · simp
  · refine ae_restrict_of_ae (e.mono fun y hy => ?_)
    refine (lintegral_congr fun φ => ?_).trans lintegral_zero
    by_contra h'
    exact hy (h _ h')

/-- **C80** A moving neutron is almost never brought to rest. -/
theorem C80_never_rest (h : Frames a b) {A β v : ℝ} (hA : 0 < A) (hβ : 0 < β) (hv : 0 < v)
    {d : Direction} (hd : UnitVec d) :
    uniforms {us | ∃ n d', leaving a b A neutronMass β d v n us = some (d', 0)} = 0 := by
  have hm := neutronMass_pos
  have hS : MeasurableSet {z : Direction × ℝ | z.2 = 0} := measurable_snd (measurableSet_singleton 0)
  have e := uniforms_leaving_gas h A neutronMass hβ hv hd hS (by simp)
  have hz : ∀ V, ENNReal.ofReal (gasDensity β V *
      Real.sqrt (normSq (combine 1 (combine v d 0 d) (-1) V))) *
      sphereMean (fun n => kept neutronMass ({z : Direction × ℝ | z.2 = 0}.indicator fun _ => 1)
        (struck A (combine v d 0 d) V n)) = 0 := by
    intro V
    set r := Real.sqrt (normSq (combine 1 (combine v d 0 d) (-1) V)) with hr
    by_cases h0 : r = 0
    · simp [h0]
    rw [sphereMean_single (z := -(1 / (1 + A) * (combine v d 0 d).x + A / (1 + A) * V.x) /
      (A / (1 + A) * r)), mul_zero]
    intro n hn
    have h1 : normSq (struck A (combine v d 0 d) V n) = 0 := by
      by_contra h1
      refine hn (Set.indicator_of_notMem ?_ _)
      simp [hm.ne', h1]
    have h2 : (struck A (combine v d 0 d) V n).x = 0 := by
      unfold normSq at h1
      nlinarith [sq_nonneg (struck A (combine v d 0 d) V n).x,
        sq_nonneg (struck A (combine v d 0 d) V n).y, sq_nonneg (struck A (combine v d 0 d) V n).z]
    have hA1 : A / (1 + A) ≠ 0 := by positivity
    rw [eq_div_iff (mul_ne_zero hA1 h0)]
    have h3 : (struck A (combine v d 0 d) V n).x =
        1 * (1 / (1 + A) * (combine v d 0 d).x + A / (1 + A) * V.x) + A / (1 + A) * r * n.x := rfl
    linarith
  rw [lintegral_congr hz, lintegral_zero, mul_eq_zero] at e
  have hset : {us | ∃ n d', leaving a b A neutronMass β d v n us = some (d', 0)} =
      {us | ∃ n, ∃ z ∈ {z : Direction × ℝ | z.2 = 0}, leaving a b A neutronMass β d v n us = some z} := by
    ext us
    constructor
    · rintro ⟨n, d', h⟩
      exact ⟨n, _, rfl, h⟩
    · rintro ⟨n, ⟨d', e'⟩, rfl, h⟩
      exact ⟨n, d', h⟩
  rw [hset]
  refine e.resolve_left ?_
  rw [ENNReal.ofReal_eq_zero, not_le, meanRelativeSpeed_eq hβ hv]
  have := one_lt_adj (mul_pos hβ hv)
  positivity

/-- **C80** A moving neutron leaves the collision and moves on, with probability one. -/
theorem C80_moves_on (h : Frames a b) {A β v : ℝ} (hA : 0 < A) (hβ : 0 < β) (hv : 0 < v) {d : Direction}
    (hd : UnitVec d) :
    uniforms {us | ∃ n d' e', e' ≠ 0 ∧ leaving a b A neutronMass β d v n us = some (d', e')} = 1 := by
  refine le_antisymm prob_le_one ?_
  rw [← C80_ends h A hβ hv d]
  calc uniforms {us | ∃ n z, leaving a b A neutronMass β d v n us = some z}
      ≤ uniforms ({us | ∃ n d' e', e' ≠ 0 ∧ leaving a b A neutronMass β d v n us = some (d', e')} ∪
          {us | ∃ n d', leaving a b A neutronMass β d v n us = some (d', 0)}) := by
        refine measure_mono ?_
        rintro us ⟨n, ⟨d', e'⟩, hz⟩
        by_cases h0 : e' = 0
        · exact Or.inr ⟨n, d', h0 ▸ hz⟩
        · exact Or.inl ⟨n, d', e', h0, hz⟩
    _ ≤ _ := measure_union_le _ _
    _ = _ := by rw [C80_never_rest h hA hβ hv hd, add_zero]

/-- Energies instead of speeds. -/
theorem lintegral_spectrum {A t s : ℝ} (hA : 0 < A) (ht : 0 < t) (hs : 0 ≤ s) {σ : ℝ → ℝ}
    (hσ : ∀ e, 0 < e → ∃ r, freeGasAdjustment A e t = .ok r ∧ σ e = s * r)
    (X : Direction → ℝ → ℝ≥0∞) :
    ∫⁻ e in Set.Ioi (0 : ℝ), ENNReal.ofReal (e * Real.exp (-(e / (boltzmannMeV * t))) * σ e) *
        sphereMean (fun d => X d e) =
      ENNReal.ofReal (neutronMass ^ 2 / 2 * s) * ∫⁻ v in Set.Ioi (0 : ℝ),
        ENNReal.ofReal (v ^ 2 * Real.exp (-(neutronMass / (2 * boltzmannMeV * t) * v ^ 2))) *
          sphereMean (fun d => ENNReal.ofReal (meanRelativeSpeed (slowness (A * neutronMass) t) v) *
            X d (neutronMass * v ^ 2 / 2)) := by
  have hm := neutronMass_pos
  have hk : 0 < boltzmannMeV := by unfold boltzmannMeV; norm_num
  rw [lintegral_energies hm, ← lintegral_const_mul' _ _ ENNReal.ofReal_ne_top]
  refine setLIntegral_congr_fun measurableSet_Ioi fun v hv => ?_
  have hv : 0 < v := hv
  have he : 0 < neutronMass * v ^ 2 / 2 := by positivity
  obtain ⟨r, hr, hσe⟩ := hσ _ he
  rw [C59_adjustment hA he ht hm, speedOf_energy hm hv.le] at hr
  have hr' : meanRelativeSpeed (slowness (A * neutronMass) t) v / v = r := by simpa using hr
  rw [sphereMean_const_mul' _ ENNReal.ofReal_ne_top, ← mul_assoc, ← mul_assoc, ← mul_assoc,
    ← ENNReal.ofReal_mul (by positivity), ← ENNReal.ofReal_mul (by positivity),
    ← ENNReal.ofReal_mul (by positivity), hσe, ← hr']
  congr 2
  have e1 : neutronMass * v ^ 2 / 2 / (boltzmannMeV * t) =
      neutronMass / (2 * boltzmannMeV * t) * v ^ 2 := by
    field_simp
  rw [e1]
  field_simp

theorem slowness_sq {A t : ℝ} (hA : 0 < A) (ht : 0 < t) : slowness (A * neutronMass) t ^ 2 =
    A * (neutronMass / (2 * boltzmannMeV * t)) := by
  have hm := neutronMass_pos
  have hk : 0 < boltzmannMeV := by unfold boltzmannMeV; norm_num
  unfold slowness
  rw [Real.sq_sqrt (by positivity)]
  ring

/-- **C80** Equilibrium.  The flux of neutrons has the energies of thermal equilibrium at the temperature
`t`, with density proportional to `e exp (-e / k t)`, and all directions evenly.  The cross section is that
of atoms of mass `A`, adjusted to `t` by the program.  Then the rate of collisions from which neutrons leave
with directions and energies in `S` is the rate of collisions that they enter with directions and energies in
`S`. -/
theorem C80_equilibrium (h : Frames a b) {A t s : ℝ} (hA : 0 < A) (ht : 0 < t) (hs : 0 ≤ s)
    {σ : ℝ → ℝ} (hσ : ∀ e, 0 < e → ∃ r, freeGasAdjustment A e t = .ok r ∧ σ e = s * r)
    {S : Set (Direction × ℝ)} (hS : MeasurableSet S) :
    ∫⁻ e in Set.Ioi (0 : ℝ), ENNReal.ofReal (e * Real.exp (-(e / (boltzmannMeV * t))) * σ e) *
        sphereMean (fun d => uniforms {us | ∃ n, ∃ z ∈ S, leaving a b A neutronMass
          (slowness (A * neutronMass) t) d (speedOf neutronMass e) n us = some z}) =
      ∫⁻ e in Set.Ioi (0 : ℝ), ENNReal.ofReal (e * Real.exp (-(e / (boltzmannMeV * t))) * σ e) *
        sphereMean (fun d => S.indicator (fun _ => 1) (d, e)) := by
  have hm := neutronMass_pos
  rw [lintegral_spectrum hA ht hs hσ fun d e => uniforms {us | ∃ n, ∃ z ∈ S, leaving a b A neutronMass
      (slowness (A * neutronMass) t) d (speedOf neutronMass e) n us = some z},
    lintegral_spectrum hA ht hs hσ fun d e => S.indicator (fun _ => 1) (d, e)]
  congr 1
  rw [← lintegral_leavesIn h neutronMass hA (slowness_pos (mul_pos hA hm) ht) (slowness_sq hA ht) hm hS]
  refine setLIntegral_congr_fun measurableSet_Ioi fun v hv => ?_
  have hv : 0 < v := hv
  simp only [speedOf_energy hm hv.le]

/-- **C80** Detailed balance.  In equilibrium, neutrons go from `S` to `R` in collisions at the rate at which
they go from `R` to `S`. -/
theorem C80_detailed_balance (h : Frames a b) {A t s : ℝ} (hA : 0 < A) (ht : 0 < t) (hs : 0 ≤ s)
    {σ : ℝ → ℝ} (hσ : ∀ e, 0 < e → ∃ r, freeGasAdjustment A e t = .ok r ∧ σ e = s * r)
    {S R : Set (Direction × ℝ)} (hS : MeasurableSet S) (hR : MeasurableSet R) :
    ∫⁻ e in Set.Ioi (0 : ℝ), ENNReal.ofReal (e * Real.exp (-(e / (boltzmannMeV * t))) * σ e) *
        sphereMean (fun d => S.indicator (fun _ => 1) (d, e) *
          uniforms {us | ∃ n, ∃ z ∈ R, leaving a b A neutronMass (slowness (A * neutronMass) t) d
            (speedOf neutronMass e) n us = some z}) =
      ∫⁻ e in Set.Ioi (0 : ℝ), ENNReal.ofReal (e * Real.exp (-(e / (boltzmannMeV * t))) * σ e) *
        sphereMean (fun d => R.indicator (fun _ => 1) (d, e) *
          uniforms {us | ∃ n, ∃ z ∈ S, leaving a b A neutronMass (slowness (A * neutronMass) t) d
            (speedOf neutronMass e) n us = some z}) := by
  have hm := neutronMass_pos
  have step : ∀ S R : Set (Direction × ℝ),
      ∫⁻ e in Set.Ioi (0 : ℝ), ENNReal.ofReal (e * Real.exp (-(e / (boltzmannMeV * t))) * σ e) *
        sphereMean (fun d => S.indicator (fun _ => 1) (d, e) *
          uniforms {us | ∃ n, ∃ z ∈ R, leaving a b A neutronMass (slowness (A * neutronMass) t) d
            (speedOf neutronMass e) n us = some z}) =
      ENNReal.ofReal (neutronMass ^ 2 / 2 * s) * ∫⁻ v in Set.Ioi (0 : ℝ),
        ENNReal.ofReal (v ^ 2 * Real.exp (-(neutronMass / (2 * boltzmannMeV * t) * v ^ 2))) *
          sphereMean (fun d => ENNReal.ofReal (meanRelativeSpeed (slowness (A * neutronMass) t) v) *
            (S.indicator (fun _ => 1) (d, neutronMass * v ^ 2 / 2) *
              uniforms (leavesIn a b A neutronMass (slowness (A * neutronMass) t) d v R))) := by
    intro S R
    rw [lintegral_spectrum hA ht hs hσ fun d e => S.indicator (fun _ => 1) (d, e) *
      uniforms {us | ∃ n, ∃ z ∈ R, leaving a b A neutronMass
        (slowness (A * neutronMass) t) d (speedOf neutronMass e) n us = some z}]
    congr 1
    refine setLIntegral_congr_fun measurableSet_Ioi fun v hv => ?_
    have hv : 0 < v := hv
    simp only [speedOf_energy hm hv.le]
  rw [step, step, lintegral_leavesIn_balance h neutronMass hA (slowness_pos (mul_pos hA hm) ht)
    (slowness_sq hA ht) hm hS hR]

/-- **C80** The same with the cross section that the program gives to a nuclide not heavier than a neutron,
from a table for atoms at rest with the same cross section at all energies. -/
theorem C80_reaction (h : Frames a b) {A t T s : ℝ} (hA : 0 < A) (hA1 : A ≤ 1) (ht : 0 < t) (hs : 0 ≤ s)
    {xs : ContinuousMap} (hx : ∀ e, 0 < e → xs.at' e = .ok s) {p : ℝ → Particle} {σ : ℝ → ℝ}
    (hp : ∀ e, 0 < e → Thermal (p e) e t T ∧ (p e).type = .neutron ∧
      (ContinuousReaction.scatter ⟨xs, 0⟩ none A).getCrossSection (p e) = .ok (σ e))
    {S : Set (Direction × ℝ)} (hS : MeasurableSet S) :
    ∫⁻ e in Set.Ioi (0 : ℝ), ENNReal.ofReal (e * Real.exp (-(e / (boltzmannMeV * t))) * σ e) *
        sphereMean (fun d => uniforms {us | ∃ n, ∃ z ∈ S, leaving a b A neutronMass
          (slowness (A * neutronMass) t) d (speedOf neutronMass e) n us = some z}) =
      ∫⁻ e in Set.Ioi (0 : ℝ), ENNReal.ofReal (e * Real.exp (-(e / (boltzmannMeV * t))) * σ e) *
        sphereMean (fun d => S.indicator (fun _ => 1) (d, e)) := by
  refine C80_equilibrium h hA ht hs (fun e he => ?_) hS
  obtain ⟨h1, h2, h3⟩ := hp e he
  have hm := neutronMass_pos
  obtain ⟨S', h4, h5⟩ := C59_cross_section_cold h1 h2 hA hm ht (hx e he) (Or.inl hA1)
  rw [h3] at h4
  cases h4
  have hv := speedOf_pos hm he
  refine ⟨_, C59_adjustment hA he ht hm, ?_⟩
  field_simp
  exact h5

/-- Instance: hydrogen at 300 K.  As many neutrons leave collisions with more than 0.1 eV, or forward, as
enter them. -/
example : ∃ a b : Direction → Direction, Frames a b ∧ ∃ σ : ℝ → ℝ,
    (∀ e, 0 < e → 20 < σ e) ∧
    ∫⁻ e in Set.Ioi (0 : ℝ), ENNReal.ofReal (e * Real.exp (-(e / (boltzmannMeV * 300))) * σ e) *
        sphereMean (fun d => uniforms {us | ∃ n, ∃ z ∈ {z : Direction × ℝ | 1e-7 < z.2 ∨ 0 < z.1.x},
          leaving a b 0.9992 neutronMass (slowness (0.9992 * neutronMass) 300) d
            (speedOf neutronMass e) n us = some z}) =
      ∫⁻ e in Set.Ioi (0 : ℝ), ENNReal.ofReal (e * Real.exp (-(e / (boltzmannMeV * 300))) * σ e) *
        sphereMean (fun d => {z : Direction × ℝ | 1e-7 < z.2 ∨ 0 < z.1.x}.indicator (fun _ => 1) (d, e)) := by
  obtain ⟨a, b, h, _⟩ := C80_interact
  let c : Cell := ⟨"", [], none, .constant 300⟩
  let p : ℝ → Particle := fun e => ⟨[], [], ⟨0, 0, 0⟩, ⟨1, 0, 0⟩, .continuous e, some c, 1, .neutron,
    .birth, none⟩
  have hx : ∀ e : ℝ, 0 < e → ContinuousMap.at' [(1, 20)] e = .ok 20 := by
    intro e _
    unfold ContinuousMap.at'
    by_cases h1 : 1 ≤ e <;> simp [List.takeWhile, List.dropWhile, h1]
  have hT : ∀ e, 0 < e → Thermal (p e) e 300 300 := fun e he =>
    ⟨rfl, ⟨c, rfl, rfl, rfl⟩, he, by norm_num, le_refl _⟩
  have hσ : ∀ e, 0 < e → ∃ S, (ContinuousReaction.scatter ⟨[(1, 20)], 0⟩ none 0.9992).getCrossSection
      (p e) = .ok S ∧ S * speedOf neutronMass e = 20 *
        meanRelativeSpeed (slowness (0.9992 * neutronMass) 300) (speedOf neutronMass e) := fun e he =>
    C59_cross_section_cold (hT e he) rfl (by norm_num) neutronMass_pos (by norm_num) (hx e he)
      (Or.inl (by norm_num))
  choose! σ h1 h2 using hσ
  refine ⟨a, b, h, σ, ?_, ?_⟩
  · intro e he
    have hm := neutronMass_pos
    have hv := speedOf_pos hm he
    have h3 := h2 e he
    rw [meanRelativeSpeed_eq (slowness_pos (by positivity) (by norm_num)) hv,
      slowness_mul_speedOf (by norm_num) he (by norm_num) hm] at h3
    have h4 := one_lt_adj (adjArg_pos (awr := 0.9992) (e := e) (t := 300) (by norm_num) he (by norm_num))
    have h5 : σ e = 20 * adj (adjArg 0.9992 e 300) := by
      refine mul_right_cancel₀ hv.ne' ?_
      rw [h3]
      ring
    rw [h5]
    linarith
  · refine C80_reaction h (by norm_num) (by norm_num) (by norm_num) (by norm_num) (xs := [(1, 20)]) hx
      (p := p) (T := 300) (fun e he => ⟨hT e he, rfl, h1 e he⟩) ?_
    have m1 : Measurable fun z : Direction × ℝ => z.1.x := by fun_prop
    exact (measurableSet_lt measurable_const measurable_snd).union (measurableSet_lt measurable_const m1)

/-- Instance of `C80_detailed_balance`: neutrons slowed down below 0.1 eV by deuterium at 600 K and neutrons
speeded up above it. -/
example : ∃ a b : Direction → Direction, Frames a b ∧ ∃ σ : ℝ → ℝ,
    (∀ e, 0 < e → freeGasAdjustment 1.9968 e 600 = .ok (σ e)) ∧
    ∫⁻ e in Set.Ioi (0 : ℝ), ENNReal.ofReal (e * Real.exp (-(e / (boltzmannMeV * 600))) * σ e) *
        sphereMean (fun d => {z : Direction × ℝ | 1e-7 < z.2}.indicator (fun _ => 1) (d, e) *
          uniforms {us | ∃ n, ∃ z ∈ {z : Direction × ℝ | z.2 < 1e-7}, leaving a b 1.9968 neutronMass
            (slowness (1.9968 * neutronMass) 600) d (speedOf neutronMass e) n us = some z}) =
      ∫⁻ e in Set.Ioi (0 : ℝ), ENNReal.ofReal (e * Real.exp (-(e / (boltzmannMeV * 600))) * σ e) *
        sphereMean (fun d => {z : Direction × ℝ | z.2 < 1e-7}.indicator (fun _ => 1) (d, e) *
          uniforms {us | ∃ n, ∃ z ∈ {z : Direction × ℝ | 1e-7 < z.2}, leaving a b 1.9968 neutronMass
            (slowness (1.9968 * neutronMass) 600) d (speedOf neutronMass e) n us = some z}) := by
  obtain ⟨a, b, h, _⟩ := C80_interact
  have hσ : ∀ e : ℝ, 0 < e → freeGasAdjustment 1.9968 e 600 =
      .ok (meanRelativeSpeed (slowness (1.9968 * neutronMass) 600) (speedOf neutronMass e) /
        speedOf neutronMass e) := fun e he =>
    C59_adjustment (by norm_num) he (by norm_num) neutronMass_pos
  exact ⟨a, b, h, _, hσ, C80_detailed_balance h (s := 1) (by norm_num) (by norm_num) zero_le_one
    (fun e he => ⟨_, hσ e he, (one_mul _).symm⟩) (measurableSet_lt measurable_const measurable_snd)
    (measurableSet_lt measurable_snd measurable_const)⟩

/-- Instance of `C80_moves_on`: a neutron of 1 eV among hydrogen atoms at 300 K. -/
example : ∃ a b : Direction → Direction, Frames a b ∧
    uniforms {us | ∃ n d' e', e' ≠ 0 ∧ leaving a b 0.9992 neutronMass (slowness (0.9992 * neutronMass) 300)
      ⟨3 / 5, 0, 4 / 5⟩ (speedOf neutronMass 1e-6) n us = some (d', e')} = 1 := by
  obtain ⟨a, b, h, _⟩ := C80_interact
  have hm := neutronMass_pos
  exact ⟨a, b, h, C80_moves_on h (by norm_num) (slowness_pos (by positivity) (by norm_num))
    (speedOf_pos hm (by norm_num)) (by unfold UnitVec; norm_num)⟩

/-- Instance of the hypotheses of `C80_interact`: a thermal neutron in a cell at 300 K. -/
example : ∃ (p : Particle) (T : ℝ), Thermal p 2.53e-8 300 T ∧ Rng.Valid p.rng ∧ UnitVec p.direction := by
  let c : Cell := ⟨"", [], none, .constant 300⟩
  refine ⟨⟨[], [], ⟨0, 0, 0⟩, ⟨3 / 5, 0, 4 / 5⟩, .continuous 2.53e-8, some c, 1, .neutron, .birth, none⟩,
    300, ⟨rfl, ⟨c, rfl, rfl, rfl⟩, by norm_num, by norm_num, le_refl _⟩, ?_, ?_⟩
  · unfold Rng.Valid
    norm_num
  · unfold UnitVec
    norm_num

end Minimc.Props
