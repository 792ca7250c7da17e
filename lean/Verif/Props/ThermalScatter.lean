import Verif.Lemmas.Thermal
import Verif.Lemmas.Keeps
import Verif.Lemmas.Adjustment
import Verif.Props.Point

/-! # Property C45 -/

namespace Minimc.Props

open Classical Spec

theorem betaLoop_ok {s : ThermalScattering} {P : Partition} {row : ℕ} {eS e t : ℝ} :
    ∀ {n : ℕ} {p : Particle} {b : ℝ} {p' : Particle} (_ : Rng.Valid p.rng)
      (_ : s.betaLoop P row eS e t n p = .ok (b, p')),
      -e / (boltzmann * t) ≤ b ∧ Rng.Valid p'.rng ∧ ∃ g, p' = { p with rng := g }
  | 0, _, _, _, _, h => by cases h
  | n + 1, p, b, p', hr, h => by
    rw [ThermalScattering.betaLoop] at h
    simp only at h
    split_ifs at h with h0
    simp only [res_bind_ok] at h
    obtain ⟨b₁, h1, h2⟩ := h
    split_ifs at h2 with h3
    · cases h2
      exact ⟨h3, Rng.valid_canonical hr, _, rfl⟩
    · obtain ⟨k1, k2, g, k3⟩ := betaLoop_ok (n := n) (Rng.valid_canonical hr) h2
      exact ⟨k1, k2, g, k3⟩

theorem sampleBeta_ok {s : ThermalScattering} {p : Particle} {e t b : ℝ} {p' : Particle}
    (hr : Rng.Valid p.rng) (h : s.sampleBeta p e t = .ok (b, p')) :
    -e / (boltzmann * t) ≤ b ∧ Rng.Valid p'.rng ∧ ∃ g, p' = { p with rng := g } := by
  unfold ThermalScattering.sampleBeta at h
  simp only [res_bind_ok] at h
  obtain ⟨i, _, eS, _, ⟨pi, row⟩, _, P, _, h⟩ := h
  obtain ⟨k1, k2, g, k3⟩ := betaLoop_ok (p := p.sample.2) (Rng.valid_canonical hr) h
  exact ⟨k1, k2, g, k3⟩

/-- Momentum transfers allowed by the kinematics at energy transfer `b`. -/
def Allowed (awr e t b a : ℝ) : Prop :=
  (Real.sqrt e - Real.sqrt (e + b * boltzmann * t)) ^ 2 ≤ a * (awr * boltzmann * t) ∧
  a * (awr * boltzmann * t) ≤ (Real.sqrt e + Real.sqrt (e + b * boltzmann * t)) ^ 2

theorem alphaLoop_ok {s : ThermalScattering} {P : Partition} {row : ℕ}
    {b bsMin bsMax fMin fMax e t : ℝ} (hk : 0 < s.awr * boltzmann * t) :
    ∀ {n : ℕ} {p : Particle} {a : ℝ} {p' : Particle} (_ : Rng.Valid p.rng)
      (_ : s.alphaLoop P row b bsMin bsMax fMin fMax e t n p = .ok (a, p')),
      Allowed s.awr e t b a ∧ Rng.Valid p'.rng ∧ ∃ g, p' = { p with rng := g }
  | 0, _, _, _, _, h => by cases h
  | n + 1, p, a, p', hr, h => by
    rw [ThermalScattering.alphaLoop] at h
    simp only [res_bind_ok] at h
    obtain ⟨a₁, _, h2⟩ := h
    split_ifs at h2 with h3
    · simp only [res_bind_ok] at h2
      obtain ⟨lo, h4, hi, h5, h6⟩ := h2
      cases h6
      unfold ThermalScattering.alphaMin at h4
      unfold ThermalScattering.alphaMax at h5
      split_ifs at h4 with h7
      rw [if_neg h7] at h5
      cases h4
      cases h5
      push Not at h7
      refine ⟨?_, Rng.valid_canonical hr, _, rfl⟩
      unfold Allowed
      set K := s.awr * boltzmann * t
      have hx := Real.sqrt_nonneg e
      have hy := Real.sqrt_nonneg (e + b * boltzmann * t)
      set x := Real.sqrt e
      set y := Real.sqrt (e + b * boltzmann * t)
      have hd : 0 < bsMax - bsMin := by linarith [h3.1, h3.2]
      have hw0 : 0 ≤ (a₁ - bsMin) / (bsMax - bsMin) := div_nonneg (by linarith [h3.1]) hd.le
      have hw1 : (a₁ - bsMin) / (bsMax - bsMin) ≤ 1 := (div_le_one hd).2 (by linarith [h3.2])
      have e1 : ((x - y) ^ 2 / K +
          (a₁ - bsMin) * ((x + y) ^ 2 / K - (x - y) ^ 2 / K) / (bsMax - bsMin)) * K =
          (x - y) ^ 2 + (a₁ - bsMin) / (bsMax - bsMin) * ((x + y) ^ 2 - (x - y) ^ 2) := by
        field_simp
      rw [e1]
      set w := (a₁ - bsMin) / (bsMax - bsMin)
      have hxy : 0 ≤ (x + y) ^ 2 - (x - y) ^ 2 := by nlinarith [mul_nonneg hx hy]
      constructor <;> nlinarith
    · obtain ⟨k1, k2, g, k3⟩ := alphaLoop_ok hk (n := n) (Rng.valid_canonical hr) h2
      exact ⟨k1, k2, g, k3⟩

theorem sampleAlpha_ok {s : ThermalScattering} {p : Particle} {b e t a : ℝ} {p' : Particle}
    (hk : 0 < s.awr * boltzmann * t) (hr : Rng.Valid p.rng)
    (h : s.sampleAlpha p b e t = .ok (a, p')) :
    Allowed s.awr e t b a ∧ Rng.Valid p'.rng ∧ ∃ g, p' = { p with rng := g } := by
  unfold ThermalScattering.sampleAlpha at h
  simp only [res_bind_ok] at h
  obtain ⟨i, _, bAbs, _, lo, _, hi, _, h⟩ := h
  split_ifs at h with h0
  simp only [res_bind_ok] at h
  obtain ⟨⟨pi, row⟩, _, P, _, f1, _, f2, _, h⟩ := h
  obtain ⟨k1, k2, g, k3⟩ := alphaLoop_ok hk (p := p.sample.2) (Rng.valid_canonical hr) h
  exact ⟨k1, k2, g, k3⟩

/-- **C45** Whenever thermal scattering returns a sampled outgoing state, the energy gained or
lost leaves a non-negative energy and the cosine lies between minus one and one. -/
theorem C45_outgoing_state {s : ThermalScattering} {p p' : Particle} {e t mu e' : ℝ}
    (hr : Rng.Valid p.rng) (he : p.energy = .continuous e) (ht : p.temperatureAt = .ok t)
    (ht0 : 0 < t) (hA : 0 < s.awr) (h : s.sampleOutgoing p = .ok (mu, e', p')) :
    0 ≤ e' ∧ -1 ≤ mu ∧ mu ≤ 1 ∧ ∃ g, p' = { p with rng := g } := by
  unfold ThermalScattering.sampleOutgoing at h
  simp only [res_bind_ok, he, ht, Energy.getContinuous] at h
  obtain ⟨_, h1, _, h2, ⟨b, q⟩, h3, ⟨a, q'⟩, h4, m, h5, h6⟩ := h
  cases h1
  cases h2
  cases h6
  obtain ⟨hb, hq, g, hg⟩ := sampleBeta_ok hr h3
  have hkt : 0 < boltzmann * t := mul_pos boltzmann_pos ht0
  have hK : 0 < s.awr * boltzmann * t := by rw [mul_assoc]; exact mul_pos hA hkt
  obtain ⟨⟨ha1, ha2⟩, _, g', hg'⟩ := sampleAlpha_ok hK hq h4
  have he' : 0 ≤ e + b * boltzmann * t := by
    rw [div_le_iff₀ hkt] at hb
    linarith
  unfold ThermalScattering.outgoingCosine ThermalScattering.outgoingEnergy at h5
  split_ifs at h5 with h7
  push Not at h7
  cases h5
  unfold ThermalScattering.outgoingEnergy
  have he0 : 0 ≤ e := by
    by_contra hneg
    push Not at hneg
    nlinarith
  set E := e + b * boltzmann * t with hE
  have hs : Real.sqrt (e * E) = Real.sqrt e * Real.sqrt E := Real.sqrt_mul he0 E
  have hpos : 0 < Real.sqrt (e * E) := Real.sqrt_pos.2 h7
  have q1 := Real.sq_sqrt he0
  have q2 := Real.sq_sqrt he'
  refine ⟨he', ?_, ?_, g', by rw [hg', hg]⟩
  · rw [le_div_iff₀ (by linarith)]
    rw [hs]
    nlinarith
  · rw [div_le_one (by linarith)]
    rw [hs]
    nlinarith

/-- **C45** The scattered particle has a non-negative energy, a direction of unit length and is
otherwise, but for the generator, unchanged. -/
theorem C45_scattered_particle {s : ThermalScattering} {p p' : Particle} {e t : ℝ}
    (hr : Rng.Valid p.rng) (hu : UnitVec p.direction) (he : p.energy = .continuous e)
    (ht : p.temperatureAt = .ok t) (ht0 : 0 < t) (hA : 0 < s.awr)
    (h : s.scatter p = .ok p') :
    ∃ e' d g, p' = { p with energy := .continuous e', direction := d, rng := g } ∧ 0 ≤ e' ∧
      UnitVec d := by
  unfold ThermalScattering.scatter at h
  simp only [res_bind_ok] at h
  obtain ⟨⟨mu, e', q⟩, h1, h2⟩ := h
  obtain ⟨k1, k2, k3, g, k4⟩ := C45_outgoing_state hr he ht ht0 hA h1
  unfold Particle.scatter at h2
  simp only [res_bind_ok, Particle.sample] at h2
  obtain ⟨d, hd, h3⟩ := h2
  cases h3
  have hqd : q.direction = p.direction := by rw [k4]
  obtain ⟨r, e2, hur, _⟩ := C03_rotated_direction p.direction mu _ hu k2 k3
  rw [hqd, e2] at hd
  cases hd
  exact ⟨e', _, _, by rw [k4], k1, hur⟩

/-- **C45** The outgoing energy and cosine are those of the sampled dimensionless energy and
momentum transfers. -/
theorem C45_transfers {s : ThermalScattering} {p p' : Particle} {e t mu e' : ℝ}
    (he : p.energy = .continuous e) (ht : p.temperatureAt = .ok t)
    (ht0 : 0 < t) (hA : 0 < s.awr) (h : s.sampleOutgoing p = .ok (mu, e', p')) :
    ∃ beta q alpha, s.sampleBeta p e t = .ok (beta, q) ∧
      s.sampleAlpha q beta e t = .ok (alpha, p') ∧
      beta = (e' - e) / (boltzmann * t) ∧
      alpha = (e + e' - 2 * mu * Real.sqrt (e * e')) / (s.awr * boltzmann * t) := by
  unfold ThermalScattering.sampleOutgoing at h
  simp only [res_bind_ok, he, ht, Energy.getContinuous] at h
  obtain ⟨_, h1, _, h2, ⟨b, q⟩, h3, ⟨a, q'⟩, h4, m, h5, h6⟩ := h
  cases h1
  cases h2
  cases h6
  have hkt : 0 < boltzmann * t := mul_pos boltzmann_pos ht0
  have hK : 0 < s.awr * boltzmann * t := by rw [mul_assoc]; exact mul_pos hA hkt
  refine ⟨b, q, a, h3, h4, ?_, ?_⟩
  · unfold ThermalScattering.outgoingEnergy
    rw [eq_div_iff hkt.ne']
    ring
  · unfold ThermalScattering.outgoingCosine at h5
    split_ifs at h5 with h7
    push Not at h7
    cases h5
    have hpos := Real.sqrt_pos.2 h7
    rw [eq_div_iff hK.ne']
    field_simp
    ring

/-- Thermal data whose cumulative distributions have no inner points: energy transfers are
uniform between `-E / kT` and 10, momentum transfers uniform over the allowed range. -/
noncomputable def uniformThermal : ThermalScattering where
  majorant := [(1, 1)]
  scatterXsT := ⟨[[1, 2], [0]], [1, 1]⟩
  scatterXsS := ⟨[[0]], [1]⟩
  scatterXsE := ⟨[[4, 5], [0]], [1, 1]⟩
  betaPartitions := [⟨⟨[[], [0]], []⟩, ⟨[[0]], [1]⟩, ⟨[[4, 5], [1, 2], [0]], [1, 1, 1, 1]⟩⟩]
  es := [4, 5]
  betaEnds := [2]
  alphaPartitions := [⟨⟨[[], [0]], []⟩, ⟨[[0]], [1]⟩, ⟨[[1, 9], [1, 2], [0]], [1, 1, 1, 1]⟩⟩]
  betas := [1, 9]
  alphaEnds := [2]
  betaCutoff := 10
  alphaCutoff := 40
  awr := 1
  cutoffEnergy := 5

/-- A neutron of energy 4 in a cell with `kT = 1`. -/
noncomputable def thermalNeutron : Particle where
  indirectEffects := []
  secondaries := []
  position := ⟨0, 0, 0⟩
  direction := ⟨1, 0, 0⟩
  energy := .continuous 4
  cell := some ⟨"c", [], none, .constant (1 / boltzmann)⟩
  rng := 5
  type := .neutron
  event := .birth
  currentSurface := none

theorem draw5 : 2 / 5 < (Rng.canonical (Rng.canonical 5).2).1 ∧
    (Rng.canonical (Rng.canonical 5).2).1 < 1 / 2 := by
  have e1 : (Rng.canonical 5).2 = 913028970 := by
    have : Rng.next (Rng.next 5) = 913028970 := by decide
    exact this
  have h1 : Rng.next 913028970 = 14523489 := by decide
  have h2 : Rng.next 14523489 = 983668597 := by decide
  rw [e1]
  unfold Rng.canonical Rng.range
  simp only [h1, h2]
  constructor <;> norm_num

theorem kT_one : boltzmann * (1 / boltzmann) = 1 := by
  have := boltzmann_pos
  field_simp

theorem inverseCdf_no_points {P : Partition} (h : P.cdfModes.getAxis 0 = .ok []) (row : ℕ)
    (t lo hi F : ℝ) : ThermalScattering.inverseCdf P row t lo hi F = .ok (lo + F * (hi - lo)) := by
  unfold ThermalScattering.inverseCdf
  rw [h]
  simp [bind, Except.bind, upperIdx_nil]

theorem findCdf_no_points {s : ThermalScattering} {P : Partition}
    (h : P.cdfModes.getAxis 0 = .ok []) (hc : s.alphaCutoff ≠ 0) (row : ℕ) (t a : ℝ) :
    s.findCdf P row t a = .ok (a / s.alphaCutoff) := by
  unfold ThermalScattering.findCdf
  rw [h]
  simp [bind, Except.bind, ThermalScattering.findCdfIndex, hc]

/-- Instance of the hypotheses of C45: this sample is returned. -/
theorem uniformThermal_samples :
    ∃ mu e' p', uniformThermal.sampleOutgoing thermalNeutron = .ok (mu, e', p') := by
  have hk := kT_one
  have hb0 := boltzmann_pos
  have hv : Rng.Valid 5 := by unfold Rng.Valid; omega
  have v1 := Rng.valid_canonical hv
  have v2 := Rng.valid_canonical v1
  have v3 := Rng.valid_canonical v2
  obtain ⟨d1, d2⟩ := draw5
  have hp0 := (Rng.canonical_pos hv).le
  have hl2 := Rng.canonical_lt_one v2
  have hp3 := Rng.canonical_pos v3
  have hl3 := Rng.canonical_lt_one v3
  have hu1 : upperIdx [4, 5] 4 = 1 := upperIdx_between (i := 0) (by norm_num) rfl rfl le_rfl
    (by norm_num)
  set F := (Rng.canonical (Rng.canonical 5).2).1 with hF
  set t := 1 / boltzmann with ht
  have hb : uniformThermal.sampleBeta thermalNeutron 4 t =
      .ok (-4 + F * 14, thermalNeutron.sample.2.sample.2) := by
    have hr : ThermalScattering.betaFactor uniformThermal 4 = .ok 0 := by
      unfold ThermalScattering.betaFactor
      simp [uniformThermal, hu1, vecAt, bind, Except.bind]
    have hi : ThermalScattering.pickIndex 0 thermalNeutron.sample.1 1 = .ok 0 := by
      unfold ThermalScattering.pickIndex
      rw [if_pos (show (0 : ℝ) ≤ thermalNeutron.sample.1 from hp0)]
      rfl
    have hl : ThermalScattering.locate uniformThermal.betaEnds 0 = .ok (0, 0) := by
      simp [ThermalScattering.locate, upperIdxNat, upperBound, uniformThermal]
    have hP : vecAt uniformThermal.betaPartitions 0 = .ok
      ⟨⟨[[], [0]], []⟩, ⟨[[0]], [1]⟩, ⟨[[4, 5], [1, 2], [0]], [1, 1, 1, 1]⟩⟩ := rfl
    have he : vecAt uniformThermal.es 0 = .ok 4 := rfl
    have hu : upperIdx uniformThermal.es 4 = 1 := hu1
    have hidx : uniformThermal.betaIndex 4 thermalNeutron.sample.1 = .ok 0 := by
      unfold ThermalScattering.betaIndex
      rw [hu, if_neg (by simp [uniformThermal]), hr]
      exact hi
    unfold ThermalScattering.sampleBeta
    simp only [hidx, bind, Except.bind, he, hl, hP]
    unfold betaResampleLimit
    rw [ThermalScattering.betaLoop]
    simp only [bind, Except.bind]
    rw [hk, if_neg one_ne_zero, inverseCdf_no_points rfl]
    simp only
    have hFs : thermalNeutron.sample.2.sample.1 = F := rfl
    rw [hFs, if_pos (by norm_num [uniformThermal]; linarith)]
    norm_num [uniformThermal]
  set b := -4 + F * 14 with hbdef
  have hb1 : 8 / 5 < b := by linarith
  have hb2 : b < 3 := by linarith
  set q := thermalNeutron.sample.2.sample.2 with hq
  have hu3 : upperIdx uniformThermal.betas |b| = 1 := by
    rw [abs_of_pos (by linarith)]
    exact upperIdx_between (i := 0) (l := [1, 9]) (by norm_num) rfl rfl (by linarith) (by linarith)
  have hs : ThermalScattering.sgn b = 1 := by
    unfold ThermalScattering.sgn
    rw [if_pos (by linarith), if_neg (by linarith)]
    norm_num
  have hsnap : uniformThermal.snapToLower b 4 t = .ok false := by
    unfold ThermalScattering.snapToLower
    rw [if_pos hs, hu3]
    have : vecAt uniformThermal.betas 1 = .ok 9 := rfl
    simp only [this, bind, Except.bind]
    norm_num [uniformThermal]
  have hfac : uniformThermal.alphaFactor b 4 t = .ok (b - 1 / 8) := by
    unfold ThermalScattering.alphaFactor
    have h0 : vecAt uniformThermal.betas (1 - 1) = .ok 1 := rfl
    have h1 : vecAt uniformThermal.betas 1 = .ok 9 := rfl
    simp only [hsnap, hu3, h0, h1, bind, Except.bind]
    rw [abs_of_pos (show 0 < b by linarith)]
    norm_num
  have hpick : ThermalScattering.pickIndex (b - 1 / 8) q.sample.1 1 = .ok 1 := by
    unfold ThermalScattering.pickIndex
    have : q.sample.1 < 1 := hl2
    rw [if_neg (by linarith)]
  have hmin : ∀ c : ℝ, 0 < c → uniformThermal.alphaMin c 4 t =
      .ok ((Real.sqrt 4 - Real.sqrt (4 + c)) ^ 2) := by
    intro c hc
    unfold ThermalScattering.alphaMin
    simp only [uniformThermal, one_mul, mul_assoc, hk, mul_one, div_one]
    rw [if_neg]
    push Not
    exact ⟨by norm_num, by linarith, one_ne_zero⟩
  have hmax : ∀ c : ℝ, 0 < c → uniformThermal.alphaMax c 4 t =
      .ok ((Real.sqrt 4 + Real.sqrt (4 + c)) ^ 2) := by
    intro c hc
    unfold ThermalScattering.alphaMax
    simp only [uniformThermal, one_mul, mul_assoc, hk, mul_one, div_one]
    rw [if_neg]
    push Not
    exact ⟨by norm_num, by linarith, one_ne_zero⟩
  have h13 : Real.sqrt (4 + 9) < 4 := by
    rw [Real.sqrt_lt' (by norm_num)]; norm_num
  have h13' : 0 < Real.sqrt (4 + 9) := Real.sqrt_pos.2 (by norm_num)
  have h4 : Real.sqrt 4 = 2 := by
    rw [show (4 : ℝ) = 2 ^ 2 by norm_num]; exact Real.sqrt_sq (by norm_num)
  have ha : ∃ a q', uniformThermal.sampleAlpha q b 4 t = .ok (a, q') := by
    unfold ThermalScattering.sampleAlpha
    have h1 : vecAt uniformThermal.betas 1 = .ok 9 := rfl
    have hl : ThermalScattering.locate uniformThermal.alphaEnds 1 = .ok (0, 1) := by
      simp [ThermalScattering.locate, upperIdxNat, upperBound, uniformThermal]
    have hP : vecAt uniformThermal.alphaPartitions 0 = .ok
      ⟨⟨[[], [0]], []⟩, ⟨[[0]], [1]⟩, ⟨[[1, 9], [1, 2], [0]], [1, 1, 1, 1]⟩⟩ := rfl
    have hc : uniformThermal.alphaCutoff = 40 := rfl
    have hidx : uniformThermal.alphaIndex b 4 t q.sample.1 = .ok 1 := by
      unfold ThermalScattering.alphaIndex
      rw [hfac, hu3]
      exact hpick
    simp only [hidx, h1, hs, one_mul, bind, Except.bind, hmin 9 (by norm_num),
      hmax 9 (by norm_num)]
    rw [if_neg (by push Not; rw [hc, h4]; nlinarith)]
    simp only [hl, hP, findCdf_no_points (s := uniformThermal)
      (P := ⟨⟨[[], [0]], []⟩, ⟨[[0]], [1]⟩, ⟨[[1, 9], [1, 2], [0]], [1, 1, 1, 1]⟩⟩) rfl
      (by rw [hc]; norm_num)]
    unfold alphaResampleLimit
    rw [ThermalScattering.alphaLoop]
    simp only [bind, Except.bind]
    rw [inverseCdf_no_points rfl]
    simp only [hmin b (by linarith), hmax b (by linarith)]
    have hu : q.sample.2.sample.1 = (Rng.canonical (Rng.canonical (Rng.canonical
      (Rng.canonical 5).2).2).2).1 := rfl
    rw [hu, hc, h4]
    set u := (Rng.canonical (Rng.canonical (Rng.canonical (Rng.canonical 5).2).2).2).1
    set y := Real.sqrt (4 + 9)
    rw [if_pos]
    · exact ⟨_, _, rfl⟩
    · constructor
      · nlinarith [mul_pos hp3 h13']
      · nlinarith [mul_pos (sub_pos.2 hl3) h13']
  obtain ⟨a, q', ha⟩ := ha
  have hc : uniformThermal.outgoingCosine 4 t b a = .ok ((4 + ThermalScattering.outgoingEnergy 4 t b
      - a * uniformThermal.awr * boltzmann * t) /
        (2 * Real.sqrt (4 * ThermalScattering.outgoingEnergy 4 t b))) := by
    unfold ThermalScattering.outgoingCosine
    rw [if_neg]
    unfold ThermalScattering.outgoingEnergy
    rw [mul_assoc b, hk]
    linarith
  have het : thermalNeutron.energy.getContinuous = .ok 4 := rfl
  have htt : thermalNeutron.temperatureAt = .ok t := rfl
  refine ⟨(4 + ThermalScattering.outgoingEnergy 4 t b - a * uniformThermal.awr * boltzmann * t) /
    (2 * Real.sqrt (4 * ThermalScattering.outgoingEnergy 4 t b)),
    ThermalScattering.outgoingEnergy 4 t b, q', ?_⟩
  unfold ThermalScattering.sampleOutgoing
  simp only [het, htt, hb, ha, hc, bind, Except.bind]

end Minimc.Props
