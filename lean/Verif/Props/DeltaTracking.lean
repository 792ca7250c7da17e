import Verif.Lemmas.Flight
import Verif.Props.Continuous
import Verif.Props.Rng
import Verif.Props.Reactions
import Verif.Lemmas.Transport

/-! # Property C54: flights in delta tracking -/

namespace Minimc.Props

open Classical Spec Finset

/-- **C54** When tentative flights have rate `M` and each ends in a collision with probability
`S / M`, the distance to the first collision is longer than `t` with probability `exp (- S t)`. -/
theorem C54_distribution {M S t : ℝ} (hS : 0 < S) (hSM : S ≤ M) (ht : 0 ≤ t) :
    uniforms {us | LongerThan M (S / M) us t} = ENNReal.ofReal (Real.exp (-(S * t))) := by
  have hM : 0 < M := hS.trans_le hSM
  have h := uniforms_longer_eq hM (div_pos hS hM) ((div_le_one hM).2 hSM) ht
  rw [div_mul_cancel₀ _ hM.ne'] at h
  exact h

/-- **C54** This is the probability with which a flight in surface tracking is longer than `t`. -/
theorem C54_as_surface_tracking {M S t : ℝ} (hS : 0 < S) (hSM : S ≤ M) (ht : 0 ≤ t) :
    uniforms {us | LongerThan M (S / M) us t} =
      prob {u | ((t : ℝ) : WithTop ℝ) < Rng.exponentialOf S u} := by
  rw [C54_distribution hS hSM ht, ← C28_flight_distribution S t hS ht, prob]
  congr 1
  ext u
  simp only [Set.mem_ofPred_eq, Set.mem_inter_iff, Set.mem_Ico]
  tauto

/-- **C54** A collision is accepted eventually, with probability one. -/
theorem C54_accepted {M S : ℝ} (hS : 0 < S) (hSM : S ≤ M) :
    uniforms {us | ∃ k, FirstAccepted (S / M) us k} = 1 := by
  refine le_antisymm MeasureTheory.prob_le_one ?_
  have h := C54_distribution hS hSM le_rfl
  rw [mul_zero, neg_zero, Real.exp_zero, ENNReal.ofReal_one] at h
  rw [← h]
  exact MeasureTheory.measure_mono fun us ⟨k, hk, _⟩ => ⟨k, hk⟩

/-- The numbers drawn one after another from a generator state. -/
noncomputable def drawn (g k : ℕ) : ℝ := (Rng.canonical (Rng.next^[2 * k] g)).1

/-- Wherever the particle goes in the cell with material `m`, the majorant cross section per unit
length is `M` and the total cross section is the fraction `a` of it. -/
structure SameEverywhere (p : Particle) (m : Material) (M a : ℝ) : Prop where
  cell : ∃ c, p.cell = some c ∧ c.material = some m
  rates : ∀ x g e, ∃ maj tot, maj ≠ 0 ∧
    m.getMicroscopicMajorant { p with position := x, rng := g, event := e } = .ok maj ∧
    m.getMicroscopicTotal { p with position := x, rng := g, event := e } = .ok tot ∧
    m.numberDensity * maj = M ∧ tot / maj = a

/-- The particle after `j` rounds without collision. -/
noncomputable def afterRounds (p : Particle) (M : ℝ) (j : ℕ) : Particle :=
  { p with
    position := along p.position p.direction (∑ i ∈ range j, roundLength M (drawn p.rng) i)
    rng := Rng.next^[4 * j] p.rng
    event := if j = 0 then p.event else .virtualCollision }

theorem along_along (o d : Point) (s t : ℝ) : along (along o d s) d t = along o d (s + t) := by
  unfold along
  simp only [Point.mk.injEq]
  refine ⟨?_, ?_, ?_⟩ <;> ring

theorem stream_no_effects {p : Particle} (he : p.indirectEffects = []) (method : Method) (t : ℝ) :
    p.stream method ((t : ℝ) : WithTop ℝ) =
      .ok { p with position := along p.position p.direction t } := by
  change (streamEffects method p t p.indirectEffects >>= fun effects => Except.ok _) = _
  rw [he]
  simp only [streamEffects, bind, Except.bind, smul_eq_along]

/-- **C54** What the code does in round `j` when no surface is nearer than the sampled distance:
it draws a length with the majorant rate, then either lets a collision happen at its end, if the
next number is below the fraction, or continues from there. -/
theorem C54_round {p : Particle} {m : Material} {M a : ℝ} (h : SameEverywhere p m M a)
    (hM : 0 < M) (he : p.indirectEffects = []) (fuel : ℕ) (w : World) {c : Cell}
    (hc : p.cell = some c) {j : ℕ} {s : SurfaceObj} {ds : WithTop ℝ}
    (hns : c.nearestSurface (afterRounds p M j).position p.direction = .ok (s, ds))
    (hds : ((roundLength M (drawn p.rng) j : ℝ) : WithTop ℝ) ≤ ds) :
    transportStep .cellDeltaTracking fuel w (afterRounds p M j) =
      if drawn p.rng (2 * j + 1) < a then
        collide .cellDeltaTracking fuel
          { afterRounds p M j with rng := Rng.next^[4 * (j + 1)] p.rng }
          ((roundLength M (drawn p.rng) j : ℝ) : WithTop ℝ)
      else .ok (afterRounds p M (j + 1)) := by
  obtain ⟨⟨c', hc', hmat⟩, hr⟩ := h
  rw [hc] at hc'
  cases hc'
  set q := afterRounds p M j with hq
  have hg1 : (Rng.canonical q.rng).2 = Rng.next^[2 * (2 * j + 1)] p.rng := by
    have : (Rng.canonical q.rng).2 = Rng.next^[2] (Rng.next^[4 * j] p.rng) := rfl
    rw [this, ← Function.iterate_add_apply]
    congr 1
    ring
  have hg2 : (Rng.canonical (Rng.canonical q.rng).2).2 = Rng.next^[4 * (j + 1)] p.rng := by
    rw [hg1]
    have : (Rng.canonical (Rng.next^[2 * (2 * j + 1)] p.rng)).2 =
      Rng.next^[2] (Rng.next^[2 * (2 * j + 1)] p.rng) := rfl
    rw [this, ← Function.iterate_add_apply]
    congr 1
    ring
  have hu0 : (Rng.canonical q.rng).1 = drawn p.rng (2 * j) := by
    unfold drawn
    rw [hq]
    simp only [afterRounds]
    rw [show 2 * (2 * j) = 4 * j by ring]
  have hqc : q.cell = some c := hc
  obtain ⟨maj, tot, hmaj, h1, h2, h3, h4⟩ := hr q.position q.rng q.event
  have hq' : ({ p with position := q.position, rng := q.rng, event := q.event } : Particle) = q :=
    rfl
  rw [hq'] at h1
  have hflight : sampleFlight .cellDeltaTracking q =
      .ok (((roundLength M (drawn p.rng) j : ℝ) : WithTop ℝ),
        { q with rng := (Rng.canonical q.rng).2 }) := by
    unfold sampleFlight collisionDensity Particle.getCell
    rw [hqc]
    simp only [bind, Except.bind, hmat, h1, noexcept_ok, h3, Rng.exponential, Rng.exponentialOf]
    rw [if_neg hM.ne', hu0]
    rfl
  obtain ⟨maj', tot', hmaj', h1', h2', h3', h4'⟩ := hr q.position (Rng.canonical q.rng).2 q.event
  have hgc : ({ q with rng := (Rng.canonical q.rng).2 } : Particle).getCell = .ok c :=
    Particle.getCell_ok.2 hqc
  have hacc : acceptance { q with rng := (Rng.canonical q.rng).2 } = .ok a := by
    unfold acceptance
    rw [hgc]
    simp only [bind, Except.bind, hmat]
    have hq'' : ({ p with
        position := q.position, rng := (Rng.canonical q.rng).2, event := q.event } : Particle) =
      { q with rng := (Rng.canonical q.rng).2 } := rfl
    rw [hq''] at h1' h2'
    rw [h1', h2']
    simp only
    rw [if_neg hmaj', h4']
  change deltaStep fuel w q = _
  unfold deltaStep
  rw [hflight]
  simp only [bind, Except.bind]
  rw [hgc]
  simp only
  have hns' : c.nearestSurface q.position q.direction = .ok (s, ds) := hns
  rw [hns']
  simp only
  rw [if_neg (not_lt.2 hds), hacc]
  simp only
  have hu1 : (Rng.canonical (Rng.canonical q.rng).2).1 = drawn p.rng (2 * j + 1) := by
    rw [hg1]
    rfl
  have hb : Rng.bernoulli a (Rng.canonical q.rng).2 =
      (decide (drawn p.rng (2 * j + 1) < a), Rng.next^[4 * (j + 1)] p.rng) := by
    rw [← hu1, ← hg2]
    rfl
  by_cases hlt : drawn p.rng (2 * j + 1) < a
  · rw [decide_eq_true hlt] at hb
    simp only [hb]
    rw [if_pos trivial, if_pos hlt]
  · rw [decide_eq_false hlt] at hb
    simp only [hb]
    simp only [Bool.false_eq_true, if_false]
    rw [if_neg hlt]
    have heq : ({ q with rng := Rng.next^[4 * (j + 1)] p.rng } : Particle).indirectEffects = [] :=
      he
    rw [stream_no_effects heq]
    simp only
    congr 1
    rw [hq]
    unfold afterRounds
    simp only [along_along, Finset.sum_range_succ]
    rw [if_neg (by omega)]

/-- **C54** As long as no surface is nearer than the sampled distances, the code passes through
rounds without collision until the first accepted one and lets the particle collide at the sum of
the distances. -/
theorem C54_rounds {p : Particle} {m : Material} {M a : ℝ} (h : SameEverywhere p m M a)
    (hM : 0 < M) (he : p.indirectEffects = []) (fuel : ℕ) (w : World) {c : Cell}
    (hc : p.cell = some c) {k : ℕ} (hk : FirstAccepted a (drawn p.rng) k)
    (hgeo : ∀ j ≤ k, ∃ s ds,
      c.nearestSurface (afterRounds p M j).position p.direction = .ok (s, ds) ∧
        ((roundLength M (drawn p.rng) j : ℝ) : WithTop ℝ) ≤ ds) :
    afterRounds p M 0 = p ∧
    (∀ j < k, transportStep .cellDeltaTracking fuel w (afterRounds p M j) =
      .ok (afterRounds p M (j + 1))) ∧
    (∀ j < k, (afterRounds p M (j + 1)).event = .virtualCollision) ∧
    ∀ p', transportStep .cellDeltaTracking fuel w (afterRounds p M k) = .ok p' →
      (p'.event = .scatter ∨ p'.event = .capture ∨ p'.event = .fission) ∧
      p'.position = along p.position p.direction
        (∑ j ∈ range (k + 1), roundLength M (drawn p.rng) j) := by
  refine ⟨?_, ?_, ?_, ?_⟩
  · unfold afterRounds along
    simp
  · intro j hj
    obtain ⟨s, ds, h1, h2⟩ := hgeo j hj.le
    rw [C54_round h hM he fuel w hc h1 h2, if_neg (not_lt.2 (hk.1 j hj))]
  · intro j _
    unfold afterRounds
    simp
  · intro p' hp'
    obtain ⟨s, ds, h1, h2⟩ := hgeo k le_rfl
    rw [C54_round h hM he fuel w hc h1 h2, if_pos hk.2] at hp'
    obtain ⟨t, ht, hpos, _, _, hev, _⟩ := collide_ok hp'
    rw [WithTop.coe_inj] at ht
    refine ⟨hev, ?_⟩
    rw [hpos, ← ht]
    simp only [afterRounds, along_along, Finset.sum_range_succ]

/-- A neutron in a cell that is 300 K everywhere, though it may be up to 600 K. -/
noncomputable def evenNeutron : Particle where
  indirectEffects := []
  secondaries := []
  position := ⟨0, 0, 0⟩
  direction := ⟨1, 0, 0⟩
  energy := .continuous 1
  cell := some ⟨"c", [(⟨0, "s", .planeX (-1)⟩, false)],
    some ⟨"m", [(capturer 2 1, 1)], 1⟩, .linear 600 300 ⟨0, 0, 0⟩ 300⟩
  rng := 1
  type := .neutron
  event := .birth
  currentSurface := none

/-- Instance of `SameEverywhere`: half of the tentative collisions happen. -/
theorem evenNeutron_same : SameEverywhere evenNeutron ⟨"m", [(capturer 2 1, 1)], 1⟩ 2 (1 / 2) where
  cell := ⟨_, rfl, rfl⟩
  rates := by
    intro x g e
    set q : Particle := { evenNeutron with position := x, rng := g, event := e } with hq
    have hth : Thermal q 1 300 600 := {
      energy := rfl
      cell := ⟨_, rfl, by simp [ScalarField.at', Point.dot], rfl⟩
      positive := by norm_num
      nonneg := by norm_num
      bound := by norm_num }
    have hT : (capturer 2 1).getTotal q = .ok 1 := by
      unfold Nuclide.getTotal Nuclide.xsAt capturer
      simp only [bind, Except.bind, Interaction.getTotal]
      unfold Continuous.getTotal
      simp only [(temperature_of hth).1, bind, Except.bind,
        Continuous.anyModifies, ContinuousReaction.modifiesTotal]
      have : ContinuousEvaluation.isValid ⟨[(1, 1)], 300⟩ 300 = true := by
        unfold ContinuousEvaluation.isValid temperatureTolerance
        norm_num
      rw [this]
      simp only [Bool.false_eq_true, if_false, Bool.not_false, Bool.true_and, if_true]
      unfold ContinuousReaction.tabulated
      simp only [hth.energy, Energy.getContinuous, bind, Except.bind, one_entry_at, noexcept_ok]
    have hM : (capturer 2 1).getMajorant q = .ok 2 := by
      unfold Nuclide.getMajorant Nuclide.xsAt capturer
      simp only [bind, Except.bind, Interaction.getMajorant]
      unfold Continuous.getMajorant
      simp only [(temperature_of hth).2, bind, Except.bind,
        Continuous.anyModifies, ContinuousReaction.modifiesTotal]
      have : ContinuousEvaluation.isValid ⟨[(1, 1)], 300⟩ 600 = false := by
        unfold ContinuousEvaluation.isValid temperatureTolerance
        norm_num
      rw [this]
      simp only [Bool.false_eq_true, if_false, Bool.not_false, Bool.and_false]
      unfold sumLoop sumLoop ContinuousReaction.getMajorant ContinuousReaction.tabulated
      simp only [hth.energy, Energy.getContinuous, bind, Except.bind, one_entry_at, noexcept_ok,
        zero_add]
    have hS := (C23_weighted_mean ⟨"m", [(capturer 2 1, 1)], 1⟩ q (fun _ => 1)).1
      (by intro x hx; rw [List.mem_singleton.1 hx]; exact hT)
    have hM' := (C23_weighted_mean ⟨"m", [(capturer 2 1, 1)], 1⟩ q (fun _ => 2)).2
      (by intro x hx; rw [List.mem_singleton.1 hx]; exact hM)
    simp only [List.map_cons, List.map_nil, List.sum_cons, List.sum_nil, one_mul, add_zero]
      at hS hM'
    exact ⟨2, 1, by norm_num, hM', hS, by norm_num, by norm_num⟩

/-- Instance of `C54_distribution`: with half of the tentative collisions happening. -/
example : uniforms {us | LongerThan 2 (1 / 2) us (Real.log 2)} = ENNReal.ofReal (1 / 2) := by
  rw [C54_distribution (M := 2) (S := 1) (by norm_num) (by norm_num) (Real.log_nonneg (by norm_num)),
    one_mul, Real.exp_neg, Real.exp_log (by norm_num)]
  norm_num

/-- Instance of `C54_rounds`: from generator state 1 the first tentative collision is rejected and
the second one accepted; the only surface is behind the neutron. -/
example (fuel : ℕ) (w : World) :
    transportStep .cellDeltaTracking fuel w evenNeutron = .ok (afterRounds evenNeutron 2 1) ∧
    ∀ p', transportStep .cellDeltaTracking fuel w (afterRounds evenNeutron 2 1) = .ok p' →
      p'.position = along ⟨0, 0, 0⟩ ⟨1, 0, 0⟩
        (∑ j ∈ range 2, roundLength 2 (drawn 1) j) := by
  have d1 : (1 / 2 : ℝ) ≤ drawn 1 1 := by
    have e1 : Rng.next (Rng.next^[2] 1) = 1291394886 := by decide
    have e2 : Rng.next 1291394886 = 1914720637 := by decide
    change (1 / 2 : ℝ) ≤ (Rng.canonical (Rng.next^[2] 1)).1
    unfold Rng.canonical Rng.range
    simp only [e1, e2]
    norm_num
  have d3 : drawn 1 3 < 1 / 2 := by
    have e1 : Rng.next (Rng.next^[6] 1) = 1105902161 := by decide
    have e2 : Rng.next 1105902161 = 854716505 := by decide
    change (Rng.canonical (Rng.next^[6] 1)).1 < 1 / 2
    unfold Rng.canonical Rng.range
    simp only [e1, e2]
    norm_num
  have hv : ∀ n, Rng.Valid (Rng.next^[n] 1) := fun n => Rng.valid_iterate ⟨by norm_num, by norm_num⟩ n
  have hl : ∀ j, 0 ≤ roundLength 2 (drawn 1) j := fun j =>
    length_nonneg (by norm_num) (Rng.canonical_pos (hv _)).le (Rng.canonical_lt_one (hv _))
  have hfirst : FirstAccepted (1 / 2) (drawn evenNeutron.rng) 1 := by
    refine ⟨?_, d3⟩
    intro j hj
    have : j = 0 := by omega
    subst this
    exact d1
  obtain ⟨h0, h1, _, h2⟩ := C54_rounds evenNeutron_same (by norm_num) rfl fuel w rfl hfirst (by
    intro j _
    refine ⟨_, _, rfl, ?_⟩
    have hs : 0 ≤ ∑ i ∈ range j, roundLength 2 (drawn 1) i := Finset.sum_nonneg fun i _ => hl i
    have : Surface.distance (.planeX (-1)) (afterRounds evenNeutron 2 j).position
        evenNeutron.direction = ⊤ := by
      refine if_neg ?_
      simp only [afterRounds, evenNeutron, along, Point.dot, mul_one, mul_zero, add_zero, div_one,
        zero_add]
      linarith
    exact le_top.trans_eq this.symm)
  refine ⟨?_, fun p' hp' => (h2 p' hp').2⟩
  have := h1 0 (by omega)
  rwa [h0] at this

end Minimc.Props
