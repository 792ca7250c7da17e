import Verif.Props.DeltaTracking
import Verif.Spec.Acceptance

/-! # Property C63: which tentative collisions are real -/

namespace Minimc.Props

open Classical Spec

/-- **C63, the full statement.**  A tentative collision is real exactly when the second number drawn
is below the ratio of total and majorant at the place of the tentative collision. -/
def RealByRatioThere : Prop :=
  ∀ (fuel : ℕ) (w : World) (p p' : Particle) (M t r : ℝ), TentativeRate p M → 0 < M →
    t = -Real.log (1 - drawn p.rng 0) / M → Unobstructed p t →
    RatioAt p (along p.position p.direction t) r →
    transportStep .cellDeltaTracking fuel w p = .ok p' →
    (p'.event ≠ .virtualCollision ↔ drawn p.rng 1 < r)

/-- What a step does when no surface comes before the tentative collision. -/
theorem deltaStep_decides (fuel : ℕ) (w : World) {p : Particle} {M t r : ℝ}
    (hrate : TentativeRate p M) (hM : 0 < M) (ht : t = -Real.log (1 - drawn p.rng 0) / M)
    (hfree : Unobstructed p t) (hr : RatioAt p p.position r) :
    transportStep .cellDeltaTracking fuel w p =
      if drawn p.rng 1 < r then
        collide .cellDeltaTracking fuel { p with rng := Rng.next^[4] p.rng } (t : WithTop ℝ)
      else
        (Particle.stream .cellDeltaTracking { p with rng := Rng.next^[4] p.rng }
          (t : WithTop ℝ)).map fun p₁ => { p₁ with event := .virtualCollision } := by
  obtain ⟨c, m, maj, hc, hm, hmaj, rfl⟩ := hrate
  obtain ⟨c', s, ds, hc', hns, hds⟩ := hfree
  rw [hc] at hc'
  cases hc'
  obtain ⟨c', m', tot, maj', hc', hm', htot, hmaj', hne, rfl⟩ := hr
  rw [hc] at hc'
  cases hc'
  rw [hm] at hm'
  cases hm'
  rw [show ({ p with position := p.position } : Particle) = p from rfl] at htot hmaj'
  rw [hmaj] at hmaj'
  cases hmaj'
  have hflight : sampleFlight .cellDeltaTracking p =
      .ok ((t : WithTop ℝ), { p with rng := (Rng.canonical p.rng).2 }) := by
    unfold sampleFlight collisionDensity Particle.getCell
    rw [hc]
    simp only [bind, Except.bind, hm, hmaj, noexcept_ok, Rng.exponential, Rng.exponentialOf]
    rw [if_neg hM.ne', ht]
    rfl
  have hgc : ({ p with rng := (Rng.canonical p.rng).2 } : Particle).getCell = .ok c :=
    Particle.getCell_ok.2 hc
  have hacc : acceptance { p with rng := (Rng.canonical p.rng).2 } = .ok (tot / maj) := by
    unfold acceptance
    rw [hgc]
    simp only [bind, Except.bind, hm]
    have h1 : m.getMicroscopicTotal { p with rng := (Rng.canonical p.rng).2 } = .ok tot :=
      (m.getMicroscopicTotal_congr (p := { p with rng := (Rng.canonical p.rng).2 }) (q := p)
        rfl rfl rfl).trans htot
    have h2 : m.getMicroscopicMajorant { p with rng := (Rng.canonical p.rng).2 } = .ok maj :=
      (m.getMicroscopicMajorant_congr (p := { p with rng := (Rng.canonical p.rng).2 }) (q := p)
        rfl rfl rfl).trans hmaj
    rw [h1, h2]
    simp only
    rw [if_neg hne]
  change deltaStep fuel w p = _
  unfold deltaStep
  rw [hflight]
  simp only [bind, Except.bind]
  rw [hgc]
  simp only
  rw [hns]
  simp only
  rw [if_neg (not_lt.2 hds), hacc]
  simp only
  have hb : Rng.bernoulli (tot / maj) (Rng.canonical p.rng).2 =
      (decide (drawn p.rng 1 < tot / maj), Rng.next^[4] p.rng) := rfl
  by_cases hlt : drawn p.rng 1 < tot / maj
  · rw [decide_eq_true hlt] at hb
    simp only [hb]
    rw [if_pos trivial, if_pos hlt]
  · rw [decide_eq_false hlt] at hb
    simp only [hb]
    simp only [Bool.false_eq_true, if_false]
    rw [if_neg hlt]
    rfl

/-- **C63** The particle flies to the tentative collision; the collision is real exactly when the
second number drawn is below the ratio of total and majorant at the start of the flight, and
otherwise nothing but the position, the generator and the perturbation effects changes. -/
theorem C63_ratio_at_start {fuel : ℕ} {w : World} {p p' : Particle} {M t r : ℝ}
    (hrate : TentativeRate p M) (hM : 0 < M) (ht : t = -Real.log (1 - drawn p.rng 0) / M)
    (hfree : Unobstructed p t) (hr : RatioAt p p.position r)
    (h : transportStep .cellDeltaTracking fuel w p = .ok p') :
    p'.position = along p.position p.direction t ∧
    (p'.event ≠ .virtualCollision ↔ drawn p.rng 1 < r) ∧
    (p'.event = .virtualCollision → p' = { p with
      position := p'.position, rng := Rng.next^[4] p.rng, event := .virtualCollision,
      indirectEffects := p'.indirectEffects }) := by
  rw [deltaStep_decides fuel w hrate hM ht hfree hr] at h
  by_cases hlt : drawn p.rng 1 < r
  · rw [if_pos hlt] at h
    obtain ⟨t', h1, hpos, _, _, hev, _⟩ := collide_ok h
    rw [WithTop.coe_inj] at h1
    refine ⟨by rw [hpos, ← h1], ⟨fun _ => hlt, fun _ hv => ?_⟩, fun hv => ?_⟩
    all_goals rw [hv] at hev; rcases hev with hev | hev | hev <;> cases hev
  · rw [if_neg hlt] at h
    rcases h3 : Particle.stream .cellDeltaTracking { p with rng := Rng.next^[4] p.rng }
      (t : WithTop ℝ) with _ | p₃
    · rw [h3] at h
      cases h
    rw [h3] at h
    cases h
    obtain ⟨t', eff, h1, _, rfl⟩ := Particle.stream_ok h3
    rw [WithTop.coe_inj] at h1
    subst h1
    exact ⟨rfl, ⟨fun hv => absurd rfl hv, fun h => absurd h hlt⟩, fun _ => rfl⟩

/-- **C63, partial**: where the ratio of total and majorant is the same at both ends of the flight,
the collision is real exactly when the second number drawn is below the ratio at the place of the
tentative collision.  Missing: flights along which the ratio changes, for which it is false
(`C63_violated`). -/
theorem C63_ratio_there_partial {fuel : ℕ} {w : World} {p p' : Particle} {M t r : ℝ}
    (hrate : TentativeRate p M) (hM : 0 < M) (ht : t = -Real.log (1 - drawn p.rng 0) / M)
    (hfree : Unobstructed p t) (hthere : RatioAt p (along p.position p.direction t) r)
    (hsame : RatioAt p p.position r)
    (h : transportStep .cellDeltaTracking fuel w p = .ok p') :
    p'.event ≠ .virtualCollision ↔ drawn p.rng 1 < r := by
  have := hthere
  exact (C63_ratio_at_start hrate hM ht hfree hsame h).2.1

/-- **C63** In particular in a cell whose temperature is the same everywhere. -/
theorem C63_constant_temperature {fuel : ℕ} {w : World} {p p' : Particle} {M t r : ℝ} {c : Cell}
    (hc : p.cell = some c) (hT : c.temperature.isConstant = true)
    (hrate : TentativeRate p M) (hM : 0 < M) (ht : t = -Real.log (1 - drawn p.rng 0) / M)
    (hfree : Unobstructed p t) (hthere : RatioAt p (along p.position p.direction t) r)
    (h : transportStep .cellDeltaTracking fuel w p = .ok p') :
    p'.event ≠ .virtualCollision ↔ drawn p.rng 1 < r := by
  refine C63_ratio_there_partial hrate hM ht hfree hthere ?_ h
  obtain ⟨c', m, tot, maj, hc', hm, htot, hmaj, hne, hr⟩ := hthere
  rw [hc] at hc'
  cases hc'
  refine ⟨c, m, tot, maj, hc, hm, ?_, ?_, hne, hr⟩
  · rw [← htot]
    refine m.getMicroscopicTotal_congr rfl rfl ?_
    unfold Particle.temperatureAt Particle.getCell
    rw [hc]
    simp only [bind, Except.bind]
    congr 1
    cases hf : c.temperature with
    | constant b => rfl
    | linear u l g b =>
      rw [hf] at hT
      simp only [ScalarField.isConstant, decide_eq_true_eq] at hT
      simp only [ScalarField.at', Point.dot, hT.1, hT.2.1, hT.2.2, zero_mul]
  · rw [← hmaj]
    refine m.getMicroscopicMajorant_congr rfl rfl ?_
    unfold Particle.temperatureUpper Particle.getCell
    rw [hc]

/-- A nuclide whose total is tabulated for 300 K only; it captures with a cross section of 1 at
300 K and of 2 at the higher temperatures. -/
def hotCapturer : Nuclide :=
  ⟨0, "n", fun _ => some (.continuous ⟨[.capture ⟨[(1, 2)], 600⟩], ⟨[(1, 1)], 300⟩⟩)⟩

/-- A neutron flying from 300 K into hotter parts of its cell. -/
noncomputable def heatedNeutron : Particle where
  indirectEffects := []
  secondaries := []
  position := ⟨0, 0, 0⟩
  direction := ⟨1, 0, 0⟩
  energy := .continuous 1
  cell := some ⟨"c", [(⟨0, "s", .planeX (-1)⟩, false)],
    some ⟨"m", [(hotCapturer, 1)], 1 / 1000⟩, .linear 600 300 ⟨1, 0, 0⟩ 300⟩
  rng := 1
  type := .neutron
  event := .birth
  currentSurface := none

theorem heated_nuclide {x : ℝ} (h0 : 0 ≤ x) (h1 : x ≤ 300) :
    hotCapturer.getTotal { heatedNeutron with position := ⟨x, 0, 0⟩ } =
      .ok (if x < 3 then 1 else 2) ∧
    hotCapturer.getMajorant { heatedNeutron with position := ⟨x, 0, 0⟩ } = .ok 2 := by
  set q : Particle := { heatedNeutron with position := ⟨x, 0, 0⟩ } with hq
  have hth : Thermal q 1 (300 + x) 600 := {
    energy := rfl
    cell := ⟨_, rfl, by simp only [q, ScalarField.at', Point.dot]; ring, rfl⟩
    positive := by norm_num
    nonneg := by linarith
    bound := by linarith }
  have hT : hotCapturer.getTotal q = .ok (if x < 3 then 1 else 2) := by
    unfold Nuclide.getTotal Nuclide.xsAt hotCapturer
    simp only [bind, Except.bind, Interaction.getTotal]
    unfold Continuous.getTotal
    simp only [(temperature_of hth).1, bind, Except.bind,
      Continuous.anyModifies, ContinuousReaction.modifiesTotal]
    have hv : ContinuousEvaluation.isValid ⟨[(1, 1)], 300⟩ (300 + x) = decide (x < 3) := by
      unfold ContinuousEvaluation.isValid temperatureTolerance
      rw [if_neg (by norm_num)]
      congr 1
      rw [div_lt_iff₀ (by norm_num)]
      apply propext
      constructor <;> intro h <;> norm_num at h ⊢ <;> linarith
    rw [hv]
    by_cases hx : x < 3
    · simp only [hx, decide_true, Bool.false_eq_true, if_false, Bool.not_false, Bool.true_and,
        if_true]
      unfold ContinuousReaction.tabulated
      simp only [hth.energy, Energy.getContinuous, bind, Except.bind, one_entry_at, noexcept_ok]
    · simp only [hx, decide_false, Bool.false_eq_true, if_false, Bool.not_false, Bool.and_false]
      unfold sumLoop sumLoop ContinuousReaction.getCrossSection ContinuousReaction.tabulated
      simp only [hth.energy, Energy.getContinuous, bind, Except.bind, one_entry_at, noexcept_ok,
        zero_add]
  have hM : hotCapturer.getMajorant q = .ok 2 := by
    unfold Nuclide.getMajorant Nuclide.xsAt hotCapturer
    simp only [bind, Except.bind, Interaction.getMajorant]
    unfold Continuous.getMajorant
    simp only [(temperature_of hth).2, bind, Except.bind,
      Continuous.anyModifies, ContinuousReaction.modifiesTotal]
    have : ContinuousEvaluation.isValid ⟨[(1, 1)], 300⟩ 600 = false := by
      unfold ContinuousEvaluation.isValid temperatureTolerance
      norm_num
    rw [this]
    simp only [Bool.false_eq_true, if_false, Bool.not_false, Bool.and_false]
    unfold sumLoop sumLoop ContinuousReaction.getMajorant ContinuousReaction.tabulated
    simp only [hth.energy, Energy.getContinuous, bind, Except.bind, one_entry_at, noexcept_ok,
      zero_add]
  exact ⟨hT, hM⟩

/-- Cross sections `x` centimetres away from the start. -/
theorem heated_ratio {x : ℝ} (h0 : 0 ≤ x) (h1 : x ≤ 300) :
    Material.getMicroscopicTotal ⟨"m", [(hotCapturer, 1)], 1 / 1000⟩
      { heatedNeutron with position := ⟨x, 0, 0⟩ } = .ok (if x < 3 then 1 else 2) ∧
    Material.getMicroscopicMajorant ⟨"m", [(hotCapturer, 1)], 1 / 1000⟩
      { heatedNeutron with position := ⟨x, 0, 0⟩ } = .ok 2 := by
  obtain ⟨hT, hM⟩ := heated_nuclide h0 h1
  set q : Particle := { heatedNeutron with position := ⟨x, 0, 0⟩ } with hq
  have hS := (C23_weighted_mean ⟨"m", [(hotCapturer, 1)], 1 / 1000⟩ q (fun _ => if x < 3 then 1 else 2)).1
    (by intro x hx; rw [List.mem_singleton.1 hx]; exact hT)
  have hM' := (C23_weighted_mean ⟨"m", [(hotCapturer, 1)], 1 / 1000⟩ q (fun _ => 2)).2
    (by intro x hx; rw [List.mem_singleton.1 hx]; exact hM)
  simp only [List.map_cons, List.map_nil, List.sum_cons, List.sum_nil, one_mul, add_zero]
    at hS hM'
  exact ⟨hS, hM'⟩

/-- The tentative flight of the neutron is between 3 and 300 centimetres long. -/
theorem heated_flight :
    3 ≤ -Real.log (1 - drawn 1 0) / (1 / 1000 * 2) ∧
    -Real.log (1 - drawn 1 0) / (1 / 1000 * 2) ≤ 300 := by
  have e1 : Rng.next 1 = 48271 := by decide
  have e2 : Rng.next 48271 = 182605794 := by decide
  have hd : (8 / 100 : ℝ) ≤ drawn 1 0 ∧ drawn 1 0 ≤ 9 / 100 := by
    change (8 / 100 : ℝ) ≤ (Rng.canonical 1).1 ∧ (Rng.canonical 1).1 ≤ 9 / 100
    unfold Rng.canonical Rng.range
    simp only [e1, e2]
    norm_num
  set u := drawn 1 0
  have h1 : Real.log (1 - u) ≤ (1 - u) - 1 := Real.log_le_sub_one_of_pos (by linarith)
  have h2 : 1 - (1 - u)⁻¹ ≤ Real.log (1 - u) := Real.one_sub_inv_le_log_of_pos (by linarith)
  have h3 : (1 - u)⁻¹ ≤ (91 / 100)⁻¹ := inv_anti₀ (by norm_num) (by linarith)
  constructor
  · rw [le_div_iff₀ (by norm_num)]
    linarith
  · rw [div_le_iff₀ (by norm_num)]
    norm_num at h3 ⊢
    linarith

theorem heated_drawn : (1 / 2 : ℝ) ≤ drawn 1 1 ∧ drawn 1 1 < 1 := by
  have e1 : Rng.next (Rng.next^[2] 1) = 1291394886 := by decide
  have e2 : Rng.next 1291394886 = 1914720637 := by decide
  change (1 / 2 : ℝ) ≤ (Rng.canonical (Rng.next^[2] 1)).1 ∧ (Rng.canonical (Rng.next^[2] 1)).1 < 1
  unfold Rng.canonical Rng.range
  simp only [e1, e2]
  norm_num

/-- The neutron's flight satisfies the hypotheses of the full statement. -/
theorem heated_meets :
    ∃ t, t = -Real.log (1 - drawn heatedNeutron.rng 0) / (1 / 1000 * 2) ∧
      TentativeRate heatedNeutron (1 / 1000 * 2) ∧ Unobstructed heatedNeutron t ∧
      RatioAt heatedNeutron heatedNeutron.position (1 / 2) ∧
      RatioAt heatedNeutron (along heatedNeutron.position heatedNeutron.direction t) 1 := by
  obtain ⟨h1, h2⟩ := heated_flight
  refine ⟨_, rfl, ⟨_, _, 2, rfl, rfl, (heated_ratio (x := 0) (by norm_num) (by norm_num)).2, rfl⟩,
    ?_, ?_, ?_⟩
  · refine ⟨_, _, _, rfl, rfl, ?_⟩
    have : Surface.distance (.planeX (-1)) heatedNeutron.position heatedNeutron.direction = ⊤ := by
      refine if_neg ?_
      simp only [heatedNeutron, Point.dot, mul_one, mul_zero, add_zero, div_one]
      norm_num
    exact le_top.trans_eq this.symm
  · have h := heated_ratio (x := 0) (by norm_num) (by norm_num)
    rw [if_pos (by norm_num)] at h
    exact ⟨_, _, 1, 2, rfl, rfl, h.1, h.2, by norm_num, by norm_num⟩
  · set t := -Real.log (1 - drawn heatedNeutron.rng 0) / (1 / 1000 * 2) with ht
    have h := heated_ratio (x := t) (le_trans (by norm_num) h1) h2
    rw [if_neg (show ¬ t < 3 from not_lt.2 h1)] at h
    have hp : along heatedNeutron.position heatedNeutron.direction t = ⟨t, 0, 0⟩ := by
      simp only [along, heatedNeutron, mul_one, mul_zero, zero_add]
    refine ⟨_, _, 2, 2, rfl, rfl, ?_, ?_, by norm_num, by norm_num⟩
    · rw [hp]; exact h.1
    · rw [hp]; exact h.2

/-- The step of the neutron does not fail: it passes the place of the tentative collision. -/
theorem heated_passes (fuel : ℕ) (w : World) :
    ∃ p', transportStep .cellDeltaTracking fuel w heatedNeutron = .ok p' ∧
      p'.event = .virtualCollision := by
  obtain ⟨t, ht, hrate, hfree, hr, _⟩ := heated_meets
  rw [deltaStep_decides fuel w hrate (by norm_num) ht hfree hr,
    if_neg (show ¬ drawn heatedNeutron.rng 1 < 1 / 2 from not_lt.2 heated_drawn.1), stream_no_effects rfl]
  exact ⟨_, rfl, rfl⟩

/-- **C63** The full statement does not hold: a neutron that flies to a place where every tentative
collision should be real passes it, because at the start of its flight only half of them were. -/
theorem C63_violated : ¬ RealByRatioThere := by
  intro h
  obtain ⟨t, ht, hrate, hfree, _, hthere⟩ := heated_meets
  obtain ⟨p', hp', hev⟩ := heated_passes 0 ⟨[], [], [], .constant 300, []⟩
  exact ((h 0 ⟨[], [], [], .constant 300, []⟩ heatedNeutron p' _ t 1 hrate (by norm_num) ht hfree hthere hp').2
    heated_drawn.2) hev

/-- Instance of `C63_ratio_at_start`: the neutron that is being heated up. -/
example (fuel : ℕ) (w : World) : ∃ p',
    transportStep .cellDeltaTracking fuel w heatedNeutron = .ok p' ∧
    p'.position = ⟨-Real.log (1 - drawn 1 0) / (1 / 1000 * 2), 0, 0⟩ := by
  obtain ⟨t, ht, hrate, hfree, hr, _⟩ := heated_meets
  obtain ⟨p', hp', _⟩ := heated_passes fuel w
  refine ⟨p', hp', ?_⟩
  rw [(C63_ratio_at_start hrate (by norm_num) ht hfree hr hp').1, ht]
  simp only [along, heatedNeutron, mul_one, mul_zero, zero_add]

/-- Instance of `C63_constant_temperature` and `C63_ratio_there_partial`: half of the tentative
collisions of the neutron in an evenly warm cell are real, this one is not. -/
example (fuel : ℕ) (w : World) (p' : Particle)
    (h : transportStep .cellDeltaTracking fuel w evenNeutron = .ok p') :
    p'.event = .virtualCollision := by
  have hrate : ∀ x : Point, RatioAt evenNeutron x (1 / 2) ∧ TentativeRate evenNeutron 2 := by
    intro x
    obtain ⟨maj, tot, hne, h1, h2, h3, h4⟩ := evenNeutron_same.rates x 1 .birth
    obtain ⟨maj', tot', hne', h1', h2', h3', h4'⟩ := evenNeutron_same.rates ⟨0, 0, 0⟩ 1 .birth
    exact ⟨⟨_, _, tot, maj, rfl, rfl, h2, h1, hne, h4.symm⟩, _, _, maj', rfl, rfl, h1', h3'.symm⟩
  have hfree : Unobstructed evenNeutron (-Real.log (1 - drawn evenNeutron.rng 0) / 2) := by
    refine ⟨_, _, _, rfl, rfl, ?_⟩
    have : Surface.distance (.planeX (-1)) evenNeutron.position evenNeutron.direction = ⊤ := by
      refine if_neg ?_
      simp only [evenNeutron, Point.dot, mul_one, mul_zero, add_zero, div_one]
      norm_num
    exact le_top.trans_eq this.symm
  by_contra hv
  have := (C63_constant_temperature rfl (by simp [ScalarField.isConstant]) (hrate ⟨0, 0, 0⟩).2
    (by norm_num) rfl hfree (hrate _).1 h).1 hv
  exact absurd this (not_lt.2 heated_drawn.1)

end Minimc.Props
