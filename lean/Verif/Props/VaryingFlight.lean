import Verif.Lemmas.VaryingFlight
import Verif.Props.Acceptance

/-! # Property C91: flights in delta tracking through a cell that is not evenly warm -/

namespace Minimc.Props

open Classical Spec Finset MeasureTheory

/-- Along the particle's path, up to distance `L`, the majorant is `M` collisions per unit length
everywhere and the total is `S x` at distance `x`. -/
def TotalAlong (p : Particle) (M : ℝ) (S : ℝ → ℝ) (L : ℝ) : Prop :=
  ∃ c m, p.cell = some c ∧ c.material = some m ∧ ∀ x, 0 ≤ x → x ≤ L →
    ∃ majorant total,
      m.getMicroscopicMajorant { p with position := along p.position p.direction x } = .ok majorant ∧
      m.getMicroscopicTotal { p with position := along p.position p.direction x } = .ok total ∧
      m.numberDensity * majorant = M ∧ m.numberDensity * total = S x

/-- From any distance `x` up to `L`, a step of the code leads the particle to a tentative collision
sampled with rate `M`; a tentative collision at distance `y` is real exactly when the second number
drawn is below `r x y`. -/
def DecidedBy (p : Particle) (M : ℝ) (r : ℝ → ℝ → ℝ) (L : ℝ) : Prop :=
  ∀ (fuel : ℕ) (w : World) (x l : ℝ) (q p' : Particle), 0 ≤ x → x ≤ L →
    q = { p with
      position := along p.position p.direction x, rng := q.rng, event := q.event } →
    l = -Real.log (1 - drawn q.rng 0) / M → Unobstructed q l →
    transportStep .cellDeltaTracking fuel w q = .ok p' →
    p'.position = along p.position p.direction (x + l) ∧
    (p'.event ≠ .virtualCollision ↔ drawn q.rng 1 < r x (x + l))

/-- **C91, the full statement.**  The chance to fly further than `t` is the exponential of minus the
number of collisions expected up to there. -/
def FlightsFollowTotal : Prop :=
  ∀ (p : Particle) (M : ℝ) (S : ℝ → ℝ) (L t : ℝ) (r : ℝ → ℝ → ℝ), 0 < M → TotalAlong p M S L →
    Measurable S → (∀ x, 0 ≤ S x) → (∀ x, S x ≤ M) → {x | ¬ ContinuousAt S x}.Countable →
    0 ≤ t → t ≤ L → DecidedBy p M r L →
    uniforms {us | Undisturbed r M us t} = ENNReal.ofReal (unharmed S t)

theorem rateAlong {p : Particle} {M : ℝ} {S : ℝ → ℝ} {L : ℝ} (h : TotalAlong p M S L) (hM : 0 < M)
    {x : ℝ} (hx : 0 ≤ x) (hL : x ≤ L) {q : Particle}
    (hq : q = { p with
      position := along p.position p.direction x, rng := q.rng, event := q.event }) :
    TentativeRate q M ∧ RatioAt q q.position (S x / M) := by
  obtain ⟨c, m, hc, hm, hr⟩ := h
  obtain ⟨maj, tot, h1, h2, h3, h4⟩ := hr x hx hL
  have hcq : q.cell = some c := by rw [hq]; exact hc
  have hpos : q.position = along p.position p.direction x := by rw [hq]
  have e1 : m.getMicroscopicMajorant q = .ok maj := by
    rw [← h1]
    refine m.getMicroscopicMajorant_congr ?_ ?_ ?_
    · rw [hq]
    · rw [hq]
    · rw [hq]
      rfl
  have e2 : m.getMicroscopicTotal q = .ok tot := by
    rw [← h2]
    refine m.getMicroscopicTotal_congr ?_ ?_ ?_
    · rw [hq]
    · rw [hq]
    · rw [hq]
      rfl
  have hne : maj ≠ 0 := by
    rintro rfl
    rw [mul_zero] at h3
    exact hM.ne h3
  have hden : m.numberDensity ≠ 0 := by
    intro h0
    rw [h0, zero_mul] at h3
    exact hM.ne h3
  refine ⟨⟨c, m, maj, hcq, hm, e1, h3.symm⟩, ⟨c, m, tot, maj, hcq, hm, e2, e1, hne, ?_⟩⟩
  rw [← h3, ← h4, mul_div_mul_left _ _ hden]

/-- **C91** The code judges each tentative collision by the cross section where the tentative flight
started. -/
theorem C91_rule {p : Particle} {M : ℝ} {S : ℝ → ℝ} {L : ℝ} (hM : 0 < M)
    (h : TotalAlong p M S L) : DecidedBy p M (fun x _ => S x / M) L := by
  intro fuel w x l q p' hx hL hq hl hfree hp'
  obtain ⟨hrate, hratio⟩ := rateAlong h hM hx hL hq
  obtain ⟨h1, h2, _⟩ := C63_ratio_at_start hrate hM hl hfree hratio hp'
  refine ⟨?_, h2⟩
  rw [h1]
  have hpos : q.position = along p.position p.direction x := by rw [hq]
  have hdir : q.direction = p.direction := by rw [hq]
  rw [hpos, hdir, along_along]

theorem drawn_shift (g j k : ℕ) : drawn (Rng.next^[4 * j] g) k = drawn g (2 * j + k) := by
  unfold drawn
  rw [← Function.iterate_add_apply]
  congr 3
  ring

/-- **C91** The rounds of the code: it passes tentative collisions until the first real one by this
rule, and the particle collides there; it has flown further than `t` exactly when no tentative
collision up to `t` is real. -/
theorem C91_rounds {p : Particle} {M : ℝ} {S : ℝ → ℝ} {L : ℝ} (hM : 0 < M)
    (h : TotalAlong p M S L) (he : p.indirectEffects = []) (hv : Rng.Valid p.rng)
    (fuel : ℕ) (w : World) {k : ℕ}
    (hk : FirstReal (fun x _ => S x / M) M (drawn p.rng) k) (hL : passed M (drawn p.rng) k ≤ L)
    (hfree : ∀ j ≤ k, Unobstructed (afterRounds p M j) (roundLength M (drawn p.rng) j)) :
    (∀ j < k, transportStep .cellDeltaTracking fuel w (afterRounds p M j) =
      .ok (afterRounds p M (j + 1))) ∧
    (∀ p', transportStep .cellDeltaTracking fuel w (afterRounds p M k) = .ok p' →
      p'.event ≠ .virtualCollision ∧
      p'.position = along p.position p.direction (passed M (drawn p.rng) (k + 1))) ∧
    ∀ t, Undisturbed (fun x _ => S x / M) M (drawn p.rng) t ↔ t < passed M (drawn p.rng) (k + 1) := by
  have hval : ∀ n, Rng.Valid (Rng.next^[n] p.rng) := fun n => Rng.valid_iterate hv n
  have hunit : ∀ n, drawn p.rng n ∈ Set.Ico (0 : ℝ) 1 := fun n =>
    ⟨(Rng.canonical_pos (hval _)).le, Rng.canonical_lt_one (hval _)⟩
  have hlen : ∀ j, 0 ≤ roundLength M (drawn p.rng) j := fun j =>
    length_nonneg hM (hunit _).1 (hunit _).2
  have hmono : Monotone (passed M (drawn p.rng)) := by
    refine monotone_nat_of_le_succ fun n => ?_
    unfold passed
    rw [Finset.sum_range_succ]
    linarith [hlen n]
  have hstep : ∀ j ≤ k, transportStep .cellDeltaTracking fuel w (afterRounds p M j) =
      if drawn p.rng (2 * j + 1) < S (passed M (drawn p.rng) j) / M then
        collide .cellDeltaTracking fuel
          { afterRounds p M j with rng := Rng.next^[4] (afterRounds p M j).rng }
          ((roundLength M (drawn p.rng) j : ℝ) : WithTop ℝ)
      else .ok (afterRounds p M (j + 1)) := by
    intro j hj
    obtain ⟨hrate, hratio⟩ := rateAlong (q := afterRounds p M j) h hM
      (passed_nonneg hM hunit j) ((hmono hj).trans hL) rfl
    have h0 : roundLength M (drawn p.rng) j =
        -Real.log (1 - drawn (afterRounds p M j).rng 0) / M := by
      change _ = -Real.log (1 - drawn (Rng.next^[4 * j] p.rng) 0) / M
      rw [drawn_shift]
      rfl
    have h1 : drawn (afterRounds p M j).rng 1 = drawn p.rng (2 * j + 1) := drawn_shift p.rng j 1
    rw [deltaStep_decides fuel w hrate hM h0 (hfree j hj) hratio, h1]
    split_ifs with hlt
    · rfl
    · rw [stream_no_effects (p := { afterRounds p M j with rng := _ }) he]
      change Except.ok _ = Except.ok _
      congr 1
      unfold afterRounds
      simp only [along_along, Finset.sum_range_succ, ← Function.iterate_add_apply]
      rw [if_neg (by omega), show 4 + 4 * j = 4 * (j + 1) by ring]
  refine ⟨fun j hj => ?_, fun p' hp' => ?_, fun t => ⟨fun hu => ?_, fun hu j hj => ?_⟩⟩
  · rw [hstep j hj.le, if_neg (not_lt.2 (hk.1 j hj))]
  · rw [hstep k le_rfl, if_pos hk.2] at hp'
    obtain ⟨t, ht, hpos, _, _, hev, _⟩ := collide_ok hp'
    rw [WithTop.coe_inj] at ht
    refine ⟨fun hvc => ?_, ?_⟩
    · rw [hvc] at hev
      rcases hev with hev | hev | hev <;> cases hev
    · rw [hpos, ← ht]
      unfold passed
      simp only [afterRounds, along_along, Finset.sum_range_succ]
  · by_contra hle
    exact absurd hk.2 (not_lt.2 (hu k (not_lt.1 hle)))
  · refine hk.1 j ?_
    by_contra hjk
    have := hmono (show k + 1 ≤ j + 1 by omega)
    linarith

theorem unharmed_eq {S : ℝ → ℝ} {M : ℝ} (hM : 0 < M) (t : ℝ) :
    unharmed S t = attenuated (fun x => S x / M) M t 0 := by
  unfold unharmed attenuated
  rw [intervalIntegral.integral_div, mul_div_cancel₀ _ hM.ne']

theorem undisturbed_chance (r : ℝ → ℝ → ℝ) (M t : ℝ) :
    uniforms {us | Undisturbed r M us t} = ENNReal.ofReal (chance r M t 0) := by
  rw [undisturbed_iff, chance, ENNReal.ofReal_toReal (measure_ne_top _ _)]

section
variable {M : ℝ} {S : ℝ → ℝ} (hM : 0 < M) (hS : Measurable S) (h0 : ∀ x, 0 ≤ S x)
  (h1 : ∀ x, S x ≤ M)
include hM hS h0 h1

theorem ratioProfile (hd : {x | ¬ ContinuousAt S x}.Countable) :
    (Measurable fun x => S x / M) ∧ (∀ x, 0 ≤ S x / M) ∧ (∀ x, S x / M ≤ 1) ∧
    {x | ¬ ContinuousAt (fun x => S x / M) x}.Countable := by
  refine ⟨hS.div_const M, fun x => div_nonneg (h0 x) hM.le, fun x => (div_le_one hM).2 (h1 x), ?_⟩
  refine hd.mono fun x (hx : ¬ ContinuousAt (fun x => S x / M) x) => ?_
  exact fun hc : ContinuousAt S x => hx (hc.div_const M)

/-- **C91** Judged by the cross section at the place of the tentative collision, flights would have
the right length. -/
theorem C91_law (hd : {x | ¬ ContinuousAt S x}.Countable) {t : ℝ} (ht : 0 ≤ t) :
    uniforms {us | Undisturbed (fun _ y => S y / M) M us t} = ENNReal.ofReal (unharmed S t) := by
  obtain ⟨ha, ha0, ha1, hd'⟩ := ratioProfile hM hS h0 h1 hd
  have heq := fun b (hb : b ∈ Set.Icc 0 t) => attenuated_equation ha ha0 ha1 hd' hM hb.2
  have hmem : (0 : ℝ) ∈ Set.Icc 0 t := ⟨le_rfl, ht⟩
  have hr : Measurable fun q : ℝ × ℝ => (fun _ y => S y / M) q.1 q.2 := ha.comp measurable_snd
  have hm := (continuous_attenuated ha ha0 ha1 M t).measurable
  rw [undisturbed_chance, unharmed_eq hM]
  congr 1
  refine le_antisymm ?_ ?_
  · exact chance_le hr (fun _ y => ha0 y) (fun _ y => ha1 y) hM hm (C := 1)
      (fun y hy => attenuated_bounds ha0 hM hy.2) (fun b hb => (heq b hb).ge) 0 hmem
  · exact le_chance hr (fun _ y => ha0 y) (fun _ y => ha1 y) hM hm (C := 1)
      (fun y hy => attenuated_bounds ha0 hM hy.2) (fun b hb => (heq b hb).le) 0 hmem

/-- **C91** Where the cross section grows along the path, particles fly too far. -/
theorem C91_too_far (hd : {x | ¬ ContinuousAt S x}.Countable) {t : ℝ} (ht : 0 ≤ t)
    (hup : MonotoneOn S (Set.Icc 0 t)) :
    ENNReal.ofReal (unharmed S t) ≤ uniforms {us | Undisturbed (fun x _ => S x / M) M us t} := by
  obtain ⟨ha, ha0, ha1, hd'⟩ := ratioProfile hM hS h0 h1 hd
  rw [undisturbed_chance, unharmed_eq hM]
  refine ENNReal.ofReal_le_ofReal (attenuated_le_chance ha ha0 ha1 hM hd' (b₀ := 0) ?_ 0 ⟨le_rfl, ht⟩)
  exact fun x hx y hy hxy => div_le_div_of_nonneg_right (hup hx hy hxy) hM.le

/-- **C91** The chance is strictly too large as soon as the cross section has grown anywhere
before `t`. -/
theorem C91_strictly_too_far (hd : {x | ¬ ContinuousAt S x}.Countable) {x t : ℝ} (hx : 0 ≤ x)
    (hxt : x < t) (hup : MonotoneOn S (Set.Icc 0 t)) (hlt : S 0 < S x) :
    ENNReal.ofReal (unharmed S t) < uniforms {us | Undisturbed (fun x _ => S x / M) M us t} := by
  obtain ⟨ha, ha0, ha1, hd'⟩ := ratioProfile hM hS h0 h1 hd
  rw [undisturbed_chance, unharmed_eq hM]
  have h2 := attenuated_lt_chance ha ha0 ha1 hM hd' (b := 0) (x := x) (t := t)
    (fun x hx y hy hxy => div_le_div_of_nonneg_right (hup hx hy hxy) hM.le) hx hxt
    (div_lt_div_of_pos_right hlt hM)
  exact (ENNReal.ofReal_lt_ofReal_iff ((Real.exp_pos _).trans h2)).2 h2

/-- **C91** Where the cross section falls along the path, particles do not fly far enough. -/
theorem C91_too_short (hd : {x | ¬ ContinuousAt S x}.Countable) {t : ℝ} (ht : 0 ≤ t)
    (hdown : AntitoneOn S (Set.Icc 0 t)) :
    uniforms {us | Undisturbed (fun x _ => S x / M) M us t} ≤ ENNReal.ofReal (unharmed S t) := by
  obtain ⟨ha, ha0, ha1, hd'⟩ := ratioProfile hM hS h0 h1 hd
  rw [undisturbed_chance, unharmed_eq hM]
  refine ENNReal.ofReal_le_ofReal (chance_le_attenuated ha ha0 ha1 hM hd' (b₀ := 0) ?_ 0 ⟨le_rfl, ht⟩)
  exact fun x hx y hy hxy => div_le_div_of_nonneg_right (hdown hx hy hxy) hM.le

/-- **C91, partial**: the full statement where the cross section is the same all along the path.
Missing: paths along which it changes, for which it is false (`C91_violated`). -/
theorem C91_even_partial (hd : {x | ¬ ContinuousAt S x}.Countable) {t : ℝ} (ht : 0 ≤ t)
    (heven : ∀ x ∈ Set.Icc 0 t, S x = S 0) :
    uniforms {us | Undisturbed (fun x _ => S x / M) M us t} = ENNReal.ofReal (unharmed S t) := by
  refine le_antisymm (C91_too_short hM hS h0 h1 hd ht ?_) (C91_too_far hM hS h0 h1 hd ht ?_)
  · exact fun x hx y hy _ => by rw [heven x hx, heven y hy]
  · exact fun x hx y hy _ => by rw [heven x hx, heven y hy]

end

/-- A cross section that jumps to the majorant at distance `s`. -/
noncomputable def jump (q M s : ℝ) (x : ℝ) : ℝ := if x < s then q * M else M

theorem jump_meets {q M s : ℝ} (hM : 0 < M) (h0 : 0 ≤ q) (h1 : q ≤ 1) :
    Measurable (jump q M s) ∧ (∀ x, 0 ≤ jump q M s x) ∧ (∀ x, jump q M s x ≤ M) ∧
    {x | ¬ ContinuousAt (jump q M s) x}.Countable ∧ Monotone (jump q M s) := by
  have hmono : Monotone (jump q M s) := by
    intro x y hxy
    have := mul_le_of_le_one_left hM.le h1
    unfold jump
    split_ifs with h2 h3
    · exact le_rfl
    · exact this
    · linarith
    · exact le_rfl
  refine ⟨hmono.measurable, fun x => ?_, fun x => ?_, hmono.countable_not_continuousAt, hmono⟩
  · unfold jump
    split_ifs
    · exact mul_nonneg h0 hM.le
    · exact hM.le
  · unfold jump
    split_ifs
    · exact mul_le_of_le_one_left hM.le h1
    · exact le_rfl

theorem unharmed_jump {q M s t : ℝ} (hM : 0 < M) (h0 : 0 ≤ q) (h1 : q ≤ 1) (hs : 0 ≤ s)
    (hst : s ≤ t) : unharmed (jump q M s) t = Real.exp (-(q * M * s + M * (t - s))) := by
  obtain ⟨hm, h2, h3, _, _⟩ := jump_meets (s := s) hM h0 h1
  have hint : ∀ x y, IntervalIntegrable (jump q M s) volume x y := fun x y => by
    rw [intervalIntegrable_iff]
    refine Measure.integrableOn_of_bounded (M := M) (by simp) hm.aestronglyMeasurable ?_
    exact Filter.Eventually.of_forall fun z => by
      rw [Real.norm_eq_abs, abs_of_nonneg (h2 z)]; exact h3 z
  have e1 : ∫ x in (0 : ℝ)..s, jump q M s x = q * M * s := by
    rw [intervalIntegral.integral_of_le hs, integral_Ioc_eq_integral_Ioo]
    have : ∫ x in Set.Ioo 0 s, jump q M s x = ∫ _x in Set.Ioo 0 s, q * M :=
      setIntegral_congr_fun measurableSet_Ioo fun x hx => if_pos hx.2
    rw [this, setIntegral_const, Measure.real, Real.volume_Ioo, ENNReal.toReal_ofReal (by linarith),
      smul_eq_mul]
    ring
  have e2 : ∫ x in s..t, jump q M s x = M * (t - s) := by
    have : Set.EqOn (jump q M s) (fun _ => M) (Set.uIcc s t) := by
      intro x hx
      rw [Set.uIcc_of_le hst] at hx
      exact if_neg (not_lt.2 hx.1)
    rw [intervalIntegral.integral_congr this, intervalIntegral.integral_const, smul_eq_mul, mul_comm]
  unfold unharmed
  rw [← intervalIntegral.integral_add_adjacent_intervals (hint 0 s) (hint s t), e1, e2]

/-- **C91** Where the cross section jumps from the fraction `q` of the majorant to the majorant, the
chance to fly further than a distance `d` past the jump is `1 + (1 - q) M d` times too large. -/
theorem C91_jump {q M s d : ℝ} (hM : 0 < M) (h0 : 0 ≤ q) (h1 : q ≤ 1) (hs : 0 < s) (hd : 0 ≤ d) :
    uniforms {us | Undisturbed (fun x _ => jump q M s x / M) M us (s + d)} =
      ENNReal.ofReal ((1 + (1 - q) * M * d) * unharmed (jump q M s) (s + d)) := by
  have hst : s ≤ s + d := by linarith
  have hr : (fun x (_ : ℝ) => jump q M s x / M) = fun x _ => if x < s then q else 1 := by
    funext x _
    unfold jump
    split_ifs
    · rw [mul_div_cancel_right₀ _ hM.ne']
    · rw [div_self hM.ne']
  have hrm : Measurable fun p : ℝ × ℝ => (fun x (_ : ℝ) => if x < s then q else 1) p.1 p.2 :=
    Measurable.ite (measurable_fst measurableSet_Iio) measurable_const measurable_const
  have hr0 : ∀ x y : ℝ, 0 ≤ (fun x (_ : ℝ) => if x < s then q else 1) x y := by
    intro x y
    simp only
    split_ifs
    · exact h0
    · exact zero_le_one
  have hr1 : ∀ x y : ℝ, (fun x (_ : ℝ) => if x < s then q else 1) x y ≤ 1 := by
    intro x y
    simp only
    split_ifs
    · exact h1
    · exact le_rfl
  have hmem : (0 : ℝ) ∈ Set.Icc 0 (s + d) := ⟨le_rfl, by linarith⟩
  have hbound := fun y (hy : y ∈ Set.Icc 0 (s + d)) =>
    steppedChance_bound (q := q) hM h0 h1 hst hy.2
  have heq := fun b (_ : b ∈ Set.Icc 0 (s + d)) =>
    steppedChance_equation (q := q) (M := M) (b := b) hst
  have hm := measurable_steppedChance q M s (s + d)
  rw [undisturbed_chance, hr]
  congr 1
  have hc : chance (fun x (_ : ℝ) => if x < s then q else 1) M (s + d) 0 =
      steppedChance q M s (s + d) 0 := by
    refine le_antisymm ?_ ?_
    · exact chance_le hrm hr0 hr1 hM hm hbound (fun b hb => (heq b hb).ge) 0 hmem
    · exact le_chance hrm hr0 hr1 hM hm hbound (fun b hb => (heq b hb).le) 0 hmem
  rw [hc, unharmed_jump hM h0 h1 hs.le hst]
  unfold steppedChance
  rw [if_pos hs, add_sub_cancel_left, neg_add, Real.exp_add, sub_zero]
  ring_nf

/-- The path of the neutron that is being heated up. -/
theorem heated_total : TotalAlong heatedNeutron (1 / 500) (jump (1 / 2) (1 / 500) 3) 300 := by
  refine ⟨_, _, rfl, rfl, fun x hx hL => ?_⟩
  have hp : along heatedNeutron.position heatedNeutron.direction x = ⟨x, 0, 0⟩ := by
    simp only [along, heatedNeutron, mul_one, mul_zero, zero_add]
  have h := heated_ratio hx hL
  rw [hp]
  refine ⟨2, if x < 3 then 1 else 2, h.2, h.1, by norm_num, ?_⟩
  unfold jump
  split_ifs <;> norm_num

/-- **C91** The full statement does not hold: three hundred centimetres along its path, the neutron
that is being heated up is left without collision more often than it should be. -/
theorem C91_violated : ¬ FlightsFollowTotal := by
  intro h
  obtain ⟨h1, h2, h3, h4, _⟩ := jump_meets (q := 1 / 2) (M := 1 / 500) (s := 3) (by norm_num)
    (by norm_num) (by norm_num)
  have h5 := h heatedNeutron (1 / 500) _ 300 300 _ (by norm_num) heated_total h1 h2 h3 h4
    (by norm_num) le_rfl (C91_rule (by norm_num) heated_total)
  have h6 := C91_jump (q := 1 / 2) (M := 1 / 500) (s := 3) (d := 297) (by norm_num) (by norm_num)
    (by norm_num) (by norm_num) (by norm_num)
  rw [show (3 : ℝ) + 297 = 300 by norm_num, h5] at h6
  have hpos : 0 < unharmed (jump (1 / 2) (1 / 500) 3) 300 := Real.exp_pos _
  have h7 := (ENNReal.ofReal_eq_ofReal_iff hpos.le (by positivity)).1 h6
  norm_num at h7
  linarith

/-- The chance of the neutron to fly past 300 cm is 1.297 times as large as it should be. -/
example : uniforms {us | Undisturbed (fun x _ => jump (1 / 2) (1 / 500) 3 x / (1 / 500)) (1 / 500) us
    (3 + 297)} = ENNReal.ofReal ((1297 / 1000) * Real.exp (-(597 / 1000))) := by
  rw [C91_jump (by norm_num) (by norm_num) (by norm_num) (by norm_num) (by norm_num),
    unharmed_jump (by norm_num) (by norm_num) (by norm_num) (by norm_num) (by norm_num)]
  congr 2
  · norm_num
  · norm_num

/-- Instance of `C91_rule` and `C91_rounds`: from generator state 1 the neutron that is being heated
up passes the first tentative collision, though there every one should be real, and collides at the
second. -/
example (fuel : ℕ) (w : World) :
    DecidedBy heatedNeutron (1 / 500) (fun x _ => jump (1 / 2) (1 / 500) 3 x / (1 / 500)) 300 ∧
    transportStep .cellDeltaTracking fuel w (afterRounds heatedNeutron (1 / 500) 0) =
      .ok (afterRounds heatedNeutron (1 / 500) 1) ∧
    ∀ p', transportStep .cellDeltaTracking fuel w (afterRounds heatedNeutron (1 / 500) 1) = .ok p' →
      p'.position = along ⟨0, 0, 0⟩ ⟨1, 0, 0⟩ (passed (1 / 500) (drawn 1) 2) := by
  have hM : (0 : ℝ) < 1 / 500 := by norm_num
  have hv : Rng.Valid heatedNeutron.rng := ⟨by norm_num [heatedNeutron], by norm_num [heatedNeutron]⟩
  have hval : ∀ n, Rng.Valid (Rng.next^[n] heatedNeutron.rng) := fun n => Rng.valid_iterate hv n
  have hunit : ∀ n, drawn heatedNeutron.rng n ∈ Set.Ico (0 : ℝ) 1 := fun n =>
    ⟨(Rng.canonical_pos (hval _)).le, Rng.canonical_lt_one (hval _)⟩
  have hp0 : passed (1 / 500) (drawn heatedNeutron.rng) 0 = 0 := by simp [passed]
  have hp1 : passed (1 / 500) (drawn heatedNeutron.rng) 1 =
      -Real.log (1 - drawn 1 0) / (1 / 1000 * 2) := by
    simp only [passed, Finset.sum_range_one, roundLength, mul_zero, heatedNeutron]
    norm_num
  obtain ⟨hf1, hf2⟩ := heated_flight
  have hfirst : FirstReal (fun x _ => jump (1 / 2) (1 / 500) 3 x / (1 / 500)) (1 / 500)
      (drawn heatedNeutron.rng) 1 := by
    refine ⟨fun j hj => ?_, ?_⟩
    · obtain rfl : j = 0 := by omega
      simp only [hp0, jump]
      rw [if_pos (by norm_num)]
      have := heated_drawn.1
      calc (1 / 2 * (1 / 500) / (1 / 500) : ℝ) = 1 / 2 := by norm_num
        _ ≤ _ := this
    · simp only [hp1, jump]
      rw [if_neg (not_lt.2 hf1), div_self (by norm_num)]
      exact (hunit _).2
  obtain ⟨h1, h2, _⟩ := C91_rounds hM heated_total rfl hv fuel w hfirst (by rw [hp1]; exact hf2) (by
    intro j _
    refine ⟨_, _, _, rfl, rfl, ?_⟩
    have hs := passed_nonneg hM hunit j
    have : Surface.distance (.planeX (-1)) (afterRounds heatedNeutron (1 / 500) j).position
        (afterRounds heatedNeutron (1 / 500) j).direction = ⊤ := by
      refine if_neg ?_
      simp only [afterRounds, heatedNeutron, along, Point.dot, mul_one, mul_zero, add_zero, div_one,
        zero_add]
      unfold passed at hs
      simp only [heatedNeutron] at hs
      linarith
    exact le_top.trans_eq this.symm)
  exact ⟨C91_rule hM heated_total, h1 0 (by omega), fun p' hp' => (h2 p' hp').2⟩

/-- Instance of `C91_law`, `C91_too_far` and `C91_strictly_too_far`: the path of the neutron. -/
example :
    uniforms {us | Undisturbed (fun _ y => jump (1 / 2) (1 / 500) 3 y / (1 / 500)) (1 / 500) us 300} =
      ENNReal.ofReal (unharmed (jump (1 / 2) (1 / 500) 3) 300) ∧
    ENNReal.ofReal (unharmed (jump (1 / 2) (1 / 500) 3) 300) <
      uniforms {us | Undisturbed (fun x _ => jump (1 / 2) (1 / 500) 3 x / (1 / 500)) (1 / 500) us 300} := by
  obtain ⟨h1, h2, h3, h4, h5⟩ := jump_meets (q := 1 / 2) (M := 1 / 500) (s := 3) (by norm_num)
    (by norm_num) (by norm_num)
  refine ⟨C91_law (by norm_num) h1 h2 h3 h4 (by norm_num), ?_⟩
  refine C91_strictly_too_far (x := 3) (by norm_num) h1 h2 h3 h4 (by norm_num) (by norm_num)
    (h5.monotoneOn _) ?_
  unfold jump
  norm_num

/-- Instance of `C91_too_short`: a cross section that falls towards zero. -/
example : uniforms {us | Undisturbed (fun x _ => Real.exp (-max x 0) / 1) 1 us 2} ≤
    ENNReal.ofReal (unharmed (fun x => Real.exp (-max x 0)) 2) := by
  have hc : _root_.Continuous fun x : ℝ => Real.exp (-max x 0) := by fun_prop
  refine C91_too_short one_pos hc.measurable (fun x => (Real.exp_pos _).le) (fun x => ?_) ?_
    (by norm_num) ?_
  · rw [Real.exp_le_one_iff]
    have := le_max_right x 0
    linarith
  · have : {x | ¬ ContinuousAt (fun x : ℝ => Real.exp (-max x 0)) x} = ∅ := by
      ext x
      simp [hc.continuousAt]
    rw [this]
    exact Set.countable_empty
  · intro x _ y _ hxy
    exact Real.exp_le_exp.2 (neg_le_neg (max_le_max hxy le_rfl))

/-- Instance of `C91_even_partial`: the first three centimetres of the neutron's path. -/
example : uniforms {us | Undisturbed (fun x _ => jump (1 / 2) (1 / 500) 3 x / (1 / 500)) (1 / 500) us 2} =
    ENNReal.ofReal (unharmed (jump (1 / 2) (1 / 500) 3) 2) := by
  obtain ⟨h1, h2, h3, h4, _⟩ := jump_meets (q := 1 / 2) (M := 1 / 500) (s := 3) (by norm_num)
    (by norm_num) (by norm_num)
  refine C91_even_partial (by norm_num) h1 h2 h3 h4 (by norm_num) fun x hx => ?_
  unfold jump
  rw [if_pos (by linarith [hx.2]), if_pos (by norm_num)]

end Minimc.Props
