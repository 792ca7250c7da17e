import Verif.Lemmas.GasLimit
import Verif.Lemmas.WalkBins
import Verif.Lemmas.WalkBound

/-! # Scores of neutrons with a continuous energy are measurable and count crossings -/

namespace Minimc

open Classical Spec Props MeasureTheory
open scoped ENNReal

theorem measurable_energyHit (surface : SurfaceObj) (bins : ParticleBins) (i : ℕ) (s : SurfaceObj) :
    Measurable fun q : Direction × ℝ => energyHit surface bins i s q.1 q.2 := by
  unfold energyHit
  refine Measurable.ite ?_ measurable_const measurable_const
  refine (MeasurableSet.const _).inter ?_
  change MeasurableSet {q : Direction × ℝ | bins.getIndex q.1 q.2 = .ok i}
  obtain ⟨dir, cosine, energy, strides⟩ := bins
  have he : ∀ k, MeasurableSet {q : Direction × ℝ | energy.getIndex q.2 = .ok k} := fun k =>
    measurable_snd (measurableSet_binIndex energy k)
  unfold ParticleBins.getIndex
  dsimp only
  cases dir with
  | none =>
    have : {q : Direction × ℝ | (do
        let c ← (Except.ok 0 : Res ℕ)
        let e ← energy.getIndex q.2
        Except.ok (strides.1 * c + e)) = Except.ok i} =
        ⋃ k ∈ {k : ℕ | strides.1 * 0 + k = i}, {q : Direction × ℝ | energy.getIndex q.2 = .ok k} := by
      ext q
      simp only [Set.mem_ofPred_eq, bind, Except.bind, Set.mem_iUnion]
      cases energy.getIndex q.2 with
      | error e => simp
      | ok c => simp
    rw [this]
    exact MeasurableSet.biUnion (Set.to_countable _) fun k _ => he k
  | some r =>
    dsimp only
    have : {q : Direction × ℝ | (do
        let c ← cosine.getIndex (r.dot q.1)
        let e ← energy.getIndex q.2
        Except.ok (strides.1 * c + e)) = Except.ok i} =
        ⋃ j ∈ {j : ℕ × ℕ | strides.1 * j.1 + j.2 = i},
          {q : Direction × ℝ | cosine.getIndex (r.dot q.1) = .ok j.1} ∩
            {q : Direction × ℝ | energy.getIndex q.2 = .ok j.2} := by
      ext q
      simp only [Set.mem_ofPred_eq, bind, Except.bind, Set.mem_iUnion, Set.mem_inter_iff]
      cases cosine.getIndex (r.dot q.1) with
      | error e => simp
      | ok c =>
        cases energy.getIndex q.2 with
        | error e => simp
        | ok k => simp
    rw [this]
    refine MeasurableSet.biUnion (Set.to_countable _) fun j _ => MeasurableSet.inter ?_ (he _)
    exact (Measurable.dot measurable_const measurable_fst) (measurableSet_binIndex cosine j.1)

/-- The crossings counted by the current estimator. -/
theorem sum_energyHit {states : List Particle} (hg : ∀ q ∈ states, ∃ e, q.energy = .continuous e)
    (surface : SurfaceObj) (bins : ParticleBins) (i : ℕ) :
    (states.map (energyScoreOf (energyHit surface bins i))).sum = crossings surface bins states i := by
  induction states with
  | nil => simp [crossings]
  | cons q states ih =>
    have ih' := ih fun q hq => hg q (by simp [hq])
    obtain ⟨g, hgq⟩ := hg q (by simp)
    unfold crossings at ih' ⊢
    rw [List.map_cons, List.sum_cons, ih', List.countP_cons]
    push_cast
    rw [add_comm]
    congr 1
    unfold energyScoreOf energyHit Crossed CrossedSurface
    rw [hgq]
    cases hq : q.currentSurface with
    | none => simp
    | some s =>
      by_cases h1 : q.event = .surfaceCross ∨ q.event = .leak
      · by_cases h2 : s.id = surface.id ∧ bins.getIndex q.direction g = .ok i
        · simp [h1, h2, Energy.toReal]
        · rw [if_pos h1, Option.elim_some]
          dsimp only
          rw [if_neg h2, if_neg]
          simp only [decide_eq_true_eq]
          rintro ⟨⟨s', h3, h4, -⟩, h5⟩
          cases h3
          exact h2 ⟨h4, h5⟩
      · simp [h1]

/-- A scattering leaves one neutron. -/
theorem collided_one {a b : Direction → Direction} (h : Frames a b) {A t e : ℝ} (hA : 0 < A) (ht : 0 < t)
    (he : 0 < e) {d : Direction} (hd : UnitVec d) : collided A t d e (fun _ _ => 1) ≤ 1 := by
  have hm := neutronMass_pos
  have hβ := slowness_pos (mul_pos hA hm) ht
  have hv := speedOf_pos hm he
  have hpos := meetingSpeed_pos hA ht.le he
  rw [collided_eq measurable_const]
  calc _ ≤ ENNReal.ofReal (1 / meetingSpeed A t e) *
        ∫⁻ V, ENNReal.ofReal (gasDensity (slowness (A * neutronMass) t) V *
          Real.sqrt (normSq (combine 1 (combine (speedOf neutronMass e) d 0 d) (-1) V))) ∂spaceVolume := by
        gcongr with V
        refine mul_le_of_le_one_right' (sphereMean_le fun n _ => ?_)
        unfold ofVelocity
        split_ifs <;> simp
    _ = 1 := by
        rw [meanRelativeSpeed_gas hd (h.frame d hd) hβ hv]
        have : meetingSpeed A t e = meanRelativeSpeed (slowness (A * neutronMass) t)
            (speedOf neutronMass e) := by
          unfold meetingSpeed
          rw [if_neg ht.ne']
        rw [← this, ← ENNReal.ofReal_mul (by positivity), one_div_mul_cancel hpos.ne']
        simp

/-- A reaction leaves the mean number of neutrons. -/
theorem reacted_one {a b : Direction → Direction} (h : Frames a b) {t e : ℝ} (ht : 0 < t)
    (he : 0 < e) {d : Direction} (hd : UnitVec d) {r : ContinuousReaction}
    (hA : ∀ ev tsl A, r = .scatter ev tsl A → 0 < A) :
    reacted t d e (fun _ _ => 1) (fun _ _ => 1) r ≤ ENNReal.ofReal (neutronsLeft e r) := by
  cases r with
  | capture ev => simp [reacted]
  | scatter ev tsl A =>
    simp only [reacted, neutronsLeft, ENNReal.ofReal_one]
    exact collided_one h (hA ev tsl A rfl) ht he hd
  | fission ev nubar =>
    simp only [reacted, neutronsLeft]
    exact mul_le_of_le_one_right' (sphereMean_le fun _ _ => le_rfl)

theorem ofReal_list_sum {α : Type} (l : List α) (f : α → ℝ) (h : ∀ x ∈ l, 0 ≤ f x) :
    ENNReal.ofReal (l.map f).sum = (l.map fun x => ENNReal.ofReal (f x)).sum := by
  induction l with
  | nil => simp
  | cons x l ih =>
    have h' : ∀ y ∈ l, 0 ≤ f y := fun y hy => h y (by simp [hy])
    rw [List.map_cons, List.sum_cons, List.map_cons, List.sum_cons,
      ENNReal.ofReal_add (h x (by simp)) (List.sum_nonneg (by
        intro y hy
        obtain ⟨z, hz, rfl⟩ := List.mem_map.1 hy
        exact h' z hz)), ih h']

/-- What is expected of the collisions, if at most one is expected of each neutron. -/
theorem gasEmission_le {a b : Direction → Direction} (h : Frames a b) {data : Nuclide → Continuous}
    {w : World} (hw : GasWorld data w) {c : Cell} (hc : c ∈ w.cells) {m : Material}
    (hm : c.material = some m) {d : Direction} (hd : UnitVec d) {e : ℝ} (he : 0 < e)
    {E F : Direction → ℝ → ℝ≥0∞} (hE : ∀ d e, UnitVec d → 0 < e → E d e ≤ 1)
    (hF : ∀ d e, UnitVec d → 0 < e → F d e ≤ 1) :
    gasEmission data m (heat c) d e E F ≤ ENNReal.ofReal (neutronRate data m (heat c) e) := by
  have hr := fun x hx r hr => hw.reaction hc hm (x := x) hx (r := r) hr he
  have hnn : ∀ x ∈ m.afracs, ∀ r ∈ (data x.1).reactions,
      0 ≤ reactionXS (heat c) e r * neutronsLeft e r := by
    intro x hx r hrr
    obtain ⟨-, -, h1, h2, -, h3⟩ := hr x hx r hrr
    refine mul_nonneg (h1.trans h2) ?_
    cases r with
    | capture ev => exact le_rfl
    | scatter ev tsl A => exact zero_le_one
    | fission ev nubar => exact h3 ev nubar rfl
  refine (gasEmission_mono he hE hF).trans ?_
  unfold gasEmission neutronRate
  rw [ENNReal.ofReal_mul (hw.sound.density c hc m hm).le, ofReal_list_sum]
  · gcongr ENNReal.ofReal m.numberDensity * ?_
    refine List.sum_le_sum fun x hx => ?_
    have hx0 := (hw.nuclide hc hm hx).1.le
    rw [ENNReal.ofReal_mul hx0, ofReal_list_sum _ _ (hnn x hx)]
    gcongr ENNReal.ofReal x.2 * ?_
    refine List.sum_le_sum fun r hrr => ?_
    obtain ⟨-, -, h1, h2, h4, -⟩ := hr x hx r hrr
    rw [ENNReal.ofReal_mul (h1.trans h2)]
    gcongr
    exact reacted_one h (hw.temperature hc hm).1 he hd h4
  · intro x hx
    refine mul_nonneg (hw.nuclide hc hm hx).1.le (List.sum_nonneg fun y hy => ?_)
    obtain ⟨r, hrr, rfl⟩ := List.mem_map.1 hy
    exact hnn x hx r hrr

end Minimc
