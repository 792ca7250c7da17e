import Verif.Lemmas.WalkFollows
import Verif.Spec.Score
import Mathlib.MeasureTheory.Function.SpecialFunctions.Basic
import Mathlib.MeasureTheory.Function.Floor

/-! # The scores of the current estimator are measurable and count crossings -/

namespace Minimc

open Classical Spec Props MeasureTheory
open scoped ENNReal

theorem measurable_spaceIndex (n : ℕ) (lower upper width : ℝ) :
    Measurable (Bins.spaceIndex n lower upper width) := by
  unfold Bins.spaceIndex
  refine Measurable.ite (measurableSet_lt measurable_id measurable_const) measurable_const ?_
  refine Measurable.ite (measurableSet_le measurable_const measurable_id) measurable_const ?_
  exact Nat.measurable_floor.comp (((measurable_id.sub_const lower).div_const width).add_const 1)

theorem measurableSet_binIndex (b : Bins) (i : ℕ) : MeasurableSet {v : ℝ | b.getIndex v = .ok i} := by
  cases b with
  | none => simp only [Bins.getIndex]; exact MeasurableSet.const _
  | linspace n lower upper width =>
    simp only [Bins.getIndex, Except.ok.injEq]
    exact measurable_spaceIndex n lower upper width (measurableSet_singleton i)
  | boundaries bs =>
    simp only [Bins.getIndex, Except.ok.injEq]
    have hm : ∀ len first : ℕ, Measurable fun v : ℝ =>
        upperBound (fun i => decide (v < bs.getD i 0)) first len := by
      intro len
      induction len using Nat.strong_induction_on with
      | _ len ih =>
        intro first
        rcases Nat.eq_zero_or_pos len with rfl | hpos
        · simp only [upperBound_zero]
          exact measurable_const
        · simp only [upperBound_pos _ _ (show len ≠ 0 by omega), decide_eq_true_eq]
          exact Measurable.ite (measurableSet_lt measurable_id measurable_const)
            (ih _ (by omega) _) (ih _ (by omega) _)
    have : Measurable fun v : ℝ => upperIdx bs v := hm bs.length 0
    exact this (measurableSet_singleton i)
  | logspace n base lower upper width =>
    have hmeas : ∀ {p : ℝ → Prop} {a b : ℝ → Prop} [∀ v, Decidable (p v)], MeasurableSet {v | p v} →
        MeasurableSet {v | a v} → MeasurableSet {v | b v} →
        MeasurableSet {v | if p v then a v else b v} := by
      intro p a b _ hp ha hb
      have : {v | if p v then a v else b v} = ({v | p v} ∩ {v | a v}) ∪ ({v | p v}ᶜ ∩ {v | b v}) := by
        ext v
        by_cases h : p v <;> simp [h]
      rw [this]
      exact (hp.inter ha).union (hp.compl.inter hb)
    have hset : {v : ℝ | (Bins.logspace n base lower upper width).getIndex v = .ok i} =
        {v | if v < 0 ∨ base < 0 then False
          else if base = 0 then (if v = 0 then False else Bins.spaceIndex n lower upper width 0 = i)
          else if base = 1 then (if v = 1 then False else if v < 1 then 0 = i else n - 1 = i)
          else if v = 0 then (if base > 1 then 0 = i else n - 1 = i)
          else Bins.spaceIndex n lower upper width (Real.log v / Real.log base) = i} := by
      ext v
      simp only [Bins.getIndex, Bins.logBase, Set.mem_ofPred_eq]
      split_ifs <;> simp
    rw [hset]
    have e (a : ℝ) : MeasurableSet {v : ℝ | v = a} := measurableSet_singleton a
    have l (a : ℝ) : MeasurableSet {v : ℝ | v < a} := measurableSet_Iio
    have k (q : Prop) : MeasurableSet {_v : ℝ | q} := MeasurableSet.const q
    refine hmeas (p := fun v => v < 0 ∨ base < 0) ((l 0).union (k _)) (k _) (hmeas (k _) (hmeas (e 0) (k _) (k _))
      (hmeas (k _) (hmeas (e 1) (k _) (hmeas (l 1) (k _) (k _)))
        (hmeas (e 0) (hmeas (k _) (k _) (k _)) ?_)))
    exact ((measurable_spaceIndex n lower upper width).comp
      (Real.measurable_log.div_const _)) (measurableSet_singleton i)

theorem measurable_currentHit (surface : SurfaceObj) (bins : ParticleBins) (i : ℕ) (s : SurfaceObj)
    (g : ℕ) : Measurable fun d : Direction => currentHit surface bins i s d g := by
  unfold currentHit
  refine Measurable.ite ?_ measurable_const measurable_const
  refine (MeasurableSet.const _).inter ?_
  change MeasurableSet {d : Direction | bins.getIndex d g = .ok i}
  obtain ⟨dir, cosine, energy, strides⟩ := bins
  unfold ParticleBins.getIndex
  dsimp only
  cases he : energy.getIndex g with
  | error e =>
    convert MeasurableSet.empty
    ext d
    simp only [Set.mem_ofPred_eq, Set.mem_empty_iff_false, iff_false, bind, Except.bind]
    cases dir with
    | none => simp
    | some r => dsimp only; cases cosine.getIndex (r.dot d) <;> simp
  | ok k =>
    cases dir with
    | none =>
      simp only [bind, Except.bind]
      exact MeasurableSet.const _
    | some r =>
      dsimp only
      have : {d : Direction | (do
          let c ← cosine.getIndex (r.dot d)
          let e ← (Except.ok k : Res ℕ)
          Except.ok (strides.1 * c + e)) = Except.ok i} =
          ⋃ j ∈ {j : ℕ | strides.1 * j + k = i}, (fun d : Direction => r.dot d) ⁻¹'
            {v | cosine.getIndex v = .ok j} := by
        ext d
        simp only [Set.mem_ofPred_eq, bind, Except.bind, Set.mem_iUnion, Set.mem_preimage]
        cases cosine.getIndex (r.dot d) with
        | error e => simp
        | ok c => simp
      rw [this]
      refine MeasurableSet.biUnion (Set.to_countable _) fun j _ => ?_
      exact (Measurable.dot measurable_const measurable_id) (measurableSet_binIndex cosine j)

/-- The crossings counted by the current estimator. -/
theorem sum_currentHit {states : List Particle} (hg : ∀ q ∈ states, ∃ g, q.energy = .group g)
    (surface : SurfaceObj) (bins : ParticleBins) (i : ℕ) :
    (states.map (scoreOf (currentHit surface bins i))).sum = crossings surface bins states i := by
  induction states with
  | nil => simp [crossings]
  | cons q states ih =>
    have ih' := ih fun q hq => hg q (by simp [hq])
    obtain ⟨g, hgq⟩ := hg q (by simp)
    unfold crossings at ih' ⊢
    rw [List.map_cons, List.sum_cons, ih', List.countP_cons]
    push_cast
    rw [add_comm]
    congr 1
    unfold scoreOf currentHit Crossed CrossedSurface
    rw [hgq]
    cases hq : q.currentSurface with
    | none => simp
    | some s =>
      by_cases h1 : q.event = .surfaceCross ∨ q.event = .leak
      · by_cases h2 : s.id = surface.id ∧ bins.getIndex q.direction g = .ok i
        · simp [h1, h2, Energy.toReal]
        · rw [if_pos h1, Option.elim_some]
          dsimp only
          rw [if_neg h2, if_neg]
          simp only [decide_eq_true_eq]
          rintro ⟨⟨s', h3, h4, -⟩, h5⟩
          cases h3
          exact h2 ⟨h4, h5⟩
      · simp [h1]

end Minimc
