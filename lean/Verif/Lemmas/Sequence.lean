import Verif.Spec.Sequence
import Verif.Lemmas.Select
import Mathlib.Analysis.SpecificLimits.Basic

/-! # Repeating a trial until it succeeds -/

namespace Minimc.Spec

open MeasureTheory Filter Topology

theorem uniform_apply {s : Set ℝ} (hs : MeasurableSet s) : uniform s = prob s := by
  unfold uniform prob
  rw [Measure.restrict_apply hs]

/-- The first `k` numbers are in `N`, the next one in `S`. -/
def firstAt (N S : Set ℝ) (k : ℕ) : Set (ℕ → ℝ) := {us | (∀ j < k, us j ∈ N) ∧ us k ∈ S}

theorem firstAt_eq (N S : Set ℝ) (k : ℕ) :
    firstAt N S k = Set.pi (Finset.range (k + 1)) (fun j => if j < k then N else S) := by
  ext us
  simp only [firstAt, Set.mem_ofPred_eq, Set.mem_pi, Finset.coe_range, Set.mem_Iio]
  constructor
  · rintro ⟨h1, h2⟩ j hj
    split_ifs with h
    · exact h1 j h
    · have : j = k := by omega
      rw [this]; exact h2
  · intro h
    constructor
    · intro j hj
      have := h j (by omega)
      rwa [if_pos hj] at this
    · have := h k (by omega)
      rwa [if_neg (by omega)] at this

theorem measurableSet_firstAt {N S : Set ℝ} (hN : MeasurableSet N) (hS : MeasurableSet S) (k : ℕ) :
    MeasurableSet (firstAt N S k) := by
  rw [firstAt_eq]
  refine MeasurableSet.pi (Finset.countable_toSet _) fun j _ => ?_
  split_ifs <;> assumption

theorem uniforms_firstAt {N S : Set ℝ} (hN : MeasurableSet N) (hS : MeasurableSet S) (k : ℕ) :
    uniforms (firstAt N S k) = prob N ^ k * prob S := by
  rw [firstAt_eq]
  unfold uniforms
  rw [Measure.infinitePi_pi]
  · rw [Finset.prod_range_succ, if_neg (by omega), uniform_apply hS]
    congr 1
    rw [← Finset.card_range k, ← Finset.prod_const]
    refine Finset.prod_congr (by simp) fun j hj => ?_
    rw [if_pos (by simpa using hj), uniform_apply hN]
  · intro j _
    split_ifs <;> assumption

/-- Trials with failures in `N` and a result in `S`, which is disjoint from `N`. -/
theorem uniforms_exists_firstAt {N S : Set ℝ} (hN : MeasurableSet N) (hS : MeasurableSet S)
    (hd : Disjoint N S) :
    uniforms {us | ∃ k, us ∈ firstAt N S k} = (1 - prob N)⁻¹ * prob S := by
  have e : {us : ℕ → ℝ | ∃ k, us ∈ firstAt N S k} = ⋃ k, firstAt N S k := by
    ext us; simp
  rw [e, measure_iUnion _ (fun k => measurableSet_firstAt hN hS k)]
  · simp_rw [uniforms_firstAt hN hS]
    rw [ENNReal.tsum_mul_right, ENNReal.tsum_geometric]
  · intro k l hkl
    rw [Function.onFun, Set.disjoint_left]
    rintro us ⟨h1, h2⟩ ⟨h3, h4⟩
    rcases lt_or_gt_of_ne hkl with h | h
    · exact (Set.disjoint_left.1 hd) (h3 k h) h2
    · exact (Set.disjoint_left.1 hd) (h1 l h) h4

theorem measurableSet_selected (ws : List ℝ) (S : ℝ) (i : ℕ) :
    MeasurableSet {u | Selected ws (u * S) i} := by
  have : {u | Selected ws (u * S) i} =
      {u : ℝ | i < ws.length} ∩ ({u | (ws.take i).sum ≤ u * S} ∩ {u | u * S < (ws.take (i + 1)).sum}) := by
    ext u; rfl
  rw [this]
  refine MeasurableSet.inter (MeasurableSet.const _) (MeasurableSet.inter ?_ ?_)
  · exact measurableSet_le measurable_const (by fun_prop)
  · exact measurableSet_lt (by fun_prop) measurable_const

theorem take_sum_le {ws : List ℝ} (hnn : ∀ w ∈ ws, 0 ≤ w) (i : ℕ) : (ws.take i).sum ≤ ws.sum := by
  have h := take_sum_mono hnn (Nat.le_max_left i ws.length)
  rwa [List.take_of_length_le (Nat.le_max_right i ws.length)] at h

/-- One number selects item `i` with probability weight over total, when the total is at least
the sum of the weights. -/
theorem prob_selected_of_le {ws : List ℝ} (hnn : ∀ w ∈ ws, 0 ≤ w) {S : ℝ} (hS : 0 < S)
    (hle : ws.sum ≤ S) {i : ℕ} (hi : i < ws.length) :
    prob {u | Selected ws (u * S) i} = ENNReal.ofReal (ws[i] / S) := by
  have h0 : 0 ≤ (ws.take i).sum :=
    List.sum_nonneg fun w hw => hnn w (List.mem_of_mem_take hw)
  have h1 := take_sum_le hnn (i + 1)
  have hset : {u | Selected ws (u * S) i} ∩ Set.Ico 0 1
      = Set.Ico ((ws.take i).sum / S) ((ws.take (i + 1)).sum / S) := by
    ext u
    simp only [Set.mem_inter_iff, Set.mem_ofPred_eq, Set.mem_Ico, Selected, div_le_iff₀ hS,
      lt_div_iff₀ hS]
    constructor
    · rintro ⟨⟨_, h2, h3⟩, _⟩
      exact ⟨h2, h3⟩
    · rintro ⟨h2, h3⟩
      refine ⟨⟨hi, h2, h3⟩, ?_, ?_⟩
      · by_contra hu
        push Not at hu
        nlinarith
      · by_contra hu
        push Not at hu
        nlinarith
  rw [prob, hset, Real.volume_Ico]
  congr 1
  rw [List.take_add_one, List.sum_append]
  simp only [List.getElem?_eq_getElem hi, Option.toList_some, List.sum_cons, List.sum_nil, add_zero]
  rw [← sub_div]
  congr 1
  ring

theorem prob_unselected {W S : ℝ} (hS : 0 < S) (h0 : 0 ≤ W) :
    prob {u | W ≤ u * S} = ENNReal.ofReal (1 - W / S) := by
  have hset : {u | W ≤ u * S} ∩ Set.Ico 0 1 = Set.Ico (W / S) 1 := by
    ext u
    simp only [Set.mem_inter_iff, Set.mem_ofPred_eq, Set.mem_Ico, div_le_iff₀ hS]
    constructor
    · rintro ⟨h1, _, h2⟩; exact ⟨h1, h2⟩
    · rintro ⟨h1, h2⟩
      refine ⟨h1, ?_, h2⟩
      by_contra hu
      push Not at hu
      nlinarith
  rw [prob, hset, Real.volume_Ico]

theorem uniforms_selected {ws : List ℝ} (hnn : ∀ w ∈ ws, 0 ≤ w) {S : ℝ} (hpos : 0 < ws.sum)
    (hle : ws.sum ≤ S) {i : ℕ} (hi : i < ws.length) :
    uniforms {us | ∃ k, SelectedInRound ws S us k i} = ENNReal.ofReal (ws[i] / ws.sum) := by
  have hS : 0 < S := hpos.trans_le hle
  have hN : MeasurableSet {u : ℝ | ws.sum ≤ u * S} := measurableSet_le measurable_const (by fun_prop)
  have hM := measurableSet_selected ws S i
  have hd : Disjoint {u : ℝ | ws.sum ≤ u * S} {u | Selected ws (u * S) i} := by
    rw [Set.disjoint_left]
    rintro u h1 ⟨_, _, h2⟩
    have := take_sum_le hnn (i + 1)
    simp only [Set.mem_ofPred_eq] at h1
    linarith
  have key := uniforms_exists_firstAt hN hM hd
  have e : {us : ℕ → ℝ | ∃ k, us ∈ firstAt {u : ℝ | ws.sum ≤ u * S} {u | Selected ws (u * S) i} k}
      = {us | ∃ k, SelectedInRound ws S us k i} := rfl
  rw [e] at key
  rw [key, prob_selected_of_le hnn hS hle hi, prob_unselected hS hpos.le]
  have hq : (0:ℝ) < ws.sum / S := div_pos hpos hS
  have hw : 0 ≤ ws[i] := hnn _ (List.getElem_mem hi)
  rw [← ENNReal.ofReal_one, ← ENNReal.ofReal_sub _ (by
    have : ws.sum / S ≤ 1 := (div_le_one hS).2 hle
    linarith), sub_sub_cancel, ← ENNReal.ofReal_inv_of_pos hq,
    ← ENNReal.ofReal_mul (by positivity)]
  congr 1
  field_simp

/-- With a positive sum of weights some round selects something, with probability one. -/
theorem uniforms_terminates {ws : List ℝ} {S : ℝ} (hpos : 0 < ws.sum)
    (hle : ws.sum ≤ S) :
    uniforms {us | ∃ k, (∀ j < k, ws.sum ≤ us j * S) ∧ us k * S < ws.sum} = 1 := by
  have hS : 0 < S := hpos.trans_le hle
  have hN : MeasurableSet {u : ℝ | ws.sum ≤ u * S} := measurableSet_le measurable_const (by fun_prop)
  have hM : MeasurableSet {u : ℝ | u * S < ws.sum} := measurableSet_lt (by fun_prop) measurable_const
  have hd : Disjoint {u : ℝ | ws.sum ≤ u * S} {u | u * S < ws.sum} := by
    rw [Set.disjoint_left]
    intro u h1 h2
    simp only [Set.mem_ofPred_eq] at h1 h2
    linarith
  have key := uniforms_exists_firstAt hN hM hd
  have e : {us : ℕ → ℝ | ∃ k, us ∈ firstAt {u : ℝ | ws.sum ≤ u * S} {u | u * S < ws.sum} k}
      = {us | ∃ k, (∀ j < k, ws.sum ≤ us j * S) ∧ us k * S < ws.sum} := rfl
  rw [e] at key
  have hp : prob {u | u * S < ws.sum} = ENNReal.ofReal (ws.sum / S) := by
    have hset : {u | u * S < ws.sum} ∩ Set.Ico 0 1 = Set.Ico 0 (ws.sum / S) := by
      ext u
      simp only [Set.mem_inter_iff, Set.mem_ofPred_eq, Set.mem_Ico, lt_div_iff₀ hS]
      constructor
      · rintro ⟨h1, h2, _⟩; exact ⟨h2, h1⟩
      · rintro ⟨h1, h2⟩
        refine ⟨h2, h1, ?_⟩
        by_contra hu
        push Not at hu
        nlinarith
    rw [prob, hset, Real.volume_Ico, sub_zero]
  have hq : (0:ℝ) < ws.sum / S := div_pos hpos hS
  rw [key, hp, prob_unselected hS hpos.le]
  rw [← ENNReal.ofReal_one, ← ENNReal.ofReal_sub _ (by
    have : ws.sum / S ≤ 1 := (div_le_one hS).2 hle
    linarith), sub_sub_cancel]
  rw [ENNReal.inv_mul_cancel (by simpa using hq) ENNReal.ofReal_ne_top, ENNReal.ofReal_one]

end Minimc.Spec
