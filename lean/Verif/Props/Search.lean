import Verif.Lemmas.Bins
import Verif.Props.ThermalGrid
import Verif.Props.ThermalSample

/-!
# Searching (C85)

The library searches by bisection.  What is stated here does not mention the order of comparisons.
-/

namespace Minimc.Props

open Spec

/-- **C85** The bin of a value among created boundaries is the number of boundaries not above it. -/
theorem C85_boundaries {bs : List ℝ} {b : Bins} (h : Bins.createBoundaries bs = .ok b) (v : ℝ) :
    b.getIndex v = .ok (countNotAbove bs v) := by
  obtain ⟨hs, rfl⟩ := createBoundaries_ok h
  simp only [Bins.getIndex, upperIdx_eq_count hs]

/-- Instance of `C85_boundaries`. -/
example : ∃ b, Bins.createBoundaries [-1, 0, 1 / 2, 7] = .ok b ∧ b.getIndex (1 / 2) = .ok 3 := by
  have h : Bins.createBoundaries [-1, 0, 1 / 2, 7] = .ok (.boundaries [-1, 0, 1 / 2, 7]) := by
    unfold Bins.createBoundaries
    rw [if_pos ((boundariesIncreasing_none _).2 (by norm_num))]
  refine ⟨_, h, ?_⟩
  rw [C85_boundaries h]
  norm_num [countNotAbove]

/-- **C85** In an increasing table the search finds the number of entries not above the value. -/
theorem C85_increasing {l : List ℝ} (h : l.Pairwise (· < ·)) (x : ℝ) :
    upperIdx l x = countNotAbove l x := upperIdx_eq_count h x

/-- Instance of `C85_increasing`. -/
example : upperIdx [293.6, 400, 500, 600, 800] 599 = 3 := by
  rw [C85_increasing (by norm_num)]
  norm_num [countNotAbove]

/-- **C85** In every table the entry found is above the value and the one before it is not. -/
theorem C85_neighbours (l : List ℝ) (x : ℝ) : upperIdx l x ≤ l.length ∧
    (∀ a, l[upperIdx l x]? = some a → x < a) ∧
    ∀ i a, i + 1 = upperIdx l x → l[i]? = some a → a ≤ x :=
  ⟨upperIdx_le_length l x, fun _ => upperIdx_after, fun _ _ => upperIdx_pred⟩

/-- Instance of `C85_neighbours`: a table that is not increasing. -/
example : (∀ a, [3, 1, 2][upperIdx [3, 1, 2] 2]? = some a → (2 : ℝ) < a) :=
  (C85_neighbours [3, 1, 2] 2).2.1

/-- **C85** The grids of thermal data as constructed are searched in this way: what is found for a
neutron energy or an energy transfer is the number of grid points not above it. -/
theorem C85_grids {maj xsT xsS xsE : DataSet} {bp ap : List Partition} {bc ac awr : ℝ}
    {s : ThermalScattering}
    (hc : ThermalScattering.create maj xsT xsS xsE bp ap bc ac awr = .ok s) (x : ℝ) :
    upperIdx s.es x = countNotAbove s.es x ∧ upperIdx s.betas x = countNotAbove s.betas x := by
  obtain ⟨h1, h2, _⟩ := C47_constructed hc
  exact ⟨upperIdx_eq_count (List.pairwise_cons.1 h1).2 x,
    upperIdx_eq_count (List.pairwise_cons.1 h2).2 x⟩

/-- **C85** Looking for a value in a tabulated distribution finds the number of tabulated values not
above it, if the values increase with the cumulative probability. -/
theorem C85_distribution {P : Partition} {row : ℕ} {t : ℝ} {l : List ℝ} (hl : l.Pairwise (· < ·))
    (h : ∀ k v, l[k]? = some v → P.evaluate k row t = .ok v) (a : ℝ) :
    ThermalScattering.findCdfIndex P row t a l.length 0 = .ok (countNotAbove l a) := by
  rw [← upperIdx_eq_count hl a]
  have hg : ∀ k < l.length, l[k]? = some (l.getD k 0) := by
    intro k hk
    rw [getD_of_lt 0 hk]
    exact List.getElem?_eq_getElem hk
  refine findCdfIndex_eq (n := l.length) (v := fun k => l.getD k 0) (fun k hk => h k _ (hg k hk))
    ?_ ?_ _ (by omega) (Nat.zero_le _) ?_
  · intro i hi
    have := upperIdx_le_length l a
    exact upperIdx_before hl hi (hg i (by omega))
  · intro i hi hil
    have h1 := hg (upperIdx l a) (by omega)
    exact (upperIdx_after h1).trans_le (pairwise_le_getElem? hl hi h1 (hg i hil))
  · have := upperIdx_le_length l a
    omega

theorem findCdfIndex_bisects {P : Partition} {row n : ℕ} {t : ℝ} {v : ℕ → ℝ}
    (h : ∀ k < n, P.evaluate k row t = .ok (v k)) (a : ℝ) (len : ℕ) :
    ∀ i, i + len ≤ n → ThermalScattering.findCdfIndex P row t a len i =
      .ok (upperBound (fun k => decide (a < v k)) i len) := by
  induction len using Nat.strong_induction_on with
  | _ len ih =>
    intro i hi
    rw [ThermalScattering.findCdfIndex]
    rcases Nat.eq_zero_or_pos len with rfl | hpos
    · rw [if_pos rfl, upperBound_zero]
    · rw [if_neg (by omega), h (i + len / 2) (by omega), upperBound_pos _ _ (by omega)]
      simp only [bind, Except.bind, decide_eq_true_eq]
      split_ifs
      · exact ih _ (by omega) _ (by omega)
      · exact ih _ (by omega) _ (by omega)

/-- **C85** Even if the values do not increase, as may happen in a table of low rank, looking for a
value finds a place between one that is not above it and one that is. -/
theorem C85_any_distribution {P : Partition} {row n : ℕ} {t : ℝ} {v : ℕ → ℝ}
    (h : ∀ k < n, P.evaluate k row t = .ok (v k)) (a : ℝ) :
    ∃ i ≤ n, ThermalScattering.findCdfIndex P row t a n 0 = .ok i ∧ (i < n → a < v i) ∧
      ∀ j, j + 1 = i → v j ≤ a := by
  obtain ⟨_, h2, h3, h4⟩ := upperBound_spec (fun k => decide (a < v k)) n 0
  refine ⟨_, by omega, findCdfIndex_bisects h a n 0 (by omega),
    fun hi => of_decide_eq_true (h3 (by omega)), fun j hj => ?_⟩
  have := of_decide_eq_false (h4 (by omega))
  rw [← hj, Nat.add_sub_cancel] at this
  exact not_lt.1 this

/-- A table with one row, two temperatures and three values at three cumulative probabilities. -/
noncomputable def columnTable (a b c : ℝ) : Partition :=
  ⟨⟨[[0.25, 0.5, 0.75], [0]], [a, b, c]⟩, ⟨[[0]], [1]⟩, ⟨[[4], [1, 2], [0]], [1, 1]⟩⟩

theorem columnTable_values (a b c : ℝ) (k : ℕ) (hk : k < 3) :
    (columnTable a b c).evaluate k 0 1 = .ok ([a, b, c].getD k 0) := by
  have ht : PartitionTable (columnTable a b c) [0.25, 0.5, 0.75] [4] [1, 2]
      (fun f _ _ => ([a, b, c] : List ℝ).getD f 0) := by
    refine ⟨by norm_num, [0], [0], [0], fun _ => 1, fun f _ => ([a, b, c] : List ℝ).getD f 0,
      fun _ _ _ => 1, rfl, rfl, ?_, ?_, ?_, ?_⟩
    · exact holds1 (f := fun _ => 1) (by intro i hi; simp at hi; subst hi; rfl)
    · refine holds2 (f := fun f _ => ([a, b, c] : List ℝ).getD f 0) ?_
      intro i hi j hj
      simp at hi hj
      subst hj
      interval_cases i <;> rfl
    · refine holds3 (f := fun _ _ _ => 1) ?_
      intro i hi j hj k hk
      simp at hi hj hk
      subst hi hk
      interval_cases j <;> rfl
    · intro f i j
      simp
  exact C47_tabulated_partial ht (f := k) (i := 0) (j := 0) hk (by simp) (by simp) rfl

/-- Instance of `C85_any_distribution`: the value 4 is found between 2 and 7 although the first
value is above it. -/
example : ThermalScattering.findCdfIndex (columnTable 5 2 7) 0 1 4 3 0 = .ok 2 ∧
    ∃ i ≤ 3, ThermalScattering.findCdfIndex (columnTable 5 2 7) 0 1 4 3 0 = .ok i ∧
      (i < 3 → (4 : ℝ) < [5, 2, 7].getD i 0) ∧ ∀ j, j + 1 = i → [5, 2, 7].getD j 0 ≤ (4 : ℝ) := by
  refine ⟨?_, C85_any_distribution (columnTable_values 5 2 7) 4⟩
  rw [findCdfIndex_bisects (columnTable_values 5 2 7) 4 3 0 le_rfl, upperBound_pos _ _ (by omega),
    if_neg (by norm_num), upperBound_pos _ _ (by omega), if_pos (by norm_num), upperBound_zero]

/-- Instance of `C85_distribution`. -/
example : ThermalScattering.findCdfIndex (columnTable 2 5 7) 0 1 6 3 0 = .ok 2 := by
  have := C85_distribution (P := columnTable 2 5 7) (row := 0) (t := 1) (l := [2, 5, 7])
    (by norm_num) (fun k v h => by
      rw [columnTable_values 2 5 7 k (lt_of_getElem? h), List.getD, h]
      rfl) 6
  refine this.trans ?_
  norm_num [countNotAbove]

end Minimc.Props
