import Verif.Lemmas.Output
import Verif.Props.Score

/-! # C67: the output file can be read -/

namespace Minimc.Props

open Spec

/-- **C67** A number is printed in a form from which it can be read back with an error of at most half
a unit in the seventh digit. -/
theorem C67_number (x : ℝ) :
    ∃ v, readNumber (Print.scientific x) = some v ∧ SevenDigits x v :=
  (scientific_spec x).1

/-- **C67** From the text that is printed a reader recovers the number of histories and, for every
estimator in order, its name, the boundaries of its bins, the mean and the standard deviation in
every bin, and the same for its sensitivities, all numbers to seven digits. -/
theorem C67_readable {set : EstimatorSet} (hw : set.totalWeight ≠ 0) (hn : Printable set) (n : ℕ) :
    ∃ rs, readReport (outputText n set) = some ⟨n, rs⟩ ∧
      List.Forall₂ (EstimatorAgrees set.totalWeight) set.estimators rs :=
  readReport_outputText hw hn n

/-- Instance: the set with a score of 2, of which the variance is positive, and with a sensitivity
of which it is negative, so that no standard deviation can be read. -/
example (plane : SurfaceObj) :
    ∃ rs, readReport (outputText 1000 (exampleSet 2 plane)) = some ⟨1000, rs⟩ ∧
      List.Forall₂ (EstimatorAgrees 1) (exampleSet 2 plane).estimators rs :=
  C67_readable (by norm_num [exampleSet]) (by
    intro e he
    simp only [exampleSet, List.mem_singleton] at he
    subst he
    have h1 : '\n' ∉ "right".toList := by decide
    have h2 : '\n' ∉ "right::q".toList := by decide
    have h3 : "right::q" ≠ "" := by decide
    refine ⟨h1, fun s hs => ?_⟩
    rw [List.mem_singleton.1 hs]
    exact ⟨h2, h3⟩) 1000

/-- A number that is printed: one third. -/
example : Print.scientific (1 / 3) = "3.333333e-01".toList := by
  have hl : Int.log 10 (1 / 3 : ℝ) = -1 := by
    apply le_antisymm
    · have : Int.log 10 (1 / 3 : ℝ) < 0 := by
        rw [← Int.lt_zpow_iff_log_lt (by norm_num) (by norm_num)]
        norm_num
      omega
    · rw [← Int.zpow_le_iff_le_log (by norm_num) (by norm_num)]
      norm_num [zpow_neg]
  have hf : ⌊(1 / 3 : ℝ) / 10 ^ (-1 - 6 : ℤ)⌋₊ = 3333333 := by
    rw [Nat.floor_eq_iff (by positivity)]
    norm_num [zpow_neg]
  have hs : Print.significand (1 / 3) = (3333333, -1) := by
    have hr : Print.roundEven ((1 / 3 : ℝ) / 10 ^ (-1 - 6 : ℤ)) = 3333333 := by
      unfold Print.roundEven
      rw [hf, if_pos (by norm_num [zpow_neg])]
    unfold Print.significand
    simp only [hl, hr]
    rfl
  unfold Print.scientific
  rw [if_neg (by norm_num), if_neg (by norm_num), hs]
  simp [Print.mantissa, Print.exponent, Print.decimal, Print.digit]

end Minimc.Props
