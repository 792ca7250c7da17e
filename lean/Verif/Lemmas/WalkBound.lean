import Verif.Lemmas.WalkLimit

/-! # Bounds on the right hand side of the transport equation -/

namespace Minimc

open Classical Spec Props MeasureTheory
open scoped ENNReal

theorem measurableSet_between (t : WithTop ℝ) : MeasurableSet {s : ℝ | 0 < s ∧ (s : WithTop ℝ) < t} := by
  induction t using WithTop.recTopCoe with
  | top =>
    simp only [WithTop.coe_lt_top, and_true]
    exact measurableSet_Ioi
  | coe t =>
    simp only [WithTop.coe_lt_coe]
    exact measurableSet_Ioo

theorem sphereMean_const (b : ℝ≥0∞) : (sphereMean fun _ => b) = b := by
  rw [sphereMean_eq measurable_const]
  simp

theorem sphereMean_le {F : Direction → ℝ≥0∞} {b : ℝ≥0∞} (h : ∀ d, UnitVec d → F d ≤ b) :
    sphereMean F ≤ b := by
  conv_rhs => rw [← sphereMean_const b]
  unfold sphereMean
  refine mul_le_mul_right (setLIntegral_mono' measurableSet_Ioo fun z hz => lintegral_mono fun φ => ?_) _
  refine h _ ?_
  have h1 : 0 ≤ 1 - z ^ 2 := by nlinarith [hz.1, hz.2]
  have h2 := Real.sin_sq_add_cos_sq φ
  have h3 := Real.sq_sqrt h1
  unfold UnitVec
  nlinarith

theorem colSum_eq (G : ℕ) (flat : List ℝ) (g : ℕ) :
    colSum G flat g = ∑ g' ∈ Finset.Icc 1 G, entry2 G flat g g' := by
  unfold colSum
  have h : (List.range' 1 G).toFinset = Finset.Icc 1 G := by
    ext j
    simp
    omega
  rw [← h]
  exact (List.sum_toFinset _ List.nodup_range').symm

/-- The rates of scattering into the groups add up to at most the rate of collisions. -/
theorem sum_transferRate_le {G : ℕ} {nodes : Nuclide → List MgNode} {m : Material}
    (hd : 0 ≤ m.numberDensity) (hf : ∀ e ∈ m.afracs, 0 ≤ e.2)
    (hN : ∀ e ∈ m.afracs, NonnegNodes (nodes e.1)) (g : ℕ) :
    ∑ g' ∈ Finset.Icc 1 G, transferRate G nodes m g g' ≤ macroscopic G nodes g m := by
  unfold transferRate macroscopic
  rw [← Finset.mul_sum]
  refine mul_le_mul_of_nonneg_left ?_ hd
  have : ∀ l : List (Nuclide × ℝ), (∀ e ∈ l, e ∈ m.afracs) →
      ∑ g' ∈ Finset.Icc 1 G, (l.map fun e => e.2 * entry2 G (scatterTable (nodes e.1)) g g').sum ≤
        (l.map fun e => e.2 * specTotal G (nodes e.1) g).sum := by
    intro l
    induction l with
    | nil => simp
    | cons e l ih =>
      intro hl
      have he := hl e (by simp)
      simp only [List.map_cons, List.sum_cons, Finset.sum_add_distrib]
      refine add_le_add ?_ (ih fun e' h' => hl e' (by simp [h']))
      rw [← Finset.mul_sum, ← colSum_eq, ← specXS_scatter]
      refine mul_le_mul_of_nonneg_left ?_ (hf e he)
      have h1 := specXS_nonneg' (hN e he) G .capture g
      have h2 := specXS_nonneg' (hN e he) G .fission g
      unfold specTotal
      linarith
  exact this _ fun e he => he

theorem transferRate_nonneg {G : ℕ} {nodes : Nuclide → List MgNode} {m : Material}
    (hd : 0 ≤ m.numberDensity) (hf : ∀ e ∈ m.afracs, 0 ≤ e.2)
    (hN : ∀ e ∈ m.afracs, NonnegNodes (nodes e.1)) (g g' : ℕ) : 0 ≤ transferRate G nodes m g g' := by
  refine mul_nonneg hd (List.sum_nonneg ?_)
  intro x hx
  obtain ⟨e, he, rfl⟩ := List.mem_map.1 hx
  exact mul_nonneg (hf e he) (entry2_nonneg (scatterTable_nonneg (hN e he)) G g g')

theorem emission_le {G : ℕ} {nodes : Nuclide → List MgNode} {m : Material}
    (hd : 0 ≤ m.numberDensity) (hf : ∀ e ∈ m.afracs, 0 ≤ e.2)
    (hN : ∀ e ∈ m.afracs, NonnegNodes (nodes e.1)) (g : ℕ) {E : Direction → ℕ → ℝ≥0∞} {b : ℝ≥0∞}
    (hE : ∀ d g', UnitVec d → 1 ≤ g' → g' ≤ G → E d g' ≤ b) :
    emission G nodes m g E ≤ ENNReal.ofReal (macroscopic G nodes g m) * b := by
  unfold emission
  calc _ ≤ ∑ g' ∈ Finset.Icc 1 G, ENNReal.ofReal (transferRate G nodes m g g') * b := by
        refine Finset.sum_le_sum fun g' hg' => mul_le_mul_right (sphereMean_le fun d hd => ?_) _
        obtain ⟨h1, h2⟩ := Finset.mem_Icc.1 hg'
        exact hE d g' hd h1 h2
    _ = ENNReal.ofReal (∑ g' ∈ Finset.Icc 1 G, transferRate G nodes m g g') * b := by
        rw [← Finset.sum_mul, ENNReal.ofReal_sum_of_nonneg fun g' _ => transferRate_nonneg hd hf hN g g']
    _ ≤ _ := mul_le_mul_left (ENNReal.ofReal_le_ofReal (sum_transferRate_le hd hf hN g)) _

end Minimc
