import Verif.Lemmas.WalkMean

/-! # The mean after a collision -/

namespace Minimc

open Classical MeasureTheory Spec Set
open scoped ENNReal

theorem specXS_scatter (G : ℕ) (nodes : List MgNode) (g : ℕ) :
    specXS G nodes .scatter g = colSum G (scatterTable nodes) g := by
  unfold specXS scatterTable
  induction nodes with
  | nil =>
    have : ∀ l : List ℕ, (l.map (entry2 G [] g)).sum = 0 := by
      intro l
      induction l with
      | nil => rfl
      | cons a l ih => rw [List.map_cons, List.sum_cons, ih]; simp [entry2]
    exact (this _).symm
  | cons n l ih =>
    cases n with
    | capture xs => simpa [nodeXS] using ih
    | scatter flat => simp [nodeXS]
    | fission a b xs => simpa [nodeXS] using ih

theorem scatterTable_nonneg {nodes : List MgNode} (h : NonnegNodes nodes) :
    ∀ x ∈ scatterTable nodes, 0 ≤ x := by
  unfold scatterTable
  induction nodes with
  | nil => simp
  | cons n l ih =>
    have ih := ih fun n hn => h n (by simp [hn])
    cases n with
    | capture xs => simpa using ih
    | scatter flat =>
      have : ∀ x ∈ flat, 0 ≤ x := h (.scatter flat) (by simp)
      simpa using this
    | fission a b xs => simpa using ih

theorem entry2_nonneg {flat : List ℝ} (h : ∀ x ∈ flat, 0 ≤ x) (G g g' : ℕ) :
    0 ≤ entry2 G flat g g' := by
  unfold entry2
  rw [List.getD_eq_getElem?_getD]
  cases e : flat[G * (g' - 1) + (g - 1)]? with
  | none => simp
  | some x => exact h x (List.mem_of_getElem? e)

theorem colEntries_nonneg {flat : List ℝ} (h : ∀ x ∈ flat, 0 ≤ x) (G g : ℕ) :
    ∀ x ∈ colEntries G flat g, 0 ≤ x := by
  intro x hx
  unfold colEntries at hx
  obtain ⟨j, -, rfl⟩ := List.mem_map.1 hx
  exact entry2_nonneg h G g j

theorem colEntries_getD (G : ℕ) (flat : List ℝ) (g : ℕ) {j : ℕ} (hj : j < G) :
    (colEntries G flat g).getD j 0 = entry2 G flat g (j + 1) := by
  unfold colEntries
  rw [List.getD_eq_getElem?_getD]
  simp [hj, add_comm]

theorem entry_le_colSum {flat : List ℝ} (h : ∀ x ∈ flat, 0 ≤ x) (G g : ℕ) {j : ℕ} (hj : j < G) :
    entry2 G flat g (j + 1) ≤ colSum G flat g := by
  have := List.single_le_sum (colEntries_nonneg h G g) (entry2 G flat g (j + 1))
    (List.mem_map.2 ⟨j + 1, by simp; omega, rfl⟩)
  exact this

theorem specXS_nonneg' {nodes : List MgNode} (h : NonnegNodes nodes) (G : ℕ) (r : Reaction) (g : ℕ) :
    0 ≤ specXS G nodes r g := by
  have e1 : ∀ l : List ℝ, (∀ x ∈ l, 0 ≤ x) → 0 ≤ entry1 l g := by
    intro l hl
    unfold entry1
    rw [List.getD_eq_getElem?_getD]
    cases e : l[g - 1]? with
    | none => simp
    | some x => exact hl x (List.mem_of_getElem? e)
  unfold specXS
  cases e : nodes.findSome? (nodeXS G r g) with
  | none => simp
  | some x =>
    obtain ⟨n, hn, hx⟩ := List.exists_of_findSome?_eq_some e
    have hN := h n hn
    cases n with
    | capture xs =>
      simp only [nodeXS] at hx
      split_ifs at hx
      cases hx
      exact e1 xs hN
    | scatter flat =>
      simp only [nodeXS] at hx
      split_ifs at hx
      cases hx
      exact List.sum_nonneg (colEntries_nonneg hN G g)
    | fission a b xs =>
      simp only [nodeXS] at hx
      split_ifs at hx
      cases hx
      exact e1 xs hN.1

theorem sum_map_range {β : Type*} (l : List β) (f : β → ℝ) :
    (l.map f).sum = ∑ i ∈ Finset.range l.length, l[i]?.elim 0 f := by
  induction l with
  | nil => simp
  | cons b l ih =>
    rw [List.length_cons, Finset.sum_range_succ']
    simp [ih, add_comm]

/-- The probabilities of the nuclide, of scattering and of the group together. -/
theorem three_choices {a σ σs e S : ℝ} (ha : 0 ≤ a) (he : 0 ≤ e) (h1 : e ≤ σs) (h2 : σs ≤ σ)
    (hS : 0 ≤ S) :
    ENNReal.ofReal (a * σ / S) * (ENNReal.ofReal (σs / σ) * ENNReal.ofReal (e / σs)) =
      ENNReal.ofReal (a * e / S) := by
  have hs : 0 ≤ σs := he.trans h1
  have hσ : 0 ≤ σ := hs.trans h2
  rw [← ENNReal.ofReal_mul (by positivity), ← ENNReal.ofReal_mul (by positivity)]
  congr 1
  rcases hs.eq_or_lt with h | h
  · have : e = 0 := by linarith
    simp [this]
  · have h3 : 0 < σ := by linarith
    field_simp

/-- The mean after a collision: for each group the probability of scattering into it times the mean over
all directions. -/
theorem lintegral_afterCollision {G : ℕ} {nodes : Nuclide → List MgNode} {m : Material} {g : ℕ}
    (hf : ∀ e ∈ m.afracs, 0 ≤ e.2) (hN : ∀ e ∈ m.afracs, NonnegNodes (nodes e.1))
    {next : Direction → ℕ → (ℕ → ℝ) → ℝ≥0∞}
    (hn : ∀ g', Measurable fun q : Direction × (ℕ → ℝ) => next q.1 g' q.2) :
    ∫⁻ us, afterCollision G nodes m g next us ∂uniforms =
      ∑ g' ∈ Finset.Icc 1 G, ENNReal.ofReal
        ((m.afracs.map fun e => e.2 * entry2 G (scatterTable (nodes e.1)) g g').sum /
          (m.afracs.map fun e => e.2 * specTotal G (nodes e.1) g).sum) *
        sphereMean fun d => ∫⁻ us, next d g' us ∂uniforms := by
  have hx : ∀ e ∈ m.afracs, ∀ r, 0 ≤ specXS G (nodes e.1) r g := fun e he r =>
    specXS_nonneg' (hN e he) G r g
  set S := (m.afracs.map fun e => e.2 * specTotal G (nodes e.1) g).sum with hS
  set A := fun g' => sphereMean fun d => ∫⁻ us, next d g' us ∂uniforms with hA
  have hnn : ∀ x ∈ m.afracs.map (fun e => e.2 * specTotal G (nodes e.1) g), 0 ≤ x := by
    intro x h
    obtain ⟨e, he, rfl⟩ := List.mem_map.1 h
    have := hx e he
    exact mul_nonneg (hf e he) (add_nonneg (add_nonneg (this _) (this _)) (this _))
  have hS0 : 0 ≤ S := List.sum_nonneg hnn
  -- the three choices as functions of the numbers that are left
  set F3 : ℕ → (ℕ → ℝ) → ℝ≥0∞ := fun j us =>
    next (directionFrom (us 0) (us 1)) (j + 1) fun k => us (k + 2) with hF3
  set F2 : List MgNode → ℕ → (ℕ → ℝ) → ℝ≥0∞ := fun ns r us =>
    if r = 1 then byWeight (colEntries G (scatterTable ns) g) (us 0) fun j => F3 j fun k => us (k + 1)
    else 0 with hF2
  set F1 : ℕ → (ℕ → ℝ) → ℝ≥0∞ := fun i us => m.afracs[i]?.elim 0 fun e =>
    byWeight [specXS G (nodes e.1) .capture g, specXS G (nodes e.1) .scatter g,
      specXS G (nodes e.1) .fission g] (us 0) fun r => F2 (nodes e.1) r fun k => us (k + 1) with hF1
  have m3 : ∀ j, Measurable (F3 j) := fun j =>
    (hn (j + 1)).comp ((measurable_directionFrom (measurable_pi_apply 0)
      (measurable_pi_apply 1)).prodMk (measurable_shift measurable_id 2))
  have m2 : ∀ ns r, Measurable (F2 ns r) := by
    intro ns r
    simp only [hF2]
    split_ifs
    · exact measurable_byWeight _ (measurable_pi_apply 0) fun j =>
        (m3 j).comp (measurable_shift measurable_id 1)
    · exact measurable_const
  have m1 : ∀ i, Measurable (F1 i) := by
    intro i
    simp only [hF1]
    cases m.afracs[i]? with
    | none => exact measurable_const
    | some e =>
      exact measurable_byWeight _ (measurable_pi_apply 0) fun r =>
        (m2 _ r).comp (measurable_shift measurable_id 1)
  have e0 : ∀ us, afterCollision G nodes m g next us =
      byWeight (m.afracs.map fun e => e.2 * specTotal G (nodes e.1) g) (us 0)
        fun i => F1 i fun k => us (k + 1) := fun us => rfl
  simp only [e0]
  rw [lintegral_byWeight hnn m1, List.length_map]
  have i3 : ∀ j, ∫⁻ us, F3 j us ∂uniforms = A (j + 1) := fun j =>
    lintegral_directionFrom (F := fun d us => next d (j + 1) us) (hn (j + 1))
  have i2 : ∀ e ∈ m.afracs, ∫⁻ us, F2 (nodes e.1) 1 us ∂uniforms =
      ∑ j ∈ Finset.range G, ENNReal.ofReal (entry2 G (scatterTable (nodes e.1)) g (j + 1) /
        specXS G (nodes e.1) .scatter g) * A (j + 1) := by
    intro e he
    have hl : (colEntries G (scatterTable (nodes e.1)) g).length = G := by simp [colEntries]
    simp only [hF2, if_true]
    rw [lintegral_byWeight (colEntries_nonneg (scatterTable_nonneg (hN e he)) G g) m3, hl]
    refine Finset.sum_congr rfl fun j hj => ?_
    rw [i3, colEntries_getD G _ g (Finset.mem_range.1 hj), specXS_scatter]
    rfl
  have i1 : ∀ i e, m.afracs[i]? = some e → ∫⁻ us, F1 i us ∂uniforms =
      ENNReal.ofReal (specXS G (nodes e.1) .scatter g / specTotal G (nodes e.1) g) *
        ∫⁻ us, F2 (nodes e.1) 1 us ∂uniforms := by
    intro i e hi
    have he := List.mem_of_getElem? hi
    simp only [hF1, hi, Option.elim_some]
    rw [lintegral_byWeight (by
      intro x h
      simp only [List.mem_cons, List.not_mem_nil, or_false] at h
      rcases h with rfl | rfl | rfl <;> exact hx e he _) (m2 (nodes e.1))]
    have z0 : ∫⁻ us, F2 (nodes e.1) 0 us ∂uniforms = 0 := by simp [hF2]
    have z2 : ∫⁻ us, F2 (nodes e.1) 2 us ∂uniforms = 0 := by simp [hF2]
    simp only [List.length_cons, List.length_nil, zero_add, Nat.reduceAdd, Finset.sum_range_succ,
      Finset.sum_range_zero, z0, z2, mul_zero, add_zero]
    congr 2
    simp [specTotal, add_assoc]
  have step : ∀ i ∈ Finset.range m.afracs.length,
      ENNReal.ofReal ((m.afracs.map fun e => e.2 * specTotal G (nodes e.1) g).getD i 0 /
        (m.afracs.map fun e => e.2 * specTotal G (nodes e.1) g).sum) * ∫⁻ us, F1 i us ∂uniforms =
      ∑ j ∈ Finset.range G, ENNReal.ofReal (m.afracs[i]?.elim 0 (fun e =>
        e.2 * entry2 G (scatterTable (nodes e.1)) g (j + 1)) / S) * A (j + 1) := by
    intro i hi
    have hi' := Finset.mem_range.1 hi
    have hs : m.afracs[i]? = some m.afracs[i] := List.getElem?_eq_getElem hi'
    have he := List.getElem_mem hi'
    rw [i1 i _ hs, i2 _ he, Finset.mul_sum, Finset.mul_sum]
    refine Finset.sum_congr rfl fun j hj => ?_
    have hg : (m.afracs.map fun e => e.2 * specTotal G (nodes e.1) g).getD i 0 =
        (m.afracs[i]).2 * specTotal G (nodes (m.afracs[i]).1) g := by
      rw [List.getD_eq_getElem?_getD]
      simp [hi']
    rw [hg, hs, Option.elim_some, ← mul_assoc, ← mul_assoc]
    congr 1
    rw [mul_assoc]
    have hns := scatterTable_nonneg (hN _ he)
    refine three_choices (hf _ he) (entry2_nonneg hns G g _) ?_ ?_ hS0
    · rw [specXS_scatter]
      exact entry_le_colSum hns G g (Finset.mem_range.1 hj)
    · unfold specTotal
      have h1 := hx _ he .capture
      have h2 := hx _ he .fission
      linarith
  rw [Finset.sum_congr rfl step, Finset.sum_comm]
  have hIcc : ∑ g' ∈ Finset.Icc 1 G, ENNReal.ofReal
        ((m.afracs.map fun e => e.2 * entry2 G (scatterTable (nodes e.1)) g g').sum / S) * A g' =
      ∑ j ∈ Finset.range G, ENNReal.ofReal
        ((m.afracs.map fun e => e.2 * entry2 G (scatterTable (nodes e.1)) g (j + 1)).sum / S) *
          A (j + 1) := by
    rw [show Finset.Icc 1 G = Finset.Ico 1 (G + 1) by ext; simp, Finset.sum_Ico_eq_sum_range]
    simp [add_comm]
  rw [hIcc]
  refine Finset.sum_congr rfl fun j _ => ?_
  rw [← Finset.sum_mul, sum_map_range, Finset.sum_div, ENNReal.ofReal_sum_of_nonneg]
  intro i hi
  have hi' := Finset.mem_range.1 hi
  rw [List.getElem?_eq_getElem hi', Option.elim_some]
  have he := List.getElem_mem hi'
  exact div_nonneg (mul_nonneg (hf _ he) (entry2_nonneg (scatterTable_nonneg (hN _ he)) G g _)) hS0

end Minimc
