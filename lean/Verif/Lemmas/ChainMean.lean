import Verif.Lemmas.Chain
import Verif.Props.Multigroup

/-! # Chains of neutrons: the mean after a collision -/

namespace Minimc

open Classical MeasureTheory Spec Set
open scoped ENNReal

theorem sphereMean_add {F F' : Direction → ℝ≥0∞} (hF : Measurable F) (hF' : Measurable F') :
    sphereMean (fun d => F d + F' d) = sphereMean F + sphereMean F' := by
  rw [sphereMean_eq hF, sphereMean_eq hF', sphereMean_eq (show Measurable fun d => F d + F' d from hF.add hF'),
    lintegral_add_left]
  exact hF.comp (measurable_directionFrom (measurable_pi_apply 0) (measurable_pi_apply 1))

theorem sum_shares {ws : List ℝ} (hnn : ∀ w ∈ ws, 0 ≤ w) (h : ws.sum ≠ 0) :
    ∑ j ∈ Finset.range ws.length, ENNReal.ofReal (ws.getD j 0 / ws.sum) = 1 := by
  have h0 : 0 ≤ ws.sum := List.sum_nonneg hnn
  rw [← ENNReal.ofReal_sum_of_nonneg, ← Finset.sum_div]
  · have e := sum_map_range ws id
    rw [List.map_id] at e
    have : ∑ j ∈ Finset.range ws.length, ws.getD j 0 = ws.sum := by
      rw [e]
      refine Finset.sum_congr rfl fun j hj => ?_
      rw [List.getD_eq_getElem?_getD, List.getElem?_eq_getElem (Finset.mem_range.1 hj)]
      rfl
    rw [this, div_self h, ENNReal.ofReal_one]
  · intro j hj
    refine div_nonneg ?_ h0
    rw [List.getD_eq_getElem?_getD, List.getElem?_eq_getElem (Finset.mem_range.1 hj)]
    exact hnn _ (List.getElem_mem _)

/-- The mean score of the neutrons of a fission is their number times the mean score of one. -/
theorem lintegral_births {ws : List ℝ} (hnn : ∀ w ∈ ws, 0 ≤ w)
    {start : Direction → ℕ → (ℕ → ℝ) → ℝ≥0∞}
    (hs : ∀ g', Measurable fun q : Direction × (ℕ → ℝ) => start q.1 g' q.2) (k : ℕ) :
    ∫⁻ us, births endless ws start k us ∂uniforms =
      k * ∑ j ∈ Finset.range ws.length, ENNReal.ofReal (ws.getD j 0 / ws.sum) *
        sphereMean fun d => ∫⁻ us, start d (j + 1) us ∂uniforms := by
  induction k with
  | zero => simp [births]
  | succ k ih =>
    set T := ∑ j ∈ Finset.range ws.length, ENNReal.ofReal (ws.getD j 0 / ws.sum) *
        sphereMean fun d => ∫⁻ us, start d (j + 1) us ∂uniforms with hT
    have mb : Measurable fun us => births endless ws start k us :=
      (measurable_births (α := Unit) ws (start := fun _ => start)
        (fun g' => (hs g').comp measurable_snd) k).comp ((measurable_const (a := ())).prodMk measurable_id)
    set H : ℕ → Direction → (ℕ → ℝ) → ℝ≥0∞ := fun j d us =>
      start d (j + 1) (endless.child us) + births endless ws start k (endless.after us) with hH
    have mH1 : ∀ j, Measurable fun q : Direction × (ℕ → ℝ) => start q.1 (j + 1) (endless.child q.2) :=
      fun j => (hs (j + 1)).comp
        (measurable_fst.prodMk (measurePreserving_child.measurable.comp measurable_snd))
    have mH : ∀ j, Measurable fun q : Direction × (ℕ → ℝ) => H j q.1 q.2 := fun j =>
      (mH1 j).add (mb.comp (measurePreserving_after.measurable.comp measurable_snd))
    set F : ℕ → (ℕ → ℝ) → ℝ≥0∞ := fun j us =>
      H j (directionFrom (us 0) (us 1)) fun k => us (k + 2) with hF
    have mF : ∀ j, Measurable (F j) := fun j =>
      (mH j).comp ((measurable_directionFrom (measurable_pi_apply 0)
        (measurable_pi_apply 1)).prodMk (measurable_shift measurable_id 2))
    have e0 : ∀ us, births endless ws start (k + 1) us =
        byWeight ws (us 0) fun j => F j fun k => us (k + 1) := by
      intro us
      simp only [births, endless_numbers, endless_rest, endless_number]
      rfl
    have e1 : ∀ j, ∫⁻ us, F j us ∂uniforms =
        sphereMean (fun d => ∫⁻ us, start d (j + 1) us ∂uniforms) + k * T := by
      intro j
      refine (lintegral_directionFrom (mH j)).trans ?_
      have e2 : ∀ d, ∫⁻ us, H j d us ∂uniforms =
          ∫⁻ us, start d (j + 1) us ∂uniforms + k * T := by
        intro d
        have m1 : Measurable fun us => start d (j + 1) us :=
          (hs (j + 1)).comp (measurable_const.prodMk measurable_id)
        simp only [hH]
        rw [lintegral_add_left (show Measurable fun us => start d (j + 1) (endless.child us) from
            m1.comp measurePreserving_child.measurable),
          measurePreserving_child.lintegral_comp m1, measurePreserving_after.lintegral_comp mb, ih]
      simp only [e2]
      rw [sphereMean_add (hs (j + 1)).lintegral_prod_right' measurable_const, sphereMean_const]
    simp only [e0]
    rw [lintegral_byWeight hnn mF]
    simp only [e1, mul_add, Finset.sum_add_distrib]
    rw [← hT, ← Finset.sum_mul]
    by_cases h : ws.sum = 0
    · have : T = 0 := by
        rw [hT]
        refine Finset.sum_eq_zero fun j _ => ?_
        rw [h, div_zero, ENNReal.ofReal_zero, zero_mul]
      simp [this]
    · rw [sum_shares hnn h]
      push_cast
      ring

/-- The mean yield. -/
theorem lintegral_yield {nu : ℝ} (hnu : 0 ≤ nu) :
    ∫⁻ u, (⌊nu + u⌋₊ : ℝ≥0∞) ∂uniform = ENNReal.ofReal nu := by
  obtain ⟨N, hN, hint⟩ := Props.C21_unbiased hnu
  have hNe : ∀ u ∈ Ico (0 : ℝ) 1, N u = ⌊nu + u⌋₊ := by
    intro u hu
    have h1 := (hN u hu).1
    rw [Multigroup.toSize_ok (by linarith [hu.1])] at h1
    exact (Except.ok.inj h1).symm
  rw [setIntegral_congr_fun (g := fun u => (⌊nu + u⌋₊ : ℝ)) measurableSet_Ico fun u hu => by
    rw [hNe u hu]] at hint
  have hmeas : Measurable fun u : ℝ => (⌊nu + u⌋₊ : ℝ) :=
    (measurable_of_countable (fun n : ℕ => (n : ℝ))).comp
      (Nat.measurable_floor.comp (measurable_const.add measurable_id))
  have hi : Integrable (fun u : ℝ => (⌊nu + u⌋₊ : ℝ)) (volume.restrict (Ico (0 : ℝ) 1)) := by
    refine Measure.integrableOn_of_bounded (M := nu + 1) (by simp) hmeas.aestronglyMeasurable ?_
    refine (ae_restrict_mem measurableSet_Ico).mono fun u hu => ?_
    rw [Real.norm_of_nonneg (by positivity)]
    exact (Nat.floor_le (by linarith [hu.1])).trans (by linarith [hu.2])
  have key := ofReal_integral_eq_lintegral_ofReal hi (Filter.Eventually.of_forall fun u => by positivity)
  rw [hint] at key
  rw [key]
  unfold uniform
  simp

theorem entry1_nonneg' {l : List ℝ} (h : ∀ x ∈ l, 0 ≤ x) (g : ℕ) : 0 ≤ entry1 l g := by
  unfold entry1
  rw [List.getD_eq_getElem?_getD]
  cases e : l[g - 1]? with
  | none => simp
  | some x => exact h x (List.mem_of_getElem? e)

theorem nubarTable_nonneg {nodes : List MgNode} (h : NonnegNodes nodes) :
    ∀ x ∈ nubarTable nodes, 0 ≤ x := by
  unfold nubarTable
  induction nodes with
  | nil => simp
  | cons n l ih =>
    have ih := ih fun n hn => h n (by simp [hn])
    cases n with
    | capture xs => simpa using ih
    | scatter flat => simpa using ih
    | fission a b xs =>
      have := (h (.fission a b xs) (by simp)).2.1
      cases a with
      | none => simp
      | some l => simpa using this l rfl

theorem chiTable_nonneg {nodes : List MgNode} (h : NonnegNodes nodes) :
    ∀ x ∈ chiTable nodes, 0 ≤ x := by
  unfold chiTable
  induction nodes with
  | nil => simp
  | cons n l ih =>
    have ih := ih fun n hn => h n (by simp [hn])
    cases n with
    | capture xs => simpa using ih
    | scatter flat => simpa using ih
    | fission a b xs =>
      have := (h (.fission a b xs) (by simp)).2.2
      cases b with
      | none => simp
      | some l => simpa using this l rfl

/-- The probabilities of the nuclide and of fission, the yield and the share of the group together. -/
theorem four_factors {a σ σf nu q S : ℝ} (ha : 0 ≤ a) (hf : 0 ≤ σf) (h : σf ≤ σ) (hnu : 0 ≤ nu)
    (_hq : 0 ≤ q) (hS : 0 ≤ S) :
    ENNReal.ofReal (a * σ / S) * (ENNReal.ofReal (σf / σ) * (ENNReal.ofReal nu * ENNReal.ofReal q)) =
      ENNReal.ofReal (a * (σf * nu * q) / S) := by
  have hσ : 0 ≤ σ := hf.trans h
  rw [← ENNReal.ofReal_mul (by positivity), ← ENNReal.ofReal_mul (by positivity),
    ← ENNReal.ofReal_mul (by positivity)]
  congr 1
  rcases hσ.eq_or_lt with h' | h'
  · have : σf = 0 := by linarith
    simp [this]
  · field_simp

/-- The mean of what fission adds: for each group the mean number of neutrons made in it times the mean
over all directions. -/
theorem lintegral_afterFission {G : ℕ} {nodes : Nuclide → List MgNode} {m : Material} {g : ℕ}
    (hf : ∀ e ∈ m.afracs, 0 ≤ e.2) (hN : ∀ e ∈ m.afracs, NonnegNodes (nodes e.1))
    {start : Direction → ℕ → (ℕ → ℝ) → ℝ≥0∞}
    (hs : ∀ g', Measurable fun q : Direction × (ℕ → ℝ) => start q.1 g' q.2) :
    ∫⁻ us, afterFission G nodes m g start us ∂uniforms =
      ∑ g' ∈ Finset.Icc 1 G, ENNReal.ofReal
        ((m.afracs.map fun e => e.2 * (specXS G (nodes e.1) .fission g *
            entry1 (nubarTable (nodes e.1)) g *
              (entry2 G (chiTable (nodes e.1)) g g' / colSum G (chiTable (nodes e.1)) g))).sum /
          (m.afracs.map fun e => e.2 * specTotal G (nodes e.1) g).sum) *
        sphereMean fun d => ∫⁻ us, start d g' us ∂uniforms := by
  have hx : ∀ e ∈ m.afracs, ∀ r, 0 ≤ specXS G (nodes e.1) r g := fun e he r =>
    specXS_nonneg' (hN e he) G r g
  set S := (m.afracs.map fun e => e.2 * specTotal G (nodes e.1) g).sum with hS
  set A := fun g' => sphereMean fun d => ∫⁻ us, start d g' us ∂uniforms with hA
  have hnn : ∀ x ∈ m.afracs.map (fun e => e.2 * specTotal G (nodes e.1) g), 0 ≤ x := by
    intro x h
    obtain ⟨e, he, rfl⟩ := List.mem_map.1 h
    have := hx e he
    exact mul_nonneg (hf e he) (add_nonneg (add_nonneg (this _) (this _)) (this _))
  have hS0 : 0 ≤ S := List.sum_nonneg hnn
  have mb : ∀ ws, Measurable fun q : ℕ × (ℕ → ℝ) => births endless ws start q.1 q.2 := fun ws =>
    measurable_from_prod_countable_right fun k =>
      (measurable_births (α := Unit) ws (start := fun _ => start)
        (fun g' => (hs g').comp measurable_snd) k).comp ((measurable_const (a := ())).prodMk measurable_id)
  set F2 : List MgNode → ℕ → (ℕ → ℝ) → ℝ≥0∞ := fun ns r us =>
    if r = 2 then births endless (colEntries G (chiTable ns) g) start
      ⌊entry1 (nubarTable ns) g + us 0⌋₊ fun k => us (k + 1)
    else 0 with hF2
  set F1 : ℕ → (ℕ → ℝ) → ℝ≥0∞ := fun i us => m.afracs[i]?.elim 0 fun e =>
    byWeight [specXS G (nodes e.1) .capture g, specXS G (nodes e.1) .scatter g,
      specXS G (nodes e.1) .fission g] (us 0) fun r => F2 (nodes e.1) r fun k => us (k + 1) with hF1
  have mfl : ∀ nu : ℝ, Measurable fun q : ℝ × (ℕ → ℝ) => (⌊nu + q.1⌋₊, q.2) := fun nu =>
    (Nat.measurable_floor.comp (measurable_const.add measurable_fst)).prodMk measurable_snd
  have m2 : ∀ ns r, Measurable (F2 ns r) := by
    intro ns r
    simp only [hF2]
    split_ifs
    · exact ((mb _).comp (mfl _)).comp ((measurable_pi_apply 0).prodMk (measurable_shift measurable_id 1))
    · exact measurable_const
  have m1 : ∀ i, Measurable (F1 i) := by
    intro i
    simp only [hF1]
    cases m.afracs[i]? with
    | none => exact measurable_const
    | some e =>
      exact measurable_byWeight _ (measurable_pi_apply 0) fun r =>
        (m2 _ r).comp (measurable_shift measurable_id 1)
  have e0 : ∀ us, afterFission G nodes m g start us =
      byWeight (m.afracs.map fun e => e.2 * specTotal G (nodes e.1) g) (us 0)
        fun i => F1 i fun k => us (k + 1) := fun us => rfl
  simp only [e0]
  rw [lintegral_byWeight hnn m1, List.length_map]
  have i2 : ∀ e ∈ m.afracs, ∫⁻ us, F2 (nodes e.1) 2 us ∂uniforms =
      ENNReal.ofReal (entry1 (nubarTable (nodes e.1)) g) *
        ∑ j ∈ Finset.range G, ENNReal.ofReal (entry2 G (chiTable (nodes e.1)) g (j + 1) /
          colSum G (chiTable (nodes e.1)) g) * A (j + 1) := by
    intro e he
    have hl : (colEntries G (chiTable (nodes e.1)) g).length = G := by simp [colEntries]
    simp only [hF2, if_true]
    refine (lintegral_first (F := fun u us => births endless (colEntries G (chiTable (nodes e.1)) g) start
      ⌊entry1 (nubarTable (nodes e.1)) g + u⌋₊ us) ((mb _).comp (mfl _))).trans ?_
    simp only [lintegral_births (colEntries_nonneg (chiTable_nonneg (hN e he)) G g) hs]
    rw [lintegral_mul_const, lintegral_yield (entry1_nonneg' (nubarTable_nonneg (hN e he)) g), hl]
    · congr 1
      refine Finset.sum_congr rfl fun j hj => ?_
      rw [colEntries_getD G _ g (Finset.mem_range.1 hj)]
      rfl
    · exact (measurable_of_countable (fun n : ℕ => (n : ℝ≥0∞))).comp
        (Nat.measurable_floor.comp (measurable_const.add measurable_id))
  have i1 : ∀ i e, m.afracs[i]? = some e → ∫⁻ us, F1 i us ∂uniforms =
      ENNReal.ofReal (specXS G (nodes e.1) .fission g / specTotal G (nodes e.1) g) *
        ∫⁻ us, F2 (nodes e.1) 2 us ∂uniforms := by
    intro i e hi
    have he := List.mem_of_getElem? hi
    simp only [hF1, hi, Option.elim_some]
    rw [lintegral_byWeight (by
      intro x h
      simp only [List.mem_cons, List.not_mem_nil, or_false] at h
      rcases h with rfl | rfl | rfl <;> exact hx e he _) (m2 (nodes e.1))]
    have z0 : ∫⁻ us, F2 (nodes e.1) 0 us ∂uniforms = 0 := by simp [hF2]
    have z1 : ∫⁻ us, F2 (nodes e.1) 1 us ∂uniforms = 0 := by simp [hF2]
    simp only [List.length_cons, List.length_nil, zero_add, Nat.reduceAdd, Finset.sum_range_succ,
      Finset.sum_range_zero, z0, z1, mul_zero, add_zero]
    congr 2
    simp [specTotal, add_assoc]
  have step : ∀ i ∈ Finset.range m.afracs.length,
      ENNReal.ofReal ((m.afracs.map fun e => e.2 * specTotal G (nodes e.1) g).getD i 0 /
        (m.afracs.map fun e => e.2 * specTotal G (nodes e.1) g).sum) * ∫⁻ us, F1 i us ∂uniforms =
      ∑ j ∈ Finset.range G, ENNReal.ofReal (m.afracs[i]?.elim 0 (fun e =>
        e.2 * (specXS G (nodes e.1) .fission g * entry1 (nubarTable (nodes e.1)) g *
          (entry2 G (chiTable (nodes e.1)) g (j + 1) / colSum G (chiTable (nodes e.1)) g))) / S) *
            A (j + 1) := by
    intro i hi
    have hi' := Finset.mem_range.1 hi
    have hs : m.afracs[i]? = some m.afracs[i] := List.getElem?_eq_getElem hi'
    have he := List.getElem_mem hi'
    rw [i1 i _ hs, i2 _ he, Finset.mul_sum, Finset.mul_sum, Finset.mul_sum]
    refine Finset.sum_congr rfl fun j hj => ?_
    have hg : (m.afracs.map fun e => e.2 * specTotal G (nodes e.1) g).getD i 0 =
        (m.afracs[i]).2 * specTotal G (nodes (m.afracs[i]).1) g := by
      rw [List.getD_eq_getElem?_getD]
      simp [hi']
    rw [hg, hs, Option.elim_some, ← mul_assoc, ← mul_assoc, ← mul_assoc]
    congr 1
    rw [mul_assoc, mul_assoc]
    have hns := chiTable_nonneg (hN _ he)
    refine four_factors (hf _ he) (hx _ he _) ?_ (entry1_nonneg' (nubarTable_nonneg (hN _ he)) g)
      (div_nonneg (entry2_nonneg hns G g _) (List.sum_nonneg (colEntries_nonneg hns G g))) hS0
    unfold specTotal
    have h1 := hx _ he .capture
    have h2 := hx _ he .scatter
    linarith
  rw [Finset.sum_congr rfl step, Finset.sum_comm]
  rw [show Finset.Icc 1 G = Finset.Ico 1 (G + 1) by ext; simp, Finset.sum_Ico_eq_sum_range,
    Nat.add_sub_cancel]
  refine Finset.sum_congr rfl fun j _ => ?_
  rw [← Finset.sum_mul, sum_map_range, Finset.sum_div, ENNReal.ofReal_sum_of_nonneg, add_comm 1 j]
  intro i hi
  have hi' := Finset.mem_range.1 hi
  rw [List.getElem?_eq_getElem hi', Option.elim_some]
  have he := List.getElem_mem hi'
  have hns := chiTable_nonneg (hN _ he)
  have h1 := hf _ he
  have h2 := hx _ he .fission
  have h3 := entry1_nonneg' (nubarTable_nonneg (hN _ he)) g
  have h4 : 0 ≤ colSum G (chiTable (nodes (m.afracs[i]).1)) g :=
    List.sum_nonneg (colEntries_nonneg hns G g)
  have h5 := entry2_nonneg hns G g (1 + j)
  positivity

end Minimc
