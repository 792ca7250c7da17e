import Verif.Lemmas.ChainLimit
import Verif.Lemmas.ChainFollows
import Mathlib.Probability.Independence.InfinitePi
import Mathlib.Probability.Independence.Integration

/-! # Chains of neutrons: the square of the score -/

namespace Minimc

open Classical MeasureTheory Spec Set ProbabilityTheory
open scoped ENNReal

/-- The numbers of a new neutron are independent of those that are left. -/
theorem lintegral_split {f h : (ℕ → ℝ) → ℝ≥0∞} (hf : Measurable f) (hh : Measurable h) :
    ∫⁻ us, f (endless.child us) * h (endless.after us) ∂uniforms =
      (∫⁻ us, f us ∂uniforms) * ∫⁻ us, h us ∂uniforms := by
  have hind : iIndepFun (fun (i : ℕ) (us : ℕ → ℝ) => us i) uniforms :=
    iIndepFun_infinitePi (P := fun _ : ℕ => uniform) (X := fun _ x => x) fun _ => measurable_id
  have hdis : Disjoint {i : ℕ | i % 2 = 0} {i | i % 2 = 1} := by
    rw [Set.disjoint_left]
    intro i h0 h1
    simp only [Set.mem_ofPred_eq] at h0 h1
    omega
  have h2 := indep_iSup_of_disjoint (m := fun i : ℕ => MeasurableSpace.comap
    (fun us : ℕ → ℝ => us i) inferInstance) (fun i => (measurable_pi_apply i).comap_le) hind hdis
  have hc : IndepFun endless.child endless.after uniforms := by
    refine indep_of_indep_of_le_left (indep_of_indep_of_le_right h2 ?_) ?_
    · change MeasurableSpace.comap endless.after (⨆ k : ℕ, MeasurableSpace.comap
        (fun us : ℕ → ℝ => us k) inferInstance) ≤ _
      rw [MeasurableSpace.comap_iSup]
      refine iSup_le fun k => ?_
      rw [MeasurableSpace.comap_comp]
      exact le_iSup₂_of_le (f := fun i (_ : i ∈ {i : ℕ | i % 2 = 1}) => MeasurableSpace.comap
        (fun us : ℕ → ℝ => us i) inferInstance) (2 * k + 1) (by simp [Nat.add_mod]) le_rfl
    · change MeasurableSpace.comap endless.child (⨆ k : ℕ, MeasurableSpace.comap
        (fun us : ℕ → ℝ => us k) inferInstance) ≤ _
      rw [MeasurableSpace.comap_iSup]
      refine iSup_le fun k => ?_
      rw [MeasurableSpace.comap_comp]
      exact le_iSup₂_of_le (f := fun i (_ : i ∈ {i : ℕ | i % 2 = 0}) => MeasurableSpace.comap
        (fun us : ℕ → ℝ => us i) inferInstance) (2 * k) (by simp) le_rfl
  have h3 := lintegral_mul_eq_lintegral_mul_lintegral_of_indepFun
    (hf.comp measurePreserving_child.measurable) (hh.comp measurePreserving_after.measurable)
    (hc.comp hf hh)
  rw [measurePreserving_child.lintegral_comp hf |>.symm,
    measurePreserving_after.lintegral_comp hh |>.symm]
  exact h3

/-- Only one item is chosen. -/
theorem byWeight_sq {ws : List ℝ} (hnn : ∀ w ∈ ws, 0 ≤ w) (u : ℝ) (F : ℕ → ℝ≥0∞) :
    byWeight ws u F ^ 2 = byWeight ws u fun i => F i ^ 2 := by
  by_cases h : ∃ i, Selected ws (u * ws.sum) i
  · obtain ⟨i, hi⟩ := h
    have : ∀ j, Selected ws (u * ws.sum) j ↔ j = i :=
      fun j => ⟨fun h => Selected.unique hnn h hi, fun h => h ▸ hi⟩
    rw [byWeight_eq this, byWeight_eq this]
  · push Not at h
    simp [byWeight, h]

/-- The mean score of a new neutron. -/
noncomputable def newborn (ws : List ℝ) (start : Direction → ℕ → (ℕ → ℝ) → ℝ≥0∞) : ℝ≥0∞ :=
  ∑ j ∈ Finset.range ws.length, ENNReal.ofReal (ws.getD j 0 / ws.sum) *
    sphereMean fun d => ∫⁻ us, start d (j + 1) us ∂uniforms

theorem measurable_births' {ws : List ℝ} {start : Direction → ℕ → (ℕ → ℝ) → ℝ≥0∞}
    (hs : ∀ g', Measurable fun q : Direction × (ℕ → ℝ) => start q.1 g' q.2) (k : ℕ) :
    Measurable fun us => births endless ws start k us :=
  (measurable_births (α := Unit) ws (start := fun _ => start)
    (fun g' => (hs g').comp measurable_snd) k).comp ((measurable_const (a := ())).prodMk measurable_id)

theorem sphereMean_const_mul {F : Direction → ℝ≥0∞} (hF : Measurable F) (a : ℝ≥0∞) :
    sphereMean (fun d => a * F d) = a * sphereMean F := by
  rw [sphereMean_eq hF, sphereMean_eq (show Measurable fun d => a * F d from hF.const_mul a),
    lintegral_const_mul]
  exact hF.comp (measurable_directionFrom (measurable_pi_apply 0) (measurable_pi_apply 1))

/-- The mean square of the score of the neutrons of a fission. -/
theorem lintegral_births_sq {ws : List ℝ} (hnn : ∀ w ∈ ws, 0 ≤ w) (hsum : ws.sum ≠ 0)
    {start : Direction → ℕ → (ℕ → ℝ) → ℝ≥0∞}
    (hs : ∀ g', Measurable fun q : Direction × (ℕ → ℝ) => start q.1 g' q.2) (k : ℕ) :
    ∫⁻ us, births endless ws start k us ^ 2 ∂uniforms =
      k * newborn ws (fun d g us => start d g us ^ 2) + (k * (k - 1 : ℕ) : ℕ) * newborn ws start ^ 2 := by
  induction k with
  | zero => simp [births]
  | succ k ih =>
    set T1 := newborn ws start with hT1
    set T2 := newborn ws (fun d g us => start d g us ^ 2) with hT2
    set B2 := ∫⁻ us, births endless ws start k us ^ 2 ∂uniforms with hB2
    have hb : ∫⁻ us, births endless ws start k us ∂uniforms = k * T1 := lintegral_births hnn hs k
    have mb := measurable_births' (ws := ws) hs k
    have mc := measurePreserving_child.measurable
    have ma := measurePreserving_after.measurable
    set H : ℕ → Direction → (ℕ → ℝ) → ℝ≥0∞ := fun j d us =>
      start d (j + 1) (endless.child us) + births endless ws start k (endless.after us) with hH
    have mH : ∀ j, Measurable fun q : Direction × (ℕ → ℝ) => H j q.1 q.2 ^ 2 := fun j =>
      (((hs (j + 1)).comp (measurable_fst.prodMk (mc.comp measurable_snd))).add
        (mb.comp (ma.comp measurable_snd))).pow_const 2
    set F : ℕ → (ℕ → ℝ) → ℝ≥0∞ := fun j us =>
      H j (directionFrom (us 0) (us 1)) (fun k => us (k + 2)) ^ 2 with hF
    have mF : ∀ j, Measurable (F j) := fun j =>
      (mH j).comp ((measurable_directionFrom (measurable_pi_apply 0)
        (measurable_pi_apply 1)).prodMk (measurable_shift measurable_id 2))
    have e0 : ∀ us, births endless ws start (k + 1) us ^ 2 =
        byWeight ws (us 0) fun j => F j fun k => us (k + 1) := by
      intro us
      simp only [births, endless_numbers, endless_rest, endless_number]
      rw [byWeight_sq hnn]
    have e2 : ∀ j d, ∫⁻ us, H j d us ^ 2 ∂uniforms =
        ∫⁻ us, start d (j + 1) us ^ 2 ∂uniforms +
          (2 * (k * T1) * ∫⁻ us, start d (j + 1) us ∂uniforms + B2) := by
      intro j d
      have m1 : Measurable fun us => start d (j + 1) us :=
        (hs (j + 1)).comp (measurable_const.prodMk measurable_id)
      have hsq : ∀ us, H j d us ^ 2 = start d (j + 1) (endless.child us) ^ 2 +
          (2 * (start d (j + 1) (endless.child us) * births endless ws start k (endless.after us)) +
            births endless ws start k (endless.after us) ^ 2) := by
        intro us
        simp only [hH]
        ring
      simp only [hsq]
      have q1 : Measurable fun us => start d (j + 1) (endless.child us) := m1.comp mc
      have q2 : Measurable fun us => births endless ws start k (endless.after us) := mb.comp ma
      have q3 : Measurable fun us => start d (j + 1) (endless.child us) *
          births endless ws start k (endless.after us) := q1.mul q2
      rw [lintegral_add_left (q1.pow_const 2), lintegral_add_left (q3.const_mul 2),
        lintegral_const_mul _ q3, lintegral_split m1 mb, hb,
        measurePreserving_child.lintegral_comp (m1.pow_const 2),
        measurePreserving_after.lintegral_comp (mb.pow_const 2)]
      ring
    have e1 : ∀ j, ∫⁻ us, F j us ∂uniforms =
        sphereMean (fun d => ∫⁻ us, start d (j + 1) us ^ 2 ∂uniforms) +
          (2 * (k * T1) * sphereMean (fun d => ∫⁻ us, start d (j + 1) us ∂uniforms) + B2) := by
      intro j
      refine (lintegral_directionFrom (F := fun d us => H j d us ^ 2) (mH j)).trans ?_
      simp only [e2]
      have n1 : Measurable fun d => ∫⁻ us, start d (j + 1) us ∂uniforms :=
        (hs (j + 1)).lintegral_prod_right'
      have n2 : Measurable fun d => ∫⁻ us, start d (j + 1) us ^ 2 ∂uniforms :=
        ((hs (j + 1)).pow_const 2).lintegral_prod_right'
      have n3 : Measurable fun d => 2 * (k * T1) * (∫⁻ us, start d (j + 1) us ∂uniforms) + B2 :=
        (n1.const_mul _).add measurable_const
      rw [sphereMean_add n2 n3,
        sphereMean_add (n1.const_mul _) measurable_const, sphereMean_const, sphereMean_const_mul n1]
    simp only [e0]
    rw [lintegral_byWeight hnn mF]
    simp only [e1, mul_add, Finset.sum_add_distrib]
    rw [← Finset.sum_mul, sum_shares hnn hsum, one_mul, ih]
    have e4 : ∑ j ∈ Finset.range ws.length, ENNReal.ofReal (ws.getD j 0 / ws.sum) *
        (2 * (k * T1) * sphereMean fun d => ∫⁻ us, start d (j + 1) us ∂uniforms) =
        2 * (k * T1) * T1 := by
      simp only [mul_left_comm _ (2 * (k * T1))]
      rw [← Finset.mul_sum]
      rfl
    have e5 : ∑ j ∈ Finset.range ws.length, ENNReal.ofReal (ws.getD j 0 / ws.sum) *
        (sphereMean fun d => ∫⁻ us, start d (j + 1) us ^ 2 ∂uniforms) = T2 := rfl
    rw [e4, e5]
    cases k with
    | zero => simp
    | succ k =>
      simp only [Nat.add_sub_cancel]
      push_cast
      ring

/-! ### A collision -/

/-- A collision of which only fission counts, if the yield counts as given. -/
noncomputable def afterYield (G : ℕ) (nodes : Nuclide → List MgNode) (m : Material) (g : ℕ)
    (B : List ℝ → ℕ → (ℕ → ℝ) → ℝ≥0∞) (us : ℕ → ℝ) : ℝ≥0∞ :=
  byWeight (m.afracs.map fun e => e.2 * specTotal G (nodes e.1) g) (us 0) fun i =>
    m.afracs[i]?.elim 0 fun e =>
      byWeight [specXS G (nodes e.1) .capture g, specXS G (nodes e.1) .scatter g,
          specXS G (nodes e.1) .fission g] (us 1) fun r =>
        if r = 2 then
          B (colEntries G (chiTable (nodes e.1)) g) ⌊entry1 (nubarTable (nodes e.1)) g + us 2⌋₊
            fun k => us (k + 3)
        else 0

section

variable {G : ℕ} {nodes : Nuclide → List MgNode} {m : Material} {g : ℕ}

theorem weights_nonneg (hf : ∀ e ∈ m.afracs, 0 ≤ e.2) (hN : ∀ e ∈ m.afracs, NonnegNodes (nodes e.1)) :
    ∀ x ∈ m.afracs.map (fun e => e.2 * specTotal G (nodes e.1) g), 0 ≤ x := by
  intro x h
  obtain ⟨e, he, rfl⟩ := List.mem_map.1 h
  have := fun r => specXS_nonneg' (hN e he) G r g
  exact mul_nonneg (hf e he) (add_nonneg (add_nonneg (this _) (this _)) (this _))

theorem reactions_nonneg {ns : List MgNode} (h : NonnegNodes ns) :
    ∀ x ∈ [specXS G ns .capture g, specXS G ns .scatter g, specXS G ns .fission g], 0 ≤ x := by
  intro x hx
  simp only [List.mem_cons, List.not_mem_nil, or_false] at hx
  rcases hx with rfl | rfl | rfl <;> exact specXS_nonneg' h G _ g

/-- The square of what a collision scores. -/
theorem afterEvent_sq (hf : ∀ e ∈ m.afracs, 0 ≤ e.2) (hN : ∀ e ∈ m.afracs, NonnegNodes (nodes e.1))
    (next start : Direction → ℕ → (ℕ → ℝ) → ℝ≥0∞) (us : ℕ → ℝ) :
    afterEvent endless G nodes m g next start us ^ 2 =
      afterCollision G nodes m g (fun d g us => next d g us ^ 2) us +
        afterYield G nodes m g (fun ws k us => births endless ws start k us ^ 2) us := by
  unfold afterEvent afterCollision afterYield
  rw [← byWeight_add, byWeight_sq (weights_nonneg hf hN)]
  simp only [endless_numbers, endless_rest]
  congr 1
  funext i
  cases hi : m.afracs[i]? with
  | none => simp
  | some e =>
    have he := List.mem_of_getElem? hi
    simp only [Option.elim_some]
    rw [← byWeight_add, byWeight_sq (reactions_nonneg (hN e he))]
    congr 1
    funext r
    by_cases h1 : r = 1
    · subst h1
      simp [byWeight_sq (colEntries_nonneg (scatterTable_nonneg (hN e he)) G g)]
    · by_cases h2 : r = 2
      · simp [h2]
      · simp [h1, h2]

/-- What counts more for each yield counts more on average. -/
theorem lintegral_afterYield_le (hf : ∀ e ∈ m.afracs, 0 ≤ e.2)
    (hN : ∀ e ∈ m.afracs, NonnegNodes (nodes e.1)) {B B' : List ℝ → ℕ → (ℕ → ℝ) → ℝ≥0∞}
    (mB : ∀ ws k, Measurable (B ws k)) (mB' : ∀ ws k, Measurable (B' ws k))
    (h : ∀ e ∈ m.afracs, ∀ k : ℕ, (k : ℝ) < entry1 (nubarTable (nodes e.1)) g + 1 →
      ∫⁻ us, B (colEntries G (chiTable (nodes e.1)) g) k us ∂uniforms ≤
        ∫⁻ us, B' (colEntries G (chiTable (nodes e.1)) g) k us ∂uniforms) :
    ∫⁻ us, afterYield G nodes m g B us ∂uniforms ≤ ∫⁻ us, afterYield G nodes m g B' us ∂uniforms := by
  set F2 : (List ℝ → ℕ → (ℕ → ℝ) → ℝ≥0∞) → List MgNode → ℕ → (ℕ → ℝ) → ℝ≥0∞ := fun B ns r us =>
    if r = 2 then B (colEntries G (chiTable ns) g) ⌊entry1 (nubarTable ns) g + us 0⌋₊ fun k => us (k + 1)
    else 0 with hF2
  set F1 : (List ℝ → ℕ → (ℕ → ℝ) → ℝ≥0∞) → ℕ → (ℕ → ℝ) → ℝ≥0∞ := fun B i us =>
    m.afracs[i]?.elim 0 fun e =>
      byWeight [specXS G (nodes e.1) .capture g, specXS G (nodes e.1) .scatter g,
        specXS G (nodes e.1) .fission g] (us 0) fun r => F2 B (nodes e.1) r fun k => us (k + 1) with hF1
  have mfl : ∀ nu : ℝ, Measurable fun q : ℝ × (ℕ → ℝ) => (⌊nu + q.1⌋₊, q.2) := fun nu =>
    (Nat.measurable_floor.comp (measurable_const.add measurable_fst)).prodMk measurable_snd
  have mq : ∀ B : List ℝ → ℕ → (ℕ → ℝ) → ℝ≥0∞, (∀ ws k, Measurable (B ws k)) → ∀ ws (nu : ℝ),
      Measurable fun q : ℝ × (ℕ → ℝ) => B ws ⌊nu + q.1⌋₊ q.2 := fun B hB ws nu =>
    (measurable_from_prod_countable_right (f := fun q : ℕ × (ℕ → ℝ) => B ws q.1 q.2)
      fun k => hB ws k).comp (mfl nu)
  have m2 : ∀ B : List ℝ → ℕ → (ℕ → ℝ) → ℝ≥0∞, (∀ ws k, Measurable (B ws k)) →
      ∀ ns r, Measurable (F2 B ns r) := by
    intro B hB ns r
    simp only [hF2]
    split_ifs
    · exact (mq B hB _ _).comp ((measurable_pi_apply 0).prodMk (measurable_shift measurable_id 1))
    · exact measurable_const
  have m1 : ∀ B : List ℝ → ℕ → (ℕ → ℝ) → ℝ≥0∞, (∀ ws k, Measurable (B ws k)) →
      ∀ i, Measurable (F1 B i) := by
    intro B hB i
    simp only [hF1]
    cases m.afracs[i]? with
    | none => exact measurable_const
    | some e =>
      exact measurable_byWeight _ (measurable_pi_apply 0) fun r =>
        (m2 B hB _ r).comp (measurable_shift measurable_id 1)
  have e0 : ∀ B : List ℝ → ℕ → (ℕ → ℝ) → ℝ≥0∞, ∀ us, afterYield G nodes m g B us =
      byWeight (m.afracs.map fun e => e.2 * specTotal G (nodes e.1) g) (us 0)
        fun i => F1 B i fun k => us (k + 1) := fun B us => rfl
  simp only [e0]
  rw [lintegral_byWeight (weights_nonneg hf hN) (m1 B mB),
    lintegral_byWeight (weights_nonneg hf hN) (m1 B' mB')]
  refine Finset.sum_le_sum fun i _ => mul_le_mul_right ?_ _
  simp only [hF1]
  cases hi : m.afracs[i]? with
  | none => simp
  | some e =>
    have he := List.mem_of_getElem? hi
    simp only [Option.elim_some]
    rw [lintegral_byWeight (reactions_nonneg (hN e he)) (m2 B mB (nodes e.1)),
      lintegral_byWeight (reactions_nonneg (hN e he)) (m2 B' mB' (nodes e.1))]
    refine Finset.sum_le_sum fun r _ => mul_le_mul_right ?_ _
    simp only [hF2]
    split_ifs
    · refine (lintegral_first (F := fun u us => B (colEntries G (chiTable (nodes e.1)) g)
        ⌊entry1 (nubarTable (nodes e.1)) g + u⌋₊ us) (mq B mB _ _)).le.trans ?_
      refine le_trans ?_ (lintegral_first (F := fun u us => B' (colEntries G (chiTable (nodes e.1)) g)
        ⌊entry1 (nubarTable (nodes e.1)) g + u⌋₊ us) (mq B' mB' _ _)).ge
      unfold uniform
      refine setLIntegral_mono' measurableSet_Ico fun u hu => h e he _ ?_
      have h0 := entry1_nonneg' (nubarTable_nonneg (hN e he)) g
      exact (Nat.floor_le (by linarith [hu.1])).trans_lt (by linarith [hu.2])
    · simp

/-- The mean square of the score of the neutrons of a fission, if each of them scores at most `M` on
average and there are at most `N` others. -/
theorem lintegral_births_sq_le {ws : List ℝ} (hnn : ∀ w ∈ ws, 0 ≤ w)
    {start : Direction → ℕ → (ℕ → ℝ) → ℝ≥0∞}
    (hs : ∀ g', Measurable fun q : Direction × (ℕ → ℝ) => start q.1 g' q.2) {M N : ℝ≥0∞}
    (hM : newborn ws start ≤ M) {k : ℕ} (hk : ((k - 1 : ℕ) : ℝ≥0∞) ≤ N) :
    ∫⁻ us, births endless ws start k us ^ 2 ∂uniforms ≤
      ∫⁻ us, births endless ws (fun d g us => start d g us ^ 2 + N * M ^ 2) k us ∂uniforms := by
  by_cases hsum : ws.sum = 0
  · simp [births_zero hnn hsum]
  · have hs2 : ∀ g', Measurable fun q : Direction × (ℕ → ℝ) => start q.1 g' q.2 ^ 2 + N * M ^ 2 :=
      fun g' => ((hs g').pow_const 2).add measurable_const
    rw [lintegral_births_sq hnn hsum hs, lintegral_births hnn hs2]
    have e : ∑ j ∈ Finset.range ws.length, ENNReal.ofReal (ws.getD j 0 / ws.sum) *
        (sphereMean fun d => ∫⁻ us, (start d (j + 1) us ^ 2 + N * M ^ 2) ∂uniforms) =
        newborn ws (fun d g us => start d g us ^ 2) + N * M ^ 2 := by
      have e1 : ∀ j d, ∫⁻ us, (start d (j + 1) us ^ 2 + N * M ^ 2) ∂uniforms =
          ∫⁻ us, start d (j + 1) us ^ 2 ∂uniforms + N * M ^ 2 := by
        intro j d
        rw [lintegral_add_right _ measurable_const]
        simp
      simp only [e1]
      have e2 : ∀ j, sphereMean (fun d => ∫⁻ us, start d (j + 1) us ^ 2 ∂uniforms + N * M ^ 2) =
          sphereMean (fun d => ∫⁻ us, start d (j + 1) us ^ 2 ∂uniforms) + N * M ^ 2 := by
        intro j
        rw [sphereMean_add ((hs (j + 1)).pow_const 2).lintegral_prod_right' measurable_const,
          sphereMean_const]
      simp only [e2, mul_add, Finset.sum_add_distrib]
      rw [← Finset.sum_mul, sum_shares hnn hsum, one_mul]
      rfl
    rw [e, mul_add]
    refine add_le_add le_rfl ?_
    rw [Nat.cast_mul, mul_assoc]
    exact mul_le_mul_right (mul_le_mul' hk (pow_le_pow_left' hM 2)) _

end

/-! ### One more round -/

section

variable {G : ℕ} {nodes : Nuclide → List MgNode} {w : World} {method : Method}
  {hit : SurfaceObj → Direction → ℕ → ℝ≥0∞}

/-- The mean square of the score of the chain in the first rounds. -/
noncomputable def chainSquare (G : ℕ) (nodes : Nuclide → List MgNode) (w : World) (method : Method)
    (hit : SurfaceObj → Direction → ℕ → ℝ≥0∞) (n : ℕ) (c : Cell) (x : Point) (d : Direction)
    (g : ℕ) : ℝ≥0∞ :=
  ∫⁻ us, chainScore endless G nodes w method hit n c x d g us ^ 2 ∂uniforms

theorem scatter_rates (hw : WellPosed G nodes w) {c : Cell} (hc : c ∈ w.cells) {m : Material}
    (hm : c.material = some m) {g : ℕ} (h1 : 1 ≤ g) (h2 : g ≤ G)
    {next : Direction → ℕ → (ℕ → ℝ) → ℝ≥0∞}
    (hn : ∀ g', Measurable fun q : Direction × (ℕ → ℝ) => next q.1 g' q.2) :
    ENNReal.ofReal (macroscopic G nodes g m) * ∫⁻ us, afterCollision G nodes m g next us ∂uniforms =
      emission G nodes m g fun d g' => ∫⁻ us, next d g' us ∂uniforms := by
  have hS := Props.group_shares hw hc hm h1 h2
  have hM : 0 < macroscopic G nodes g m := mul_pos (hw.density c hc m hm) hS
  have hN : ∀ e ∈ m.afracs, NonnegNodes (nodes e.1) := fun e he => by
    obtain ⟨_, _, _, _, h, _⟩ := hw.data c hc m hm e he
    exact h
  rw [lintegral_afterCollision (fun e he => (hw.data c hc m hm e he).1.le) hN hn]
  have hS' : (m.afracs.map fun e => e.2 * specTotal G (nodes e.1) g).sum ≠ 0 := hS.ne'
  unfold emission
  rw [Finset.mul_sum]
  refine Finset.sum_congr rfl fun g' _ => ?_
  rw [← mul_assoc, ← ENNReal.ofReal_mul hM.le]
  congr 2
  unfold macroscopic transferRate
  field_simp

theorem fission_rates (hw : WellPosed G nodes w) {c : Cell} (hc : c ∈ w.cells) {m : Material}
    (hm : c.material = some m) {g : ℕ} (h1 : 1 ≤ g) (h2 : g ≤ G)
    {start : Direction → ℕ → (ℕ → ℝ) → ℝ≥0∞}
    (hs : ∀ g', Measurable fun q : Direction × (ℕ → ℝ) => start q.1 g' q.2) :
    ENNReal.ofReal (macroscopic G nodes g m) * ∫⁻ us, afterFission G nodes m g start us ∂uniforms =
      ∑ g' ∈ Finset.Icc 1 G, ENNReal.ofReal (fissionRate G nodes m g g') *
        sphereMean fun d => ∫⁻ us, start d g' us ∂uniforms := by
  have hS := Props.group_shares hw hc hm h1 h2
  have hM : 0 < macroscopic G nodes g m := mul_pos (hw.density c hc m hm) hS
  have hN : ∀ e ∈ m.afracs, NonnegNodes (nodes e.1) := fun e he => by
    obtain ⟨_, _, _, _, h, _⟩ := hw.data c hc m hm e he
    exact h
  rw [lintegral_afterFission (fun e he => (hw.data c hc m hm e he).1.le) hN hs]
  have hS' : (m.afracs.map fun e => e.2 * specTotal G (nodes e.1) g).sum ≠ 0 := hS.ne'
  rw [Finset.mul_sum]
  refine Finset.sum_congr rfl fun g' _ => ?_
  rw [← mul_assoc, ← ENNReal.ofReal_mul hM.le]
  congr 2
  unfold macroscopic fissionRate
  field_simp

attribute [local irreducible] fresh chainScore

/-- The mean score of a new neutron is at most a bound for all groups and directions. -/
theorem newborn_le {ws : List ℝ} (hnn : ∀ w ∈ ws, 0 ≤ w) {start : Direction → ℕ → (ℕ → ℝ) → ℝ≥0∞}
    {M : ℝ≥0∞} (h : ∀ d, UnitVec d → ∀ j < ws.length, ∫⁻ us, start d (j + 1) us ∂uniforms ≤ M) :
    newborn ws start ≤ M := by
  unfold newborn
  by_cases hsum : ws.sum = 0
  · simp [hsum]
  · calc _ ≤ ∑ j ∈ Finset.range ws.length, ENNReal.ofReal (ws.getD j 0 / ws.sum) * M := by
          refine Finset.sum_le_sum fun j hj => mul_le_mul_right ?_ _
          exact sphereMean_le fun d hd => h d hd j (Finset.mem_range.1 hj)
      _ = M := by rw [← Finset.sum_mul, sum_shares hnn hsum, one_mul]

theorem lintegral_landed_sq (hw : WellPosed G nodes w) (hh : ∀ s g, Measurable fun d => hit s d g)
    (n : ℕ) {c : Cell} (hc : c ∈ w.cells) {m : Material} (hm : c.material = some m) (x : Point) {g : ℕ}
    (h1 : 1 ≤ g) (h2 : g ≤ G) {M N : ℝ≥0∞}
    (hM : ∀ c', cellAt w x = some c' → ∀ d, UnitVec d → ∀ g', 1 ≤ g' → g' ≤ G →
      chainMean G nodes w method hit n c' x d g' ≤ M)
    (hN : ∀ e ∈ m.afracs, ENNReal.ofReal (entry1 (nubarTable (nodes e.1)) g) ≤ N) :
    ENNReal.ofReal (macroscopic G nodes g m) *
        ∫⁻ us, landed G nodes w method hit n c x m g us ^ 2 ∂uniforms ≤
      emission G nodes m g (chainSquare G nodes w method hit n c x) +
        (fissionEmission G nodes w m g (chainSquare G nodes w method hit n) x +
          (∑ g' ∈ Finset.Icc 1 G, ENNReal.ofReal (fissionRate G nodes m g g')) * (N * M ^ 2)) := by
  have hf : ∀ e ∈ m.afracs, 0 ≤ e.2 := fun e he => (hw.data c hc m hm e he).1.le
  have hNN : ∀ e ∈ m.afracs, NonnegNodes (nodes e.1) := fun e he => by
    obtain ⟨_, _, _, _, h, _⟩ := hw.data c hc m hm e he
    exact h
  have mn := measurable_next_us G nodes w method hh n c x
  have ms := measurable_fresh_us G nodes w method hh n x
  have mn2 : ∀ g', Measurable fun q : Direction × (ℕ → ℝ) =>
      chainScore endless G nodes w method hit n c x q.1 g' q.2 ^ 2 := fun g' => (mn g').pow_const 2
  have ms2 : ∀ g', Measurable fun q : Direction × (ℕ → ℝ) =>
      fresh endless G nodes w method hit n x q.1 g' q.2 ^ 2 + N * M ^ 2 :=
    fun g' => ((ms g').pow_const 2).add measurable_const
  have mcoll : Measurable fun us => afterCollision G nodes m g
      (fun d g us => chainScore endless G nodes w method hit n c x d g us ^ 2) us :=
    measurable_afterCollision (α := ℕ → ℝ) G nodes m g
      (next := fun _ d g us => chainScore endless G nodes w method hit n c x d g us ^ 2)
      (fun g' => (mn2 g').comp measurable_snd) measurable_id
  have hle : ∫⁻ us, landed G nodes w method hit n c x m g us ^ 2 ∂uniforms ≤
      ∫⁻ us, afterCollision G nodes m g
        (fun d g us => chainScore endless G nodes w method hit n c x d g us ^ 2) us ∂uniforms +
      ∫⁻ us, afterFission G nodes m g
        (fun d g us => fresh endless G nodes w method hit n x d g us ^ 2 + N * M ^ 2) us ∂uniforms := by
    have hshift : ∫⁻ us, landed G nodes w method hit n c x m g us ^ 2 ∂uniforms =
        ∫⁻ us, afterEvent endless G nodes m g (chainScore endless G nodes w method hit n c x)
          (fresh endless G nodes w method hit n x) us ^ 2 ∂uniforms := by
      have me : Measurable fun us => afterEvent endless G nodes m g
          (chainScore endless G nodes w method hit n c x)
          (fresh endless G nodes w method hit n x) us ^ 2 := by
        simp only [afterEvent_eq]
        exact ((measurable_afterCollision (α := ℕ → ℝ) G nodes m g
          (next := fun _ => chainScore endless G nodes w method hit n c x)
          (fun g' => (mn g').comp measurable_snd) measurable_id).add
          (measurable_afterFission (α := ℕ → ℝ) G nodes m g
            (start := fun _ => fresh endless G nodes w method hit n x)
            (fun g' => (ms g').comp measurable_snd) measurable_id)).pow_const 2
      unfold landed
      cases method
      · rfl
      · exact lintegral_skip me
    rw [hshift]
    simp only [afterEvent_sq hf hNN]
    rw [lintegral_add_left mcoll]
    refine add_le_add le_rfl ?_
    refine lintegral_afterYield_le hf hNN (fun ws k => (measurable_births' ms k).pow_const 2)
      (B' := fun ws k us => births endless ws
        (fun d g us => fresh endless G nodes w method hit n x d g us ^ 2 + N * M ^ 2) k us)
      (fun ws k => measurable_births' ms2 k) ?_
    intro e he k hk
    have hchi := colEntries_nonneg (chiTable_nonneg (hNN e he)) G g
    refine lintegral_births_sq_le hchi ms (newborn_le hchi fun d hd j hj => ?_) ?_
    · rw [lintegral_fresh]
      have hj' : j < G := by simpa [colEntries] using hj
      cases hcl : cellAt w x with
      | none => simp
      | some c' => exact hM c' hcl d hd (j + 1) (by omega) (by omega)
    · refine le_trans ?_ (hN e he)
      rw [← ENNReal.ofReal_natCast]
      refine ENNReal.ofReal_le_ofReal ?_
      have h0 := entry1_nonneg' (nubarTable_nonneg (hNN e he)) g
      rcases Nat.eq_zero_or_pos k with rfl | hk0
      · simpa using h0
      · rw [Nat.cast_sub hk0]
        push_cast
        linarith
  refine (mul_le_mul_right hle _).trans ?_
  rw [mul_add, scatter_rates hw hc hm h1 h2 mn2, fission_rates hw hc hm h1 h2 ms2]
  refine add_le_add le_rfl (le_of_eq ?_)
  unfold fissionEmission
  rw [Finset.sum_mul, ← Finset.sum_add_distrib]
  refine Finset.sum_congr rfl fun g' _ => ?_
  rw [← mul_add]
  congr 1
  have e1 : ∀ d, ∫⁻ us, (fresh endless G nodes w method hit n x d g' us ^ 2 + N * M ^ 2) ∂uniforms =
      ((cellAt w x).elim 0 fun c' => chainSquare G nodes w method hit n c' x d g') + N * M ^ 2 := by
    intro d
    rw [lintegral_add_right _ measurable_const]
    unfold fresh chainSquare
    cases cellAt w x with
    | none => simp
    | some c' => simp
  simp only [e1]
  have hme : Measurable fun d => (cellAt w x).elim 0 fun c' => chainSquare G nodes w method hit n c' x d g' := by
    cases cellAt w x with
    | none => exact measurable_const
    | some c' =>
      exact ((measurable_next_us G nodes w method hh n c' x g').pow_const 2).lintegral_prod_right'
  rw [sphereMean_add hme measurable_const, sphereMean_const]

end

end Minimc
