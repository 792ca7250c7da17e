import Verif.Lemmas.Sequence
import Verif.Lemmas.Continuous
import Verif.Props.Continuous

/-! # Property C53 -/

namespace Minimc.Props

open Classical Spec

/-- The uniform number of round `k`: each round draws one, which takes two steps of the
generator. -/
noncomputable def roundNumber (p : Particle) (k : ℕ) : ℝ :=
  (Rng.canonical (Rng.next^[2 * k] p.rng)).1

/-- The particle at the end of round `k`. -/
def afterRound (p : Particle) (k : ℕ) : Particle := { p with rng := Rng.next^[2 * (k + 1)] p.rng }

theorem iterate_two_add (g k : ℕ) : Rng.next^[2 * k] (Rng.canonical g).2 = Rng.next^[2 * (k + 1)] g := by
  have : (Rng.canonical g).2 = Rng.next^[2] g := rfl
  rw [this, ← Function.iterate_add_apply]
  congr 1

theorem anyModifies_rng (p : Particle) (g : ℕ) : ∀ rs : List ContinuousReaction,
    Continuous.anyModifies { p with rng := g } rs = Continuous.anyModifies p rs
  | [] => rfl
  | r :: rs => by
    have h : r.modifiesTotal { p with rng := g } = r.modifiesTotal p := rfl
    rw [Continuous.anyModifies, Continuous.anyModifies, anyModifies_rng p g rs, h]

theorem getTotal_rng (c : Continuous) (p : Particle) (g : ℕ) :
    c.getTotal { p with rng := g } = c.getTotal p := by
  unfold Continuous.getTotal
  rw [anyModifies_rng]
  rfl

/-- **C53** A reaction is selected in the first round in which the drawn number times the total
falls below the sum of the cross sections; it is the reaction into whose piece it falls. -/
theorem C53_selects {c : Continuous} {w : ContinuousReaction → ℝ} {S : ℝ} {fuel : ℕ} :
    ∀ {k n i : ℕ} {p : Particle} (_ : ∀ r ∈ c.reactions, r.getCrossSection p = .ok (w r))
      (_ : ∀ r ∈ c.reactions, 0 ≤ w r) (_ : c.getTotal p = .ok S) (_ : k < n)
      (_ : SelectedInRound (c.reactions.map w) S (roundNumber p) k i),
      ∃ r, c.reactions[i]? = some r ∧ 0 < w r ∧
        c.interactLoop fuel n p = r.interact fuel (afterRound p k)
  | k, 0, _, _, _, _, _, hk, _ => absurd hk (by omega)
  | 0, n + 1, i, p, hw, hnn, hS, _, h => by
    obtain ⟨w', h1, h2⟩ := Selected.pos h.2
    rw [List.getElem?_map] at h1
    obtain ⟨r, hr, rfl⟩ := Option.map_eq_some_iff.1 h1
    refine ⟨r, hr, h2, ?_⟩
    have hsel := selectLoop_of_selected (f := fun r => ContinuousReaction.getCrossSection r p)
      (acc := 0) (θ := roundNumber p 0 * S) hw hnn (i := i) (by simpa using h.2)
    rw [hr] at hsel
    have hS' : c.getTotal { p with rng := (Rng.canonical p.rng).2 } = .ok S :=
      (getTotal_rng c p _).trans hS
    rw [Continuous.interactLoop]
    simp only [Particle.sample, hS', bind, Except.bind]
    have : c.selectReaction { p with rng := (Rng.canonical p.rng).2 }
        ((Rng.canonical p.rng).1 * S) = .ok (some r) := hsel
    rw [this]
    rfl
  | k + 1, n + 1, i, p, hw, hnn, hS, hk, h => by
    have hnone := selectLoop_none (f := fun r => ContinuousReaction.getCrossSection r p)
      (acc := 0) (θ := roundNumber p 0 * S) hw hnn (by simpa using h.1 0 (by omega))
    have hS' : c.getTotal { p with rng := (Rng.canonical p.rng).2 } = .ok S :=
      (getTotal_rng c p _).trans hS
    obtain ⟨r, h1, h2, h3⟩ := C53_selects (k := k) (n := n) (i := i) (fuel := fuel) (S := S) (w := w)
      (p := { p with rng := (Rng.canonical p.rng).2 }) hw hnn hS' (by omega) (by
        constructor
        · intro j hj
          have := h.1 (j + 1) (by omega)
          unfold roundNumber at this ⊢
          rw [iterate_two_add]
          exact this
        · have := h.2
          unfold roundNumber at this ⊢
          rw [iterate_two_add]
          exact this)
    refine ⟨r, h1, h2, ?_⟩
    rw [Continuous.interactLoop]
    simp only [Particle.sample, hS', bind, Except.bind]
    have : c.selectReaction { p with rng := (Rng.canonical p.rng).2 }
        ((Rng.canonical p.rng).1 * S) = .ok none := hnone
    rw [this]
    simp only
    rw [h3]
    unfold afterRound
    simp only
    rw [iterate_two_add]

/-- **C53** One uniform number selects reaction `i` with probability its cross section over the
total, when the total is the sum of the cross sections. -/
theorem C53_probability {ws : List ℝ} (hnn : ∀ w ∈ ws, 0 ≤ w) (hpos : 0 < ws.sum) {i : ℕ}
    (hi : i < ws.length) :
    prob {u | Selected ws (u * ws.sum) i} = ENNReal.ofReal (ws[i] / ws.sum) :=
  prob_selected_of_le hnn hpos (le_refl _) hi

/-- **C53** When the total is at least the sum of the cross sections, reaction `i` is selected in
the end with probability its cross section over the sum. -/
theorem C53_probability_resampled {ws : List ℝ} (hnn : ∀ w ∈ ws, 0 ≤ w) (hpos : 0 < ws.sum) {S : ℝ}
    (hle : ws.sum ≤ S) {i : ℕ} (hi : i < ws.length) :
    uniforms {us | ∃ k, SelectedInRound ws S us k i} = ENNReal.ofReal (ws[i] / ws.sum) :=
  uniforms_selected hnn hpos hle hi

/-- **C53** Sampling ends with probability one when some cross section is positive. -/
theorem C53_terminates {ws : List ℝ} (hnn : ∀ w ∈ ws, 0 ≤ w) {i : ℕ} (hi : i < ws.length)
    (hpos : 0 < ws[i]) {S : ℝ} (hle : ws.sum ≤ S) :
    uniforms {us | ∃ k j, SelectedInRound ws S us k j} = 1 := by
  have hsum : 0 < ws.sum := lt_of_lt_of_le hpos (List.single_le_sum hnn _ (List.getElem_mem hi))
  have key := uniforms_terminates hsum hle
  have hS : 0 < S := hsum.trans_le hle
  refine le_antisymm MeasureTheory.prob_le_one ?_
  -- almost surely all numbers are non-negative
  have hnonneg : ∀ᵐ us ∂uniforms, ∀ k, 0 ≤ us k := by
    rw [MeasureTheory.ae_all_iff]
    intro k
    have hm : MeasurableSet {us : ℕ → ℝ | 0 ≤ us k} :=
      measurableSet_le measurable_const (measurable_pi_apply k)
    have := MeasureTheory.Measure.infinitePi_pi (μ := fun _ : ℕ => uniform) (s := {k})
      (t := fun _ => Set.Ici (0 : ℝ)) (fun _ _ => measurableSet_Ici)
    have h1 : uniforms {us : ℕ → ℝ | 0 ≤ us k} = 1 := by
      have e : {us : ℕ → ℝ | 0 ≤ us k} = Set.pi ({k} : Finset ℕ) (fun _ => Set.Ici (0 : ℝ)) := by
        ext us; simp
      rw [e]
      unfold uniforms
      rw [this, Finset.prod_singleton, uniform_apply measurableSet_Ici, prob]
      have : Set.Ici (0:ℝ) ∩ Set.Ico 0 1 = Set.Ico 0 1 := by
        ext x; simp only [Set.mem_inter_iff, Set.mem_Ici, Set.mem_Ico]; tauto
      rw [this, Real.volume_Ico]
      simp
    have := (MeasureTheory.prob_compl_eq_zero_iff hm).2 h1
    exact this
  rw [← key]
  refine MeasureTheory.measure_mono_ae ?_
  filter_upwards [hnonneg] with us hus
  rintro ⟨k, h1, h2⟩
  obtain ⟨j, hj⟩ := Selected.exists (ws := ws) (θ := us k * S) (mul_nonneg (hus k) hS.le) h2
  exact ⟨k, j, h1, hj⟩

/-- When no reaction has a positive cross section, the code resamples forever. -/
theorem C53_no_reaction_never_returns {c : Continuous} {w : ContinuousReaction → ℝ} {S : ℝ}
    {fuel : ℕ} (h0 : ∀ r ∈ c.reactions, w r = 0) (hS0 : 0 ≤ S) :
    ∀ (n : ℕ) (p : Particle), (∀ r ∈ c.reactions, r.getCrossSection p = .ok (w r)) →
      c.getTotal p = .ok S → Rng.Valid p.rng → c.interactLoop fuel n p = .error .fuel
  | 0, _, _, _, _ => rfl
  | n + 1, p, hw, hS, hv => by
    have hnone := selectLoop_none (f := fun r => ContinuousReaction.getCrossSection r p)
      (acc := 0) (θ := (Rng.canonical p.rng).1 * S) hw (fun r hr => (h0 r hr).ge) (by
        have : (c.reactions.map w).sum = 0 := by
          rw [List.map_congr_left h0]
          simp
        rw [this, sub_zero]
        exact mul_nonneg (Rng.canonical_pos hv).le hS0)
    have hS' : c.getTotal { p with rng := (Rng.canonical p.rng).2 } = .ok S :=
      (getTotal_rng c p _).trans hS
    rw [Continuous.interactLoop]
    simp only [Particle.sample, hS', bind, Except.bind]
    have : c.selectReaction { p with rng := (Rng.canonical p.rng).2 }
        ((Rng.canonical p.rng).1 * S) = .ok none := hnone
    rw [this]
    exact C53_no_reaction_never_returns h0 hS0 n _ hw hS' (Rng.valid_canonical hv)

/-- The total is below the sum of the cross sections: the second of two equal reactions is
selected with probability one third. -/
theorem C53_total_below_sum_biased :
    prob {u | Selected [(2 : ℝ), 2] (u * 3) 0} = ENNReal.ofReal (2 / 3) ∧
      prob {u | Selected [(2 : ℝ), 2] (u * 3) 1} = ENNReal.ofReal (1 / 3) := by
  have h1 : {u : ℝ | Selected [(2 : ℝ), 2] (u * 3) 0} ∩ Set.Ico 0 1 = Set.Ico 0 (2 / 3) := by
    ext u
    simp only [Selected, Set.mem_inter_iff, Set.mem_ofPred_eq, Set.mem_Ico]
    norm_num
    constructor
    · rintro ⟨⟨h1, h2⟩, h3, h4⟩; exact ⟨h3, by linarith⟩
    · rintro ⟨h1, h2⟩; exact ⟨⟨h1, by linarith⟩, h1, by linarith⟩
  have h2 : {u : ℝ | Selected [(2 : ℝ), 2] (u * 3) 1} ∩ Set.Ico 0 1 = Set.Ico (2 / 3) 1 := by
    ext u
    simp only [Selected, Set.mem_inter_iff, Set.mem_ofPred_eq, Set.mem_Ico]
    norm_num
    constructor
    · rintro ⟨⟨h1, h2⟩, h3, h4⟩; exact ⟨by linarith, h4⟩
    · rintro ⟨h1, h2⟩; exact ⟨⟨by linarith, by linarith⟩, by linarith, h2⟩
  constructor
  · rw [prob, h1, Real.volume_Ico, sub_zero]
  · rw [prob, h2, Real.volume_Ico]
    norm_num

/-- Instance: capture 1, fission 3, total 8 (twice the sum): capture is selected in the end
with probability 1/4. -/
example : uniforms {us | ∃ k, SelectedInRound [1, 3] 8 us k 0} = ENNReal.ofReal (1 / 4) := by
  have := C53_probability_resampled (ws := [1, 3]) (by simp) (by norm_num) (S := 8) (by norm_num)
    (i := 0) (by simp)
  rw [this]
  norm_num

end Minimc.Props
