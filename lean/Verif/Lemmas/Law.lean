import Verif.Lemmas.ChainSquare
import Verif.Spec.Turn

/-! # Scores with the same distribution -/

namespace Minimc

open Classical Spec MeasureTheory ProbabilityTheory
open scoped ENNReal

/-! ### Functions of independent numbers -/

theorem SameLaw.symm {f f' : (ℕ → ℝ) → ℝ≥0∞} (h : SameLaw f f') : SameLaw f' f :=
  fun φ hφ => (h φ hφ).symm

theorem SameLaw.trans {f f' f'' : (ℕ → ℝ) → ℝ≥0∞} (h : SameLaw f f') (h' : SameLaw f' f'') :
    SameLaw f f'' :=
  fun φ hφ => (h φ hφ).trans (h' φ hφ)

theorem sameLaw_refl (f : (ℕ → ℝ) → ℝ≥0∞) : SameLaw f f := fun _ _ => rfl

theorem sameLaw_skip {f : (ℕ → ℝ) → ℝ≥0∞} (hf : Measurable f) :
    SameLaw (fun us => f fun k => us (k + 1)) f :=
  fun φ hφ => lintegral_skip (F := fun us => φ (f us)) (hφ.comp hf)

theorem sameLaw_child {f : (ℕ → ℝ) → ℝ≥0∞} (hf : Measurable f) :
    SameLaw (fun us => f (endless.child us)) f :=
  fun _ hφ => measurePreserving_child.lintegral_comp (hφ.comp hf)

/-- One number and the rest. -/
theorem sameLaw_first {F F' : ℝ → (ℕ → ℝ) → ℝ≥0∞} (hF : Measurable fun q : ℝ × (ℕ → ℝ) => F q.1 q.2)
    (hF' : Measurable fun q : ℝ × (ℕ → ℝ) => F' q.1 q.2) (h : ∀ᵐ u ∂uniform, SameLaw (F u) (F' u)) :
    SameLaw (fun us => F (us 0) fun k => us (k + 1)) fun us => F' (us 0) fun k => us (k + 1) := by
  intro φ hφ
  rw [lintegral_first (F := fun u us => φ (F u us)) (hφ.comp hF),
    lintegral_first (F := fun u us => φ (F' u us)) (hφ.comp hF')]
  exact lintegral_congr_ae (h.mono fun u hu => hu φ hφ)

theorem sameLaw_add_left {f f' : (ℕ → ℝ) → ℝ≥0∞} (h : SameLaw f f') (a : ℝ≥0∞) :
    SameLaw (fun us => a + f us) fun us => a + f' us :=
  fun φ hφ => h (fun x => φ (a + x)) (hφ.comp (measurable_const.add measurable_id))

/-- A choice that is made. -/
theorem sameLaw_byWeight {ws : List ℝ} (hnn : ∀ x ∈ ws, 0 ≤ x) (u : ℝ)
    {F F' : ℕ → (ℕ → ℝ) → ℝ≥0∞} (h : ∀ i < ws.length, SameLaw (F i) (F' i)) :
    SameLaw (fun us => byWeight ws u fun i => F i us) fun us => byWeight ws u fun i => F' i us := by
  by_cases hs : ∃ i, Selected ws (u * ws.sum) i
  · obtain ⟨i, hi⟩ := hs
    have e : ∀ j, Selected ws (u * ws.sum) j ↔ j = i :=
      fun j => ⟨fun h => Selected.unique hnn h hi, fun h => h ▸ hi⟩
    simp only [byWeight_eq e]
    exact h i hi.1
  · have e : ∀ (F : ℕ → (ℕ → ℝ) → ℝ≥0∞) us, (byWeight ws u fun i => F i us) = 0 := by
      intro F us
      unfold byWeight
      exact Finset.sum_eq_zero fun i _ => if_neg fun hi => hs ⟨i, hi⟩
    simp only [e]
    exact sameLaw_refl _

/-- A choice that is made with the first number. -/
theorem sameLaw_choice {ws : List ℝ} (hnn : ∀ x ∈ ws, 0 ≤ x) {F F' : ℕ → (ℕ → ℝ) → ℝ≥0∞}
    (hF : ∀ i, Measurable (F i)) (hF' : ∀ i, Measurable (F' i))
    (h : ∀ i < ws.length, SameLaw (F i) (F' i)) :
    SameLaw (fun us => byWeight ws (us 0) fun i => F i fun k => us (k + 1))
      fun us => byWeight ws (us 0) fun i => F' i fun k => us (k + 1) :=
  sameLaw_first (F := fun u us => byWeight ws u fun i => F i us)
    (F' := fun u us => byWeight ws u fun i => F' i us)
    (measurable_byWeight ws measurable_fst fun i => (hF i).comp measurable_snd)
    (measurable_byWeight ws measurable_fst fun i => (hF' i).comp measurable_snd)
    (Filter.Eventually.of_forall fun u => sameLaw_byWeight hnn u h)

/-- The numbers of a new neutron and those that are left are independent. -/
theorem map_split : uniforms.map (fun us => (endless.child us, endless.after us)) =
    uniforms.prod uniforms := by
  have hm : Measurable fun us : ℕ → ℝ => (endless.child us, endless.after us) :=
    measurePreserving_child.measurable.prodMk measurePreserving_after.measurable
  refine (Measure.prod_eq fun s t hs ht => ?_).symm
  rw [Measure.map_apply hm (hs.prod ht), ← lintegral_indicator_one (hm (hs.prod ht)),
    ← lintegral_indicator_one hs, ← lintegral_indicator_one ht,
    ← lintegral_split (measurable_one.indicator hs) (measurable_one.indicator ht)]
  refine lintegral_congr fun us => ?_
  by_cases h1 : endless.child us ∈ s <;> by_cases h2 : endless.after us ∈ t <;>
    simp [Set.indicator, h1, h2]

theorem sameLaw_split {f f' h h' : (ℕ → ℝ) → ℝ≥0∞} (hf : Measurable f) (hf' : Measurable f')
    (hh : Measurable h) (hh' : Measurable h') (e : SameLaw f f') (e' : SameLaw h h') :
    SameLaw (fun us => f (endless.child us) + h (endless.after us))
      fun us => f' (endless.child us) + h' (endless.after us) := by
  have hm : Measurable fun us : ℕ → ℝ => (endless.child us, endless.after us) :=
    measurePreserving_child.measurable.prodMk measurePreserving_after.measurable
  have key : ∀ {f h : (ℕ → ℝ) → ℝ≥0∞} (_ : Measurable f) (_ : Measurable h) (φ : ℝ≥0∞ → ℝ≥0∞)
      (_ : Measurable φ), ∫⁻ us, φ (f (endless.child us) + h (endless.after us)) ∂uniforms =
        ∫⁻ x, ∫⁻ y, φ (f x + h y) ∂uniforms ∂uniforms := by
    intro f h hf hh φ hφ
    have mq : Measurable fun q : (ℕ → ℝ) × (ℕ → ℝ) => φ (f q.1 + h q.2) :=
      hφ.comp ((hf.comp measurable_fst).add (hh.comp measurable_snd))
    rw [← lintegral_prod (fun q : (ℕ → ℝ) × (ℕ → ℝ) => φ (f q.1 + h q.2)) mq.aemeasurable, ← map_split,
      lintegral_map mq hm]
  intro φ hφ
  have m1 : Measurable fun v : ℝ≥0∞ => ∫⁻ y, φ (v + h' y) ∂uniforms := by
    have : Measurable fun q : ℝ≥0∞ × (ℕ → ℝ) => φ (q.1 + h' q.2) :=
      hφ.comp (measurable_fst.add (hh'.comp measurable_snd))
    exact this.lintegral_prod_right'
  rw [key hf hh φ hφ, key hf' hh' φ hφ]
  calc ∫⁻ x, ∫⁻ y, φ (f x + h y) ∂uniforms ∂uniforms
      = ∫⁻ x, ∫⁻ y, φ (f x + h' y) ∂uniforms ∂uniforms :=
        lintegral_congr fun x => sameLaw_add_left e' (f x) φ hφ
    _ = _ := e (fun v => ∫⁻ y, φ (v + h' y) ∂uniforms) m1

/-! ### The limit -/

/-- Scores that grow have the same distribution in the end if they have it all the time. -/
theorem sameLaw_iSup {f f' : ℕ → (ℕ → ℝ) → ℝ≥0∞} (hf : ∀ n, Measurable (f n))
    (hf' : ∀ n, Measurable (f' n)) (hm : Monotone f) (hm' : Monotone f')
    (h : ∀ n, SameLaw (f n) (f' n)) : SameLaw (fun us => ⨆ n, f n us) fun us => ⨆ n, f' n us := by
  have mf : Measurable fun us => ⨆ n, f n us := Measurable.iSup hf
  have mf' : Measurable fun us => ⨆ n, f' n us := Measurable.iSup hf'
  have key : uniforms.map (fun us => ⨆ n, f n us) = uniforms.map fun us => ⨆ n, f' n us := by
    have : IsProbabilityMeasure (uniforms.map fun us => ⨆ n, f n us) :=
      Measure.isProbabilityMeasure_map mf.aemeasurable
    refine Measure.ext_of_Iic _ _ fun a => ?_
    have e : ∀ (g : ℕ → (ℕ → ℝ) → ℝ≥0∞) (_ : ∀ n, Measurable (g n)) (_ : Monotone g),
        uniforms.map (fun us => ⨆ n, g n us) (Set.Iic a) = ⨅ n, uniforms {us | g n us ≤ a} := by
      intro g mg hg
      have mg' : Measurable fun us => ⨆ n, g n us := Measurable.iSup mg
      rw [Measure.map_apply mg' measurableSet_Iic]
      have es : (fun us => ⨆ n, g n us) ⁻¹' Set.Iic a = ⋂ n, {us | g n us ≤ a} := by
        ext us
        simp
      rw [es]
      refine Antitone.measure_iInter ?_ (fun n => (measurableSet_le (mg n) measurable_const).nullMeasurableSet)
        ⟨0, measure_ne_top _ _⟩
      intro m n hmn us hu
      exact (hg hmn us).trans hu
    rw [e f hf hm, e f' hf' hm']
    refine iInf_congr fun n => ?_
    have hi := h n ((Set.Iic a).indicator fun _ => 1) (measurable_const.indicator measurableSet_Iic)
    have ei : ∀ (g : (ℕ → ℝ) → ℝ≥0∞) (_ : Measurable g),
        ∫⁻ us, (Set.Iic a).indicator (fun _ => 1) (g us) ∂uniforms = uniforms {us | g us ≤ a} := by
      intro g mg
      rw [← lintegral_indicator_one (measurableSet_le mg measurable_const)]
      rfl
    rwa [ei _ (hf n), ei _ (hf' n)] at hi
  intro φ hφ
  rw [← lintegral_map hφ mf, ← lintegral_map hφ mf', key]

end Minimc
