import Verif.Lemmas.GasLaw

/-! # The same gases in another place -/

namespace Minimc

open Classical Spec MeasureTheory Props
open scoped ENNReal

variable {R : Point → Point} {a b a' b' : Direction → Direction} {data data' : Nuclide → Continuous}

/-! ### Amounts -/

theorem sum_sameGas {m m' : Material} (h : SameGas data data' m m') (hd : 0 ≤ m.numberDensity)
    (hd' : 0 ≤ m'.numberDensity) (hf : ∀ e ∈ m.afracs, 0 ≤ e.2) (hf' : ∀ e ∈ m'.afracs, 0 ≤ e.2)
    (K : List ContinuousReaction → ℝ≥0∞) :
    ENNReal.ofReal m'.numberDensity *
        (m'.afracs.map fun e => ENNReal.ofReal e.2 * K (data' e.1).reactions).sum =
      ENNReal.ofReal m.numberDensity *
        (m.afracs.map fun e => ENNReal.ofReal e.2 * K (data e.1).reactions).sum := by
  let A : Finset (List ContinuousReaction) :=
    (m.afracs.map fun e => (data e.1).reactions).toFinset ∪
      (m'.afracs.map fun e => (data' e.1).reactions).toFinset
  rw [sum_sorted (fun x => (data x).reactions) K A hf fun e he => ?_,
    sum_sorted (fun x => (data' x).reactions) K A hf' fun e he => ?_, Finset.mul_sum, Finset.mul_sum]
  · refine Finset.sum_congr rfl fun rs _ => ?_
    rw [← mul_assoc, ← mul_assoc, ← ENNReal.ofReal_mul hd, ← ENNReal.ofReal_mul hd']
    have := h rs
    unfold gasAmount at this
    rw [this]
  · simp only [A, Finset.mem_union, List.mem_toFinset, List.mem_map]
    exact Or.inr ⟨e, he, rfl⟩
  · simp only [A, Finset.mem_union, List.mem_toFinset, List.mem_map]
    exact Or.inl ⟨e, he, rfl⟩

theorem ofReal_sum_map {β : Type} {l : List β} {f : β → ℝ} (hf : ∀ x ∈ l, 0 ≤ f x) :
    ENNReal.ofReal (l.map f).sum = (l.map fun x => ENNReal.ofReal (f x)).sum := by
  induction l with
  | nil => simp
  | cons x l ih =>
    have h0 : 0 ≤ (l.map f).sum := List.sum_nonneg fun y hy => by
      obtain ⟨z, hz, rfl⟩ := List.mem_map.1 hy
      exact hf z (by simp [hz])
    rw [List.map_cons, List.sum_cons, List.map_cons, List.sum_cons, ENNReal.ofReal_add (hf x (by simp)) h0,
      ih fun y hy => hf y (by simp [hy])]

/-- What has to hold of the nuclides of a material at an energy. -/
structure Reacting (data : Nuclide → Continuous) (m : Material) (t e : ℝ) : Prop where
  density : 0 < m.numberDensity
  fractions : ∀ x ∈ m.afracs, 0 ≤ x.2
  xs : ∀ x ∈ m.afracs, ∀ r ∈ (data x.1).reactions, 0 ≤ reactionXS t e r
  masses : ∀ x ∈ m.afracs, ∀ r ∈ (data x.1).reactions, ∀ ev tsl A, r = .scatter ev tsl A → 0 < A
  some : 0 < collisionRate data m t e

theorem reacting {w : World} (hw : GasWorld data w) {c : Cell} (hc : c ∈ w.cells) {m : Material}
    (hm : c.material = some m) {e : ℝ} (he : 0 < e) : Reacting data m (heat c) e :=
  ⟨hw.sound.density c hc m hm, fun _ hx => (hw.nuclide hc hm hx).1.le,
    fun _ hx _ hr => (hw.reaction hc hm hx hr he).2.2.1.trans (hw.reaction hc hm hx hr he).2.2.2.1,
    fun _ hx _ hr => (hw.reaction hc hm hx hr he).2.2.2.2.1, hw.rate_pos hc hm he⟩

theorem Reacting.nuclide {m : Material} {t e : ℝ} (h : Reacting data m t e) (x : Nuclide × ℝ)
    (hx : x ∈ m.afracs) : 0 ≤ nuclideXS (data x.1) t e :=
  List.sum_nonneg fun y hy => by
    obtain ⟨z, hz, rfl⟩ := List.mem_map.1 hy
    exact h.xs x hx z hz

theorem same_collisionRate {m m' : Material} {t e : ℝ} (h : SameGas data data' m m')
    (hr : Reacting data m t e) (hr' : Reacting data' m' t e) :
    collisionRate data' m' t e = collisionRate data m t e := by
  have key : ∀ {data : Nuclide → Continuous} {m : Material} (_ : Reacting data m t e),
      ENNReal.ofReal (collisionRate data m t e) = ENNReal.ofReal m.numberDensity *
        (m.afracs.map fun x => ENNReal.ofReal x.2 *
          ENNReal.ofReal ((data x.1).reactions.map (reactionXS t e)).sum).sum := by
    intro data m hr
    unfold collisionRate
    rw [ENNReal.ofReal_mul hr.density.le, ofReal_sum_map fun x hx => mul_nonneg (hr.fractions x hx)
      (hr.nuclide x hx)]
    congr 2
    refine List.map_congr_left fun x hx => ?_
    rw [ENNReal.ofReal_mul (hr.fractions x hx)]
    rfl
  rw [← ENNReal.ofReal_eq_ofReal_iff hr'.some.le hr.some.le, key hr', key hr]
  exact sum_sameGas h hr.density.le hr'.density.le hr.fractions hr'.fractions fun rs =>
    ENNReal.ofReal (rs.map (reactionXS t e)).sum

/-! ### Collisions -/

variable {next next' start start' : Direction → ℝ → (ℕ → ℝ) → ℝ≥0∞}

/-- A function of the score after a collision: for each reaction of each nuclide the rate times the
mean. -/
theorem lintegral_afterGas_law (h : Frames a b) {m : Material} {t e : ℝ} (hr : Reacting data m t e)
    {d : Direction} (hn : Measurable fun q : Direction × ℝ × (ℕ → ℝ) => next q.1 q.2.1 q.2.2)
    (hs : Measurable fun q : Direction × ℝ × (ℕ → ℝ) => start q.1 q.2.1 q.2.2) {φ : ℝ≥0∞ → ℝ≥0∞}
    (hφ : Measurable φ) (h0 : φ 0 = 0) :
    ENNReal.ofReal (collisionRate data m t e) *
        ∫⁻ us, φ (afterGas endless a b data m t d e next start us) ∂uniforms =
      ENNReal.ofReal m.numberDensity * (m.afracs.map fun x => ENNReal.ofReal x.2 *
        ((data x.1).reactions.map fun r => ENNReal.ofReal (reactionXS t e r) *
          ∫⁻ us, φ (afterReaction endless a b t d e next start us r) ∂uniforms).sum).sum := by
  have mr : ∀ r, Measurable fun us => φ (afterReaction endless a b t d e next start us r) := fun r =>
    hφ.comp (measurable_afterReaction (next := fun _ => next) (start := fun _ => start) h t
      (hn.comp measurable_snd) (hs.comp measurable_snd) measurable_const measurable_const measurable_id r)
  set G : Continuous → (ℕ → ℝ) → ℝ≥0∞ := fun D us =>
    byWeight (D.reactions.map (reactionXS t e)) (us 0) fun j => D.reactions[j]?.elim 0 fun r =>
      φ (afterReaction endless a b t d e next start (fun k => us (k + 1)) r) with hG
  have mG : ∀ D, Measurable (G D) := by
    intro D
    refine measurable_byWeight _ (measurable_pi_apply 0) fun j => ?_
    cases D.reactions[j]? with
    | none => exact measurable_const
    | some r => exact (mr r).comp (measurable_shift measurable_id 1)
  have hw : ∀ w ∈ m.afracs.map fun x => x.2 * nuclideXS (data x.1) t e, 0 ≤ w := by
    intro w hw
    obtain ⟨x, hx, rfl⟩ := List.mem_map.1 hw
    exact mul_nonneg (hr.fractions x hx) (hr.nuclide x hx)
  have e0 : ∀ us, φ (afterGas endless a b data m t d e next start us) =
      byWeight (m.afracs.map fun x => x.2 * nuclideXS (data x.1) t e) (us 0) fun i =>
        m.afracs[i]?.elim 0 fun x => G (data x.1) fun k => us (k + 1) := by
    intro us
    unfold afterGas
    rw [byWeight_apply hw _ _ h0]
    simp only [endless_numbers, endless_rest]
    congr 1
    funext i
    cases hi : m.afracs[i]? with
    | none => exact h0
    | some x =>
      have hx := List.mem_of_getElem? hi
      simp only [Option.elim_some, hG]
      rw [byWeight_apply (fun w hw => by
        obtain ⟨r, hr', rfl⟩ := List.mem_map.1 hw
        exact hr.xs x hx r hr') _ _ h0]
      congr 1
      funext j
      cases (data x.1).reactions[j]? with
      | none => exact h0
      | some r => rfl
  have hS : collisionRate data m t e =
      m.numberDensity * (m.afracs.map fun x => x.2 * nuclideXS (data x.1) t e).sum := rfl
  have hSp : 0 < (m.afracs.map fun x => x.2 * nuclideXS (data x.1) t e).sum :=
    pos_of_mul_pos_right (hS ▸ hr.some) hr.density.le
  rw [lintegral_congr e0]
  have e1 := lintegral_choice (l := m.afracs) (f := fun x : Nuclide × ℝ => x.2 * nuclideXS (data x.1) t e)
    (F := fun x us => G (data x.1) us) (fun x h => mul_nonneg (hr.fractions x h) (hr.nuclide x h)) fun x => mG _
  rw [e1, ← List.sum_map_mul_left, ← List.sum_map_mul_left]
  congr 1
  refine List.map_congr_left fun x hx => ?_
  have e2 : ∫⁻ us, G (data x.1) us ∂uniforms = _ :=
    lintegral_choice (l := (data x.1).reactions) (f := reactionXS t e) (hr.xs x hx) mr
  rw [e2, ← mul_assoc, ← ENNReal.ofReal_mul hr.some.le, ← mul_assoc,
    ← ENNReal.ofReal_mul hr.density.le]
  have e3 : collisionRate data m t e * (x.2 * nuclideXS (data x.1) t e /
      (m.afracs.map fun x => x.2 * nuclideXS (data x.1) t e).sum) =
      (m.numberDensity * x.2) * ((data x.1).reactions.map (reactionXS t e)).sum / 1 := by
    rw [hS]
    unfold nuclideXS
    unfold nuclideXS at hSp
    field_simp
  rw [e3, two_choices (hr.xs x hx) (mul_nonneg hr.density.le (hr.fractions x hx)) zero_le_one, div_one]

/-- A collision. -/
theorem same_afterGas (hR : Rigid R) (h : Frames a b) (h' : Frames a' b') {m m' : Material} {t e : ℝ}
    (hm : SameGas data data' m m') (hr : Reacting data m t e) (hr' : Reacting data' m' t e) (ht : 0 < t)
    (he : 0 < e) {d : Direction} (hd : UnitVec d)
    (hn : Measurable fun q : Direction × ℝ × (ℕ → ℝ) => next q.1 q.2.1 q.2.2)
    (hn' : Measurable fun q : Direction × ℝ × (ℕ → ℝ) => next' q.1 q.2.1 q.2.2)
    (hs : Measurable fun q : Direction × ℝ × (ℕ → ℝ) => start q.1 q.2.1 q.2.2)
    (hs' : Measurable fun q : Direction × ℝ × (ℕ → ℝ) => start' q.1 q.2.1 q.2.2)
    (en : ∀ d e, UnitVec d → 0 < e → SameLaw (next d e) (next' (R d) e))
    (es : ∀ d e, UnitVec d → 0 < e → SameLaw (start d e) (start' (R d) e)) :
    SameLaw (afterGas endless a b data m t d e next start)
      (afterGas endless a' b' data' m' t (R d) e next' start') := by
  refine sameLaw_of_zero
    (measurable_afterGas (α := ℕ → ℝ) h data m t (next := fun _ => next) (start := fun _ => start)
      (hn.comp measurable_snd) (hs.comp measurable_snd) measurable_const measurable_const measurable_id)
    (measurable_afterGas (α := ℕ → ℝ) h' data' m' t (next := fun _ => next') (start := fun _ => start')
      (hn'.comp measurable_snd) (hs'.comp measurable_snd) measurable_const measurable_const measurable_id)
    fun φ hφ h0 => ?_
  have hM : ENNReal.ofReal (collisionRate data m t e) ≠ 0 := by simpa using hr.some
  refine (ENNReal.mul_right_inj hM ENNReal.ofReal_ne_top).1 ?_
  rw [lintegral_afterGas_law h hr hn hs hφ h0]
  conv_rhs => rw [← same_collisionRate hm hr hr', lintegral_afterGas_law h' hr' hn' hs' hφ h0]
  rw [sum_sameGas hm hr.density.le hr'.density.le hr.fractions hr'.fractions fun rs =>
    (rs.map fun r => ENNReal.ofReal (reactionXS t e r) *
      ∫⁻ us, φ (afterReaction endless a' b' t (R d) e next' start' us r) ∂uniforms).sum]
  congr 2
  refine List.map_congr_left fun x hx => ?_
  congr 2
  refine List.map_congr_left fun r hrr => ?_
  rw [same_afterReaction hR h h' ht he hd hn hn' hs hs' en es (hr.masses x hx r hrr) hφ h0]

end Minimc
