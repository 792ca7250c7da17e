import Verif.Lemmas.GasRounds
import Verif.Lemmas.WalkLimit

/-! # Chains of neutrons in gases: all rounds -/

namespace Minimc

open Classical MeasureTheory Spec Set Props
open scoped ENNReal

variable {a b : Direction → Direction}

/-! ### The score grows -/

section Score

variable {σ : Type} {S : Supply σ} {data : Nuclide → Continuous} {w : World} {method : Method}
  {hit : SurfaceObj → Direction → ℝ → ℝ≥0∞}

theorem gasScattered_le {A β : ℝ} {d : Direction} {speed : ℝ} {next next' : Direction → ℝ → σ → ℝ≥0∞}
    (h : ∀ d e s, next d e s ≤ next' d e s) (n : ℕ) (s : σ) :
    gasScattered S a b A β d speed next n s ≤ gasScattered S a b A β d speed next' n s := by
  induction n generalizing s with
  | zero => exact le_rfl
  | succ n ih =>
    rw [gasScattered, gasScattered]
    generalize proposal (β * speed) (S.numbers s) = q
    obtain ⟨x, μ, k⟩ := q
    simp only
    split_ifs
    · exact le_rfl
    · exact h _ _ _
    · exact ih _

theorem gasBirths_le {start start' : Direction → σ → ℝ≥0∞} (h : ∀ d s, start d s ≤ start' d s) (k : ℕ)
    (s : σ) : gasBirths S start k s ≤ gasBirths S start' k s := by
  induction k generalizing s with
  | zero => exact le_rfl
  | succ k ih => exact add_le_add (h _ _) (ih _)

theorem afterReaction_le {t : ℝ} {d : Direction} {e : ℝ} {next next' start start' : Direction → ℝ → σ → ℝ≥0∞}
    (hn : ∀ d e s, next d e s ≤ next' d e s) (hs : ∀ d e s, start d e s ≤ start' d e s) (s : σ)
    (r : ContinuousReaction) :
    afterReaction S a b t d e next start s r ≤ afterReaction S a b t d e next' start' s r := by
  cases r with
  | capture ev => exact le_rfl
  | scatter ev tsl A => exact iSup_mono fun n => gasScattered_le hn n s
  | fission ev nubar => exact gasBirths_le (fun d s => hs d e s) _ _

theorem afterGas_le {m : Material} {t : ℝ} {d : Direction} {e : ℝ}
    {next next' start start' : Direction → ℝ → σ → ℝ≥0∞}
    (hn : ∀ d e s, next d e s ≤ next' d e s) (hs : ∀ d e s, start d e s ≤ start' d e s) (s : σ) :
    afterGas S a b data m t d e next start s ≤ afterGas S a b data m t d e next' start' s := by
  unfold afterGas
  refine byWeight_mono fun i => ?_
  cases m.afracs[i]? with
  | none => exact le_rfl
  | some x =>
    refine byWeight_mono fun j => ?_
    cases (data x.1).reactions[j]? with
    | none => exact le_rfl
    | some r => exact afterReaction_le hn hs _ r

theorem gasCrossed_le {E E' : Cell → Point → Direction → ℝ → ℝ≥0∞} {c : Cell} {x : Point} {d : Direction}
    {e : ℝ} (h : ∀ c ∈ w.cells, ∀ x, E c x d e ≤ E' c x d e) :
    gasCrossed w hit E c x d e ≤ gasCrossed w hit E' c x d e := by
  unfold gasCrossed
  cases faced c x d with
  | none => exact le_rfl
  | some s =>
    cases hc : cellAt w (beyond c x d) with
    | none => exact le_rfl
    | some c' => exact add_le_add le_rfl (h c' (cellAt_mem hc) _)

theorem gasScore_mono (n : ℕ) (c : Cell) (x : Point) (d : Direction) (e : ℝ) (s : σ) :
    gasScore S a b data w method hit n c x d e s ≤ gasScore S a b data w method hit (n + 1) c x d e s := by
  induction n generalizing c x d e s with
  | zero => exact zero_le
  | succ n ih =>
    cases hm : c.material with
    | none => rw [gasScore_none hm, gasScore_none hm]
    | some m =>
      rw [gasScore_succ hm, gasScore_succ hm]
      split_ifs
      · exact gasCrossed_le fun c _ x => ih c x d e _
      · refine afterGas_le (fun d e s => ih c _ d e s) (fun d' e' s' => ?_) _
        cases cellAt w (along x d (-Real.log (1 - S.number s) / collisionRate data m (heat c) e)) with
        | none => exact le_rfl
        | some c' => exact ih c' _ d' e' s'

theorem gasScore_monotone (c : Cell) (x : Point) (d : Direction) (e : ℝ) (s : σ) :
    Monotone fun n => gasScore S a b data w method hit n c x d e s :=
  monotone_nat_of_le_succ fun n => gasScore_mono n c x d e s

end Score

variable {data : Nuclide → Continuous} {w : World} {method : Method}
  {hit : SurfaceObj → Direction → ℝ → ℝ≥0∞}

theorem gasMean_monotone (c : Cell) (x : Point) (d : Direction) (e : ℝ) :
    Monotone fun n => gasMean a b data w method hit n c x d e :=
  fun _ _ h => lintegral_mono fun us => gasScore_monotone c x d e us h

theorem meanGas_eq (h : Frames a b) (hh : ∀ s, Measurable fun q : Direction × ℝ => hit s q.1 q.2)
    (c : Cell) (x : Point) (d : Direction) (e : ℝ) :
    meanGas a b data w method hit c x d e = ⨆ n, gasMean a b data w method hit n c x d e := by
  unfold meanGas gasMean
  refine lintegral_iSup (fun n => ?_) fun i j hij us => gasScore_monotone c x d e us hij
  exact (measurable_gasScore h data w method hh n c).comp
    (measurable_const.prodMk (measurable_const.prodMk (measurable_const.prodMk measurable_id)))

theorem measurable_gasMean (h : Frames a b) (hh : ∀ s, Measurable fun q : Direction × ℝ => hit s q.1 q.2)
    (n : ℕ) (c : Cell) : Measurable fun q : Point × Direction × ℝ =>
      gasMean a b data w method hit n c q.1 q.2.1 q.2.2 := by
  unfold gasMean
  have h := (measurable_gasScore h data w method hh n c).comp
    (f := fun q : (Point × Direction × ℝ) × (ℕ → ℝ) => (q.1.1, q.1.2.1, q.1.2.2, q.2)) (by fun_prop)
  exact h.lintegral_prod_right'

/-! ### The right hand side of the equation -/

theorem sphereMean_mono_unit {F F' : Direction → ℝ≥0∞} (h : ∀ d, UnitVec d → F d ≤ F' d) :
    sphereMean F ≤ sphereMean F' := by
  unfold sphereMean
  gcongr ENNReal.ofReal (1 / (4 * Real.pi)) * ?_
  refine setLIntegral_mono' measurableSet_Ioo fun z hz => ?_
  refine lintegral_mono fun φ => h _ ?_
  have h1 : 0 ≤ 1 - z ^ 2 := by nlinarith [hz.1, hz.2]
  have h2 := Real.sq_sqrt h1
  have h3 := Real.sin_sq_add_cos_sq φ
  unfold UnitVec
  simp only
  nlinarith

theorem ofVelocity_mono {E E' : Direction → ℝ → ℝ≥0∞}
    (h : ∀ d e, UnitVec d → 0 < e → E d e ≤ E' d e) (v : Point) : ofVelocity E v ≤ ofVelocity E' v := by
  have hm := neutronMass_pos
  unfold ofVelocity
  split_ifs with h0
  · exact le_rfl
  · refine h _ _ (directed_unit v) ?_
    have := lt_of_le_of_ne (normSq_nonneg v) (Ne.symm h0)
    positivity

theorem collided_mono {A t : ℝ} {d : Direction} {e : ℝ} {E E' : Direction → ℝ → ℝ≥0∞}
    (h : ∀ d e, UnitVec d → 0 < e → E d e ≤ E' d e) : collided A t d e E ≤ collided A t d e E' := by
  unfold collided
  dsimp only
  gcongr
  exact sphereMean_mono fun n => ofVelocity_mono h _

theorem reacted_mono {t : ℝ} {d : Direction} {e : ℝ} (he : 0 < e) {E E' F F' : Direction → ℝ → ℝ≥0∞}
    (h : ∀ d e, UnitVec d → 0 < e → E d e ≤ E' d e) (h' : ∀ d e, UnitVec d → 0 < e → F d e ≤ F' d e)
    (r : ContinuousReaction) : reacted t d e E F r ≤ reacted t d e E' F' r := by
  cases r with
  | capture ev => exact le_rfl
  | scatter ev tsl A => exact collided_mono h
  | fission ev nubar =>
    exact mul_le_mul' le_rfl (sphereMean_mono_unit fun d hd => h' d e hd he)

theorem gasEmission_mono {m : Material} {t : ℝ} {d : Direction} {e : ℝ} (he : 0 < e)
    {E E' F F' : Direction → ℝ → ℝ≥0∞} (h : ∀ d e, UnitVec d → 0 < e → E d e ≤ E' d e)
    (h' : ∀ d e, UnitVec d → 0 < e → F d e ≤ F' d e) :
    gasEmission data m t d e E F ≤ gasEmission data m t d e E' F' := by
  unfold gasEmission
  gcongr ENNReal.ofReal m.numberDensity * ?_
  refine List.sum_le_sum fun x _ => ?_
  gcongr ENNReal.ofReal x.2 * ?_
  refine List.sum_le_sum fun r _ => ?_
  gcongr
  exact reacted_mono he h h' r

theorem gasTransported_mono {E E' : Cell → Point → Direction → ℝ → ℝ≥0∞}
    (h : ∀ c ∈ w.cells, ∀ x d e, UnitVec d → 0 < e → E c x d e ≤ E' c x d e) {c : Cell} (hc : c ∈ w.cells)
    (x : Point) {d : Direction} (hd : UnitVec d) {e : ℝ} (he : 0 < e) :
    gasTransported data w hit E c x d e ≤ gasTransported data w hit E' c x d e := by
  cases hm : c.material with
  | none => simp [gasTransported, hm]
  | some m =>
    rw [gasTransported_some hm, gasTransported_some hm]
    refine add_le_add (lintegral_mono fun s => ?_) ?_
    · dsimp only
      gcongr
      refine gasEmission_mono he (fun d e hd he => h c hc _ d e hd he) fun d' e' hd he => ?_
      cases hc' : cellAt w (along x d s) with
      | none => exact le_rfl
      | some c' => exact h c' (cellAt_mem hc') _ _ _ hd he
    · split_ifs
      · exact le_rfl
      · gcongr
        exact gasCrossed_le fun c hc x => h c hc x d e hd he

/-! ### Limits -/

theorem measurable_sphereMean' {α : Type*} [MeasurableSpace α] {F : α → Direction → ℝ≥0∞}
    (hF : Measurable fun q : α × Direction => F q.1 q.2) : Measurable fun s => sphereMean (F s) := by
  have e : (fun s => sphereMean (F s)) = fun s => ∫⁻ d, F s d ∂sphereLaw := by
    funext s
    exact (lintegral_sphereLaw (hF.comp (measurable_const.prodMk measurable_id))).symm
  rw [e]
  exact hF.lintegral_prod_right'

theorem measurable_ofVelocity' {α : Type*} [MeasurableSpace α] {E : α → Direction → ℝ → ℝ≥0∞}
    (hE : Measurable fun q : α × Direction × ℝ => E q.1 q.2.1 q.2.2) :
    Measurable fun q : α × Point => ofVelocity (E q.1) q.2 := by
  unfold ofVelocity
  refine Measurable.ite (measurableSet_eq_fun (by fun_prop) measurable_const) measurable_const ?_
  exact hE.comp (f := fun q : α × Point => (q.1, directed q.2, neutronMass * normSq q.2 / 2)) (by fun_prop)

theorem measurable_collided {α : Type*} [MeasurableSpace α] (A t : ℝ) (d : Direction) (e : ℝ)
    {E : α → Direction → ℝ → ℝ≥0∞} (hE : Measurable fun q : α × Direction × ℝ => E q.1 q.2.1 q.2.2) :
    Measurable fun z => collided A t d e (E z) := by
  have h1 : ∀ z, Measurable fun q : Direction × ℝ => E z q.1 q.2 := fun z =>
    hE.comp (measurable_const.prodMk measurable_id)
  simp only [fun z => collided_eq (A := A) (t := t) (d := d) (e := e) (h1 z)]
  refine Measurable.const_mul ?_ _
  refine Measurable.lintegral_prod_right' (f := fun q : α × Point =>
    ENNReal.ofReal (gasDensity (slowness (A * neutronMass) t) q.2 *
          Real.sqrt (normSq (combine 1 (combine (speedOf neutronMass e) d 0 d) (-1) q.2))) *
        sphereMean (fun n => ofVelocity (E q.1)
          (struck A (combine (speedOf neutronMass e) d 0 d) q.2 n))) ?_
  refine Measurable.mul ?_ ?_
  · unfold gasDensity
    fun_prop
  · refine measurable_sphereMean' (F := fun (q : α × Point) n => ofVelocity (E q.1)
      (struck A (combine (speedOf neutronMass e) d 0 d) q.2 n)) ?_
    exact (measurable_ofVelocity' hE).comp (f := fun q : (α × Point) × Direction =>
      (q.1.1, struck A (combine (speedOf neutronMass e) d 0 d) q.1.2 q.2)) (by fun_prop)

theorem measurable_gasEmission {α : Type*} [MeasurableSpace α] (m : Material) (t : ℝ) (d : Direction) (e : ℝ)
    {E F : α → Direction → ℝ → ℝ≥0∞} (hE : Measurable fun q : α × Direction × ℝ => E q.1 q.2.1 q.2.2)
    (hF : Measurable fun q : α × Direction × ℝ => F q.1 q.2.1 q.2.2) :
    Measurable fun z => gasEmission data m t d e (E z) (F z) := by
  unfold gasEmission
  refine Measurable.const_mul (measurable_list_sum (f := fun (x : Nuclide × ℝ) z => ENNReal.ofReal x.2 *
    ((data x.1).reactions.map fun r => ENNReal.ofReal (reactionXS t e r) *
      reacted t d e (E z) (F z) r).sum) (fun x => ?_) _) _
  refine Measurable.const_mul (measurable_list_sum (f := fun r z => ENNReal.ofReal (reactionXS t e r) *
    reacted t d e (E z) (F z) r) (fun r => ?_) _) _
  refine Measurable.const_mul ?_ _
  cases r with
  | capture ev => exact measurable_const
  | scatter ev tsl A => exact measurable_collided A t d e hE
  | fission ev nubar =>
    refine Measurable.const_mul (measurable_sphereMean' (F := fun z d' => F z d' e) ?_) _
    exact hF.comp (f := fun q : α × Direction => (q.1, q.2, e)) (by fun_prop)

theorem ofVelocity_iSup (E : ℕ → Direction → ℝ → ℝ≥0∞) (v : Point) :
    ofVelocity (fun d e => ⨆ n, E n d e) v = ⨆ n, ofVelocity (E n) v := by
  unfold ofVelocity
  split_ifs
  · simp
  · rfl

theorem collided_iSup {A t : ℝ} {d : Direction} {e : ℝ} {E : ℕ → Direction → ℝ → ℝ≥0∞}
    (hE : ∀ n, Measurable fun q : Direction × ℝ => E n q.1 q.2) (hm : Monotone E) :
    collided A t d e (fun d e => ⨆ n, E n d e) = ⨆ n, collided A t d e (E n) := by
  have hv : ∀ n, Measurable (ofVelocity (E n)) := fun n => measurable_ofVelocity (hE n)
  have hvm : ∀ v, Monotone fun n => ofVelocity (E n) v := fun v i j hij =>
    ofVelocity_mono (fun d e _ _ => hm hij d e) v
  rw [collided_eq (Measurable.iSup hE)]
  simp only [fun n => collided_eq (A := A) (t := t) (d := d) (e := e) (hE n)]
  rw [← ENNReal.mul_iSup, ← lintegral_iSup]
  · congr 1
    refine lintegral_congr fun V => ?_
    rw [← ENNReal.mul_iSup]
    congr 1
    simp only [ofVelocity_iSup]
    exact sphereMean_iSup (F := fun n d' => ofVelocity (E n)
      (struck A (combine (speedOf neutronMass e) d 0 d) V d'))
      (fun n => (hv n).comp (by fun_prop)) fun i j hij n => hvm _ hij
  · intro n
    refine Measurable.mul ?_ ?_
    · unfold gasDensity
      fun_prop
    · exact measurable_sphereMean' (F := fun (V : Point) n' => ofVelocity (E n)
        (struck A (combine (speedOf neutronMass e) d 0 d) V n')) ((hv n).comp (by fun_prop))
  · intro i j hij V
    dsimp only
    gcongr
    exact sphereMean_mono fun n => hvm _ hij

theorem reacted_iSup {t : ℝ} {d : Direction} {e : ℝ} {E F : ℕ → Direction → ℝ → ℝ≥0∞}
    (hE : ∀ n, Measurable fun q : Direction × ℝ => E n q.1 q.2) (hm : Monotone E)
    (hF : ∀ n, Measurable fun q : Direction × ℝ => F n q.1 q.2) (hm' : Monotone F)
    (r : ContinuousReaction) :
    reacted t d e (fun d e => ⨆ n, E n d e) (fun d e => ⨆ n, F n d e) r =
      ⨆ n, reacted t d e (E n) (F n) r := by
  cases r with
  | capture ev => simp [reacted]
  | scatter ev tsl A => exact collided_iSup hE hm
  | fission ev nubar =>
    simp only [reacted]
    rw [← ENNReal.mul_iSup]
    congr 1
    exact sphereMean_iSup (F := fun n d' => F n d' e)
      (fun n => (hF n).comp (f := fun d' => (d', e)) (by fun_prop)) fun i j hij d' => hm' hij d' e

theorem list_sum_iSup {β : Type*} {l : List β} {f : ℕ → β → ℝ≥0∞} (hf : Monotone f) :
    (l.map fun x => ⨆ n, f n x).sum = ⨆ n, (l.map (f n)).sum := by
  induction l with
  | nil => simp
  | cons x l ih =>
    simp only [List.map_cons, List.sum_cons]
    rw [ih]
    refine ENNReal.iSup_add_iSup_of_monotone (fun i j hij => hf hij x) fun i j hij => ?_
    exact List.sum_le_sum fun y _ => hf hij y

theorem gasEmission_iSup {m : Material} {t : ℝ} {d : Direction} {e : ℝ} (he : 0 < e)
    {E F : ℕ → Direction → ℝ → ℝ≥0∞}
    (hE : ∀ n, Measurable fun q : Direction × ℝ => E n q.1 q.2) (hm : Monotone E)
    (hF : ∀ n, Measurable fun q : Direction × ℝ => F n q.1 q.2) (hm' : Monotone F) :
    gasEmission data m t d e (fun d e => ⨆ n, E n d e) (fun d e => ⨆ n, F n d e) =
      ⨆ n, gasEmission data m t d e (E n) (F n) := by
  have hr : ∀ r, Monotone fun n => reacted t d e (E n) (F n) r := fun r i j hij =>
    reacted_mono he (fun d e _ _ => hm hij d e) (fun d e _ _ => hm' hij d e) r
  have h1 : ∀ x : Nuclide × ℝ, ((data x.1).reactions.map fun r => ENNReal.ofReal (reactionXS t e r) *
        reacted t d e (fun d e => ⨆ n, E n d e) (fun d e => ⨆ n, F n d e) r).sum =
      ⨆ n, ((data x.1).reactions.map fun r => ENNReal.ofReal (reactionXS t e r) *
        reacted t d e (E n) (F n) r).sum := by
    intro x
    simp only [reacted_iSup hE hm hF hm', ENNReal.mul_iSup]
    exact list_sum_iSup (f := fun n r => ENNReal.ofReal (reactionXS t e r) * reacted t d e (E n) (F n) r)
      fun i j hij r => by dsimp only; gcongr; exact hr r hij
  unfold gasEmission
  rw [← ENNReal.mul_iSup]
  congr 1
  simp only [h1, ENNReal.mul_iSup]
  refine list_sum_iSup (f := fun n (x : Nuclide × ℝ) => ENNReal.ofReal x.2 *
    ((data x.1).reactions.map fun r => ENNReal.ofReal (reactionXS t e r) *
        reacted t d e (E n) (F n) r).sum) fun i j hij x => ?_
  dsimp only
  gcongr
  refine List.sum_le_sum fun r _ => ?_
  gcongr
  exact hr r hij

theorem gasCrossed_iSup {E : ℕ → Cell → Point → Direction → ℝ → ℝ≥0∞} {c : Cell} {x : Point} {d : Direction}
    {e : ℝ} :
    gasCrossed w hit (fun c x d e => ⨆ n, E n c x d e) c x d e = ⨆ n, gasCrossed w hit (E n) c x d e := by
  unfold gasCrossed
  cases faced c x d with
  | none => simp
  | some s =>
    cases hc : cellAt w (beyond c x d) with
    | none => simp
    | some c' => simp only [Option.elim_some, ENNReal.add_iSup]

theorem gasTransported_iSup {E : ℕ → Cell → Point → Direction → ℝ → ℝ≥0∞}
    (hE : ∀ n c, Measurable fun q : Point × Direction × ℝ => E n c q.1 q.2.1 q.2.2) (hmono : Monotone E)
    (c : Cell) (x : Point) (d : Direction) {e : ℝ} (he : 0 < e) :
    gasTransported data w hit (fun c x d e => ⨆ n, E n c x d e) c x d e =
      ⨆ n, gasTransported data w hit (E n) c x d e := by
  cases hm : c.material with
  | none => simp [gasTransported, hm]
  | some m =>
    simp only [gasTransported_some hm]
    set F : ℕ → ℝ → Direction → ℝ → ℝ≥0∞ := fun n s d' e' =>
      (cellAt w (along x d s)).elim 0 fun c' => E n c' (along x d s) d' e' with hF
    have hal : Measurable fun q : ℝ × Direction × ℝ => along x d q.1 :=
      Measurable.along measurable_const measurable_const measurable_fst
    have hEm : ∀ n, Measurable fun q : ℝ × Direction × ℝ => E n c (along x d q.1) q.2.1 q.2.2 := fun n =>
      (hE n c).comp (hal.prodMk measurable_snd)
    have hFm : ∀ n, Measurable fun q : ℝ × Direction × ℝ => F n q.1 q.2.1 q.2.2 := fun n =>
      measurable_cellAt w hal fun c' _ => (hE n c').comp (hal.prodMk measurable_snd)
    have hFmono : ∀ s, Monotone fun n => F n s := by
      intro s i j hij d' e'
      simp only [hF]
      cases cellAt w (along x d s) with
      | none => exact le_rfl
      | some c' => exact hmono hij c' _ d' e'
    have hFs : ∀ s, (fun d' e' => (cellAt w (along x d s)).elim 0 fun c' =>
        ⨆ n, E n c' (along x d s) d' e') = fun d' e' => ⨆ n, F n s d' e' := by
      intro s
      funext d' e'
      simp only [hF]
      cases cellAt w (along x d s) with
      | none => simp
      | some c' => rfl
    have hem : ∀ s, gasEmission data m (heat c) d e (fun d' e' => ⨆ n, E n c (along x d s) d' e')
          (fun d' e' => ⨆ n, F n s d' e') =
        ⨆ n, gasEmission data m (heat c) d e (E n c (along x d s)) (F n s) := fun s =>
      gasEmission_iSup he (E := fun n => E n c (along x d s)) (F := fun n => F n s)
        (fun n => (hE n c).comp (f := fun q : Direction × ℝ => (along x d s, q))
          (measurable_const.prodMk measurable_id))
        (fun i j hij d' e' => hmono hij c (along x d s) d' e')
        (fun n => (hFm n).comp (f := fun q : Direction × ℝ => (s, q))
          (measurable_const.prodMk measurable_id)) (hFmono s)
    have hemm : ∀ s, Monotone fun n => gasEmission data m (heat c) d e (E n c (along x d s)) (F n s) := by
      intro s i j hij
      refine gasEmission_mono he (fun d' e' _ _ => ?_) fun d' e' _ _ => ?_
      · exact hmono hij c (along x d s) d' e'
      · exact hFmono s hij d' e'
    have hmeas : ∀ n, Measurable fun s => ENNReal.ofReal (Real.exp (-(collisionRate data m (heat c) e * s))) *
        gasEmission data m (heat c) d e (E n c (along x d s)) (F n s) := fun n =>
      Measurable.mul (by fun_prop) (measurable_gasEmission m (heat c) d e
        (E := fun s => E n c (along x d s)) (F := F n) (hEm n) (hFm n))
    have hint : ∫⁻ s in {s : ℝ | 0 < s ∧ (s : WithTop ℝ) < ahead c x d},
          ENNReal.ofReal (Real.exp (-(collisionRate data m (heat c) e * s))) *
            gasEmission data m (heat c) d e (fun d' e' => ⨆ n, E n c (along x d s) d' e')
              (fun d' e' => ⨆ n, F n s d' e') =
        ⨆ n, ∫⁻ s in {s : ℝ | 0 < s ∧ (s : WithTop ℝ) < ahead c x d},
          ENNReal.ofReal (Real.exp (-(collisionRate data m (heat c) e * s))) *
            gasEmission data m (heat c) d e (E n c (along x d s)) (F n s) := by
      rw [← lintegral_iSup hmeas]
      · refine lintegral_congr fun s => ?_
        rw [hem, ENNReal.mul_iSup]
      · intro i j hij s
        dsimp only
        gcongr
        exact hemm s hij
    simp only [hFs]
    rw [hint, gasCrossed_iSup]
    have hif : (if ahead c x d = ⊤ then 0 else
          ENNReal.ofReal (Real.exp (-(collisionRate data m (heat c) e * (ahead c x d).untopD 0))) *
            ⨆ n, gasCrossed w hit (E n) c x d e) =
        ⨆ n, if ahead c x d = ⊤ then 0 else
          ENNReal.ofReal (Real.exp (-(collisionRate data m (heat c) e * (ahead c x d).untopD 0))) *
            gasCrossed w hit (E n) c x d e := by
      split_ifs
      · simp
      · rw [ENNReal.mul_iSup]
    rw [hif, ENNReal.iSup_add_iSup_of_monotone]
    · intro i j hij
      refine lintegral_mono fun s => ?_
      dsimp only
      gcongr
      exact hemm s hij
    · intro i j hij
      dsimp only
      split_ifs
      · exact le_rfl
      · gcongr
        exact gasCrossed_le fun c _ x => hmono hij c x d e

end Minimc
