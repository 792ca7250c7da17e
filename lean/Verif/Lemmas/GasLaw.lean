import Verif.Lemmas.GasRounds
import Verif.Lemmas.TurnSource
import Verif.Lemmas.MixtureLaw
import Verif.Lemmas.Elastic
import Verif.Spec.GasAlike

/-! # The distribution of scores in gases -/

namespace Minimc

open Classical Spec MeasureTheory Props
open scoped ENNReal

variable {R : Point → Point} {a b a' b' : Direction → Direction}

/-! ### Distributions -/

/-- Functions that vanish where there is no score tell all. -/
theorem sameLaw_of_zero {f f' : (ℕ → ℝ) → ℝ≥0∞} (hf : Measurable f) (hf' : Measurable f')
    (h : ∀ φ : ℝ≥0∞ → ℝ≥0∞, Measurable φ → φ 0 = 0 →
      ∫⁻ us, φ (f us) ∂uniforms = ∫⁻ us, φ (f' us) ∂uniforms) : SameLaw f f' := by
  have key : uniforms.map f = uniforms.map f' := by
    have : IsProbabilityMeasure (uniforms.map f) := Measure.isProbabilityMeasure_map hf.aemeasurable
    have : IsProbabilityMeasure (uniforms.map f') := Measure.isProbabilityMeasure_map hf'.aemeasurable
    have e : ∀ A, MeasurableSet A → (0 : ℝ≥0∞) ∉ A → uniforms.map f A = uniforms.map f' A := by
      intro A hA h0
      have hi := h (A.indicator fun _ => 1) (measurable_const.indicator hA) (by simp [h0])
      have ei : ∀ (g : (ℕ → ℝ) → ℝ≥0∞) (_ : Measurable g),
          ∫⁻ us, A.indicator (fun _ => 1) (g us) ∂uniforms = uniforms.map g A := by
        intro g mg
        rw [Measure.map_apply mg hA, ← lintegral_indicator_one (mg hA)]
        rfl
      rwa [ei _ hf, ei _ hf'] at hi
    ext A hA
    by_cases h0 : (0 : ℝ≥0∞) ∈ A
    · have hc := e Aᶜ hA.compl fun k => k h0
      rw [prob_compl_eq_one_sub hA, prob_compl_eq_one_sub hA] at hc
      have h1 : uniforms.map f A ≤ 1 := prob_le_one
      have h2 : uniforms.map f' A ≤ 1 := prob_le_one
      exact (ENNReal.sub_right_inj ENNReal.one_ne_top h1 h2).1 hc
    · exact e A hA h0
  intro φ hφ
  rw [← lintegral_map hφ hf, ← lintegral_map hφ hf', key]

theorem byWeight_apply {ws : List ℝ} (hnn : ∀ x ∈ ws, 0 ≤ x) (u : ℝ) (F : ℕ → ℝ≥0∞)
    {φ : ℝ≥0∞ → ℝ≥0∞} (h0 : φ 0 = 0) : φ (byWeight ws u F) = byWeight ws u fun i => φ (F i) := by
  by_cases hs : ∃ i, Selected ws (u * ws.sum) i
  · obtain ⟨i, hi⟩ := hs
    have e : ∀ j, Selected ws (u * ws.sum) j ↔ j = i :=
      fun j => ⟨fun h => Selected.unique hnn h hi, fun h => h ▸ hi⟩
    simp only [byWeight_eq e]
  · have e : ∀ F : ℕ → ℝ≥0∞, byWeight ws u F = 0 := by
      intro F
      unfold byWeight
      exact Finset.sum_eq_zero fun i _ => if_neg fun hi => hs ⟨i, hi⟩
    rw [e, e, h0]

/-! ### Turned vectors -/

theorem rigid_combine (hR : Rigid R) (p : ℝ) (x : Point) (q : ℝ) (y : Point) :
    R (combine p x q y) = combine p (R x) q (R y) := by
  have e : combine p x q y = along (along ⟨0, 0, 0⟩ x p) y q := by
    unfold combine along
    ext <;> simp
  rw [e, hR.straight, hR.straight, rigid_zero hR]
  unfold combine along
  ext <;> simp

theorem rigid_normSq (hR : Rigid R) (x : Point) : normSq (R x) = normSq x := by
  have h := hR.angle x x
  unfold cosAngle at h
  unfold normSq
  linarith

theorem rigid_struck (hR : Rigid R) (A : ℝ) (v V : Point) (n : Direction) :
    struck A (R v) (R V) (R n) = R (struck A v V n) := by
  unfold struck
  rw [← rigid_combine hR 1 v (-1) V, rigid_normSq hR, rigid_combine hR, rigid_combine hR]

theorem rigid_directed (hR : Rigid R) {v : Point} (hv : normSq v ≠ 0) : directed (R v) = R (directed v) := by
  unfold directed
  rw [rigid_normSq hR, if_neg hv, if_neg hv, rigid_combine hR]

theorem lintegral_rigid (hR : Rigid R) {F : Point → ℝ≥0∞} (hF : Measurable F) :
    ∫⁻ x, F (R x) ∂spaceVolume = ∫⁻ x, F x ∂spaceVolume := by
  rw [lintegral_space hF, lintegral_space (F := fun x => F (R x)) (hF.comp (measurable_rigid hR))]
  congr 1
  refine lintegral_congr fun r => ?_
  congr 1
  have e : ∀ d : Direction, R (d.smul r) = (R d).smul r := by
    intro d
    have h := rigid_combine hR r d 0 d
    have e : ∀ x : Point, combine r x 0 x = x.smul r := by
      intro x
      unfold combine Point.smul
      ext <;> simp only <;> ring
    rwa [e, e] at h
  simp only [e]
  exact sphereMean_rigid hR (F := fun d => F (d.smul r)) (hF.comp (measurable_id.point_smul measurable_const))

theorem ofVelocity_rigid (hR : Rigid R) {E E' : Direction → ℝ → ℝ≥0∞}
    (h : ∀ d e, UnitVec d → 0 < e → E d e = E' (R d) e) (v : Point) :
    ofVelocity E' (R v) = ofVelocity E v := by
  unfold ofVelocity
  rw [rigid_normSq hR]
  split_ifs with h0
  · rfl
  · rw [rigid_directed hR h0]
    have h1 : 0 < normSq v := lt_of_le_of_ne (normSq_nonneg v) (Ne.symm h0)
    have h2 := neutronMass_pos
    exact (h _ _ (directed_unit v) (by positivity)).symm

/-- A collision in a gas has no preferred direction. -/
theorem collided_rigid (hR : Rigid R) {A t : ℝ} {d : Direction} {e : ℝ} {E E' : Direction → ℝ → ℝ≥0∞}
    (hE : Measurable fun q : Direction × ℝ => E q.1 q.2) (hE' : Measurable fun q : Direction × ℝ => E' q.1 q.2)
    (h : ∀ d e, UnitVec d → 0 < e → E d e = E' (R d) e) :
    collided A t (R d) e E' = collided A t d e E := by
  rw [collided_eq hE, collided_eq hE']
  congr 1
  have hv' := measurable_ofVelocity hE'
  set v := combine (speedOf neutronMass e) d 0 d with hvd
  have ev : combine (speedOf neutronMass e) (R d) 0 (R d) = R v := (rigid_combine hR _ _ _ _).symm
  rw [ev]
  have ms : ∀ v, Measurable fun q : Point × Direction => struck A v q.1 q.2 := by
    intro v
    refine measurable_point ?_ ?_ ?_ <;> (unfold struck combine normSq; fun_prop)
  have mQ : Measurable fun V : Point => sphereMean fun n => ofVelocity E' (struck A (R v) V n) := by
    have e : ∀ V, (sphereMean fun n => ofVelocity E' (struck A (R v) V n)) =
        ∫⁻ n, ofVelocity E' (struck A (R v) V n) ∂sphereLaw := fun V =>
      (lintegral_sphereLaw (hv'.comp ((ms (R v)).comp (measurable_const.prodMk measurable_id)))).symm
    simp only [e]
    exact (hv'.comp (ms (R v))).lintegral_prod_right'
  have mF : Measurable fun V : Point => ENNReal.ofReal (gasDensity (slowness (A * neutronMass) t) V *
      Real.sqrt (normSq (combine 1 (R v) (-1) V))) *
        sphereMean fun n => ofVelocity E' (struck A (R v) V n) := by
    refine Measurable.mul (Measurable.ennreal_ofReal ?_) mQ
    unfold gasDensity normSq combine
    fun_prop
  rw [← lintegral_rigid hR mF]
  refine lintegral_congr fun V => ?_
  have e1 : gasDensity (slowness (A * neutronMass) t) (R V) = gasDensity (slowness (A * neutronMass) t) V := by
    unfold gasDensity
    rw [rigid_normSq hR]
  rw [e1, ← rigid_combine hR, rigid_normSq hR]
  congr 1
  have m1 : Measurable fun n : Direction => ofVelocity E' (struck A (R v) (R V) n) :=
    hv'.comp ((ms (R v)).comp (measurable_const.prodMk measurable_id))
  rw [← sphereMean_rigid hR m1]
  simp only [rigid_struck hR, ofVelocity_rigid hR h]

/-! ### Collisions -/

theorem gasScattered_stays {σ : Type} (S : Supply σ) (A β : ℝ) (d : Direction) (speed : ℝ)
    (next : Direction → ℝ → σ → ℝ≥0∞) (n : ℕ) (s : σ)
    (h : gasScattered S a b A β d speed next n s ≠ 0) (m : ℕ) (hm : n ≤ m) :
    gasScattered S a b A β d speed next m s = gasScattered S a b A β d speed next n s := by
  induction n generalizing s m with
  | zero => exact absurd rfl h
  | succ n ih =>
    obtain ⟨m, rfl⟩ : ∃ k, m = k + 1 := ⟨m - 1, by omega⟩
    rw [gasScattered] at h ⊢
    rw [gasScattered]
    generalize proposal (β * speed) (S.numbers s) = q at h ⊢
    obtain ⟨x, μ, k⟩ := q
    simp only at h ⊢
    split_ifs at h ⊢
    · rfl
    · rfl
    · exact ih _ h m (by omega)

theorem gasScattered_apply {σ : Type} (S : Supply σ) (A β : ℝ) (d : Direction) (speed : ℝ)
    (next : Direction → ℝ → σ → ℝ≥0∞) {φ : ℝ≥0∞ → ℝ≥0∞} (h0 : φ 0 = 0) (n : ℕ) (s : σ) :
    φ (gasScattered S a b A β d speed next n s) =
      gasScattered S a b A β d speed (fun d e s => φ (next d e s)) n s := by
  induction n generalizing s with
  | zero => exact h0
  | succ n ih =>
    rw [gasScattered, gasScattered]
    generalize proposal (β * speed) (S.numbers s) = q
    obtain ⟨x, μ, k⟩ := q
    simp only
    split_ifs
    · exact h0
    · rfl
    · exact ih _

theorem iSup_once {g : ℕ → ℝ≥0∞} (hg : ∀ n, g n ≠ 0 → ∀ m, n ≤ m → g m = g n) {φ : ℝ≥0∞ → ℝ≥0∞}
    (h0 : φ 0 = 0) : φ (⨆ n, g n) = ⨆ n, φ (g n) := by
  by_cases h : ∃ n, g n ≠ 0
  · obtain ⟨n, hn⟩ := h
    have e : ∀ m, g m = 0 ∨ g m = g n := by
      intro m
      by_cases hm : g m = 0
      · exact .inl hm
      · rcases le_total n m with h | h
        · exact .inr (hg n hn m h)
        · exact .inr (hg m hm n h).symm
    have e1 : ⨆ n, g n = g n := le_antisymm (iSup_le fun m => by
      rcases e m with h | h <;> simp [h]) (le_iSup g n)
    rw [e1]
    refine le_antisymm (le_iSup (fun n => φ (g n)) n) (iSup_le fun m => ?_)
    rcases e m with h | h
    · rw [h, h0]
      exact zero_le
    · rw [h]
  · push Not at h
    simp [h, h0]

/-- A direction that is drawn, see `sameLaw_direction`. -/
theorem sameLaw_direction_unit (hR : Rigid R) {next next' : Direction → (ℕ → ℝ) → ℝ≥0∞}
    (hn : Measurable fun q : Direction × (ℕ → ℝ) => next q.1 q.2)
    (hn' : Measurable fun q : Direction × (ℕ → ℝ) => next' q.1 q.2)
    (h : ∀ d, UnitVec d → SameLaw (next d) (next' (R d))) :
    SameLaw (fun us => next (directionFrom (us 0) (us 1)) fun k => us (k + 2))
      fun us => next' (directionFrom (us 0) (us 1)) fun k => us (k + 2) := by
  intro φ hφ
  have hm' : Measurable fun d => ∫⁻ us, φ (next' d us) ∂uniforms :=
    (hφ.comp hn').lintegral_prod_right'
  rw [lintegral_directionFrom (F := fun d us => φ (next d us)) (hφ.comp hn),
    lintegral_directionFrom (F := fun d us => φ (next' d us)) (hφ.comp hn'),
    ← sphereMean_rigid hR hm']
  exact sphereMean_congr fun d hd => h d hd φ hφ

/-- The neutrons of a fission. -/
theorem sameLaw_gasBirths (hR : Rigid R) {start start' : Direction → (ℕ → ℝ) → ℝ≥0∞}
    (hs : Measurable fun q : Direction × (ℕ → ℝ) => start q.1 q.2)
    (hs' : Measurable fun q : Direction × (ℕ → ℝ) => start' q.1 q.2)
    (h : ∀ d, UnitVec d → SameLaw (start d) (start' (R d))) (k : ℕ) :
    SameLaw (gasBirths endless start k) (gasBirths endless start' k) := by
  induction k with
  | zero => exact sameLaw_refl _
  | succ k ih =>
    have mb : ∀ {start : Direction → (ℕ → ℝ) → ℝ≥0∞}
        (_ : Measurable fun q : Direction × (ℕ → ℝ) => start q.1 q.2), Measurable (gasBirths endless start k) :=
      fun hs => measurable_gasBirths (α := ℕ → ℝ) (start := fun _ => _) (hs.comp measurable_snd) k
        measurable_id
    have md : ∀ {start : Direction → (ℕ → ℝ) → ℝ≥0∞}
        (_ : Measurable fun q : Direction × (ℕ → ℝ) => start q.1 q.2),
        Measurable fun q : Direction × (ℕ → ℝ) =>
          start q.1 (endless.child q.2) + gasBirths endless start k (endless.after q.2) :=
      fun hs => (hs.comp (measurable_fst.prodMk
        (measurePreserving_child.measurable.comp measurable_snd))).add
        ((mb hs).comp (measurePreserving_after.measurable.comp measurable_snd))
    have key := sameLaw_direction_unit hR
      (next := fun d us => start d (endless.child us) + gasBirths endless start k (endless.after us))
      (next' := fun d us => start' d (endless.child us) + gasBirths endless start' k (endless.after us))
      (md hs) (md hs') fun d hd => sameLaw_split (hs.comp (measurable_const.prodMk measurable_id))
        (hs'.comp (measurable_const.prodMk measurable_id)) (mb hs) (mb hs') (h d hd) ih
    have e : ∀ start : Direction → (ℕ → ℝ) → ℝ≥0∞, gasBirths endless start (k + 1) = fun us =>
        start (directionFrom (us 0) (us 1)) (endless.child fun i => us (i + 2)) +
            gasBirths endless start k (endless.after fun i => us (i + 2)) := by
      intro start
      funext us
      simp only [gasBirths, endless_numbers, endless_rest]
    rw [e, e]
    exact key

variable {next next' start start' : Direction → ℝ → (ℕ → ℝ) → ℝ≥0∞}

/-- What comes of a reaction. -/
theorem same_afterReaction (hR : Rigid R) (h : Frames a b) (h' : Frames a' b') {t e : ℝ} (ht : 0 < t)
    (he : 0 < e) {d : Direction} (hd : UnitVec d)
    (hn : Measurable fun q : Direction × ℝ × (ℕ → ℝ) => next q.1 q.2.1 q.2.2)
    (hn' : Measurable fun q : Direction × ℝ × (ℕ → ℝ) => next' q.1 q.2.1 q.2.2)
    (hs : Measurable fun q : Direction × ℝ × (ℕ → ℝ) => start q.1 q.2.1 q.2.2)
    (hs' : Measurable fun q : Direction × ℝ × (ℕ → ℝ) => start' q.1 q.2.1 q.2.2)
    (en : ∀ d e, UnitVec d → 0 < e → SameLaw (next d e) (next' (R d) e))
    (es : ∀ d e, UnitVec d → 0 < e → SameLaw (start d e) (start' (R d) e)) {r : ContinuousReaction}
    (hA : ∀ ev tsl A, r = .scatter ev tsl A → 0 < A) {φ : ℝ≥0∞ → ℝ≥0∞} (hφ : Measurable φ)
    (h0 : φ 0 = 0) :
    ∫⁻ us, φ (afterReaction endless a b t d e next start us r) ∂uniforms =
      ∫⁻ us, φ (afterReaction endless a' b' t (R d) e next' start' us r) ∂uniforms := by
  cases r with
  | capture ev => rfl
  | scatter ev tsl A =>
    have hA := hA ev tsl A rfl
    simp only [afterReaction]
    have e1 : ∀ {a b : Direction → Direction} (d : Direction) (next : Direction → ℝ → (ℕ → ℝ) → ℝ≥0∞)
        (us : ℕ → ℝ), φ (⨆ n, gasScattered endless a b A (slowness (A * neutronMass) t) d
          (speedOf neutronMass e) next n us) =
        ⨆ n, gasScattered endless a b A (slowness (A * neutronMass) t) d
          (speedOf neutronMass e) (fun d e us => φ (next d e us)) n us := by
      intro a b d next us
      rw [iSup_once (fun n hn m hm => gasScattered_stays endless A _ d _ next n us hn m hm) h0]
      simp only [gasScattered_apply endless A _ d _ next h0]
    simp only [e1]
    have mE : ∀ {next : Direction → ℝ → (ℕ → ℝ) → ℝ≥0∞}
        (_ : Measurable fun q : Direction × ℝ × (ℕ → ℝ) => next q.1 q.2.1 q.2.2),
        Measurable fun q : Direction × ℝ => ∫⁻ us, φ (next q.1 q.2 us) ∂uniforms := fun hn =>
      ((hφ.comp hn).comp (by fun_prop : Measurable fun q : (Direction × ℝ) × (ℕ → ℝ) =>
        (q.1.1, q.1.2, q.2))).lintegral_prod_right'
    rw [lintegral_scattered h hA ht he hd (next := fun d e us => φ (next d e us)) (hφ.comp hn),
      lintegral_scattered h' hA ht he (rigid_unit hR hd) (next := fun d e us => φ (next' d e us))
        (hφ.comp hn')]
    exact (collided_rigid hR (mE hn) (mE hn') fun d e hd he => en d e hd he φ hφ).symm
  | fission ev nubar =>
    have ms : ∀ {start : Direction → ℝ → (ℕ → ℝ) → ℝ≥0∞}
        (_ : Measurable fun q : Direction × ℝ × (ℕ → ℝ) => start q.1 q.2.1 q.2.2),
        Measurable fun q : Direction × (ℕ → ℝ) => start q.1 e q.2 := fun hs =>
      hs.comp (by fun_prop : Measurable fun q : Direction × (ℕ → ℝ) => (q.1, e, q.2))
    have mb : ∀ {start : Direction → ℝ → (ℕ → ℝ) → ℝ≥0∞}
        (_ : Measurable fun q : Direction × ℝ × (ℕ → ℝ) => start q.1 q.2.1 q.2.2),
        Measurable fun q : ℝ × (ℕ → ℝ) =>
          gasBirths endless (fun d' => start d' e) ⌊yieldAt nubar e + q.1⌋₊ q.2 := by
      intro start hs
      have hb : Measurable fun q : (ℝ × (ℕ → ℝ)) × ℕ => gasBirths endless (fun d' => start d' e) q.2 q.1.2 :=
        measurable_from_prod_countable_left fun k => measurable_gasBirths (α := ℝ × (ℕ → ℝ))
          (start := fun _ d' => start d' e) ((ms hs).comp measurable_snd) k measurable_snd
      exact hb.comp (measurable_id.prodMk (Nat.measurable_floor.comp (measurable_const.add measurable_fst)))
    exact sameLaw_first (F := fun u us => gasBirths endless (fun d' => start d' e) ⌊yieldAt nubar e + u⌋₊ us)
      (F' := fun u us => gasBirths endless (fun d' => start' d' e) ⌊yieldAt nubar e + u⌋₊ us)
      (mb hs) (mb hs') (Filter.Eventually.of_forall fun u =>
        sameLaw_gasBirths hR (ms hs) (ms hs') (fun d hd => es d e hd he) _) φ hφ

end Minimc
