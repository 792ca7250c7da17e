import Verif.Spec.Joint
import Verif.Lemmas.GasChain
import Mathlib.Data.Nat.Nth
import Mathlib.Data.Nat.Factorization.Basic
import Mathlib.NumberTheory.PrimeCounting

/-! # Several scores together

If scores are numbers of crossings, then all of them can be read off a sum with suitable weights.  So
the distribution of such sums gives the joint distribution.
-/

namespace Minimc

open Classical Spec MeasureTheory
open scoped ENNReal

/-! ### Weights -/

section
variable {ι : Type} [Fintype ι]

/-- Different primes. -/
noncomputable def primeOf (i : ι) : ℕ := Nat.nth Nat.Prime (Fintype.equivFin ι i)

theorem primeOf_prime (i : ι) : (primeOf i).Prime := Nat.prime_nth_prime _

theorem primeOf_injective {i j : ι} (h : primeOf i = primeOf j) : i = j := by
  have h1 := Nat.nth_injective Nat.infinite_setOfPred_prime h
  exact (Fintype.equivFin ι).injective (Fin.ext h1)

theorem primes_injective {k k' : ι → ℕ} (h : ∏ i, primeOf i ^ k i = ∏ i, primeOf i ^ k' i) : k = k' := by
  have key : ∀ (k : ι → ℕ) (j : ι), (∏ i, primeOf i ^ k i).factorization (primeOf j) = k j := by
    intro k j
    rw [Nat.factorization_prod fun i _ => pow_ne_zero _ (primeOf_prime i).ne_zero, Finsupp.finsetSum_apply]
    rw [Finset.sum_eq_single j]
    · rw [(primeOf_prime j).factorization_pow, Finsupp.single_eq_same]
    · intro i _ hij
      rw [(primeOf_prime i).factorization_pow, Finsupp.single_apply, if_neg fun e => hij (primeOf_injective e)]
    · simp
  funext j
  rw [← key k j, h, key]

/-- The logarithm of the prime of an index. -/
noncomputable def weight (i : ι) : ℝ≥0∞ := ENNReal.ofReal (Real.log (primeOf i))

theorem weight_sum (k : ι → ℕ) :
    ∑ i, weight i * (k i : ℝ≥0∞) = ENNReal.ofReal (Real.log ((∏ i, primeOf i ^ k i : ℕ) : ℝ)) := by
  have h0 : ∀ i : ι, 0 ≤ Real.log (primeOf i) := fun i => Real.log_natCast_nonneg _
  have e : Real.log ((∏ i, primeOf i ^ k i : ℕ) : ℝ) = ∑ i, Real.log (primeOf i) * k i := by
    push_cast
    rw [Real.log_prod fun i _ => pow_ne_zero _ (Nat.cast_ne_zero.2 (primeOf_prime i).ne_zero)]
    refine Finset.sum_congr rfl fun i _ => ?_
    rw [Real.log_pow, mul_comm]
  rw [e, ENNReal.ofReal_sum_of_nonneg fun i _ => mul_nonneg (h0 i) (Nat.cast_nonneg _)]
  refine Finset.sum_congr rfl fun i _ => ?_
  rw [ENNReal.ofReal_mul (h0 i), ENNReal.ofReal_natCast]
  rfl

theorem weight_injective {k k' : ι → ℕ}
    (h : ∑ i, weight i * (k i : ℝ≥0∞) = ∑ i, weight i * (k' i : ℝ≥0∞)) : k = k' := by
  have hp : ∀ k : ι → ℕ, (0 : ℝ) < ((∏ i, primeOf i ^ k i : ℕ) : ℝ) := fun k =>
    Nat.cast_pos.2 (Finset.prod_pos fun i _ => pow_pos (primeOf_prime i).pos _)
  rw [weight_sum, weight_sum,
    ENNReal.ofReal_eq_ofReal_iff (Real.log_natCast_nonneg _) (Real.log_natCast_nonneg _)] at h
  exact primes_injective (Nat.cast_injective (Real.log_injOn_pos (hp k) (hp k') h))

/-! ### Sums with these weights -/

/-- The value is the weighted sum of the others, which are natural numbers. -/
structure Tallied (v : ℝ≥0∞) (f : ι → ℝ≥0∞) : Prop where
  natural : ∀ i, ∃ k : ℕ, f i = k
  sum : v = ∑ i, weight i * f i

theorem tallied_zero : Tallied 0 fun _ : ι => 0 := ⟨fun _ => ⟨0, by simp⟩, by simp⟩

theorem tallied_add {v v' : ℝ≥0∞} {f f' : ι → ℝ≥0∞} (h : Tallied v f) (h' : Tallied v' f') :
    Tallied (v + v') fun i => f i + f' i := by
  refine ⟨fun i => ?_, ?_⟩
  · obtain ⟨k, hk⟩ := h.natural i
    obtain ⟨k', hk'⟩ := h'.natural i
    exact ⟨k + k', by rw [hk, hk']; push_cast; rfl⟩
  · rw [h.sum, h'.sum, ← Finset.sum_add_distrib]
    simp only [mul_add]

theorem tallied_byWeight (ws : List ℝ) (u : ℝ) {V : ℕ → ℝ≥0∞} {F : ι → ℕ → ℝ≥0∞}
    (h : ∀ j, Tallied (V j) fun i => F i j) : Tallied (byWeight ws u V) fun i => byWeight ws u (F i) := by
  unfold byWeight
  generalize Finset.range ws.length = A
  induction A using Finset.induction_on with
  | empty => simpa using tallied_zero
  | insert j A hj ih =>
    simp only [Finset.sum_insert hj]
    refine tallied_add ?_ ih
    by_cases hs : Selected ws (u * ws.sum) j
    · simpa [hs] using h j
    · simpa [hs] using tallied_zero

theorem tallied_elim {β : Type} (o : Option β) {V : β → ℝ≥0∞} {F : ι → β → ℝ≥0∞}
    (h : ∀ x, o = some x → Tallied (V x) fun i => F i x) : Tallied (o.elim 0 V) fun i => o.elim 0 (F i) := by
  cases o with
  | none =>
    simp only [Option.elim_none]
    exact tallied_zero
  | some x =>
    simp only [Option.elim_some]
    exact h x rfl

theorem tallied_ite (p : Prop) [Decidable p] {v v' : ℝ≥0∞} {f f' : ι → ℝ≥0∞} (h : Tallied v f) (h' : Tallied v' f') :
    Tallied (if p then v else v') fun i => if p then f i else f' i := by
  by_cases hp : p
  · simpa only [if_pos hp] using h
  · simpa only [if_neg hp] using h'

/-- Weighted sums of hits. -/
theorem tallied_hit {κ : Type} {hit : ι → SurfaceObj → Direction → κ → ℝ≥0∞}
    (h : ∀ i s d g, ∃ k : ℕ, hit i s d g = k) (s : SurfaceObj) (d : Direction) (g : κ) :
    Tallied (∑ i, weight i * hit i s d g) fun i => hit i s d g :=
  ⟨fun i => h i s d g, rfl⟩

/-! ### The joint distribution from that of a sum -/

theorem joint_of_sum {f f' : ι → (ℕ → ℝ) → ℝ≥0∞} {v v' : (ℕ → ℝ) → ℝ≥0∞} (hf : ∀ i, Measurable (f i))
    (hf' : ∀ i, Measurable (f' i)) (h : ∀ us, Tallied (v us) fun i => f i us)
    (h' : ∀ us, Tallied (v' us) fun i => f' i us) (e : SameLaw v v') : SameJoint f f' := by
  have key : ∀ {f : ι → (ℕ → ℝ) → ℝ≥0∞} {v : (ℕ → ℝ) → ℝ≥0∞} (_ : ∀ i, Measurable (f i))
      (_ : ∀ us, Tallied (v us) fun i => f i us) (φ : (ι → ℝ≥0∞) → ℝ≥0∞),
      ∫⁻ us, φ (fun i => f i us) ∂uniforms = ∑' k : ι → ℕ, φ (fun i => k i) *
        ∫⁻ us, (if v us = ∑ i, weight i * (k i : ℝ≥0∞) then 1 else 0) ∂uniforms := by
    intro f v hf h φ
    have hv : Measurable v := by
      have : v = fun us => ∑ i, weight i * f i us := funext fun us => (h us).sum
      rw [this]
      exact Finset.measurable_sum _ fun i _ => (hf i).const_mul _
    have mi : ∀ k : ι → ℕ, Measurable fun us =>
        (if v us = ∑ i, weight i * (k i : ℝ≥0∞) then (1 : ℝ≥0∞) else 0) := fun k =>
      Measurable.ite (hv (measurableSet_singleton _)) measurable_const measurable_const
    have e1 : ∀ us, φ (fun i => f i us) = ∑' k : ι → ℕ, φ (fun i => k i) *
        (if v us = ∑ i, weight i * (k i : ℝ≥0∞) then 1 else 0) := by
      intro us
      choose q hq using (h us).natural
      have hvq : v us = ∑ i, weight i * (q i : ℝ≥0∞) := by
        rw [(h us).sum]
        simp only [hq]
      rw [tsum_eq_single q fun k hk => ?_]
      · rw [if_pos hvq, mul_one]
        simp only [hq]
      · rw [if_neg fun e => hk (weight_injective (e.symm.trans hvq)), mul_zero]
    simp only [e1]
    rw [lintegral_tsum fun k => ((mi k).const_mul _).aemeasurable]
    refine tsum_congr fun k => ?_
    exact lintegral_const_mul _ (mi k)
  intro φ _
  rw [key hf h φ, key hf' h' φ]
  refine tsum_congr fun k => ?_
  congr 1
  exact e (fun y => if y = ∑ i, weight i * (k i : ℝ≥0∞) then 1 else 0)
    (Measurable.ite (measurableSet_singleton _) measurable_const measurable_const)

/-- Families of scores that grow. -/
theorem joint_iSup {f f' : ℕ → ι → (ℕ → ℝ) → ℝ≥0∞} (hf : ∀ n i, Measurable (f n i))
    (hf' : ∀ n i, Measurable (f' n i)) (hm : Monotone f) (hm' : Monotone f')
    (h : ∀ n, SameJoint (f n) (f' n)) : SameJoint (fun i us => ⨆ n, f n i us) fun i us => ⨆ n, f' n i us := by
  have mf : ∀ {f : ℕ → ι → (ℕ → ℝ) → ℝ≥0∞} (_ : ∀ n i, Measurable (f n i)),
      Measurable fun us i => ⨆ n, f n i us := fun hf =>
    measurable_pi_lambda _ fun i => Measurable.iSup fun n => hf n i
  have key : uniforms.map (fun us i => ⨆ n, f n i us) = uniforms.map fun us i => ⨆ n, f' n i us := by
    have p1 : IsProbabilityMeasure (uniforms.map fun us i => ⨆ n, f n i us) :=
      Measure.isProbabilityMeasure_map (mf hf).aemeasurable
    have p2 : IsProbabilityMeasure (uniforms.map fun us i => ⨆ n, f' n i us) :=
      Measure.isProbabilityMeasure_map (mf hf').aemeasurable
    refine ext_of_generate_finite (Set.univ.pi '' Set.univ.pi fun _ : ι => Set.range (Set.Iic : ℝ≥0∞ → _))
      ?_ (IsPiSystem.pi fun _ => isPiSystem_Iic) ?_ (by simp)
    · refine (generateFrom_eq_pi (C := fun _ : ι => Set.range (Set.Iic : ℝ≥0∞ → _))
        (fun _ => (borel_eq_generateFrom_Iic ℝ≥0∞).symm.trans (BorelSpace.measurable_eq).symm) fun _ => ?_).symm
      exact ⟨fun _ => Set.univ, fun _ => ⟨⊤, Set.Iic_top⟩, Set.iUnion_const _⟩
    · rintro _ ⟨t, ht, rfl⟩
      choose q hq using fun i => ht i (Set.mem_univ i)
      obtain rfl : (fun i => Set.Iic (q i)) = t := funext hq
      have e : ∀ (g : ℕ → ι → (ℕ → ℝ) → ℝ≥0∞) (_ : ∀ n i, Measurable (g n i)) (_ : Monotone g),
          uniforms.map (fun us i => ⨆ n, g n i us) (Set.univ.pi fun i => Set.Iic (q i)) =
            ⨅ n, uniforms {us | ∀ i, g n i us ≤ q i} := by
        intro g mg hg
        rw [Measure.map_apply (mf mg) (MeasurableSet.univ_pi fun _ => measurableSet_Iic)]
        have es : (fun us i => ⨆ n, g n i us) ⁻¹' (Set.univ.pi fun i => Set.Iic (q i)) =
            ⋂ n, {us | ∀ i, g n i us ≤ q i} := by
          ext us
          simp only [Set.mem_preimage, Set.mem_univ_pi, Set.mem_Iic, iSup_le_iff, Set.mem_iInter,
            Set.mem_ofPred_eq]
          exact forall_comm
        rw [es]
        refine Antitone.measure_iInter ?_ (fun n => ?_) ⟨0, measure_ne_top _ _⟩
        · intro m n hmn us hu i
          exact (hg hmn i us).trans (hu i)
        · have : {us | ∀ i, g n i us ≤ q i} = ⋂ i, {us | g n i us ≤ q i} := by
            ext us
            simp
          rw [this]
          exact (MeasurableSet.iInter fun i => measurableSet_le (mg n i) measurable_const).nullMeasurableSet
      rw [e f hf hm, e f' hf' hm']
      refine iInf_congr fun n => ?_
      have hB : MeasurableSet (Set.univ.pi fun i => Set.Iic (q i)) :=
        MeasurableSet.univ_pi fun _ => measurableSet_Iic
      have hi := h n ((Set.univ.pi fun i => Set.Iic (q i)).indicator fun _ => 1)
        (measurable_const.indicator hB)
      have ei : ∀ (g : ι → (ℕ → ℝ) → ℝ≥0∞) (_ : ∀ i, Measurable (g i)),
          ∫⁻ us, (Set.univ.pi fun i => Set.Iic (q i)).indicator (fun _ => (1 : ℝ≥0∞)) (fun i => g i us) ∂uniforms =
            uniforms {us | ∀ i, g i us ≤ q i} := by
        intro g mg
        have hms : MeasurableSet ((fun us i => g i us) ⁻¹' (Set.univ.pi fun i => Set.Iic (q i))) :=
          (measurable_pi_lambda _ mg) hB
        have hset : (fun us i => g i us) ⁻¹' (Set.univ.pi fun i => Set.Iic (q i)) =
            {us | ∀ i, g i us ≤ q i} := by
          ext us
          simp only [Set.mem_preimage, Set.mem_univ_pi, Set.mem_Iic, Set.mem_ofPred_eq]
        rw [← hset, ← lintegral_indicator_one hms]
        rfl
      rwa [ei _ (hf n), ei _ (hf' n)] at hi
  intro φ hφ
  have e1 := lintegral_map (μ := uniforms) hφ (mf hf)
  have e2 := lintegral_map (μ := uniforms) hφ (mf hf')
  rw [← e1, ← e2, key]

/-! ### Chains of multigroup neutrons -/

section
variable {σ : Type} {S : Supply σ} {G : ℕ} {nodes : Nuclide → List MgNode} {w : World} {method : Method}

theorem tallied_births (ws : List ℝ) {start : Direction → ℕ → σ → ℝ≥0∞}
    {starts : ι → Direction → ℕ → σ → ℝ≥0∞} (h : ∀ d g s, Tallied (start d g s) fun i => starts i d g s)
    (k : ℕ) (s : σ) : Tallied (births S ws start k s) fun i => births S ws (starts i) k s := by
  induction k generalizing s with
  | zero => exact tallied_zero
  | succ k ih => exact tallied_byWeight _ _ fun j => tallied_add (h _ _ _) (ih _)

theorem tallied_afterEvent (m : Material) (g : ℕ) {next start : Direction → ℕ → σ → ℝ≥0∞}
    {nexts starts : ι → Direction → ℕ → σ → ℝ≥0∞} (hn : ∀ d g s, Tallied (next d g s) fun i => nexts i d g s)
    (hs : ∀ d g s, Tallied (start d g s) fun i => starts i d g s) (s : σ) :
    Tallied (afterEvent S G nodes m g next start s) fun i =>
      afterEvent S G nodes m g (nexts i) (starts i) s :=
  tallied_byWeight _ _ fun _ => tallied_elim _ fun _ _ => tallied_byWeight _ _ fun _ =>
    tallied_ite _ (tallied_byWeight _ _ fun _ => hn _ _ _)
      (tallied_ite _ (tallied_births _ hs _ _) tallied_zero)

theorem tallied_chain {hit : ι → SurfaceObj → Direction → ℕ → ℝ≥0∞}
    (hh : ∀ i s d g, ∃ k : ℕ, hit i s d g = k) (n : ℕ) (c : Cell) (x : Point) (d : Direction) (g : ℕ)
    (s : σ) : Tallied
      (chainScore S G nodes w method (fun s d g => ∑ i, weight i * hit i s d g) n c x d g s)
      fun i => chainScore S G nodes w method (hit i) n c x d g s := by
  induction n generalizing c x d g s with
  | zero => exact tallied_zero
  | succ n ih =>
    unfold chainScore oneRound
    exact tallied_elim _ fun m _ => tallied_ite _
      (tallied_elim _ fun f _ => tallied_elim _ fun c' _ =>
        tallied_add (tallied_hit hh f d g) (ih _ _ _ _ _))
      (tallied_afterEvent m g (fun d g s => ih _ _ d g s)
        (fun d g s => tallied_elim _ fun c' _ => ih _ _ d g s) _)

end

/-! ### Chains of neutrons in gases -/

section
variable {σ : Type} {S : Supply σ} {a b : Direction → Direction} {data : Nuclide → Continuous} {w : World}
  {method : Method}

theorem tallied_scattered (A β : ℝ) (d : Direction) (speed : ℝ) {next : Direction → ℝ → σ → ℝ≥0∞}
    {nexts : ι → Direction → ℝ → σ → ℝ≥0∞} (h : ∀ d e s, Tallied (next d e s) fun i => nexts i d e s)
    (n : ℕ) (s : σ) : Tallied (gasScattered S a b A β d speed next n s) fun i =>
      gasScattered S a b A β d speed (nexts i) n s := by
  induction n generalizing s with
  | zero => exact tallied_zero
  | succ n ih =>
    simp only [gasScattered]
    generalize proposal (β * speed) (S.numbers s) = q
    obtain ⟨x, μ, k⟩ := q
    exact tallied_ite _ (tallied_ite _ tallied_zero (h _ _ _)) (ih _)

theorem scattered_settles (A β : ℝ) (d : Direction) (speed : ℝ) (next : Direction → ℝ → σ → ℝ≥0∞) (s : σ) :
    ∃ N, ∀ n ≥ N, ⨆ n, gasScattered S a b A β d speed next n s = gasScattered S a b A β d speed next n s := by
  by_cases h : ∃ n, gasScattered S a b A β d speed next n s ≠ 0
  · obtain ⟨N, hN⟩ := h
    refine ⟨N, fun n hn => ?_⟩
    have e := gasScattered_stays S A β d speed next N s hN
    rw [e n hn]
    refine le_antisymm (iSup_le fun m => ?_)
      (le_iSup (fun n => gasScattered S a b A β d speed next n s) N)
    rcases le_total N m with hm | hm
    · exact (e m hm).le
    · by_cases h0 : gasScattered S a b A β d speed next m s = 0
      · rw [h0]
        exact zero_le
      · exact (gasScattered_stays S A β d speed next m s h0 N hm).ge
  · push Not at h
    exact ⟨0, fun n _ => by simp [h]⟩

theorem tallied_settled (A β : ℝ) (d : Direction) (speed : ℝ) {next : Direction → ℝ → σ → ℝ≥0∞}
    {nexts : ι → Direction → ℝ → σ → ℝ≥0∞} (h : ∀ d e s, Tallied (next d e s) fun i => nexts i d e s)
    (s : σ) : Tallied (⨆ n, gasScattered S a b A β d speed next n s) fun i =>
      ⨆ n, gasScattered S a b A β d speed (nexts i) n s := by
  obtain ⟨N, hN⟩ := scattered_settles (S := S) (a := a) (b := b) A β d speed next s
  choose M hM using fun i => scattered_settles (S := S) (a := a) (b := b) A β d speed (nexts i) s
  have e1 := hN (max N (Finset.univ.sup M)) (le_max_left _ _)
  have e2 := fun i => hM i (max N (Finset.univ.sup M))
    (le_trans (Finset.le_sup (f := M) (Finset.mem_univ i)) (le_max_right _ _))
  rw [e1]
  simp only [e2]
  exact tallied_scattered A β d speed h _ s

theorem tallied_gasBirths {start : Direction → σ → ℝ≥0∞} {starts : ι → Direction → σ → ℝ≥0∞}
    (h : ∀ d s, Tallied (start d s) fun i => starts i d s) (k : ℕ) (s : σ) :
    Tallied (gasBirths S start k s) fun i => gasBirths S (starts i) k s := by
  induction k generalizing s with
  | zero => exact tallied_zero
  | succ k ih => exact tallied_add (h _ _) (ih _)

theorem tallied_afterGas (m : Material) (t : ℝ) (d : Direction) (e : ℝ)
    {next start : Direction → ℝ → σ → ℝ≥0∞} {nexts starts : ι → Direction → ℝ → σ → ℝ≥0∞}
    (hn : ∀ d e s, Tallied (next d e s) fun i => nexts i d e s)
    (hs : ∀ d e s, Tallied (start d e s) fun i => starts i d e s) (s : σ) :
    Tallied (afterGas S a b data m t d e next start s) fun i =>
      afterGas S a b data m t d e (nexts i) (starts i) s := by
  refine tallied_byWeight _ _ fun j => tallied_elim _ fun x _ => tallied_byWeight _ _ fun k =>
    tallied_elim _ fun r _ => ?_
  cases r with
  | capture ev => exact tallied_zero
  | scatter ev tsl A => exact tallied_settled _ _ _ _ hn _
  | fission ev nubar => exact tallied_gasBirths (fun d s => hs d e s) _ _

theorem tallied_gas {hit : ι → SurfaceObj → Direction → ℝ → ℝ≥0∞}
    (hh : ∀ i s d e, ∃ k : ℕ, hit i s d e = k) (n : ℕ) (c : Cell) (x : Point) (d : Direction) (e : ℝ)
    (s : σ) : Tallied
      (gasScore S a b data w method (fun s d e => ∑ i, weight i * hit i s d e) n c x d e s)
      fun i => gasScore S a b data w method (hit i) n c x d e s := by
  induction n generalizing c x d e s with
  | zero => exact tallied_zero
  | succ n ih =>
    unfold gasScore
    exact tallied_elim _ fun m _ => tallied_ite _
      (tallied_elim _ fun f _ => tallied_elim _ fun c' _ =>
        tallied_add (tallied_hit hh f d e) (ih _ _ _ _ _))
      (tallied_afterGas m _ d e (fun d e s => ih _ _ d e s)
        (fun d e s => tallied_elim _ fun c' _ => ih _ _ d e s) _)

end

/-! ### With the source -/

theorem tallied_emitted {σ : Type} {S : Supply σ} (u v : Direction) (dist : DirectionDist)
    {start : Direction → σ → ℝ≥0∞} {starts : ι → Direction → σ → ℝ≥0∞}
    (h : ∀ d s, Tallied (start d s) fun i => starts i d s) (s : σ) :
    Tallied (emitted S u v dist start s) fun i => emitted S u v dist (starts i) s := by
  cases dist <;> exact h _ _

theorem emitted_iSup {σ : Type} (S : Supply σ) (u v : Direction) (dist : DirectionDist)
    (start : ℕ → Direction → σ → ℝ≥0∞) (s : σ) :
    emitted S u v dist (fun d s => ⨆ n, start n d s) s = ⨆ n, emitted S u v dist (start n) s := by
  cases dist <;> rfl

theorem emitted_mono {σ : Type} (S : Supply σ) (u v : Direction) (dist : DirectionDist)
    {start start' : Direction → σ → ℝ≥0∞} (h : ∀ d s, start d s ≤ start' d s) (s : σ) :
    emitted S u v dist start s ≤ emitted S u v dist start' s := by
  cases dist <;> exact h _ _

end

end Minimc
