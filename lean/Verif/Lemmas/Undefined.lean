import Verif.Spec.Undefined
import Verif.Lemmas.Transport
import Verif.Lemmas.Score
import Verif.Props.Bins

/-! # Lemmas: which functions can have undefined behaviour -/

namespace Minimc

open Classical Spec

/-- Any outcome but undefined behaviour. -/
def Defined {α : Type _} (r : Res α) : Prop := r ≠ .error .ub

theorem defined_ok {α : Type _} (a : α) : Defined (.ok a : Res α) := by simp [Defined]

theorem defined_err {α : Type _} {e : Err} (h : e ≠ .ub) : Defined (.error e : Res α) := by
  simpa [Defined] using h

theorem defined_noexcept {α : Type _} {r : Res α} (h : Defined r) : Defined (noexcept r) := by
  rcases r with e | a
  · cases e <;> simp_all [Defined, noexcept]
  · exact defined_ok a

theorem defined_bind {α β : Type _} {x : Res α} {f : α → Res β} (hx : Defined x)
    (hf : ∀ a, x = .ok a → Defined (f a)) : Defined (x >>= f) := by
  rcases x with e | a
  · simpa [Defined, bind, Except.bind] using hx
  · exact hf a rfl

theorem defined_vecAt {α : Type _} (l : List α) (i : ℕ) : Defined (vecAt l i) := by
  unfold vecAt
  split
  · exact defined_ok _
  · exact defined_err (by decide)

/-- Takes a body apart into its calls. -/
macro "defined_step" : tactic => `(tactic| first
  | assumption
  | exact defined_ok _
  | exact defined_err (by decide)
  | exact defined_vecAt _ _
  | apply defined_noexcept
  | (refine defined_bind ?_ (fun _ _ => ?_))
  | split
  | (beta_reduce; split))

theorem defined_selectLoop {α : Type _} {f : α → Res ℝ} {l : List α}
    (h : ∀ x ∈ l, Defined (f x)) (threshold acc : ℝ) : Defined (selectLoop f threshold acc l) := by
  induction l generalizing acc with
  | nil => exact defined_ok _
  | cons x xs ih =>
    unfold selectLoop
    refine defined_bind (h x (by simp)) (fun v _ => ?_)
    split
    · exact defined_ok _
    · exact ih (fun y hy => h y (by simp [hy])) _

theorem selectLoop_mem {α : Type _} {f : α → Res ℝ} {l : List α} {threshold acc : ℝ} {a : α}
    (h : selectLoop f threshold acc l = .ok (some a)) : a ∈ l := by
  induction l generalizing acc with
  | nil => cases h
  | cons x xs ih =>
    unfold selectLoop at h
    rcases hx : f x with e | v
    · rw [hx] at h; cases h
    · rw [hx] at h
      simp only [bind, Except.bind] at h
      split at h
      · cases h; simp
      · exact List.mem_cons_of_mem _ (ih h)

theorem defined_sumLoop {α : Type _} {f : α → Res ℝ} {l : List α}
    (h : ∀ x ∈ l, Defined (f x)) (acc : ℝ) : Defined (sumLoop f acc l) := by
  induction l generalizing acc with
  | nil => exact defined_ok _
  | cons x xs ih =>
    unfold sumLoop
    refine defined_bind (h x (by simp)) (fun v _ => ?_)
    exact ih (fun y hy => h y (by simp [hy])) _

theorem defined_getGroup (e : Energy) : Defined e.getGroup := by
  cases e <;> first | exact defined_ok _ | exact defined_err (by decide)

theorem defined_getContinuous (e : Energy) : Defined e.getContinuous := by
  cases e <;> first | exact defined_ok _ | exact defined_err (by decide)

theorem defined_getCell (p : Particle) : Defined p.getCell := by
  unfold Particle.getCell
  repeat' defined_step

theorem defined_temperatureAt (p : Particle) : Defined p.temperatureAt := by
  unfold Particle.temperatureAt
  exact defined_bind (defined_getCell p) (fun _ _ => defined_ok _)

theorem defined_temperatureUpper (p : Particle) : Defined p.temperatureUpper := by
  unfold Particle.temperatureUpper
  exact defined_bind (defined_getCell p) (fun _ _ => defined_ok _)

theorem defined_optValue {α : Type _} (o : Option α) : Defined (Multigroup.optValue o) := by
  cases o <;> first | exact defined_ok _ | exact defined_err (by decide)

theorem defined_normalize (p : Point) : Defined p.normalize := by
  unfold Point.normalize
  repeat' defined_step

theorem defined_rotated (d : Direction) (mu phi : ℝ) : Defined (Direction.rotated d mu phi) := by
  unfold Direction.rotated Direction.ofPoint
  refine defined_bind (defined_normalize _) (fun u _ => defined_bind (defined_normalize _)
    (fun v _ => ?_))
  split
  · exact defined_err (by decide)
  · exact defined_normalize _

theorem defined_scatter (p : Particle) (mu : ℝ) (e : Energy) : Defined (p.scatter mu e) := by
  unfold Particle.scatter
  exact defined_bind (defined_rotated _ _ _) (fun _ _ => defined_ok _)

/-! ## Multigroup -/

/-- The uniform number is above minus one in every state of the generator. -/
theorem canonical_gt (g : ℕ) : -1 < (Rng.canonical g).1 := by
  unfold Rng.canonical Rng.range
  dsimp only
  have h1 : (0 : ℝ) ≤ (Rng.next g : ℕ) := Nat.cast_nonneg _
  have h2 : (0 : ℝ) ≤ (Rng.next (Rng.next g) : ℕ) := Nat.cast_nonneg _
  rw [lt_div_iff₀ (by norm_num)]
  push_cast
  nlinarith

theorem defined_toSize {x : ℝ} (h : -1 < x) : Defined (toSize x) := by
  unfold toSize
  rw [if_neg (by linarith)]
  exact defined_ok _

namespace Multigroup

theorem defined_oneAt (l : List ℝ) (g : ℕ) : Defined (oneAt l g) := by
  unfold oneAt; repeat' defined_step

theorem defined_twoAt (t : List (List ℝ)) (g : ℕ) : Defined (twoAt t g) := by
  unfold twoAt; repeat' defined_step

theorem defined_getTotal (m : Multigroup) (p : Particle) : Defined (m.getTotal p) := by
  unfold getTotal
  exact defined_noexcept (defined_bind (defined_getGroup _) (fun _ _ => defined_oneAt _ _))

theorem defined_selectGroup (n : ℕ) (probs : List ℝ) (threshold : ℝ) :
    Defined (selectGroup n probs threshold) :=
  defined_selectLoop (fun _ _ => defined_oneAt _ _) _ _

theorem defined_mgScatter (m : Multigroup) (p : Particle) : Defined (m.scatter p) := by
  unfold scatter
  refine defined_noexcept (defined_bind (defined_optValue _) (fun probs _ => defined_bind
    (defined_getGroup _) (fun g _ => defined_bind (defined_twoAt _ _) (fun col _ => defined_bind
      (defined_selectGroup _ _ _) (fun o _ => ?_)))))
  repeat' defined_step

theorem defined_bankLoop (n : ℕ) (probs : List ℝ) (k : ℕ) (p : Particle) :
    Defined (bankLoop n probs k p) := by
  induction k generalizing p with
  | zero => exact defined_ok _
  | succ k ih =>
    unfold bankLoop
    refine defined_bind (defined_selectGroup _ _ _) (fun o _ => ?_)
    cases o with
    | some g => exact ih _
    | none => exact ih _

theorem oneAt_mem {l : List ℝ} {g : ℕ} {v : ℝ} (h : oneAt l g = .ok v) : v ∈ l := by
  unfold oneAt vecAt at h
  split at h
  · cases h
  · split at h
    · cases h; exact List.mem_of_getElem? ‹_›
    · cases h

theorem defined_fission {m : Multigroup} (hm : ∀ l, m.nubar = some l → ∀ nu ∈ l, 0 ≤ nu)
    (p : Particle) : Defined (m.fission p) := by
  unfold fission
  refine defined_noexcept (defined_bind (defined_getGroup _) (fun g _ => defined_bind
    (defined_optValue _) (fun nubar hn => defined_bind (defined_oneAt _ _) (fun nu hnu => ?_))))
  have h0 : 0 ≤ nu := by
    refine hm nubar ?_ nu (oneAt_mem hnu)
    unfold optValue at hn
    split at hn
    · cases hn; assumption
    · cases hn
  refine defined_bind (defined_toSize ?_) (fun y _ => defined_bind (defined_optValue _)
    (fun chi _ => defined_bind (defined_twoAt _ _) (fun probs _ => defined_bankLoop _ _ _ _)))
  have := canonical_gt p.rng
  change -1 < nu + (Rng.canonical p.rng).1
  linarith

theorem defined_interact {m : Multigroup} (hm : ∀ l, m.nubar = some l → ∀ nu ∈ l, 0 ≤ nu)
    (p : Particle) : Defined (m.interact p) := by
  unfold interact
  refine defined_noexcept (defined_bind (defined_getTotal _ _) (fun t _ => defined_bind
    (defined_selectLoop (fun _ _ => defined_bind (defined_getGroup _)
      (fun _ _ => defined_oneAt _ _)) _ _) (fun o _ => ?_)))
  split
  · exact defined_ok _
  · exact defined_mgScatter _ _
  · exact defined_fission hm _
  · exact defined_err (by decide)

end Multigroup

/-! ## Tables -/

theorem at'_defined {m : ContinuousMap} (h : Filled m) (k : ℝ) : Defined (m.at' k) := by
  unfold ContinuousMap.at'
  split
  · exact defined_ok _
  · exact defined_ok _
  · exact defined_ok _
  · rename_i h1 h2
    rw [List.getLast?_eq_none_iff] at h1
    rw [List.head?_eq_none_iff] at h2
    refine absurd ?_ h
    rw [← List.takeWhile_append_dropWhile (p := fun e => decide (e.1 ≤ k)) (l := m), h1, h2]
    rfl

theorem dropWhile_head_not {α : Type _} (q : α → Bool) {l : List α} {a : α}
    (h : (l.dropWhile q).head? = some a) : q a = false := by
  induction l with
  | nil => cases h
  | cons x xs ih =>
    rw [List.dropWhile_cons] at h
    split at h
    · exact ih h
    · simp only [List.head?_cons, Option.some.injEq] at h
      subst h
      exact Bool.eq_false_iff.2 ‹_›

theorem mem_takeWhile_holds {α : Type _} (q : α → Bool) {l : List α} {a : α}
    (h : a ∈ l.takeWhile q) : q a = true := by
  induction l with
  | nil => cases h
  | cons x xs ih =>
    rw [List.takeWhile_cons] at h
    split at h
    · rcases List.mem_cons.1 h with rfl | h
      · assumption
      · exact ih h
    · cases h

/-- Interpolated values are not negative if the tabulated ones are not. -/
theorem at'_nonneg {m : ContinuousMap} (h : ∀ e ∈ m, 0 ≤ e.2) {k v : ℝ} (hv : m.at' k = .ok v) :
    0 ≤ v := by
  unfold ContinuousMap.at' at hv
  have hL : ∀ e, (m.takeWhile (fun e => decide (e.1 ≤ k))).getLast? = some e →
      e ∈ m ∧ e.1 ≤ k := by
    intro e he
    have h1 := List.mem_of_getLast? he
    exact ⟨(List.takeWhile_sublist _).subset h1, by simpa using mem_takeWhile_holds _ h1⟩
  have hH : ∀ e, (m.dropWhile (fun e => decide (e.1 ≤ k))).head? = some e →
      e ∈ m ∧ k < e.1 := by
    intro e he
    refine ⟨(List.dropWhile_sublist _).subset (List.mem_of_head? he), ?_⟩
    simpa using dropWhile_head_not _ he
  split at hv
  · rename_i h1 h2
    cases hv
    exact h _ (hL _ h1).1
  · rename_i h1 h2
    cases hv
    exact h _ (hH _ h2).1
  · rename_i kLo vLo kHi vHi h1 h2
    cases hv
    obtain ⟨m1, l1⟩ := hL _ h1
    obtain ⟨m2, l2⟩ := hH _ h2
    have a := h _ m1
    have b := h _ m2
    dsimp only at l1 l2 a b
    have hd : 0 < kHi - kLo := by linarith
    have : vLo + (vHi - vLo) / (kHi - kLo) * (k - kLo) =
        (vLo * (kHi - k) + vHi * (k - kLo)) / (kHi - kLo) := by
      field_simp
      ring
    rw [this]
    exact div_nonneg (add_nonneg (mul_nonneg a (by linarith)) (mul_nonneg b (by linarith))) hd.le
  · cases hv

theorem defined_atFromBase (ds : DataSet) (base level i : ℕ) (l : List ℕ) :
    Defined (ds.atFromBase base level (i :: l)) := by
  induction l generalizing base level i with
  | nil => unfold DataSet.atFromBase; repeat' defined_step
  | cons j l ih =>
    unfold DataSet.atFromBase
    refine defined_bind (defined_vecAt _ _) (fun _ _ => ?_)
    split
    · exact defined_err (by decide)
    · exact defined_bind (defined_vecAt _ _) (fun _ _ => ih _ _ _)

theorem defined_dataAt (ds : DataSet) (i : ℕ) (l : List ℕ) : Defined (ds.at' (i :: l)) :=
  defined_atFromBase ds 0 0 i l

/-! ## Thermal scattering -/

theorem Partition.defined_evaluate (P : Partition) (c r : ℕ) (t : ℝ) :
    Defined (P.evaluate c r t) := by
  have ht : ∀ ti o, Defined (P.term c r ti o) := by
    intro ti o
    unfold Partition.term
    exact defined_bind (defined_dataAt _ _ _) (fun _ _ => defined_bind (defined_dataAt _ _ _)
      (fun _ _ => defined_bind (defined_dataAt _ _ _) (fun _ _ => defined_ok _)))
  unfold Partition.evaluate DataSet.getAxis sumOrders
  refine defined_bind (defined_vecAt _ _) (fun _ _ => defined_bind (defined_vecAt _ _)
    (fun _ _ => defined_bind (defined_sumLoop (fun _ _ => ht _ _) _) (fun _ _ => defined_bind
      (defined_sumLoop (fun _ _ => ht _ _) _) (fun _ _ => ?_))))
  repeat' defined_step

namespace ThermalScattering

theorem defined_isValid (s : ThermalScattering) (p : Particle) : Defined (s.isValid p) := by
  unfold isValid
  exact defined_noexcept (defined_bind (defined_getContinuous _) (fun _ _ => defined_ok _))

theorem defined_getMajorant {s : ThermalScattering} (h : Filled s.majorant) (p : Particle) :
    Defined (s.getMajorant p) := by
  unfold getMajorant
  exact defined_noexcept (defined_bind (defined_getContinuous _) (fun _ _ => at'_defined h _))

theorem defined_evaluateInelastic (s : ThermalScattering) (i j : ℕ) :
    Defined (s.evaluateInelastic i j) := by
  unfold evaluateInelastic DataSet.getAxis sumOrders
  exact defined_noexcept (defined_bind (defined_vecAt _ _) (fun _ _ => defined_sumLoop (fun _ _ =>
    defined_bind (defined_dataAt _ _ _) (fun _ _ => defined_bind (defined_dataAt _ _ _)
      (fun _ _ => defined_bind (defined_dataAt _ _ _) (fun _ _ => defined_ok _)))) _))

theorem defined_totalAt (s : ThermalScattering) (e t : ℝ) : Defined (s.totalAt e t) := by
  unfold totalAt DataSet.getAxis
  refine defined_bind (defined_vecAt _ _) (fun es _ => ?_)
  dsimp only
  split
  · exact defined_err (by decide)
  · refine defined_bind (defined_vecAt _ _) (fun ts _ => ?_)
    refine defined_bind (defined_evaluateInelastic _ _ _) (fun _ _ => ?_)
    refine defined_bind (defined_evaluateInelastic _ _ _) (fun _ _ => ?_)
    refine defined_bind (defined_evaluateInelastic _ _ _) (fun _ _ => ?_)
    refine defined_bind (defined_evaluateInelastic _ _ _) (fun _ _ => ?_)
    repeat' (refine defined_bind (defined_vecAt _ _) (fun _ _ => ?_))
    exact defined_ok _

theorem defined_getTotal (s : ThermalScattering) (p : Particle) : Defined (s.getTotal p) := by
  unfold getTotal
  exact defined_noexcept (defined_bind (defined_getContinuous _) (fun _ _ => defined_bind
    (defined_temperatureAt _) (fun _ _ => defined_totalAt _ _ _)))

theorem defined_locate (ends : List ℕ) (i : ℕ) : Defined (locate ends i) := by
  unfold locate
  dsimp only
  repeat' defined_step

theorem defined_inverseCdf (P : Partition) (row : ℕ) (t lo hi F : ℝ) :
    Defined (inverseCdf P row t lo hi F) := by
  unfold inverseCdf DataSet.getAxis
  refine defined_bind (defined_vecAt _ _) (fun fs _ => ?_)
  dsimp only
  repeat' first
    | exact P.defined_evaluate _ _ _
    | defined_step

theorem defined_betaLoop (s : ThermalScattering) (P : Partition) (row : ℕ) (eS e t : ℝ) (n : ℕ)
    (p : Particle) : Defined (s.betaLoop P row eS e t n p) := by
  induction n generalizing p with
  | zero => exact defined_err (by decide)
  | succ n ih =>
    unfold betaLoop
    dsimp only
    split
    · exact defined_err (by decide)
    · refine defined_bind (defined_inverseCdf _ _ _ _ _ _) (fun b _ => ?_)
      split
      · exact defined_ok _
      · exact ih _

theorem defined_pickIndex (r u : ℝ) (hi : ℕ) : Defined (pickIndex r u hi) := by
  unfold pickIndex
  repeat' defined_step

theorem defined_betaIndex (s : ThermalScattering) (e u : ℝ) : Defined (s.betaIndex e u) := by
  have : Defined (s.betaFactor e) := by
    unfold betaFactor
    dsimp only
    repeat' defined_step
  unfold betaIndex
  dsimp only
  split
  · exact defined_err (by decide)
  · exact defined_bind this (fun _ _ => defined_pickIndex _ _ _)

theorem defined_sampleBeta (s : ThermalScattering) (p : Particle) (e t : ℝ) :
    Defined (s.sampleBeta p e t) := by
  unfold sampleBeta
  exact defined_bind (defined_betaIndex _ _ _) (fun _ _ => defined_bind (defined_vecAt _ _)
    (fun _ _ => defined_bind (defined_locate _ _) (fun _ _ => defined_bind (defined_vecAt _ _)
      (fun _ _ => defined_betaLoop _ _ _ _ _ _ _ _))))

theorem defined_alphaIndex (s : ThermalScattering) (b e t u : ℝ) :
    Defined (s.alphaIndex b e t u) := by
  have h1 : Defined (s.snapToLower b e t) := by
    unfold snapToLower
    dsimp only
    repeat' defined_step
  have h2 : Defined (s.alphaFactor b e t) := by
    unfold alphaFactor
    dsimp only
    refine defined_bind h1 (fun _ _ => ?_)
    repeat' defined_step
  unfold alphaIndex
  exact defined_bind h2 (fun _ _ => defined_pickIndex _ _ _)

theorem defined_alphaMin (s : ThermalScattering) (b e t : ℝ) : Defined (s.alphaMin b e t) := by
  unfold alphaMin
  repeat' defined_step

theorem defined_alphaMax (s : ThermalScattering) (b e t : ℝ) : Defined (s.alphaMax b e t) := by
  unfold alphaMax
  repeat' defined_step

theorem defined_findCdfIndex (P : Partition) (row : ℕ) (t a : ℝ) (len first : ℕ) :
    Defined (findCdfIndex P row t a len first) := by
  induction len using Nat.strong_induction_on generalizing first with
  | _ len ih =>
    unfold findCdfIndex
    split
    · exact defined_ok _
    · refine defined_bind (P.defined_evaluate _ _ _) (fun v _ => ?_)
      split
      · exact ih _ (by omega) _
      · exact ih _ (by omega) _

theorem defined_findCdf (s : ThermalScattering) (P : Partition) (row : ℕ) (t a : ℝ) :
    Defined (s.findCdf P row t a) := by
  unfold findCdf DataSet.getAxis
  refine defined_bind (defined_vecAt _ _) (fun fs _ => ?_)
  refine defined_bind (defined_findCdfIndex _ _ _ _ _ _) (fun i _ => ?_)
  repeat' first
    | exact P.defined_evaluate _ _ _
    | defined_step

theorem defined_alphaLoop (s : ThermalScattering) (P : Partition) (row : ℕ)
    (b bsMin bsMax fMin fMax e t : ℝ) (n : ℕ) (p : Particle) :
    Defined (s.alphaLoop P row b bsMin bsMax fMin fMax e t n p) := by
  induction n generalizing p with
  | zero => exact defined_err (by decide)
  | succ n ih =>
    unfold alphaLoop
    dsimp only
    refine defined_bind (defined_inverseCdf _ _ _ _ _ _) (fun a _ => ?_)
    split
    · exact defined_bind (defined_alphaMin _ _ _ _) (fun _ _ => defined_bind
        (defined_alphaMax _ _ _ _) (fun _ _ => defined_ok _))
    · exact ih _

theorem defined_sampleAlpha (s : ThermalScattering) (p : Particle) (b e t : ℝ) :
    Defined (s.sampleAlpha p b e t) := by
  unfold sampleAlpha
  refine defined_bind (defined_alphaIndex _ _ _ _ _) (fun i _ => defined_bind (defined_vecAt _ _)
    (fun bAbs _ => ?_))
  dsimp only
  refine defined_bind (defined_alphaMin _ _ _ _) (fun lo _ => defined_bind
    (defined_alphaMax _ _ _ _) (fun hi _ => ?_))
  split
  · exact defined_err (by decide)
  · exact defined_bind (defined_locate _ _) (fun _ _ => defined_bind (defined_vecAt _ _)
      (fun _ _ => defined_bind (defined_findCdf _ _ _ _ _) (fun _ _ => defined_bind
        (defined_findCdf _ _ _ _ _) (fun _ _ => defined_alphaLoop _ _ _ _ _ _ _ _ _ _ _ _))))

theorem defined_thermalScatter (s : ThermalScattering) (p : Particle) : Defined (s.scatter p) := by
  have h : Defined (s.sampleOutgoing p) := by
    unfold sampleOutgoing
    refine defined_bind (defined_getContinuous _) (fun e _ => defined_bind (defined_temperatureAt _)
      (fun t _ => defined_bind (defined_sampleBeta _ _ _ _) (fun b _ => defined_bind
        (defined_sampleAlpha _ _ _ _ _) (fun a _ => defined_bind ?_ (fun _ _ => defined_ok _)))))
    unfold outgoingCosine
    repeat' defined_step
  unfold scatter
  exact defined_bind h (fun _ _ => defined_scatter _ _ _)

end ThermalScattering

/-! ## Continuous energy -/

namespace FreeGas

theorem defined_targetLoop (y : ℝ) (n : ℕ) (p : Particle) : Defined (targetLoop y n p) := by
  induction n generalizing p with
  | zero => exact defined_err (by decide)
  | succ n ih =>
    unfold targetLoop
    dsimp only
    split
    · exact ih _
    · exact defined_ok _

theorem defined_gas (fuel : ℕ) (awr : ℝ) (p : Particle) : Defined (FreeGas.interact fuel awr p) := by
  unfold FreeGas.interact
  refine defined_bind (defined_getContinuous _) (fun e _ => defined_bind (defined_temperatureAt _)
    (fun t _ => ?_))
  split
  · exact defined_err (by decide)
  · refine defined_bind ?_ (fun _ _ => ?_)
    · unfold sampleTarget
      split
      · exact defined_ok _
      · refine defined_bind (defined_targetLoop _ _ _) (fun _ _ => ?_)
        repeat' defined_step
    · unfold collideWith outgoingVelocity Direction.ofPoint
      refine defined_bind (defined_rotated _ _ _) (fun _ _ => defined_bind (defined_bind
        (defined_normalize _) (fun _ _ => defined_bind (defined_rotated _ _ _)
          (fun _ _ => defined_ok _))) (fun _ _ => defined_bind (defined_normalize _)
            (fun _ _ => defined_scatter _ _ _)))

end FreeGas

namespace ContinuousReaction

theorem defined_tabulated {ev : ContinuousEvaluation} (h : Filled ev.xs) (p : Particle) :
    Defined (tabulated ev p) := by
  unfold tabulated
  exact defined_bind (defined_getContinuous _) (fun _ _ => at'_defined h _)

theorem defined_adjustment (awr e t : ℝ) : Defined (freeGasAdjustment awr e t) := by
  unfold freeGasAdjustment
  dsimp only
  repeat' defined_step

theorem defined_scatterXSAt {ev : ContinuousEvaluation} (h : Filled ev.xs) (awr : ℝ)
    (p : Particle) (t : ℝ) : Defined (scatterXSAt ev awr p t) := by
  unfold scatterXSAt
  split
  · exact defined_tabulated h p
  · refine defined_bind ?_ (fun _ _ => ?_)
    · unfold isFreeGasScatteringValid
      refine defined_noexcept ?_
      split
      · exact defined_ok _
      · split
        · exact defined_ok _
        · exact defined_bind (defined_getContinuous _) (fun _ _ => defined_ok _)
    · split
      · exact defined_bind (defined_tabulated h p) (fun _ _ => defined_bind
          (defined_getContinuous _) (fun _ _ => defined_bind (defined_adjustment _ _ _)
            (fun _ _ => defined_bind (defined_adjustment _ _ _) (fun _ _ => defined_ok _))))
      · exact defined_tabulated h p

theorem defined_modifiesTotal (r : ContinuousReaction) (p : Particle) :
    Defined (r.modifiesTotal p) := by
  unfold modifiesTotal thermal
  split
  · exact defined_ok _
  · split
    · exact defined_ok _
    · exact ThermalScattering.defined_isValid _ _
  · exact defined_ok _

theorem defined_getMajorant {r : ContinuousReaction} (h : FilledReaction r) (p : Particle) :
    Defined (r.getMajorant p) := by
  unfold getMajorant
  refine defined_noexcept ?_
  cases r with
  | capture ev => exact defined_tabulated h p
  | fission ev nubar => exact defined_tabulated h.1 p
  | scatter ev tsl awr =>
    have hx : Defined (p.temperatureUpper >>= scatterXSAt ev awr p) :=
      defined_bind (defined_temperatureUpper _) (fun _ _ => defined_scatterXSAt h.1 _ _ _)
    cases tsl with
    | none => exact hx
    | some s =>
      refine defined_bind (s.defined_isValid p) (fun b _ => ?_)
      cases b
      · exact hx
      · exact ThermalScattering.defined_getMajorant (h.2 s rfl) p

theorem defined_getCrossSection {r : ContinuousReaction} (h : FilledReaction r) (p : Particle) :
    Defined (r.getCrossSection p) := by
  unfold getCrossSection
  refine defined_noexcept ?_
  cases r with
  | capture ev => exact defined_tabulated h p
  | fission ev nubar => exact defined_tabulated h.1 p
  | scatter ev tsl awr =>
    have hx : Defined (p.temperatureAt >>= scatterXSAt ev awr p) :=
      defined_bind (defined_temperatureAt _) (fun _ _ => defined_scatterXSAt h.1 _ _ _)
    cases tsl with
    | none => exact hx
    | some s =>
      refine defined_bind (s.defined_isValid p) (fun b _ => ?_)
      cases b
      · exact hx
      · exact s.defined_getTotal p

theorem defined_reaction {r : ContinuousReaction} (h : FilledReaction r) (fuel : ℕ)
    (p : Particle) : Defined (r.interact fuel p) := by
  unfold interact
  refine defined_noexcept ?_
  cases r with
  | capture ev => exact defined_ok _
  | scatter ev tsl awr =>
    dsimp only
    unfold scatterInteract
    cases tsl with
    | none => exact FreeGas.defined_gas _ _ _
    | some s =>
      refine defined_bind (s.defined_isValid _) (fun b _ => ?_)
      cases b
      · exact FreeGas.defined_gas _ _ _
      · exact s.defined_thermalScatter _
  | fission ev nubar =>
    dsimp only
    unfold fissionInteract
    refine defined_bind (defined_optValue _) (fun table ht => ?_)
    have hn : nubar = some table := by
      unfold Multigroup.optValue at ht
      split at ht
      · cases ht; rfl
      · cases ht
    obtain ⟨h1, h2⟩ := h.2 table hn
    refine defined_bind (defined_getContinuous _) (fun e _ => defined_bind (at'_defined h1 _)
      (fun nu hnu => defined_bind (defined_toSize ?_) (fun _ _ => defined_ok _)))
    have h0 := at'_nonneg h2 hnu
    have := canonical_gt p.rng
    change -1 < nu + (Rng.canonical p.rng).1
    linarith

end ContinuousReaction

namespace Continuous

theorem defined_anyModifies (p : Particle) (l : List ContinuousReaction) :
    Defined (anyModifies p l) := by
  induction l with
  | nil => exact defined_ok _
  | cons r rs ih =>
    unfold anyModifies
    refine defined_bind (r.defined_modifiesTotal p) (fun b _ => ?_)
    cases b
    · exact ih
    · exact defined_ok _

theorem defined_getMajorant {c : Continuous} (h : FilledInteraction (.continuous c))
    (p : Particle) : Defined (c.getMajorant p) := by
  unfold getMajorant
  refine defined_noexcept (defined_bind (defined_temperatureUpper _) (fun t _ => defined_bind
    (defined_anyModifies _ _) (fun b _ => ?_)))
  split
  · exact ContinuousReaction.defined_tabulated h.1 p
  · exact defined_sumLoop (fun r hr => ContinuousReaction.defined_getMajorant (h.2 r hr) p) _

theorem defined_getTotal {c : Continuous} (h : FilledInteraction (.continuous c))
    (p : Particle) : Defined (c.getTotal p) := by
  unfold getTotal
  refine defined_noexcept (defined_bind (defined_temperatureAt _) (fun t _ => defined_bind
    (defined_anyModifies _ _) (fun b _ => ?_)))
  split
  · exact ContinuousReaction.defined_tabulated h.1 p
  · exact defined_sumLoop (fun r hr => ContinuousReaction.defined_getCrossSection (h.2 r hr) p) _

theorem defined_interact {c : Continuous} (h : FilledInteraction (.continuous c)) (fuel : ℕ)
    (p : Particle) : Defined (c.interact fuel p) := by
  have hl : ∀ n p, Defined (c.interactLoop fuel n p) := by
    intro n
    induction n with
    | zero => intro p; exact defined_err (by decide)
    | succ n ih =>
      intro p
      unfold interactLoop
      refine defined_bind (defined_getTotal h _) (fun t _ => defined_bind (defined_selectLoop
        (fun r hr => ContinuousReaction.defined_getCrossSection (h.2 r hr) _) _ _) (fun o ho => ?_))
      cases o with
      | none => exact ih _
      | some r =>
        refine ContinuousReaction.defined_reaction (h.2 r ?_) _ _
        exact selectLoop_mem ho
  exact defined_noexcept (hl _ _)

end Continuous

/-! ## Nuclides and materials -/

theorem Interaction.defined_getTotal {i : Interaction} (h : FilledInteraction i) (p : Particle) :
    Defined (i.getTotal p) := by
  cases i with
  | multigroup m => exact m.defined_getTotal p
  | continuous c => exact Continuous.defined_getTotal h p

theorem Interaction.defined_getMajorant {i : Interaction} (h : FilledInteraction i)
    (p : Particle) : Defined (i.getMajorant p) := by
  cases i with
  | multigroup m => exact m.defined_getTotal p
  | continuous c => exact Continuous.defined_getMajorant h p

theorem Interaction.defined_interact {i : Interaction} (h : FilledInteraction i) (fuel : ℕ)
    (p : Particle) : Defined (i.interact fuel p) := by
  cases i with
  | multigroup m => exact Multigroup.defined_interact h p
  | continuous c => exact Continuous.defined_interact h fuel p

namespace Nuclide

theorem xsAt_cases (n : Nuclide) (p : Particle) :
    n.xsAt p = .error .outOfRange ∨ ∃ i, n.xs p.type = some i ∧ n.xsAt p = .ok i := by
  unfold xsAt
  rcases h : n.xs p.type with _ | i
  · exact Or.inl rfl
  · exact Or.inr ⟨i, rfl, rfl⟩

theorem defined_call {α : Type _} {n : Nuclide} (h : ∀ t i, n.xs t = some i → FilledInteraction i)
    {f : Interaction → Res α} (hf : ∀ i, FilledInteraction i → Defined (f i)) (p : Particle) :
    Defined (noexcept (n.xsAt p >>= f)) := by
  refine defined_noexcept ?_
  rcases n.xsAt_cases p with hx | ⟨i, hi, hx⟩
  · rw [hx]; exact defined_err (by decide)
  · rw [hx]; exact hf i (h _ i hi)

end Nuclide

/-- The data of a material are sound. -/
def FilledMaterial (m : Material) : Prop :=
  ∀ e ∈ m.afracs, ∀ t i, e.1.xs t = some i → FilledInteraction i

namespace Material

theorem defined_total {m : Material} (h : FilledMaterial m) (p : Particle) :
    Defined (m.getMicroscopicTotal p) :=
  defined_noexcept (defined_sumLoop (fun e he => defined_bind (Nuclide.defined_call (h e he)
    (fun _ hi => Interaction.defined_getTotal hi p) p) (fun _ _ => defined_ok _)) _)

theorem defined_majorant {m : Material} (h : FilledMaterial m) (p : Particle) :
    Defined (m.getMicroscopicMajorant p) :=
  defined_noexcept (defined_sumLoop (fun e he => defined_bind (Nuclide.defined_call (h e he)
    (fun _ hi => Interaction.defined_getMajorant hi p) p) (fun _ _ => defined_ok _)) _)

theorem defined_selectNuclide {m : Material} (h : FilledMaterial m) (p : Particle) (x : ℝ) :
    Defined (m.selectNuclide p x) :=
  defined_selectLoop (fun e he => defined_bind (Nuclide.defined_call (h e he)
    (fun _ hi => Interaction.defined_getTotal hi p) p) (fun _ _ => defined_ok _)) _ _

end Material

/-! ## Transport -/

/-- The particle is in a cell of the world that has a material. -/
def Inhabits (w : World) (p : Particle) : Prop :=
  ∃ c ∈ w.cells, ∃ m, p.cell = some c ∧ c.material = some m

theorem inhabits_congr {w : World} {p q : Particle} (h : q.cell = p.cell) (hp : Inhabits w p) :
    Inhabits w q := by
  unfold Inhabits at *
  rwa [h]

section

variable {w : World} (hw : FilledData w)
include hw

theorem defined_density {p : Particle} (hp : Inhabits w p) (method : Method) :
    Defined (collisionDensity method p) := by
  obtain ⟨c, hc, m, h1, h2⟩ := hp
  unfold collisionDensity Particle.getCell
  rw [h1]
  refine defined_noexcept ?_
  simp only [bind, Except.bind, h2]
  cases method
  · exact Material.defined_total (hw c hc m h2) p
  · exact Material.defined_majorant (hw c hc m h2) p

theorem defined_stream {p : Particle} (hp : Inhabits w p) (method : Method) (d : WithTop ℝ) :
    Defined (p.stream method d) := by
  have hq : ∀ (q : Perturbation) (x : ℝ), Defined (q.stream method p x) := by
    intro q x
    obtain ⟨c, hc, m, h1, h2⟩ := id hp
    unfold Perturbation.stream Particle.getCell
    rw [h1]
    refine defined_noexcept ?_
    refine defined_bind (defined_ok _) (fun c' hc' => ?_)
    cases hc'
    rw [h2]
    dsimp only
    split
    · refine defined_bind (defined_density hw hp method) (fun _ _ => ?_)
      repeat' defined_step
    · exact defined_ok _
  have hl : ∀ (x : ℝ) (l : List (Perturbation × ℝ)), Defined (streamEffects method p x l) := by
    intro x l
    induction l with
    | nil => exact defined_ok _
    | cons e l ih =>
      obtain ⟨q, y⟩ := e
      unfold streamEffects
      exact defined_bind (hq q x) (fun _ _ => defined_bind ih (fun _ _ => defined_ok _))
  induction d using WithTop.recTopCoe with
  | top => exact defined_err (by decide)
  | coe t => exact defined_bind (hl t _) (fun _ _ => defined_ok _)

theorem defined_sampleFlight {p : Particle} (hp : Inhabits w p) (method : Method) :
    Defined (sampleFlight method p) := by
  obtain ⟨c, hc, m, h1, h2⟩ := id hp
  unfold sampleFlight Particle.getCell
  rw [h1]
  refine defined_bind (defined_ok _) (fun c' hc' => ?_)
  cases hc'
  rw [h2]
  exact defined_bind (defined_density hw hp method) (fun _ _ => defined_ok _)

theorem defined_collide {p : Particle} (hp : Inhabits w p) (method : Method) (fuel : ℕ)
    (d : WithTop ℝ) : Defined (collide method fuel p d) := by
  unfold collide
  refine defined_bind (defined_stream hw hp method d) (fun p₁ h₁ => ?_)
  obtain ⟨t, eff, _, _, rfl⟩ := Particle.stream_ok h₁
  obtain ⟨c, hc, m, h1, h2⟩ := hp
  have hm := hw c hc m h2
  have hsel : ∀ n p', (Particle.sampleNuclide { p with
      indirectEffects := eff, position := along p.position p.direction t }) = .ok (n, p') →
      ∃ e ∈ m.afracs, e.1 = n := by
    intro n p' h
    unfold Particle.sampleNuclide Particle.materialOrUB at h
    rw [noexcept_eq_ok] at h
    simp only [h1, h2, res_bind_ok] at h
    obtain ⟨m', hm', x, _, o, ho, h⟩ := h
    cases hm'
    cases o with
    | none => cases h
    | some e =>
      simp only [Except.ok.injEq, Prod.mk.injEq] at h
      exact ⟨e, selectLoop_mem ho, h.1⟩
  refine defined_bind ?_ (fun np h => ?_)
  · unfold Particle.sampleNuclide Particle.materialOrUB
    refine defined_noexcept ?_
    simp only [h1, h2]
    refine defined_bind (defined_ok _) (fun m' hm' => ?_)
    cases hm'
    refine defined_bind (Material.defined_total hm _) (fun x _ => ?_)
    refine defined_bind (Material.defined_selectNuclide hm _ _) (fun o _ => ?_)
    repeat' defined_step
  · obtain ⟨n, p'⟩ := np
    obtain ⟨e, he, rfl⟩ := hsel n p' h
    exact Nuclide.defined_call (hm e he) (fun i hi => Interaction.defined_interact hi fuel _) _

theorem defined_cross {p : Particle} (hp : Inhabits w p) (method : Method) (s : SurfaceObj)
    (d : WithTop ℝ) : Defined (crossSurface method w p s d) := by
  unfold crossSurface Particle.locate World.findCellContaining
  refine defined_bind (defined_stream hw hp method _) (fun p₁ _ => defined_bind (defined_bind ?_
    (fun _ _ => defined_ok _)) (fun p₂ _ => defined_bind (defined_getCell _)
      (fun _ _ => defined_ok _)))
  repeat' defined_step

theorem defined_transportStep {p : Particle} (hp : Inhabits w p) (method : Method) (fuel : ℕ) :
    Defined (transportStep method fuel w p) := by
  have hn : ∀ (c : Cell) x d, Defined (c.nearestSurface x d) := by
    intro c x d
    unfold Cell.nearestSurface
    split
    · exact defined_err (by decide)
    · exact defined_ok _
  have hfl : ∀ {method : Method} {d : WithTop ℝ} {q : Particle},
      sampleFlight method p = .ok (d, q) → Inhabits w q := by
    intro method d q h
    obtain ⟨_, _, _, _, _, _, _, rfl⟩ := sampleFlight_ok h
    exact inhabits_congr rfl hp
  cases method
  · dsimp only [transportStep]
    unfold surfaceStep
    refine defined_bind (defined_sampleFlight hw hp _) (fun dp h => ?_)
    obtain ⟨d, q⟩ := dp
    have hq := hfl h
    refine defined_bind (defined_getCell _) (fun c _ => defined_bind (hn _ _ _) (fun sd _ => ?_))
    obtain ⟨s, ds⟩ := sd
    dsimp only
    split
    · exact defined_collide hw hq _ _ _
    · exact defined_cross hw hq _ _ _
  · dsimp only [transportStep]
    unfold deltaStep
    refine defined_bind (defined_sampleFlight hw hp _) (fun dp h => ?_)
    obtain ⟨d, q⟩ := dp
    have hq := hfl h
    refine defined_bind (defined_getCell _) (fun c _ => defined_bind (hn _ _ _) (fun sd _ => ?_))
    obtain ⟨s, ds⟩ := sd
    dsimp only
    split
    · exact defined_cross hw hq _ _ _
    · refine defined_bind ?_ (fun prob _ => ?_)
      · obtain ⟨c, hc, m, h1, h2⟩ := hq
        unfold acceptance Particle.getCell
        rw [h1]
        refine defined_bind (defined_ok _) (fun c' hc' => ?_)
        cases hc'
        rw [h2]
        refine defined_bind (Material.defined_total (hw c hc m h2) _) (fun _ _ => defined_bind
          (Material.defined_majorant (hw c hc m h2) _) (fun _ _ => ?_))
        repeat' defined_step
      · have hq' : ∀ r, Inhabits w { q with rng := r } := fun r => inhabits_congr rfl hq
        split
        · exact defined_collide hw (hq' _) _ _ _
        · exact defined_bind (defined_stream hw (hq' _) _ _)
            (fun _ _ => defined_ok _)

theorem defined_transportLoop (method : Method) (fuel n : ℕ) {p : Particle}
    (hp : ¬ Ended p → Inhabits w p) : Defined (transportLoop method fuel w n p) := by
  induction n generalizing p with
  | zero =>
    unfold transportLoop
    repeat' defined_step
  | succ n ih =>
    unfold transportLoop
    split
    · rename_i ha
      have hin := hp ((alive_iff p).1 ha)
      refine defined_bind (defined_transportStep hw hin method fuel) (fun p' hs => defined_bind
        (ih ?_) (fun _ _ => defined_ok _))
      intro hne
      rcases step_spec hs with ⟨s, hx⟩ | hx | ⟨_, hx⟩
      · obtain ⟨c', ⟨l, r, hl, _⟩, h2, h3, h4⟩ := hx.arrival
        rcases hm : c'.material with _ | m
        · exact absurd (Or.inr (Or.inr (h3 hm))) hne
        · exact ⟨c', by rw [hl]; simp, m, h2, hm⟩
      · exact inhabits_congr hx.cell hin
      · exact inhabits_congr hx.cell hin
    · exact defined_ok _

theorem defined_transport (method : Method) (fuel : ℕ) {p : Particle}
    (hp : ¬ StartsInVoid w p) : Defined (transport method fuel w p) := by
  unfold transport
  refine defined_noexcept (defined_bind ?_ (fun q hq => ?_))
  · unfold Particle.locate World.findCellContaining
    refine defined_bind ?_ (fun _ _ => defined_ok _)
    repeat' defined_step
  · obtain ⟨c, hc, rfl⟩ := locate_ok.1 hq
    refine defined_transportLoop hw method fuel fuel (fun _ => ?_)
    rcases hm : c.material with _ | m
    · exact absurd ⟨c, hc, hm⟩ hp
    · obtain ⟨l, r, hl, _⟩ := hc
      exact ⟨c, by rw [hl]; simp, m, rfl, hm⟩

end

/-! ## Scoring -/

theorem defined_getIndex {b : Bins} {v : ℝ} (h : ¬ NoLogarithm b v) : Defined (b.getIndex v) := by
  cases b with
  | none => exact defined_ok _
  | linspace n lo hi w => exact defined_ok _
  | boundaries bs => exact defined_ok _
  | logspace n base lo hi w =>
    intro hu
    exact h ⟨n, base, lo, hi, w, rfl, Props.C10_undefined_iff.1 hu⟩

theorem defined_place {b : ParticleBins} {p : Particle} (h : ¬ NoPlace b p) :
    Defined (b.getIndex p.direction p.energy.toReal) := by
  unfold NoPlace at h
  push Not at h
  have he := defined_getIndex h.2
  unfold ParticleBins.getIndex
  rcases hd : b.direction with _ | ref
  · exact defined_bind (defined_ok _) (fun _ _ => defined_bind he (fun _ _ => defined_ok _))
  · exact defined_bind (defined_getIndex (h.1 ref hd)) (fun _ _ => defined_bind he
      (fun _ _ => defined_ok _))

theorem defined_pending {b : ParticleBins} {p : Particle} {r : Res ℝ} (hr : Defined r)
    (h : ∀ x, r = .ok x → x ≠ 0 → ¬ NoPlace b p) (l : Pending) :
    Defined (Pending.score b r p l) := by
  unfold Pending.score
  refine defined_noexcept (defined_bind hr (fun x hx => ?_))
  split
  · exact defined_ok _
  · exact defined_bind (defined_place (h x hx ‹_›)) (fun _ _ => defined_ok _)

theorem defined_scoreHistory {s : EstimatorSet} {states : List Particle}
    (h : ∀ p ∈ states, ¬ ScoresNaN s p) (xs : List EstimatorProxy) :
    Defined (EstimatorSet.scoreHistory s.estimators states xs) := by
  have hss : ∀ p, ∀ ss : List Sensitivity, (∀ q ∈ ss,
      effectAtCrossing q.surface q.perturbation p ≠ 0 → ¬ NoPlace q.base.bins p) →
      ∀ ls, Defined (EstimatorProxy.scoreSensitivities p ss ls) := by
    intro p ss
    induction ss with
    | nil => intro _ ls; exact defined_ok _
    | cons q ss ih =>
      intro hq ls
      cases ls with
      | nil => exact defined_ok _
      | cons l ls =>
        unfold EstimatorProxy.scoreSensitivities
        refine defined_bind (defined_pending ?_ ?_ _) (fun _ _ => defined_bind
          (ih (fun q' hq' => hq q' (by simp [hq'])) ls) (fun _ _ => defined_ok _))
        · rcases sensitivity_getScore q p with ⟨_, hg⟩ | ⟨_, hg⟩ <;> rw [hg]
          · exact defined_ok _
          · exact defined_err (by decide)
        · intro x hx h0
          rcases sensitivity_getScore q p with ⟨_, hg⟩ | ⟨_, hg⟩
          · rw [hg] at hx
            cases hx
            exact hq q (by simp) h0
          · rw [hg] at hx
            cases hx
  have hall : ∀ p, ∀ es : List Estimator, (∀ e ∈ es, ¬ ((Crossed e.surface p ∧
      NoPlace e.base.bins p) ∨ ∃ q ∈ e.sensitivities,
        effectAtCrossing q.surface q.perturbation p ≠ 0 ∧ NoPlace q.base.bins p)) →
      ∀ xs, Defined (EstimatorSet.scoreAll p es xs) := by
    intro p es
    induction es with
    | nil => intro _ xs; exact defined_ok _
    | cons e es ih =>
      intro he xs
      cases xs with
      | nil => exact defined_ok _
      | cons x xs =>
        unfold EstimatorSet.scoreAll
        refine defined_bind ?_ (fun _ _ => defined_bind
          (ih (fun q' hq' => he q' (by simp [hq'])) xs) (fun _ _ => defined_ok _))
        have hee := he e (by simp)
        push Not at hee
        unfold EstimatorProxy.score
        refine defined_bind (defined_pending (defined_ok _) ?_ _) (fun _ _ => defined_bind
          (hss p _ hee.2 _) (fun _ _ => defined_ok _))
        intro y hy h0
        cases hy
        rw [currentScore_eq] at h0
        exact hee.1 (by by_contra hc; rw [if_neg hc] at h0; exact h0 rfl)
  induction states generalizing xs with
  | nil => exact defined_ok _
  | cons p ps ih =>
    unfold EstimatorSet.scoreHistory
    refine defined_bind (hall p _ ?_ xs) (fun xs' _ => ih (fun q hq => h q (by simp [hq])) xs')
    intro e he hc
    exact h p (by simp) ⟨e, he, hc⟩

end Minimc
