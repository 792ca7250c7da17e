import Verif.Spec.Runs
import Verif.Props.HistoryBalance

/-! # Properties C93 and C94: runs that differ in the seed and the number of histories -/

namespace Minimc.Props

open Classical Spec

theorem part_history (P : Problem) (skip n t fuel e : ℕ) :
    (part P skip n t).history fuel e = P.history fuel (skip + e) := by
  unfold Problem.history part
  dsimp only
  rw [add_assoc]

theorem part_fresh {P : Problem} (h : FreshSet P.init) (skip n t : ℕ) :
    FreshSet (part P skip n t).init := by
  refine ⟨⟨h.shaped.names, h.shaped.sensitivityNames, h.shaped.base, h.shaped.sensitivities⟩,
    ⟨h.bins.base, h.bins.sensitivities⟩, ?_⟩
  have h0 := congrArg EstimatorSet.estimators h.zero
  unfold part EstimatorSet.withTallies
  unfold EstimatorSet.withTallies at h0
  dsimp only at h0 ⊢
  rw [← h0]

/-- What a run returns, in terms of contributions of the histories. -/
theorem part_result {P : Problem} (hinit : FreshSet P.init) {c : List Particle → Tallies}
    (hc : ∀ x, Contribution P.init x (c x)) {skip n t fuel k : ℕ} {r : EstimatorSet} (ht : 1 ≤ t)
    (h : SolveResult (part P skip n t) fuel 0 r k) :
    ∃ hists : List (List Particle), hists.length = n ∧
      (∀ e x, hists[e]? = some x → P.history fuel (skip + e) = .ok x) ∧
      r = ({ P.init with totalWeight := n } : EstimatorSet).withTallies ((hists.map c).sum) := by
  obtain ⟨hists, h1, h2, h3⟩ := C32_as_if_sequential (part_fresh hinit skip n t) ht h
  refine ⟨hists, h1, fun e x hx => by rw [← part_history P skip n t]; exact h2 e x hx, ?_⟩
  have hf := part_fresh hinit skip n t
  rw [hf.zero] at h3
  have := afterHistories_withTallies hf.bins hists 0 r c
    (fun x _ => ⟨(hc x).base, (hc x).sensitivities⟩) h3
  rw [zero_add] at this
  exact this

/-- **C93** A run of `N + M` histories is made of a run of `N` histories and one of `M` histories
with a seed that is larger by `N`: adding the results of the two gives its result.  The numbers of
threads and the schedules of the three may be different. -/
theorem C93_parts {P : Problem} (hinit : FreshSet P.init) {N M t₁ t₂ t₃ f₁ f₂ f₃ k₁ k₂ k₃ : ℕ}
    {r₁ r₂ r₃ : EstimatorSet} (ht₁ : 1 ≤ t₁) (ht₂ : 1 ≤ t₂) (ht₃ : 1 ≤ t₃)
    (h₁ : SolveResult (part P 0 N t₁) f₁ 0 r₁ k₁) (h₂ : SolveResult (part P N M t₂) f₂ 0 r₂ k₂)
    (h₃ : SolveResult (part P 0 (N + M) t₃) f₃ 0 r₃ k₃) :
    ∃ r, r₁.add r₂ = .ok r ∧ r.estimators = r₃.estimators := by
  choose c hc using contribution_exists hinit.shaped.names hinit.shaped.sensitivityNames
  obtain ⟨l₁, a₁, b₁, rfl⟩ := part_result hinit hc ht₁ h₁
  obtain ⟨l₂, a₂, b₂, rfl⟩ := part_result hinit hc ht₂ h₂
  obtain ⟨l₃, a₃, b₃, rfl⟩ := part_result hinit hc ht₃ h₃
  have hl : l₃ = l₁ ++ l₂ := by
    apply List.ext_getElem (by rw [List.length_append, a₁, a₂, a₃])
    intro e h1 h2
    have e3 := b₃ e l₃[e] (List.getElem?_eq_getElem h1)
    by_cases he : e < l₁.length
    · rw [List.getElem_append_left he]
      exact history_unique e3 (b₁ e l₁[e] (List.getElem?_eq_getElem he))
    · have hle : l₁.length ≤ e := not_lt.1 he
      rw [List.getElem_append_right hle]
      have h4 : e - l₁.length < l₂.length := by
        rw [List.length_append] at h2; omega
      have e2 := b₂ (e - l₁.length) l₂[e - l₁.length] (List.getElem?_eq_getElem h4)
      have hidx : N + (e - l₁.length) = 0 + e := by omega
      rw [hidx] at e2
      exact history_unique e3 e2
  have hcomp : Compatible ({ P.init with totalWeight := (N : ℝ) } : EstimatorSet)
      { P.init with totalWeight := (M : ℝ) } := by
    have := compatible_refl hinit.shaped
    exact ⟨this.size, this.sensitivities, this.sensitivitySize⟩
  have hname : AllNamed ({ P.init with totalWeight := (N : ℝ) } : EstimatorSet)
      { P.init with totalWeight := (M : ℝ) } := fun e he => ⟨e, he, rfl⟩
  refine ⟨({ P.init with totalWeight := (N : ℝ) } : EstimatorSet).withTallies
      ((l₁.map c).sum + (l₂.map c).sum), ?_, ?_⟩
  · rw [setAdd_withTallies hcomp, if_pos hname]
  · rw [hl, List.map_append, List.sum_append]
    rfl

/-- **C93** The mean that the long run prints is the mean of those that the parts print, weighted
with the numbers of histories. -/
theorem C93_means {P : Problem} (hinit : FreshSet P.init) {N M t₁ t₂ t₃ f₁ f₂ f₃ k₁ k₂ k₃ : ℕ}
    {r₁ r₂ r₃ : EstimatorSet} (ht₁ : 1 ≤ t₁) (ht₂ : 1 ≤ t₂) (ht₃ : 1 ≤ t₃) (hN : 1 ≤ N)
    (hM : 1 ≤ M)
    (h₁ : SolveResult (part P 0 N t₁) f₁ 0 r₁ k₁) (h₂ : SolveResult (part P N M t₂) f₂ 0 r₂ k₂)
    (h₃ : SolveResult (part P 0 (N + M) t₃) f₃ 0 r₃ k₃) {j i : ℕ} {e : Estimator}
    (he : P.init.estimators[j]? = some e) (hi : i < e.base.bins.size) :
    ∃ a₁ a₂ a₃ m₁ m₂, r₁.estimators[j]? = some a₁ ∧ r₂.estimators[j]? = some a₂ ∧
      r₃.estimators[j]? = some a₃ ∧ (a₁.base.means r₁.totalWeight)[i]? = some (.ok m₁) ∧
      (a₂.base.means r₂.totalWeight)[i]? = some (.ok m₂) ∧
      (a₃.base.means r₃.totalWeight)[i]? = some (.ok ((N * m₁ + M * m₂) / (N + M))) := by
  have hN0 : (0 : ℝ) < N := by exact_mod_cast hN
  have hM0 : (0 : ℝ) < M := by exact_mod_cast hM
  choose c hc using contribution_exists hinit.shaped.names hinit.shaped.sensitivityNames
  obtain ⟨r, hr, hre⟩ := C93_parts hinit ht₁ ht₂ ht₃ h₁ h₂ h₃
  obtain ⟨l₁, a₁, b₁, rfl⟩ := part_result hinit hc ht₁ h₁
  obtain ⟨l₂, a₂, b₂, rfl⟩ := part_result hinit hc ht₂ h₂
  obtain ⟨l₃, a₃, b₃, rfl⟩ := part_result hinit hc ht₃ h₃
  have hcomp : Compatible ({ P.init with totalWeight := (N : ℝ) } : EstimatorSet)
      { P.init with totalWeight := (M : ℝ) } := by
    have := compatible_refl hinit.shaped
    exact ⟨this.size, this.sensitivities, this.sensitivitySize⟩
  have hname : AllNamed ({ P.init with totalWeight := (N : ℝ) } : EstimatorSet)
      { P.init with totalWeight := (M : ℝ) } := fun e he => ⟨e, he, rfl⟩
  rw [setAdd_withTallies hcomp, if_pos hname] at hr
  rw [← Except.ok.inj hr] at hre
  have hget : ∀ (w : ℝ) (T : Tallies),
      (({ P.init with totalWeight := w } : EstimatorSet).withTallies T).estimators[j]? =
        some (e.withTallies (T e.base.name)) := by
    intro w T
    unfold EstimatorSet.withTallies
    dsimp only
    rw [List.getElem?_map, he]
    rfl
  have hmean : ∀ (w : ℝ) (T : Tallies), w ≠ 0 →
      ((e.withTallies (T e.base.name)).base.means w)[i]? =
        some (.ok ((T e.base.name none i).1 / w)) := by
    intro w T hw
    unfold Estimator.withTallies Scorable.withTally Scorable.means
    simp [hi, hw]
  have h3 := hget (N + M : ℕ) ((l₃.map c).sum)
  rw [← hre] at h3
  have h3' := h3
  rw [hget] at h3'
  have h3'' := Option.some.inj h3'
  refine ⟨_, _, _, _, _, hget _ _, hget _ _, hget _ _, hmean _ _ hN0.ne', hmean _ _ hM0.ne', ?_⟩
  rw [← h3'']
  have hw : (((N + M : ℕ) : ℝ)) ≠ 0 := by push_cast; positivity
  refine (hmean _ _ hw).trans ?_
  congr 2
  push_cast
  congr 1
  change ((l₁.map c).sum e.base.name none i).1 + ((l₂.map c).sum e.base.name none i).1 =
    N * (((l₁.map c).sum e.base.name none i).1 / N) +
      M * (((l₂.map c).sum e.base.name none i).1 / M)
  rw [mul_div_cancel₀ _ hN0.ne', mul_div_cancel₀ _ hM0.ne']

/-- **C93** If the long run ends, so do the two parts. -/
theorem C93_parts_end {P : Problem} (hinit : FreshSet P.init) {N M t₁ t₂ t₃ fuel k : ℕ}
    {r : EstimatorSet} (ht₃ : 1 ≤ t₃) (h : SolveResult (part P 0 (N + M) t₃) fuel 0 r k) :
    (∃ r₁ k₁, SolveResult (part P 0 N t₁) fuel 0 r₁ k₁) ∧
      ∃ r₂ k₂, SolveResult (part P N M t₂) fuel 0 r₂ k₂ := by
  have hran : ∀ e < N + M, ∃ x, P.history fuel e = .ok x ∧ ∀ p ∈ x, CanScore P.init p := by
    choose cc hcc using contribution_exists hinit.shaped.names hinit.shaped.sensitivityNames
    obtain ⟨s, hrun, hf, hm, _⟩ := h
    obtain ⟨hperm, _⟩ := C31_all_histories_once hrun hf ht₃
    let c : ℕ → Tallies := fun e => match (part P 0 (N + M) t₃).history fuel e with
      | .ok h => cc h
      | .error _ => 0
    have hc : ∀ e h, (part P 0 (N + M) t₃).history fuel e = .ok h →
        Contribution (part P 0 (N + M) t₃).init h (c e) := by
      intro e h hh
      simp only [c, hh]
      exact ⟨(hcc h).base, (hcc h).sensitivities⟩
    have hfr := part_fresh hinit 0 (N + M) t₃
    have hw := workerInv_run hfr.bins hc hrun
      (workerInv_start hfr.zero ((part P 0 (N + M) t₃).history fuel) c t₃ 0)
    intro e he
    have : e ∈ s.workers.flatMap Worker.done := hperm.mem_iff.2 (List.mem_range.2 he)
    obtain ⟨w, hwm, hew⟩ := List.mem_flatMap.1 this
    obtain ⟨x, hx, hcan⟩ := (hw w hwm).ran e hew
    rw [part_history, Nat.zero_add] at hx
    exact ⟨x, hx, fun p hp => ⟨(hcan p hp).base, (hcan p hp).effects, (hcan p hp).sensitivities⟩⟩
  refine ⟨C32_result_exists (part_fresh hinit 0 N t₁) ?_,
    C32_result_exists (part_fresh hinit N M t₂) ?_⟩
  · intro e he
    obtain ⟨x, hx, hcan⟩ := hran e (lt_of_lt_of_le he (Nat.le_add_right N M))
    refine ⟨x, ?_, fun p hp => ⟨(hcan p hp).base, (hcan p hp).effects, (hcan p hp).sensitivities⟩⟩
    rw [part_history, Nat.zero_add]
    exact hx
  · intro e he
    obtain ⟨x, hx, hcan⟩ := hran (N + e) (Nat.add_lt_add_left he N)
    refine ⟨x, ?_, fun p hp => ⟨(hcan p hp).base, (hcan p hp).effects, (hcan p hp).sensitivities⟩⟩
    rw [part_history]
    exact hx

theorem slab_part_ends (skip n t : ℕ) :
    ∃ r k, SolveResult (part (slabProblem 1000 8) skip n t) 1 0 r k :=
  C32_result_exists (part_fresh (slabProblem_fresh 1000 8) _ _ _)
    (fun e _ => by
      rw [part_history]
      obtain ⟨q, h1, _, h2, _⟩ := slabProblem_history 1000 8 (skip + e)
      exact ⟨[q], h1, fun p hp => by
        rw [List.mem_singleton.1 hp]
        exact ⟨h2.base, h2.effects, h2.sensitivities⟩⟩)

/-- Instance: 1000 histories in a slab on 8 threads, as 300 on one thread and 700 on 5. -/
example : FreshSet (slabProblem 1000 8).init ∧
    (∃ r k, SolveResult (part (slabProblem 1000 8) 0 300 1) 1 0 r k) ∧
    (∃ r k, SolveResult (part (slabProblem 1000 8) 300 700 5) 1 0 r k) ∧
    ∃ r k, SolveResult (part (slabProblem 1000 8) 0 (300 + 700) 8) 1 0 r k :=
  ⟨slabProblem_fresh _ _, slab_part_ends _ _ _, slab_part_ends _ _ _, slab_part_ends _ _ _⟩

/-! ## C94 -/

/-- **C94** What holds: with seeds that are at least as far apart as there are histories, no
history of one run starts its generator as one of the other does (up to the largest seed, see
C27). -/
theorem C94_separate_partial {seed skip N : ℕ} (hs : 1 ≤ seed) (hk : N ≤ skip)
    (hb : seed + skip + N ≤ 2 ^ 31 - 1) {e e' : ℕ} (he : e < N) (he' : e' < N) :
    Rng.ofSeed (seed + e) ≠ Rng.ofSeed (seed + skip + e') := by
  rw [Nat.add_assoc seed skip e']
  exact C27_streams_distinct_partial seed (skip + N) e (skip + e') hs (by omega) (by omega)
    (by omega) (by omega)

/-- Instance: 1000 histories with the default seed and with seed 1001. -/
example : (1 : ℕ) ≤ 1 ∧ 1000 ≤ 1000 ∧ 1 + 1000 + 1000 ≤ 2 ^ 31 - 1 := by norm_num

/-- The code violates the rest: runs of `N` histories whose seeds differ by less than `N` have all
histories in common but as many as the seeds differ by. -/
theorem C94_shared_violated (P : Problem) (skip N t t' fuel : ℕ) :
    ∀ e, e + skip < N →
      (part P skip N t).history fuel e = (part P 0 N t').history fuel (e + skip) := by
  intro e _
  rw [part_history, part_history, Nat.zero_add, Nat.add_comm]

theorem sum_window {x : ℕ → ℝ} {B : ℝ} {N k : ℕ} (h0 : ∀ e, e < N + k → 0 ≤ x e ∧ x e ≤ B) :
    |((List.range N).map x).sum - ((List.range N).map (fun e => x (k + e))).sum| ≤ k * B := by
  induction k with
  | zero => simp
  | succ k ih =>
    have h1 := ih (fun e he => h0 e (by omega))
    have h2 : ((List.range N).map (fun e => x (k + 1 + e))).sum + x k =
        ((List.range N).map (fun e => x (k + e))).sum + x (k + N) := by
      have e1 : ((List.range (N + 1)).map (fun e => x (k + e))).sum =
          ((List.range N).map (fun e => x (k + e))).sum + x (k + N) := by
        rw [List.range_succ, List.map_append, List.sum_append]
        simp
      have e2 : ((List.range (N + 1)).map (fun e => x (k + e))).sum =
          x k + ((List.range N).map (fun e => x (k + 1 + e))).sum := by
        rw [List.range_succ_eq_map, List.map_cons, List.sum_cons, List.map_map]
        congr 2
        apply List.map_congr_left
        intro e _
        simp only [Function.comp]
        congr 1
        omega
      linarith
    have h3 := h0 k (by omega)
    have h4 := h0 (k + N) (by omega)
    rw [abs_le] at h1 ⊢
    push_cast
    constructor <;> linarith [h1.1, h1.2]

theorem crossings_tally {P : Problem} {c : List Particle → Tallies}
    (hc : ∀ x, Contribution P.init x (c x)) {e : Estimator} (he : e ∈ P.init.estimators)
    (hists : List (List Particle)) (i : ℕ) :
    ((hists.map c).sum e.base.name none i).1 =
      (hists.map (fun x => (crossings e.surface e.base.bins x i : ℝ))).sum := by
  induction hists with
  | nil => rfl
  | cons x xs ih =>
    rw [List.map_cons, List.sum_cons, List.map_cons, List.sum_cons, ← ih]
    change (c x e.base.name none i).1 + _ = _
    rw [(hc x).base e he i]
    congr 1
    exact historyScore_crossings ..

/-- The code violates C94: the scores of runs whose seeds differ by `k` differ by at most `k`
times the largest number of crossings in a history, however many histories there are. -/
theorem C94_close_violated {P : Problem} (hinit : FreshSet P.init)
    {N k t t' fuel fuel' l l' : ℕ} {r r' : EstimatorSet} (ht : 1 ≤ t) (ht' : 1 ≤ t')
    (h : SolveResult (part P 0 N t) fuel 0 r l) (h' : SolveResult (part P k N t') fuel' 0 r' l')
    {j i B : ℕ} {e : Estimator} (he : P.init.estimators[j]? = some e) (hi : i < e.base.bins.size)
    (hB : ∀ f n x, P.history f n = .ok x → crossings e.surface e.base.bins x i ≤ B) :
    ∃ a a', r.estimators[j]? = some a ∧ r'.estimators[j]? = some a' ∧
      |a.base.scores.getD i 0 - a'.base.scores.getD i 0| ≤ k * B := by
  choose c hc using contribution_exists hinit.shaped.names hinit.shaped.sensitivityNames
  obtain ⟨l₁, a₁, b₁, rfl⟩ := part_result hinit hc ht h
  obtain ⟨l₂, a₂, b₂, rfl⟩ := part_result hinit hc ht' h'
  have hmem : e ∈ P.init.estimators := List.mem_of_getElem? he
  have hget : ∀ (w : ℝ) (T : Tallies),
      (({ P.init with totalWeight := w } : EstimatorSet).withTallies T).estimators[j]? =
        some (e.withTallies (T e.base.name)) := by
    intro w T
    unfold EstimatorSet.withTallies
    dsimp only
    rw [List.getElem?_map, he]
    rfl
  refine ⟨_, _, hget _ _, hget _ _, ?_⟩
  have hsc : ∀ T : Tallies, (e.withTallies (T e.base.name)).base.scores.getD i 0 =
      (T e.base.name none i).1 := by
    intro T
    unfold Estimator.withTallies Scorable.withTally
    simp [hi]
  rw [hsc, hsc, crossings_tally hc hmem, crossings_tally hc hmem]
  -- the number of crossings in each history
  let x : ℕ → ℝ := fun n => if hn : n < N then
      (l₁[n]?).elim 0 (fun s => (crossings e.surface e.base.bins s i : ℝ))
    else (l₂[n - k]?).elim 0 (fun s => (crossings e.surface e.base.bins s i : ℝ))
  have hx0 : ∀ n, 0 ≤ x n ∧ x n ≤ B := by
    have key : ∀ o : Option (List Particle), (∀ s, o = some s → ∃ f n, P.history f n = .ok s) →
        0 ≤ o.elim (0 : ℝ) (fun s => (crossings e.surface e.base.bins s i : ℝ)) ∧
          o.elim (0 : ℝ) (fun s => (crossings e.surface e.base.bins s i : ℝ)) ≤ B := by
      intro o ho
      cases o with
      | none => simp
      | some s =>
        obtain ⟨f, n, hn⟩ := ho s rfl
        have := hB f n s hn
        simp only [Option.elim]
        exact ⟨Nat.cast_nonneg _, by exact_mod_cast this⟩
    intro n
    by_cases hn : n < N
    · simp only [x, hn, dif_pos]
      exact key _ (fun s hs => ⟨_, _, b₁ n s hs⟩)
    · simp only [x, hn, dif_neg, not_false_iff]
      exact key _ (fun s hs => ⟨_, _, b₂ _ s hs⟩)
  have hl₁ : l₁.map (fun s => (crossings e.surface e.base.bins s i : ℝ)) =
      (List.range N).map x := by
    apply List.ext_getElem (by simp [a₁])
    intro n h1 h2
    simp only [List.length_map] at h1
    have hn : n < N := by omega
    simp only [List.getElem_map, List.getElem_range, x, hn, dif_pos,
      List.getElem?_eq_getElem h1, Option.elim]
  have hl₂ : l₂.map (fun s => (crossings e.surface e.base.bins s i : ℝ)) =
      (List.range N).map (fun n => x (k + n)) := by
    apply List.ext_getElem (by simp [a₂])
    intro n h1 h2
    simp only [List.length_map] at h1
    simp only [List.getElem_map, List.getElem_range, x]
    by_cases hn : k + n < N
    · have hlt : k + n < l₁.length := by omega
      simp only [hn, dif_pos, List.getElem?_eq_getElem hlt, Option.elim]
      have e1 := b₁ (k + n) l₁[k + n] (List.getElem?_eq_getElem hlt)
      have e2 := b₂ n l₂[n] (List.getElem?_eq_getElem h1)
      rw [Nat.zero_add] at e1
      rw [history_unique e1 e2]
    · simp only [hn, dif_neg, not_false_iff, Nat.add_sub_cancel_left,
        List.getElem?_eq_getElem h1, Option.elim]
  rw [hl₁, hl₂]
  exact sum_window (fun n _ => hx0 n)

/-- The code violates C94: without fission reactions the fractions of histories that left through a
surface, as printed by runs of `N` histories with consecutive seeds, differ by at most `1 / N`
instead of something like the printed error. -/
theorem C94_fractions_violated {P : Problem} (hinit : FreshSet P.init)
    (hf : ¬ HasFissile P.world) {N k t t' fuel fuel' l l' : ℕ} {r r' : EstimatorSet}
    (hN : 1 ≤ N) (ht : 1 ≤ t) (ht' : 1 ≤ t')
    (h : SolveResult (part P 0 N t) fuel 0 r l) (h' : SolveResult (part P k N t') fuel' 0 r' l')
    {j i : ℕ} {e : Estimator} (he : P.init.estimators[j]? = some e) (hi : i < e.base.bins.size)
    (ho : ∀ f, OnlyLeaks P f e.surface) :
    ∃ a a' m m', r.estimators[j]? = some a ∧ r'.estimators[j]? = some a' ∧
      (a.base.means N)[i]? = some (.ok m) ∧ (a'.base.means N)[i]? = some (.ok m') ∧
      |m - m'| ≤ k / N := by
  have hN0 : (0 : ℝ) < N := by exact_mod_cast hN
  have hB : ∀ f n x, P.history f n = .ok x → crossings e.surface e.base.bins x i ≤ 1 := by
    intro f n x hx
    have h4 := sum_crossings_le e.surface e.base.bins x e.base.bins.size
    have h5 := crossings_le_leaks (ho f n x hx)
    have h6 := (C92_one_end hf hx).1
    have h7 : crossings e.surface e.base.bins x i ≤
        ((List.range e.base.bins.size).map (crossings e.surface e.base.bins x)).sum :=
      List.single_le_sum (fun _ _ => Nat.zero_le _) _
        (List.mem_map.2 ⟨i, List.mem_range.2 hi, rfl⟩)
    omega
  obtain ⟨a, a', ha, ha', hd⟩ := C94_close_violated hinit ht ht' h h' he hi hB
  have hmean : ∀ (skip t fuel l : ℕ) (r : EstimatorSet) (a : Estimator), 1 ≤ t →
      SolveResult (part P skip N t) fuel 0 r l → r.estimators[j]? = some a →
      (a.base.means N)[i]? = some (.ok (a.base.scores.getD i 0 / N)) := by
    intro skip t fuel l r a ht h ha
    choose c hc using contribution_exists hinit.shaped.names hinit.shaped.sensitivityNames
    obtain ⟨l₁, _, _, rfl⟩ := part_result hinit hc ht h
    unfold EstimatorSet.withTallies at ha
    dsimp only at ha
    rw [List.getElem?_map, he] at ha
    have ha := Option.some.inj ha
    rw [← ha]
    unfold Estimator.withTallies Scorable.withTally Scorable.means
    simp [hi, hN0.ne']
  refine ⟨a, a', _, _, ha, ha', hmean 0 t fuel l r a ht h ha, hmean k t' fuel' l' r' a' ht' h' ha',
    ?_⟩
  rw [← sub_div, abs_div, abs_of_pos hN0]
  exact div_le_div_of_nonneg_right (by simpa using hd) hN0.le

/-- Instance: 1000 histories in a slab with seeds that differ by one. -/
example : FreshSet (slabProblem 1000 8).init ∧
    (∃ r k, SolveResult (part (slabProblem 1000 8) 0 1000 8) 1 0 r k) ∧
    (∃ r k, SolveResult (part (slabProblem 1000 8) 1 1000 8) 1 0 r k) ∧
    ¬ HasFissile (slabProblem 1000 8).world ∧ ∀ f, OnlyLeaks (slabProblem 1000 8) f plane3 := by
  refine ⟨slabProblem_fresh _ _, slab_part_ends _ _ _, slab_part_ends _ _ _, slab_not_fissile, ?_⟩
  intro f e states hs q hq hc
  obtain ⟨q', h1, h2, _⟩ := slabProblem_history 1000 8 e
  have h3 := (C92_one_end (P := slabProblem 1000 8) slab_not_fissile h1).1
  rw [← history_unique h1 hs] at hq
  rw [List.mem_singleton.1 hq]
  unfold countEvent at h3
  by_contra hne
  obtain ⟨s, _, _, he⟩ := h2
  rcases he with he | he
  · simp [he] at h3
  · exact hne he

end Minimc.Props
