import Verif.Lemmas.FineGroups
import Verif.Lemmas.MixtureLaw
import Verif.Lemmas.Units

/-! # The distribution of scores with divided groups -/

namespace Minimc

open Classical Spec MeasureTheory
open scoped ENNReal

/-! ### Choices -/

theorem filter_sum_range' (n : ℕ) (p : ℕ → Bool) (f : ℕ → ℝ) :
    (((List.range' 1 n).filter p).map f).sum =
      ∑ j ∈ (Finset.range n).filter (fun j => p (j + 1) = true), f (j + 1) := by
  induction n with
  | zero => simp
  | succ n ih =>
    rw [List.range'_concat, List.filter_append, List.map_append, List.sum_append, ih, Finset.range_add_one,
      Finset.filter_insert]
    by_cases hp : p (n + 1) = true
    · rw [if_pos hp, Finset.sum_insert (by simp), one_mul, add_comm 1 n]
      simp [hp, add_comm]
    · rw [if_neg hp, one_mul, add_comm 1 n]
      simp [hp]

/-- The mean of any function of what a choice leads to. -/
theorem lintegral_chosen {ws : List ℝ} (hnn : ∀ x ∈ ws, 0 ≤ x) (hW : 0 < ws.sum) {F : ℕ → (ℕ → ℝ) → ℝ≥0∞}
    (hF : ∀ i, Measurable (F i)) {φ : ℝ≥0∞ → ℝ≥0∞} (hφ : Measurable φ) :
    ∫⁻ us, φ (byWeight ws (us 0) fun i => F i fun k => us (k + 1)) ∂uniforms =
      ∑ i ∈ Finset.range ws.length, ENNReal.ofReal (ws.getD i 0 / ws.sum) *
        ∫⁻ us, φ (F i us) ∂uniforms := by
  have e1 : ∫⁻ us, φ (byWeight ws (us 0) fun i => F i fun k => us (k + 1)) ∂uniforms =
      ∫⁻ us, byWeight ws (us 0) (fun i => φ (F i fun k => us (k + 1))) ∂uniforms := by
    have h0 : ∀ᵐ us ∂uniforms, us 0 ∈ Set.Ioo (0 : ℝ) 1 :=
      (measurePreserving_eval_infinitePi (fun _ : ℕ => uniform) 0).quasiMeasurePreserving.ae ae_uniform
    refine lintegral_congr_ae (h0.mono fun us hu => ?_)
    obtain ⟨i, hi⟩ := Selected.exists (ws := ws) (mul_nonneg hu.1.le hW.le)
      (show us 0 * ws.sum < ws.sum by nlinarith [hu.2])
    have he : ∀ j, Selected ws (us 0 * ws.sum) j ↔ j = i :=
      fun j => ⟨fun h => Selected.unique hnn h hi, fun h => h ▸ hi⟩
    dsimp only
    rw [byWeight_eq he, byWeight_eq he]
  rw [e1]
  exact lintegral_byWeight hnn (F := fun i us => φ (F i us)) fun i => hφ.comp (hF i)

/-- Choices that agree for all items that have some weight. -/
theorem sameLaw_choice_pos {ws : List ℝ} (hnn : ∀ x ∈ ws, 0 ≤ x) {F F' : ℕ → (ℕ → ℝ) → ℝ≥0∞}
    (hF : ∀ i, Measurable (F i)) (hF' : ∀ i, Measurable (F' i))
    (h : ∀ i x, ws[i]? = some x → 0 < x → SameLaw (F i) (F' i)) :
    SameLaw (fun us => byWeight ws (us 0) fun i => F i fun k => us (k + 1))
      fun us => byWeight ws (us 0) fun i => F' i fun k => us (k + 1) := by
  intro φ hφ
  rcases (List.sum_nonneg hnn).eq_or_lt with h0 | h0
  · simp only [byWeight_zero hnn h0.symm]
  · rw [lintegral_chosen hnn h0 hF hφ, lintegral_chosen hnn h0 hF' hφ]
    refine Finset.sum_congr rfl fun i hi => ?_
    have hi' : i < ws.length := Finset.mem_range.1 hi
    have e : ws.getD i 0 = ws[i] := by simp [List.getD_eq_getElem?_getD, hi']
    rcases (hnn _ (List.getElem_mem hi')).eq_or_lt with k | k
    · rw [e, ← k]
      simp
    · rw [h i _ (List.getElem?_eq_getElem hi') k φ hφ]

variable {G G' : ℕ} {into : ℕ → ℕ} {nodes nodes' : Nuclide → List MgNode}

/-- Choosing a part of a group is choosing the group. -/
theorem sameLaw_lumped (h : ∀ g, 1 ≤ g → g ≤ G' → 1 ≤ into g ∧ into g ≤ G) {weight weight' : ℕ → ℝ} {s : ℝ}
    (hs : 0 < s) (hpos : ∀ g, 0 ≤ weight g) (hpos' : ∀ g, 0 ≤ weight' g)
    (hw : ∀ g, 1 ≤ g → g ≤ G →
      (((List.range' 1 G').filter fun g' => decide (into g' = g)).map weight').sum = s * weight g)
    {F : ℕ → (ℕ → ℝ) → ℝ≥0∞} (hF : ∀ i, Measurable (F i)) :
    SameLaw (fun us => byWeight ((List.range' 1 G).map weight) (us 0) fun j => F (j + 1) fun k => us (k + 1))
      fun us => byWeight ((List.range' 1 G').map weight') (us 0) fun j =>
        F (into (j + 1)) fun k => us (k + 1) := by
  have hnn : ∀ {n : ℕ} {weight : ℕ → ℝ}, (∀ g, 0 ≤ weight g) → ∀ x ∈ (List.range' 1 n).map weight, 0 ≤ x := by
    intro n weight hp x hx
    obtain ⟨g, -, rfl⟩ := List.mem_map.1 hx
    exact hp g
  have hmaps : ∀ j ∈ Finset.range G', into (j + 1) - 1 ∈ Finset.range G := fun j hj => by
    have := h (j + 1) (by omega) (by simpa using hj)
    rw [Finset.mem_range]
    omega
  have hblock : ∀ i ∈ Finset.range G,
      ∑ j ∈ (Finset.range G').filter (fun j => into (j + 1) - 1 = i), weight' (j + 1) = s * weight (i + 1) := by
    intro i hi
    rw [← hw (i + 1) (by omega) (by simpa using hi), filter_sum_range']
    refine Finset.sum_congr (Finset.filter_congr fun j hj => ?_) fun _ _ => rfl
    have := h (j + 1) (by omega) (by simpa using hj)
    rw [decide_eq_true_eq]
    omega
  have esum : ∀ (n : ℕ) (weight : ℕ → ℝ), ((List.range' 1 n).map weight).sum =
      ∑ j ∈ Finset.range n, weight (j + 1) := by
    intro n weight
    have := filter_sum_range' n (fun _ => true) weight
    simpa using this
  have hsum : ((List.range' 1 G').map weight').sum = s * ((List.range' 1 G).map weight).sum := by
    rw [esum, esum, Finset.mul_sum, ← Finset.sum_fiberwise_of_maps_to hmaps]
    exact Finset.sum_congr rfl hblock
  intro φ hφ
  rcases (List.sum_nonneg (hnn hpos (n := G))).eq_or_lt with h0 | h0
  · have h0' : ((List.range' 1 G').map weight').sum = 0 := by rw [hsum, ← h0, mul_zero]
    simp only [byWeight_zero (hnn hpos) h0.symm, byWeight_zero (hnn hpos') h0']
  · have h0' : 0 < ((List.range' 1 G').map weight').sum := by
      rw [hsum]
      exact mul_pos hs h0
    rw [lintegral_chosen (hnn hpos) h0 (F := fun j => F (j + 1)) (fun i => hF _) hφ,
      lintegral_chosen (hnn hpos') h0' (F := fun j => F (into (j + 1))) (fun i => hF _) hφ]
    simp only [List.length_map, List.length_range']
    rw [← Finset.sum_fiberwise_of_maps_to hmaps]
    refine Finset.sum_congr rfl fun i hi => ?_
    have hi' : i < G := by simpa using hi
    have hget : ∀ {n : ℕ} {weight : ℕ → ℝ} {j : ℕ}, j < n →
        ((List.range' 1 n).map weight).getD j 0 = weight (j + 1) := by
      intro n weight j hj
      simp [List.getD_eq_getElem?_getD, hj, add_comm]
    have e1 : ∀ j ∈ (Finset.range G').filter (fun j => into (j + 1) - 1 = i),
        ENNReal.ofReal (((List.range' 1 G').map weight').getD j 0 / ((List.range' 1 G').map weight').sum) *
          ∫⁻ us, φ (F (into (j + 1)) us) ∂uniforms =
        ENNReal.ofReal (weight' (j + 1) / ((List.range' 1 G').map weight').sum) *
          ∫⁻ us, φ (F (i + 1) us) ∂uniforms := by
      intro j hj
      obtain ⟨hj1, hj2⟩ := Finset.mem_filter.1 hj
      have := h (j + 1) (by omega) (by simpa using hj1)
      rw [hget (by simpa using hj1), show into (j + 1) = i + 1 by omega]
    rw [Finset.sum_congr rfl e1, ← Finset.sum_mul, ← ENNReal.ofReal_sum_of_nonneg (fun j _ =>
      div_nonneg (hpos' _) h0'.le), ← Finset.sum_div, hblock i hi, hsum, hget hi',
      mul_div_mul_left _ _ hs.ne']

/-- The neutrons of a fission. -/
theorem lumped_births (h : ∀ g, 1 ≤ g → g ≤ G' → 1 ≤ into g ∧ into g ≤ G) {flat flat' : List ℝ}
    (hpos : ∀ x ∈ flat, 0 ≤ x) (hpos' : ∀ x ∈ flat', 0 ≤ x) {s : ℝ} (hs : 0 < s) {g g0 : ℕ}
    (hf : ∀ t, 1 ≤ t → t ≤ G → intoGroup G' into flat' g t = s * entry2 G flat g0 t)
    {start : Direction → ℕ → (ℕ → ℝ) → ℝ≥0∞}
    (ms : ∀ g, Measurable fun q : Direction × (ℕ → ℝ) => start q.1 g q.2) (k : ℕ) :
    SameLaw (births endless (colEntries G flat g0) start k)
      (births endless (colEntries G' flat' g) (fun d t => start d (into t)) k) := by
  induction k with
  | zero => exact sameLaw_refl _
  | succ k ih =>
    set ws := colEntries G flat g0
    set ws' := colEntries G' flat' g
    have ms' : ∀ g, Measurable fun q : Direction × (ℕ → ℝ) => start q.1 (into g) q.2 := fun g => ms (into g)
    have mb := measurable_births' (ws := ws) ms k
    have mb' := measurable_births' (ws := ws') (start := fun d t => start d (into t)) ms' k
    have md : ∀ {b : (ℕ → ℝ) → ℝ≥0∞} (_ : Measurable b) (t : ℕ), Measurable fun q : Direction × (ℕ → ℝ) =>
          start q.1 t (endless.child q.2) + b (endless.after q.2) :=
      fun hb t => ((ms t).comp (measurable_fst.prodMk
        (measurePreserving_child.measurable.comp measurable_snd))).add
        (hb.comp (measurePreserving_after.measurable.comp measurable_snd))
    have mdir : ∀ {b : (ℕ → ℝ) → ℝ≥0∞} (_ : Measurable b) (t : ℕ), Measurable fun us : ℕ → ℝ =>
          start (directionFrom (us 0) (us 1)) t (endless.child fun i => us (i + 2)) +
            b (endless.after fun i => us (i + 2)) :=
      fun hb t => (md hb t).comp (f := fun us : ℕ → ℝ => (directionFrom (us 0) (us 1), fun i => us (i + 2)))
        ((measurable_directionFrom (measurable_pi_apply 0) (measurable_pi_apply 1)).prodMk
          (measurable_shift measurable_id 2))
    have rid : Rigid id := ⟨fun _ _ _ => rfl, fun _ _ => rfl⟩
    have hdir : ∀ t, SameLaw
        (fun us => start (directionFrom (us 0) (us 1)) t (endless.child fun i => us (i + 2)) +
          births endless ws start k (endless.after fun i => us (i + 2)))
        (fun us => start (directionFrom (us 0) (us 1)) t (endless.child fun i => us (i + 2)) +
          births endless ws' (fun d t => start d (into t)) k (endless.after fun i => us (i + 2))) := by
      intro t
      refine sameLaw_direction rid
        (next := fun d us => start d t (endless.child us) + births endless ws start k (endless.after us))
        (next' := fun d us => start d t (endless.child us) +
          births endless ws' (fun d t => start d (into t)) k (endless.after us))
        (md mb t) (md mb' t) fun d => ?_
      exact sameLaw_split ((ms t).comp (measurable_const.prodMk measurable_id))
        ((ms t).comp (measurable_const.prodMk measurable_id)) mb mb' (sameLaw_refl _) ih
    have k1 := sameLaw_lumped h (weight := entry2 G flat g0) (weight' := entry2 G' flat' g) hs
      (entry2_nonneg hpos G g0) (entry2_nonneg hpos' G' g) hf (mdir mb)
    have k2 := sameLaw_choice (ws := ws') (colEntries_nonneg hpos' G' g) (fun j => mdir mb (into (j + 1)))
      (fun j => mdir mb' (into (j + 1))) fun j _ => hdir (into (j + 1))
    have e : ∀ (ws : List ℝ) (start : Direction → ℕ → (ℕ → ℝ) → ℝ≥0∞), births endless ws start (k + 1) =
        fun us => byWeight ws (us 0) fun j => start (directionFrom (us (0 + 1)) (us (1 + 1))) (j + 1)
          (endless.child fun i => us (i + 2 + 1)) +
            births endless ws start k (endless.after fun i => us (i + 2 + 1)) := by
      intro ws start
      funext us
      simp only [births, endless_numbers, endless_rest, endless_number]
    rw [e, e]
    exact SameLaw.trans k1 k2

/-- A reaction. -/
theorem lumped_eventOn (h : ∀ g, 1 ≤ g → g ≤ G' → 1 ≤ into g ∧ into g ≤ G) {data data' : List MgNode}
    (hN : NonnegNodes data) (hN' : NonnegNodes data') (hd : DividedGroups G G' into data data') {g : ℕ}
    (h1 : 1 ≤ g) (h2 : g ≤ G') {next start : Direction → ℕ → (ℕ → ℝ) → ℝ≥0∞}
    (hn : ∀ g, Measurable fun q : Direction × (ℕ → ℝ) => next q.1 g q.2)
    (hs : ∀ g, Measurable fun q : Direction × (ℕ → ℝ) => start q.1 g q.2) :
    SameLaw (eventOn endless G data (into g) next start)
      (eventOn endless G' data' g (fun d t => next d (into t)) fun d t => start d (into t)) := by
  let react (G : ℕ) (data : List MgNode) (g : ℕ) (next start : Direction → ℕ → (ℕ → ℝ) → ℝ≥0∞) (r : ℕ)
      (us : ℕ → ℝ) : ℝ≥0∞ :=
    if r = 1 then
      byWeight (colEntries G (scatterTable data) g) (us 0) fun j =>
        next (directionFrom (us 1) (us 2)) (j + 1) fun k => us (k + 3)
    else if r = 2 then
      births endless (colEntries G (chiTable data) g) start
        ⌊entry1 (nubarTable data) g + us 0⌋₊ fun k => us (k + 1)
    else 0
  have mscatter : ∀ t : ℕ,
      Measurable fun us : ℕ → ℝ => next (directionFrom (us 0) (us 1)) t fun k => us (k + 2) :=
    fun t => (hn t).comp
      (f := fun us : ℕ → ℝ => (directionFrom (us 0) (us 1), fun i => us (i + 2)))
      ((measurable_directionFrom (measurable_pi_apply 0) (measurable_pi_apply 1)).prodMk
        (measurable_shift measurable_id 2))
  have mbirth : ∀ {start : Direction → ℕ → (ℕ → ℝ) → ℝ≥0∞}
      (_ : ∀ g, Measurable fun q : Direction × (ℕ → ℝ) => start q.1 g q.2) (ws : List ℝ) (ν : ℝ),
      Measurable fun q : ℝ × (ℕ → ℝ) => births endless ws start ⌊ν + q.1⌋₊ q.2 := by
    intro start hs ws ν
    have hb : Measurable fun q : (ℝ × (ℕ → ℝ)) × ℕ => births endless ws start q.2 q.1.2 :=
      measurable_from_prod_countable_left fun k => (measurable_births' (ws := ws) hs k).comp measurable_snd
    exact hb.comp (measurable_id.prodMk (Nat.measurable_floor.comp (measurable_const.add measurable_fst)))
  have mreact : ∀ (G : ℕ) (data : List MgNode) (g : ℕ) (into : ℕ → ℕ) (r : ℕ),
      Measurable (react G data g (fun d t => next d (into t)) (fun d t => start d (into t)) r) := by
    intro G data g into r
    dsimp only [react]
    split_ifs
    · exact measurable_byWeight _ (measurable_pi_apply 0) fun j =>
        (mscatter (into (j + 1))).comp (measurable_shift measurable_id 1)
    · exact (mbirth (start := fun d t => start d (into t)) (fun t => hs (into t)) _ _).comp
        (f := fun us : ℕ → ℝ => (us 0, fun k => us (k + 1)))
        ((measurable_pi_apply 0).prodMk (measurable_shift measurable_id 1))
    · exact measurable_const
  have e : ∀ (G : ℕ) (data : List MgNode) (g : ℕ) (next start : Direction → ℕ → (ℕ → ℝ) → ℝ≥0∞),
      eventOn endless G data g next start = fun us =>
        byWeight [specXS G data .capture g, specXS G data .scatter g, specXS G data .fission g] (us 0) fun r =>
          react G data g next start r fun k => us (k + 1) := by
    intro G data g next start
    funext us
    simp only [eventOn, endless_numbers, endless_rest]
    rfl
  rw [e, e, hd.reaction _ g h1 h2, hd.reaction _ g h1 h2, hd.reaction _ g h1 h2]
  refine sameLaw_choice_pos (reactions_nonneg hN) (mreact G data (into g) id) (mreact G' data' g into)
    fun r x hx hpos => ?_
  dsimp only [react]
  split_ifs with r1 r2
  · refine sameLaw_lumped h (weight := entry2 G (scatterTable data) (into g))
      (weight' := entry2 G' (scatterTable data') g) one_pos (entry2_nonneg (scatterTable_nonneg hN) G (into g))
      (entry2_nonneg (scatterTable_nonneg hN') G' g) (fun t k1 k2 => ?_) mscatter
    rw [one_mul]
    exact hd.transfer g t h1 h2 k1 k2
  · subst r2
    have hf : 0 < specXS G' data' .fission g := by
      rw [hd.reaction _ g h1 h2]
      simp only [List.getElem?_cons_succ, List.getElem?_cons_zero, Option.some.injEq] at hx
      rwa [hx]
    obtain ⟨t, ht, hspec⟩ := hd.spectrum g h1 h2 hf
    rw [hd.yield g h1 h2 hf]
    exact sameLaw_first
      (F := fun u us => births endless (colEntries G (chiTable data) (into g)) start
        ⌊entry1 (nubarTable data) (into g) + u⌋₊ us)
      (F' := fun u us => births endless (colEntries G' (chiTable data') g) (fun d t => start d (into t))
        ⌊entry1 (nubarTable data) (into g) + u⌋₊ us)
      (mbirth hs _ _) (mbirth (fun t => hs (into t)) _ _) (Filter.Eventually.of_forall fun u =>
      lumped_births h (chiTable_nonneg hN) (chiTable_nonneg hN') ht hspec hs _)
  · exact sameLaw_refl _

/-- A collision. -/
theorem lumped_afterEvent (h : ∀ g, 1 ≤ g → g ≤ G' → 1 ≤ into g ∧ into g ≤ G) {m m' : Material}
    (hm : FineMaterial G G' into nodes nodes' m m') (hf : ∀ e ∈ m.afracs, 0 ≤ e.2)
    (hN : ∀ e ∈ m.afracs, NonnegNodes (nodes e.1)) (hN' : ∀ e ∈ m'.afracs, NonnegNodes (nodes' e.1)) {g : ℕ}
    (h1 : 1 ≤ g) (h2 : g ≤ G') {next start : Direction → ℕ → (ℕ → ℝ) → ℝ≥0∞}
    (hn : ∀ g, Measurable fun q : Direction × (ℕ → ℝ) => next q.1 g q.2)
    (hs : ∀ g, Measurable fun q : Direction × (ℕ → ℝ) => start q.1 g q.2) :
    SameLaw (afterEvent endless G nodes m (into g) next start)
      (afterEvent endless G' nodes' m' g (fun d t => next d (into t)) fun d t => start d (into t)) := by
  have e : ∀ (G : ℕ) (nodes : Nuclide → List MgNode) (m : Material) (g : ℕ)
      (next start : Direction → ℕ → (ℕ → ℝ) → ℝ≥0∞), afterEvent endless G nodes m g next start = fun us =>
        byWeight (m.afracs.map fun e => e.2 * specTotal G (nodes e.1) g) (us 0) fun i =>
          m.afracs[i]?.elim (fun _ => 0) (fun e => eventOn endless G (nodes e.1) g next start)
            fun k => us (k + 1) := by
    intro G nodes m g next start
    funext us
    rw [afterEvent_eventOn]
    congr 1
    funext i
    cases m.afracs[i]? <;> rfl
  have mevent : ∀ (G : ℕ) (nodes : Nuclide → List MgNode) (m : Material) (g : ℕ) (into : ℕ → ℕ) (i : ℕ),
      Measurable (m.afracs[i]?.elim (fun _ => 0) fun e : Nuclide × ℝ =>
        eventOn endless G (nodes e.1) g (fun d t => next d (into t)) fun d t => start d (into t)) := by
    intro G nodes m g into i
    cases m.afracs[i]? with
    | none => exact measurable_const
    | some e =>
      exact measurable_eventOn (G := G) (nodes e.1) g (next := fun d t => next d (into t))
        (start := fun d t => start d (into t)) (fun t => hn (into t)) fun t => hs (into t)
  rw [e, e, fine_weights h1 h2 hm.2]
  refine sameLaw_choice (weights_nonneg hf hN) (mevent G nodes m (into g) id) (mevent G' nodes' m' g into)
    fun i hi => ?_
  have hi : i < m.afracs.length := by simpa using hi
  have hi' : i < m'.afracs.length := hm.2.length_eq ▸ hi
  rw [List.getElem?_eq_getElem hi, List.getElem?_eq_getElem hi']
  exact lumped_eventOn h (hN _ (List.getElem_mem hi)) (hN' _ (List.getElem_mem hi'))
    ((List.forall₂_iff_get.1 hm.2).2 i hi hi').1 h1 h2 hn hs

/-! ### Neutrons -/

theorem restated_self (m : Material) : RestatedMaterial G nodes nodes m m := by
  refine ⟨1, one_pos, mul_one _, List.forall₂_same.2 fun e _ => ⟨1, one_pos, ⟨?_, ?_, ?_, ?_⟩, ?_⟩⟩
  · intro r g _ _
    rw [one_mul]
  · intro g g' _ _ _ _
    rw [one_mul]
  · intro g _ _ _
    rfl
  · exact fun g _ _ _ => ⟨1, one_pos, fun g' _ _ => (one_mul _).symm⟩
  · rw [mul_one, one_mul]

/-- A collision, after which neutrons of fine groups score like those of their coarse groups. -/
theorem lumped_collision (h : ∀ g, 1 ≤ g → g ≤ G' → 1 ≤ into g ∧ into g ≤ G) {m m' : Material}
    (hm : FineMaterial G G' into nodes nodes' m m') (hf : ∀ e ∈ m.afracs, 0 ≤ e.2)
    (hf' : ∀ e ∈ m'.afracs, 0 ≤ e.2)
    (hN : ∀ e ∈ m.afracs, NonnegNodes (nodes e.1)) (hN' : ∀ e ∈ m'.afracs, NonnegNodes (nodes' e.1)) {g : ℕ}
    (h1 : 1 ≤ g) (h2 : g ≤ G') {next start next' start' : Direction → ℕ → (ℕ → ℝ) → ℝ≥0∞}
    (hn : ∀ g, Measurable fun q : Direction × (ℕ → ℝ) => next q.1 g q.2)
    (hs : ∀ g, Measurable fun q : Direction × (ℕ → ℝ) => start q.1 g q.2)
    (hn' : ∀ g, Measurable fun q : Direction × (ℕ → ℝ) => next' q.1 g q.2)
    (hs' : ∀ g, Measurable fun q : Direction × (ℕ → ℝ) => start' q.1 g q.2)
    (en : ∀ d t, 1 ≤ t → t ≤ G' → SameLaw (next d (into t)) (next' d t))
    (es : ∀ d t, 1 ≤ t → t ≤ G' → SameLaw (start d (into t)) (start' d t)) :
    SameLaw (afterEvent endless G nodes m (into g) next start)
      (afterEvent endless G' nodes' m' g next' start') := by
  -- what follows need only be right for the groups there are
  let mend (f f' : Direction → ℕ → (ℕ → ℝ) → ℝ≥0∞) (d : Direction) (t : ℕ) (us : ℕ → ℝ) : ℝ≥0∞ :=
    if 1 ≤ t ∧ t ≤ G' then f' d t us else f d (into t) us
  have mmend : ∀ {f f' : Direction → ℕ → (ℕ → ℝ) → ℝ≥0∞}
      (_ : ∀ g, Measurable fun q : Direction × (ℕ → ℝ) => f q.1 g q.2)
      (_ : ∀ g, Measurable fun q : Direction × (ℕ → ℝ) => f' q.1 g q.2) (t : ℕ),
      Measurable fun q : Direction × (ℕ → ℝ) => mend f f' q.1 t q.2 := by
    intro f f' k k' t
    dsimp only [mend]
    by_cases ht : 1 ≤ t ∧ t ≤ G'
    · simp only [if_pos ht]
      exact k' t
    · simp only [if_neg ht]
      exact k (into t)
  have lmend : ∀ {f f' : Direction → ℕ → (ℕ → ℝ) → ℝ≥0∞}
      (_ : ∀ d t, 1 ≤ t → t ≤ G' → SameLaw (f d (into t)) (f' d t)) (d : Direction) (t : ℕ),
      SameLaw (f d (into t)) (mend f f' d t) := by
    intro f f' k d t
    by_cases ht : 1 ≤ t ∧ t ≤ G'
    · have e : mend f f' d t = f' d t := funext fun us => if_pos ht
      rw [e]
      exact k d t ht.1 ht.2
    · have e : mend f f' d t = f d (into t) := funext fun us => if_neg ht
      rw [e]
      exact sameLaw_refl _
  have rid : Rigid id := ⟨fun _ _ _ => rfl, fun _ _ => rfl⟩
  have k1 := lumped_afterEvent h hm hf hN hN' h1 h2 hn hs
  have k2 := sameLaw_afterEvent (G := G') (nodes := nodes') (g := g) rid hf' hN'
    (next := fun d t => next d (into t)) (next' := mend next next')
    (start := fun d t => start d (into t)) (start' := mend start start') (fun t => hn (into t)) (mmend hn hn')
    (fun t => hs (into t)) (mmend hs hs') (lmend en) (lmend es)
  have k3 : afterEvent endless G' nodes' m' g (mend next next') (mend start start') =
      afterEvent endless G' nodes' m' g next' start' := funext fun us =>
    restated_afterEvent endless (restated_self m') h1 h2 (fun d t us a b => if_pos ⟨a, b⟩)
      (fun d t us a b => if_pos ⟨a, b⟩) us
  rw [k3] at k2
  exact SameLaw.trans k1 k2

/-- A neutron and its descendants. -/
theorem lumped_chain (h : ∀ g, 1 ≤ g → g ≤ G' → 1 ≤ into g ∧ into g ≤ G) {w w' : World}
    (hw : WellPosed G nodes w) (hw' : WellPosed G' nodes' w')
    (ha : WorldsAlike (FineMaterial G G' into nodes nodes') w w') (method method' : Method)
    {hit hit' : SurfaceObj → Direction → ℕ → ℝ≥0∞} (mh : ∀ s g, Measurable fun d => hit s d g)
    (mh' : ∀ s g, Measurable fun d => hit' s d g)
    (hh : ∀ f d g, 1 ≤ g → g ≤ G' → hit' f d g = hit f d (into g)) (n : ℕ) {c c' : Cell} (hc : c ∈ w.cells)
    (hc' : c' ∈ w'.cells) (hcc : CellsAlike (FineMaterial G G' into nodes nodes') c c') (x : Point)
    (d : Direction) {g : ℕ} (h1 : 1 ≤ g) (h2 : g ≤ G') :
    SameLaw (chainScore endless G nodes w method hit n c x d (into g))
      (chainScore endless G' nodes' w' method' hit' n c' x d g) := by
  induction n generalizing c c' x d g with
  | zero => exact sameLaw_refl _
  | succ n ih =>
    rcases hcc.material with ⟨a1, a2⟩ | ⟨m, m', a1, a2, hm⟩
    · have e1 : chainScore endless G nodes w method hit (n + 1) c x d (into g) = fun _ => 0 :=
        funext fun us => chainScore_none a1 us
      have e2 : chainScore endless G' nodes' w' method' hit' (n + 1) c' x d g = fun _ => 0 :=
        funext fun us => chainScore_none a2 us
      rw [e1, e2]
      exact sameLaw_refl _
    · have hf : ∀ e ∈ m.afracs, 0 ≤ e.2 := fun e he => (hw.data c hc m a1 e he).1.le
      have hf' : ∀ e ∈ m'.afracs, 0 ≤ e.2 := fun e he => (hw'.data c' hc' m' a2 e he).1.le
      have hN : ∀ e ∈ m.afracs, NonnegNodes (nodes e.1) := fun e he => by
        obtain ⟨_, _, _, _, h, _⟩ := hw.data c hc m a1 e he
        exact h
      have hN' : ∀ e ∈ m'.afracs, NonnegNodes (nodes' e.1) := fun e he => by
        obtain ⟨_, _, _, _, h, _⟩ := hw'.data c' hc' m' a2 e he
        exact h
      rw [chainScore_roundFrom a1, chainScore_roundFrom a2]
      refine sameLaw_first
        (F := fun u us => roundFrom G nodes w method hit n c x d m (into g) u us)
        (F' := fun u us => roundFrom G' nodes' w' method' hit' n c' x d m' g u us)
        (measurable_roundFrom w method mh n c x d m (into g))
        (measurable_roundFrom w' method' mh' n c' x d m' g) ?_
      filter_upwards [ae_fliesTo method method' (macroscopic G nodes (into g) m) (t := ahead c x d)
        fun r hr => ahead_pos hr] with u hu
      unfold roundFrom
      rw [alike_ahead hcc, fine_macroscopic hm h1 h2]
      by_cases hfl : FliesTo method (ahead c x d) (-Real.log (1 - u) / macroscopic G nodes (into g) m)
      · simp only [if_pos hfl, if_pos (hu.1 hfl)]
        unfold crossed
        rw [alike_faced hcc, alike_beyond hcc]
        cases faced c x d with
        | none =>
          simp only [Option.elim_none]
          exact sameLaw_refl _
        | some s =>
          rcases alike_cellAt ha (beyond c x d) with ⟨k1, k2⟩ | ⟨b, b', k1, k2, hb⟩
          · simp only [k1, k2, Option.elim_some, Option.elim_none]
            exact sameLaw_refl _
          · simp only [k1, k2, Option.elim_some]
            rw [hh s d g h1 h2]
            exact sameLaw_add_left (ih (cellAt_mem k1) (cellAt_mem k2) hb _ _ h1 h2) _
      · simp only [if_neg hfl, if_neg fun k => hfl (hu.2 k)]
        set y := along x d (-Real.log (1 - u) / macroscopic G nodes (into g) m)
        have mn := measurable_next_us G nodes w method mh n c y
        have ms := measurable_fresh_us G nodes w method mh n y
        have mn' := measurable_next_us G' nodes' w' method' mh' n c' y
        have ms' := measurable_fresh_us G' nodes' w' method' mh' n y
        have key := lumped_collision h hm hf hf' hN hN' h1 h2 mn ms mn' ms'
          (fun d t t1 t2 => ih hc hc' hcc y d t1 t2) fun d t t1 t2 => by
            unfold fresh
            rcases alike_cellAt ha y with ⟨k1, k2⟩ | ⟨b, b', k1, k2, hb⟩
            · simp only [k1, k2, Option.elim_none]
              exact sameLaw_refl _
            · simp only [k1, k2, Option.elim_some]
              exact ih (cellAt_mem k1) (cellAt_mem k2) hb y d t1 t2
        have k1 := sameLaw_drawn method
          (measurable_afterEvent (G := G) (nodes := nodes) (m := m) (g := into g) mn ms)
        have k2 := sameLaw_drawn method'
          (measurable_afterEvent (G := G') (nodes := nodes') (m := m') (g := g) mn' ms')
        exact SameLaw.trans (SameLaw.trans k1 key) (SameLaw.symm k2)

end Minimc
