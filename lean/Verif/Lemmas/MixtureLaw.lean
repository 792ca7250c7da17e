import Verif.Lemmas.Mixture

/-! # The distribution of scores in problems with the same matter -/

namespace Minimc

open Classical Spec MeasureTheory
open scoped ENNReal

variable {G : ℕ} {nodes nodes' : Nuclide → List MgNode}

/-! ### Sums over the nuclides -/

/-- A sum over the nuclides, sorted by data. -/
theorem sum_sorted {β : Type} [DecidableEq β] (nodes : Nuclide → β) (K : β → ℝ≥0∞) (A : Finset β)
    {l : List (Nuclide × ℝ)} (hl : ∀ e ∈ l, 0 ≤ e.2) (hA : ∀ e ∈ l, nodes e.1 ∈ A) :
    (l.map fun e => ENNReal.ofReal e.2 * K (nodes e.1)).sum =
      ∑ data ∈ A, ENNReal.ofReal ((l.filter fun e => decide (nodes e.1 = data)).map Prod.snd).sum *
        K data := by
  induction l with
  | nil => simp
  | cons e l ih =>
    rw [List.map_cons, List.sum_cons, ih (fun q hq => hl q (by simp [hq])) fun q hq => hA q (by simp [hq])]
    have h1 : ∀ data, 0 ≤ ((l.filter fun e => decide (nodes e.1 = data)).map Prod.snd).sum := fun data =>
      List.sum_nonneg fun x hx => by
        obtain ⟨q, hq, rfl⟩ := List.mem_map.1 hx
        exact hl q (by simp [(List.mem_filter.1 hq).1])
    have h2 : ENNReal.ofReal e.2 * K (nodes e.1) =
        ∑ data ∈ A, if nodes e.1 = data then ENNReal.ofReal e.2 * K data else 0 := by
      rw [Finset.sum_ite_eq, if_pos (hA e (by simp))]
    rw [h2, ← Finset.sum_add_distrib]
    refine Finset.sum_congr rfl fun data _ => ?_
    by_cases hd : nodes e.1 = data
    · rw [if_pos hd, List.filter_cons_of_pos (by simpa using hd), List.map_cons, List.sum_cons,
        ENNReal.ofReal_add (hl e (by simp)) (h1 data), add_mul]
    · rw [if_neg hd, List.filter_cons_of_neg (by simpa using hd), zero_add]

theorem sum_sameAmounts {m m' : Material} (h : SameAmounts nodes nodes' m m')
    (hd : 0 ≤ m.numberDensity) (hd' : 0 ≤ m'.numberDensity) (hf : ∀ e ∈ m.afracs, 0 ≤ e.2)
    (hf' : ∀ e ∈ m'.afracs, 0 ≤ e.2) (K : List MgNode → ℝ≥0∞) :
    ENNReal.ofReal m'.numberDensity * (m'.afracs.map fun e => ENNReal.ofReal e.2 * K (nodes' e.1)).sum =
      ENNReal.ofReal m.numberDensity * (m.afracs.map fun e => ENNReal.ofReal e.2 * K (nodes e.1)).sum := by
  let A : Finset (List MgNode) :=
    (m.afracs.map fun e => nodes e.1).toFinset ∪ (m'.afracs.map fun e => nodes' e.1).toFinset
  rw [sum_sorted nodes K A hf fun e he => ?_, sum_sorted nodes' K A hf' fun e he => ?_, Finset.mul_sum,
    Finset.mul_sum]
  · refine Finset.sum_congr rfl fun data _ => ?_
    rw [← mul_assoc, ← mul_assoc, ← ENNReal.ofReal_mul hd, ← ENNReal.ofReal_mul hd']
    have := h data
    unfold amount at this
    rw [this]
  · simp only [A, Finset.mem_union, List.mem_toFinset, List.mem_map]
    exact Or.inr ⟨e, he, rfl⟩
  · simp only [A, Finset.mem_union, List.mem_toFinset, List.mem_map]
    exact Or.inl ⟨e, he, rfl⟩

/-! ### Collisions -/

theorem data_total_nonneg {data : List MgNode} (h : NonnegNodes data) (g : ℕ) : 0 ≤ specTotal G data g := by
  have := fun r => specXS_nonneg' h G r g
  exact add_nonneg (add_nonneg (this _) (this _)) (this _)

theorem ofReal_macroscopic {m : Material} {g : ℕ} (hd : 0 ≤ m.numberDensity)
    (hf : ∀ e ∈ m.afracs, 0 ≤ e.2) (hN : ∀ e ∈ m.afracs, NonnegNodes (nodes e.1)) :
    ENNReal.ofReal (macroscopic G nodes g m) = ENNReal.ofReal m.numberDensity *
      (m.afracs.map fun e => ENNReal.ofReal e.2 * ENNReal.ofReal (specTotal G (nodes e.1) g)).sum := by
  unfold macroscopic
  rw [ENNReal.ofReal_mul hd]
  congr 1
  generalize m.afracs = l at hf hN
  induction l with
  | nil => simp
  | cons e l ih =>
    have h0 : 0 ≤ (l.map fun e => e.2 * specTotal G (nodes e.1) g).sum := List.sum_nonneg fun x hx => by
      obtain ⟨q, hq, rfl⟩ := List.mem_map.1 hx
      exact mul_nonneg (hf q (by simp [hq])) (data_total_nonneg (hN q (by simp [hq])) g)
    rw [List.map_cons, List.sum_cons, List.map_cons, List.sum_cons,
      ENNReal.ofReal_add (mul_nonneg (hf e (by simp)) (data_total_nonneg (hN e (by simp)) g)) h0,
      ENNReal.ofReal_mul (hf e (by simp)), ih (fun q hq => hf q (by simp [hq])) fun q hq => hN q (by simp [hq])]

theorem macroscopic_nonneg {m : Material} {g : ℕ} (hd : 0 ≤ m.numberDensity)
    (hf : ∀ e ∈ m.afracs, 0 ≤ e.2) (hN : ∀ e ∈ m.afracs, NonnegNodes (nodes e.1)) :
    0 ≤ macroscopic G nodes g m :=
  mul_nonneg hd (List.sum_nonneg (weights_nonneg hf hN))

theorem same_macroscopic {m m' : Material} {g : ℕ} (h : SameAmounts nodes nodes' m m')
    (hd : 0 ≤ m.numberDensity) (hd' : 0 ≤ m'.numberDensity) (hf : ∀ e ∈ m.afracs, 0 ≤ e.2)
    (hf' : ∀ e ∈ m'.afracs, 0 ≤ e.2) (hN : ∀ e ∈ m.afracs, NonnegNodes (nodes e.1))
    (hN' : ∀ e ∈ m'.afracs, NonnegNodes (nodes' e.1)) :
    macroscopic G nodes' g m' = macroscopic G nodes g m := by
  rw [← ENNReal.ofReal_eq_ofReal_iff (macroscopic_nonneg hd' hf' hN') (macroscopic_nonneg hd hf hN),
    ofReal_macroscopic hd' hf' hN', ofReal_macroscopic hd hf hN]
  exact sum_sameAmounts h hd hd' hf hf' fun data => ENNReal.ofReal (specTotal G data g)

theorem measurable_eventOn (data : List MgNode) (g : ℕ)
    {next start : Direction → ℕ → (ℕ → ℝ) → ℝ≥0∞}
    (hn : ∀ g, Measurable fun q : Direction × (ℕ → ℝ) => next q.1 g q.2)
    (hs : ∀ g, Measurable fun q : Direction × (ℕ → ℝ) => start q.1 g q.2) :
    Measurable (eventOn endless G data g next start) := by
  have e : eventOn endless G data g next start = fun us =>
      byWeight [specXS G data .capture g, specXS G data .scatter g, specXS G data .fission g] (us 0) fun r =>
        if r = 1 then byWeight (colEntries G (scatterTable data) g) (us 1) fun j =>
          next (directionFrom (us 2) (us 3)) (j + 1) fun k => us (k + 4)
        else if r = 2 then births endless (colEntries G (chiTable data) g) start
          ⌊entry1 (nubarTable data) g + us 1⌋₊ fun k => us (k + 2)
        else 0 := by
    funext us
    simp only [eventOn, endless_numbers, endless_rest]
  rw [e]
  refine measurable_byWeight _ (measurable_pi_apply 0) fun r => ?_
  split_ifs
  · exact measurable_byWeight _ (measurable_pi_apply 1) fun j => (hn (j + 1)).comp
      (f := fun us : ℕ → ℝ => (directionFrom (us 2) (us 3), fun i => us (i + 4)))
      ((measurable_directionFrom (measurable_pi_apply 2) (measurable_pi_apply 3)).prodMk
        (measurable_shift measurable_id 4))
  · have hb : Measurable fun q : (ℝ × (ℕ → ℝ)) × ℕ =>
        births endless (colEntries G (chiTable data) g) start q.2 q.1.2 :=
      measurable_from_prod_countable_left fun k =>
        (measurable_births' (ws := colEntries G (chiTable data) g) hs k).comp measurable_snd
    have hb' : Measurable fun q : ℝ × (ℕ → ℝ) => births endless (colEntries G (chiTable data) g) start
        ⌊entry1 (nubarTable data) g + q.1⌋₊ q.2 :=
      hb.comp (measurable_id.prodMk (Nat.measurable_floor.comp (measurable_const.add measurable_fst)))
    exact hb'.comp (f := fun us : ℕ → ℝ => (us 1, fun k => us (k + 2)))
      ((measurable_pi_apply 1).prodMk (measurable_shift measurable_id 2))
  · exact measurable_const

theorem sum_range_elim {α : Type} (l : List α) (f : α → ℝ≥0∞) :
    (∑ i ∈ Finset.range l.length, l[i]?.elim 0 f) = (l.map f).sum := by
  induction l with
  | nil => simp
  | cons e l ih =>
    rw [List.length_cons, Finset.sum_range_succ', List.map_cons, List.sum_cons, ← ih, add_comm]
    simp

/-- The mean of any function of what a collision scores: every nuclide counts as much as it reacts. -/
theorem lintegral_afterEvent {m : Material} {g : ℕ} (hd : 0 < m.numberDensity)
    (hf : ∀ e ∈ m.afracs, 0 ≤ e.2) (hN : ∀ e ∈ m.afracs, NonnegNodes (nodes e.1))
    (hM : 0 < macroscopic G nodes g m) {next start : Direction → ℕ → (ℕ → ℝ) → ℝ≥0∞}
    (hn : ∀ g, Measurable fun q : Direction × (ℕ → ℝ) => next q.1 g q.2)
    (hs : ∀ g, Measurable fun q : Direction × (ℕ → ℝ) => start q.1 g q.2)
    {φ : ℝ≥0∞ → ℝ≥0∞} (hφ : Measurable φ) :
    ∫⁻ us, φ (afterEvent endless G nodes m g next start us) ∂uniforms =
      ENNReal.ofReal (macroscopic G nodes g m)⁻¹ * (ENNReal.ofReal m.numberDensity *
        (m.afracs.map fun e => ENNReal.ofReal e.2 * (ENNReal.ofReal (specTotal G (nodes e.1) g) *
          ∫⁻ us, φ (eventOn endless G (nodes e.1) g next start us) ∂uniforms)).sum) := by
  set ws := m.afracs.map fun e => e.2 * specTotal G (nodes e.1) g with hws
  have hnn : ∀ x ∈ ws, 0 ≤ x := weights_nonneg hf hN
  have hW : 0 < ws.sum := pos_of_mul_pos_right hM hd.le
  have mV : ∀ data, Measurable (eventOn endless G data g next start) :=
    fun data => measurable_eventOn data g hn hs
  let F : ℕ → (ℕ → ℝ) → ℝ≥0∞ := fun i us =>
    m.afracs[i]?.elim 0 fun e => φ (eventOn endless G (nodes e.1) g next start us)
  have mF : ∀ i, Measurable (F i) := by
    intro i
    dsimp only [F]
    cases m.afracs[i]? with
    | none => exact measurable_const
    | some e => exact hφ.comp (mV _)
  have e1 : ∫⁻ us, φ (afterEvent endless G nodes m g next start us) ∂uniforms =
      ∫⁻ us, byWeight ws (us 0) (fun i => F i fun k => us (k + 1)) ∂uniforms := by
    have h0 : ∀ᵐ us ∂uniforms, us 0 ∈ Set.Ioo (0 : ℝ) 1 :=
      (measurePreserving_eval_infinitePi (fun _ : ℕ => uniform) 0).quasiMeasurePreserving.ae ae_uniform
    refine lintegral_congr_ae (h0.mono fun us hu => ?_)
    obtain ⟨i, hi⟩ := Selected.exists (ws := ws) (mul_nonneg hu.1.le hW.le)
      (show us 0 * ws.sum < ws.sum by nlinarith [hu.2])
    have he : ∀ j, Selected ws (us 0 * ws.sum) j ↔ j = i :=
      fun j => ⟨fun h => Selected.unique hnn h hi, fun h => h ▸ hi⟩
    have hil : i < m.afracs.length := by simpa [hws] using hi.1
    dsimp only
    rw [afterEvent_eventOn]
    change φ (byWeight ws (us 0) _) = _
    rw [byWeight_eq he, byWeight_eq he]
    dsimp only [F]
    rw [List.getElem?_eq_getElem hil]
    rfl
  rw [e1, lintegral_byWeight hnn mF]
  have e2 : ∀ i ∈ Finset.range ws.length, ENNReal.ofReal (ws.getD i 0 / ws.sum) * ∫⁻ us, F i us ∂uniforms =
      m.afracs[i]?.elim 0 fun e => ENNReal.ofReal (macroscopic G nodes g m)⁻¹ *
        (ENNReal.ofReal m.numberDensity * (ENNReal.ofReal e.2 * (ENNReal.ofReal (specTotal G (nodes e.1) g) *
          ∫⁻ us, φ (eventOn endless G (nodes e.1) g next start us) ∂uniforms))) := by
    intro i hi
    have hil : i < m.afracs.length := by simpa [hws] using hi
    have he := List.getElem_mem hil
    have hg : ws.getD i 0 = m.afracs[i].2 * specTotal G (nodes m.afracs[i].1) g := by
      simp [hws, List.getD_eq_getElem?_getD, hil]
    have hx : ws.getD i 0 / ws.sum = (macroscopic G nodes g m)⁻¹ * (m.numberDensity *
        (m.afracs[i].2 * specTotal G (nodes m.afracs[i].1) g)) := by
      rw [hg]
      have : macroscopic G nodes g m = m.numberDensity * ws.sum := rfl
      rw [this]
      field_simp
    dsimp only [F]
    rw [List.getElem?_eq_getElem hil, hx]
    simp only [Option.elim_some]
    rw [ENNReal.ofReal_mul (inv_nonneg.2 hM.le), ENNReal.ofReal_mul hd.le, ENNReal.ofReal_mul (hf _ he)]
    simp only [mul_assoc]
  rw [Finset.sum_congr rfl e2]
  have hl : ws.length = m.afracs.length := by simp [hws]
  rw [hl, sum_range_elim, List.sum_map_mul_left, List.sum_map_mul_left]

theorem afterEvent_idle {m : Material} {g : ℕ} (hd : 0 < m.numberDensity) (hf : ∀ e ∈ m.afracs, 0 ≤ e.2)
    (hN : ∀ e ∈ m.afracs, NonnegNodes (nodes e.1)) (hM : macroscopic G nodes g m = 0)
    {next start : Direction → ℕ → (ℕ → ℝ) → ℝ≥0∞} (us : ℕ → ℝ) :
    afterEvent endless G nodes m g next start us = 0 := by
  rw [afterEvent_eventOn]
  exact byWeight_zero (weights_nonneg hf hN) ((mul_eq_zero.1 hM).resolve_left hd.ne') _ _

/-- A collision in materials with the same matter. -/
theorem same_afterEvent {m m' : Material} {g : ℕ} (h : SameAmounts nodes nodes' m m')
    (hd : 0 < m.numberDensity) (hd' : 0 < m'.numberDensity) (hf : ∀ e ∈ m.afracs, 0 ≤ e.2)
    (hf' : ∀ e ∈ m'.afracs, 0 ≤ e.2) (hN : ∀ e ∈ m.afracs, NonnegNodes (nodes e.1))
    (hN' : ∀ e ∈ m'.afracs, NonnegNodes (nodes' e.1))
    {next start : Direction → ℕ → (ℕ → ℝ) → ℝ≥0∞}
    (hn : ∀ g, Measurable fun q : Direction × (ℕ → ℝ) => next q.1 g q.2)
    (hs : ∀ g, Measurable fun q : Direction × (ℕ → ℝ) => start q.1 g q.2) :
    SameLaw (afterEvent endless G nodes m g next start) (afterEvent endless G nodes' m' g next start) := by
  have e := same_macroscopic (G := G) (g := g) h hd.le hd'.le hf hf' hN hN'
  rcases (macroscopic_nonneg (G := G) (g := g) hd.le hf hN).eq_or_lt with h0 | h0
  · intro φ _
    refine lintegral_congr fun us => ?_
    rw [afterEvent_idle hd hf hN h0.symm, afterEvent_idle hd' hf' hN' (e.trans h0.symm)]
  · intro φ hφ
    rw [lintegral_afterEvent hd hf hN h0 hn hs hφ, lintegral_afterEvent hd' hf' hN' (e ▸ h0) hn hs hφ, e]
    congr 1
    exact (sum_sameAmounts h hd.le hd'.le hf hf' fun data => ENNReal.ofReal (specTotal G data g) *
      ∫⁻ us, φ (eventOn endless G data g next start us) ∂uniforms).symm

/-! ### Neutrons -/

/-- After a flight. -/
theorem same_landed {w w' : World} (h : WorldsAlike (SameAmounts nodes nodes') w w')
    {method method' : Method} {hit : SurfaceObj → Direction → ℕ → ℝ≥0∞}
    (hh : ∀ s g, Measurable fun d => hit s d g) {n : ℕ} {c c' : Cell} {m m' : Material}
    (hmm : SameAmounts nodes nodes' m m')
    (hd : 0 < m.numberDensity) (hd' : 0 < m'.numberDensity) (hf : ∀ e ∈ m.afracs, 0 ≤ e.2)
    (hf' : ∀ e ∈ m'.afracs, 0 ≤ e.2) (hN : ∀ e ∈ m.afracs, NonnegNodes (nodes e.1))
    (hN' : ∀ e ∈ m'.afracs, NonnegNodes (nodes' e.1)) (hc : c ∈ w.cells) (hc' : c' ∈ w'.cells)
    (hcc : CellsAlike (SameAmounts nodes nodes') c c')
    (ih : ∀ {c c' : Cell}, c ∈ w.cells → c' ∈ w'.cells → CellsAlike (SameAmounts nodes nodes') c c' →
      ∀ (x : Point) (d : Direction) (g : ℕ),
      SameLaw (chainScore endless G nodes w method hit n c x d g)
        (chainScore endless G nodes' w' method' hit n c' x d g))
    (y : Point) (g : ℕ) :
    SameLaw (landed G nodes w method hit n c y m g) (landed G nodes' w' method' hit n c' y m' g) := by
  have mn := measurable_next_us G nodes w method hh n c y
  have ms := measurable_fresh_us G nodes w method hh n y
  have mn' := measurable_next_us G nodes' w' method' hh n c' y
  have ms' := measurable_fresh_us G nodes' w' method' hh n y
  have rid : Rigid id := ⟨fun _ _ _ => rfl, fun _ _ => rfl⟩
  have key := sameLaw_afterEvent (G := G) (nodes := nodes) (g := g) rid hf hN mn mn' ms ms'
    (fun d g => ih hc hc' hcc y d g) fun d g => by
      unfold fresh
      rcases alike_cellAt h y with ⟨k1, k2⟩ | ⟨a, a', k1, k2, ha⟩
      · simp only [k1, k2, Option.elim_none]
        exact sameLaw_refl _
      · simp only [k1, k2, Option.elim_some]
        exact ih (cellAt_mem k1) (cellAt_mem k2) ha y d g
  have key' := same_afterEvent (G := G) (g := g) hmm hd hd' hf hf' hN hN' mn' ms'
  have k1 := sameLaw_drawn method (measurable_afterEvent (G := G) (nodes := nodes) (m := m) (g := g) mn ms)
  have k2 := sameLaw_drawn method'
    (measurable_afterEvent (G := G) (nodes := nodes') (m := m') (g := g) mn' ms')
  exact SameLaw.trans (SameLaw.trans k1 (SameLaw.trans key key')) (SameLaw.symm k2)

/-- Across a surface. -/
theorem same_crossed {w w' : World} (h : WorldsAlike (SameAmounts nodes nodes') w w')
    {method method' : Method} {hit : SurfaceObj → Direction → ℕ → ℝ≥0∞} {n : ℕ} {c c' : Cell}
    (hcc : CellsAlike (SameAmounts nodes nodes') c c')
    (ih : ∀ {c c' : Cell}, c ∈ w.cells → c' ∈ w'.cells → CellsAlike (SameAmounts nodes nodes') c c' →
      ∀ (x : Point) (d : Direction) (g : ℕ),
      SameLaw (chainScore endless G nodes w method hit n c x d g)
        (chainScore endless G nodes' w' method' hit n c' x d g))
    (x : Point) (d : Direction) (g : ℕ) :
    SameLaw
      (fun us => crossed w hit (fun c x d g => chainScore endless G nodes w method hit n c x d g us)
        c x d g)
      (fun us => crossed w' hit
        (fun c x d g => chainScore endless G nodes' w' method' hit n c x d g us) c' x d g) := by
  unfold crossed
  rw [alike_faced hcc, alike_beyond hcc]
  cases faced c x d with
  | none =>
    simp only [Option.elim_none]
    exact sameLaw_refl _
  | some s =>
    rcases alike_cellAt h (beyond c x d) with ⟨k1, k2⟩ | ⟨a, a', k1, k2, ha⟩
    · simp only [k1, k2, Option.elim_some, Option.elim_none]
      exact sameLaw_refl _
    · simp only [k1, k2, Option.elim_some]
      exact sameLaw_add_left (ih (cellAt_mem k1) (cellAt_mem k2) ha _ _ _) _

/-- A neutron and its descendants. -/
theorem same_chain {w w' : World} (hw : WellPosed G nodes w) (hw' : WellPosed G nodes' w')
    (h : WorldsAlike (SameAmounts nodes nodes') w w') (method method' : Method)
    {hit : SurfaceObj → Direction → ℕ → ℝ≥0∞} (hh : ∀ s g, Measurable fun d => hit s d g) (n : ℕ)
    {c c' : Cell} (hc : c ∈ w.cells) (hc' : c' ∈ w'.cells)
    (hcc : CellsAlike (SameAmounts nodes nodes') c c') (x : Point) (d : Direction) (g : ℕ) :
    SameLaw (chainScore endless G nodes w method hit n c x d g)
      (chainScore endless G nodes' w' method' hit n c' x d g) := by
  induction n generalizing c c' x d g with
  | zero => exact sameLaw_refl _
  | succ n ih =>
    rcases hcc.material with ⟨h1, h2⟩ | ⟨m, m', h1, h2, hm⟩
    · have e1 : chainScore endless G nodes w method hit (n + 1) c x d g = fun _ => 0 :=
        funext fun us => chainScore_none h1 us
      have e2 : chainScore endless G nodes' w' method' hit (n + 1) c' x d g = fun _ => 0 :=
        funext fun us => chainScore_none h2 us
      rw [e1, e2]
      exact sameLaw_refl _
    · have hd := hw.density c hc m h1
      have hd' := hw'.density c' hc' m' h2
      have hf : ∀ e ∈ m.afracs, 0 ≤ e.2 := fun e he => (hw.data c hc m h1 e he).1.le
      have hf' : ∀ e ∈ m'.afracs, 0 ≤ e.2 := fun e he => (hw'.data c' hc' m' h2 e he).1.le
      have hN : ∀ e ∈ m.afracs, NonnegNodes (nodes e.1) := fun e he => by
        obtain ⟨_, _, _, _, h, _⟩ := hw.data c hc m h1 e he
        exact h
      have hN' : ∀ e ∈ m'.afracs, NonnegNodes (nodes' e.1) := fun e he => by
        obtain ⟨_, _, _, _, h, _⟩ := hw'.data c' hc' m' h2 e he
        exact h
      have eM := same_macroscopic (G := G) (g := g) hm hd.le hd'.le hf hf' hN hN'
      rw [chainScore_roundFrom h1, chainScore_roundFrom h2]
      refine sameLaw_first
        (F := fun u us => roundFrom G nodes w method hit n c x d m g u us)
        (F' := fun u us => roundFrom G nodes' w' method' hit n c' x d m' g u us)
        (measurable_roundFrom w method hh n c x d m g)
        (measurable_roundFrom w' method' hh n c' x d m' g) ?_
      filter_upwards [ae_fliesTo method method' (macroscopic G nodes g m) (t := ahead c x d)
        fun r hr => ahead_pos hr] with u hu
      unfold roundFrom
      rw [alike_ahead hcc, eM]
      by_cases hfl : FliesTo method (ahead c x d) (-Real.log (1 - u) / macroscopic G nodes g m)
      · simp only [if_pos hfl, if_pos (hu.1 hfl)]
        exact same_crossed h hcc (fun hc hc' hcc x d g => ih hc hc' hcc x d g) x d g
      · simp only [if_neg hfl, if_neg fun k => hfl (hu.2 k)]
        exact same_landed h hh hm hd hd' hf hf' hN hN' hc hc' hcc
          (fun hc hc' hcc x d g => ih hc hc' hcc x d g) _ g

end Minimc
