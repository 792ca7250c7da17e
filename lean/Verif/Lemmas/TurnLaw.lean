import Verif.Lemmas.Law
import Verif.Lemmas.Turn
import Verif.Lemmas.TargetSpeed

/-! # The distribution of scores in problems that are turned or mirrored -/

namespace Minimc

open Classical Spec MeasureTheory
open scoped ENNReal

variable {R : Point → Point}

/-- A direction that is drawn. -/
theorem sameLaw_direction (hR : Rigid R) {next next' : Direction → (ℕ → ℝ) → ℝ≥0∞}
    (hn : Measurable fun q : Direction × (ℕ → ℝ) => next q.1 q.2)
    (hn' : Measurable fun q : Direction × (ℕ → ℝ) => next' q.1 q.2)
    (h : ∀ d, SameLaw (next d) (next' (R d))) :
    SameLaw (fun us => next (directionFrom (us 0) (us 1)) fun k => us (k + 2))
      fun us => next' (directionFrom (us 0) (us 1)) fun k => us (k + 2) := by
  intro φ hφ
  have hm' : Measurable fun d => ∫⁻ us, φ (next' d us) ∂uniforms :=
    (hφ.comp hn').lintegral_prod_right'
  rw [lintegral_directionFrom (F := fun d us => φ (next d us)) (hφ.comp hn),
    lintegral_directionFrom (F := fun d us => φ (next' d us)) (hφ.comp hn'),
    ← sphereMean_rigid hR hm']
  congr 1
  funext d
  exact h d φ hφ

/-- The neutrons of a fission. -/
theorem sameLaw_births (hR : Rigid R) {ws : List ℝ} (hnn : ∀ x ∈ ws, 0 ≤ x)
    {start start' : Direction → ℕ → (ℕ → ℝ) → ℝ≥0∞}
    (hs : ∀ g, Measurable fun q : Direction × (ℕ → ℝ) => start q.1 g q.2)
    (hs' : ∀ g, Measurable fun q : Direction × (ℕ → ℝ) => start' q.1 g q.2)
    (h : ∀ d g, SameLaw (start d g) (start' (R d) g)) (k : ℕ) :
    SameLaw (births endless ws start k) (births endless ws start' k) := by
  induction k with
  | zero => exact sameLaw_refl _
  | succ k ih =>
    have mb := measurable_births' (ws := ws) hs k
    have mb' := measurable_births' (ws := ws) hs' k
    have md : ∀ {start : Direction → ℕ → (ℕ → ℝ) → ℝ≥0∞}
        (_ : ∀ g, Measurable fun q : Direction × (ℕ → ℝ) => start q.1 g q.2) (j : ℕ),
        Measurable fun q : Direction × (ℕ → ℝ) =>
          start q.1 (j + 1) (endless.child q.2) + births endless ws start k (endless.after q.2) :=
      fun hs j => ((hs (j + 1)).comp (measurable_fst.prodMk
        (measurePreserving_child.measurable.comp measurable_snd))).add
        ((measurable_births' (ws := ws) hs k).comp
          (measurePreserving_after.measurable.comp measurable_snd))
    have hdir : ∀ j, SameLaw
        (fun us => start (directionFrom (us 0) (us 1)) (j + 1) (endless.child fun i => us (i + 2)) +
          births endless ws start k (endless.after fun i => us (i + 2)))
        (fun us => start' (directionFrom (us 0) (us 1)) (j + 1) (endless.child fun i => us (i + 2)) +
          births endless ws start' k (endless.after fun i => us (i + 2))) := by
      intro j
      refine sameLaw_direction hR
        (next := fun d us => start d (j + 1) (endless.child us) + births endless ws start k (endless.after us))
        (next' := fun d us =>
          start' d (j + 1) (endless.child us) + births endless ws start' k (endless.after us))
        (md hs j) (md hs' j) fun d => ?_
      exact sameLaw_split ((hs (j + 1)).comp (measurable_const.prodMk measurable_id))
        ((hs' (j + 1)).comp (measurable_const.prodMk measurable_id)) mb mb' (h d (j + 1)) ih
    have mdir : ∀ {start : Direction → ℕ → (ℕ → ℝ) → ℝ≥0∞}
        (_ : ∀ g, Measurable fun q : Direction × (ℕ → ℝ) => start q.1 g q.2) (j : ℕ),
        Measurable fun us : ℕ → ℝ =>
          start (directionFrom (us 0) (us 1)) (j + 1) (endless.child fun i => us (i + 2)) +
            births endless ws start k (endless.after fun i => us (i + 2)) :=
      fun hs j => (md hs j).comp (f := fun us : ℕ → ℝ => (directionFrom (us 0) (us 1), fun i => us (i + 2)))
        ((measurable_directionFrom (measurable_pi_apply 0) (measurable_pi_apply 1)).prodMk
          (measurable_shift measurable_id 2))
    have key := sameLaw_choice hnn (mdir hs) (mdir hs') fun j _ => hdir j
    have e : ∀ start : Direction → ℕ → (ℕ → ℝ) → ℝ≥0∞, births endless ws start (k + 1) = fun us =>
        byWeight ws (us 0) fun j => start (directionFrom (us (0 + 1)) (us (1 + 1))) (j + 1)
          (endless.child fun i => us (i + 2 + 1)) +
            births endless ws start k (endless.after fun i => us (i + 2 + 1)) := by
      intro start
      funext us
      simp only [births, endless_numbers, endless_rest, endless_number]
    rw [e, e]
    exact key

variable {G : ℕ} {nodes : Nuclide → List MgNode}

/-- A collision. -/
theorem sameLaw_afterEvent (hR : Rigid R) {m : Material} {g : ℕ} (hf : ∀ e ∈ m.afracs, 0 ≤ e.2)
    (hN : ∀ e ∈ m.afracs, NonnegNodes (nodes e.1))
    {next next' start start' : Direction → ℕ → (ℕ → ℝ) → ℝ≥0∞}
    (hn : ∀ g, Measurable fun q : Direction × (ℕ → ℝ) => next q.1 g q.2)
    (hn' : ∀ g, Measurable fun q : Direction × (ℕ → ℝ) => next' q.1 g q.2)
    (hs : ∀ g, Measurable fun q : Direction × (ℕ → ℝ) => start q.1 g q.2)
    (hs' : ∀ g, Measurable fun q : Direction × (ℕ → ℝ) => start' q.1 g q.2)
    (h : ∀ d g, SameLaw (next d g) (next' (R d) g))
    (h' : ∀ d g, SameLaw (start d g) (start' (R d) g)) :
    SameLaw (afterEvent endless G nodes m g next start) (afterEvent endless G nodes m g next' start') := by
  -- what happens after the reaction is chosen
  let react (next start : Direction → ℕ → (ℕ → ℝ) → ℝ≥0∞) (e : Nuclide × ℝ) (r : ℕ) (us : ℕ → ℝ) : ℝ≥0∞ :=
    if r = 1 then
      byWeight (colEntries G (scatterTable (nodes e.1)) g) (us 0) fun j =>
        next (directionFrom (us 1) (us 2)) (j + 1) fun k => us (k + 3)
    else if r = 2 then
      births endless (colEntries G (chiTable (nodes e.1)) g) start
        ⌊entry1 (nubarTable (nodes e.1)) g + us 0⌋₊ fun k => us (k + 1)
    else 0
  have mscatter : ∀ {next : Direction → ℕ → (ℕ → ℝ) → ℝ≥0∞}
      (_ : ∀ g, Measurable fun q : Direction × (ℕ → ℝ) => next q.1 g q.2) (j : ℕ),
      Measurable fun us : ℕ → ℝ => next (directionFrom (us 0) (us 1)) (j + 1) fun k => us (k + 2) :=
    fun hn j => (hn (j + 1)).comp
      (f := fun us : ℕ → ℝ => (directionFrom (us 0) (us 1), fun i => us (i + 2)))
      ((measurable_directionFrom (measurable_pi_apply 0) (measurable_pi_apply 1)).prodMk
        (measurable_shift measurable_id 2))
  have mbirth : ∀ {start : Direction → ℕ → (ℕ → ℝ) → ℝ≥0∞}
      (_ : ∀ g, Measurable fun q : Direction × (ℕ → ℝ) => start q.1 g q.2) (ws : List ℝ) (ν : ℝ),
      Measurable fun q : ℝ × (ℕ → ℝ) => births endless ws start ⌊ν + q.1⌋₊ q.2 := by
    intro start hs ws ν
    have hb : Measurable fun q : (ℝ × (ℕ → ℝ)) × ℕ => births endless ws start q.2 q.1.2 :=
      measurable_from_prod_countable_left fun k => (measurable_births' (ws := ws) hs k).comp measurable_snd
    exact hb.comp (measurable_id.prodMk (Nat.measurable_floor.comp (measurable_const.add measurable_fst)))
  have mreact : ∀ {next start : Direction → ℕ → (ℕ → ℝ) → ℝ≥0∞}
      (_ : ∀ g, Measurable fun q : Direction × (ℕ → ℝ) => next q.1 g q.2)
      (_ : ∀ g, Measurable fun q : Direction × (ℕ → ℝ) => start q.1 g q.2) (e : Nuclide × ℝ) (r : ℕ),
      Measurable (react next start e r) := by
    intro next start hn hs e r
    dsimp only [react]
    split_ifs
    · exact measurable_byWeight _ (measurable_pi_apply 0) fun j =>
        (mscatter hn j).comp (measurable_shift measurable_id 1)
    · exact (mbirth hs _ _).comp (f := fun us : ℕ → ℝ => (us 0, fun k => us (k + 1)))
        ((measurable_pi_apply 0).prodMk (measurable_shift measurable_id 1))
    · exact measurable_const
  have hreact : ∀ e ∈ m.afracs, ∀ r, SameLaw (react next start e r) (react next' start' e r) := by
    intro e he r
    dsimp only [react]
    split_ifs
    · exact sameLaw_choice (colEntries_nonneg (scatterTable_nonneg (hN e he)) G g) (mscatter hn) (mscatter hn')
        fun j _ => sameLaw_direction hR (next := fun d us => next d (j + 1) us)
          (next' := fun d us => next' d (j + 1) us) (hn (j + 1)) (hn' (j + 1)) fun d => h d (j + 1)
    · exact sameLaw_first
        (F := fun u us => births endless (colEntries G (chiTable (nodes e.1)) g) start
          ⌊entry1 (nubarTable (nodes e.1)) g + u⌋₊ us)
        (F' := fun u us => births endless (colEntries G (chiTable (nodes e.1)) g) start'
          ⌊entry1 (nubarTable (nodes e.1)) g + u⌋₊ us)
        (mbirth hs _ _) (mbirth hs' _ _) (Filter.Eventually.of_forall fun u =>
        sameLaw_births hR (colEntries_nonneg (chiTable_nonneg (hN e he)) G g) hs hs' h' _)
    · exact sameLaw_refl _
  -- the reaction
  let choose (next start : Direction → ℕ → (ℕ → ℝ) → ℝ≥0∞) (i : ℕ) (us : ℕ → ℝ) : ℝ≥0∞ :=
    m.afracs[i]?.elim 0 fun e => byWeight [specXS G (nodes e.1) .capture g,
      specXS G (nodes e.1) .scatter g, specXS G (nodes e.1) .fission g] (us 0) fun r =>
        react next start e r fun k => us (k + 1)
  have mchoose : ∀ {next start : Direction → ℕ → (ℕ → ℝ) → ℝ≥0∞}
      (_ : ∀ g, Measurable fun q : Direction × (ℕ → ℝ) => next q.1 g q.2)
      (_ : ∀ g, Measurable fun q : Direction × (ℕ → ℝ) => start q.1 g q.2) (i : ℕ),
      Measurable (choose next start i) := by
    intro next start hn hs i
    dsimp only [choose]
    cases m.afracs[i]? with
    | none => exact measurable_const
    | some e => exact measurable_byWeight _ (measurable_pi_apply 0) fun r =>
        (mreact hn hs e r).comp (measurable_shift measurable_id 1)
  have hchoose : ∀ i, SameLaw (choose next start i) (choose next' start' i) := by
    intro i
    dsimp only [choose]
    cases hi : m.afracs[i]? with
    | none => exact sameLaw_refl _
    | some e =>
      have he := List.mem_of_getElem? hi
      exact sameLaw_choice (reactions_nonneg (hN e he)) (mreact hn hs e) (mreact hn' hs' e)
        fun r _ => hreact e he r
  have key := sameLaw_choice (weights_nonneg (G := G) (g := g) hf hN) (mchoose hn hs) (mchoose hn' hs')
    fun i _ => hchoose i
  have e : ∀ next start : Direction → ℕ → (ℕ → ℝ) → ℝ≥0∞, afterEvent endless G nodes m g next start =
      fun us => byWeight (m.afracs.map fun e => e.2 * specTotal G (nodes e.1) g) (us 0) fun i =>
        choose next start i fun k => us (k + 1) := by
    intro next start
    funext us
    simp only [afterEvent, endless_numbers, endless_rest]
    rfl
  rw [e, e]
  exact key

/-- The two methods differ only for flights of one length. -/
theorem ae_fliesTo (method method' : Method) (M : ℝ) {t : WithTop ℝ} (ht : ∀ r : ℝ, t = r → 0 < r) :
    ∀ᵐ u ∂uniform, FliesTo method t (-Real.log (1 - u) / M) ↔ FliesTo method' t (-Real.log (1 - u) / M) := by
  induction t using WithTop.recTopCoe with
  | top =>
    refine Filter.Eventually.of_forall fun u => ?_
    cases method <;> cases method' <;> simp [FliesTo]
  | coe r =>
    have hr := ht r rfl
    have h1 : ∀ᵐ u ∂uniform, u ∉ ({1 - Real.exp (-(r * M))} : Set ℝ) :=
      ae_restrict_of_ae ((Set.countable_singleton _).ae_notMem volume)
    filter_upwards [h1, ae_uniform] with u hu hu01
    have hne : r ≠ -Real.log (1 - u) / M := by
      intro h
      have hM : M ≠ 0 := by
        rintro rfl
        rw [div_zero] at h
        exact hr.ne' h
      refine hu ?_
      have h2 : Real.log (1 - u) = -(r * M) := by
        rw [h]
        field_simp
      have h3 : 1 - u = Real.exp (-(r * M)) := by
        rw [← h2, Real.exp_log (by linarith [hu01.2])]
      exact (by linarith : u = 1 - Real.exp (-(r * M)))
    have e : (r : WithTop ℝ) < ((-Real.log (1 - u) / M : ℝ) : WithTop ℝ) ↔
        (r : WithTop ℝ) ≤ ((-Real.log (1 - u) / M : ℝ) : WithTop ℝ) := by
      rw [WithTop.coe_lt_coe, WithTop.coe_le_coe]
      exact ⟨le_of_lt, fun h => lt_of_le_of_ne h hne⟩
    cases method <;> cases method' <;> simp only [FliesTo, e]

theorem measurable_afterEvent {m : Material} {g : ℕ} {next start : Direction → ℕ → (ℕ → ℝ) → ℝ≥0∞}
    (hn : ∀ g, Measurable fun q : Direction × (ℕ → ℝ) => next q.1 g q.2)
    (hs : ∀ g, Measurable fun q : Direction × (ℕ → ℝ) => start q.1 g q.2) :
    Measurable (afterEvent endless G nodes m g next start) := by
  have e : afterEvent endless G nodes m g next start = fun us =>
      afterCollision G nodes m g next us + afterFission G nodes m g start us :=
    funext fun us => afterEvent_eq G nodes m g next start us
  rw [e]
  exact (measurable_afterCollision (α := ℕ → ℝ) G nodes m g (next := fun _ => next)
    (fun g' => (hn g').comp measurable_snd) measurable_id).add
    (measurable_afterFission (α := ℕ → ℝ) G nodes m g (start := fun _ => start)
      (fun g' => (hs g').comp measurable_snd) measurable_id)

theorem sameLaw_drawn (method : Method) {f : (ℕ → ℝ) → ℝ≥0∞} (hf : Measurable f) :
    SameLaw (fun us => f fun k => us (k + (drawnBefore method - 1))) f := by
  cases method
  · exact sameLaw_refl _
  · exact sameLaw_skip hf

/-- After a flight. -/
theorem sameLaw_landed (hR : Rigid R) {w : World} (ht : ∀ c ∈ w.cells, CanTurn R c)
    {method method' : Method}
    {hit hit' : SurfaceObj → Direction → ℕ → ℝ≥0∞} (hh : ∀ s g, Measurable fun d => hit s d g)
    (hh' : ∀ s g, Measurable fun d => hit' s d g) {n : ℕ} {c : Cell} {m : Material}
    (hf : ∀ e ∈ m.afracs, 0 ≤ e.2) (hN : ∀ e ∈ m.afracs, NonnegNodes (nodes e.1)) (hc : c ∈ w.cells)
    (ih : ∀ {c : Cell}, c ∈ w.cells → ∀ (x : Point) (d : Direction) (g : ℕ),
      SameLaw (chainScore endless G nodes w method hit n c x d g)
        (chainScore endless G nodes (turnWorld R w) method' hit' n (turnCell R c) (R x) (R d) g))
    (y : Point) (g : ℕ) :
    SameLaw (landed G nodes w method hit n c y m g)
      (landed G nodes (turnWorld R w) method' hit' n (turnCell R c) (R y) m g) := by
  have mn := measurable_next_us G nodes w method hh n c y
  have ms := measurable_fresh_us G nodes w method hh n y
  have mn' := measurable_next_us G nodes (turnWorld R w) method' hh' n (turnCell R c) (R y)
  have ms' := measurable_fresh_us G nodes (turnWorld R w) method' hh' n (R y)
  have key := sameLaw_afterEvent (G := G) (nodes := nodes) (g := g) hR hf hN mn mn' ms ms'
    (fun d g => ih hc y d g) fun d g => by
      unfold fresh
      rw [turn_cellAt hR ht]
      cases hcl : cellAt w y with
      | none =>
        simp only [Option.map_none, Option.elim_none]
        exact sameLaw_refl _
      | some c' => exact ih (cellAt_mem hcl) y d g
  have k1 := sameLaw_drawn method (measurable_afterEvent (G := G) (nodes := nodes) (m := m) (g := g) mn ms)
  have k2 := sameLaw_drawn method' (measurable_afterEvent (G := G) (nodes := nodes) (m := m) (g := g) mn' ms')
  exact SameLaw.trans (SameLaw.trans k1 key) (SameLaw.symm k2)

/-- One round, with its first number apart. -/
noncomputable def roundFrom (G : ℕ) (nodes : Nuclide → List MgNode) (w : World) (method : Method)
    (hit : SurfaceObj → Direction → ℕ → ℝ≥0∞) (n : ℕ) (c : Cell) (x : Point) (d : Direction)
    (m : Material) (g : ℕ) (u : ℝ) (us : ℕ → ℝ) : ℝ≥0∞ :=
  if FliesTo method (ahead c x d) (-Real.log (1 - u) / macroscopic G nodes g m) then
    crossed w hit (fun c x d g => chainScore endless G nodes w method hit n c x d g us) c x d g
  else landed G nodes w method hit n c (along x d (-Real.log (1 - u) / macroscopic G nodes g m)) m g us

theorem measurable_roundFrom (w : World) (method : Method) {hit : SurfaceObj → Direction → ℕ → ℝ≥0∞}
    (hh : ∀ s g, Measurable fun d => hit s d g) (n : ℕ) (c : Cell) (x : Point) (d : Direction)
    (m : Material) (g : ℕ) :
    Measurable fun q : ℝ × (ℕ → ℝ) => roundFrom G nodes w method hit n c x d m g q.1 q.2 := by
  have mA := measurable_crossed (w := w) (hit := hit) (c := c) (x := x) (d := d) (g := g)
    (E := fun us c x d g => chainScore endless G nodes w method hit n c x d g us)
    fun c x => measurable_chainScore_us G nodes w method hh n c x d g
  have mB := measurable_landed G nodes w method hh n c x d m g
  have hl : Measurable fun q : ℝ × (ℕ → ℝ) => -Real.log (1 - q.1) / macroscopic G nodes g m := by
    fun_prop
  unfold roundFrom
  exact @Measurable.ite _ _ _ _ _ _ _ (fun _ => propDecidable _)
    (measurableSet_reaches' method (t := fun _ => ahead c x d) measurable_const hl)
    (mA.comp measurable_snd)
    (mB.comp (f := fun q : ℝ × (ℕ → ℝ) => (-Real.log (1 - q.1) / macroscopic G nodes g m, q.2))
      (hl.prodMk measurable_snd))

theorem chainScore_roundFrom {w : World} {method : Method} {hit : SurfaceObj → Direction → ℕ → ℝ≥0∞}
    {n : ℕ} {c : Cell} {x : Point} {d : Direction} {g : ℕ} {m : Material} (hm : c.material = some m) :
    chainScore endless G nodes w method hit (n + 1) c x d g = fun us =>
      roundFrom G nodes w method hit n c x d m g (us 0) fun k => us (k + 1) :=
  funext fun us => chainScore_landed hm us

/-- Across a surface. -/
theorem sameLaw_crossed (hR : Rigid R) {w : World} (ht : ∀ c ∈ w.cells, CanTurn R c)
    {method method' : Method} {hit hit' : SurfaceObj → Direction → ℕ → ℝ≥0∞}
    (he : ∀ s d g, hit' (turnSurface R s) (R d) g = hit s d g) {n : ℕ} {c : Cell} (hc : c ∈ w.cells)
    (ih : ∀ {c : Cell}, c ∈ w.cells → ∀ (x : Point) (d : Direction) (g : ℕ),
      SameLaw (chainScore endless G nodes w method hit n c x d g)
        (chainScore endless G nodes (turnWorld R w) method' hit' n (turnCell R c) (R x) (R d) g))
    (x : Point) (d : Direction) (g : ℕ) :
    SameLaw
      (fun us => crossed w hit (fun c x d g => chainScore endless G nodes w method hit n c x d g us)
        c x d g)
      (fun us => crossed (turnWorld R w) hit'
        (fun c x d g => chainScore endless G nodes (turnWorld R w) method' hit' n c x d g us)
        (turnCell R c) (R x) (R d) g) := by
  unfold crossed
  rw [turn_faced hR (ht c hc), turn_beyond hR (ht c hc), turn_cellAt hR ht]
  cases faced c x d with
  | none =>
    simp only [Option.map_none, Option.elim_none]
    exact sameLaw_refl _
  | some s =>
    cases hcl : cellAt w (beyond c x d) with
    | none =>
      simp only [Option.map_some, Option.map_none, Option.elim_some, Option.elim_none]
      exact sameLaw_refl _
    | some c' =>
      simp only [Option.map_some, Option.elim_some, he]
      exact sameLaw_add_left (ih (cellAt_mem hcl) _ _ _) _

/-- A neutron and its descendants in a problem that is turned. -/
theorem sameLaw_chain (hR : Rigid R) {w : World} (hw : WellPosed G nodes w)
    (ht : ∀ c ∈ w.cells, CanTurn R c) (method method' : Method)
    {hit hit' : SurfaceObj → Direction → ℕ → ℝ≥0∞} (hh : ∀ s g, Measurable fun d => hit s d g)
    (hh' : ∀ s g, Measurable fun d => hit' s d g)
    (he : ∀ s d g, hit' (turnSurface R s) (R d) g = hit s d g) (n : ℕ) {c : Cell} (hc : c ∈ w.cells)
    (x : Point) (d : Direction) (g : ℕ) :
    SameLaw (chainScore endless G nodes w method hit n c x d g)
      (chainScore endless G nodes (turnWorld R w) method' hit' n (turnCell R c) (R x) (R d) g) := by
  induction n generalizing c x d g with
  | zero => exact sameLaw_refl _
  | succ n ih =>
    cases hm : c.material with
    | none =>
      have hm' : (turnCell R c).material = none := hm
      have e1 : chainScore endless G nodes w method hit (n + 1) c x d g = fun _ => 0 :=
        funext fun us => chainScore_none hm us
      have e2 : chainScore endless G nodes (turnWorld R w) method' hit' (n + 1) (turnCell R c) (R x)
          (R d) g = fun _ => 0 := funext fun us => chainScore_none hm' us
      rw [e1, e2]
      exact sameLaw_refl _
    | some m =>
      have hm' : (turnCell R c).material = some m := hm
      have hf : ∀ e ∈ m.afracs, 0 ≤ e.2 := fun e he => (hw.data c hc m hm e he).1.le
      have hNN : ∀ e ∈ m.afracs, NonnegNodes (nodes e.1) := fun e he => by
        obtain ⟨_, _, _, _, h, _⟩ := hw.data c hc m hm e he
        exact h
      rw [chainScore_roundFrom hm, chainScore_roundFrom hm']
      refine sameLaw_first
        (F := fun u us => roundFrom G nodes w method hit n c x d m g u us)
        (F' := fun u us => roundFrom G nodes (turnWorld R w) method' hit' n (turnCell R c) (R x) (R d) m g u us)
        (measurable_roundFrom w method hh n c x d m g)
        (measurable_roundFrom (turnWorld R w) method' hh' n (turnCell R c) (R x) (R d) m g) ?_
      filter_upwards [ae_fliesTo method method' (macroscopic G nodes g m) (t := ahead c x d)
        fun r hr => ahead_pos hr] with u hu
      unfold roundFrom
      rw [turn_ahead hR (ht c hc)]
      by_cases hfl : FliesTo method (ahead c x d) (-Real.log (1 - u) / macroscopic G nodes g m)
      · simp only [if_pos hfl, if_pos (hu.1 hfl)]
        exact sameLaw_crossed hR ht he hc (fun hc x d g => ih hc x d g) x d g
      · simp only [if_neg hfl, if_neg fun k => hfl (hu.2 k), ← hR.straight]
        exact sameLaw_landed hR ht hh hh' hf hNN hc (fun hc x d g => ih hc x d g) _ g

/-- In all rounds. -/
theorem sameLaw_chain_all (hR : Rigid R) {w : World} (hw : WellPosed G nodes w)
    (ht : ∀ c ∈ w.cells, CanTurn R c) (method method' : Method)
    {hit hit' : SurfaceObj → Direction → ℕ → ℝ≥0∞} (hh : ∀ s g, Measurable fun d => hit s d g)
    (hh' : ∀ s g, Measurable fun d => hit' s d g)
    (he : ∀ s d g, hit' (turnSurface R s) (R d) g = hit s d g) {c : Cell} (hc : c ∈ w.cells)
    (x : Point) (d : Direction) (g : ℕ) :
    SameLaw (fun us => ⨆ n, chainScore endless G nodes w method hit n c x d g us)
      fun us => ⨆ n, chainScore endless G nodes (turnWorld R w) method' hit' n (turnCell R c) (R x)
        (R d) g us :=
  sameLaw_iSup (fun n => measurable_chainScore_us G nodes w method hh n c x d g)
    (fun n => measurable_chainScore_us G nodes (turnWorld R w) method' hh' n _ _ _ g)
    (fun _ _ h us => chainScore_monotone c x d g us h) (fun _ _ h us => chainScore_monotone _ _ _ g us h)
    fun n => sameLaw_chain hR hw ht method method' hh hh' he n hc x d g

end Minimc
