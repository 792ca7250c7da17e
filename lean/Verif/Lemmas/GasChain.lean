import Verif.Lemmas.GasAlike
import Verif.Lemmas.GasLimit
import Verif.Lemmas.TurnSource

/-! # The same gases in another place: chains of neutrons -/

namespace Minimc

open Classical Spec MeasureTheory Props
open scoped ENNReal

variable {R : Point → Point} {a b a' b' : Direction → Direction} {data data' : Nuclide → Continuous}
  {w w' : World} {c c' : Cell}

/-! ### Places -/

theorem gases_inCell (hR : Rigid R) (ht : CanTurn R c) (h : GasCellsAlike R data data' c c') (x : Point) :
    InCell c' (R x) ↔ InCell c x :=
  (alike_inCell h.matter (R x)).trans (turn_inCell hR ht x)

theorem gases_ahead (hR : Rigid R) (ht : CanTurn R c) (h : GasCellsAlike R data data' c c') (x : Point)
    (d : Direction) : ahead c' (R x) (R d) = ahead c x d :=
  (alike_ahead h.matter _ _).trans (turn_ahead hR ht x d)

theorem gases_faced (hR : Rigid R) (ht : CanTurn R c) (h : GasCellsAlike R data data' c c') (x : Point)
    (d : Direction) : faced c' (R x) (R d) = (faced c x d).map (turnSurface R) :=
  (alike_faced h.matter _ _).trans (turn_faced hR ht x d)

theorem gases_beyond (hR : Rigid R) (ht : CanTurn R c) (h : GasCellsAlike R data data' c c') (x : Point)
    (d : Direction) : beyond c' (R x) (R d) = R (beyond c x d) :=
  (alike_beyond h.matter _ _).trans (turn_beyond hR ht x d)

theorem gases_find (hR : Rigid R) (x : Point) {l l' : List Cell} (ht : ∀ c ∈ l, CanTurn R c)
    (h : List.Forall₂ (GasCellsAlike R data data') l l') :
    ((l.find? fun c => decide (InCell c x)) = none ∧
      (l'.find? fun c => decide (InCell c (R x))) = none) ∨
      ∃ c c', (l.find? fun c => decide (InCell c x)) = some c ∧
        (l'.find? fun c => decide (InCell c (R x))) = some c' ∧ GasCellsAlike R data data' c c' := by
  induction h with
  | nil => exact Or.inl ⟨rfl, rfl⟩
  | @cons c c' l l' hc _ ih =>
    by_cases hx : InCell c x
    · have hx' := (gases_inCell hR (ht c (by simp)) hc x).2 hx
      exact Or.inr ⟨c, c', by simp [hx], by simp [hx'], hc⟩
    · have hx' : ¬ InCell c' (R x) := fun k => hx ((gases_inCell hR (ht c (by simp)) hc x).1 k)
      simpa [List.find?_cons, hx, hx'] using ih fun c hc => ht c (by simp [hc])

theorem gases_cellAt (hR : Rigid R) (ht : ∀ c ∈ w.cells, CanTurn R c) (h : GasesAlike R data data' w w')
    (x : Point) : (cellAt w x = none ∧ cellAt w' (R x) = none) ∨
      ∃ c c', cellAt w x = some c ∧ cellAt w' (R x) = some c' ∧ GasCellsAlike R data data' c c' :=
  gases_find hR x ht h

theorem gases_heat (h : GasCellsAlike R data data' c c') (hm : c.material ≠ none) : heat c' = heat c := by
  unfold heat
  rw [h.temperature hm]

/-! ### One round -/

section
variable {method method' : Method} {hit hit' : SurfaceObj → Direction → ℝ → ℝ≥0∞}

theorem measurable_gasScore_from (h : Frames a b) (hh : ∀ s, Measurable fun q : Direction × ℝ => hit s q.1 q.2)
    (n : ℕ) (c : Cell) (y : Point) : Measurable fun q : Direction × ℝ × (ℕ → ℝ) =>
      gasScore endless a b data w method hit n c y q.1 q.2.1 q.2.2 :=
  (measurable_gasScore h data w method hh n c).comp (measurable_const.prodMk measurable_id)

theorem measurable_gasScore_us (h : Frames a b) (hh : ∀ s, Measurable fun q : Direction × ℝ => hit s q.1 q.2)
    (n : ℕ) (c : Cell) (y : Point) (d : Direction) (e : ℝ) :
    Measurable (gasScore endless a b data w method hit n c y d e) :=
  (measurable_gasScore h data w method hh n c).comp
    (measurable_const.prodMk (measurable_const.prodMk (measurable_const.prodMk measurable_id)))

theorem measurable_beginning (h : Frames a b) (hh : ∀ s, Measurable fun q : Direction × ℝ => hit s q.1 q.2)
    (n : ℕ) (y : Point) : Measurable fun q : Direction × ℝ × (ℕ → ℝ) =>
      beginning w (gasScore endless a b data w method hit n) y q.1 q.2.1 q.2.2 := by
  unfold beginning
  cases cellAt w y with
  | none => exact measurable_const
  | some c' => exact measurable_gasScore_from h hh n c' y

/-- After a flight in a gas. -/
noncomputable def gasLanded (a b : Direction → Direction) (data : Nuclide → Continuous) (w : World)
    (method : Method) (hit : SurfaceObj → Direction → ℝ → ℝ≥0∞) (n : ℕ) (c : Cell) (m : Material)
    (d : Direction) (e : ℝ) (y : Point) (us : ℕ → ℝ) : ℝ≥0∞ :=
  afterGas endless a b data m (heat c) d e (gasScore endless a b data w method hit n c y)
    (beginning w (gasScore endless a b data w method hit n) y)
    fun k => us (k + (drawnBefore method - 1))

/-- One round in a gas, with its first number apart. -/
noncomputable def gasFirst (a b : Direction → Direction) (data : Nuclide → Continuous) (w : World)
    (method : Method) (hit : SurfaceObj → Direction → ℝ → ℝ≥0∞) (n : ℕ) (c : Cell) (x : Point)
    (d : Direction) (m : Material) (e : ℝ) (u : ℝ) (us : ℕ → ℝ) : ℝ≥0∞ :=
  if FliesTo method (ahead c x d) (-Real.log (1 - u) / collisionRate data m (heat c) e) then
    gasCrossed w hit (fun c x d e => gasScore endless a b data w method hit n c x d e us) c x d e
  else gasLanded a b data w method hit n c m d e
    (along x d (-Real.log (1 - u) / collisionRate data m (heat c) e)) us

theorem gasScore_first {n : ℕ} {x : Point} {d : Direction} {e : ℝ} {m : Material}
    (hm : c.material = some m) : gasScore endless a b data w method hit (n + 1) c x d e = fun us =>
      gasFirst a b data w method hit n c x d m e (us 0) fun k => us (k + 1) := by
  funext us
  rw [gasScore_succ hm]
  simp only [endless_rest, endless_number]
  cases method <;> rfl

theorem measurable_gasFirst (h : Frames a b) (hh : ∀ s, Measurable fun q : Direction × ℝ => hit s q.1 q.2)
    (n : ℕ) (c : Cell) (x : Point) (d : Direction) (m : Material) (e : ℝ) :
    Measurable fun q : ℝ × (ℕ → ℝ) => gasFirst a b data w method hit n c x d m e q.1 q.2 := by
  have mA := measurable_gasCrossed (w := w) (hit := hit) (c := c) (x := x) (d := d) (e := e)
    (E := fun us c x d e => gasScore endless a b data w method hit n c x d e us)
    fun c x => measurable_gasScore_us h hh n c x d e
  have hal : Measurable fun q : (ℝ × (ℕ → ℝ)) × Direction × ℝ × (ℕ → ℝ) => along x d q.1.1 :=
    Measurable.along measurable_const measurable_const (by fun_prop)
  have mB : Measurable fun q : ℝ × (ℕ → ℝ) =>
      gasLanded a b data w method hit n c m d e (along x d q.1) q.2 := by
    refine measurable_afterGas h data m (heat c)
      (next := fun q : ℝ × (ℕ → ℝ) => gasScore endless a b data w method hit n c (along x d q.1))
      (start := fun q : ℝ × (ℕ → ℝ) => beginning w (gasScore endless a b data w method hit n)
        (along x d q.1)) ?_ ?_ measurable_const measurable_const (measurable_shift measurable_snd _)
    · exact (measurable_gasScore h data w method hh n c).comp (hal.prodMk measurable_snd)
    · exact measurable_cellAt w hal fun c' _ =>
        (measurable_gasScore h data w method hh n c').comp (hal.prodMk measurable_snd)
  have hl : Measurable fun q : ℝ × (ℕ → ℝ) => -Real.log (1 - q.1) / collisionRate data m (heat c) e := by
    fun_prop
  exact @Measurable.ite _ _ _ _ _ _ _ (fun _ => propDecidable _)
    (measurableSet_reaches' method (t := fun _ => ahead c x d) measurable_const hl)
    (mA.comp measurable_snd) (mB.comp (hl.prodMk measurable_snd))

/-- Across a surface. -/
theorem same_gasCrossed (hR : Rigid R) (ht : ∀ c ∈ w.cells, CanTurn R c)
    (hww : GasesAlike R data data' w w') (he : ∀ s d e, hit' (turnSurface R s) (R d) e = hit s d e) {n : ℕ}
    (hc : c ∈ w.cells) (hcc : GasCellsAlike R data data' c c') (x : Point) {d : Direction} {e : ℝ}
    (ih : ∀ {c c' : Cell}, c ∈ w.cells → c' ∈ w'.cells → GasCellsAlike R data data' c c' → ∀ x : Point,
      SameLaw (gasScore endless a b data w method hit n c x d e)
        (gasScore endless a' b' data' w' method' hit' n c' (R x) (R d) e)) :
    SameLaw
      (fun us => gasCrossed w hit (fun c x d e => gasScore endless a b data w method hit n c x d e us)
        c x d e)
      (fun us => gasCrossed w' hit' (fun c x d e => gasScore endless a' b' data' w' method' hit' n c x d e us)
        c' (R x) (R d) e) := by
  unfold gasCrossed
  rw [gases_faced hR (ht c hc) hcc, gases_beyond hR (ht c hc) hcc]
  cases faced c x d with
  | none =>
    simp only [Option.map_none, Option.elim_none]
    exact sameLaw_refl _
  | some s =>
    rcases gases_cellAt hR ht hww (beyond c x d) with ⟨k1, k2⟩ | ⟨q, q', k1, k2, hq⟩
    · simp only [k1, k2, Option.map_some, Option.elim_some, Option.elim_none]
      exact sameLaw_refl _
    · simp only [k1, k2, Option.map_some, Option.elim_some, he]
      exact sameLaw_add_left (ih (cellAt_mem k1) (cellAt_mem k2) hq _) _

/-- After a flight. -/
theorem same_gasLanded (hR : Rigid R) (h : Frames a b) (h' : Frames a' b') (hw : GasWorld data w)
    (hw' : GasWorld data' w') (hww : GasesAlike R data data' w w') (ht : ∀ c ∈ w.cells, CanTurn R c)
    (hh : ∀ s, Measurable fun q : Direction × ℝ => hit s q.1 q.2)
    (hh' : ∀ s, Measurable fun q : Direction × ℝ => hit' s q.1 q.2) {n : ℕ} (hc : c ∈ w.cells)
    (hc' : c' ∈ w'.cells) (hcc : GasCellsAlike R data data' c c') {m m' : Material}
    (hm : c.material = some m) (hm' : c'.material = some m') (hmm : SameGas data data' m m')
    {d : Direction} (hd : UnitVec d) {e : ℝ} (he : 0 < e)
    (ih : ∀ {c c' : Cell}, c ∈ w.cells → c' ∈ w'.cells → GasCellsAlike R data data' c c' →
      ∀ (x : Point) (d : Direction) (e : ℝ), UnitVec d → 0 < e →
      SameLaw (gasScore endless a b data w method hit n c x d e)
        (gasScore endless a' b' data' w' method' hit' n c' (R x) (R d) e)) (y : Point) :
    SameLaw (gasLanded a b data w method hit n c m d e y)
      (gasLanded a' b' data' w' method' hit' n c' m' (R d) e (R y)) := by
  have hq : c.material ≠ none := by simp [hm]
  have mn := measurable_gasScore_from (data := data) (w := w) (method := method) h hh n c y
  have ms := measurable_beginning (data := data) (w := w) (method := method) h hh n y
  have mn' := measurable_gasScore_from (data := data') (w := w') (method := method') h' hh' n c' (R y)
  have ms' := measurable_beginning (data := data') (w := w') (method := method') h' hh' n (R y)
  have hr := reacting hw hc hm he
  have hr' := reacting hw' hc' hm' he
  rw [gases_heat hcc hq] at hr'
  have key := same_afterGas hR h h' hmm hr hr' (hw.temperature hc hm).1 he hd mn mn' ms ms'
    (fun d e hd he => ih hc hc' hcc y d e hd he) fun d e hd he => by
      unfold beginning
      rcases gases_cellAt hR ht hww y with ⟨k1, k2⟩ | ⟨q, q', k1, k2, hqq⟩
      · simp only [k1, k2, Option.elim_none]
        exact sameLaw_refl _
      · simp only [k1, k2, Option.elim_some]
        exact ih (cellAt_mem k1) (cellAt_mem k2) hqq y d e hd he
  have k1 := sameLaw_drawn method (measurable_afterGas (α := ℕ → ℝ) h data m (heat c) (d := fun _ => d)
    (e := fun _ => e) (next := fun _ => gasScore endless a b data w method hit n c y)
    (start := fun _ => beginning w (gasScore endless a b data w method hit n) y)
    (mn.comp measurable_snd) (ms.comp measurable_snd) measurable_const measurable_const measurable_id)
  have k2 := sameLaw_drawn method' (measurable_afterGas (α := ℕ → ℝ) h' data' m' (heat c) (d := fun _ => R d)
    (e := fun _ => e) (next := fun _ => gasScore endless a' b' data' w' method' hit' n c' (R y))
    (start := fun _ => beginning w' (gasScore endless a' b' data' w' method' hit' n) (R y))
    (mn'.comp measurable_snd) (ms'.comp measurable_snd) measurable_const measurable_const measurable_id)
  unfold gasLanded
  rw [gases_heat hcc hq]
  exact SameLaw.trans (SameLaw.trans k1 key) (SameLaw.symm k2)

/-- A neutron and its descendants. -/
theorem same_gasScore (hR : Rigid R) (h : Frames a b) (h' : Frames a' b') (hw : GasWorld data w)
    (hw' : GasWorld data' w') (hww : GasesAlike R data data' w w') (ht : ∀ c ∈ w.cells, CanTurn R c)
    (method method' : Method) (hh : ∀ s, Measurable fun q : Direction × ℝ => hit s q.1 q.2)
    (hh' : ∀ s, Measurable fun q : Direction × ℝ => hit' s q.1 q.2)
    (hhit : ∀ s d e, hit' (turnSurface R s) (R d) e = hit s d e) (n : ℕ) (hc : c ∈ w.cells)
    (hc' : c' ∈ w'.cells) (hcc : GasCellsAlike R data data' c c') (x : Point) (d : Direction) (e : ℝ)
    (hd : UnitVec d) (he : 0 < e) :
    SameLaw (gasScore endless a b data w method hit n c x d e)
      (gasScore endless a' b' data' w' method' hit' n c' (R x) (R d) e) := by
  induction n generalizing c c' x d e with
  | zero => exact sameLaw_refl _
  | succ n ih =>
    rcases hcc.matter.material with ⟨h1, h2⟩ | ⟨m, m', h1, h2, hmm⟩
    · have h1 : c.material = none := h1
      have e1 : gasScore endless a b data w method hit (n + 1) c x d e = fun _ => 0 :=
        funext fun us => gasScore_none h1 us
      have e2 : gasScore endless a' b' data' w' method' hit' (n + 1) c' (R x) (R d) e = fun _ => 0 :=
        funext fun us => gasScore_none h2 us
      rw [e1, e2]
      exact sameLaw_refl _
    · have h1 : c.material = some m := h1
      have hq : c.material ≠ none := by simp [h1]
      have hrate : collisionRate data' m' (heat c') e = collisionRate data m (heat c) e := by
        have hr' := reacting hw' hc' h2 he
        rw [gases_heat hcc hq] at hr' ⊢
        exact same_collisionRate hmm (reacting hw hc h1 he) hr'
      rw [gasScore_first h1, gasScore_first h2]
      refine sameLaw_first
        (F := fun u us => gasFirst a b data w method hit n c x d m e u us)
        (F' := fun u us => gasFirst a' b' data' w' method' hit' n c' (R x) (R d) m' e u us)
        (measurable_gasFirst h hh n c x d m e)
        (measurable_gasFirst h' hh' n c' (R x) (R d) m' e) ?_
      filter_upwards [ae_fliesTo method method' (collisionRate data m (heat c) e) (t := ahead c x d)
        fun r hr => ahead_pos hr] with u hu
      unfold gasFirst
      rw [gases_ahead hR (ht c hc) hcc, hrate]
      by_cases hfl : FliesTo method (ahead c x d) (-Real.log (1 - u) / collisionRate data m (heat c) e)
      · simp only [if_pos hfl, if_pos (hu.1 hfl)]
        exact same_gasCrossed hR ht hww hhit hc hcc x fun hc hc' hcc x => ih hc hc' hcc x d e hd he
      · simp only [if_neg hfl, if_neg fun k => hfl (hu.2 k), ← hR.straight]
        exact same_gasLanded hR h h' hw hw' hww ht hh hh' hc hc' hcc h1 h2 hmm hd he
          (fun hc hc' hcc x d e hd he => ih hc hc' hcc x d e hd he) _

/-- A neutron and its descendants, whatever the number of rounds. -/
theorem same_gasScore_all (hR : Rigid R) (h : Frames a b) (h' : Frames a' b') (hw : GasWorld data w)
    (hw' : GasWorld data' w') (hww : GasesAlike R data data' w w') (ht : ∀ c ∈ w.cells, CanTurn R c)
    (method method' : Method) (hh : ∀ s, Measurable fun q : Direction × ℝ => hit s q.1 q.2)
    (hh' : ∀ s, Measurable fun q : Direction × ℝ => hit' s q.1 q.2)
    (hhit : ∀ s d e, hit' (turnSurface R s) (R d) e = hit s d e) (hc : c ∈ w.cells)
    (hc' : c' ∈ w'.cells) (hcc : GasCellsAlike R data data' c c') (x : Point) (d : Direction) (e : ℝ)
    (hd : UnitVec d) (he : 0 < e) :
    SameLaw (fun us => ⨆ n, gasScore endless a b data w method hit n c x d e us)
      fun us => ⨆ n, gasScore endless a' b' data' w' method' hit' n c' (R x) (R d) e us :=
  sameLaw_iSup (fun n => measurable_gasScore_us h hh n c x d e)
    (fun n => measurable_gasScore_us h' hh' n c' (R x) (R d) e)
    (fun _ _ hij us => gasScore_monotone c x d e us hij)
    (fun _ _ hij us => gasScore_monotone c' (R x) (R d) e us hij) fun n =>
    same_gasScore hR h h' hw hw' hww ht method method' hh hh' hhit n hc hc' hcc x d e hd he

theorem measurable_gas_rounds (h : Frames a b) (hh : ∀ s, Measurable fun q : Direction × ℝ => hit s q.1 q.2)
    (c : Cell) (x : Point) (e : ℝ) : Measurable fun q : Direction × (ℕ → ℝ) =>
      ⨆ n, gasScore endless a b data w method hit n c x q.1 e q.2 :=
  Measurable.iSup fun n => (measurable_gasScore_from h hh n c x).comp
    (measurable_fst.prodMk (measurable_const.prodMk measurable_snd))

end

/-! ### The source -/

theorem emittedMean_turn_unit (hR : Rigid R) {dist : DirectionDist} (hd : Configured dist)
    {u v u' v' : Direction} (hf : ∀ r, dist = .isotropicFlux r → Frame u v r)
    (hf' : ∀ r, turnDist R dist = .isotropicFlux r → Frame u' v' r) {F F' : Direction → ℝ≥0∞}
    (hF : Measurable F) (hF' : Measurable F') (h : ∀ d, UnitVec d → F d = F' (R d)) :
    emittedMean u v dist F = emittedMean u' v' (turnDist R dist) F' := by
  cases dist with
  | constant d => exact h d hd
  | isotropic =>
    change sphereMean F = sphereMean F'
    rw [sphereMean_congr h]
    exact sphereMean_rigid hR hF'
  | isotropicFlux r =>
    have hr : UnitVec r := hd
    have hr' : UnitVec (R r) := rigid_unit hR hr
    have hm : Measurable fun d => ENNReal.ofReal (4 * cosAngle (R r) d) * F' d :=
      ((measurable_cosAngle (R r)).const_mul 4).ennreal_ofReal.mul hF'
    change _ = emittedMean u' v' (.isotropicFlux (R r)) F'
    rw [fluxMean_eq hr (hf r rfl) hF, fluxMean_eq hr' (hf' (R r) rfl) hF', ← sphereMean_rigid hR hm]
    refine sphereMean_congr fun d hd => ?_
    rw [hR.angle, h d hd]

/-- A neutron that leaves the source. -/
theorem sameLaw_emitted_unit (hR : Rigid R) {dist : DirectionDist} (hd : Configured dist)
    {u v u' v' : Direction} (hf : ∀ r, dist = .isotropicFlux r → Frame u v r)
    (hf' : ∀ r, turnDist R dist = .isotropicFlux r → Frame u' v' r)
    {start start' : Direction → (ℕ → ℝ) → ℝ≥0∞}
    (hs : Measurable fun q : Direction × (ℕ → ℝ) => start q.1 q.2)
    (hs' : Measurable fun q : Direction × (ℕ → ℝ) => start' q.1 q.2)
    (h : ∀ d, UnitVec d → SameLaw (start d) (start' (R d))) :
    SameLaw (emitted endless u v dist start) (emitted endless u' v' (turnDist R dist) start') := by
  intro φ hφ
  simp only [emitted_apply]
  rw [lintegral_emitted u v dist (start := fun d us => φ (start d us)) (hφ.comp hs),
    lintegral_emitted u' v' (turnDist R dist) (start := fun d us => φ (start' d us)) (hφ.comp hs')]
  exact emittedMean_turn_unit hR hd hf hf' (hφ.comp hs).lintegral_prod_right'
    (hφ.comp hs').lintegral_prod_right' fun d hd => h d hd φ hφ

end Minimc
