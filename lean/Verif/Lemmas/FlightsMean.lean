import Verif.Lemmas.ChainLimit
import Verif.Lemmas.Crossings

/-! # The mean over one round, and the mean number of flights -/

namespace Minimc

open Classical MeasureTheory Spec Set
open scoped ENNReal

variable {G : ℕ} {nodes : Nuclide → List MgNode} {w : World} {method : Method}
  {hit : SurfaceObj → Direction → ℕ → ℝ≥0∞} {next : Cell → Point → Direction → ℕ → (ℕ → ℝ) → ℝ≥0∞}

/-! ### One round -/

theorem measurable_startAt
    (mn : ∀ c g, Measurable fun q : Point × Direction × (ℕ → ℝ) => next c q.1 q.2.1 g q.2.2) (g : ℕ) :
    Measurable fun q : Point × Direction × (ℕ → ℝ) => startAt w next q.1 q.2.1 g q.2.2 :=
  measurable_cellAt w measurable_fst fun c _ => mn c g

/-- One round depends measurably on everything. -/
theorem measurable_oneRound (hh : ∀ s g, Measurable fun d => hit s d g)
    (mn : ∀ c g, Measurable fun q : Point × Direction × (ℕ → ℝ) => next c q.1 q.2.1 g q.2.2)
    (c : Cell) (g : ℕ) : Measurable fun q : Point × Direction × (ℕ → ℝ) =>
      oneRound endless G nodes w method hit next c q.1 q.2.1 g q.2.2 := by
  cases hm : c.material with
  | none =>
    unfold oneRound
    rw [hm]
    exact measurable_const
  | some m =>
    simp only [oneRound_some hm, afterEvent_eq, endless_rest, endless_number]
    have hx : Measurable fun q : Point × Direction × (ℕ → ℝ) => q.1 := measurable_fst
    have hd : Measurable fun q : Point × Direction × (ℕ → ℝ) => q.2.1 := by fun_prop
    have hu : Measurable fun q : Point × Direction × (ℕ → ℝ) => q.2.2 := by fun_prop
    have hf : Measurable fun q : Point × Direction × (ℕ → ℝ) =>
        -Real.log (1 - q.2.2 0) / macroscopic G nodes g m := by
      have := measurable_at hu 0
      fun_prop
    have hb := measurable_beyond c hx hd
    have h1 : Measurable fun q : (Point × Direction × (ℕ → ℝ)) × Direction × (ℕ → ℝ) =>
        along q.1.1 q.1.2.1 (-Real.log (1 - q.1.2.2 0) / macroscopic G nodes g m) :=
      Measurable.along (by fun_prop) (by fun_prop) (hf.comp measurable_fst)
    refine Measurable.ite (measurableSet_reaches' method (measurable_ahead c hx hd) hf) ?_ ?_
    · refine measurable_faced c hx hd fun s => ?_
      refine measurable_cellAt w hb fun c' _ => ?_
      exact ((hh s g).comp hd).add ((mn c' g).comp (hb.prodMk (hd.prodMk (measurable_shift hu 1))))
    · refine Measurable.add ?_ ?_
      · refine measurable_afterCollision G nodes m g (fun g' => ?_)
          (measurable_shift hu (drawnBefore method))
        exact (mn c g').comp (h1.prodMk measurable_snd)
      · refine measurable_afterFission G nodes m g (fun g' => ?_)
          (measurable_shift hu (drawnBefore method))
        exact measurable_cellAt w h1 fun c' _ => (mn c' g').comp (h1.prodMk measurable_snd)

/-- The mean after a collision on the way. -/
theorem lintegral_roundCollision (hw : WellPosed G nodes w)
    (mn : ∀ c g, Measurable fun q : Point × Direction × (ℕ → ℝ) => next c q.1 q.2.1 g q.2.2)
    {c : Cell} (hc : c ∈ w.cells) {m : Material}
    (hm : c.material = some m) (x : Point) {g : ℕ} (h1 : 1 ≤ g) (h2 : g ≤ G) :
    ENNReal.ofReal (macroscopic G nodes g m) * ∫⁻ us, afterEvent endless G nodes m g
        (next c x) (startAt w next x) (fun k => us (k + (drawnBefore method - 1))) ∂uniforms =
      emission G nodes m g (fun d g => ∫⁻ us, next c x d g us ∂uniforms) +
        fissionEmission G nodes w m g (fun c x d g => ∫⁻ us, next c x d g us ∂uniforms) x := by
  have hS := Props.group_shares hw hc hm h1 h2
  have hM : 0 < macroscopic G nodes g m := mul_pos (hw.density c hc m hm) hS
  have hN : ∀ e ∈ m.afracs, NonnegNodes (nodes e.1) := fun e he => by
    obtain ⟨_, _, _, _, h, _⟩ := hw.data c hc m hm e he
    exact h
  have m1 : ∀ g', Measurable fun q : Direction × (ℕ → ℝ) => next c x q.1 g' q.2 := fun g' =>
    (mn c g').comp (f := fun q : Direction × (ℕ → ℝ) => (x, q)) (measurable_const.prodMk measurable_id)
  have m2 : ∀ g', Measurable fun q : Direction × (ℕ → ℝ) => startAt w next x q.1 g' q.2 := fun g' =>
    (measurable_startAt (w := w) mn g').comp (f := fun q : Direction × (ℕ → ℝ) => (x, q))
      (measurable_const.prodMk measurable_id)
  rw [lintegral_event method m1 m2,
    lintegral_afterCollision (fun e he => (hw.data c hc m hm e he).1.le) hN m1,
    lintegral_afterFission (fun e he => (hw.data c hc m hm e he).1.le) hN m2, mul_add]
  have hS' : (m.afracs.map fun e => e.2 * specTotal G (nodes e.1) g).sum ≠ 0 := hS.ne'
  congr 1
  · unfold emission
    rw [Finset.mul_sum]
    refine Finset.sum_congr rfl fun g' _ => ?_
    rw [← mul_assoc, ← ENNReal.ofReal_mul hM.le]
    congr 2
    unfold macroscopic transferRate
    field_simp
  · unfold fissionEmission
    rw [Finset.mul_sum]
    refine Finset.sum_congr rfl fun g' _ => ?_
    rw [← mul_assoc, ← ENNReal.ofReal_mul hM.le]
    congr 1
    · congr 1
      unfold macroscopic fissionRate
      field_simp
    · congr 1
      funext d'
      unfold startAt
      cases cellAt w x with
      | none => simp
      | some c' => rfl

/-- What there is after a collision on the way. -/
noncomputable def afterFlight (G : ℕ) (nodes : Nuclide → List MgNode) (w : World) (method : Method)
    (next : Cell → Point → Direction → ℕ → (ℕ → ℝ) → ℝ≥0∞) (c : Cell) (x : Point) (m : Material) (g : ℕ)
    (us : ℕ → ℝ) : ℝ≥0∞ :=
  afterEvent endless G nodes m g (next c x) (startAt w next x) fun k => us (k + (drawnBefore method - 1))

theorem measurable_afterFlight
    (mn : ∀ c g, Measurable fun q : Point × Direction × (ℕ → ℝ) => next c q.1 q.2.1 g q.2.2)
    (c : Cell) (x : Point) (d : Direction) (m : Material) (g : ℕ) :
    Measurable fun q : ℝ × (ℕ → ℝ) => afterFlight G nodes w method next c (along x d q.1) m g q.2 := by
  have hal : Measurable fun q : (ℝ × (ℕ → ℝ)) × Direction × (ℕ → ℝ) => along x d q.1.1 :=
    Measurable.along measurable_const measurable_const (by fun_prop)
  unfold afterFlight
  simp only [afterEvent_eq]
  refine Measurable.add ?_ ?_
  · exact measurable_afterCollision G nodes m g
      (next := fun q : ℝ × (ℕ → ℝ) => next c (along x d q.1))
      (fun g' => (mn c g').comp
        (f := fun q : (ℝ × (ℕ → ℝ)) × Direction × (ℕ → ℝ) => (along x d q.1.1, q.2))
        (hal.prodMk measurable_snd))
      (measurable_shift measurable_snd _)
  · exact measurable_afterFission G nodes m g
      (start := fun q : ℝ × (ℕ → ℝ) => startAt w next (along x d q.1))
      (fun g' => (measurable_startAt (w := w) mn g').comp
        (f := fun q : (ℝ × (ℕ → ℝ)) × Direction × (ℕ → ℝ) => (along x d q.1.1, q.2))
        (hal.prodMk measurable_snd))
      (measurable_shift measurable_snd _)

theorem oneRound_afterFlight {c : Cell} {x : Point} {d : Direction} {g : ℕ} {m : Material}
    (hm : c.material = some m) (us : ℕ → ℝ) :
    oneRound endless G nodes w method hit next c x d g us =
      if FliesTo method (ahead c x d) (-Real.log (1 - us 0) / macroscopic G nodes g m) then
        crossed w hit (fun c x d g => next c x d g fun k => us (k + 1)) c x d g
      else afterFlight G nodes w method next c
        (along x d (-Real.log (1 - us 0) / macroscopic G nodes g m)) m g fun k => us (k + 1) := by
  rw [oneRound_some hm, endless_rest, endless_number]
  unfold afterFlight
  cases method <;> rfl

theorem measurable_meanNext
    (mn : ∀ c g, Measurable fun q : Point × Direction × (ℕ → ℝ) => next c q.1 q.2.1 g q.2.2)
    (c : Cell) (g : ℕ) :
    Measurable fun q : Point × Direction => ∫⁻ us, next c q.1 q.2 g us ∂uniforms := by
  have h := (mn c g).comp
    (f := fun q : (Point × Direction) × (ℕ → ℝ) => (q.1.1, q.1.2, q.2)) (by fun_prop)
  exact h.lintegral_prod_right'

/-- The mean of a round is the right hand side of the transport equation. -/
theorem lintegral_oneRound (hw : WellPosed G nodes w) (method : Method)
    (mn : ∀ c g, Measurable fun q : Point × Direction × (ℕ → ℝ) => next c q.1 q.2.1 g q.2.2)
    {c : Cell} (hc : c ∈ w.cells) (x : Point) (d : Direction) {g : ℕ} (h1 : 1 ≤ g) (h2 : g ≤ G) :
    ∫⁻ us, oneRound endless G nodes w method hit next c x d g us ∂uniforms =
      transported G nodes w hit (fun c x d g => ∫⁻ us, next c x d g us ∂uniforms) c x d g +
        bred G nodes w (fun c x d g => ∫⁻ us, next c x d g us ∂uniforms) c x d g := by
  cases hm : c.material with
  | none =>
    rw [bred_none hm]
    unfold oneRound transported
    simp [hm]
  | some m =>
    have hM : 0 < macroscopic G nodes g m :=
      mul_pos (hw.density c hc m hm) (Props.group_shares hw hc hm h1 h2)
    have mA := measurable_crossed (w := w) (hit := hit) (c := c) (x := x) (d := d) (g := g)
      (E := fun us c x d g => next c x d g us)
      fun c x => (mn c g).comp (measurable_const.prodMk (measurable_const.prodMk measurable_id))
    have mB := measurable_afterFlight (G := G) (nodes := nodes) (w := w) (method := method) mn c x d m g
    have hl : Measurable fun q : ℝ × (ℕ → ℝ) => -Real.log (1 - q.1) / macroscopic G nodes g m := by
      fun_prop
    have hF := @Measurable.ite _ _ _ _ _ _ _ (fun _ => propDecidable _)
      (measurableSet_reaches' method (t := fun _ => ahead c x d) measurable_const hl)
      (mA.comp measurable_snd)
      (mB.comp (f := fun q : ℝ × (ℕ → ℝ) => (-Real.log (1 - q.1) / macroscopic G nodes g m, q.2))
        (hl.prodMk measurable_snd))
    have e1 : ∀ u : ℝ, ∫⁻ us,
          (if FliesTo method (ahead c x d) (-Real.log (1 - u) / macroscopic G nodes g m) then
            crossed w hit (fun c x d g => next c x d g us) c x d g
          else afterFlight G nodes w method next c
            (along x d (-Real.log (1 - u) / macroscopic G nodes g m)) m g us) ∂uniforms =
        if FliesTo method (ahead c x d) (-Real.log (1 - u) / macroscopic G nodes g m) then
          crossed w hit (fun c x d g => ∫⁻ us, next c x d g us ∂uniforms) c x d g
        else (fun y => ∫⁻ us, afterFlight G nodes w method next c (along x d y) m g us ∂uniforms)
          (-Real.log (1 - u) / macroscopic G nodes g m) := by
      intro u
      split_ifs
      · exact lintegral_crossed
      · rfl
    have e2 := lintegral_first (F := fun (u : ℝ) (us : ℕ → ℝ) =>
          if FliesTo method (ahead c x d) (-Real.log (1 - u) / macroscopic G nodes g m) then
            crossed w hit (fun c x d g => next c x d g us) c x d g
          else afterFlight G nodes w method next c
            (along x d (-Real.log (1 - u) / macroscopic G nodes g m)) m g us) hF
    rw [transported_some hm, bred_some hm]
    refine (lintegral_congr (oneRound_afterFlight hm)).trans (e2.trans ((lintegral_congr e1).trans ?_))
    refine (lintegral_round c method hM (t := ahead c x d) (fun r hr => ahead_pos hr)
      (crossed w hit (fun c x d g => ∫⁻ us, next c x d g us ∂uniforms) c x d g)
      fun y => ∫⁻ us, afterFlight G nodes w method next c (along x d y) m g us ∂uniforms).trans ?_
    rw [add_right_comm]
    congr 1
    have mE : Measurable fun s => ENNReal.ofReal (Real.exp (-(macroscopic G nodes g m * s))) *
        emission G nodes m g (fun d' g => ∫⁻ us, next c (along x d s) d' g us ∂uniforms) :=
      Measurable.mul (by fun_prop)
        (measurable_emission (E := fun x d g => ∫⁻ us, next c x d g us ∂uniforms)
          (fun g' => measurable_meanNext mn c g') x d)
    rw [← lintegral_add_left mE]
    refine lintegral_congr fun s => ?_
    rw [mul_comm (macroscopic G nodes g m), ENNReal.ofReal_mul (Real.exp_pos _).le, mul_assoc]
    unfold afterFlight
    rw [lintegral_roundCollision hw mn hc hm _ h1 h2, mul_add]

end Minimc
