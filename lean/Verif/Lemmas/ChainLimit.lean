import Verif.Lemmas.ChainMean

/-! # Chains of neutrons: the mean over one more round and over all rounds -/

namespace Minimc

open Classical MeasureTheory Spec Set
open scoped ENNReal

/-- What fission emits at a place. -/
noncomputable def fissionEmission (G : ℕ) (nodes : Nuclide → List MgNode) (w : World) (m : Material)
    (g : ℕ) (E : Cell → Point → Direction → ℕ → ℝ≥0∞) (x : Point) : ℝ≥0∞ :=
  ∑ g' ∈ Finset.Icc 1 G, ENNReal.ofReal (fissionRate G nodes m g g') *
    sphereMean fun d' => (cellAt w x).elim 0 fun c' => E c' x d' g'

theorem bred_some {G : ℕ} {nodes : Nuclide → List MgNode} {w : World}
    {E : Cell → Point → Direction → ℕ → ℝ≥0∞} {c : Cell} {x : Point} {d : Direction} {g : ℕ}
    {m : Material} (hm : c.material = some m) :
    bred G nodes w E c x d g =
      ∫⁻ s in {s : ℝ | 0 < s ∧ (s : WithTop ℝ) < ahead c x d},
        ENNReal.ofReal (Real.exp (-(macroscopic G nodes g m * s))) *
          fissionEmission G nodes w m g E (along x d s) := by
  rw [bred, hm]
  rfl

theorem bred_none {G : ℕ} {nodes : Nuclide → List MgNode} {w : World}
    {E : Cell → Point → Direction → ℕ → ℝ≥0∞} {c : Cell} {x : Point} {d : Direction} {g : ℕ}
    (hm : c.material = none) : bred G nodes w E c x d g = 0 := by
  rw [bred, hm]
  rfl

theorem measurable_chainScore_us (G : ℕ) (nodes : Nuclide → List MgNode) (w : World) (method : Method)
    {hit : SurfaceObj → Direction → ℕ → ℝ≥0∞} (hh : ∀ s g, Measurable fun d => hit s d g) (n : ℕ)
    (c : Cell) (x : Point) (d : Direction) (g : ℕ) :
    Measurable fun us => chainScore endless G nodes w method hit n c x d g us :=
  (measurable_chainScore G nodes w method hh n c g).comp
    (measurable_const.prodMk (measurable_const.prodMk measurable_id))

/-- What new neutrons score. -/
noncomputable def fresh {σ : Type} (S : Supply σ) (G : ℕ) (nodes : Nuclide → List MgNode) (w : World)
    (method : Method) (hit : SurfaceObj → Direction → ℕ → ℝ≥0∞) (n : ℕ) (x : Point) (d : Direction)
    (g : ℕ) (s : σ) : ℝ≥0∞ :=
  (cellAt w x).elim 0 fun c => chainScore S G nodes w method hit n c x d g s

theorem measurable_fresh (G : ℕ) (nodes : Nuclide → List MgNode) (w : World) (method : Method)
    {hit : SurfaceObj → Direction → ℕ → ℝ≥0∞} (hh : ∀ s g, Measurable fun d => hit s d g) (n : ℕ)
    (g : ℕ) : Measurable fun q : Point × Direction × (ℕ → ℝ) =>
      fresh endless G nodes w method hit n q.1 q.2.1 g q.2.2 :=
  measurable_cellAt w measurable_fst fun c _ => measurable_chainScore G nodes w method hh n c g

section

attribute [local irreducible] fresh chainScore

theorem measurable_next_us (G : ℕ) (nodes : Nuclide → List MgNode) (w : World) (method : Method)
    {hit : SurfaceObj → Direction → ℕ → ℝ≥0∞} (hh : ∀ s g, Measurable fun d => hit s d g) (n : ℕ)
    (c : Cell) (x : Point) (g : ℕ) : Measurable fun q : Direction × (ℕ → ℝ) =>
      chainScore endless G nodes w method hit n c x q.1 g q.2 :=
  (measurable_chainScore G nodes w method hh n c g).comp
    (f := fun q : Direction × (ℕ → ℝ) => (x, q)) (measurable_const.prodMk measurable_id)

theorem measurable_fresh_us (G : ℕ) (nodes : Nuclide → List MgNode) (w : World) (method : Method)
    {hit : SurfaceObj → Direction → ℕ → ℝ≥0∞} (hh : ∀ s g, Measurable fun d => hit s d g) (n : ℕ)
    (x : Point) (g : ℕ) : Measurable fun q : Direction × (ℕ → ℝ) =>
      fresh endless G nodes w method hit n x q.1 g q.2 :=
  (measurable_fresh G nodes w method hh n g).comp
    (f := fun q : Direction × (ℕ → ℝ) => (x, q)) (measurable_const.prodMk measurable_id)

theorem lintegral_fresh (G : ℕ) (nodes : Nuclide → List MgNode) (w : World) (method : Method)
    (hit : SurfaceObj → Direction → ℕ → ℝ≥0∞) (n : ℕ) (x : Point) (d : Direction) (g : ℕ) :
    ∫⁻ us, fresh endless G nodes w method hit n x d g us ∂uniforms =
      (cellAt w x).elim 0 fun c' => chainMean G nodes w method hit n c' x d g := by
  unfold fresh chainMean
  cases cellAt w x with
  | none => simp
  | some c' => rfl

theorem lintegral_event {G : ℕ} {nodes : Nuclide → List MgNode} {m : Material} {g : ℕ}
    (method : Method) {next start : Direction → ℕ → (ℕ → ℝ) → ℝ≥0∞}
    (mnext : ∀ g', Measurable fun q : Direction × (ℕ → ℝ) => next q.1 g' q.2)
    (mstart : ∀ g', Measurable fun q : Direction × (ℕ → ℝ) => start q.1 g' q.2) :
    ∫⁻ us, afterEvent endless G nodes m g next start
        (fun k => us (k + (drawnBefore method - 1))) ∂uniforms =
      ∫⁻ us, afterCollision G nodes m g next us ∂uniforms +
        ∫⁻ us, afterFission G nodes m g start us ∂uniforms := by
  have mcoll : Measurable fun us => afterCollision G nodes m g next us :=
    measurable_afterCollision (α := ℕ → ℝ) G nodes m g (next := fun _ => next)
      (fun g' => (mnext g').comp measurable_snd) measurable_id
  have mfiss : Measurable fun us => afterFission G nodes m g start us :=
    measurable_afterFission (α := ℕ → ℝ) G nodes m g (start := fun _ => start)
      (fun g' => (mstart g').comp measurable_snd) measurable_id
  simp only [afterEvent_eq]
  rw [← lintegral_add_left mcoll]
  cases method
  · rfl
  · exact lintegral_skip (mcoll.add mfiss)

/-- The mean after a collision on the way. -/
theorem lintegral_chainCollision {G : ℕ} {nodes : Nuclide → List MgNode} {w : World}
    (hw : WellPosed G nodes w)
    (method : Method) {hit : SurfaceObj → Direction → ℕ → ℝ≥0∞}
    (hh : ∀ s g, Measurable fun d => hit s d g) (n : ℕ) {c : Cell} (hc : c ∈ w.cells) {m : Material}
    (hm : c.material = some m) (x : Point) {g : ℕ} (h1 : 1 ≤ g) (h2 : g ≤ G) :
    ENNReal.ofReal (macroscopic G nodes g m) * ∫⁻ us, afterEvent endless G nodes m g
        (chainScore endless G nodes w method hit n c x) (fresh endless G nodes w method hit n x)
        (fun k => us (k + (drawnBefore method - 1))) ∂uniforms =
      emission G nodes m g (chainMean G nodes w method hit n c x) +
        fissionEmission G nodes w m g (chainMean G nodes w method hit n) x := by
  have hS := Props.group_shares hw hc hm h1 h2
  have hM : 0 < macroscopic G nodes g m := mul_pos (hw.density c hc m hm) hS
  have hN : ∀ e ∈ m.afracs, NonnegNodes (nodes e.1) := fun e he => by
    obtain ⟨_, _, _, _, h, _⟩ := hw.data c hc m hm e he
    exact h
  rw [lintegral_event method (measurable_next_us G nodes w method hh n c x)
      (measurable_fresh_us G nodes w method hh n x),
    lintegral_afterCollision (fun e he => (hw.data c hc m hm e he).1.le) hN
      (measurable_next_us G nodes w method hh n c x),
    lintegral_afterFission (fun e he => (hw.data c hc m hm e he).1.le) hN
      (measurable_fresh_us G nodes w method hh n x), mul_add]
  have hS' : (m.afracs.map fun e => e.2 * specTotal G (nodes e.1) g).sum ≠ 0 := hS.ne'
  congr 1
  · unfold emission
    rw [Finset.mul_sum]
    refine Finset.sum_congr rfl fun g' _ => ?_
    rw [← mul_assoc, ← ENNReal.ofReal_mul hM.le]
    congr 2
    unfold macroscopic transferRate
    field_simp
  · unfold fissionEmission
    rw [Finset.mul_sum]
    refine Finset.sum_congr rfl fun g' _ => ?_
    rw [← mul_assoc, ← ENNReal.ofReal_mul hM.le]
    congr 1
    · congr 1
      unfold macroscopic fissionRate
      field_simp
    · congr 1
      funext d'
      exact lintegral_fresh G nodes w method hit n x d' g'

/-- What a neutron scores after a flight. -/
noncomputable def landed (G : ℕ) (nodes : Nuclide → List MgNode) (w : World) (method : Method)
    (hit : SurfaceObj → Direction → ℕ → ℝ≥0∞) (n : ℕ) (c : Cell) (x : Point) (m : Material) (g : ℕ)
    (us : ℕ → ℝ) : ℝ≥0∞ :=
  afterEvent endless G nodes m g (chainScore endless G nodes w method hit n c x)
    (fresh endless G nodes w method hit n x) fun k => us (k + (drawnBefore method - 1))

theorem measurable_landed (G : ℕ) (nodes : Nuclide → List MgNode) (w : World) (method : Method)
    {hit : SurfaceObj → Direction → ℕ → ℝ≥0∞} (hh : ∀ s g, Measurable fun d => hit s d g) (n : ℕ)
    (c : Cell) (x : Point) (d : Direction) (m : Material) (g : ℕ) :
    Measurable fun q : ℝ × (ℕ → ℝ) => landed G nodes w method hit n c (along x d q.1) m g q.2 := by
  have hal : Measurable fun q : (ℝ × (ℕ → ℝ)) × Direction × (ℕ → ℝ) => along x d q.1.1 :=
    Measurable.along measurable_const measurable_const (by fun_prop)
  unfold landed
  simp only [afterEvent_eq]
  refine Measurable.add ?_ ?_
  · exact measurable_afterCollision G nodes m g
      (next := fun q : ℝ × (ℕ → ℝ) => chainScore endless G nodes w method hit n c (along x d q.1))
      (fun g' => (measurable_chainScore G nodes w method hh n c g').comp
        (f := fun q : (ℝ × (ℕ → ℝ)) × Direction × (ℕ → ℝ) => (along x d q.1.1, q.2))
        (hal.prodMk measurable_snd))
      (measurable_shift measurable_snd _)
  · exact measurable_afterFission G nodes m g
      (start := fun q : ℝ × (ℕ → ℝ) => fresh endless G nodes w method hit n (along x d q.1))
      (fun g' => (measurable_fresh G nodes w method hh n g').comp
        (f := fun q : (ℝ × (ℕ → ℝ)) × Direction × (ℕ → ℝ) => (along x d q.1.1, q.2))
        (hal.prodMk measurable_snd))
      (measurable_shift measurable_snd _)

theorem chainScore_landed {G : ℕ} {nodes : Nuclide → List MgNode} {w : World}
    {method : Method} {hit : SurfaceObj → Direction → ℕ → ℝ≥0∞} {n : ℕ} {c : Cell} {x : Point}
    {d : Direction} {g : ℕ} {m : Material} (hm : c.material = some m) (us : ℕ → ℝ) :
    chainScore endless G nodes w method hit (n + 1) c x d g us =
      if FliesTo method (ahead c x d) (-Real.log (1 - us 0) / macroscopic G nodes g m) then
        crossed w hit (fun c x d g => chainScore endless G nodes w method hit n c x d g
          fun k => us (k + 1)) c x d g
      else landed G nodes w method hit n c
        (along x d (-Real.log (1 - us 0) / macroscopic G nodes g m)) m g fun k => us (k + 1) := by
  rw [chainScore_succ hm, endless_rest, endless_number]
  unfold landed fresh
  cases method <;> rfl

theorem measurable_emission {G : ℕ} {nodes : Nuclide → List MgNode} {m : Material} {g : ℕ}
    {E : Point → Direction → ℕ → ℝ≥0∞}
    (hE : ∀ g', Measurable fun q : Point × Direction => E q.1 q.2 g') (x : Point) (d : Direction) :
    Measurable fun s => emission G nodes m g (E (along x d s)) := by
  unfold emission
  refine Finset.measurable_fun_sum _ fun g' _ => Measurable.mul measurable_const ?_
  have hal : Measurable fun q : ℝ × Direction => along x d q.1 :=
    Measurable.along measurable_const measurable_const measurable_fst
  exact measurable_sphereMean (F := fun s d' => E (along x d s) d' g')
    ((hE g').comp (f := fun q : ℝ × Direction => (along x d q.1, q.2)) (hal.prodMk measurable_snd))

theorem measurable_chainMean {G : ℕ} {nodes : Nuclide → List MgNode} {w : World} {method : Method}
    {hit : SurfaceObj → Direction → ℕ → ℝ≥0∞} (hh : ∀ s g, Measurable fun d => hit s d g) (n : ℕ)
    (c : Cell) (g : ℕ) :
    Measurable fun q : Point × Direction => chainMean G nodes w method hit n c q.1 q.2 g := by
  unfold chainMean
  have h := (measurable_chainScore G nodes w method hh n c g).comp
    (f := fun q : (Point × Direction) × (ℕ → ℝ) => (q.1.1, q.1.2, q.2)) (by fun_prop)
  exact h.lintegral_prod_right'

/-- One more round of the chain is one application of the right hand side of the equation. -/
theorem chainMean_succ {G : ℕ} {nodes : Nuclide → List MgNode} {w : World} (hw : WellPosed G nodes w)
    (method : Method) {hit : SurfaceObj → Direction → ℕ → ℝ≥0∞}
    (hh : ∀ s g, Measurable fun d => hit s d g) (n : ℕ) {c : Cell} (hc : c ∈ w.cells) (x : Point)
    (d : Direction) {g : ℕ} (h1 : 1 ≤ g) (h2 : g ≤ G) :
    chainMean G nodes w method hit (n + 1) c x d g =
      transported G nodes w hit (chainMean G nodes w method hit n) c x d g +
        bred G nodes w (chainMean G nodes w method hit n) c x d g := by
  cases hm : c.material with
  | none =>
    rw [bred_none hm]
    unfold chainMean transported
    simp [chainScore_none hm, hm]
  | some m =>
    have hM : 0 < macroscopic G nodes g m :=
      mul_pos (hw.density c hc m hm) (Props.group_shares hw hc hm h1 h2)
    have mA := measurable_crossed (w := w) (hit := hit) (c := c) (x := x) (d := d) (g := g)
      (E := fun us c x d g => chainScore endless G nodes w method hit n c x d g us)
      fun c x => measurable_chainScore_us G nodes w method hh n c x d g
    have mB := measurable_landed G nodes w method hh n c x d m g
    have hl : Measurable fun q : ℝ × (ℕ → ℝ) => -Real.log (1 - q.1) / macroscopic G nodes g m := by
      fun_prop
    have hF := @Measurable.ite _ _ _ _ _ _ _ (fun _ => propDecidable _)
      (measurableSet_reaches' method (t := fun _ => ahead c x d) measurable_const hl)
      (mA.comp measurable_snd)
      (mB.comp (f := fun q : ℝ × (ℕ → ℝ) => (-Real.log (1 - q.1) / macroscopic G nodes g m, q.2))
        (hl.prodMk measurable_snd))
    have e1 : ∀ u : ℝ, ∫⁻ us,
          (if FliesTo method (ahead c x d) (-Real.log (1 - u) / macroscopic G nodes g m) then
            crossed w hit (fun c x d g => chainScore endless G nodes w method hit n c x d g us) c x d g
          else landed G nodes w method hit n c
            (along x d (-Real.log (1 - u) / macroscopic G nodes g m)) m g us) ∂uniforms =
        if FliesTo method (ahead c x d) (-Real.log (1 - u) / macroscopic G nodes g m) then
          crossed w hit (chainMean G nodes w method hit n) c x d g
        else (fun y => ∫⁻ us, landed G nodes w method hit n c (along x d y) m g us ∂uniforms)
          (-Real.log (1 - u) / macroscopic G nodes g m) := by
      intro u
      split_ifs
      · exact lintegral_crossed
      · rfl
    have e2 := lintegral_first (F := fun (u : ℝ) (us : ℕ → ℝ) =>
          if FliesTo method (ahead c x d) (-Real.log (1 - u) / macroscopic G nodes g m) then
            crossed w hit (fun c x d g => chainScore endless G nodes w method hit n c x d g us) c x d g
          else landed G nodes w method hit n c
            (along x d (-Real.log (1 - u) / macroscopic G nodes g m)) m g us) hF
    rw [transported_some hm, bred_some hm]
    refine (lintegral_congr (chainScore_landed hm)).trans (e2.trans ((lintegral_congr e1).trans ?_))
    refine (lintegral_round c method hM (t := ahead c x d) (fun r hr => ahead_pos hr)
      (crossed w hit (chainMean G nodes w method hit n) c x d g)
      fun y => ∫⁻ us, landed G nodes w method hit n c (along x d y) m g us ∂uniforms).trans ?_
    rw [add_right_comm]
    congr 1
    have mE : Measurable fun s => ENNReal.ofReal (Real.exp (-(macroscopic G nodes g m * s))) *
        emission G nodes m g (chainMean G nodes w method hit n c (along x d s)) :=
      Measurable.mul (by fun_prop)
        (measurable_emission (fun g' => measurable_chainMean hh n c g') x d)
    rw [← lintegral_add_left mE]
    refine lintegral_congr fun s => ?_
    rw [mul_comm (macroscopic G nodes g m), ENNReal.ofReal_mul (Real.exp_pos _).le, mul_assoc]
    unfold landed
    rw [lintegral_chainCollision hw method hh n hc hm _ h1 h2, mul_add]

end

/-! ### All rounds -/

theorem births_mono {σ : Type} {S : Supply σ} {ws : List ℝ} {start start' : Direction → ℕ → σ → ℝ≥0∞}
    (h : ∀ d g s, start d g s ≤ start' d g s) (k : ℕ) (s : σ) :
    births S ws start k s ≤ births S ws start' k s := by
  induction k generalizing s with
  | zero => exact le_rfl
  | succ k ih =>
    unfold births
    exact byWeight_mono fun j => add_le_add (h _ _ _) (ih _)

theorem afterEvent_mono {σ : Type} {S : Supply σ} {G : ℕ} {nodes : Nuclide → List MgNode} {m : Material}
    {g : ℕ} {next next' start start' : Direction → ℕ → σ → ℝ≥0∞}
    (h : ∀ d g s, next d g s ≤ next' d g s) (h' : ∀ d g s, start d g s ≤ start' d g s) (s : σ) :
    afterEvent S G nodes m g next start s ≤ afterEvent S G nodes m g next' start' s := by
  unfold afterEvent
  refine byWeight_mono fun i => ?_
  cases m.afracs[i]? with
  | none => exact le_rfl
  | some e =>
    refine byWeight_mono fun r => ?_
    split_ifs
    · exact byWeight_mono fun j => h _ _ _
    · exact births_mono h' _ _
    · exact le_rfl

theorem chainScore_mono {σ : Type} {S : Supply σ} {G : ℕ} {nodes : Nuclide → List MgNode} {w : World}
    {method : Method} {hit : SurfaceObj → Direction → ℕ → ℝ≥0∞} (n : ℕ) (c : Cell) (x : Point)
    (d : Direction) (g : ℕ) (s : σ) :
    chainScore S G nodes w method hit n c x d g s ≤ chainScore S G nodes w method hit (n + 1) c x d g s := by
  induction n generalizing c x d g s with
  | zero => exact zero_le
  | succ n ih =>
    cases hm : c.material with
    | none => rw [chainScore_none hm, chainScore_none hm]
    | some m =>
      rw [chainScore_succ hm, chainScore_succ hm]
      split_ifs
      · exact crossed_mono fun c _ x => ih c x d g _
      · refine afterEvent_mono (fun d g s => ih c _ d g s) (fun d' g' s' => ?_) _
        cases cellAt w (along x d (-Real.log (1 - S.number s) / macroscopic G nodes g m)) with
        | none => exact le_rfl
        | some c' => exact ih c' _ d' g' s'

theorem chainScore_monotone {σ : Type} {S : Supply σ} {G : ℕ} {nodes : Nuclide → List MgNode} {w : World}
    {method : Method} {hit : SurfaceObj → Direction → ℕ → ℝ≥0∞} (c : Cell) (x : Point) (d : Direction)
    (g : ℕ) (s : σ) : Monotone fun n => chainScore S G nodes w method hit n c x d g s :=
  monotone_nat_of_le_succ fun n => chainScore_mono n c x d g s

theorem chainMean_monotone {G : ℕ} {nodes : Nuclide → List MgNode} {w : World} {method : Method}
    {hit : SurfaceObj → Direction → ℕ → ℝ≥0∞} (c : Cell) (x : Point) (d : Direction) (g : ℕ) :
    Monotone fun n => chainMean G nodes w method hit n c x d g :=
  fun _ _ h => lintegral_mono fun us => chainScore_monotone c x d g us h

theorem meanChain_eq {G : ℕ} {nodes : Nuclide → List MgNode} {w : World} {method : Method}
    {hit : SurfaceObj → Direction → ℕ → ℝ≥0∞} (hh : ∀ s g, Measurable fun d => hit s d g)
    (c : Cell) (x : Point) (d : Direction) (g : ℕ) :
    meanChain G nodes w method hit c x d g = ⨆ n, chainMean G nodes w method hit n c x d g := by
  unfold meanChain chainMean
  refine lintegral_iSup (fun n => measurable_chainScore_us G nodes w method hh n c x d g) ?_
  exact fun a b h us => chainScore_monotone c x d g us h

theorem fissionEmission_mono {G : ℕ} {nodes : Nuclide → List MgNode} {w : World} {m : Material} {g : ℕ}
    {E E' : Cell → Point → Direction → ℕ → ℝ≥0∞}
    (h : ∀ c ∈ w.cells, ∀ x d g, 1 ≤ g → g ≤ G → E c x d g ≤ E' c x d g) (x : Point) :
    fissionEmission G nodes w m g E x ≤ fissionEmission G nodes w m g E' x := by
  unfold fissionEmission
  refine Finset.sum_le_sum fun g' hg => ?_
  rw [Finset.mem_Icc] at hg
  gcongr
  refine sphereMean_mono fun d => ?_
  cases hc : cellAt w x with
  | none => exact le_rfl
  | some c' => exact h c' (cellAt_mem hc) x d g' hg.1 hg.2

theorem bred_mono {G : ℕ} {nodes : Nuclide → List MgNode} {w : World}
    {E E' : Cell → Point → Direction → ℕ → ℝ≥0∞}
    (h : ∀ c ∈ w.cells, ∀ x d g, 1 ≤ g → g ≤ G → E c x d g ≤ E' c x d g) (c : Cell) (x : Point)
    (d : Direction) (g : ℕ) : bred G nodes w E c x d g ≤ bred G nodes w E' c x d g := by
  cases hm : c.material with
  | none => rw [bred_none hm, bred_none hm]
  | some m =>
    rw [bred_some hm, bred_some hm]
    refine lintegral_mono fun s => ?_
    dsimp only
    gcongr
    exact fissionEmission_mono h _

theorem fissionEmission_iSup {G : ℕ} {nodes : Nuclide → List MgNode} {w : World} {m : Material} {g : ℕ}
    {E : ℕ → Cell → Point → Direction → ℕ → ℝ≥0∞}
    (hE : ∀ n c g, Measurable fun q : Point × Direction => E n c q.1 q.2 g) (hm : Monotone E) (x : Point) :
    fissionEmission G nodes w m g (fun c x d g => ⨆ n, E n c x d g) x =
      ⨆ n, fissionEmission G nodes w m g (E n) x := by
  unfold fissionEmission
  rw [← ENNReal.finsetSum_iSup_of_monotone]
  · refine Finset.sum_congr rfl fun g' _ => ?_
    rw [← ENNReal.mul_iSup]
    congr 1
    cases cellAt w x with
    | none =>
      have : sphereMean (fun _ : Direction => (0 : ℝ≥0∞)) = 0 := sphereMean_const 0
      simp [this]
    | some c' =>
      exact sphereMean_iSup (fun n => (hE n c' g').comp (measurable_const.prodMk measurable_id))
        fun a b h d => hm h c' x d g'
  · intro g' a b h
    dsimp only
    gcongr
    refine sphereMean_mono fun d => ?_
    cases cellAt w x with
    | none => exact le_rfl
    | some c' => exact hm h c' x d g'

theorem bred_iSup {G : ℕ} {nodes : Nuclide → List MgNode} {w : World}
    {E : ℕ → Cell → Point → Direction → ℕ → ℝ≥0∞}
    (hE : ∀ n c g, Measurable fun q : Point × Direction => E n c q.1 q.2 g) (hmono : Monotone E)
    (c : Cell) (x : Point) (d : Direction) (g : ℕ) :
    bred G nodes w (fun c x d g => ⨆ n, E n c x d g) c x d g = ⨆ n, bred G nodes w (E n) c x d g := by
  cases hm : c.material with
  | none => simp [bred_none hm]
  | some m =>
    simp only [bred_some hm]
    rw [← lintegral_iSup]
    · refine lintegral_congr fun s => ?_
      rw [fissionEmission_iSup hE hmono, ENNReal.mul_iSup]
    · intro n
      refine Measurable.mul (by fun_prop) ?_
      unfold fissionEmission
      refine Finset.measurable_fun_sum _ fun g' _ => Measurable.mul measurable_const ?_
      have hal : Measurable fun q : ℝ × Direction => along x d q.1 :=
        Measurable.along measurable_const measurable_const measurable_fst
      refine measurable_sphereMean (F := fun s d' => (cellAt w (along x d s)).elim 0 fun c' =>
        E n c' (along x d s) d' g') ?_
      exact measurable_cellAt w hal fun c' _ => (hE n c' g').comp (hal.prodMk measurable_snd)
    · intro a b h s
      dsimp only
      gcongr
      exact fissionEmission_mono (fun c _ x d g _ _ => hmono h c x d g) _

end Minimc
