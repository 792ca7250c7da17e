import Verif.Lemmas.WalkCollision

/-! # The mean over one more round -/

namespace Minimc

open Classical MeasureTheory Spec Set
open scoped ENNReal

theorem solveQuadratic_gt {a b c t : ℝ} (h : Surface.solveQuadratic a b c = (t : WithTop ℝ)) : 0 < t := by
  unfold Surface.solveQuadratic at h
  dsimp only at h
  split_ifs at h with h1 h2 h3 h4 h5
  all_goals first
    | (simp at h; done)
    | (rw [WithTop.coe_inj] at h; rw [← h]; assumption)

theorem distance_gt {s : Surface} {x : Point} {d : Direction} {t : ℝ}
    (h : s.distance x d = (t : WithTop ℝ)) : 0 < t := by
  cases s with
  | sphere center radius => exact solveQuadratic_gt h
  | planeX c =>
    change Surface.planeXDistance c x d = _ at h
    unfold Surface.planeXDistance at h
    dsimp only at h
    split_ifs at h with h1
    · rw [WithTop.coe_inj] at h
      rw [← h]
      exact h1
    · simp at h
  | cylinderX radius => exact solveQuadratic_gt h

theorem foldr_min_mem {l : List (WithTop ℝ)} {t : ℝ} (h : l.foldr min ⊤ = (t : WithTop ℝ)) :
    (t : WithTop ℝ) ∈ l := by
  induction l with
  | nil => simp at h
  | cons a l ih =>
    rw [List.foldr_cons] at h
    rcases min_choice a (l.foldr min ⊤) with e | e
    · rw [e] at h
      simp [h]
    · rw [e] at h
      exact List.mem_cons_of_mem _ (ih h)

theorem ahead_pos {c : Cell} {x : Point} {d : Direction} {t : ℝ} (h : ahead c x d = (t : WithTop ℝ)) :
    0 < t := by
  obtain ⟨e, -, he⟩ := List.mem_map.1 (foldr_min_mem h)
  exact distance_gt he

/-- The mean over one flight: it reaches the surface or ends on the way. -/
theorem lintegral_round (c₀ : Cell) (method : Method) {M : ℝ} (hM : 0 < M) {t : WithTop ℝ}
    (ht : ∀ r : ℝ, t = r → 0 < r) (A : ℝ≥0∞) (C : ℝ → ℝ≥0∞) :
    ∫⁻ u, (if FliesTo method t (-Real.log (1 - u) / M) then A else C (-Real.log (1 - u) / M)) ∂uniform =
      (∫⁻ s in {s : ℝ | 0 < s ∧ (s : WithTop ℝ) < t}, ENNReal.ofReal (M * Real.exp (-(M * s))) * C s) +
        if t = ⊤ then 0 else ENNReal.ofReal (Real.exp (-(M * t.untopD 0))) * A := by
  induction t using WithTop.recTopCoe with
  | top =>
    have h1 : ∀ x : ℝ, ¬ FliesTo method ⊤ x := by
      intro x
      cases method <;> simp [FliesTo]
    have h2 : {s : ℝ | 0 < s ∧ (s : WithTop ℝ) < ⊤} = Ioi 0 := by
      ext s
      simp
    simp only [h1, if_false, if_true, add_zero, h2]
    exact lintegral_flight hM C
  | coe t =>
    have ht := ht t rfl
    have hset : {u : ℝ | FliesTo method (t : WithTop ℝ) (-Real.log (1 - u) / M)} =
        {u | ReachesSurface method t (-Real.log (1 - u) / M)} := by
      ext u
      cases method <;> simp [FliesTo, ReachesSurface]
    have hm : MeasurableSet {u : ℝ | FliesTo method (t : WithTop ℝ) (-Real.log (1 - u) / M)} :=
      measurableSet_reaches' method measurable_const (by fun_prop)
    have hsplit : ∀ u : ℝ, (if FliesTo method (t : WithTop ℝ) (-Real.log (1 - u) / M) then A
          else C (-Real.log (1 - u) / M)) =
        {u : ℝ | FliesTo method (t : WithTop ℝ) (-Real.log (1 - u) / M)}.indicator (fun _ => A) u +
        (fun y => if FliesTo method (t : WithTop ℝ) y then 0 else C y) (-Real.log (1 - u) / M) := by
      intro u
      by_cases h : FliesTo method (t : WithTop ℝ) (-Real.log (1 - u) / M)
      · simp [h]
      · simp [h]
    simp only [hsplit]
    rw [lintegral_add_left (measurable_const.indicator hm), lintegral_indicator hm,
      setLIntegral_const, lintegral_flight hM (fun y => if FliesTo method (t : WithTop ℝ) y then 0 else C y),
      hset, Props.uniform_reaches method (r := ⟨c₀, ⟨0, 0, 0⟩, M, t⟩) hM ht.le, add_comm]
    have hne : ¬ (t : WithTop ℝ) = ⊤ := WithTop.coe_ne_top
    rw [if_neg hne, mul_comm A]
    congr 1
    have hI : {s : ℝ | 0 < s ∧ (s : WithTop ℝ) < (t : WithTop ℝ)} = Ioi 0 ∩ Iio t := by
      ext s
      simp
    rw [hI, ← Measure.restrict_restrict_of_subset inter_subset_left,
      ← lintegral_indicator (measurableSet_Ioi.inter measurableSet_Iio)]
    refine lintegral_congr_ae ?_
    have hae : ∀ᵐ s ∂(volume.restrict (Ioi (0 : ℝ))), s ∉ ({t} : Set ℝ) :=
      ae_restrict_of_ae ((countable_singleton t).ae_notMem volume)
    filter_upwards [hae, ae_restrict_mem measurableSet_Ioi] with s hs hs0
    have hs : s ≠ t := hs
    have : FliesTo method (t : WithTop ℝ) s ↔ ¬ s < t := by
      cases method
      · simp [FliesTo]
      · simp only [FliesTo, WithTop.coe_lt_coe, not_lt]
        exact ⟨le_of_lt, fun h => lt_of_le_of_ne h hs.symm⟩
    by_cases h : s < t
    · rw [if_neg (by rw [this]; simpa using h), indicator_of_mem (show s ∈ Ioi 0 ∩ Iio t from ⟨hs0, h⟩)]
    · rw [if_pos (this.2 h), indicator_of_notMem fun k => h k.2, mul_zero]

theorem cellAt_mem {w : World} {x : Point} {c : Cell} (h : cellAt w x = some c) : c ∈ w.cells :=
  List.mem_of_find?_eq_some h

/-- What is expected of a neutron from its crossing of the nearest surface on. -/
noncomputable def crossed (w : World) (hit : SurfaceObj → Direction → ℕ → ℝ≥0∞)
    (E : Cell → Point → Direction → ℕ → ℝ≥0∞) (c : Cell) (x : Point) (d : Direction) (g : ℕ) : ℝ≥0∞ :=
  (faced c x d).elim 0 fun s => (cellAt w (beyond c x d)).elim 0 fun c' =>
    hit s d g + E c' (beyond c x d) d g

/-- One round of the walk. -/
theorem walkScore_succ {G : ℕ} {nodes : Nuclide → List MgNode} {w : World} {method : Method}
    {hit : SurfaceObj → Direction → ℕ → ℝ≥0∞} {n : ℕ} {c : Cell} {x : Point} {d : Direction} {g : ℕ}
    {m : Material} (hm : c.material = some m) (us : ℕ → ℝ) :
    walkScore G nodes w method hit (n + 1) c x d g us =
      if FliesTo method (ahead c x d) (-Real.log (1 - us 0) / macroscopic G nodes g m) then
        crossed w hit (fun c x d g => walkScore G nodes w method hit n c x d g fun k => us (k + 1)) c x d g
      else
        afterCollision G nodes m g
          (walkScore G nodes w method hit n c
            (along x d (-Real.log (1 - us 0) / macroscopic G nodes g m)))
          fun k => us (k + drawnBefore method) := by
  rw [walkScore, hm]
  rfl

theorem walkScore_none {G : ℕ} {nodes : Nuclide → List MgNode} {w : World} {method : Method}
    {hit : SurfaceObj → Direction → ℕ → ℝ≥0∞} {n : ℕ} {c : Cell} {x : Point} {d : Direction} {g : ℕ}
    (hm : c.material = none) (us : ℕ → ℝ) :
    walkScore G nodes w method hit n c x d g us = 0 := by
  cases n with
  | zero => rfl
  | succ n => rw [walkScore, hm]; rfl

theorem transported_some {G : ℕ} {nodes : Nuclide → List MgNode} {w : World}
    {hit : SurfaceObj → Direction → ℕ → ℝ≥0∞} {E : Cell → Point → Direction → ℕ → ℝ≥0∞} {c : Cell}
    {x : Point} {d : Direction} {g : ℕ} {m : Material} (hm : c.material = some m) :
    transported G nodes w hit E c x d g =
      (∫⁻ s in {s : ℝ | 0 < s ∧ (s : WithTop ℝ) < ahead c x d},
        ENNReal.ofReal (Real.exp (-(macroscopic G nodes g m * s))) *
          emission G nodes m g (E c (along x d s))) +
      if ahead c x d = ⊤ then 0 else
        ENNReal.ofReal (Real.exp (-(macroscopic G nodes g m * (ahead c x d).untopD 0))) *
          crossed w hit E c x d g := by
  rw [transported, hm]
  rfl

theorem measurable_crossed {w : World} {hit : SurfaceObj → Direction → ℕ → ℝ≥0∞}
    {E : (ℕ → ℝ) → Cell → Point → Direction → ℕ → ℝ≥0∞} {c : Cell} {x : Point} {d : Direction} {g : ℕ}
    (hE : ∀ c x, Measurable fun us => E us c x d g) :
    Measurable fun us => crossed w hit (E us) c x d g := by
  unfold crossed
  cases faced c x d with
  | none => exact measurable_const
  | some s =>
    cases cellAt w (beyond c x d) with
    | none => exact measurable_const
    | some c' => exact measurable_const.add (hE c' _)

theorem lintegral_crossed {w : World} {hit : SurfaceObj → Direction → ℕ → ℝ≥0∞}
    {E : (ℕ → ℝ) → Cell → Point → Direction → ℕ → ℝ≥0∞} {c : Cell} {x : Point} {d : Direction} {g : ℕ} :
    ∫⁻ us, crossed w hit (E us) c x d g ∂uniforms =
      crossed w hit (fun c x d g => ∫⁻ us, E us c x d g ∂uniforms) c x d g := by
  unfold crossed
  cases faced c x d with
  | none => simp
  | some s =>
    cases cellAt w (beyond c x d) with
    | none => simp
    | some c' =>
      simp only [Option.elim_some]
      rw [lintegral_add_left measurable_const, lintegral_const, measure_univ, mul_one]

theorem measurable_walkScore_us (G : ℕ) (nodes : Nuclide → List MgNode) (w : World) (method : Method)
    {hit : SurfaceObj → Direction → ℕ → ℝ≥0∞} (hh : ∀ s g, Measurable fun d => hit s d g) (n : ℕ)
    (c : Cell) (x : Point) (d : Direction) (g : ℕ) :
    Measurable fun us => walkScore G nodes w method hit n c x d g us :=
  (measurable_walkScore G nodes w method hh n c g).comp
    (measurable_const.prodMk (measurable_const.prodMk measurable_id))

theorem measurable_walkScore_along (G : ℕ) (nodes : Nuclide → List MgNode) (w : World) (method : Method)
    {hit : SurfaceObj → Direction → ℕ → ℝ≥0∞} (hh : ∀ s g, Measurable fun d => hit s d g) (n : ℕ)
    (c : Cell) (x : Point) (d : Direction) (g' : ℕ) :
    Measurable fun q : (ℝ × (ℕ → ℝ)) × Direction × (ℕ → ℝ) =>
      walkScore G nodes w method hit n c (along x d q.1.1) q.2.1 g' q.2.2 := by
  have h1 : Measurable fun q : (ℝ × (ℕ → ℝ)) × Direction × (ℕ → ℝ) => along x d q.1.1 :=
    Measurable.along measurable_const measurable_const (by fun_prop)
  exact (measurable_walkScore G nodes w method hh n c g').comp (h1.prodMk measurable_snd)

/-- The mean after a collision on the way. -/
theorem lintegral_walkCollision {G : ℕ} {nodes : Nuclide → List MgNode} {w : World}
    (hw : WellPosed G nodes w)
    (method : Method) {hit : SurfaceObj → Direction → ℕ → ℝ≥0∞}
    (hh : ∀ s g, Measurable fun d => hit s d g) (n : ℕ) {c : Cell} (hc : c ∈ w.cells) {m : Material}
    (hm : c.material = some m) (x : Point) {g : ℕ} (h1 : 1 ≤ g) (h2 : g ≤ G) :
    ENNReal.ofReal (macroscopic G nodes g m) * ∫⁻ us, afterCollision G nodes m g
        (walkScore G nodes w method hit n c x) (fun k => us (k + (drawnBefore method - 1))) ∂uniforms =
      emission G nodes m g (walkMean G nodes w method hit n c x) := by
  have hS := Props.group_shares hw hc hm h1 h2
  have hM : 0 < macroscopic G nodes g m := mul_pos (hw.density c hc m hm) hS
  have mnext : ∀ g', Measurable fun q : Direction × (ℕ → ℝ) =>
      walkScore G nodes w method hit n c x q.1 g' q.2 := fun g' =>
    (measurable_walkScore G nodes w method hh n c g').comp (measurable_const.prodMk measurable_id)
  have mcoll : Measurable fun us => afterCollision G nodes m g
      (walkScore G nodes w method hit n c x) us :=
    measurable_afterCollision (α := ℕ → ℝ) G nodes m g
      (next := fun _ => walkScore G nodes w method hit n c x)
      (fun g' => (mnext g').comp measurable_snd) measurable_id
  have eB : ∫⁻ us, afterCollision G nodes m g
        (walkScore G nodes w method hit n c x) (fun k => us (k + (drawnBefore method - 1))) ∂uniforms =
      ∫⁻ us, afterCollision G nodes m g (walkScore G nodes w method hit n c x) us ∂uniforms := by
    cases method
    · rfl
    · exact lintegral_skip mcoll
  rw [eB, lintegral_afterCollision
    (fun e he => (hw.data c hc m hm e he).1.le)
    (fun e he => by obtain ⟨_, _, _, _, h, _⟩ := hw.data c hc m hm e he; exact h) mnext]
  unfold emission
  rw [Finset.mul_sum]
  refine Finset.sum_congr rfl fun g' _ => ?_
  rw [← mul_assoc, ← ENNReal.ofReal_mul hM.le]
  congr 2
  unfold macroscopic transferRate
  have hS' : (m.afracs.map fun e => e.2 * specTotal G (nodes e.1) g).sum ≠ 0 := hS.ne'
  field_simp

/-- One more round of the walk is one application of the right hand side of the equation. -/
theorem walkMean_succ {G : ℕ} {nodes : Nuclide → List MgNode} {w : World} (hw : WellPosed G nodes w)
    (method : Method) {hit : SurfaceObj → Direction → ℕ → ℝ≥0∞}
    (hh : ∀ s g, Measurable fun d => hit s d g) (n : ℕ) {c : Cell} (hc : c ∈ w.cells) (x : Point)
    (d : Direction) {g : ℕ} (h1 : 1 ≤ g) (h2 : g ≤ G) :
    walkMean G nodes w method hit (n + 1) c x d g =
      transported G nodes w hit (walkMean G nodes w method hit n) c x d g := by
  cases hm : c.material with
  | none =>
    unfold walkMean transported
    simp [walkScore_none hm, hm]
  | some m =>
    have hM : 0 < macroscopic G nodes g m :=
      mul_pos (hw.density c hc m hm) (Props.group_shares hw hc hm h1 h2)
    have mA := measurable_crossed (w := w) (hit := hit) (c := c) (x := x) (d := d) (g := g)
      (E := fun us c x d g => walkScore G nodes w method hit n c x d g us)
      fun c x => measurable_walkScore_us G nodes w method hh n c x d g
    have mB : Measurable fun q : ℝ × (ℕ → ℝ) => afterCollision G nodes m g
        (walkScore G nodes w method hit n c (along x d q.1))
        fun k => q.2 (k + (drawnBefore method - 1)) :=
      measurable_afterCollision G nodes m g
        (next := fun q : ℝ × (ℕ → ℝ) => walkScore G nodes w method hit n c (along x d q.1))
        (fun g' => measurable_walkScore_along G nodes w method hh n c x d g')
        (measurable_shift measurable_snd _)
    have hl : Measurable fun q : ℝ × (ℕ → ℝ) => -Real.log (1 - q.1) / macroscopic G nodes g m := by
      fun_prop
    have hF := @Measurable.ite _ _ _ _ _ _ _ (fun _ => propDecidable _) (measurableSet_reaches' method (t := fun _ => ahead c x d)
      measurable_const hl) (mA.comp measurable_snd) (mB.comp (hl.prodMk measurable_snd))
    have e0 : ∀ us : ℕ → ℝ, walkScore G nodes w method hit (n + 1) c x d g us =
        (fun (u : ℝ) (us : ℕ → ℝ) =>
          if FliesTo method (ahead c x d) (-Real.log (1 - u) / macroscopic G nodes g m) then
            crossed w hit (fun c x d g => walkScore G nodes w method hit n c x d g us) c x d g
          else afterCollision G nodes m g
            (walkScore G nodes w method hit n c
              (along x d (-Real.log (1 - u) / macroscopic G nodes g m)))
            fun k => us (k + (drawnBefore method - 1))) (us 0) fun k => us (k + 1) := by
      intro us
      rw [walkScore_succ hm]
      cases method <;> rfl
    have e1 : ∀ u : ℝ, ∫⁻ us,
          (if FliesTo method (ahead c x d) (-Real.log (1 - u) / macroscopic G nodes g m) then
            crossed w hit (fun c x d g => walkScore G nodes w method hit n c x d g us) c x d g
          else afterCollision G nodes m g
            (walkScore G nodes w method hit n c
              (along x d (-Real.log (1 - u) / macroscopic G nodes g m)))
            fun k => us (k + (drawnBefore method - 1))) ∂uniforms =
        if FliesTo method (ahead c x d) (-Real.log (1 - u) / macroscopic G nodes g m) then
          crossed w hit (walkMean G nodes w method hit n) c x d g
        else (fun y => ∫⁻ us, afterCollision G nodes m g
            (walkScore G nodes w method hit n c (along x d y))
            (fun k => us (k + (drawnBefore method - 1))) ∂uniforms)
          (-Real.log (1 - u) / macroscopic G nodes g m) := by
      intro u
      split_ifs
      · exact lintegral_crossed
      · rfl
    have e2 := lintegral_first (F := fun (u : ℝ) (us : ℕ → ℝ) =>
            if FliesTo method (ahead c x d) (-Real.log (1 - u) / macroscopic G nodes g m) then
              crossed w hit (fun c x d g => walkScore G nodes w method hit n c x d g us) c x d g
            else afterCollision G nodes m g
              (walkScore G nodes w method hit n c
                (along x d (-Real.log (1 - u) / macroscopic G nodes g m)))
              fun k => us (k + (drawnBefore method - 1))) hF
    rw [transported_some hm]
    refine (lintegral_congr e0).trans (e2.trans ((lintegral_congr e1).trans ?_))
    refine (lintegral_round c method hM (t := ahead c x d) (fun r hr => ahead_pos hr)
      (crossed w hit (walkMean G nodes w method hit n) c x d g)
      fun y => ∫⁻ us, afterCollision G nodes m g (walkScore G nodes w method hit n c (along x d y))
        (fun k => us (k + (drawnBefore method - 1))) ∂uniforms).trans ?_
    congr 1
    refine lintegral_congr fun s => ?_
    rw [mul_comm (macroscopic G nodes g m), ENNReal.ofReal_mul (Real.exp_pos _).le, mul_assoc,
      lintegral_walkCollision hw method hh n hc hm _ h1 h2]

end Minimc
