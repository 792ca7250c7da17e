import Verif.Spec.Chain
import Verif.Lemmas.WalkLimit
import Verif.Lemmas.WalkBound
import Mathlib.MeasureTheory.Function.Floor

/-! # Chains of neutrons: measurability and means -/

namespace Minimc

open Classical MeasureTheory Spec Set
open scoped ENNReal

theorem endless_rest (k : ℕ) (us : ℕ → ℝ) : endless.rest^[k] us = fun j => us (j + k) := by
  induction k generalizing us with
  | zero => rfl
  | succ k ih =>
    rw [Function.iterate_succ_apply, ih]
    funext j
    change us (j + k + 1) = us (j + (k + 1))
    rw [add_assoc]

theorem endless_numbers (us : ℕ → ℝ) (k : ℕ) : endless.numbers us k = us k := by
  unfold Supply.numbers
  rw [endless_rest]
  change us (0 + k) = us k
  rw [zero_add]

theorem endless_number (us : ℕ → ℝ) : endless.number us = us 0 := rfl

/-! ### Splitting a sequence -/

/-- A selection of the numbers of a sequence is distributed as the sequence is. -/
theorem measurePreserving_select {f : ℕ → ℕ} (hf : Function.Injective f) :
    MeasurePreserving (fun (us : ℕ → ℝ) k => us (f k)) uniforms uniforms := by
  have hm : Measurable fun (us : ℕ → ℝ) k => us (f k) :=
    measurable_pi_iff.2 fun k => measurable_pi_apply (f k)
  refine ⟨hm, ?_⟩
  unfold uniforms
  refine Measure.eq_infinitePi _ fun s t ht => ?_
  have hset : MeasurableSet ((s : Set ℕ).pi t) :=
    MeasurableSet.pi s.countable_toSet fun i _ => ht i
  rw [Measure.map_apply hm hset]
  have hpre : (fun (us : ℕ → ℝ) k => us (f k)) ⁻¹' ((s : Set ℕ).pi t) =
      ((s.image f : Finset ℕ) : Set ℕ).pi fun j => t (Function.invFun f j) := by
    ext us
    simp only [mem_preimage, Set.mem_pi, Finset.mem_coe, Finset.mem_image, forall_exists_index, and_imp,
      forall_apply_eq_imp_iff₂, Function.leftInverse_invFun hf _]
  rw [hpre, Measure.infinitePi_pi _ fun j _ => ht _, Finset.prod_image fun a _ b _ h => hf h]
  exact Finset.prod_congr rfl fun i _ => by rw [Function.leftInverse_invFun hf i]

theorem measurePreserving_child : MeasurePreserving endless.child uniforms uniforms :=
  measurePreserving_select (f := fun k => 2 * k) fun a b h => by simpa using h

theorem measurePreserving_after : MeasurePreserving endless.after uniforms uniforms :=
  measurePreserving_select (f := fun k => 2 * k + 1) fun a b h => by simpa using h

variable {α : Type*} [MeasurableSpace α]

theorem measurable_births (ws : List ℝ) {start : α → Direction → ℕ → (ℕ → ℝ) → ℝ≥0∞}
    (hs : ∀ g', Measurable fun q : α × Direction × (ℕ → ℝ) => start q.1 q.2.1 g' q.2.2) (k : ℕ) :
    Measurable fun q : α × (ℕ → ℝ) => births endless ws (start q.1) k q.2 := by
  induction k with
  | zero => exact measurable_const
  | succ k ih =>
    simp only [births, endless_numbers, endless_rest, endless_number]
    have hu : Measurable fun q : α × (ℕ → ℝ) => q.2 := measurable_snd
    refine measurable_byWeight _ (measurable_at hu 0) fun j => ?_
    refine Measurable.add ?_ ?_
    · exact (hs (j + 1)).comp (measurable_fst.prodMk ((measurable_directionFrom (measurable_at hu 1)
        (measurable_at hu 2)).prodMk (measurePreserving_child.measurable.comp (measurable_shift hu 3))))
    · exact ih.comp (measurable_fst.prodMk
        (measurePreserving_after.measurable.comp (measurable_shift hu 3)))

/-- What fission adds to the score of a collision. -/
noncomputable def afterFission (G : ℕ) (nodes : Nuclide → List MgNode) (m : Material) (g : ℕ)
    (start : Direction → ℕ → (ℕ → ℝ) → ℝ≥0∞) (us : ℕ → ℝ) : ℝ≥0∞ :=
  byWeight (m.afracs.map fun e => e.2 * specTotal G (nodes e.1) g) (us 0) fun i =>
    m.afracs[i]?.elim 0 fun e =>
      byWeight [specXS G (nodes e.1) .capture g, specXS G (nodes e.1) .scatter g,
          specXS G (nodes e.1) .fission g] (us 1) fun r =>
        if r = 2 then
          births endless (colEntries G (chiTable (nodes e.1)) g) start
            ⌊entry1 (nubarTable (nodes e.1)) g + us 2⌋₊ fun k => us (k + 3)
        else 0

theorem byWeight_add (ws : List ℝ) (u : ℝ) (F F' : ℕ → ℝ≥0∞) :
    byWeight ws u (fun i => F i + F' i) = byWeight ws u F + byWeight ws u F' := by
  unfold byWeight
  rw [← Finset.sum_add_distrib]
  refine Finset.sum_congr rfl fun i _ => ?_
  split_ifs <;> simp

theorem afterEvent_eq (G : ℕ) (nodes : Nuclide → List MgNode) (m : Material) (g : ℕ)
    (next start : Direction → ℕ → (ℕ → ℝ) → ℝ≥0∞) (us : ℕ → ℝ) :
    afterEvent endless G nodes m g next start us =
      afterCollision G nodes m g next us + afterFission G nodes m g start us := by
  unfold afterEvent afterCollision afterFission
  rw [← byWeight_add]
  simp only [endless_numbers, endless_rest]
  congr 1
  funext i
  cases m.afracs[i]? with
  | none => simp
  | some e =>
    simp only [Option.elim_some]
    rw [← byWeight_add]
    congr 1
    funext r
    by_cases h1 : r = 1
    · subst h1
      simp
    · by_cases h2 : r = 2
      · simp [h2]
      · simp [h1, h2]

theorem measurable_afterFission (G : ℕ) (nodes : Nuclide → List MgNode) (m : Material) (g : ℕ)
    {start : α → Direction → ℕ → (ℕ → ℝ) → ℝ≥0∞}
    (hs : ∀ g', Measurable fun q : α × Direction × (ℕ → ℝ) => start q.1 q.2.1 g' q.2.2)
    {us : α → ℕ → ℝ} (hu : Measurable us) :
    Measurable fun a => afterFission G nodes m g (start a) (us a) := by
  unfold afterFission
  refine measurable_byWeight _ (measurable_at hu 0) fun i => ?_
  cases m.afracs[i]? with
  | none => exact measurable_const
  | some e =>
    refine measurable_byWeight _ (measurable_at hu 1) fun r => ?_
    split_ifs
    · have hN : Measurable fun a => ⌊entry1 (nubarTable (nodes e.1)) g + us a 2⌋₊ :=
        Nat.measurable_floor.comp (measurable_const.add (measurable_at hu 2))
      have hb : Measurable fun q : α × ℕ =>
          births endless (colEntries G (chiTable (nodes e.1)) g) (start q.1) q.2
            fun k => us q.1 (k + 3) :=
        measurable_from_prod_countable_left fun k =>
          (measurable_births _ hs k).comp (measurable_id.prodMk (measurable_shift hu 3))
      exact hb.comp (measurable_id.prodMk hN)
    · exact measurable_const

/-- What a new neutron scores at a place. -/
noncomputable def startAt {σ : Type} (w : World) (next : Cell → Point → Direction → ℕ → σ → ℝ≥0∞)
    (x : Point) (d : Direction) (g : ℕ) (s : σ) : ℝ≥0∞ :=
  (cellAt w x).elim 0 fun c => next c x d g s

/-- Nothing is scored where there is no material. -/
def Vanishes {σ : Type} (next : Cell → Point → Direction → ℕ → σ → ℝ≥0∞) : Prop :=
  ∀ c x d g s, c.material = none → next c x d g s = 0

theorem oneRound_some {σ : Type} {S : Supply σ} {G : ℕ} {nodes : Nuclide → List MgNode} {w : World}
    {method : Method} {hit : SurfaceObj → Direction → ℕ → ℝ≥0∞}
    {next : Cell → Point → Direction → ℕ → σ → ℝ≥0∞} {c : Cell} {x : Point}
    {d : Direction} {g : ℕ} {m : Material} (hm : c.material = some m) (s : σ) :
    oneRound S G nodes w method hit next c x d g s =
      if FliesTo method (ahead c x d) (-Real.log (1 - S.number s) / macroscopic G nodes g m) then
        crossed w hit (fun c x d g => next c x d g (S.rest s)) c x d g
      else
        afterEvent S G nodes m g
          (next c (along x d (-Real.log (1 - S.number s) / macroscopic G nodes g m)))
          (startAt w next (along x d (-Real.log (1 - S.number s) / macroscopic G nodes g m)))
          (S.rest^[drawnBefore method] s) := by
  rw [oneRound, hm]
  rfl

theorem chainScore_succ {σ : Type} {S : Supply σ} {G : ℕ} {nodes : Nuclide → List MgNode} {w : World}
    {method : Method} {hit : SurfaceObj → Direction → ℕ → ℝ≥0∞} {n : ℕ} {c : Cell} {x : Point}
    {d : Direction} {g : ℕ} {m : Material} (hm : c.material = some m) (s : σ) :
    chainScore S G nodes w method hit (n + 1) c x d g s =
      if FliesTo method (ahead c x d) (-Real.log (1 - S.number s) / macroscopic G nodes g m) then
        crossed w hit (fun c x d g => chainScore S G nodes w method hit n c x d g (S.rest s)) c x d g
      else
        afterEvent S G nodes m g
          (chainScore S G nodes w method hit n c
            (along x d (-Real.log (1 - S.number s) / macroscopic G nodes g m)))
          (fun d' g' s' =>
            (cellAt w (along x d (-Real.log (1 - S.number s) / macroscopic G nodes g m))).elim 0 fun c' =>
              chainScore S G nodes w method hit n c'
                (along x d (-Real.log (1 - S.number s) / macroscopic G nodes g m)) d' g' s')
          (S.rest^[drawnBefore method] s) := by
  rw [chainScore, oneRound, hm]
  rfl

theorem chainScore_none {σ : Type} {S : Supply σ} {G : ℕ} {nodes : Nuclide → List MgNode} {w : World}
    {method : Method} {hit : SurfaceObj → Direction → ℕ → ℝ≥0∞} {n : ℕ} {c : Cell} {x : Point}
    {d : Direction} {g : ℕ} (hm : c.material = none) (s : σ) :
    chainScore S G nodes w method hit n c x d g s = 0 := by
  cases n with
  | zero => rfl
  | succ n => rw [chainScore, oneRound, hm]; rfl

/-- The score of the chain depends measurably on everything. -/
theorem measurable_chainScore (G : ℕ) (nodes : Nuclide → List MgNode) (w : World) (method : Method)
    {hit : SurfaceObj → Direction → ℕ → ℝ≥0∞} (hh : ∀ s g, Measurable fun d => hit s d g) (n : ℕ)
    (c : Cell) (g : ℕ) : Measurable fun q : Point × Direction × (ℕ → ℝ) =>
      chainScore endless G nodes w method hit n c q.1 q.2.1 g q.2.2 := by
  induction n generalizing c g with
  | zero => exact measurable_const
  | succ n ih =>
    cases hm : c.material with
    | none =>
      simp only [chainScore_none hm]
      exact measurable_const
    | some m =>
      simp only [chainScore_succ hm, afterEvent_eq, endless_rest, endless_number]
      have hx : Measurable fun q : Point × Direction × (ℕ → ℝ) => q.1 := measurable_fst
      have hd : Measurable fun q : Point × Direction × (ℕ → ℝ) => q.2.1 := by fun_prop
      have hu : Measurable fun q : Point × Direction × (ℕ → ℝ) => q.2.2 := by fun_prop
      have hf : Measurable fun q : Point × Direction × (ℕ → ℝ) =>
          -Real.log (1 - q.2.2 0) / macroscopic G nodes g m := by
        have := measurable_at hu 0
        fun_prop
      have hb := measurable_beyond c hx hd
      have h1 : Measurable fun q : (Point × Direction × (ℕ → ℝ)) × Direction × (ℕ → ℝ) =>
          along q.1.1 q.1.2.1 (-Real.log (1 - q.1.2.2 0) / macroscopic G nodes g m) :=
        Measurable.along (by fun_prop) (by fun_prop) (hf.comp measurable_fst)
      refine Measurable.ite (measurableSet_reaches' method (measurable_ahead c hx hd) hf) ?_ ?_
      · refine measurable_faced c hx hd fun s => ?_
        refine measurable_cellAt w hb fun c' _ => ?_
        exact ((hh s g).comp hd).add ((ih c' g).comp (hb.prodMk (hd.prodMk (measurable_shift hu 1))))
      · refine Measurable.add ?_ ?_
        · refine measurable_afterCollision G nodes m g (fun g' => ?_)
            (measurable_shift hu (drawnBefore method))
          exact (ih c g').comp (h1.prodMk measurable_snd)
        · refine measurable_afterFission G nodes m g (fun g' => ?_)
            (measurable_shift hu (drawnBefore method))
          exact measurable_cellAt w h1 fun c' _ => (ih c' g').comp (h1.prodMk measurable_snd)

end Minimc
