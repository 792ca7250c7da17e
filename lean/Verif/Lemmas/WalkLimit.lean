import Verif.Lemmas.WalkRounds

/-! # All rounds -/

namespace Minimc

open Classical MeasureTheory Spec Set
open scoped ENNReal

theorem byWeight_mono {ws : List ℝ} {u : ℝ} {F F' : ℕ → ℝ≥0∞} (h : ∀ i, F i ≤ F' i) :
    byWeight ws u F ≤ byWeight ws u F' := by
  unfold byWeight
  refine Finset.sum_le_sum fun i _ => ?_
  split_ifs
  · exact h i
  · exact le_rfl

theorem afterCollision_mono {G : ℕ} {nodes : Nuclide → List MgNode} {m : Material} {g : ℕ}
    {next next' : Direction → ℕ → (ℕ → ℝ) → ℝ≥0∞} (h : ∀ d g us, next d g us ≤ next' d g us)
    (us : ℕ → ℝ) : afterCollision G nodes m g next us ≤ afterCollision G nodes m g next' us := by
  unfold afterCollision
  refine byWeight_mono fun i => ?_
  cases m.afracs[i]? with
  | none => exact le_rfl
  | some e =>
    refine byWeight_mono fun r => ?_
    split_ifs
    · exact byWeight_mono fun j => h _ _ _
    · exact le_rfl

theorem crossed_mono {w : World} {hit : SurfaceObj → Direction → ℕ → ℝ≥0∞}
    {E E' : Cell → Point → Direction → ℕ → ℝ≥0∞} {c : Cell} {x : Point} {d : Direction} {g : ℕ}
    (h : ∀ c ∈ w.cells, ∀ x, E c x d g ≤ E' c x d g) :
    crossed w hit E c x d g ≤ crossed w hit E' c x d g := by
  unfold crossed
  cases faced c x d with
  | none => exact le_rfl
  | some s =>
    cases hc : cellAt w (beyond c x d) with
    | none => exact le_rfl
    | some c' => exact add_le_add le_rfl (h c' (cellAt_mem hc) _)

theorem walkScore_mono {G : ℕ} {nodes : Nuclide → List MgNode} {w : World} {method : Method}
    {hit : SurfaceObj → Direction → ℕ → ℝ≥0∞} (n : ℕ) (c : Cell) (x : Point) (d : Direction) (g : ℕ)
    (us : ℕ → ℝ) :
    walkScore G nodes w method hit n c x d g us ≤ walkScore G nodes w method hit (n + 1) c x d g us := by
  induction n generalizing c x d g us with
  | zero => exact zero_le
  | succ n ih =>
    cases hm : c.material with
    | none => rw [walkScore_none hm, walkScore_none hm]
    | some m =>
      rw [walkScore_succ hm, walkScore_succ hm]
      split_ifs
      · exact crossed_mono fun c _ x => ih c x d g _
      · exact afterCollision_mono (fun d g us => ih c _ d g us) _

theorem walkScore_monotone {G : ℕ} {nodes : Nuclide → List MgNode} {w : World} {method : Method}
    {hit : SurfaceObj → Direction → ℕ → ℝ≥0∞} (c : Cell) (x : Point) (d : Direction) (g : ℕ)
    (us : ℕ → ℝ) : Monotone fun n => walkScore G nodes w method hit n c x d g us :=
  monotone_nat_of_le_succ fun n => walkScore_mono n c x d g us

theorem walkMean_monotone {G : ℕ} {nodes : Nuclide → List MgNode} {w : World} {method : Method}
    {hit : SurfaceObj → Direction → ℕ → ℝ≥0∞} (c : Cell) (x : Point) (d : Direction) (g : ℕ) :
    Monotone fun n => walkMean G nodes w method hit n c x d g :=
  fun _ _ h => lintegral_mono fun us => walkScore_monotone c x d g us h

theorem meanScore_eq {G : ℕ} {nodes : Nuclide → List MgNode} {w : World} {method : Method}
    {hit : SurfaceObj → Direction → ℕ → ℝ≥0∞} (hh : ∀ s g, Measurable fun d => hit s d g)
    (c : Cell) (x : Point) (d : Direction) (g : ℕ) :
    meanScore G nodes w method hit c x d g = ⨆ n, walkMean G nodes w method hit n c x d g := by
  unfold meanScore walkMean
  refine lintegral_iSup (fun n => measurable_walkScore_us G nodes w method hh n c x d g) ?_
  exact fun a b h us => walkScore_monotone c x d g us h

theorem measurable_walkMean {G : ℕ} {nodes : Nuclide → List MgNode} {w : World} {method : Method}
    {hit : SurfaceObj → Direction → ℕ → ℝ≥0∞} (hh : ∀ s g, Measurable fun d => hit s d g) (n : ℕ)
    (c : Cell) (g : ℕ) :
    Measurable fun q : Point × Direction => walkMean G nodes w method hit n c q.1 q.2 g := by
  unfold walkMean
  have h := (measurable_walkScore G nodes w method hh n c g).comp
    (f := fun q : (Point × Direction) × (ℕ → ℝ) => (q.1.1, q.1.2, q.2)) (by fun_prop)
  exact h.lintegral_prod_right'

/-- The mean over the sphere as a mean over two numbers. -/
theorem sphereMean_eq {F : Direction → ℝ≥0∞} (hF : Measurable F) :
    sphereMean F = ∫⁻ us, F (directionFrom (us 0) (us 1)) ∂uniforms := by
  have h := lintegral_directionFrom (F := fun d _ => F d) (hF.comp measurable_fst)
  simp only [lintegral_const, measure_univ, mul_one] at h
  exact h.symm

theorem sphereMean_mono {F F' : Direction → ℝ≥0∞} (h : ∀ d, F d ≤ F' d) :
    sphereMean F ≤ sphereMean F' := by
  unfold sphereMean
  gcongr
  exact h _

theorem sphereMean_iSup {F : ℕ → Direction → ℝ≥0∞} (hF : ∀ n, Measurable (F n)) (hm : Monotone F) :
    sphereMean (fun d => ⨆ n, F n d) = ⨆ n, sphereMean (F n) := by
  rw [sphereMean_eq (Measurable.iSup hF)]
  simp only [fun n => sphereMean_eq (hF n)]
  refine lintegral_iSup (fun n => (hF n).comp (measurable_directionFrom (measurable_pi_apply 0)
    (measurable_pi_apply 1))) ?_
  exact fun a b h us => hm h _

theorem measurable_sphereMean {F : ℝ → Direction → ℝ≥0∞}
    (hF : Measurable fun q : ℝ × Direction => F q.1 q.2) : Measurable fun s => sphereMean (F s) := by
  have e : (fun s => sphereMean (F s)) = fun s => ∫⁻ us, F s (directionFrom (us 0) (us 1)) ∂uniforms := by
    funext s
    exact sphereMean_eq (hF.comp (measurable_const.prodMk measurable_id))
  rw [e]
  have h := hF.comp (f := fun q : ℝ × (ℕ → ℝ) => (q.1, directionFrom (q.2 0) (q.2 1)))
    (measurable_fst.prodMk (measurable_directionFrom (measurable_at measurable_snd 0)
      (measurable_at measurable_snd 1)))
  exact h.lintegral_prod_right'

theorem emission_mono {G : ℕ} {nodes : Nuclide → List MgNode} {m : Material} {g : ℕ}
    {E E' : Direction → ℕ → ℝ≥0∞} (h : ∀ d g, 1 ≤ g → g ≤ G → E d g ≤ E' d g) :
    emission G nodes m g E ≤ emission G nodes m g E' := by
  unfold emission
  refine Finset.sum_le_sum fun g' hg => ?_
  rw [Finset.mem_Icc] at hg
  gcongr
  exact sphereMean_mono fun d => h d g' hg.1 hg.2

theorem emission_iSup {G : ℕ} {nodes : Nuclide → List MgNode} {m : Material} {g : ℕ}
    {E : ℕ → Direction → ℕ → ℝ≥0∞} (hE : ∀ n g, Measurable fun d => E n d g) (hm : Monotone E) :
    emission G nodes m g (fun d g => ⨆ n, E n d g) = ⨆ n, emission G nodes m g (E n) := by
  unfold emission
  rw [← ENNReal.finsetSum_iSup_of_monotone]
  · refine Finset.sum_congr rfl fun g' _ => ?_
    rw [← ENNReal.mul_iSup, sphereMean_iSup (fun n => hE n g') fun a b h d => hm h d g']
  · intro g' a b h
    dsimp only
    gcongr
    exact sphereMean_mono fun d => hm h d g'

theorem crossed_iSup {w : World} {hit : SurfaceObj → Direction → ℕ → ℝ≥0∞}
    {E : ℕ → Cell → Point → Direction → ℕ → ℝ≥0∞} {c : Cell} {x : Point} {d : Direction} {g : ℕ} :
    crossed w hit (fun c x d g => ⨆ n, E n c x d g) c x d g = ⨆ n, crossed w hit (E n) c x d g := by
  unfold crossed
  cases faced c x d with
  | none => simp
  | some s =>
    cases hc : cellAt w (beyond c x d) with
    | none => simp
    | some c' => simp only [Option.elim_some, ENNReal.add_iSup]

theorem transported_mono {G : ℕ} {nodes : Nuclide → List MgNode} {w : World}
    {hit : SurfaceObj → Direction → ℕ → ℝ≥0∞} {E E' : Cell → Point → Direction → ℕ → ℝ≥0∞}
    (h : ∀ c ∈ w.cells, ∀ x d g, 1 ≤ g → g ≤ G → E c x d g ≤ E' c x d g) {c : Cell} (hc : c ∈ w.cells)
    (x : Point) (d : Direction) {g : ℕ} (h1 : 1 ≤ g) (h2 : g ≤ G) :
    transported G nodes w hit E c x d g ≤ transported G nodes w hit E' c x d g := by
  cases hm : c.material with
  | none => simp [transported, hm]
  | some m =>
    rw [transported_some hm, transported_some hm]
    refine add_le_add (lintegral_mono fun s => ?_) ?_
    · dsimp only
      gcongr
      exact emission_mono fun d g h1 h2 => h c hc _ d g h1 h2
    · split_ifs
      · exact le_rfl
      · gcongr
        exact crossed_mono fun c hc x => h c hc x d g h1 h2

theorem transported_iSup {G : ℕ} {nodes : Nuclide → List MgNode} {w : World}
    {hit : SurfaceObj → Direction → ℕ → ℝ≥0∞} {E : ℕ → Cell → Point → Direction → ℕ → ℝ≥0∞}
    (hE : ∀ n c g, Measurable fun q : Point × Direction => E n c q.1 q.2 g) (hmono : Monotone E)
    (c : Cell) (x : Point) (d : Direction) (g : ℕ) :
    transported G nodes w hit (fun c x d g => ⨆ n, E n c x d g) c x d g =
      ⨆ n, transported G nodes w hit (E n) c x d g := by
  cases hm : c.material with
  | none => simp [transported, hm]
  | some m =>
    simp only [transported_some hm]
    have hem : ∀ s, emission G nodes m g (fun d' g' => ⨆ n, E n c (along x d s) d' g') =
        ⨆ n, emission G nodes m g (E n c (along x d s)) := fun s =>
      emission_iSup (fun n g' => (hE n c g').comp (measurable_const.prodMk measurable_id))
        fun a b h d' g' => hmono h c _ d' g'
    have hmeas : ∀ n, Measurable fun s => ENNReal.ofReal (Real.exp (-(macroscopic G nodes g m * s))) *
        emission G nodes m g (E n c (along x d s)) := by
      intro n
      refine Measurable.mul (by fun_prop) ?_
      unfold emission
      refine Finset.measurable_fun_sum _ fun g' _ => Measurable.mul measurable_const ?_
      have hal : Measurable fun q : ℝ × Direction => along x d q.1 :=
        Measurable.along measurable_const measurable_const measurable_fst
      exact measurable_sphereMean (F := fun s d' => E n c (along x d s) d' g')
        ((hE n c g').comp (hal.prodMk measurable_snd))
    have hint : ∫⁻ s in {s : ℝ | 0 < s ∧ (s : WithTop ℝ) < ahead c x d},
          ENNReal.ofReal (Real.exp (-(macroscopic G nodes g m * s))) *
            emission G nodes m g (fun d' g' => ⨆ n, E n c (along x d s) d' g') =
        ⨆ n, ∫⁻ s in {s : ℝ | 0 < s ∧ (s : WithTop ℝ) < ahead c x d},
          ENNReal.ofReal (Real.exp (-(macroscopic G nodes g m * s))) *
            emission G nodes m g (E n c (along x d s)) := by
      rw [← lintegral_iSup hmeas]
      · refine lintegral_congr fun s => ?_
        rw [hem, ENNReal.mul_iSup]
      · intro a b h s
        dsimp only
        gcongr
        exact emission_mono fun d' g' _ _ => hmono h c _ d' g'
    rw [hint, crossed_iSup]
    have hif : (if ahead c x d = ⊤ then 0 else
          ENNReal.ofReal (Real.exp (-(macroscopic G nodes g m * (ahead c x d).untopD 0))) *
            ⨆ n, crossed w hit (E n) c x d g) =
        ⨆ n, if ahead c x d = ⊤ then 0 else
          ENNReal.ofReal (Real.exp (-(macroscopic G nodes g m * (ahead c x d).untopD 0))) *
            crossed w hit (E n) c x d g := by
      split_ifs
      · simp
      · rw [ENNReal.mul_iSup]
    rw [hif, ENNReal.iSup_add_iSup_of_monotone]
    · intro a b h
      refine lintegral_mono fun s => ?_
      dsimp only
      gcongr
      exact emission_mono fun d' g' _ _ => hmono h c _ d' g'
    · intro a b h
      dsimp only
      split_ifs
      · exact le_rfl
      · gcongr
        exact crossed_mono fun c _ x => hmono h c x d g

end Minimc
