import Verif.Spec.Reliable
import Verif.Props.GasSubcritical
import Verif.Props.Subcritical
import Verif.Props.Drizzle

/-! # Properties: results of problems in which neutrons die out (C106) -/

namespace Minimc.Props

open Classical Spec MeasureTheory ProbabilityTheory Filter Topology
open scoped ENNReal

/-! ### Bounds of finite data -/

theorem list_bound {α : Type} {p : α → ℝ → Prop} (hp : ∀ x M N, M ≤ N → p x M → p x N) (l : List α)
    (h : ∀ x ∈ l, ∃ N, p x N) : ∃ N, 0 ≤ N ∧ ∀ x ∈ l, p x N := by
  induction l with
  | nil => exact ⟨0, le_rfl, by simp⟩
  | cons y l ih =>
    obtain ⟨N, h0, hN⟩ := ih fun x hx => h x (List.mem_cons_of_mem _ hx)
    obtain ⟨M, hM⟩ := h y List.mem_cons_self
    refine ⟨max N M, h0.trans (le_max_left _ _), fun x hx => ?_⟩
    rcases List.mem_cons.1 hx with rfl | hx
    · exact hp _ _ _ (le_max_right _ _) hM
    · exact hp _ _ _ (le_max_left _ _) (hN x hx)

theorem entry1_bound (l : List ℝ) : ∃ N, ∀ g, entry1 l g ≤ N := by
  obtain ⟨N, h0, hN⟩ := list_bound (p := fun x N => x ≤ N) (fun _ _ _ h h' => h'.trans h) l
    fun x _ => ⟨x, le_rfl⟩
  refine ⟨N, fun g => ?_⟩
  unfold entry1
  rw [List.getD_eq_getElem?_getD]
  cases h : l[g - 1]? with
  | none => exact h0
  | some x => exact hN x (List.mem_of_getElem? h)

/-- There are only finitely many yields. -/
theorem yields_bounded (G : ℕ) (nodes : Nuclide → List MgNode) (w : World) :
    ∃ N, 0 ≤ N ∧ ∀ c ∈ w.cells, ∀ m, c.material = some m → ∀ e ∈ m.afracs, ∀ g, 1 ≤ g → g ≤ G →
      entry1 (nubarTable (nodes e.1)) g ≤ N := by
  refine list_bound (p := fun (c : Cell) N => ∀ m, c.material = some m → ∀ e ∈ m.afracs, ∀ g, 1 ≤ g →
    g ≤ G → entry1 (nubarTable (nodes e.1)) g ≤ N)
    (fun c M N h h' m hm e he g h1 h2 => (h' m hm e he g h1 h2).trans h) w.cells fun c _ => ?_
  cases hm : c.material with
  | none => exact ⟨0, by simp⟩
  | some m =>
    obtain ⟨N, -, hN⟩ := list_bound (p := fun (e : Nuclide × ℝ) N => ∀ g,
      entry1 (nubarTable (nodes e.1)) g ≤ N) (fun e M N h h' g => (h' g).trans h) m.afracs
      fun e _ => entry1_bound _
    refine ⟨N, fun m' hm' e he g _ _ => ?_⟩
    cases hm'
    exact hN e he g

/-- Values between two others. -/
theorem line_le {a b : ℝ × ℝ} {e N : ℝ} (h1 : a.1 < e) (h2 : e ≤ b.1) (ha : a.2 ≤ N) (hb : b.2 ≤ N) :
    line a b e ≤ N := by
  have hab : 0 < b.1 - a.1 := by linarith
  have key : line a b e = (a.2 * (b.1 - e) + b.2 * (e - a.1)) / (b.1 - a.1) := by
    unfold line
    field_simp
  rw [key, div_le_iff₀ hab]
  nlinarith [mul_le_mul_of_nonneg_right ha (sub_nonneg.2 h2),
    mul_le_mul_of_nonneg_right hb (sub_nonneg.2 h1.le)]

theorem tabled_bound (l : ContinuousMap) : ∃ N, ∀ e, tabled l e ≤ N := by
  obtain ⟨N, h0, hN⟩ := list_bound (p := fun (x : ℝ × ℝ) N => x.2 ≤ N) (fun _ _ _ h h' => h'.trans h) l
    fun x _ => ⟨x.2, le_rfl⟩
  refine ⟨N, fun e => ?_⟩
  induction l with
  | nil => exact h0
  | cons a l ih =>
    cases l with
    | nil => exact hN a List.mem_cons_self
    | cons b l =>
      change (if e ≤ a.1 then a.2 else if e ≤ b.1 then line a b e else tabled (b :: l) e) ≤ N
      have ha := hN a (by simp)
      have hb := hN b (by simp)
      split_ifs with h1 h2
      · exact ha
      · exact line_le (not_le.1 h1) h2 ha hb
      · exact ih fun x hx => hN x (List.mem_cons_of_mem _ hx)

/-- Yields in tables are bounded. -/
theorem gas_yields_bounded (data : Nuclide → Continuous) (w : World) :
    ∃ N, 0 ≤ N ∧ ∀ c ∈ w.cells, ∀ m, c.material = some m → ∀ x ∈ m.afracs, ∀ r ∈ (data x.1).reactions,
      ∀ ev nubar, r = .fission ev nubar → ∀ e, 0 < e → yieldAt nubar e ≤ N := by
  refine list_bound (p := fun (c : Cell) N => ∀ m, c.material = some m → ∀ x ∈ m.afracs,
    ∀ r ∈ (data x.1).reactions, ∀ ev nubar, r = .fission ev nubar → ∀ e, 0 < e → yieldAt nubar e ≤ N)
    (fun c M N h h' m hm x hx r hr ev nubar hf e he => (h' m hm x hx r hr ev nubar hf e he).trans h)
    w.cells fun c _ => ?_
  cases hm : c.material with
  | none => exact ⟨0, by simp⟩
  | some m =>
    obtain ⟨N, -, hN⟩ := list_bound (p := fun (x : Nuclide × ℝ) N => ∀ r ∈ (data x.1).reactions,
      ∀ ev nubar, r = .fission ev nubar → ∀ e, yieldAt nubar e ≤ N)
      (fun e M N h h' r hr ev nubar hf e => (h' r hr ev nubar hf e).trans h) m.afracs fun x _ => by
        obtain ⟨N, -, hN⟩ := list_bound (p := fun (r : ContinuousReaction) N =>
          ∀ ev nubar, r = .fission ev nubar → ∀ e, yieldAt nubar e ≤ N)
          (fun e M N h h' ev nubar hf e => (h' ev nubar hf e).trans h) (data x.1).reactions fun r _ => by
            cases r with
            | capture ev => exact ⟨0, by simp⟩
            | scatter ev tsl A => exact ⟨0, by simp⟩
            | fission ev nubar =>
              cases nubar with
              | none =>
                refine ⟨0, fun ev' nubar' h e => ?_⟩
                cases h
                exact le_rfl
              | some l =>
                obtain ⟨N, hN⟩ := tabled_bound l
                refine ⟨N, fun ev' nubar' h e => ?_⟩
                cases h
                exact hN e
        exact ⟨N, hN⟩
    refine ⟨N, fun m' hm' x hx r hr ev nubar hf e _ => ?_⟩
    cases hm'
    exact hN x hx r hr ev nubar hf e

/-! ### Scores with a finite mean square -/

theorem reliable_of_square {f : (ℕ → ℝ) → ℝ≥0∞} (hm : Measurable f)
    (hfin : ∫⁻ us, f us ^ 2 ∂uniforms ≠ ⊤) :
    ∃ spread, 0 ≤ spread ∧ Reliable f (∫⁻ us, f us ∂uniforms).toReal spread := by
  obtain ⟨h1, h2, h3⟩ := score_square hm hfin
  obtain ⟨i1, i2⟩ := integral_score hm h2
  have hX : Measurable fun us => (f us).toReal := hm.ennreal_toReal
  refine ⟨Real.sqrt (Var[fun us => (f us).toReal; uniforms]), Real.sqrt_nonneg _, ?_, ?_, ?_, ?_⟩
  · rw [← i2]
    simp only [mean_sample]
    exact sample_mean (X := fun us => (f us).toReal) (μ := uniforms) hX i1
  · exact sample_spread (X := fun us => (f us).toReal) (μ := uniforms) hX h1
  · rw [Real.sq_sqrt (variance_nonneg _ _), variance_eq_integral hX.aemeasurable, i2]
  · intro hpos k hk
    rw [← i2]
    refine sample_confidence (X := fun us => (f us).toReal) (μ := uniforms) hX h1 ?_ k hk
    intro h0
    rw [h0, Real.sqrt_zero] at hpos
    exact absurd hpos (lt_irrefl _)

/-! ### Energy groups -/

section Groups

variable {G : ℕ} {nodes : Nuclide → List MgNode} {P : Problem} {k : ℝ}

/-- **C106** If collisions leave at most `k < 1` neutrons on average, the score of a history has a finite
mean square. -/
theorem C106_groups_square (hw : WellPosed G nodes P.world) (hk0 : 0 ≤ k) (hk1 : k < 1)
    (hk : AtMost k G nodes P.world) (hd : Configured P.source.direction)
    {hit : SurfaceObj → Direction → ℕ → ℝ≥0∞} (hh : ∀ s g, Measurable fun d => hit s d g)
    (hone : ∀ s d g, hit s d g ≤ 1) {a b : Direction}
    (hf : ∀ r, P.source.direction = .isotropicFlux r → Frame a b r) {c : Cell} (hc : c ∈ P.world.cells)
    {g : ℕ} (h1 : 1 ≤ g) (h2 : g ≤ G) :
    ∫⁻ us, played endless G nodes P hit a b c g us ^ 2 ∂uniforms ≠ ⊤ := by
  obtain ⟨N, hN0, hN⟩ := yields_bounded G nodes P.world
  have hb0 : (0 : ℝ) ≤ (crossable P.world + 1) / (1 - k) := by
    have : 0 < 1 - k := by linarith
    positivity
  have hM : ∀ c ∈ P.world.cells, ∀ x d, UnitVec d → ∀ g, 1 ≤ g → g ≤ G →
      meanChain G nodes P.world P.method hit c x d g ≤
        ENNReal.ofReal ((crossable P.world + 1) / (1 - k)) := by
    intro c hc x d hd g h1 h2
    simpa using C82_bounded hw hk0 hk1 hk P.method hone hc x hd h1 h2
  refine ne_top_of_le_ne_top ?_ (C79_second_moment hw hd hh hone (S := fun _ _ => True)
    (fun _ _ _ _ _ _ _ _ _ _ => ⟨trivial, fun _ _ => trivial⟩) (fun _ _ _ _ _ _ _ _ _ _ _ _ => trivial)
    hb0 hN0 hk0 hk1 (fun c hc x d _ hd g h1 h2 => hM c hc x d hd g h1 h2) hN hk hf hc trivial h1 h2)
  refine ENNReal.add_ne_top.2 ⟨ENNReal.mul_ne_top ENNReal.ofReal_ne_top ?_, ENNReal.ofReal_ne_top⟩
  rw [C79_mean G nodes P hh a b c g]
  refine ne_top_of_le_ne_top ENNReal.ofReal_ne_top ((emittedMean_mono hd hf fun d hd =>
    hM c hc P.source.position d hd g h1 h2).trans_eq (emittedMean_const _ _ _ _))

/-- **C106** In a problem with energy groups in which collisions leave at most `k < 1` neutrons on average,
a run prints for every bin the mean and the standard error of the scores of the game.  There is one bounded
solution of the transport equation, and with independent numbers the printed values estimate its mean over
the directions of the source and the error. -/
theorem C106_groups (hw : WellPosed G nodes P.world) (hk0 : 0 ≤ k) (hk1 : k < 1)
    (hk : AtMost k G nodes P.world) (hs : GroupSource G P.world P.source)
    (hd : Configured P.source.direction) (hinit : FreshSet P.init) (ht : 1 ≤ P.threads)
    (hb : 1 ≤ P.batchsize) {fuel elapsed : ℕ} {r : EstimatorSet}
    (h : SolveResult P fuel 0 r elapsed) :
    ∃ a b c g, (∀ r, P.source.direction = .isotropicFlux r → Frame a b r) ∧
      FirstCell P.world P.source.position c ∧ P.source.energy = .group g ∧
      List.Forall₂ (fun o o' : Estimator => o'.base.name = o.base.name ∧
        ∀ i < o.base.bins.size,
          (o'.base.means P.batchsize)[i]? = some (.ok (mean (sample (fun j =>
            (played generator G nodes P (currentHit o.surface o.base.bins i) a b c g
              (Rng.ofSeed (P.seed + j))).toReal) P.batchsize))) ∧
          (o'.base.stdDevs P.batchsize)[i]? = some (.ok (standardError (sample (fun j =>
            (played generator G nodes P (currentHit o.surface o.base.bins i) a b c g
              (Rng.ofSeed (P.seed + j))).toReal) P.batchsize))) ∧
          ∃ E spread, GroupSolution G nodes P.world (currentHit o.surface o.base.bins i) E ∧
            (∀ E', GroupSolution G nodes P.world (currentHit o.surface o.base.bins i) E' →
              ∀ c ∈ P.world.cells, ∀ x d g, UnitVec d → 1 ≤ g → g ≤ G → E' c x d g = E c x d g) ∧
            0 ≤ spread ∧
            Reliable (played endless G nodes P (currentHit o.surface o.base.bins i) a b c g)
              (emittedMean a b P.source.direction fun d => E c P.source.position d g).toReal spread)
        P.init.estimators r.estimators := by
  obtain ⟨a, b, c, g, e1, e2, e3, e4⟩ := C79_result hw hs hd hinit ht hb h
  refine ⟨a, b, c, g, e1, e2, e3, e4.imp fun o o' ⟨k1, k2⟩ => ⟨k1, fun i hi => ?_⟩⟩
  obtain ⟨m1, m2⟩ := k2 i hi
  have hh := measurable_currentHit o.surface o.base.bins i
  have hone : ∀ s d g, currentHit o.surface o.base.bins i s d g ≤ 1 := by
    intro s d g
    unfold currentHit
    split_ifs <;> simp
  obtain ⟨g', g1, g2, g3⟩ := hs.group
  rw [e3] at g1
  cases g1
  have hc := (FirstCell.mem e2).1
  obtain ⟨spread, s0, hrel⟩ := reliable_of_square (measurable_played hh)
    (C106_groups_square hw hk0 hk1 hk hd hh hone e1 hc g2 g3)
  rw [C79_mean G nodes P hh a b c g] at hrel
  have hsol : GroupSolution G nodes P.world (currentHit o.surface o.base.bins i)
      (meanChain G nodes P.world P.method (currentHit o.surface o.base.bins i)) :=
    ⟨_, ENNReal.mul_ne_top ENNReal.one_ne_top ENNReal.ofReal_ne_top, fun c hc x d g hd h1 h2 =>
      ⟨C82_bounded hw hk0 hk1 hk P.method hone hc x hd h1 h2, C78_equation hw P.method hh hc x d h1 h2⟩⟩
  refine ⟨m1, m2, _, spread, hsol, ?_, s0, hrel⟩
  rintro E' ⟨B, hB, hE⟩ c hc x d g hd h1 h2
  exact C82_unique hw hk0 hk1 hk P.method hh hB hE hc x hd h1 h2

end Groups

/-! ### Gases -/

section Gases

variable {a b : Direction → Direction} {data : Nuclide → Continuous} {P : Problem} {k : ℝ}

/-- **C106** In gases, too, the score of a history has a finite mean square. -/
theorem C106_gases_square (h : Frames a b) (hw : GasWorld data P.world) (hk0 : 0 ≤ k) (hk1 : k < 1)
    (hk : GasAtMost k data P.world) (hd : Configured P.source.direction)
    {hit : SurfaceObj → Direction → ℝ → ℝ≥0∞} (hh : ∀ s, Measurable fun q : Direction × ℝ => hit s q.1 q.2)
    (hone : ∀ s d e, hit s d e ≤ 1) {u v : Direction}
    (hf : ∀ r, P.source.direction = .isotropicFlux r → Frame u v r) {c : Cell} (hc : c ∈ P.world.cells)
    {e : ℝ} (he : 0 < e) :
    ∫⁻ us, gasPlayed endless a b data P hit u v c e us ^ 2 ∂uniforms ≠ ⊤ := by
  obtain ⟨N, hN0, hN⟩ := gas_yields_bounded data P.world
  have hb0 : (0 : ℝ) ≤ (crossable P.world + 1) / (1 - k) := by
    have : 0 < 1 - k := by linarith
    positivity
  have hM : ∀ c ∈ P.world.cells, ∀ x d, UnitVec d → ∀ e, 0 < e →
      meanGas a b data P.world P.method hit c x d e ≤
        ENNReal.ofReal ((crossable P.world + 1) / (1 - k)) := by
    intro c hc x d hd e he
    simpa using C105_bounded h hw hk0 hk1 hk P.method hone hc x hd he
  refine ne_top_of_le_ne_top ?_ (C103_second_moment h hw hd hh hone (S := fun _ _ => True)
    (fun _ _ _ _ _ _ _ _ _ _ => ⟨trivial, fun _ _ => trivial⟩) (fun _ _ _ _ _ _ _ _ _ _ _ _ => trivial)
    hb0 hN0 hk0 hk1 (fun c hc x d _ hd e he => hM c hc x d hd e he) hN hk hf hc trivial he)
  refine ENNReal.add_ne_top.2 ⟨ENNReal.mul_ne_top ENNReal.ofReal_ne_top ?_, ENNReal.ofReal_ne_top⟩
  rw [C103_mean h data P hh u v c e]
  exact ne_top_of_le_ne_top ENNReal.ofReal_ne_top ((emittedMean_mono hd hf fun d hd =>
    hM c hc P.source.position d hd e he).trans_eq (emittedMean_const _ _ _ _))

end Gases

/-- **C106** In a problem with gases in which collisions leave at most `k < 1` neutrons on average, a run
prints for every bin the mean and the standard error of the scores of the game.  There is one bounded
solution of the transport equation with thermal motion and fission, and with independent numbers the printed
values estimate its mean over the directions of the source and the error. -/
theorem C106_gases : ∃ a b : Direction → Direction, Frames a b ∧
    ∀ {data : Nuclide → Continuous} {P : Problem} {k : ℝ}, GasWorld data P.world → 0 ≤ k → k < 1 →
      GasAtMost k data P.world → EnergySource P.world P.source → Configured P.source.direction →
      FreshSet P.init → 1 ≤ P.threads → 1 ≤ P.batchsize →
      ∀ {fuel elapsed : ℕ} {r : EstimatorSet}, SolveResult P fuel 0 r elapsed →
      ∃ u v c e, (∀ r, P.source.direction = .isotropicFlux r → Frame u v r) ∧
        FirstCell P.world P.source.position c ∧ P.source.energy = .continuous e ∧
        List.Forall₂ (fun o o' : Estimator => o'.base.name = o.base.name ∧
          ∀ i < o.base.bins.size,
            (o'.base.means P.batchsize)[i]? = some (.ok (mean (sample (fun j =>
              (gasPlayed generator a b data P (energyHit o.surface o.base.bins i) u v c e
                (Rng.ofSeed (P.seed + j))).toReal) P.batchsize))) ∧
            (o'.base.stdDevs P.batchsize)[i]? = some (.ok (standardError (sample (fun j =>
              (gasPlayed generator a b data P (energyHit o.surface o.base.bins i) u v c e
                (Rng.ofSeed (P.seed + j))).toReal) P.batchsize))) ∧
            ∃ E spread, GasSolution data P.world (energyHit o.surface o.base.bins i) E ∧
              (∀ E', GasSolution data P.world (energyHit o.surface o.base.bins i) E' →
                ∀ c ∈ P.world.cells, ∀ x d e, UnitVec d → 0 < e → E' c x d e = E c x d e) ∧
              0 ≤ spread ∧
              Reliable (gasPlayed endless a b data P (energyHit o.surface o.base.bins i) u v c e)
                (emittedMean u v P.source.direction fun d => E c P.source.position d e).toReal spread)
          P.init.estimators r.estimators := by
  obtain ⟨a, b, hab, key⟩ := C101_printed
  refine ⟨a, b, hab, ?_⟩
  intro data P k hw hk0 hk1 hk hs hd hinit ht hb fuel elapsed r h
  obtain ⟨u, v, c, e, e1, e2, e3, he, e4⟩ := key hw hs hd hinit ht hb h
  refine ⟨u, v, c, e, e1, e2, e3, e4.imp fun o o' ⟨k1, k2⟩ => ⟨k1, fun i hi => ?_⟩⟩
  obtain ⟨m1, m2⟩ := k2 i hi
  have hh := measurable_energyHit o.surface o.base.bins i
  have hone : ∀ s d e, energyHit o.surface o.base.bins i s d e ≤ 1 := by
    intro s d e
    unfold energyHit
    split_ifs <;> simp
  have hc := (FirstCell.mem e2).1
  obtain ⟨spread, s0, hrel⟩ := reliable_of_square (measurable_gasPlayed hab hh u v c e)
    (C106_gases_square hab hw hk0 hk1 hk hd hh hone e1 hc he)
  rw [C103_mean hab data P hh u v c e] at hrel
  have hsol : GasSolution data P.world (energyHit o.surface o.base.bins i)
      (meanGas a b data P.world P.method (energyHit o.surface o.base.bins i)) :=
    ⟨_, ENNReal.mul_ne_top ENNReal.one_ne_top ENNReal.ofReal_ne_top, fun c hc x d e hd he =>
      ⟨C105_bounded hab hw hk0 hk1 hk P.method hone hc x hd he, C81_equation hab hw P.method hh hc x hd he⟩⟩
  refine ⟨m1, m2, _, spread, hsol, ?_, s0, hrel⟩
  rintro E' ⟨B, hB, hE⟩ c hc x d e hd he
  exact C105_unique hab hw hk0 hk1 hk P.method hh hB hE hc x hd he

/-! ### Examples -/

theorem fog_multiplies (δ : ℝ) : ∑ g' ∈ Finset.Icc 1 1, (transferRate 1 (fun _ => fogNodes) (fog δ) 1 g' +
    fissionRate 1 (fun _ => fogNodes) (fog δ) 1 g') = δ := by
  have e1 : specXS 1 fogNodes .fission 1 = 0 := rfl
  have e5 : entry2 1 (scatterTable fogNodes) 1 1 = 1 := rfl
  simp only [Finset.Icc_self, Finset.sum_singleton, transferRate, fissionRate, fog, List.map_cons,
    List.map_nil, List.sum_cons, List.sum_nil, e1, e5]
  ring

theorem fog_atMost (δ : ℝ) (method : Method) :
    AtMost (1 / 2) 1 (fun _ => fogNodes) (fogProblem δ method).world := by
  intro c hc m hm g h1 h2
  obtain rfl : g = 1 := by omega
  simp only [fogProblem, List.mem_cons, List.not_mem_nil, or_false] at hc
  rcases hc with rfl | rfl
  · cases hm
    rw [fog_multiplies, fog_rate]
    exact le_of_eq (by ring)
  · cases hm

/-- Instance of `C106_groups_square`: a ball with fissions. -/
example (method : Method) {a b : Direction} (h : Frame a b ⟨1, 0, 0⟩) :
    ∫⁻ us, played endless 1 (fun _ => coalNodes) (coalProblem method) (currentHit (ball 1 1) oneBin 0) a b
      coalIn 1 us ^ 2 ∂uniforms ≠ ⊤ :=
  C106_groups_square (coal_wellPosed method) (by norm_num) (by norm_num) (coal_atMost method)
    (by norm_num [coalProblem, Configured, UnitVec]) (measurable_currentHit _ _ _)
    (fun s d g => by
      unfold currentHit
      split_ifs <;> simp)
    (fun r hr => by cases hr; exact h) (by simp [coalProblem]) le_rfl le_rfl

/-- Instance of `C106_groups`: a thousand histories in thin fog have a result, and what it prints estimates
the bounded solution. -/
example (method : Method) : ∃ r k, SolveResult (hazeProblem method) 1 0 r k ∧
    ∃ o, r.estimators = [o] ∧ ∃ (score : ∀ {σ : Type}, Supply σ → σ → ℝ≥0∞) (truth spread : ℝ),
      (o.base.means 1000)[0]? = some (.ok (mean (sample (fun j =>
        (score generator (Rng.ofSeed (1 + j))).toReal) 1000))) ∧
      Reliable (score endless) truth spread := by
  have hw : WellPosed 1 (fun _ => fogNodes) (hazeProblem method).world :=
    fog_wellPosed (by positivity) method
  have hcell := (fog_cells (1 / 2 ^ 70) method ⟨0, 0, 0⟩).1 (by norm_num)
  have hs : GroupSource 1 (hazeProblem method).world (hazeProblem method).source :=
    ⟨rfl, ⟨1, rfl, le_rfl, le_rfl⟩, _, hcell, by simp [fogIn]⟩
  have hd : Configured (hazeProblem method).source.direction := by
    norm_num [hazeProblem, fogProblem, Configured, UnitVec]
  obtain ⟨r, k, h⟩ := haze_result method
  refine ⟨r, k, h, ?_⟩
  obtain ⟨a, b, c, g, -, -, -, h4⟩ := C106_groups hw (by norm_num) (by norm_num) (fog_atMost _ method) hs hd
    (haze_fresh method) (by norm_num [hazeProblem, fogProblem, slabProblem])
    (by norm_num [hazeProblem, fogProblem, slabProblem]) h
  change List.Forall₂ _ [(⟨⟨"out", oneBin, [0], [0]⟩, ball 1 1, []⟩ : Estimator)] _ at h4
  cases hr : r.estimators with
  | nil => rw [hr] at h4; cases h4
  | cons o rest =>
    rw [hr] at h4
    cases h4 with
    | cons k1 k2 =>
      cases k2
      obtain ⟨m1, -, E, spread, -, -, -, m3⟩ := k1.2 0 (by decide)
      exact ⟨o, rfl, fun S => played S 1 (fun _ => fogNodes) (hazeProblem method)
        (currentHit (ball 1 1) oneBin 0) a b c g, _, spread, m1, m3⟩

/-- One history of a beam in the ball of `plumeProblem`. -/
noncomputable def plumeRun : Problem :=
  { plumeProblem .surfaceTracking with
    seed := 3
    batchsize := 1
    source := ⟨⟨0, 0, 0⟩, .constant ⟨1, 0, 0⟩, .continuous (3 / 2), .neutron⟩
    init := warmRun.init }

theorem plumeRun_result : ∃ r k, SolveResult plumeRun 2 0 r k :=
  single_result (P := plumeRun) rfl rfl (beam_history (P := plumeRun) (j := 0)
    (plume_world .surfaceTracking) rfl rfl rfl rfl (fun x => (plume_cells .surfaceTracking x).1)
    (fun x => (plume_cells .surfaceTracking x).2) rfl rfl plume_rate)

/-- Instance of `C106_gases`: the run has a result, and what it prints estimates the bounded solution. -/
example : ∃ r k, SolveResult plumeRun 2 0 r k ∧
    ∃ o, r.estimators = [o] ∧ ∃ (score : ∀ {σ : Type}, Supply σ → σ → ℝ≥0∞) (truth spread : ℝ),
      (o.base.means plumeRun.batchsize)[0]? = some (.ok (mean (sample (fun j =>
        (score generator (Rng.ofSeed (3 + j))).toReal) 1))) ∧
      Reliable (score endless) truth spread := by
  obtain ⟨r, k, h⟩ := plumeRun_result
  refine ⟨r, k, h, ?_⟩
  have hcell := (plume_cells .surfaceTracking ⟨0, 0, 0⟩).1 (by norm_num)
  obtain ⟨a, b, hab, key⟩ := C106_gases
  obtain ⟨u, v, c, e, -, -, -, h4⟩ := key (data := fun _ => plumeData) (P := plumeRun) (k := 5 / 7)
    (plume_world .surfaceTracking) (by norm_num) (by norm_num) (plume_atMost .surfaceTracking)
    ⟨rfl, ⟨3 / 2, rfl, by norm_num⟩, _, hcell, by simp [plumeIn]⟩
    (by norm_num [plumeRun, Configured, UnitVec]) warmRun_fresh
    (by norm_num [plumeRun, plumeProblem, slabProblem]) (by norm_num [plumeRun]) h
  change List.Forall₂ _ [(⟨⟨"out", oneBin, [0], [0]⟩, ball 1 1, []⟩ : Estimator)] _ at h4
  cases hr : r.estimators with
  | nil => rw [hr] at h4; cases h4
  | cons o rest =>
    rw [hr] at h4
    cases h4 with
    | cons h5 h6 =>
      cases h6
      obtain ⟨m1, -, E, spread, -, -, -, m3⟩ := h5.2 0 Nat.one_pos
      exact ⟨o, rfl, fun S => gasPlayed S a b (fun _ => plumeData) plumeRun
        (energyHit (ball 1 1) oneBin 0) u v c e, _, spread, m1, m3⟩

end Minimc.Props
