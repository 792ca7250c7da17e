import Verif.Lemmas.Units
import Verif.Props.Mixture
import Verif.Props.RelatedRuns

/-!
# Units and normalisation of group data

Cross sections in other units, atomic fractions that make up for them, and spectra of another norm leave
results of the same seed alone.
-/

open MeasureTheory ENNReal

namespace Minimc.Props

open Minimc.Spec

variable {G : ℕ} {nodes nodes' : Nuclide → List MgNode}

/-! ### Scaled tables -/

theorem entry1_times (k : ℝ) (l : List ℝ) (g : ℕ) : entry1 (l.map (k * ·)) g = k * entry1 l g := by
  unfold entry1
  rw [List.getD_eq_getElem?_getD, List.getD_eq_getElem?_getD, List.getElem?_map]
  cases l[g - 1]? <;> simp

theorem entry2_times (k : ℝ) (l : List ℝ) (g g' : ℕ) :
    entry2 G (l.map (k * ·)) g g' = k * entry2 G l g g' := by
  unfold entry2
  rw [List.getD_eq_getElem?_getD, List.getD_eq_getElem?_getD, List.getElem?_map]
  cases l[G * (g' - 1) + (g - 1)]? <;> simp

theorem findSome_times {α β : Type} {f f' : α → Option β} {t : α → α} {h : β → β}
    (hf : ∀ a, f' (t a) = (f a).map h) (l : List α) : (l.map t).findSome? f' = (l.findSome? f).map h := by
  induction l with
  | nil => rfl
  | cons a l ih =>
    rw [List.map_cons, List.findSome?_cons, List.findSome?_cons, hf]
    cases f a with
    | none => exact ih
    | some b => rfl

/-- **C108** Multiplying all cross sections by a positive number, and all spectra by another, restates the
data in another unit. -/
theorem C108_scaled (G : ℕ) (k : ℝ) {s : ℝ} (hs : 0 < s) (data : List MgNode) :
    Restated G k data (data.map (scaledNode k s)) := by
  refine ⟨fun r g _ _ => ?_, fun g g' _ _ _ _ => ?_, fun g _ _ _ => ?_, fun g _ _ _ => ⟨s, hs, fun g' _ _ => ?_⟩⟩
  · unfold specXS
    rw [findSome_times (f := nodeXS G r g) (h := (k * ·))]
    · cases data.findSome? (nodeXS G r g) <;> simp
    · intro n
      cases n with
      | capture xs => by_cases hr : r = .capture <;> simp [scaledNode, nodeXS, hr, entry1_times]
      | scatter flat =>
        by_cases hr : r = .scatter
        · simp only [scaledNode, nodeXS, hr, if_true, Option.map_some, Option.some.injEq]
          unfold colSum
          rw [show (List.range' 1 G).map (entry2 G (flat.map (k * ·)) g) =
            ((List.range' 1 G).map (entry2 G flat g)).map (k * ·) by
              rw [List.map_map]
              exact List.map_congr_left fun g' _ => entry2_times k flat g g', sum_map_scale]
        · simp [scaledNode, nodeXS, hr]
      | fission nubar chi xs => by_cases hr : r = .fission <;> simp [scaledNode, nodeXS, hr, entry1_times]
  · unfold scatterTable
    rw [findSome_times (f := fun n => match n with | .scatter flat => some flat | _ => none)
      (h := fun l => l.map (k * ·))]
    · rw [← entry2_times]
      cases data.findSome? _ <;> simp
    · intro n
      cases n <;> rfl
  · unfold nubarTable
    rw [findSome_times (f := fun n => match n with | .fission nubar _ _ => some (nubar.getD []) | _ => none)
      (h := id)]
    · rw [Option.map_id]
      rfl
    · intro n
      cases n <;> rfl
  · unfold chiTable
    rw [findSome_times (f := fun n => match n with | .fission _ chi _ => some (chi.getD []) | _ => none)
      (h := fun l => l.map (s * ·))]
    · rw [← entry2_times]
      cases data.findSome? _ <;> simp
    · intro n
      cases n with
      | capture => rfl
      | scatter => rfl
      | fission nubar chi xs => cases chi <;> rfl

/-- **C108** A world with restated data is one that transport can deal with, if the data are. -/
theorem C108_well_posed {w w' : World} (hw : WellPosed G nodes w)
    (h : WorldsAlike (RestatedMaterial G nodes nodes') w w')
    (hdata : ∀ c ∈ w'.cells, ∀ m, c.material = some m → ∀ e ∈ m.afracs, HasGroupData G e.1 (nodes' e.1)) :
    WellPosed G nodes' w' := by
  have hmat : ∀ c' ∈ w'.cells, ∀ m', c'.material = some m' → ∃ c ∈ w.cells, ∃ m, c.material = some m ∧
      RestatedMaterial G nodes nodes' m m' := by
    intro c' hc' m' hm'
    obtain ⟨c, hc, hcc⟩ := alike_mem h hc'
    rcases hcc.material with ⟨h1, h2⟩ | ⟨m, m'', h1, h2, hQ⟩
    · rw [hm'] at h2
      cases h2
    · rw [hm'] at h2
      cases h2
      exact ⟨c, hc, m, h1, hQ⟩
  refine ⟨?_, ?_, ?_, ?_, ?_⟩
  · intro x
    obtain ⟨c, hc, hx⟩ := hw.covered x
    obtain ⟨i, hi, rfl⟩ := List.getElem_of_mem hc
    have hi' : i < w'.cells.length := h.length_eq ▸ hi
    exact ⟨w'.cells[i], List.getElem_mem hi', (alike_inCell ((List.forall₂_iff_get.1 h).2 i hi hi') x).2 hx⟩
  · intro c' hc' hm'
    obtain ⟨m', hm'⟩ := Option.ne_none_iff_exists'.1 hm'
    obtain ⟨c, hc, hcc⟩ := alike_mem h hc'
    rw [hcc.shape]
    refine hw.bounded c hc fun hn => ?_
    rcases hcc.material with ⟨-, h2⟩ | ⟨m, m'', h1, -, -⟩
    · rw [hm'] at h2
      cases h2
    · rw [hn] at h1
      cases h1
  · intro c' hc' m' hm'
    obtain ⟨c, hc, m, hm, k, hk, h1, -⟩ := hmat c' hc' m' hm'
    have := hw.density c hc m hm
    rw [← h1] at this
    exact pos_of_mul_pos_left this hk.le
  · intro c' hc' m' hm' e' he'
    refine ⟨?_, hdata c' hc' m' hm' e' he'⟩
    obtain ⟨c, hc, m, hm, k, hk, -, hf⟩ := hmat c' hc' m' hm'
    obtain ⟨i, hi', rfl⟩ := List.getElem_of_mem he'
    have hi : i < m.afracs.length := hf.length_eq ▸ hi'
    obtain ⟨t, ht, -, he⟩ := (List.forall₂_iff_get.1 hf).2 i hi hi'
    have h0 : 0 < (m.afracs[i]).2 := (hw.data c hc m hm _ (List.getElem_mem hi)).1
    have : 0 < (m'.afracs[i]).2 * t := by
      rw [show (m'.afracs[i]).2 * t = k * (m.afracs[i]).2 from he]
      exact mul_pos hk h0
    exact pos_of_mul_pos_left this ht.le
  · intro c' hc' m' hm' g g1 g2
    obtain ⟨c, hc, m, hm, k, hk, -, hf⟩ := hmat c' hc' m' hm'
    obtain ⟨e, he, hpos⟩ := hw.reacts c hc m hm g g1 g2
    obtain ⟨i, hi, rfl⟩ := List.getElem_of_mem he
    have hi' : i < m'.afracs.length := hf.length_eq ▸ hi
    obtain ⟨t, ht, hr, -⟩ := (List.forall₂_iff_get.1 hf).2 i hi hi'
    refine ⟨m'.afracs[i], List.getElem_mem hi', ?_⟩
    have e1 : specTotal G (nodes' (m'.afracs[i]).1) g = t * specTotal G (nodes (m.afracs[i]).1) g :=
      restated_total hr g1 g2
    rw [e1]
    exact mul_pos ht hpos

/-! ### The same results -/

/-- **C108** If cross sections are restated in other units, which fractions and densities make up for, and
spectra have other norms, a history crosses every surface as often as before, in every bin. -/
theorem C108_history {P P' : Problem} (hP : SameTask P P') (hw : WellPosed G nodes P.world)
    (hw' : WellPosed G nodes' P'.world) (h : WorldsAlike (RestatedMaterial G nodes nodes') P.world P'.world)
    (hs : GroupSource G P.world P.source) (hd : Configured P.source.direction) {fuel fuel' e : ℕ}
    {states states' : List Particle} (hh : P.history fuel e = .ok states)
    (hh' : P'.history fuel' e = .ok states') (surface : SurfaceObj) (bins : ParticleBins) (i : ℕ) :
    crossings surface bins states' i = crossings surface bins states i := by
  have hs' : GroupSource G P'.world P'.source := hP.source ▸ alike_groupSource h hs
  obtain ⟨b, c, g, h1, h2, h3, h4⟩ := C78_history hw hs hd hh surface bins i
  obtain ⟨b', c', g', h1', h2', h3', h4'⟩ := C78_history hw' hs' (hP.source ▸ hd) hh' surface bins i
  rw [hP.source] at h1' h2' h3' h4'
  rw [hP.seed, h1] at h1'
  cases h1'
  rw [h3] at h3'
  cases h3'
  obtain ⟨g0, hg0, g1, g2⟩ := hs.group
  rw [h3] at hg0
  cases hg0
  have hcc := alike_firstCell h h2 h2'
  have key : (crossings surface bins states' i : ℝ≥0∞) = crossings surface bins states i := by
    rw [h4, h4', hP.method]
    exact iSup_congr fun n => restated_chain generator h P.method _ n hcc _ _ g1 g2 _
  exact_mod_cast key

/-- **C108** Runs with restated data that have results print the same means and standard deviations. -/
theorem C108_result {P P' : Problem} (hP : SameTask P P') (hw : WellPosed G nodes P.world)
    (hw' : WellPosed G nodes' P'.world) (h : WorldsAlike (RestatedMaterial G nodes nodes') P.world P'.world)
    (hs : GroupSource G P.world P.source) (hd : Configured P.source.direction) (hinit : FreshSet P.init)
    (ht : 1 ≤ P.threads) (ht' : 1 ≤ P'.threads) (hb : 1 ≤ P.batchsize) {fuel fuel' elapsed elapsed' : ℕ}
    {r r' : EstimatorSet} (hr : SolveResult P fuel 0 r elapsed) (hr' : SolveResult P' fuel' 0 r' elapsed') :
    List.Forall₂ (fun o o' : Estimator => o'.base.name = o.base.name ∧
      o'.base.means P.batchsize = o.base.means P.batchsize ∧
      o'.base.stdDevs P.batchsize = o.base.stdDevs P.batchsize) r.estimators r'.estimators :=
  printed_alike hP (fun hh hh' surface bins i => C108_history hP hw hw' h hs hd hh hh' surface bins i) hinit
    ht ht' hb hr hr'

/-! ### Instances -/

/-- The data of coal in a unit half as large, with a spectrum that is not normalised. -/
noncomputable def cokeNodes : List MgNode := coalNodes.map (scaledNode 2 3)

theorem cokeNodes_ok : ∃ m, Multigroup.create 1 cokeNodes = .ok m := by
  simp only [Multigroup.create, cokeNodes, coalNodes, List.map_cons, List.map_nil, scaledNode, Option.map_some,
    Multigroup.findNubar, Multigroup.findChi,
    Multigroup.findScatter, Multigroup.optionally, Multigroup.createReactions, Multigroup.reactionXS,
    Multigroup.oneDimensional, Multigroup.normalized_ok (G := 1) (flat := [3 * 1]) rfl, Bind.bind, Except.bind]
  exact ⟨_, rfl⟩

noncomputable def cokeNuclide : Nuclide := ⟨5, "coke", fun _ => some (.multigroup cokeNodes_ok.choose)⟩

/-- As many nuclei per barn. -/
noncomputable def coke : Material := ⟨"coke", [(cokeNuclide, 1)], 1 / 2⟩

theorem coke_restated : RestatedMaterial 1 (fun _ => coalNodes) (fun _ => cokeNodes) coal coke :=
  ⟨2, by norm_num, by norm_num [coke, coal],
    .cons ⟨2, two_pos, C108_scaled 1 2 (s := 3) (by norm_num) coalNodes, by norm_num⟩ .nil⟩

theorem coke_wellPosed (method : Method) :
    WellPosed 1 (fun _ => cokeNodes) (filledProblem coke method).world := by
  refine C108_well_posed (coal_wellPosed method) (coal_filled coke_restated method method) ?_
  intro c hc m hm e he
  simp only [filledProblem, List.mem_cons, List.not_mem_nil, or_false] at hc
  rcases hc with rfl | rfl
  · cases hm
    simp only [coke, List.mem_cons, List.not_mem_nil, or_false] at he
    subst he
    refine ⟨cokeNodes_ok.choose, rfl, cokeNodes_ok.choose_spec, ?_, fun g _ => ⟨[3 / 2], [3 * 1], rfl, rfl⟩⟩
    intro n hn
    simp only [cokeNodes, coalNodes, List.map_cons, List.map_nil, scaledNode, List.mem_cons, List.not_mem_nil,
      or_false, Option.map_some] at hn
    rcases hn with rfl | rfl
    · refine ⟨?_, ?_, ?_⟩
      · intro x hx
        rw [List.mem_singleton.1 hx]
        norm_num
      · intro l hl x hx
        cases hl
        rw [List.mem_singleton.1 hx]
        norm_num
      · intro l hl x hx
        cases hl
        rw [List.mem_singleton.1 hx]
        norm_num
    · intro x hx
      rw [List.mem_singleton.1 hx]
      norm_num
  · cases hm

/-- Instance of `C108_history`: a ball of coal, and one of the same coal in other units. -/
example (method : Method) {fuel fuel' e : ℕ} {states states' : List Particle}
    (h : (coalProblem method).history fuel e = .ok states)
    (h' : (filledProblem coke method).history fuel' e = .ok states') (bins : ParticleBins) (i : ℕ) :
    crossings (ball 1 1) bins states' i = crossings (ball 1 1) bins states i := by
  refine C108_history (G := 1) (nodes := fun _ => coalNodes) (nodes' := fun _ => cokeNodes)
    (P := coalProblem method) (P' := filledProblem coke method) ⟨rfl, rfl, rfl, rfl, rfl⟩
    (coal_wellPosed method) (coke_wellPosed method) (coal_filled coke_restated method method)
    ⟨rfl, ⟨1, rfl, le_rfl, le_rfl⟩, coalIn, (coal_cells method _).1 ?_, by simp [coalIn]⟩ ?_ h h' _ bins i
  · change (0 : ℝ) ^ 2 + 0 ^ 2 + 0 ^ 2 < 1
    norm_num
  · change UnitVec ⟨1, 0, 0⟩
    unfold UnitVec
    norm_num

/-- The absorber in a unit half as large. -/
noncomputable def denser : Material := ⟨"denser", [(absorber 8 "b" 2, 1)], 1 / 2⟩

theorem denser_restated :
    RestatedMaterial 1 (fun _ => [.capture [1]]) (fun _ => [.capture [2]]) (absorbing 1) denser := by
  refine ⟨2, by norm_num, by norm_num [denser, absorbing], .cons ⟨2, two_pos, ?_, by norm_num⟩ .nil⟩
  have := C108_scaled 1 2 one_pos [.capture [1]]
  simpa [scaledNode] using this

theorem denser_wellPosed (method : Method) :
    WellPosed 1 (fun _ => [.capture [2]]) (refilledRun denser method).world := by
  refine C108_well_posed (shell_wellPosed method) (refilled_alike denser_restated method method) ?_
  intro c hc m hm e he
  rw [refilled_material hc hm] at he
  rw [List.mem_singleton.1 he]
  exact absorber_data_of two_pos.le _ _

/-- Instance of `C108_result`: both runs have results and print the same. -/
example (method : Method) : ∃ r k r' k', SolveResult (plainRun method) (2 ^ 52) 0 r k ∧
    SolveResult (refilledRun denser method) (2 ^ 52) 0 r' k' ∧
    List.Forall₂ (fun o o' : Estimator => o'.base.name = o.base.name ∧
      o'.base.means 1000 = o.base.means 1000 ∧ o'.base.stdDevs 1000 = o.base.stdDevs 1000)
      r.estimators r'.estimators := by
  obtain ⟨r, k, h⟩ := plain_result method
  obtain ⟨r', k', h'⟩ := refilled_result (denser_wellPosed method) (by
    intro c _ m _ e _ g h1 h2
    simp [specXS, nodeXS])
  refine ⟨r, k, r', k', h, h', ?_⟩
  exact C108_result (G := 1) (P := plainRun method)
    (P' := refilledRun denser method) (nodes := fun _ => [.capture [1]]) (nodes' := fun _ => [.capture [2]])
    ⟨rfl, rfl, rfl, rfl, rfl⟩ (shell_wellPosed method) (denser_wellPosed method)
    (refilled_alike denser_restated method method)
    (plain_source method) (plain_configured method) shellTally_fresh
    (by norm_num [plainRun, shellProblem, slabProblem]) (by norm_num [refilledRun])
    (by norm_num [plainRun, shellProblem, slabProblem]) h h'

end Minimc.Props
