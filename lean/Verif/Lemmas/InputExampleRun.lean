import Verif.Lemmas.InputExample
import Verif.Lemmas.InputFail

/-! # The concrete document: what is read of it -/

namespace Minimc.InputExample

open Spec Schema Xml Input

/-- Distinct addresses. -/
def addr : Addresses := ⟨id, id, id⟩

theorem unsigned : Unsigned env := by
  rintro s x h - ⟨before, rest, hs, -⟩
  have hmem : '-' ∈ s.toList := by rw [hs]; simp
  unfold env at h
  simp only at h
  split at h
  · subst s; simp at hmem
  · split at h
    · subst s; simp at hmem
    · split at h
      · subst s; simp at hmem
      · split at h
        · subst s; simp at hmem
        · cases h

theorem attrReal_eq {n : Xml} {a s : String} {x : ℝ} (h : n.attr a = some s)
    (hx : env.real s = some x) : attrReal env n a = x := by
  unfold attrReal
  rw [h]
  simp [hx]

theorem reals1 : reals env "1" = [1] := by
  unfold reals
  rw [words1]
  simp [real1]

theorem reals2 : reals env "2" = [2] := by
  unfold reals
  rw [words2]
  simp [real2]

theorem groups (c : Choice) : groupCount (root c) = 1 := by
  unfold groupCount
  rw [child_nuclides]
  have : ((nuclides c.first c.second).child "multigroup").attrString "groups" = "1" := by
    simp [nuclides, el, Xml.child, Xml.children, Xml.name, Xml.attrString, Xml.attr, Xml.attrs]
  rw [this]
  decide

theorem particles (c : Choice) :
    Text.words (((root c).child "general").child "particles").text = ["neutron"] := by
  rw [child_general]
  have : ((general c.threads).child "particles").text = "neutron" := by
    simp [general, el, txt, Xml.child, Xml.children, Xml.name, Xml.text]
  rw [this]
  decide

/-- The cross sections of the first nuclide. -/
noncomputable def absorber : Multigroup := ⟨none, none, none, [(.capture, [1])], [1], 1⟩

theorem capture1 (c : Choice) :
    multigroup env (root c) (el "neutron" [] [txt "capture" "1"]) = .ok absorber := by
  unfold multigroup mgNode
  simp only [el, Xml.children, List.mapM_cons, List.mapM_nil, txt, Xml.name, toReaction, Xml.text,
    reals1, groups, if_true, bind, Except.bind, pure, Except.pure]
  simp [Multigroup.create, Multigroup.optionally, Multigroup.findNubar, Multigroup.findChi,
    Multigroup.findScatter, Multigroup.createReactions, Multigroup.reactionXS,
    Multigroup.oneDimensional, Multigroup.emplace, Multigroup.createTotalXS, bind, Except.bind,
    absorber]

theorem multigroup_kind (c : Choice) : ((root c).child "nuclides").firstChild.name = "multigroup" := by
  rw [child_nuclides]
  simp [nuclides, el, Xml.firstChild, Xml.children, Xml.name]

/-- The cross sections of the first nuclide by particle. -/
noncomputable def absorberXS : ParticleType → Option Interaction :=
  fun t => if t = .neutron then some (.multigroup absorber) else none

theorem interactions_first (c : Choice) (name : String) :
    interactions env (root c)
      (el "nuclide" [("name", name)] [el "neutron" [] [txt "capture" "1"]]) = .ok absorberXS := by
  unfold interactions
  rw [particles]
  have hn : (el "nuclide" [("name", name)] [el "neutron" [] [txt "capture" "1"]]).child "neutron" =
      el "neutron" [] [txt "capture" "1"] := by
    simp [el, Xml.child, Xml.children, Xml.name]
  unfold interactionsFrom
  simp only [hn]
  have hnn : (el "neutron" [] [txt "capture" "1"]).isNull = false := by
    simp [el, Xml.isNull, Xml.name]
  rw [hnn]
  unfold interaction
  rw [if_pos (multigroup_kind c), capture1]
  rfl

/-- What is read of the world. -/
noncomputable def doc (c : Choice) : Document where
  surfaces := [⟨"s", .sphere ⟨0, 0, 0⟩ 1⟩, ⟨"p", .planeX 0⟩]
  materials := [⟨"m", 1, [("a", 1 / 2)]⟩]
  nuclides := [⟨c.first, .ok absorberXS⟩,
    ⟨c.second, interactions env (root c) (el "nuclide" [("name", c.second)]
      [el "neutron" [] [txt "capture" "2", txt "scatter" "1"]])⟩]
  temperature := none
  cells := [⟨false, some "in", "m", none, [("s", .minus)]⟩, ⟨true, none, "", none, [("s", .plus)]⟩]

theorem document_eq (c : Choice) : document env (root c) = .ok (doc c) := by
  unfold document
  rw [child_surfaces, child_temperature, child_materials, child_nuclides, child_cells]
  have h1 : surfaces.children.mapM (surface env) =
      .ok [⟨"s", .sphere ⟨0, 0, 0⟩ 1⟩, ⟨"p", .planeX 0⟩] := by
    simp [surfaces, el, Xml.children, Xml.child, Xml.name, surface, point, attrReal, Xml.attr,
      Xml.attrs, Xml.attrString, real0, real1, List.mapM_cons, List.mapM_nil, bind, Except.bind,
      pure, Except.pure]
  have h2 : temperature env null = .ok none := rfl
  have h3 : materials.children.map (material env) = [⟨"m", 1, [("a", 1 / 2)]⟩] := by
    simp [materials, el, Xml.children, material, attrReal, Xml.attr, Xml.attrs, Xml.attrString,
      real1, realHalf]
  have h4 : cells.children.map (cell env) = [⟨false, some "in", "m", none, [("s", .minus)]⟩,
      ⟨true, none, "", none, [("s", .plus)]⟩] := by
    simp [cells, el, Xml.children, cell, Xml.name, Xml.attr, Xml.attrs, Xml.attrString, sense]
  rw [h1, h2, h3, h4]
  have h5 : (nuclides c.first c.second).firstChild.children.map (nuclide env (root c)) =
      (doc c).nuclides := by
    unfold doc
    simp only [nuclides, el, Xml.firstChild, Xml.children, List.head?_cons, Option.getD_some,
      List.map_cons, List.map_nil]
    unfold nuclide
    rw [← interactions_first c c.first]
    simp [el, Xml.attrString, Xml.attr, Xml.attrs]
  rw [h5]
  rfl

theorem doc_wellFormed (c : Choice) : WellFormed (doc c) := by
  refine ⟨?_, ?_, ?_⟩ <;> simp [doc]

theorem firstNamed_head {α : Type} {nm : α → String} {x : α} {l : List α} :
    FirstNamed nm (x :: l) (nm x) x := ⟨[], l, rfl, rfl, by simp⟩

theorem doc_defined (c : Choice) (h : c.first = "a") : AllDefined (doc c) := by
  refine ⟨?_, ?_⟩
  · simp [doc]
  · intro d hd hvoid
    simp only [doc, List.mem_cons, List.not_mem_nil, or_false] at hd
    rcases hd with rfl | rfl
    · refine ⟨_, firstNamed_head, ?_⟩
      intro x hx
      simp only [List.mem_singleton] at hx
      subst hx
      refine ⟨⟨c.first, .ok absorberXS⟩, ?_, _, rfl⟩
      rw [← h]
      exact firstNamed_head
    · simp at hvoid

/-- The world is built; its surface is `s`, its nuclide is `a`. -/
theorem world_ok (c : Choice) (h : c.first = "a") :
    ∃ w, WorldBuild.create (doc c) id id = .ok w ∧ w.surfaces.map SurfaceObj.name = ["s"] ∧
      w.nuclides.map Nuclide.name = ["a"] ∧ w.temperature = .constant 293.6 := by
  obtain ⟨w, hw⟩ := (Props.C48_built_iff (doc_wellFormed c) id id).1.2 (doc_defined c h)
  refine ⟨w, hw, ?_, ?_, ?_⟩
  · rw [(Props.C48_surfaces hw).1]
    have : usedSurfaces (doc c) = ["s", "s"] := by simp [usedSurfaces, doc]
    rw [this]
    decide
  · obtain ⟨xs, h1, h2, -⟩ := Props.C48_nuclides hw
    have hu : UsedNuclides (doc c) (usedMaterials (doc c)) ["a"] := by
      have : usedMaterials (doc c) = ["m"] := by simp [usedMaterials, doc]
      rw [this]
      exact UsedNuclides.cons (node := ⟨"m", 1, [("a", 1 / 2)]⟩) firstNamed_head .nil
    rw [h2, usedNuclides_unique h1 hu]
    decide
  · rw [(Props.C48_cells (doc_wellFormed c) Function.injective_id hw).2.2.2]
    rfl

theorem perturbations_eq (c : Choice) :
    ((root c).child "perturbations").children.mapM perturbation = .ok [⟨"q", c.nuclide⟩] := by
  rw [child_perturbations]
  simp [perturbations, el, Xml.children, perturbation, Xml.name, Xml.attrString, Xml.attr,
    Xml.attrs, List.mapM_cons, List.mapM_nil, bind, Except.bind, pure, Except.pure]

theorem histories_eq (c : Choice) :
    Text.stoi (((root c).child "general").child "histories").text = .ok 1 := by
  rw [child_general]
  have : ((general c.threads).child "histories").text = "1" := by
    simp [general, el, txt, Xml.child, Xml.children, Xml.name, Xml.text]
  rw [this]
  decide

theorem seed_eq (c : Choice) : seed ((root c).child "general") = .ok 1 := by
  rw [child_general]
  unfold seed
  have : ((general c.threads).child "seed").isNull = true := by
    simp [general, el, txt, Xml.child, Xml.children, Xml.name, Xml.isNull, Xml.null]
  rw [this, if_pos rfl]
  decide

theorem threads_eq (c : Choice) :
    (((root c).child "general").child "threads").text = c.threads := by
  rw [child_general]
  simp [general, el, txt, Xml.child, Xml.children, Xml.name, Xml.text]

theorem tracking_eq (c : Choice) :
    tracking (((root c).child "general").child "tracking").text = .absent := by
  rw [child_general]
  have : ((general c.threads).child "tracking").text = "" := by
    simp [general, el, txt, Xml.child, Xml.children, Xml.name, Xml.text, Xml.null]
  rw [this]
  rfl

/-- The bins of the estimator. -/
noncomputable def bins : ParticleBins :=
  ⟨some ⟨1, 0, 0⟩, .linspace 4 0 1 (1 / 2), .none, (1, 1)⟩

theorem along1 : Along 1 0 0 ⟨1, 0, 0⟩ := ⟨by norm_num, 1, by norm_num, by norm_num, by norm_num, by norm_num⟩

/-- The cosine element of the estimator. -/
theorem cosine_ok : cosineDirection env (el "cosine" [("u", "1"), ("v", "0"), ("w", "0")] k) =
    .ok (some ⟨1, 0, 0⟩) := by
  unfold cosineDirection
  have : (el "cosine" [("u", "1"), ("v", "0"), ("w", "0")] k).isNull = false := by
    simp [el, Xml.isNull, Xml.name]
  rw [this, attrReal_eq (s := "1") (by simp [el, Xml.attr, Xml.attrs]) real1,
    attrReal_eq (s := "0") (by simp [el, Xml.attr, Xml.attrs]) real0,
    attrReal_eq (s := "0") (by simp [el, Xml.attr, Xml.attrs]) real0]
  have : Direction.ofXYZ 1 0 0 = .ok ⟨1, 0, 0⟩ := (normalize_iff ⟨1, 0, 0⟩ _).2 along1
  rw [this]
  rfl

/-- What is read of the estimator. -/
theorem estimator_eq (c : Choice) (lo : ℝ) (hlo : env.real c.lo = some lo) :
    ((root c).child "estimators").children.map (estimator env) =
      [⟨true, "e", c.surface, ParticleBins.create (some ⟨1, 0, 0⟩) (Bins.createLinspace 2 lo 1)
        (.ok .none), [c.sensitivity]⟩] := by
  rw [child_estimators]
  have h2 : Text.asUnsigned 64 "2" = 2 := by decide
  have hb : ∀ k : Xml, k = el "bins" [] [el "cosine" [("u", "1"), ("v", "0"), ("w", "0")]
      [el "linspace" [("min", c.lo), ("max", "1"), ("bins", "2")] []]] →
      particleBins env k = ParticleBins.create (some ⟨1, 0, 0⟩) (Bins.createLinspace 2 lo 1)
        (.ok .none) := by
    rintro k rfl
    unfold particleBins
    have e1 : (el "bins" [] [el "cosine" [("u", "1"), ("v", "0"), ("w", "0")]
        [el "linspace" [("min", c.lo), ("max", "1"), ("bins", "2")] []]]).child "cosine" =
        el "cosine" [("u", "1"), ("v", "0"), ("w", "0")]
        [el "linspace" [("min", c.lo), ("max", "1"), ("bins", "2")] []] := by
      simp [el, Xml.child, Xml.children, Xml.name]
    have e2 : (el "bins" [] [el "cosine" [("u", "1"), ("v", "0"), ("w", "0")]
        [el "linspace" [("min", c.lo), ("max", "1"), ("bins", "2")] []]]).child "energy" = null := by
      simp [el, Xml.child, Xml.children, Xml.name]
    rw [e1, e2, cosine_ok]
    have e3 : Input.bins env (el "cosine" [("u", "1"), ("v", "0"), ("w", "0")]
        [el "linspace" [("min", c.lo), ("max", "1"), ("bins", "2")] []]).firstChild =
        Bins.createLinspace 2 lo 1 := by
      have : (el "cosine" [("u", "1"), ("v", "0"), ("w", "0")]
        [el "linspace" [("min", c.lo), ("max", "1"), ("bins", "2")] []]).firstChild =
        el "linspace" [("min", c.lo), ("max", "1"), ("bins", "2")] [] := rfl
      rw [this]
      unfold Input.bins
      have hn : (el "linspace" [("min", c.lo), ("max", "1"), ("bins", "2")] []).name = "linspace" :=
        rfl
      rw [hn, if_neg (by simp), if_pos rfl,
        attrReal_eq (s := c.lo) (by simp [el, Xml.attr, Xml.attrs]) hlo,
        attrReal_eq (s := "1") (by simp [el, Xml.attr, Xml.attrs]) real1]
      have : (el "linspace" [("min", c.lo), ("max", "1"), ("bins", "2")] []).attrString "bins" = "2" := by
        simp [el, Xml.attrString, Xml.attr, Xml.attrs]
      rw [this, h2]
    rw [e3]
    rfl
  simp only [estimators, el, Xml.children, List.map_cons, List.map_nil, estimator]
  rw [hb _ (by simp [el, Xml.child, Xml.children, Xml.name])]
  simp [Xml.name, Xml.attrString, Xml.attr, Xml.attrs, Xml.child, Xml.children]

/-- The world is built; what is left are the perturbations, the estimators and the source. -/
theorem driver_step (c : Choice) (h1 : c.first = "a") {t : ℕ} (h6 : Text.stoull c.threads = .ok t) (src : Res Source) :
    ∃ (w : World) (x : Nuclide) (y : SurfaceObj), w.nuclides = [x] ∧ x.name = "a" ∧
      w.surfaces = [y] ∧ y.name = "s" ∧
      driver env addr (root c) src = (do
        let qs ← createPerturbations w [0] [⟨"q", c.nuclide⟩]
        let init ← createEstimatorSet w qs
          (((root c).child "estimators").children.map (estimator env)) ((1 : ℕ) : ℝ)
        let s ← src
        .ok ⟨w, qs, 1, 1, init, t, .surfaceTracking, s⟩) := by
  obtain ⟨w, hw, hs, hn, ht⟩ := world_ok c h1
  obtain ⟨x, hx⟩ : ∃ x, w.nuclides = [x] := List.length_eq_one_iff.1 (by
    have := congrArg List.length hn
    simpa using this)
  obtain ⟨y, hy⟩ : ∃ y, w.surfaces = [y] := List.length_eq_one_iff.1 (by
    have := congrArg List.length hs
    simpa using this)
  refine ⟨w, x, y, hx, ?_, hy, ?_, ?_⟩
  · rw [hx] at hn
    simpa using hn
  · rw [hy] at hs
    simpa using hs
  unfold driver
  simp only
  have ha : addr.surface = id := rfl
  have ha' : addr.nuclide = id := rfl
  have hids : (List.range [(⟨"q", c.nuclide⟩ : PerturbationNode)].length).map addr.perturbation =
      [0] := rfl
  have hm : createMethod .absent w = .ok .surfaceTracking := by
    unfold createMethod World.hasConstantTemperature
    rw [ht]
    rfl
  rw [document_eq, perturbations_eq, histories_eq, seed_eq, threads_eq, tracking_eq, h6, ha, ha']
  simp only [bind, Except.bind]
  rw [hw]
  simp only
  rw [hids, hm]

theorem perturbed (c : Choice) (h2 : c.nuclide = "a") {w : World} {x : Nuclide}
    (hx : w.nuclides = [x]) (hn : x.name = "a") :
    ∃ qs, createPerturbations w [0] [⟨"q", c.nuclide⟩] = .ok qs ∧
      qs.map Perturbation.name = ["q"] := by
  obtain ⟨qs, hqs, -, hqs2⟩ := (Props.C57_perturbations (w := w) (ids := [0])
    (nodes := [⟨"q", c.nuclide⟩]) rfl).1 (by
      intro q hq
      simp only [List.mem_singleton] at hq
      subst hq
      exact ⟨x, by rw [hx]; simp, by simp [h2, hn]⟩)
  exact ⟨qs, hqs, map_perturbation_names hqs2⟩

/-- The world, the perturbations and the estimators are built; what is left is the source. -/
theorem driver_eq (c : Choice) (h1 : c.first = "a") (h2 : c.nuclide = "a") (h3 : c.surface = "s")
    (h4 : c.lo = "0") (h5 : c.sensitivity = "q") {t : ℕ} (h6 : Text.stoull c.threads = .ok t) (src : Res Source) :
    ∃ f : Source → Problem, (∀ s, (f s).source = s) ∧
      driver env addr (root c) src = src >>= fun s => .ok (f s) := by
  obtain ⟨w, x, y, hx, hn, hy, hs, hd⟩ := driver_step c h1 h6 src
  obtain ⟨qs, hqs, hnames⟩ := perturbed c h2 hx hn
  have hdef : ∀ e ∈ ((root c).child "estimators").children.map (estimator env),
      NodeDefined w qs e := by
    rw [estimator_eq c 0 (by rw [h4]; exact real0)]
    intro e he
    simp only [List.mem_singleton] at he
    subst he
    refine ⟨rfl, ?_, ⟨y, by rw [hy]; simp, by simp [hs, h3]⟩, ?_⟩
    · simp only [Bins.createLinspace]
      rw [if_neg (by norm_num)]
      exact ⟨_, rfl⟩
    · intro s hs
      simp only [List.mem_singleton] at hs
      subst hs
      have : "q" ∈ qs.map Perturbation.name := by rw [hnames]; simp
      obtain ⟨q, h, h'⟩ := List.mem_map.1 this
      exact ⟨q, h, by rw [h', h5]⟩
  obtain ⟨init, hi, -⟩ := Props.C57_set_as_described hdef ((1 : ℕ) : ℝ)
  refine ⟨fun s => ⟨w, qs, 1, 1, init, t, .surfaceTracking, s⟩, fun s => rfl, ?_⟩
  rw [hd, hqs]
  simp only [bind, Except.bind]
  rw [hi]

/-- Bins in the wrong order. -/
theorem driver_bins (c : Choice) (h1 : c.first = "a") (h2 : c.nuclide = "a") (h4 : c.lo = "2")
    {t : ℕ} (h6 : Text.stoull c.threads = .ok t) (src : Res Source) :
    driver env addr (root c) src = .error .terminate := by
  obtain ⟨w, x, y, hx, hn, hy, hs, hd⟩ := driver_step c h1 h6 src
  obtain ⟨qs, hqs, hnames⟩ := perturbed c h2 hx hn
  rw [hd, hqs, estimator_eq c 2 (by rw [h4]; exact real2)]
  have : Bins.createLinspace 2 2 1 = .error .runtimeError := by
    unfold Bins.createLinspace
    rw [if_pos (by norm_num)]
  rw [this]
  rfl

/-- A sensitivity to a perturbation that is not there. -/
theorem driver_sensitivity (c : Choice) (h1 : c.first = "a") (h2 : c.nuclide = "a")
    (h4 : c.lo = "0") (h5 : c.sensitivity = "r") {t : ℕ} (h6 : Text.stoull c.threads = .ok t) (src : Res Source) :
    driver env addr (root c) src = .error .terminate := by
  obtain ⟨w, x, y, hx, hn, hy, hs, hd⟩ := driver_step c h1 h6 src
  obtain ⟨qs, hqs, hnames⟩ := perturbed c h2 hx hn
  rw [hd, hqs, estimator_eq c 0 (by rw [h4]; exact real0)]
  obtain ⟨b, hb⟩ : ∃ b, ParticleBins.create (some ⟨1, 0, 0⟩) (Bins.createLinspace 2 0 1)
      (.ok .none) = .ok b := by
    simp only [Bins.createLinspace]
    rw [if_neg (by norm_num)]
    exact ⟨_, rfl⟩
  have := (Props.C57_undefined (w := w) (qs := qs) (l := []) (r := [])
    (node := ⟨true, "e", c.surface, ParticleBins.create (some ⟨1, 0, 0⟩)
      (Bins.createLinspace 2 0 1) (.ok .none), [c.sensitivity]⟩) (by simp) rfl ((1 : ℕ) : ℝ)).2.1
    b hb (by
      intro h
      obtain ⟨q, hq, e⟩ := h c.sensitivity (by simp)
      have hm : q.name ∈ qs.map Perturbation.name := List.mem_map_of_mem hq
      rw [hnames, e, h5] at hm
      simp at hm)
  simp only [List.nil_append] at this
  simp only [bind, Except.bind]
  rw [this]

/-- A perturbation of a nuclide that no cell contains. -/
theorem driver_nuclide (c : Choice) (h1 : c.first = "a") (h2 : c.nuclide = "b")
    {t : ℕ} (h6 : Text.stoull c.threads = .ok t) (src : Res Source) :
    driver env addr (root c) src = .error .terminate := by
  obtain ⟨w, x, y, hx, hn, hy, hs, hd⟩ := driver_step c h1 h6 src
  rw [hd, (Props.C57_perturbations (w := w) (ids := [0]) (nodes := [⟨"q", c.nuclide⟩]) rfl).2 (by
    intro h
    obtain ⟨z, hz, e⟩ := h _ (List.mem_singleton.2 rfl)
    rw [hx] at hz
    simp only [List.mem_singleton] at hz
    subst hz
    rw [hn] at e
    simp [h2] at e)]
  rfl

theorem source_children (x energy : String) (type : List (String × String)) :
    (el "fixedsource" [] (source x energy type)).child "position" =
      el "position" [] [el "constant" [("x", "0"), ("y", "0"), ("z", "0")] []] ∧
    (el "fixedsource" [] (source x energy type)).child "direction" =
      el "direction" [] [el "constant" [("x", x), ("y", "0"), ("z", "0")] []] ∧
    (el "fixedsource" [] (source x energy type)).child "energy" =
      el "energy" [] [el "constant" [("energy", energy)] []] ∧
    (el "fixedsource" [] (source x energy type)).child "particletype" =
      el "particletype" [] [el "constant" type []] := by
  refine ⟨?_, ?_, ?_, ?_⟩ <;> simp [source, el, Xml.child, Xml.children, Xml.name]

/-- The source that is read. -/
theorem source_eq (c : Choice) (x : ℝ) (hx : env.real c.x = some x) :
    Input.source env (root c) (el "fixedsource" [] (source c.x c.energy c.type)) = (do
      let d ← Point.normalize ⟨x, 0, 0⟩
      let e ← Text.stoull c.energy
      let t ← toType ((el "constant" c.type []).attrString "type")
      .ok ⟨⟨0, 0, 0⟩, .constant d, .group e, t⟩) := by
  obtain ⟨e1, e2, e3, e4⟩ := source_children c.x c.energy c.type
  have hfc : ∀ (s : String) (k : Xml), (el s [] [k]).firstChild = k := fun s k => rfl
  have hcn : ∀ (a : List (String × String)), (el "constant" a []).name = "constant" := fun a => rfl
  unfold Input.source positionDist directionDist energyDist typeDist direction point
  rw [e1, e2, e3, e4]
  simp only [hfc, hcn, if_true, multigroup_kind]
  rw [attrReal_eq (a := "x") (s := "0") (by simp [el, Xml.attr, Xml.attrs]) real0,
    attrReal_eq (a := "y") (s := "0") (by simp [el, Xml.attr, Xml.attrs]) real0,
    attrReal_eq (a := "z") (s := "0") (by simp [el, Xml.attr, Xml.attrs]) real0,
    attrReal_eq (a := "x") (s := c.x) (by simp [el, Xml.attr, Xml.attrs]) hx,
    attrReal_eq (a := "y") (s := "0") (by simp [el, Xml.attr, Xml.attrs]) real0,
    attrReal_eq (a := "z") (s := "0") (by simp [el, Xml.attr, Xml.attrs]) real0]
  have : (el "constant" [("energy", c.energy)] []).attrString "energy" = c.energy := by
    simp [el, Xml.attrString, Xml.attr, Xml.attrs]
  rw [this]
  rcases Point.normalize ⟨x, 0, 0⟩ with e | d
  · rfl
  · simp only [bind, Except.bind]
    rcases Text.stoull c.energy with e | v
    · rfl
    · rfl

/-- The driver of the example documents. -/
theorem load_eq (c : Choice) (hv : Valid env (root c)) :
    loadDriver env addr (root c) =
      (driver env addr (root c) (Input.source env (root c)
        (el "fixedsource" [] (source c.x c.energy c.type)))) >>= fun P => .ok (.fixedSource P) := by
  unfold loadDriver
  rw [if_pos hv]
  unfold createDriver
  have h1 : ((root c).child "problemtype").firstChild.name = "fixedsource" := by
    rw [child_problem]
    rfl
  simp only
  rw [if_pos h1]
  unfold fixedSource
  have h2 : ((root c).child "problemtype").child "fixedsource" =
      el "fixedsource" [] (source c.x c.energy c.type) := by
    rw [child_problem]
    simp [el, Xml.child, Xml.children, Xml.name]
  rw [h2]

end Minimc.InputExample
