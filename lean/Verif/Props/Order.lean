import Verif.Lemmas.OrderRun
import Verif.Props.Solve

/-! # C98: the order in which things are listed in the input -/

namespace Minimc.Props

open Spec Input Schema Xml WorldBuild

/-! ### Worlds -/

/-- **C98** A document whose surfaces, materials, nuclides and cells are listed in another order
gives exactly the same objects, listed in some order, when they are placed at the same addresses;
as long as no two of them have the same name. -/
theorem C98_world_partial {doc doc' : Document} (h : Reordered doc doc') (hu : UniqueNames doc)
    (hw : WellFormed doc) {sa na : ℕ → ℕ} (hsa : Function.Injective sa)
    (hna : Function.Injective na) {w : World} (hc : create doc sa na = .ok w) :
    ∃ sa' na', Function.Injective sa' ∧ Function.Injective na' ∧
      ∃ w', create doc' sa' na' = .ok w' ∧ ReorderedWorld w w' :=
  reordered_world h hu hw hsa hna hc

/-- **C98** A document that is refused is refused in any other order. -/
theorem C98_refused {doc doc' : Document} (h : Reordered doc doc') (hu : UniqueNames doc)
    (hw : WellFormed doc) {sa na sa' na' : ℕ → ℕ} :
    (∃ w, create doc sa na = .ok w) ↔ ∃ w, create doc' sa' na' = .ok w := by
  rw [(C48_built_iff hw sa na).1, (C48_built_iff (h.wellFormed hw) sa' na').1]
  exact ⟨h.allDefined hu, h.symm.allDefined (h.unique hu)⟩

/-! ### Results -/

/-- **C98** A problem whose cells do not overlap gives the same results when its objects are listed
in another order. -/
theorem C98_results_partial {P : Problem} {w' : World} (h : ReorderedWorld P.world w')
    (hs : Separate P.world) (fuel k : ℕ) (r : EstimatorSet) (k' : ℕ) :
    SolveResult P fuel k r k' ↔ SolveResult { P with world := w' } fuel k r k' := by
  unfold SolveResult
  rw [history_reordered (findCell_reordered h hs)]

theorem uniqueNames_of {env : Env} {root : Xml} (hv : Valid env root) (hl : ListedOnce root)
    {doc : Document} (hd : document env root = .ok doc) : UniqueNames doc := by
  obtain ⟨parts, hr⟩ := parts_exist hv
  have e : parts.doc = doc := Except.ok.inj (hr.doc.symm.trans hd)
  obtain ⟨h1, h2, h3, -, h4, -⟩ := C64_names_unique hv parts
  rw [e] at h1 h2 h3 h4
  have hchild : ∀ {s}, s ∈ ["general", "nuclides", "materials", "surfaces", "cells",
      "problemtype"] → Child root s (root.child s) :=
    fun hs => (allOf_child_iff hv.elements hs _).2 rfl
  unfold document at hd
  simp only [res_bind_ok] at hd
  obtain ⟨ss, -, t, -, e'⟩ := hd
  cases e'
  refine ⟨h1, h2, ?_, h3, ?_⟩
  · obtain ⟨k, hk, -⟩ := hv.nuclides.1
    have := hl.nuclides _ k (hchild (by simp)) hk
    have hf : (root.child "nuclides").firstChild = k := by rw [Xml.firstChild, hk]; rfl
    dsimp only
    rw [hf, List.map_map]
    exact this
  · intro c hc
    cases hvoid : c.isVoid with
    | false => exact h4 c hc hvoid
    | true =>
      obtain ⟨n, hn, rfl⟩ := List.mem_map.1 hc
      have := hl.voids _ (hchild (by simp)) n hn (by simpa [cell] using hvoid)
      simp only [cell, List.map_map]
      exact this

/-- The world of a driver is made from the document. -/
theorem loaded_world {env : Env} {root : Xml} {addr : Addresses} {P : Problem}
    (h : loadDriver env addr root = .ok (.fixedSource P)) : ∃ doc, document env root = .ok doc ∧
      WellFormed doc ∧ create doc addr.surface addr.nuclide = .ok P.world := by
  have hv : Valid env root := by
    by_contra hv
    rw [C58_rejected hv] at h
    cases h
  unfold loadDriver at h
  rw [if_pos hv] at h
  unfold createDriver at h
  simp only at h
  split at h
  · unfold fixedSource driver at h
    simp only [res_bind_ok] at h
    obtain ⟨Q, ⟨d, a1, w, a2, ns, a3, qs, a4, bs, a5, sd, a6, init, a7, th, a8, m, a9, src, a10,
      e⟩, e'⟩ := h
    cases e
    cases e'
    obtain ⟨doc0, hdoc0, -, hwf⟩ := document_ok hv
    have e0 : doc0 = d := Except.ok.inj (hdoc0.symm.trans a1)
    exact ⟨d, a1, e0 ▸ hwf, a2⟩
  · split at h
    · unfold keigenvalue at h
      simp only [res_bind_ok] at h
      obtain ⟨_, _, _, _, e⟩ := h
      cases e
    · cases h

/-! ### Documents -/

/-- **C98** Two fixed-source documents that the schema accepts and that differ in nothing but the
order in which surfaces, materials, nuclides and cells are listed give the same results, when their
objects are placed at the same addresses; as long as names are not used twice and the cells do not
overlap. -/
theorem C98_documents_partial {env : Env} {root root' : Xml} (hv : Valid env root)
    (hv' : Valid env root') (he : OnlyOrder root root') (hl : ListedOnce root) {addr : Addresses}
    (hsa : Function.Injective addr.surface) (hna : Function.Injective addr.nuclide) {P : Problem}
    (hd : loadDriver env addr root = .ok (.fixedSource P)) (hs : Separate P.world) :
    ∃ addr' : Addresses, Function.Injective addr'.surface ∧ Function.Injective addr'.nuclide ∧
      addr'.perturbation = addr.perturbation ∧
      ∃ P', loadDriver env addr' root' = .ok (.fixedSource P') ∧
        ReorderedWorld P.world P'.world ∧
        ∀ fuel k r k', SolveResult P fuel k r k' ↔ SolveResult P' fuel k r k' := by
  have hc : ∀ s, s ≠ "" → s ≠ "surfaces" → s ≠ "materials" → s ≠ "nuclides" → s ≠ "cells" →
      root.child s = root'.child s := fun s h0 h1 h2 h3 h4 =>
    child_congr hv.elements.2.1 hv'.elements.2.1 h0 (he.sections s h1 h2 h3 h4)
  have hgen := hc "general" (by simp) (by simp) (by simp) (by simp) (by simp)
  have hprob := hc "problemtype" (by simp) (by simp) (by simp) (by simp) (by simp)
  have hpert := hc "perturbations" (by simp) (by simp) (by simp) (by simp) (by simp)
  have hest := hc "estimators" (by simp) (by simp) (by simp) (by simp) (by simp)
  unfold loadDriver at hd
  rw [if_pos hv] at hd
  unfold createDriver at hd
  simp only at hd
  split at hd
  swap
  · split at hd
    · unfold keigenvalue at hd
      simp only [res_bind_ok] at hd
      obtain ⟨_, _, _, _, e⟩ := hd
      cases e
    · cases hd
  rename_i hfixed
  unfold fixedSource at hd
  simp only [res_bind_ok] at hd
  obtain ⟨Q, hQ, e⟩ := hd
  cases e
  unfold driver at hQ
  simp only [res_bind_ok] at hQ
  obtain ⟨d, a1, w, a2, ns, a3, qs, a4, bs, a5, sd, a6, init, a7, th, a8, m, a9, src, a10, e⟩ := hQ
  cases e
  obtain ⟨doc0, hdoc0, -, hwf⟩ := document_ok hv
  have e0 : doc0 = d := Except.ok.inj (hdoc0.symm.trans a1)
  subst e0
  obtain ⟨doc', hdoc', hr⟩ := order_document hv hv' he a1
  obtain ⟨sa', na', hsa', hna', w', hw', hrw⟩ :=
    reordered_world hr (uniqueNames_of hv hl a1) hwf hsa hna a2
  refine ⟨⟨sa', na', addr.perturbation⟩, hsa', hna', rfl,
    { world := w', perturbations := qs, batchsize := bs, seed := sd, init := init, threads := th,
      method := m, source := src }, ?_, hrw, ?_⟩
  · unfold loadDriver
    rw [if_pos hv']
    unfold createDriver
    simp only
    rw [← hprob, if_pos hfixed]
    unfold fixedSource driver
    rw [← order_source hv hv' he, ← hprob, ← hgen, ← hpert, ← hest, hdoc']
    simp only [bind, Except.bind]
    rw [hw']
    simp only
    rw [a3]
    simp only
    rw [← createPerturbations_reordered (findNuclide_reordered a2 hrw), a4]
    simp only
    rw [a5]
    simp only
    rw [a6]
    simp only
    rw [← createEstimatorSet_reordered (findSurface_reordered a2 hrw), a7]
    simp only
    rw [a8]
    simp only
    rw [← createMethod_reordered hrw, a9]
    simp only
    rw [a10]
  · exact fun fuel k r k' => C98_results_partial (P := ⟨w, qs, bs, sd, init, th, m, src⟩) hrw hs
      fuel k r k'

/-! ### What is not so -/

/-- The slab of `slabProblem` in front of a void that covers everything, with the void first. -/
noncomputable def voidFirst : World :=
  { absorbingWorld slabWalls 0 with
    cells := [⟨"out", [], none, .constant 300⟩,
      ⟨"in", slabWalls, some (absorbing 0), .constant 300⟩] }

theorem voidFirst_reordered : ReorderedWorld (absorbingWorld slabWalls 0) voidFirst :=
  ⟨.refl _, .refl _, .refl _, rfl, .swap _ _ _⟩

/-- In this world no particle can be transported: it is in a cell without a material. -/
theorem voidFirst_transport (fuel : ℕ) (p : Particle) (hp : p.isAlive = true)
    (r : Particle × List Particle) : transport .surfaceTracking fuel voidFirst p ≠ .ok r := by
  intro h
  have hl : p.locate voidFirst = .ok { p with cell := some ⟨"out", [], none, .constant 300⟩ } := by
    unfold Particle.locate World.findCellContaining
    have : voidFirst.cells.find? (fun c => c.contains p.position) =
        some ⟨"out", [], none, .constant 300⟩ := by
      simp [voidFirst, Cell.contains]
    rw [this]
    rfl
  have ha : ({ p with cell := some ⟨"out", [], none, .constant 300⟩ } : Particle).isAlive = true := hp
  unfold transport at h
  rw [hl] at h
  simp only [bind, Except.bind] at h
  cases fuel with
  | zero =>
    unfold transportLoop at h
    rw [if_pos ha] at h
    cases h
  | succ n =>
    unfold transportLoop at h
    rw [if_pos ha] at h
    cases h

theorem voidFirst_history (n t fuel e : ℕ) (x : List Particle) :
    ({ slabProblem n t with world := voidFirst } : Problem).history fuel e ≠ .ok x := by
  intro h
  unfold Problem.history at h
  simp only [res_bind_ok] at h
  obtain ⟨b, hb, log, hlog, -⟩ := h
  cases fuel with
  | zero => cases hlog
  | succ m =>
    unfold processBank at hlog
    simp only [List.getLast?_singleton, res_bind_ok] at hlog
    obtain ⟨r, hr, -⟩ := hlog
    exact voidFirst_transport (m + 1) _ rfl r hr

/-- **C98** That the order of cells that overlap does not matter is false: a void that covers
everything serves as the outside of a slab when it is listed last; when it is listed first, the
neutrons start in it, and no history can be completed. -/
theorem C98_overlap_violated : ∃ (P : Problem) (w' : World), ReorderedWorld P.world w' ∧
    (∃ r k, SolveResult P 1 0 r k) ∧
    ¬ ∃ fuel r k, SolveResult { P with world := w' } fuel 0 r k := by
  refine ⟨slabProblem 1 1, voidFirst, voidFirst_reordered,
    C32_result_exists (slabProblem_fresh _ _) (slabProblem_histories _ _), ?_⟩
  rintro ⟨fuel, r, k, h⟩
  obtain ⟨hists, hl, hh, -⟩ := C32_as_if_sequential
    (P := { slabProblem 1 1 with world := voidFirst }) (slabProblem_fresh 1 1) (le_refl 1) h
  have hl' : hists.length = 1 := hl
  obtain ⟨x, rfl⟩ := List.length_eq_one_iff.1 hl'
  exact voidFirst_history 1 1 fuel 0 x (hh 0 x rfl)

/-- A document with two nuclides of one name. -/
noncomputable def twiceDoc (σ σ' : ℝ) : Document :=
  { exampleDoc with
    nuclides := [⟨"n", .ok (absorber 0 "n" σ).xs⟩, ⟨"n", .ok (absorber 0 "n" σ').xs⟩] }

theorem twiceDoc_defined (σ σ' : ℝ) : AllDefined (twiceDoc σ σ') where
  surfaces := exampleDoc_defined.surfaces
  materials := by
    intro c hc hv
    obtain ⟨m, h1, h2⟩ := exampleDoc_defined.materials c hc hv
    have hm : m = ⟨"m", 0.5, [("n", 1)]⟩ := by
      have := firstNamed_mem h1
      simpa [exampleDoc] using this
    refine ⟨m, h1, ?_⟩
    subst hm
    simp only [List.mem_singleton, forall_eq]
    exact ⟨_, ⟨[], _, rfl, rfl, by simp⟩, _, rfl⟩

theorem twiceDoc_wellFormed (σ σ' : ℝ) : WellFormed (twiceDoc σ σ') :=
  ⟨exampleDoc_wellFormed.senses, exampleDoc_wellFormed.names, exampleDoc_wellFormed.afracs⟩

theorem twiceDoc_names {σ σ' : ℝ} {sa na : ℕ → ℕ} {w : World}
    (h : create (twiceDoc σ σ') sa na = .ok w) : w.nuclides.map Nuclide.name = ["n"] := by
  obtain ⟨xs, h1, h2, -⟩ := C48_nuclides h
  have h3 : xs = ["n"] := by
    have e : usedMaterials (twiceDoc σ σ') = ["m"] := by
      simp [usedMaterials, twiceDoc, exampleDoc]
    rw [e] at h1
    refine usedNuclides_unique h1 (.cons (node := ⟨"m", 0.5, [("n", 1)]⟩) ?_ .nil)
    exact ⟨[], [], rfl, rfl, by simp⟩
  rw [h2, h3]
  decide

theorem twiceDoc_total {σ σ' : ℝ} {sa na : ℕ → ℕ} {w : World}
    (h : create (twiceDoc σ σ') sa na = .ok w) {n : Nuclide} (hn : n ∈ w.nuclides) {p : Particle}
    (hp : p.energy = .group 1) : n.getTotal p = .ok σ := by
  obtain ⟨xs, -, -, h1⟩ := C48_nuclides h
  obtain ⟨node, h2, h3⟩ := h1 n hn
  have h4 : n.xs = (absorber 0 "n" σ).xs := by
    obtain ⟨l, r, e, h5, h6⟩ := h2
    cases l with
    | nil =>
      have e1 : node = ⟨"n", .ok (absorber 0 "n" σ).xs⟩ := (List.cons.inj e).1.symm
      rw [e1] at h3
      exact (Except.ok.inj h3).symm
    | cons a l =>
      have e1 : a = ⟨"n", .ok (absorber 0 "n" σ).xs⟩ := (List.cons.inj e).1.symm
      have h7 := h6 a (by simp)
      have h8 : node.name = "n" := by
        have : node ∈ (twiceDoc σ σ').nuclides := by rw [e]; simp
        simp only [twiceDoc, List.mem_cons, List.not_mem_nil, or_false] at this
        rcases this with rfl | rfl <;> rfl
      rw [e1] at h7
      exact absurd (h8.symm.trans h5) h7
  have h5 := absorber_total 0 "n" σ hp
  unfold Nuclide.getTotal Nuclide.xsAt at h5 ⊢
  rw [h4]
  exact h5

/-- **C98** That the order of the nuclides does not matter when two have one name, which the schema
allows (C64), is false: the first is taken. -/
theorem C98_nuclides_violated : ∃ doc doc' : Document, Reordered doc doc' ∧ WellFormed doc ∧
    (∀ sa na, ∃ w, create doc sa na = .ok w) ∧ (∀ sa na, ∃ w, create doc' sa na = .ok w) ∧
    ∀ sa na sa' na' w w', create doc sa na = .ok w → create doc' sa' na' = .ok w' →
      w.nuclides.map Nuclide.name = ["n"] ∧ w'.nuclides.map Nuclide.name = ["n"] ∧
      ∀ p : Particle, p.energy = .group 1 → (∀ n ∈ w.nuclides, n.getTotal p = .ok 2) ∧
        ∀ n ∈ w'.nuclides, n.getTotal p = .ok 3 := by
  refine ⟨twiceDoc 2 3, twiceDoc 3 2, ⟨.refl _, ?_, .swap _ _ _, rfl, ?_⟩, ?_,
    fun sa na => (C48_built_iff (twiceDoc_wellFormed 2 3) sa na).1.2 (twiceDoc_defined 2 3),
    fun sa na => (C48_built_iff (twiceDoc_wellFormed 3 2) sa na).1.2 (twiceDoc_defined 3 2), ?_⟩
  · exact ⟨_, .refl _, List.forall₂_same.2 fun m _ => ⟨rfl, rfl, .refl _⟩⟩
  · exact ⟨_, .refl _, List.forall₂_same.2 fun m _ => ⟨rfl, rfl, rfl, rfl, .refl _⟩⟩
  · exact twiceDoc_wellFormed 2 3
  · intro sa na sa' na' w w' hw hw'
    exact ⟨twiceDoc_names hw, twiceDoc_names hw', fun p hp =>
      ⟨fun n hn => twiceDoc_total hw hn hp, fun n hn => twiceDoc_total hw' hn hp⟩⟩

/-! ### Instances -/

namespace OrderExample

open InputExample

/-- The surfaces of `InputExample.surfaces`, the plane first. -/
def surfaces' : Xml :=
  el "surfaces" [] [el "planex" [("name", "p"), ("x", "0")] [], el "sphere" [("name", "s")]
      [el "center" [("x", "0"), ("y", "0"), ("z", "0")] [], el "radius" [("r", "1")] []]]

/-- The cells of `InputExample.cells`, the void first. -/
def cells' : Xml :=
  el "cells" [] [el "void" [] [el "surface" [("name", "s"), ("sense", "+1")] []],
    el "cell" [("name", "in"), ("material", "m")]
      [el "surface" [("name", "s"), ("sense", "-1")] []]]

/-- The nuclides of `InputExample.nuclides`, the scatterer first. -/
def nuclides' : Xml :=
  el "nuclides" [] [el "multigroup" [("groups", "1")]
    [el "nuclide" [("name", "b")] [el "neutron" [] [txt "capture" "2", txt "scatter" "1"]],
      el "nuclide" [("name", "a")] [el "neutron" [] [txt "capture" "1"]]]]

/-- The document of `InputExample.root`, in another order. -/
def root' : Xml :=
  el "minimc" [] [cells', general "2", surfaces', nuclides', materials,
    el "problemtype" [] [el "fixedsource" [] (source "1" "1" [("type", "neutron")])],
    estimators "s" "0" "q", perturbations "a"]

set_option linter.unusedSimpArgs false in
theorem valid' : Valid env root' := by
  have hg : root'.child "general" = general "2" := by
    simp [root', el, Xml.child, Xml.children, Xml.name, general, cells', surfaces']
  have hn : root'.child "nuclides" = nuclides' := by
    simp [root', el, Xml.child, Xml.children, Xml.name, general, nuclides', cells', surfaces']
  have hm : root'.child "materials" = materials := by
    simp [root', el, Xml.child, Xml.children, Xml.name, general, nuclides', materials, cells',
      surfaces']
  have hs : root'.child "surfaces" = surfaces' := by
    simp [root', el, Xml.child, Xml.children, Xml.name, general, cells', surfaces']
  have hc : root'.child "cells" = cells' := by
    simp [root', el, Xml.child, Xml.children, Xml.name, cells']
  have hp : root'.child "problemtype" =
      el "problemtype" [] [el "fixedsource" [] (source "1" "1" [("type", "neutron")])] := by
    simp [root', el, Xml.child, Xml.children, Xml.name, general, nuclides', materials, cells',
      surfaces']
  refine ⟨?_, ?_, ?_, ?_, ?_, ?_, ?_, ?_, ?_, ?_⟩
  · refine ⟨?_, ?_, ?_⟩ <;> simp [root', el, Xml.children, Xml.name, general, nuclides', materials,
      surfaces', cells', estimators, perturbations]
  · rw [hg]
    refine ⟨⟨?_, ?_, ?_⟩, ?_⟩ <;> simp [el, Xml.children, Xml.name, general, txt, Xml.text,
      positive1, positive2]
    intro w hw
    have : Text.words "neutron" = ["neutron"] := by decide
    rw [this] at hw
    simp only [List.mem_singleton] at hw
    exact .inl hw
  · rw [hn]
    refine ⟨?_, ?_⟩ <;> simp [el, txt, Xml.children, Xml.child, Xml.firstChild, Xml.name,
      Xml.text, Xml.attrs, Xml.attr, Attrs, AllOf, OneOf, SomeOf, Val, Schema.Unique, nuclides',
      MultigroupNuclearData, GroupXSReactions, group1,
      group2, positive1]
  · rw [hm]
    refine ⟨?_, ?_, ?_⟩ <;> simp [el, txt, Xml.children, Xml.child, Xml.firstChild, Xml.name,
      Xml.text, Xml.attrs, Xml.attr, Attrs, AllOf, OneOf, SomeOf, Val, Schema.Unique, materials,
      Double, Positive, NonNegative, real0, real1, realHalf, real2]
    tauto
  · rw [hs]
    refine ⟨?_, ?_, ?_⟩ <;> simp [el, txt, Xml.children, Xml.child, Xml.firstChild, Xml.name,
      Xml.text, Xml.attrs, Xml.attr, Attrs, AllOf, OneOf, SomeOf, Val, Schema.Unique, surfaces',
      SurfaceElement, IsPoint, Double, Positive, NonNegative, real0, real1, realHalf, real2]
    tauto
  · rw [hc]
    refine ⟨?_, ?_, ?_⟩ <;> simp [el, txt, Xml.children, Xml.child, Xml.firstChild, Xml.name,
      Xml.text, Xml.attrs, Xml.attr, Attrs, AllOf, OneOf, SomeOf, Val, Schema.Unique, cells',
      CSGDefinition, Double, Positive, NonNegative, real0, real1, realHalf, real2]
    tauto
  · rw [hp]
    refine ⟨?_, ?_⟩
    · simp [el, txt, Xml.children, Xml.child, Xml.firstChild, Xml.name, Xml.text, Xml.attrs,
      Xml.attr, Attrs, AllOf, OneOf, SomeOf, Val, Schema.Unique]
    · simp [el, txt, Xml.children, Xml.child, Xml.firstChild, Xml.name, Xml.text, Xml.attrs,
        Xml.attr, Attrs, AllOf, OneOf, SomeOf, Val, Schema.Unique, InputExample.source, SourceType,
        DirectionType, IsPoint, ParticleName, real0, real1, Double, Positive]
  · simp [root', el, Xml.children, Xml.name, general, nuclides', materials, surfaces', cells',
      estimators, perturbations]
  · intro d hd hn
    have : d = estimators "s" "0" "q" := by
      simp [root', el, Xml.children, general, nuclides', materials, surfaces', cells', estimators,
        perturbations] at hd
      rcases hd with rfl | rfl | rfl | rfl | rfl | rfl | rfl | rfl <;>
        simp [Xml.name, estimators, el] at hn ⊢
    subst this
    simp [el, txt, Xml.children, Xml.child, Xml.firstChild, Xml.name, Xml.text, Xml.attrs,
      Xml.attr, Attrs, AllOf, OneOf, SomeOf, Val, Schema.Unique, estimators, Estimators,
      ParticleBinType, BinType, BinElement, Double, Positive, NonNegative, real0, real1, realHalf,
      real2, positive2]
    tauto
  · intro d hd hn
    have : d = perturbations "a" := by
      simp [root', el, Xml.children, general, nuclides', materials, surfaces', cells', estimators,
        perturbations] at hd
      rcases hd with rfl | rfl | rfl | rfl | rfl | rfl | rfl | rfl <;>
        simp [Xml.name, perturbations, el] at hn ⊢
    subst this
    simp [el, txt, Xml.children, Xml.child, Xml.firstChild, Xml.name, Xml.text, Xml.attrs,
      Xml.attr, Attrs, AllOf, OneOf, SomeOf, Val, Schema.Unique, perturbations, Perturbations]
    tauto

theorem children_root : (InputExample.root {}).children = [general "2", nuclides "a" "b", materials,
    surfaces, cells, el "problemtype" [] [el "fixedsource" []
      (InputExample.source "1" "1" [("type", "neutron")])], estimators "s" "0" "q",
    perturbations "a"] := rfl

theorem children_root' : root'.children = [cells', general "2", surfaces', nuclides', materials,
    el "problemtype" [] [el "fixedsource" []
      (InputExample.source "1" "1" [("type", "neutron")])], estimators "s" "0" "q",
    perturbations "a"] := rfl

theorem onlyOrder : OnlyOrder (InputExample.root {}) root' := by
  have hv := example_valid {} (.inl rfl) (.inl rfl) (.inl rfl) (.inr rfl) (.inl rfl)
  have e : ∀ {s n}, s ∈ ["general", "nuclides", "materials", "surfaces", "cells",
      "problemtype"] → Child (InputExample.root {}) s n → n = (InputExample.root {}).child s :=
    fun hs h => ((allOf_child_iff hv.elements hs _).1 h).symm
  have e' : ∀ {s n}, s ∈ ["general", "nuclides", "materials", "surfaces", "cells",
      "problemtype"] → Child root' s n → n = root'.child s :=
    fun hs h => ((allOf_child_iff valid'.elements hs _).1 h).symm
  refine ⟨?_, ?_, ?_, ?_, ?_⟩
  · intro s h1 h2 h3 h4 n
    simp only [Child, children_root, children_root', List.mem_cons, List.not_mem_nil, or_false]
    have aux : ∀ {m : Xml} {t : String}, s ≠ t → m.name = t → (n = m ∧ n.name = s ↔ False) := by
      intro m t h5 h6
      constructor
      · rintro ⟨rfl, h7⟩; exact h5 (h7.symm.trans h6)
      · exact False.elim
    simp only [or_and_right]
    rw [aux h3 (show (nuclides "a" "b").name = "nuclides" from rfl),
      aux h2 (show materials.name = "materials" from rfl),
      aux h1 (show surfaces.name = "surfaces" from rfl),
      aux h4 (show cells.name = "cells" from rfl),
      aux h4 (show cells'.name = "cells" from rfl),
      aux h1 (show surfaces'.name = "surfaces" from rfl),
      aux h3 (show nuclides'.name = "nuclides" from rfl)]
    simp only [false_or]
  · intro n n' h h'
    rw [e (by simp) h, e' (by simp) h']
    exact .swap _ _ _
  · intro n n' h h'
    rw [e (by simp) h, e' (by simp) h']
    exact ⟨_, .refl _, List.forall₂_same.2 fun m _ => ⟨rfl, rfl, rfl, .refl _⟩⟩
  · intro n n' k k' h h' hk hk'
    rw [e (by simp) h] at hk
    rw [e' (by simp) h'] at hk'
    have h1 := (List.cons.inj hk).1
    have h2 := (List.cons.inj hk').1
    rw [← h1, ← h2]
    exact ⟨rfl, rfl, rfl, .swap _ _ _⟩
  · intro n n' h h'
    rw [e (by simp) h, e' (by simp) h']
    exact ⟨_, .swap _ _ _, List.forall₂_same.2 fun m _ => ⟨rfl, rfl, rfl, .refl _⟩⟩

theorem listedOnce : ListedOnce (InputExample.root {}) := by
  have hv := example_valid {} (.inl rfl) (.inl rfl) (.inl rfl) (.inr rfl) (.inl rfl)
  have e : ∀ {s n}, s ∈ ["general", "nuclides", "materials", "surfaces", "cells",
      "problemtype"] → Child (InputExample.root {}) s n → n = (InputExample.root {}).child s :=
    fun hs h => ((allOf_child_iff hv.elements hs _).1 h).symm
  refine ⟨?_, ?_⟩
  · intro n k h hk
    rw [e (by simp) h] at hk
    have h1 := (List.cons.inj hk).1
    rw [← h1]
    decide
  · intro n h c hc _
    rw [e (by simp) h] at hc
    rcases List.mem_cons.1 hc with rfl | hc
    · decide
    · rw [List.mem_singleton.1 hc]
      decide

/-- The two cells of the example are the two sides of the sphere. -/
theorem separate {w : World} {sa na : ℕ → ℕ} (hsa : Function.Injective sa)
    (hw : WellFormed (InputExample.doc {})) (h : create (InputExample.doc {}) sa na = .ok w) :
    Separate w := by
  obtain ⟨h1, -⟩ := C48_cells hw hsa h
  obtain ⟨s, hs, hsn⟩ : ∃ s ∈ w.surfaces, s.name = "s" := by
    have h2 := (C48_surfaces h).1
    have h3 : "s" ∈ w.surfaces.map SurfaceObj.name := by
      rw [h2, mem_eraseDups, mem_usedSurfaces]
      exact ⟨_, by simp [InputExample.doc]; exact .inl rfl, by simp⟩
    obtain ⟨s, h4, h5⟩ := List.mem_map.1 h3
    exact ⟨s, h4, h5⟩
  unfold Separate
  change List.Forall₂ _ [_, _] _ at h1
  generalize w.cells = cs at h1
  cases h1 with
  | cons a1 b =>
    cases b with
    | cons a2 c =>
      cases c
      refine List.pairwise_cons.2 ⟨?_, List.pairwise_singleton _ _⟩
      intro c hc
      rw [List.mem_singleton.1 hc]
      rintro ⟨x, hx1, hx2⟩
      have m1 := (a1.senses s true).2 ⟨hs, .minus, hsn ▸ ⟨[], [], rfl, rfl, by simp⟩, .inl ⟨rfl, rfl⟩⟩
      have m2 := (a2.senses s false).2 ⟨hs, .plus, hsn ▸ ⟨[], [], rfl, rfl, by simp⟩, .inr ⟨rfl, rfl⟩⟩
      have h3 : s.shape.contains x = true := hx1 _ m1
      have h4 : s.shape.contains x = false := hx2 _ m2
      rw [h3] at h4
      cases h4

end OrderExample

/-- Two documents as in `C98_documents_partial`, which give drivers. -/
example : Valid InputExample.env (InputExample.root {}) ∧
    Valid InputExample.env OrderExample.root' ∧
    OnlyOrder (InputExample.root {}) OrderExample.root' ∧ ListedOnce (InputExample.root {}) ∧
    ∃ P, loadDriver InputExample.env InputExample.addr (InputExample.root {}) =
      .ok (.fixedSource P) ∧ Separate P.world ∧ P.world.cells.length = 2 := by
  have hv := example_valid {} (.inl rfl) (.inl rfl) (.inl rfl) (.inr rfl) (.inl rfl)
  obtain ⟨P, hP, -⟩ := example_created "b"
  refine ⟨hv, OrderExample.valid', OrderExample.onlyOrder, OrderExample.listedOnce, P, hP, ?_⟩
  obtain ⟨doc, h1, hw, h2⟩ := loaded_world hP
  have e : InputExample.doc {} = doc := Except.ok.inj ((InputExample.document_eq {}).symm.trans h1)
  subst e
  refine ⟨OrderExample.separate Function.injective_id hw h2, ?_⟩
  have := (C48_cells hw Function.injective_id h2).1.length_eq
  rw [← this]
  rfl

end Minimc.Props
