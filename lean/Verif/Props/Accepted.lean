import Verif.Props.InputNames
import Verif.Props.RunSafety

/-!
# Multigroup problems that are read from a document (C65)

What the schema (test/minimc.xsd, test/minimc_basictypes.xsd:52-81) and the constructors already
guarantee of the problems of C65, and what is left to the author of the document.
-/

namespace Minimc.Props

open Spec Schema Xml Input

/-! ### Data -/

/-- Nuclides and their nodes have a yield and a spectrum if they have fission. -/
theorem mgNodes_fission {env : Env} {l : List Xml} {nodes : List MgNode}
    (h : List.Forall₂ (MgNodeOf env) l nodes) {G g : ℕ} (hpos : 0 < specXS G nodes .fission g) :
    ∃ nubar chi, Multigroup.findNubar nodes = some nubar ∧
      Multigroup.findChi nodes = some chi := by
  induction h with
  | nil => simp [specXS] at hpos
  | @cons a b l₁ l₂ h1 _ ih =>
    cases h1 with
    | capture =>
      exact ih (by simpa [specXS, nodeXS] using hpos)
    | scatter =>
      exact ih (by simpa [specXS, nodeXS] using hpos)
    | fission => exact ⟨_, _, rfl, rfl⟩

/-- What a document with multigroup data says of a nuclide. -/
theorem group_data {env : Env} {root : Xml} (hv : Valid env root) {k : Xml} {G : ℕ}
    (hk : Reaches root ["nuclides", "multigroup"] k) (hG : Count k "groups" G)
    {doc : Document} (hdoc : DocumentOf env root doc) {w : World} (hw : WorldOf doc w)
    {n : Nuclide} (hn : n ∈ w.nuclides) :
    ∃ el ∈ k.children, HasAttr el "name" n.name ∧ ∀ t,
      (Listed root t → ∃ d nodes m, Child el (typeName t) d ∧
        List.Forall₂ (MgNodeOf env) d.children nodes ∧ n.xs t = some (.multigroup m) ∧
        Multigroup.create (min G (2 ^ 32 - 1)) nodes = .ok m ∧ NonnegNodes nodes) ∧
      (¬ Listed root t → n.xs t = none) := by
  obtain ⟨-, -, -, hnode⟩ := hw.nuclides
  obtain ⟨node, ⟨l, r, e1, e2, -⟩, hxs⟩ := hnode n hn
  obtain ⟨nn, k', hnn, hkids, hf⟩ := hdoc.nuclides
  have hroot := hv.elements.2.1
  have hex := allOf_child hv.elements (s := "nuclides") (by simp)
  have hpath := nuclides_path hroot hex hv.nuclides
  obtain ⟨hk1, hk2⟩ := (hpath _ _).1 hk
  have hkk : k' = k := by
    rw [← child_of hroot hnn] at hkids
    rw [← hk1]
    simp [Xml.firstChild, hkids]
  subst hkk
  obtain ⟨el, hel, hof⟩ := forall₂_right hf node (by rw [e1]; simp)
  have hdata := hv.nuclides.2 k' (by
    rw [← hk1, (oneOf_firstChild hv.nuclides.1).1]
    simp)
  rw [← hk1, if_pos hk2, hk1] at hdata
  obtain ⟨-, hg, hgv, hnuc⟩ := hdata
  obtain ⟨-, -, hre⟩ := hnuc el hel
  obtain ⟨G', hG', -, hGu, -⟩ := count_iff hg (a := "groups") (by simp) hgv
  refine ⟨el, hel, e2 ▸ hof.name, fun t => ⟨fun hl => ?_, ((hof.xs _).1 hxs t).2⟩⟩
  obtain ⟨d, i, hd, hi, hx⟩ := ((hof.xs _).1 hxs t).1 hl
  cases hi with
  | @multigroup k'' G'' nodes m i1 i2 i3 i4 =>
    obtain ⟨rfl, -⟩ := (hpath _ _).1 i1
    rw [hk1] at i2
    rw [hGu _ i2, ← hGu _ hG] at i4
    refine ⟨d, nodes, m, hd, i3, hx, i4, fun x hx => ?_⟩
    obtain ⟨c, hc, hm⟩ := forall₂_right i3 x hx
    exact mgNode_nonneg ((hre d hd.1).2 c hc) hm
  | continuous i1 =>
    have := (hpath _ _).1 i1
    rw [hk2] at this
    simp at this

theorem multigroup_total_nonneg {G : ℕ} {nodes : List MgNode} {m : Multigroup}
    (hm : Multigroup.create G nodes = .ok m) (hn : NonnegNodes nodes) {p : Particle} {x : ℝ}
    (h : m.getTotal p = .ok x) : 0 ≤ x := by
  rcases he : p.energy with e | g
  · rw [Multigroup.getTotal, he] at h
    cases h
  · by_cases hg : 1 ≤ g ∧ g ≤ G
    · rw [Multigroup.getTotal_eq hm he hg.1 hg.2] at h
      cases h
      exact specTotal_nonneg hn g
    · exfalso
      obtain ⟨-, -, hlen, -, ht, -⟩ := Multigroup.create_spec hm
      have hz := Multigroup.zipWith_foldl (G := G) m.reactions (List.replicate G 0) (by simp) hlen 0
      rw [Multigroup.getTotal, he] at h
      simp only [Energy.getGroup, bind, Except.bind, Multigroup.oneAt] at h
      split_ifs at h with h0
      · cases h
      · have : m.total[g - 1]? = none := by
          rw [List.getElem?_eq_none_iff, ht, Multigroup.createTotalXS, hz.1]
          omega
        rw [vecAt, this] at h
        cases h

theorem sumLoop_nonneg {α : Type} {f : α → Res ℝ} : ∀ {l : List α} {acc x : ℝ}, 0 ≤ acc →
    (∀ a ∈ l, ∀ v, f a = .ok v → 0 ≤ v) → sumLoop f acc l = .ok x → 0 ≤ x
  | [], acc, x, h0, _, h => by
    cases h
    exact h0
  | a :: l, acc, x, h0, hf, h => by
    rw [sumLoop, res_bind_ok] at h
    obtain ⟨v, hv, h⟩ := h
    exact sumLoop_nonneg (add_nonneg h0 (hf a (by simp) v hv))
      (fun b hb => hf b (List.mem_cons_of_mem _ hb)) h

/-! ### The world -/

theorem forall₂_ne_nil {α β : Type} {R : α → β → Prop} {l : List α} {r : List β}
    (h : List.Forall₂ R l r) (hl : l ≠ []) : r ≠ [] := by
  cases h with
  | nil => exact absurd rfl hl
  | cons => simp

/-- Every cell has a surface. -/
theorem cells_bounded {env : Env} {root : Xml} (hv : Valid env root) {doc : Document}
    (hdoc : DocumentOf env root doc) {w : World} (hw : WorldOf doc w) :
    ∀ c ∈ w.cells, c.surfaceSenses ≠ [] := by
  intro c hc
  obtain ⟨node, hnode, hof⟩ := forall₂_right hw.cells c hc
  obtain ⟨n, hn, hf⟩ := hdoc.cells
  obtain ⟨el, hel, hcell⟩ := forall₂_right hf node hnode
  have hcs := hv.cells
  rw [(allOf_child_iff hv.elements (by simp) _).1 hn] at hcs
  obtain ⟨⟨⟨hne, -⟩, -⟩, -⟩ := hcs.2.2 el hel
  have hne := forall₂_ne_nil hcell.surfaces hne
  rcases hl : node.surfaces with _ | ⟨⟨nm, sn⟩, rest⟩
  · exact absurd hl hne
  have hmem : nm ∈ w.surfaces.map SurfaceObj.name := by
    rw [hw.surfaces.1]
    simp only [List.mem_eraseDups, usedSurfaces, List.mem_flatten, List.mem_map]
    exact ⟨_, ⟨node, hnode, rfl⟩, by rw [hl]; simp⟩
  obtain ⟨s, hs, e⟩ := List.mem_map.1 hmem
  obtain ⟨d, -, -, hsense⟩ := forall₂_right hcell.surfaces (nm, sn) (by rw [hl]; simp)
  have hfirst : FirstNamed Prod.fst node.surfaces s.name (s.name, sn) := by
    rw [hl, e]
    exact ⟨[], rest, rfl, rfl, by simp⟩
  intro hnil
  rcases hsense with ⟨-, h⟩ | ⟨-, h⟩
  · have := (hof.senses s true).2 ⟨hs, sn, hfirst, .inl ⟨h, rfl⟩⟩
    rw [hnil] at this
    cases this
  · have := (hof.senses s false).2 ⟨hs, sn, hfirst, .inr ⟨h, rfl⟩⟩
    rw [hnil] at this
    cases this

/-- A cell has one of the materials of the world. -/
theorem cell_material {doc : Document} {w : World} (hw : WorldOf doc w) {c : Cell}
    (hc : c ∈ w.cells) {m : Material} (hm : c.material = some m) : m ∈ w.materials := by
  obtain ⟨node, -, hof⟩ := forall₂_right hw.cells c hc
  rcases hb : node.isVoid with _ | _
  · obtain ⟨m', hm', e, -⟩ := hof.material hb
    rw [hm] at e
    cases e
    exact hm'
  · rw [hof.void hb] at hm
    cases hm

/-- Materials are dense, and their nuclides belong to the world and have positive fractions. -/
theorem material_positive {env : Env} {root : Xml} (hv : Valid env root) {doc : Document}
    (hdoc : DocumentOf env root doc) {w : World} (hw : WorldOf doc w) {m : Material}
    (hm : m ∈ w.materials) :
    0 < m.numberDensity ∧ (∀ e ∈ m.afracs, 0 < e.2 ∧ e.1 ∈ w.nuclides) ∧ m.afracs ≠ [] := by
  obtain ⟨node, ⟨l, r, e1, e2, -⟩, hcomp, hden⟩ := hw.materials.2 m hm
  obtain ⟨n, hn, hf⟩ := hdoc.materials
  obtain ⟨el, hel, hof⟩ := forall₂_right hf node (by rw [e1]; simp)
  have h := hv.materials
  rw [(allOf_child_iff hv.elements (by simp) _).1 hn] at h
  obtain ⟨h1, h2, ⟨hne, -⟩, -⟩ := h.2.2 el hel
  refine ⟨?_, ?_, ?_⟩
  · rw [hden, ← (number_iff h1 (by simp) (double_of_positive h2) _).1 hof.aden]
    exact attrReal_pos h1 (by simp) h2
  · intro e he
    exact ⟨hcomp.positive e he, ((hcomp.members e.1).1 (List.mem_map_of_mem he)).1⟩
  · intro h0
    have := hcomp.sum_one (forall₂_ne_nil hof.nuclides hne)
    rw [h0] at this
    simp at this

/-- Cross sections are not negative. -/
theorem accepted_rates {env : Env} {root : Xml} (hv : Valid env root) {k : Xml} {G : ℕ}
    (hk : Reaches root ["nuclides", "multigroup"] k) (hG : Count k "groups" G)
    {doc : Document} (hdoc : DocumentOf env root doc) {w : World} (hw : WorldOf doc w)
    (method : Method) : NonnegRates method w := by
  intro c hc m hm q _ σ hσ
  have hmem := cell_material hw hc hm
  obtain ⟨hden, hfr, -⟩ := material_positive hv hdoc hw hmem
  have key : ∀ n ∈ w.nuclides, ∀ (i : Interaction) v, n.xs q.type = some i →
      (i.getTotal q = .ok v ∨ i.getMajorant q = .ok v) → 0 ≤ v := by
    intro n hn i v hi h
    obtain ⟨el, -, -, hdata⟩ := group_data hv hk hG hdoc hw hn
    by_cases hl : Listed root q.type
    · obtain ⟨d, nodes, m', -, -, hx, hcr, hnn⟩ := (hdata q.type).1 hl
      rw [hi] at hx
      cases hx
      rcases h with h | h
      · exact multigroup_total_nonneg hcr hnn h
      · exact multigroup_total_nonneg hcr hnn h
    · rw [(hdata q.type).2 hl] at hi
      cases hi
  refine mul_nonneg hden.le ?_
  have hxs : ∀ n : Nuclide, ∀ i, n.xsAt q = .ok i → n.xs q.type = some i := by
    intro n i h
    unfold Nuclide.xsAt at h
    rcases hx : n.xs q.type with _ | j
    · rw [hx] at h
      cases h
    · rw [hx] at h
      cases h
      rfl
  cases method with
  | surfaceTracking =>
    simp only at hσ
    rw [Material.getMicroscopicTotal, noexcept_eq_ok] at hσ
    refine sumLoop_nonneg le_rfl ?_ hσ
    intro e he v hv'
    simp only [res_bind_ok] at hv'
    obtain ⟨t, ht, hv'⟩ := hv'
    cases hv'
    rw [Nuclide.getTotal, noexcept_eq_ok, res_bind_ok] at ht
    obtain ⟨i, hi, ht⟩ := ht
    exact mul_nonneg (hfr e he).1.le (key e.1 (hfr e he).2 i t (hxs _ _ hi) (.inl ht))
  | cellDeltaTracking =>
    simp only at hσ
    rw [Material.getMicroscopicMajorant, noexcept_eq_ok] at hσ
    refine sumLoop_nonneg le_rfl ?_ hσ
    intro e he v hv'
    simp only [res_bind_ok] at hv'
    obtain ⟨t, ht, hv'⟩ := hv'
    cases hv'
    rw [Nuclide.getMajorant, noexcept_eq_ok, res_bind_ok] at ht
    obtain ⟨i, hi, ht⟩ := ht
    exact mul_nonneg (hfr e he).1.le (key e.1 (hfr e he).2 i t (hxs _ _ hi) (.inr ht))

/-! ### Documents -/

/-- A driver is made only from an accepted document, which describes it. -/
theorem problem_of {env : Env} (hu : Unsigned env) {root : Xml} {addr : Addresses}
    (hs : Function.Injective addr.surface) (hn : Function.Injective addr.nuclide) {P : Problem}
    (hd : loadDriver env addr root = .ok (.fixedSource P)) :
    Valid env root ∧ ∃ parts : Parts env root, ProblemOf parts P := by
  have hv : Valid env root := by
    by_contra hv
    rw [C58_rejected hv] at hd
    cases hd
  obtain ⟨parts, -, h2⟩ := C58_created_iff hu hv hs hn
  have := h2 _ hd
  cases this with
  | fixedSource _ hp => exact ⟨hv, parts, hp⟩

theorem configured_source {env : Env} {root : Xml} {parts : Parts env root} {P : Problem}
    (h : ProblemOf parts P) : Configured P.source.direction := by
  obtain ⟨eigen, n, -, hsrc⟩ := h.source
  obtain ⟨c, -, hdir⟩ := hsrc.direction
  exact configured_of hdir

/-- **C65** A document that the program accepts, with multigroup data and neutrons among its
particles, already gives most of what C65 needs.  What is left to its author is that the cells cover
space and that in each group something reacts in each material. -/
theorem C65_document {env : Env} (hu : Unsigned env) {root : Xml} {addr : Addresses}
    (hs : Function.Injective addr.surface) (hn : Function.Injective addr.nuclide) {P : Problem}
    (hd : loadDriver env addr root = .ok (.fixedSource P)) {k : Xml} {G : ℕ}
    (hk : Reaches root ["nuclides", "multigroup"] k) (hG : Count k "groups" G)
    (hl : Listed root .neutron) :
    Configured P.source.direction ∧ NonnegRates P.method P.world ∧ FreshSet P.init ∧
    (∃ ns, List.Forall₂ (EstimatorOf P.world P.perturbations) ns P.init.estimators) ∧
    ∃ nodes : Nuclide → List MgNode,
      (∀ n ∈ P.world.nuclides, NeutronNodes env k n (nodes n)) ∧
      ((∀ x, ∃ c ∈ P.world.cells, InCell c x) →
        (∀ c ∈ P.world.cells, ∀ m, c.material = some m → ∀ g, 1 ≤ g → g ≤ min G (2 ^ 32 - 1) →
          ∃ e ∈ m.afracs, 0 < specTotal (min G (2 ^ 32 - 1)) (nodes e.1) g) →
        WellPosed (min G (2 ^ 32 - 1)) nodes P.world) := by
  obtain ⟨hv, parts, hprob⟩ := problem_of hu hs hn hd
  have hdoc := parts.isDocument
  have hw := hprob.world
  refine ⟨configured_source hprob, accepted_rates hv hk hG hdoc hw _,
    (C64_fresh hu hs hn).1 hd |>.1, ⟨_, hprob.estimators⟩, ?_⟩
  have hchoice : ∀ n : Nuclide, ∃ nodes : List MgNode, n ∈ P.world.nuclides →
      NeutronNodes env k n nodes ∧ HasGroupData (min G (2 ^ 32 - 1)) n nodes := by
    intro n
    by_cases hmem : n ∈ P.world.nuclides
    · obtain ⟨el, hel, hname, hdata⟩ := group_data hv hk hG hdoc hw hmem
      obtain ⟨d, nodes, m, hd', hf, hx, hcr, hnn⟩ := (hdata .neutron).1 hl
      exact ⟨nodes, fun _ => ⟨⟨el, hel, hname, d, hd', hf⟩, m, hx, hcr, hnn,
        fun g hpos => mgNodes_fission hf hpos⟩⟩
    · exact ⟨[], fun h => absurd h hmem⟩
  choose nodes hnodes using hchoice
  refine ⟨nodes, fun n hn => (hnodes n hn).1, fun hcov hre => ⟨hcov, ?_, ?_, ?_, ?_⟩⟩
  · exact fun c hc _ => cells_bounded hv hdoc hw c hc
  · exact fun c hc m hm => (material_positive hv hdoc hw (cell_material hw hc hm)).1
  · intro c hc m hm e he
    obtain ⟨h1, h2⟩ := (material_positive hv hdoc hw (cell_material hw hc hm)).2.1 e he
    exact ⟨h1, (hnodes e.1 h2).2⟩
  · exact hre

/-- **C65** What the author of a document with multigroup data has to see to so that the problem runs
to its end: cells that cover space, voids after the cells that they overlap, radii of cylinders 0 or
1 (C06), something that reacts in each group and material, and a source of neutrons in one of the
groups and in a material.  Then a history fails only if a particle begins or ends a step exactly on
a surface, and if that does not happen `Solve` returns a result. -/
theorem C65_document_runs_partial {env : Env} (hu : Unsigned env) {root : Xml} {addr : Addresses}
    (hs : Function.Injective addr.surface) (hn : Function.Injective addr.nuclide) {P : Problem}
    (hd : loadDriver env addr root = .ok (.fixedSource P)) {k : Xml} {G : ℕ}
    (hk : Reaches root ["nuclides", "multigroup"] k) (hG : Count k "groups" G)
    (hl : Listed root .neutron) (hcov : ∀ x, ∃ c ∈ P.world.cells, InCell c x)
    (hmf : MaterialFirst P.world)
    (hconf : ∀ c ∈ P.world.cells, ∀ s, Bounds s c → Conforming s.shape)
    (hre : ∀ c ∈ P.world.cells, ∀ m, c.material = some m →
      ∀ g, 1 ≤ g → g ≤ min G (2 ^ 32 - 1) → ∃ e ∈ m.afracs,
        ∀ nodes, NeutronNodes env k e.1 nodes → 0 < specTotal (min G (2 ^ 32 - 1)) nodes g)
    (hsrc : GroupSource (min G (2 ^ 32 - 1)) P.world P.source) :
    (∀ fuel e, (∃ states, P.history fuel e = .ok states ∧ ∀ q ∈ states, ∃ g, InGroup q g) ∨
      P.history fuel e = .error .fuel ∨
      ∃ p, Handled P fuel e p ∧ TouchesSurface P.method fuel P.world p) ∧
    ∀ fuel, (∀ x ∈ P.init.estimators, TotalBins x.base.bins) →
      (∀ e < P.batchsize, P.history fuel e ≠ .error .fuel) →
      (∀ e < P.batchsize, ∀ p, Handled P fuel e p → ¬ TouchesSurface P.method fuel P.world p) →
      ∃ r k, SolveResult P fuel 0 r k := by
  obtain ⟨h1, h2, h3, h4, nodes, h5, h6⟩ := C65_document hu hs hn hd hk hG hl
  obtain ⟨hv, parts, hprob⟩ := problem_of hu hs hn hd
  have hw := h6 hcov (by
    intro c hc m hm g g1 g2
    obtain ⟨e, he, hpos⟩ := hre c hc m hm g g1 g2
    have := (material_positive hv parts.isDocument hprob.world
      (cell_material hprob.world hc hm)).2.1 e he
    exact ⟨e, he, hpos _ (h5 e.1 this.2)⟩)
  exact ⟨fun fuel e => C65_history_conforming_partial hw hsrc h1 h2 hconf hmf fuel e,
    fun fuel hb hf ht => C65_solve_partial hw hsrc h1 h2 hconf hmf h3 h4 hb fuel hf ht⟩

/-! ### Sources in no group -/

theorem total_bad_group {G : ℕ} {nodes : List MgNode} {m : Multigroup}
    (hm : Multigroup.create G nodes = .ok m) {p : Particle} {g : ℕ} (hp : p.energy = .group g)
    (hg : g = 0 ∨ G < g) : m.getTotal p = .error .terminate := by
  obtain ⟨-, -, hlen, -, ht, -⟩ := Multigroup.create_spec hm
  have hz := Multigroup.zipWith_foldl (G := G) m.reactions (List.replicate G 0) (by simp) hlen 0
  rw [Multigroup.getTotal, hp]
  simp only [Energy.getGroup, bind, Except.bind, Multigroup.oneAt]
  split_ifs with h0
  · rfl
  · have : m.total[g - 1]? = none := by
      rw [List.getElem?_eq_none_iff, ht, Multigroup.createTotalXS, hz.1]
      omega
    rw [vecAt, this]
    rfl

/-- **C65** Nothing checks that the source is in one of the groups (C58): if it is not, every history
ends the program. -/
theorem C65_source_outside_groups {env : Env} (hu : Unsigned env) {root : Xml} {addr : Addresses}
    (hs : Function.Injective addr.surface) (hn : Function.Injective addr.nuclide) {P : Problem}
    (hd : loadDriver env addr root = .ok (.fixedSource P)) {k : Xml} {G : ℕ}
    (hk : Reaches root ["nuclides", "multigroup"] k) (hG : Count k "groups" G)
    (hl : Listed root P.source.type) {g : ℕ} (hg : P.source.energy = .group g)
    (hout : g = 0 ∨ min G (2 ^ 32 - 1) < g)
    (hc : ∃ c, FirstCell P.world P.source.position c ∧ c.material ≠ none) (fuel e : ℕ) :
    P.history (fuel + 1) e = .error .terminate := by
  obtain ⟨hv, parts, hprob⟩ := problem_of hu hs hn hd
  have hdoc := parts.isDocument
  have hw := hprob.world
  obtain ⟨b, s1, s2, s3, s4, -, -⟩ :=
    C51_source_particle P.source (configured_source hprob) (P.seed + e)
  obtain ⟨c, hfc, hcm⟩ := hc
  have hcc : c ∈ P.world.cells := by
    obtain ⟨l, r, e1, -⟩ := hfc
    rw [e1]
    simp
  obtain ⟨m, hm⟩ := Option.ne_none_iff_exists'.1 hcm
  obtain ⟨-, hfr, hne⟩ := material_positive hv hdoc hw (cell_material hw hcc hm)
  obtain ⟨x, rest, hx⟩ := List.exists_cons_of_ne_nil hne
  have hxw := (hfr x (by rw [hx]; simp)).2
  obtain ⟨el, -, -, hdata⟩ := group_data hv hk hG hdoc hw hxw
  obtain ⟨d, nodes, M, -, -, hM, hcr, -⟩ := (hdata _).1 hl
  have hfail : ∀ p : Particle, p.type = P.source.type → p.energy = .group g → p.cell = some c →
      collisionDensity P.method p = .error .terminate := by
    intro p p1 p2 p3
    have hbad := total_bad_group hcr p2 hout
    have hbad' : M.getMajorant p = .error .terminate := hbad
    unfold collisionDensity Particle.getCell
    rw [p3]
    simp only [hm, bind, Except.bind]
    cases P.method with
    | surfaceTracking =>
      simp [Material.getMicroscopicTotal, hx, sumLoop, Nuclide.getTotal, Nuclide.xsAt, p1, hM,
        Interaction.getTotal, hbad, bind, Except.bind, noexcept]
    | cellDeltaTracking =>
      simp [Material.getMicroscopicMajorant, hx, sumLoop, Nuclide.getMajorant, Nuclide.xsAt, p1, hM,
        Interaction.getMajorant, hbad', bind, Except.bind, noexcept]
  have hflight : ∀ p : Particle, p.type = P.source.type → p.energy = .group g → p.cell = some c →
      sampleFlight P.method p = .error .terminate := by
    intro p p1 p2 p3
    unfold sampleFlight
    rw [hfail p p1 p2 p3]
    unfold Particle.getCell
    rw [p3]
    simp only [hm, bind, Except.bind]
  have hstep : ∀ p : Particle, p.type = P.source.type → p.energy = .group g → p.cell = some c →
      p.isAlive = true →
      transportLoop P.method (fuel + 1) P.world (fuel + 1) p = .error .terminate := by
    intro p p1 p2 p3 p4
    have := hflight p p1 p2 p3
    unfold transportLoop transportStep surfaceStep deltaStep
    rw [if_pos p4]
    cases hmeth : P.method with
    | surfaceTracking =>
      rw [hmeth] at this
      simp only [this, bind, Except.bind]
    | cellDeltaTracking =>
      rw [hmeth] at this
      simp only [this, bind, Except.bind]
  have htr : transport P.method (fuel + 1) P.world ((Particle.ofBorn b).setPerturbations
      P.perturbations) = .error .terminate := by
    obtain ⟨p, hp, p1, p2, p3, p4⟩ : ∃ p, ((Particle.ofBorn b).setPerturbations
        P.perturbations).locate P.world = .ok p ∧ p.type = P.source.type ∧ p.energy = .group g ∧
        p.cell = some c ∧ p.isAlive = true := by
      refine ⟨_, locate_ok.2 ⟨c, ?_, rfl⟩, s4, s3.trans hg, rfl, rfl⟩
      change FirstCell P.world b.position c
      rw [s2]
      exact hfc
    unfold transport
    rw [hp]
    simp only [bind, Except.bind]
    rw [hstep p p1 p2 p3 p4]
    rfl
  unfold Problem.history
  rw [s1]
  simp only [bind, Except.bind]
  have := processBank_concat (run := transport P.method (fuel + 1) P.world)
    (qs := P.perturbations) fuel [] (Particle.ofBorn b)
  rw [List.nil_append] at this
  rw [this, htr]
  rfl

/-! ### Examples -/

open InputExample (Choice env addr)

/-- The world of the example: the inside of a sphere, filled with an absorber, and a void. -/
theorem example_world {c : Choice} {P : Problem}
    (h : loadDriver env addr (InputExample.root c) = .ok (.fixedSource P)) :
    WorldBuild.create (InputExample.doc c) id id = .ok P.world := by
  have hv : Valid env (InputExample.root c) := by
    by_contra hv
    rw [C58_rejected hv] at h
    cases h
  rw [InputExample.load_eq c hv] at h
  simp only [res_bind_ok] at h
  obtain ⟨P', h, e⟩ := h
  cases e
  unfold driver at h
  simp only [InputExample.document_eq, res_bind_ok] at h
  obtain ⟨doc, hdoc, w, hw, _, _, _, _, _, _, _, _, _, _, _, _, _, _, _, _, hP⟩ := h
  cases hdoc
  cases hP
  exact hw

theorem eq_singleton {α : Type} {l : List α} {a : α} (hn : l.Nodup) (h : ∀ x, x ∈ l ↔ x = a) :
    l = [a] :=
  List.perm_singleton.1 ((List.perm_ext_iff_of_nodup hn (List.nodup_singleton a)).2 (by simpa using h))

theorem firstSense_single {nm name : String} {sn : Sense} {b : Bool} :
    FirstSense [(nm, sn)] name b ↔ name = nm ∧ ((sn = .minus ∧ b = true) ∨ (sn = .plus ∧ b = false)) := by
  constructor
  · rintro ⟨s, ⟨l, r, e1, e2, -⟩, h⟩
    have hm : (name, s) ∈ [(nm, sn)] := by rw [e1]; simp
    simp only [List.mem_singleton, Prod.mk.injEq] at hm
    obtain ⟨rfl, rfl⟩ := hm
    exact ⟨rfl, h⟩
  · rintro ⟨rfl, h⟩
    exact ⟨sn, ⟨[], [], rfl, rfl, by simp⟩, h⟩

/-- What the world of the example looks like. -/
theorem example_cells {c : Choice} {P : Problem}
    (h : loadDriver env addr (InputExample.root c) = .ok (.fixedSource P)) :
    ∃ s c₁ c₂, s.shape = .sphere ⟨0, 0, 0⟩ 1 ∧ P.world.cells = [c₁, c₂] ∧
      c₁.surfaceSenses = [(s, true)] ∧ c₂.surfaceSenses = [(s, false)] ∧ c₁.material ≠ none ∧
      c₂.material = none ∧ ∀ m, c₁.material = some m →
        m.afracs ≠ [] ∧ ∀ e ∈ m.afracs, e.1.name = "a" := by
  have hw := example_world h
  have hwf := InputExample.doc_wellFormed c
  obtain ⟨hs1, hs2⟩ := C48_surfaces hw
  have hus : (usedSurfaces (InputExample.doc c)).eraseDups = ["s"] := by
    have : usedSurfaces (InputExample.doc c) = ["s", "s"] := by
      simp [usedSurfaces, InputExample.doc]
    rw [this]
    decide
  rw [hus] at hs1
  obtain ⟨s, hs⟩ : ∃ s, P.world.surfaces = [s] := List.length_eq_one_iff.1 (by
    have := congrArg List.length hs1
    simpa using this)
  rw [hs] at hs1 hs2
  have hname : s.name = "s" := by simpa using hs1
  obtain ⟨n, hn, hshape⟩ := hs2 s (by simp)
  rw [hname] at hn
  have hsph : s.shape = .sphere ⟨0, 0, 0⟩ 1 := by
    rw [hshape, firstNamed_unique hn (n' := ⟨"s", .sphere ⟨0, 0, 0⟩ 1⟩)
      InputExample.firstNamed_head]
  obtain ⟨hcells, -, -, -⟩ := C48_cells hwf Function.injective_id hw
  rw [hs] at hcells
  obtain ⟨hmat, hmat2⟩ := C48_materials hwf Function.injective_id hw
  obtain ⟨c₁, c₂, hc, k1, k2⟩ : ∃ c₁ c₂, P.world.cells = [c₁, c₂] ∧
      CellOf [s] P.world.materials P.world.temperature
        ⟨false, some "in", "m", none, [("s", .minus)]⟩ c₁ ∧
      CellOf [s] P.world.materials P.world.temperature
        ⟨true, none, "", none, [("s", .plus)]⟩ c₂ := by
    generalize P.world.cells = l at hcells
    cases hcells with
    | cons k1 k =>
      cases k with
      | cons k2 k =>
        cases k
        exact ⟨_, _, rfl, k1, k2⟩
  have hnd : ∀ {l : List (SurfaceObj × Bool)}, (l.map (fun e => e.1.id)).Pairwise (· < ·) →
      l.Nodup := fun h => List.Nodup.of_map _ (h.imp fun h => ne_of_lt h)
  obtain ⟨m, hm, hcm, hmn⟩ := k1.material rfl
  refine ⟨s, c₁, c₂, hsph, hc, eq_singleton (hnd k1.once) ?_, eq_singleton (hnd k2.once) ?_, ?_,
    k2.void rfl, ?_⟩
  · rintro ⟨t, b⟩
    rw [k1.senses, firstSense_single]
    simp only [List.mem_singleton, Prod.mk.injEq, true_and]
    constructor
    · rintro ⟨rfl, -, h | h⟩
      · exact ⟨rfl, h⟩
      · simp at h
    · rintro ⟨rfl, rfl⟩
      exact ⟨rfl, hname, by simp⟩
  · rintro ⟨t, b⟩
    rw [k2.senses, firstSense_single]
    simp only [List.mem_singleton, Prod.mk.injEq, true_and]
    constructor
    · rintro ⟨rfl, -, h | h⟩
      · simp at h
      · exact ⟨rfl, h⟩
    · rintro ⟨rfl, rfl⟩
      exact ⟨rfl, hname, by simp⟩
  · rw [hcm]
    simp
  · intro m' hm'
    rw [hcm] at hm'
    cases hm'
    obtain ⟨node, hnode, hcomp, -⟩ := hmat2 m hm
    rw [hmn] at hnode
    have hnode := firstNamed_unique hnode (n' := ⟨"m", 1, [("a", 1 / 2)]⟩)
      InputExample.firstNamed_head
    subst hnode
    constructor
    · intro h0
      have := hcomp.sum_one (by simp)
      rw [h0] at this
      simp at this
    · intro e he
      have := ((hcomp.members e.1).1 (List.mem_map_of_mem he)).2
      simpa using this

theorem example_path (c : Choice) :
    Reaches (InputExample.root c) ["nuclides", "multigroup"]
      (InputExample.nuclides c.first c.second).firstChild := by
  refine ⟨InputExample.nuclides c.first c.second, ⟨?_, rfl⟩, _, ⟨?_, rfl⟩, rfl⟩
  · simp [InputExample.root, InputExample.el, Xml.children]
  · simp [InputExample.nuclides, InputExample.el, Xml.children, Xml.firstChild]

theorem example_count (c : Choice) :
    Count (InputExample.nuclides c.first c.second).firstChild "groups" 1 := by
  refine ⟨"1", ?_, [], [], ['1'], [], rfl, by simp, by simp, .inl rfl, by simp, ?_, ?_⟩
  · simp [HasAttr, InputExample.nuclides, InputExample.el, Xml.children, Xml.firstChild, Xml.attrs]
  · intro c hc
    simp only [List.mem_singleton] at hc
    subst hc
    decide
  · simp [digit]

theorem example_listed (c : Choice) : Listed (InputExample.root c) .neutron := by
  refine ⟨InputExample.txt "particles" "neutron", ["neutron"], ?_, ?_, by simp [typeName]⟩
  · refine ⟨InputExample.general c.threads, ⟨?_, rfl⟩, _, ⟨?_, rfl⟩, rfl⟩
    · simp [InputExample.root, InputExample.el, Xml.children]
    · simp [InputExample.general, InputExample.el, Xml.children]
  · rw [Text.words_iff]
    decide

theorem example_inside {s : SurfaceObj} (hs : s.shape = .sphere ⟨0, 0, 0⟩ 1) :
    s.shape.contains ⟨0, 0, 0⟩ = true := by
  rw [hs]
  refine (C06_contains_partial _ ?_ _).2 ?_
  · trivial
  · norm_num [Inside, surfaceValue]

theorem example_nodes {c : Choice} {n : Nuclide} {nodes : List MgNode} (hn : n.name = "a")
    (h : NeutronNodes env (InputExample.nuclides c.first c.second).firstChild n nodes)
    (h2 : c.second ≠ "a") : nodes = [.capture [1]] := by
  obtain ⟨el, hel, hname, d, hd, hf⟩ := h
  rw [hn] at hname
  simp only [InputExample.nuclides, InputExample.el, Xml.children, Xml.firstChild,
    List.head?_cons, Option.getD_some, List.mem_cons, List.not_mem_nil, or_false] at hel
  rcases hel with rfl | rfl
  · simp only [Child, Xml.children, List.mem_singleton] at hd
    obtain ⟨rfl, -⟩ := hd
    simp only [Xml.children] at hf
    cases hf with
    | cons k1 k2 =>
      cases k2
      cases k1 with
      | capture _ hx =>
        rw [show (InputExample.txt "capture" "1").text = "1" from rfl,
          Text.numbers_iff (groupXS_real InputExample.group1), InputExample.reals1] at hx
        subst hx
        rfl
      | scatter h' => simp [InputExample.txt, Xml.name] at h'
      | fission h' => simp [InputExample.txt, Xml.name] at h'
  · simp [HasAttr, Xml.attrs] at hname
    exact absurd hname.symm h2

/-- The hypotheses of the theorems on documents hold for the example. -/
theorem example_document : ∃ P : Problem, ∃ k : Xml,
    loadDriver env addr (InputExample.root {}) = .ok (.fixedSource P) ∧
    k = (InputExample.nuclides "a" "b").firstChild ∧ Reaches (InputExample.root {}) ["nuclides", "multigroup"] k ∧ Count k "groups" 1 ∧
    Listed (InputExample.root {}) .neutron ∧ (∀ x, ∃ c ∈ P.world.cells, InCell c x) ∧
    MaterialFirst P.world ∧
    (∀ c ∈ P.world.cells, ∀ s, Bounds s c → Conforming s.shape) ∧
    (∀ c ∈ P.world.cells, ∀ m, c.material = some m →
      ∀ g, 1 ≤ g → g ≤ min 1 (2 ^ 32 - 1) → ∃ e ∈ m.afracs,
        ∀ nodes, NeutronNodes env k e.1 nodes → 0 < specTotal (min 1 (2 ^ 32 - 1)) nodes g) ∧
    GroupSource (min 1 (2 ^ 32 - 1)) P.world P.source := by
  obtain ⟨P, hP, hsrc⟩ := example_created "b"
  obtain ⟨s, c₁, c₂, hs, hc, hs1, hs2, hm1, hm2, hm⟩ := example_cells hP
  have hin1 : ∀ x, InCell c₁ x ↔ s.shape.contains x = true := by
    intro x
    simp [InCell, hs1]
  have hin2 : ∀ x, InCell c₂ x ↔ s.shape.contains x = false := by
    intro x
    simp [InCell, hs2]
  refine ⟨P, _, hP, rfl, example_path {}, example_count {}, example_listed {}, ?_, ?_, ?_, ?_, ?_⟩
  · intro x
    rw [hc]
    rcases hx : s.shape.contains x with _ | _
    · exact ⟨c₂, by simp, (hin2 x).2 hx⟩
    · exact ⟨c₁, by simp, (hin1 x).2 hx⟩
  · intro x c hc' hin hmat c' hfirst
    rw [hc] at hc'
    simp only [List.mem_cons, List.not_mem_nil, or_false] at hc'
    rcases hc' with rfl | rfl
    · obtain ⟨l, r, e1, -, e3⟩ := hfirst
      rw [hc] at e1
      rcases l with _ | ⟨a, l⟩
      · simp only [List.nil_append, List.cons.injEq] at e1
        rw [← e1.1]
        exact hm1
      · simp only [List.cons_append, List.cons.injEq] at e1
        exact absurd hin (e1.1 ▸ e3 a (by simp))
    · exact absurd hm2 hmat
  · intro c hc' t ht
    rw [hc] at hc'
    simp only [List.mem_cons, List.not_mem_nil, or_false] at hc'
    obtain ⟨b, ht⟩ := ht
    have : t = s := by
      rcases hc' with rfl | rfl
      · rw [hs1] at ht
        simp only [List.mem_singleton, Prod.mk.injEq] at ht
        exact ht.1
      · rw [hs2] at ht
        simp only [List.mem_singleton, Prod.mk.injEq] at ht
        exact ht.1
    rw [this, hs]
    trivial
  · intro c hc' m hcm g g1 g2
    rw [hc] at hc'
    simp only [List.mem_cons, List.not_mem_nil, or_false] at hc'
    rcases hc' with rfl | rfl
    · obtain ⟨hne, hnames⟩ := hm m hcm
      obtain ⟨e, rest, he⟩ := List.exists_cons_of_ne_nil hne
      have he : e ∈ m.afracs := by rw [he]; simp
      refine ⟨e, he, ?_⟩
      have hg : g = 1 := by
        have := g2.trans (min_le_left _ _)
        omega
      subst hg
      intro nodes hnodes
      rw [example_nodes (c := {}) (hnames e he) hnodes (by decide)]
      simp [specTotal, specXS, nodeXS, entry1]
    · rw [hm2] at hcm
      cases hcm
  · rw [hsrc]
    refine ⟨rfl, ⟨1, rfl, le_rfl, by norm_num⟩, c₁, ⟨[], [c₂], hc, ?_, by simp⟩, hm1⟩
    exact (hin1 _).2 (example_inside hs)

/-- **C65** That every accepted document runs to its end is false: the schema takes `0.5` as the
source group, which is read as group 0, and then every history ends the program. -/
theorem C65_accepted_violated : ∃ (root : Xml) (P : Problem), Valid env root ∧
    loadDriver env addr root = .ok (.fixedSource P) ∧
    ∀ fuel e, P.history (fuel + 1) e = .error .terminate := by
  obtain ⟨hv, P, hP, hsrc⟩ := C58_source_group_violated
  obtain ⟨s, c₁, c₂, hs, hc, hs1, -, hm1, -, -⟩ := example_cells hP
  refine ⟨_, P, hv, hP, fun fuel e => ?_⟩
  refine C65_source_outside_groups InputExample.unsigned Function.injective_id
    Function.injective_id hP (example_path _) (example_count _) ?_ (g := 0) (by rw [hsrc])
    (.inl rfl) ⟨c₁, ⟨[], [c₂], hc, ?_, by simp⟩, hm1⟩ fuel e
  · rw [hsrc]
    exact example_listed _
  · simp [InCell, hs1, hsrc, example_inside hs]

end Minimc.Props
