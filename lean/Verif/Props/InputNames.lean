import Verif.Props.Input
import Verif.Props.Driver

/-!
# Names in accepted documents, and the results of the drivers made from them (C64)

Properties of the uniqueness constraints of the schema (test/minimc.xsd:29-31, 56-59, 100-103,
126-129, 155-158, 166-168) and of `Driver::Create` followed by `Solve`.
-/

namespace Minimc.Props

open Spec Schema Xml Input

/-- Distinct names of elements are distinct names of what they describe. -/
theorem nodup_names {α : Type} {R : Xml → α → Prop} {nm : α → String} {cs : List Xml} {xs : List α}
    (hR : ∀ c ∈ cs, ∀ x, R c x → c.attr "name" = some (nm x)) (h : List.Forall₂ R cs xs)
    (hu : Schema.Unique cs) : (xs.map nm).Nodup := by
  have key : cs.filterMap (fun n => n.attr "name") = xs.map nm := by
    clear hu
    induction h with
    | nil => rfl
    | cons h _ ih =>
      rw [List.filterMap_cons, hR _ (by simp) _ h, List.map_cons,
        ih (fun c hc => hR c (List.mem_cons_of_mem _ hc))]
  unfold Schema.Unique at hu
  rwa [key] at hu

theorem nodup_names_some {α : Type} {R : Xml → α → Prop} {nm : α → Option String} {cs : List Xml}
    {xs : List α} (hR : ∀ c ∈ cs, ∀ x, R c x →
      if c.name = "cell" then c.attr "name" = nm x else nm x = none)
    (h : List.Forall₂ R cs xs) (hu : Schema.Unique (cs.filter (fun c => c.name == "cell"))) :
    (xs.filterMap nm).Nodup := by
  have key : (cs.filter (fun c => c.name == "cell")).filterMap (fun n => n.attr "name") =
      xs.filterMap nm := by
    clear hu
    induction h with
    | nil => rfl
    | @cons c x _ _ h _ ih =>
      have := hR _ (by simp) _ h
      have ih := ih (fun c hc => hR c (List.mem_cons_of_mem _ hc))
      by_cases hc : c.name = "cell"
      · rw [if_pos hc] at this
        rw [List.filter_cons, if_pos (by simpa using hc), List.filterMap_cons, List.filterMap_cons,
          this, ih]
      · rw [if_neg hc] at this
        rw [List.filter_cons, if_neg (by simpa using hc), List.filterMap_cons, this, ih]
  unfold Schema.Unique at hu
  rwa [key] at hu

theorem forall₂_right {α β : Type} {R : α → β → Prop} {l : List α} {r : List β}
    (h : List.Forall₂ R l r) : ∀ y ∈ r, ∃ x ∈ l, R x y := by
  induction h with
  | nil => simp
  | cons h _ ih =>
    intro y hy
    rcases List.mem_cons.1 hy with rfl | hy
    · exact ⟨_, by simp, h⟩
    · obtain ⟨x, hx, hr⟩ := ih y hy
      exact ⟨x, by simp [hx], hr⟩

theorem attr_of {c : Xml} {req opt : List String} (h : Attrs c req opt) {a v : String}
    (hv : HasAttr c a v) : c.attr a = some v := (attr_iff h.2.1 a v).1 hv

theorem surfaceElement_attrs {env : Env} {c : Xml} (h : SurfaceElement env c) :
    ∃ req, Attrs c req [] := by
  unfold SurfaceElement at h
  split at h
  · exact ⟨_, h.1⟩
  · split at h
    · exact ⟨_, h.1⟩
    · exact ⟨_, h.1⟩

/-- **C64** The names that a document gives to its surfaces, materials, cells, estimators and
perturbations are unique, as are the names of the nuclides of a material and those of the surfaces
of a cell that is not void. -/
theorem C64_names_unique {env : Env} {root : Xml} (hv : Valid env root) (parts : Parts env root) :
    (parts.doc.surfaces.map SurfaceNode.name).Nodup ∧
    (parts.doc.materials.map MaterialNode.name).Nodup ∧
    (∀ m ∈ parts.doc.materials, (m.nuclides.map Prod.fst).Nodup) ∧
    (parts.doc.cells.filterMap CellNode.name).Nodup ∧
    (∀ c ∈ parts.doc.cells, c.isVoid = false → (c.surfaces.map Prod.fst).Nodup) ∧
    (parts.estimators.map EstimatorNode.name).Nodup ∧
    (parts.perturbations.map PerturbationNode.name).Nodup := by
  have hdoc := parts.isDocument
  have hchild : ∀ {s n}, s ∈ ["general", "nuclides", "materials", "surfaces", "cells",
      "problemtype"] → Child root s n → root.child s = n :=
    fun hs h => (allOf_child_iff hv.elements hs _).1 h
  refine ⟨?_, ?_, ?_, ?_, ?_, ?_, ?_⟩
  · obtain ⟨n, hn, hf⟩ := hdoc.surfaces
    have h := hv.surfaces
    rw [hchild (by simp) hn] at h
    refine nodup_names ?_ hf h.2.1
    intro c hc x hx
    obtain ⟨req, hr⟩ := surfaceElement_attrs (h.2.2 c hc)
    cases hx with
    | sphere _ h' => exact attr_of hr h'
    | planeX _ h' => exact attr_of hr h'
    | cylinderX _ h' => exact attr_of hr h'
  · obtain ⟨n, hn, hf⟩ := hdoc.materials
    have h := hv.materials
    rw [hchild (by simp) hn] at h
    exact nodup_names (fun c hc x hx => attr_of (h.2.2 c hc).1 hx.name) hf h.2.1
  · obtain ⟨n, hn, hf⟩ := hdoc.materials
    have h := hv.materials
    rw [hchild (by simp) hn] at h
    intro m hm
    obtain ⟨c, hc, hx⟩ := forall₂_right hf m hm
    obtain ⟨-, -, -, hu, ha⟩ := h.2.2 c hc
    exact nodup_names (fun d hd x hx => attr_of (ha d hd).1 hx.1) hx.nuclides hu
  · obtain ⟨n, hn, hf⟩ := hdoc.cells
    have h := hv.cells
    rw [hchild (by simp) hn] at h
    refine nodup_names_some ?_ hf h.2.1
    intro c hc x hx
    obtain ⟨-, hc'⟩ := h.2.2 c hc
    split
    · next hname =>
      rw [if_pos hname] at hc'
      obtain ⟨v, hv⟩ : ∃ v, c.attr "name" = some v := by
        exact ⟨_, attr_of hc'.1 (attrs_value hc'.1 (a := "name") (by simp))⟩
      rw [hv, (hx.name v).2 ((attr_iff hc'.1.2.1 _ _).2 hv)]
    · next hname =>
      rw [if_neg hname] at hc'
      rcases hxn : x.name with _ | v
      · rfl
      · have := hc'.2.2 "name" (List.mem_map_of_mem (f := Prod.fst) ((hx.name v).1 hxn))
        simp at this
  · obtain ⟨n, hn, hf⟩ := hdoc.cells
    have h := hv.cells
    rw [hchild (by simp) hn] at h
    intro x hx hvoid
    obtain ⟨c, hc, hx⟩ := forall₂_right hf x hx
    obtain ⟨hcsg, hc'⟩ := h.2.2 c hc
    have hname : c.name = "cell" := by
      have := h.1.2 c hc
      simp only [List.mem_cons, List.not_mem_nil, or_false] at this
      rcases this with e | e
      · exact e
      · rw [hx.void.2 e] at hvoid
        cases hvoid
    rw [if_pos hname] at hc'
    exact nodup_names (fun d hd y hy => attr_of (hcsg.2 d hd).1 hy.1) hx.surfaces hc'.2.2
  · obtain ⟨cs, ⟨c, hc, rfl⟩ | ⟨-, rfl⟩, hf⟩ := parts.areEstimators
    · have h := hv.estimators c hc.1 hc.2
      exact nodup_names (fun d hd x hx => attr_of (h.2.2 d hd).1 hx.name) hf h.2.1
    · rw [List.forall₂_nil_left_iff.1 hf]
      simp
  · obtain ⟨cs, ⟨c, hc, rfl⟩ | ⟨-, rfl⟩, hf⟩ := parts.arePerturbations
    · have h := hv.perturbations c hc.1 hc.2
      exact nodup_names (fun d hd x hx => attr_of (h.2.2 d hd) hx.name) hf h.2.1
    · rw [List.forall₂_nil_left_iff.1 hf]
      simp

/-! ### Estimators as created -/

theorem created_bins {env : Env} {n : Xml} (h : BinType env n) {b : Bins} (hb : BinsOf env n b) :
    Created b := by
  obtain ⟨h1, h2⟩ := h
  have hc := oneOf_child_iff h1
  unfold BinElement at h2
  have hpos : ∀ {a : List String} {o : List String} {count : ℕ}, Attrs n.firstChild a o →
      "bins" ∈ a → Val n.firstChild "bins" PositiveInteger → Count n.firstChild "bins" count →
      1 ≤ min count (2 ^ 64 - 1) := by
    intro a o count ha hm hp hcount
    obtain ⟨v, -, hv, hu, -⟩ := count_iff ha hm hp
    rw [hu _ hcount]
    have : 0 < v := hv
    omega
  cases hb with
  | linspace e1 e2 e3 e4 e5 =>
    obtain ⟨rfl, hk⟩ := (hc _ _).1 e1
    rw [hk, if_neg (by simp), if_neg (by simp)] at h2
    exact .linspace (hpos h2.1 (by simp) h2.2.2 e2) e5
  | logspace e1 e2 e3 e4 e5 e6 =>
    obtain ⟨rfl, hk⟩ := (hc _ _).1 e1
    rw [hk, if_neg (by simp), if_pos rfl] at h2
    exact .logspace (hpos h2.1 (by simp) h2.2.2 e2) e6
  | boundaries e1 e2 e3 => exact .boundaries e3

theorem created_axis {env : Env} {n : Xml} (h : ParticleBinType env n) {s : String} {b : Bins}
    (hb : AxisOf env n s b) : Created b := by
  rcases hb with ⟨c, hc, hb⟩ | ⟨-, rfl⟩
  · exact created_bins (h.2 c hc.1).1 hb
  · exact .none

/-- The bins that an estimator asks for are bins that a user can obtain. -/
theorem created_particleBins {env : Env} {root : Xml} (hv : Valid env root)
    (parts : Parts env root) :
    ∀ e ∈ parts.estimators, ∀ b, e.bins = .ok b → CreatedParticleBins b := by
  obtain ⟨cs, hcs, hf⟩ := parts.areEstimators
  intro e he b hb
  obtain ⟨n, hn, hof⟩ := forall₂_right hf e he
  rw [grandchildren hv.elements.2.1] at hcs
  rw [← hcs] at hn
  have hest := isEstimator hv n hn
  have hp := (hof.bins b).1 hb
  have hcreate : ParticleBins.create b.direction (.ok b.cosine) (.ok b.energy) = .ok b :=
    (create_ok_iff _ _ _ _).2 ⟨rfl, rfl, rfl, hp.strides⟩
  rcases hp.axes with ⟨c, hc, h1, h2⟩ | ⟨-, h1, h2⟩
  · have := hest.bins c hc.1 hc.2
    exact ⟨_, _, created_axis this h1, created_axis this h2, hcreate⟩
  · exact ⟨_, _, h1 ▸ .none, h2 ▸ .none, hcreate⟩

theorem threads_pos {env : Env} {root : Xml} (hv : Valid env root) (parts : Parts env root) :
    1 ≤ parts.threads := by
  obtain ⟨n, hn, hd⟩ := parts.areThreads
  obtain ⟨v, hv', hd'⟩ := general_count hv (s := "threads") (by simp)
  rw [general_child hv (by simp)] at hn
  subst hn
  rw [Text.denotes_unique hd hd']
  exact hv'

theorem fresh_of {env : Env} {root : Xml} (hv : Valid env root) {parts : Parts env root}
    {P : Problem} (h : ProblemOf parts P) : FreshSet P.init ∧ 1 ≤ P.threads :=
  ⟨C57_fresh (C64_names_unique hv parts).2.2.2.2.2.1 (created_particleBins hv parts) h.estimators,
    h.threads ▸ threads_pos hv parts⟩

/-- **C64** The estimators of every driver that is made from a document have bins, have distinct
names, as their sensitivities do, and are all zero; and there is at least one thread. -/
theorem C64_fresh {env : Env} (hu : Unsigned env) {root : Xml}
    {addr : Addresses} (hs : Function.Injective addr.surface)
    (hn : Function.Injective addr.nuclide) {P : Problem} :
    (loadDriver env addr root = .ok (.fixedSource P) → FreshSet P.init ∧ 1 ≤ P.threads) ∧
    ∀ i j bank, loadDriver env addr root = .ok (.keigenvalue P i j bank) →
      FreshSet P.init ∧ 1 ≤ P.threads := by
  have hv : ∀ d, loadDriver env addr root = .ok d → Valid env root := by
    intro d hd
    by_contra hv
    rw [C58_rejected hv] at hd
    cases hd
  constructor
  · intro h
    obtain ⟨parts, -, h2⟩ := C58_created_iff hu (hv _ h) hs hn
    have := h2 _ h
    cases this with
    | fixedSource _ hp => exact fresh_of (hv _ h) hp
  · intro i j bank h
    obtain ⟨parts, -, h2⟩ := C58_created_iff hu (hv _ h) hs hn
    have := h2 _ h
    cases this with
    | keigenvalue _ hp => exact fresh_of (hv _ h) hp

/-- **C64** What `Solve` returns for a fixed-source document is what its histories give when they
are run one after another, for all schedules of the threads. -/
theorem C64_result {env : Env} (hu : Unsigned env) {root : Xml}
    {addr : Addresses} (hs : Function.Injective addr.surface)
    (hn : Function.Injective addr.nuclide) {P : Problem}
    (hd : loadDriver env addr root = .ok (.fixedSource P)) {fuel k : ℕ} {r : EstimatorSet}
    (h : SolveResult P fuel 0 r k) :
    ∃ hists : List (List Particle), hists.length = P.batchsize ∧
      (∀ e x, hists[e]? = some x → P.history fuel e = .ok x) ∧
      afterHistories P.init hists = .ok r :=
  have := (C64_fresh hu hs hn).1 hd
  C32_as_if_sequential this.1 this.2 h

/-! ### Documents that differ in the number of threads -/

/-- The documents differ in nothing but the number of threads. -/
structure OnlyThreads (root root' : Xml) : Prop where
  sections : ∀ s, s ≠ "general" → ∀ n, Child root s n ↔ Child root' s n
  general : ∀ s, s ≠ "threads" → ∀ n, Reaches root ["general", s] n ↔ Reaches root' ["general", s] n

theorem child_congr {n n' : Xml} (h : (n.children.map Xml.name).Nodup)
    (h' : (n'.children.map Xml.name).Nodup) {s : String} (hs : s ≠ "")
    (he : ∀ c, Child n s c ↔ Child n' s c) : n.child s = n'.child s := by
  rcases child_cases h hs with ⟨h1, -⟩ | ⟨h1, e⟩
  · exact (child_of h' ((he _).1 h1)).symm
  · rw [e, child_none]
    rintro ⟨c, hc⟩
    exact h1 ⟨c, (he c).2 hc⟩

theorem general_congr {env : Env} {root root' : Xml} (hv : Valid env root) (hv' : Valid env root')
    (he : OnlyThreads root root') {s : String} (hs : s ≠ "") (hs' : s ≠ "threads") :
    (root.child "general").child s = (root'.child "general").child s := by
  refine child_congr hv.general.1.2.1 hv'.general.1.2.1 hs ?_
  intro c
  have h1 := allOf_child_iff hv.elements (s := "general") (by simp)
  have h2 := allOf_child_iff hv'.elements (s := "general") (by simp)
  have := he.general s hs' c
  simp only [Reaches, h1, h2] at this
  simpa using this

theorem driver_threads {env : Env} {root root' : Xml} (hv : Valid env root)
    (hv' : Valid env root') (he : OnlyThreads root root') {addr : Addresses} {P P' : Problem}
    (h : loadDriver env addr root = .ok (.fixedSource P))
    (h' : loadDriver env addr root' = .ok (.fixedSource P')) :
    P' = { P with threads := P'.threads } := by
  have hc : ∀ s, s ≠ "" → s ≠ "general" → root.child s = root'.child s :=
    fun s h1 h2 => child_congr hv.elements.2.1 hv'.elements.2.1 h1 (he.sections s h2)
  have hg : ∀ s, s ≠ "" → s ≠ "threads" →
      (root.child "general").child s = (root'.child "general").child s :=
    fun s h1 h2 => general_congr hv hv' he h1 h2
  have hnuc := hc "nuclides" (by simp) (by simp)
  have hinteraction : interaction env root = interaction env root' := by
    funext n d
    unfold interaction multigroup groupCount
    rw [hnuc]
  have hfrom : ∀ n ws f, interactionsFrom env root n f ws = interactionsFrom env root' n f ws := by
    intro n ws
    induction ws with
    | nil => intro f; rfl
    | cons w ws ih =>
      intro f
      unfold interactionsFrom
      rw [hinteraction]
      simp only [ih]
  have hnuclide : nuclide env root = nuclide env root' := by
    funext n
    unfold nuclide interactions
    rw [hfrom, hg "particles" (by simp) (by simp)]
  have hdoc : document env root = document env root' := by
    unfold document
    rw [hnuclide, hnuc, hc "surfaces" (by simp) (by simp), hc "temperature" (by simp) (by simp),
      hc "materials" (by simp) (by simp), hc "cells" (by simp) (by simp)]
  have hsource : source env root = source env root' := by
    funext n
    unfold source energyDist
    rw [hnuc]
  have hprob := hc "problemtype" (by simp) (by simp)
  have hseed : seed (root.child "general") = seed (root'.child "general") := by
    unfold seed
    rw [hg "seed" (by simp) (by simp)]
  have key : ∀ root P, Valid env root → loadDriver env addr root = .ok (.fixedSource P) →
      driver env addr root
        (source env root ((root.child "problemtype").child "fixedsource")) = .ok P := by
    intro root P hv h
    unfold loadDriver at h
    rw [if_pos hv] at h
    unfold createDriver at h
    simp only at h
    split at h
    · unfold fixedSource at h
      simp only [res_bind_ok] at h
      obtain ⟨Q, hQ, e⟩ := h
      cases e
      exact hQ
    · split at h
      · unfold keigenvalue at h
        simp only [res_bind_ok] at h
        obtain ⟨_, _, _, _, e⟩ := h
        cases e
      · cases h
  have h1 := key root P hv h
  have h2 := key root' P' hv' h'
  unfold driver at h1 h2
  simp only [res_bind_ok] at h1 h2
  rw [hdoc, hsource, hprob, hseed, hc "perturbations" (by simp) (by simp),
    hc "estimators" (by simp) (by simp), hg "histories" (by simp) (by simp),
    hg "tracking" (by simp) (by simp)] at h1
  obtain ⟨d, a1, w, a2, ns, a3, qs, a4, bs, a5, sd, a6, init, a7, th, a8, m, a9, src, a10, e⟩ := h1
  obtain ⟨d', b1, w', b2, ns', b3, qs', b4, bs', b5, sd', b6, init', b7, th', b8, m', b9, src',
    b10, e'⟩ := h2
  rw [a1] at b1
  cases b1
  rw [a2] at b2
  cases b2
  rw [a3] at b3
  cases b3
  rw [a4] at b4
  cases b4
  rw [a5] at b5
  cases b5
  rw [a6] at b6
  cases b6
  rw [a7] at b7
  cases b7
  rw [a9] at b9
  cases b9
  rw [a10] at b10
  cases b10
  cases e
  cases e'
  rfl

/-- **C64** Two fixed-source documents that differ in nothing but the number of threads give the
same results. -/
theorem C64_threads_do_not_matter {env : Env} (hu : Unsigned env) {root root' : Xml}
    (he : OnlyThreads root root') {addr : Addresses} (hs : Function.Injective addr.surface)
    (hn : Function.Injective addr.nuclide) {P P' : Problem}
    (hd : loadDriver env addr root = .ok (.fixedSource P))
    (hd' : loadDriver env addr root' = .ok (.fixedSource P')) {fuel fuel' k k' : ℕ}
    {r r' : EstimatorSet} (h : SolveResult P fuel 0 r k) (h' : SolveResult P' fuel' 0 r' k') :
    r = r' := by
  have hv : ∀ root d, loadDriver env addr root = .ok d → Valid env root := by
    intro root d hd
    by_contra hv
    rw [C58_rejected hv] at hd
    cases hd
  obtain ⟨h1, h2⟩ := (C64_fresh hu hs hn).1 hd
  obtain ⟨-, h3⟩ := (C64_fresh hu hs hn).1 hd'
  exact C32_independent_of_threads (driver_threads (hv _ _ hd) (hv _ _ hd') he hd hd') h1 h2 h3 h h'

/-- **C64** That the names of the nuclides are unique is false: a document with two nuclides of the
same name is accepted and gives a driver. -/
theorem C64_nuclides_violated : ∃ root : Xml, Valid InputExample.env root ∧
    (∃ d, loadDriver InputExample.env InputExample.addr root = .ok d) ∧
    ∃ parts : Parts InputExample.env root, parts.doc.nuclides.map NuclideNode.name = ["a", "a"] := by
  have hv : Valid InputExample.env (InputExample.root { second := "a" }) :=
    example_valid _ (.inl rfl) (.inl rfl) (.inl rfl) (.inr rfl) (.inl rfl)
  obtain ⟨P, hP, -⟩ := example_created "a"
  obtain ⟨parts, hr⟩ := parts_exist hv
  refine ⟨_, hv, ⟨_, hP⟩, parts, ?_⟩
  have := hr.doc
  rw [InputExample.document_eq] at this
  rw [← Except.ok.inj this]
  rfl

/-- Two documents as in the theorem, both of which give drivers. -/
example : OnlyThreads (InputExample.root {}) (InputExample.root { threads := "1" }) ∧
    (∃ P, loadDriver InputExample.env InputExample.addr (InputExample.root {}) =
      .ok (.fixedSource P)) ∧
    ∃ P, loadDriver InputExample.env InputExample.addr (InputExample.root { threads := "1" }) =
      .ok (.fixedSource P) := by
  refine ⟨⟨?_, ?_⟩, (example_created "b").imp fun _ h => h.1, ?_⟩
  · intro s hs n
    simp only [Child, InputExample.root, InputExample.el, Xml.children, InputExample.general,
      List.mem_cons, List.not_mem_nil, or_false]
    constructor
    · rintro ⟨rfl | h, hn⟩
      · exact absurd hn.symm hs
      · exact ⟨.inr h, hn⟩
    · rintro ⟨rfl | h, hn⟩
      · exact absurd hn.symm hs
      · exact ⟨.inr h, hn⟩
  · intro s hs n
    have h1 : ∀ (t : String) (g : Xml),
        Child (InputExample.root { threads := t }) "general" g ↔ g = InputExample.general t := by
      intro t g
      simp only [Child, InputExample.root, InputExample.el, Xml.children, InputExample.general,
        List.mem_cons, List.not_mem_nil, or_false, InputExample.nuclides, InputExample.materials,
        InputExample.surfaces, InputExample.cells, InputExample.estimators,
        InputExample.perturbations]
      constructor
      · rintro ⟨rfl | rfl | rfl | rfl | rfl | rfl | rfl | rfl, h⟩
        · rfl
        all_goals simp [Xml.name] at h
      · rintro rfl
        exact ⟨.inl rfl, rfl⟩
    have h2 : ∀ t : String, Reaches (InputExample.root { threads := t }) ["general", s] n ↔
        Child (InputExample.general t) s n := by
      intro t
      simp only [Reaches, h1]
      simp
    rw [h2, h2]
    simp only [Child, InputExample.general, InputExample.el, Xml.children, List.mem_cons,
      List.not_mem_nil, or_false]
    constructor
    · rintro ⟨h | h | rfl | h, hn⟩
      · exact ⟨.inl h, hn⟩
      · exact ⟨.inr (.inl h), hn⟩
      · exact absurd hn.symm hs
      · exact ⟨.inr (.inr (.inr h)), hn⟩
    · rintro ⟨h | h | rfl | h, hn⟩
      · exact ⟨.inl h, hn⟩
      · exact ⟨.inr (.inl h), hn⟩
      · exact absurd hn.symm hs
      · exact ⟨.inr (.inr (.inr h)), hn⟩
  · obtain ⟨P, h, -⟩ := example_created_of { threads := "1" }
      (example_valid _ (.inr rfl) (.inl rfl) (.inl rfl) (.inr rfl) (.inl rfl)) rfl rfl rfl rfl rfl
      stoull1 rfl rfl rfl
    exact ⟨P, h⟩

end Minimc.Props
