import Verif.Props.Absorber
import Verif.Props.Accepted
import Verif.Props.Program
import Verif.Lemmas.InputEigen

/-! # Property C69: documents that describe absorbers -/

namespace Minimc.Props

open Spec Input

theorem axis_logspace {env : Env} {c : Xml} {s : String} {b : Bins} (h : AxisOf env c s b)
    {n : ℕ} {base lo hi w : ℝ} (hb : b = .logspace n base lo hi w) :
    ∃ k, Reaches c [s, "logspace"] k ∧
      (Number env k "base" base ∨ (¬ ∃ v, HasAttr k "base" v) ∧ base = 10) := by
  subst hb
  rcases h with ⟨a, ha, hb⟩ | ⟨-, hb⟩
  · cases hb with
    | linspace _ _ _ _ h =>
      unfold Bins.createLinspace at h
      split_ifs at h
      cases h
    | logspace h1 _ _ _ h5 h =>
      unfold Bins.createLogspace at h
      split_ifs at h
      cases h
      exact ⟨_, ⟨a, ha, _, h1, rfl⟩, h5⟩
    | boundaries _ _ h =>
      unfold Bins.createBoundaries at h
      split_ifs at h
      cases h
  · cases hb

/-- The bins of a problem have a place for everything if the document has no grids that do not. -/
theorem document_totalBins {env : Env} {root : Xml} {parts : Parts env root} {P : Problem}
    (hprob : ProblemOf parts P) (h : TotalBinsIn env root) :
    ∀ x ∈ P.init.estimators, TotalBins x.base.bins := by
  intro x hx
  obtain ⟨node, hnode, hof⟩ := forall₂_mem_right hprob.estimators hx
  obtain ⟨cs, hcs, hall⟩ := parts.areEstimators
  obtain ⟨n, hn, hno⟩ := forall₂_mem_right hall hnode
  obtain ⟨h1, h2⟩ := h cs hcs n hn
  have hb := (hno.bins _).1 hof.bins
  rcases hb.axes with ⟨c, hc, a1, a2⟩ | ⟨-, a1, a2⟩
  · refine ⟨fun m base lo hi w _ hlog => ?_, fun m base lo hi w hlog => ?_⟩
    · obtain ⟨k, hk, -⟩ := axis_logspace a1 hlog
      exact h1 k ⟨c, hc, hk⟩
    · obtain ⟨k, hk, hnum | ⟨-, rfl⟩⟩ := axis_logspace a2 hlog
      · exact h2 k base ⟨c, hc, hk⟩ hnum
      · norm_num
  · refine ⟨fun m base lo hi w _ hlog => ?_, fun m base lo hi w hlog => ?_⟩
    · rw [a1] at hlog
      cases hlog
    · rw [a2] at hlog
      cases hlog

theorem document_oneLine {env : Env} {root : Xml} {parts : Parts env root} {P : Problem}
    (hprob : ProblemOf parts P) (h : OneLineIn root) : OneLine P := by
  constructor
  · intro x hx
    obtain ⟨node, hnode, hof⟩ := forall₂_mem_right hprob.estimators hx
    obtain ⟨cs, hcs, hall⟩ := parts.areEstimators
    obtain ⟨n, hn, hno⟩ := forall₂_mem_right hall hnode
    rw [hof.base.name]
    exact h "estimators" (by simp) cs hcs n hn _ hno.name
  · intro q hq
    obtain ⟨node, hnode, hof⟩ := forall₂_mem_right hprob.perturbations hq
    obtain ⟨cs, hcs, hall⟩ := parts.arePerturbations
    obtain ⟨n, hn, hno⟩ := forall₂_mem_right hall hnode
    rw [hof.name]
    exact h "perturbations" (by simp) cs hcs n hn _ hno.name

/-- What the author of a document with multigroup data has to see to so that it describes a bounded
absorber: cells that cover space, material within a bounded region, something that captures neutrons
of every group in every material and nothing that scatters them or is fissioned by them, a source of
neutrons in one of the groups and in a material, and grids with a place for every energy and
direction. -/
structure AbsorberDocument (env : Env) (root : Xml) (P : Problem) (R : ℝ) : Prop where
  listed : Listed root .neutron
  covered : ∀ x, ∃ c ∈ P.world.cells, InCell c x
  within : 0 ≤ R ∧ MaterialWithin R P.world
  groups : ∃ k G, Reaches root ["nuclides", "multigroup"] k ∧ Count k "groups" G ∧
    GroupSource (min G (2 ^ 32 - 1)) P.world P.source ∧
    (∀ c ∈ P.world.cells, ∀ m, c.material = some m → ∀ g, 1 ≤ g → g ≤ min G (2 ^ 32 - 1) →
      (∃ e ∈ m.afracs, ∀ nodes, NeutronNodes env k e.1 nodes →
        0 < specTotal (min G (2 ^ 32 - 1)) nodes g) ∧
      ∀ e ∈ m.afracs, ∀ nodes, NeutronNodes env k e.1 nodes →
        specXS (min G (2 ^ 32 - 1)) nodes .scatter g = 0 ∧
        specXS (min G (2 ^ 32 - 1)) nodes .fission g = 0)
  bins : TotalBinsIn env root

/-- **C69** The histories of a document that describes a bounded absorber are straight flights of a
bounded number of steps, and its `Solve` returns a result. -/
theorem C69_document {env : Env} (hu : Unsigned env) {root : Xml} {addr : Addresses}
    (hs : Function.Injective addr.surface) (hn : Function.Injective addr.nuclide) {P : Problem}
    (hd : loadDriver env addr root = .ok (.fixedSource P)) {R : ℝ}
    (h : AbsorberDocument env root P R) {fuel : ℕ} (hf : 2 * R < fuel * (10 / 2 ^ 52)) :
    (∀ e, ∃ b states, P.source.sample (P.seed + e) = .ok b ∧ P.history fuel e = .ok states ∧
      Straight P.source.position b.direction 0 states ∧
      ∀ q ∈ states, q.direction = b.direction ∧ q.energy = P.source.energy ∧ q.type = .neutron) ∧
    ∃ r k, SolveResult P fuel 0 r k := by
  obtain ⟨k, G, hk, hG, hsrc, hmat⟩ := h.groups
  obtain ⟨h1, h2, h3, h4, nodes, h5, h6⟩ := C65_document hu hs hn hd hk hG h.listed
  obtain ⟨hv, parts, hprob⟩ := problem_of hu hs hn hd
  have hnode : ∀ c ∈ P.world.cells, ∀ m, c.material = some m → ∀ e ∈ m.afracs,
      NeutronNodes env k e.1 (nodes e.1) := by
    intro c hc m hm e he
    exact h5 e.1 ((material_positive hv parts.isDocument hprob.world
      (cell_material hprob.world hc hm)).2.1 e he).2
  have hw := h6 h.covered (by
    intro c hc m hm g g1 g2
    obtain ⟨e, he, hpos⟩ := (hmat c hc m hm g g1 g2).1
    exact ⟨e, he, hpos _ (hnode c hc m hm e he)⟩)
  have ha : Absorbing (min G (2 ^ 32 - 1)) nodes P.world := by
    intro c hc m hm e he g g1 g2
    exact (hmat c hc m hm g g1 g2).2 e he _ (hnode c hc m hm e he)
  have hall := C69_straight (P := P) hw ha h.within.1 h.within.2 hsrc h1 hf
  refine ⟨hall, solve_of_histories h3 h4 (document_totalBins hprob h.bins) fuel fun e _ => ?_⟩
  obtain ⟨b, states, -, i2, -, i4⟩ := hall e
  refine ⟨states, i2, fun q hq => ?_⟩
  obtain ⟨g, hg, -⟩ := hsrc.group
  rw [(i4 q hq).2.1, hg]
  exact Nat.cast_nonneg g

/-- **C69** Given such a document, the program ends with success and not otherwise. -/
theorem C69_program {env : Env} (hu : Unsigned env) {addr : Addresses}
    (hs : Function.Injective addr.surface) (hn : Function.Injective addr.nuclide)
    {parse : Chars → Option Xml} {fs : Files} {path text : Chars} {root : Xml} {P : Problem}
    (h1 : fs.content path = some text) (h2 : parse text = some root)
    (h3 : loadDriver env addr root = .ok (.fixedSource P)) {R : ℝ}
    (h : AbsorberDocument env root P R) {fuel : ℕ} (hf : 2 * R < fuel * (10 / 2 ^ 52)) :
    (∃ fs', Main env addr parse fuel fs [path] .success fs') ∧
    ∀ exit fs', Main env addr parse fuel fs [path] exit fs' → exit = .success := by
  obtain ⟨k1, r, k, k2⟩ := C69_document hu hs hn h3 h hf
  refine ⟨⟨_, .solved h1 h2 h3 (.fixedSource k2)⟩, fun exit fs' hmain => ?_⟩
  cases hmain with
  | usage h => simp at h
  | missing h => rw [h1] at h; cases h
  | malformed h h' => rw [h1] at h; cases h; rw [h2] at h'; cases h'
  | rejected h h' h'' =>
    rw [h1] at h; cases h; rw [h2] at h'; cases h'; rw [h3] at h''; cases h''
  | raised g1 g2 g3 g4 =>
    rw [h1] at g1; cases g1; rw [h2] at g2; cases g2; rw [h3] at g3; cases g3
    obtain ⟨e, -, err, -, he⟩ := g4
    obtain ⟨_, _, _, i2, _⟩ := k1 e
    rw [he] at i2
    cases i2
  | solved => rfl

/-! ### Instance -/

open InputExample (env addr)

/-- The example describes an absorber: a sphere in a void. -/
theorem example_absorber : ∃ P : Problem,
    loadDriver env addr (InputExample.root {}) = .ok (.fixedSource P) ∧
    AbsorberDocument env (InputExample.root {}) P 1 ∧ OneLineIn (InputExample.root {}) := by
  obtain ⟨P, k, hP, hk, h1, h2, h3, h4, -, -, h5, h6⟩ := example_document
  obtain ⟨s, c₁, c₂, hs, hc, hs1, hs2, hm1, hm2, hm⟩ := example_cells hP
  refine ⟨P, hP, ⟨h3, h4, ⟨zero_le_one, ?_⟩, ⟨k, 1, h1, h2, h6, ?_⟩, ?_⟩, ?_⟩
  · intro x c hfc hcm
    obtain ⟨l, r, e1, e2, -⟩ := hfc
    have hmem : c ∈ P.world.cells := by rw [e1]; simp
    rw [hc] at hmem
    simp only [List.mem_cons, List.not_mem_nil, or_false] at hmem
    rcases hmem with rfl | rfl
    · have : s.shape.contains x = true := by
        have := e2 (s, true) (by rw [hs1]; simp)
        simpa using this
      rw [hs] at this
      have := (C06_contains_partial _ (by trivial) _).1 this
      simp only [Inside, surfaceValue] at this
      nlinarith [this]
    · exact absurd hm2 hcm
  · intro c hc' m hcm g g1 g2
    refine ⟨h5 c hc' m hcm g g1 g2, fun e he nodes hn => ?_⟩
    rw [hc] at hc'
    simp only [List.mem_cons, List.not_mem_nil, or_false] at hc'
    rcases hc' with rfl | rfl
    · rw [hk] at hn
      rw [example_nodes (c := {}) ((hm m hcm).2 e he) hn (by decide)]
      simp [specXS, nodeXS]
    · rw [hm2] at hcm
      cases hcm
  · rintro cs (⟨c, ⟨hc, hn⟩, rfl⟩ | ⟨-, rfl⟩) n hn'
    · simp only [InputExample.root, InputExample.el, Xml.children, List.mem_cons,
        List.not_mem_nil, or_false] at hc
      rcases hc with rfl | rfl | rfl | rfl | rfl | rfl | rfl | rfl <;> try (exact absurd hn (by decide))
      simp only [InputExample.estimators, InputExample.el, Xml.children, List.mem_cons,
        List.not_mem_nil, or_false] at hn'
      subst hn'
      constructor
      · rintro k ⟨a, ⟨ha, -⟩, b, ⟨hb, hb'⟩, d, ⟨hd, hd'⟩, -⟩
        simp only [Xml.children, List.mem_cons, List.not_mem_nil, or_false] at ha
        rcases ha with rfl | rfl
        · simp only [Xml.children, List.mem_cons, List.not_mem_nil, or_false] at hb
          subst hb
          simp only [Xml.children, List.mem_cons, List.not_mem_nil, or_false] at hd
          subst hd
          exact absurd hd' (by decide)
        · simp only [Xml.children, List.mem_cons, List.not_mem_nil, or_false] at hb
          subst hb
          exact absurd hb' (by decide)
      · rintro k base ⟨a, ⟨ha, -⟩, b, ⟨hb, hb'⟩, -⟩
        simp only [Xml.children, List.mem_cons, List.not_mem_nil, or_false] at ha
        rcases ha with rfl | rfl <;>
        · simp only [Xml.children, List.mem_cons, List.not_mem_nil, or_false] at hb
          subst hb
          exact absurd hb' (by decide)
    · cases hn'
  · rintro s hs' cs (⟨c, ⟨hc, hn⟩, rfl⟩ | ⟨-, rfl⟩) n hn' v hv
    · simp only [InputExample.root, InputExample.el, Xml.children, List.mem_cons,
        List.not_mem_nil, or_false] at hc
      simp only [List.mem_cons, List.not_mem_nil, or_false] at hs'
      rcases hs' with rfl | rfl
      · rcases hc with rfl | rfl | rfl | rfl | rfl | rfl | rfl | rfl <;>
          try (exact absurd hn (by decide))
        simp only [InputExample.estimators, InputExample.el, Xml.children, List.mem_cons,
          List.not_mem_nil, or_false] at hn'
        subst hn'
        simp [HasAttr, Xml.attrs] at hv
        subst hv
        decide
      · rcases hc with rfl | rfl | rfl | rfl | rfl | rfl | rfl | rfl <;>
          try (exact absurd hn (by decide))
        simp only [InputExample.perturbations, InputExample.el, Xml.children, List.mem_cons,
          List.not_mem_nil, or_false] at hn'
        subst hn'
        simp [HasAttr, Xml.attrs] at hv
        subst hv
        decide
    · cases hn'

/-- Files in which `text` is the input called `path`. -/
def exampleFiles (path : Chars) (writable : Prop) : Files :=
  ⟨fun p => if p = path then some ['x'] else none, fun _ => writable⟩

theorem exampleFiles_self (path : Chars) (writable : Prop) :
    (exampleFiles path writable).content path = some ['x'] := by
  unfold exampleFiles
  exact if_pos rfl

theorem exampleFiles_other {path p : Chars} (h : p ≠ path) (writable : Prop) :
    (exampleFiles path writable).content p = none := by
  unfold exampleFiles
  exact if_neg h

/-- A parser that gives the document whatever the text. -/
def exampleParse (c : InputExample.Choice) : Chars → Option Xml := fun _ => some (InputExample.root c)

theorem exampleFuel : (2 : ℝ) * 1 < ((2 ^ 52 : ℕ) : ℝ) * (10 / 2 ^ 52) := by norm_num

/-- **C68** The hypotheses of `C68_output` and of C69 hold for a run of the program on the example. -/
theorem example_run (path : Chars) (writable : Prop) :
    ∃ P fs', loadDriver env addr (InputExample.root {}) = .ok (.fixedSource P) ∧ OneLine P ∧
      Main env addr (exampleParse {}) (2 ^ 52) (exampleFiles path writable) [path] .success fs' := by
  obtain ⟨P, hP, h, hl⟩ := example_absorber
  obtain ⟨hv, parts, hprob⟩ := problem_of InputExample.unsigned Function.injective_id
    Function.injective_id hP
  obtain ⟨⟨fs', hfs⟩, -⟩ := C69_program (fs := exampleFiles path writable) (text := ['x'])
    (parse := exampleParse {}) InputExample.unsigned Function.injective_id
    Function.injective_id (exampleFiles_self _ _) rfl hP h exampleFuel
  exact ⟨P, fs', hP, document_oneLine hprob hl, hfs⟩

example : ∃ P fs' out rs, loadDriver env addr (InputExample.root {}) = .ok (.fixedSource P) ∧
    Main env addr (exampleParse {}) (2 ^ 52) (exampleFiles "a.xml".toList True) ["a.xml".toList]
      .success fs' ∧ fs'.content "a.out".toList = some out ∧
    readReport out = some ⟨P.batchsize, rs⟩ ∧ rs.length = P.init.estimators.length := by
  obtain ⟨P, fs', hP, hl, hfs⟩ := example_run "a.xml".toList True
  obtain ⟨hists, -, -, out, rs, h1, h2, h3⟩ := C68_output InputExample.unsigned
    Function.injective_id Function.injective_id hfs (exampleFiles_self _ _) rfl hP hl trivial
  have : FilePath.replaceExtension "a.xml".toList ".out".toList = "a.out".toList := by decide
  rw [this] at h1
  exact ⟨P, fs', out, rs, hP, hfs, h1, h2, h3.length_eq.symm⟩

/-- **C68** That success is only reported when the output was written is false: a file that cannot
be opened for writing is not noticed. -/
theorem C68_unwritten_violated : ∃ fs fs' : Files, ∃ path : Chars,
    Main env addr (exampleParse {}) (2 ^ 52) fs [path] .success fs' ∧
    fs'.content (FilePath.replaceExtension path ".out".toList) = none := by
  obtain ⟨P, fs', hP, hl, hfs⟩ := example_run "a.xml".toList False
  refine ⟨_, fs', _, hfs, ?_⟩
  have : FilePath.replaceExtension "a.xml".toList ".out".toList = "a.out".toList := by decide
  rw [this]
  by_contra hne
  have hinit : (exampleFiles "a.xml".toList False).content "a.out".toList = none :=
    exampleFiles_other (by decide) _
  obtain ⟨_, _, _, hw⟩ := C68_only_output hfs "a.out".toList (by rw [hinit]; exact hne)
  exact hw

/-- **C68** That the input is kept is false when its name has the extension of the output: a problem
that fails leaves an empty file in its place. -/
theorem C68_input_lost_violated : ∃ (fs fs' : Files) (path : Chars),
    Main env addr (exampleParse { energy := "0.5" }) 1 fs [path] .aborted fs' ∧
    fs.content path = some ['x'] ∧ fs'.content path = some [] := by
  obtain ⟨hv, P, hP, hsrc⟩ := C58_source_group_violated
  obtain ⟨s, c₁, c₂, hs, hc, hs1, -, hm1, -, -⟩ := example_cells hP
  obtain ⟨-, parts, hprob⟩ := problem_of InputExample.unsigned Function.injective_id
    Function.injective_id hP
  have hh : P.history 1 0 = .error .terminate := by
    refine C65_source_outside_groups InputExample.unsigned Function.injective_id
      Function.injective_id hP (example_path _) (example_count _) ?_ (g := 0) (by rw [hsrc])
      (.inl rfl) ⟨c₁, ⟨[], [c₂], hc, ?_, by simp⟩, hm1⟩ 0 0
    · rw [hsrc]
      exact example_listed _
    · simp [InCell, hs1, hsrc, example_inside hs]
  have hb : 0 < P.batchsize := by
    rw [hprob.batchsize]
    exact histories_pos hv parts
  have hpath : FilePath.replaceExtension "a.out".toList ".out".toList = "a.out".toList := by decide
  have hmain : Main env addr (exampleParse { energy := "0.5" }) 1
      (exampleFiles "a.out".toList True) ["a.out".toList] .aborted _ :=
    .raised (exampleFiles_self _ _) rfl hP ⟨0, hb, .terminate, by simp, hh⟩
  refine ⟨_, _, _, hmain, exampleFiles_self _ _, ?_⟩
  rw [hpath]
  exact write_self trivial _

/-! ### Instance: an eigenvalue problem -/

theorem keigen_children {c : Xml} (hc : c ∈ InputExample.keigenRoot.children)
    (hn : c.name ≠ "problemtype") : c ∈ (InputExample.root {}).children := by
  simp only [InputExample.keigenRoot, InputExample.el, Xml.children, List.mem_cons,
    List.not_mem_nil, or_false] at hc
  simp only [InputExample.root, InputExample.el, Xml.children, List.mem_cons,
    List.not_mem_nil, or_false]
  rcases hc with h | h | h | h | h | h | h | h
  · simp [h]
  · simp [h]
  · simp [h]
  · simp [h]
  · simp [h]
  · exact absurd (by rw [h]; rfl) hn
  · simp [h]
  · simp [h]

theorem keigen_valid : Schema.Valid env InputExample.keigenRoot := by
  have hv : Schema.Valid env (InputExample.root {}) :=
    example_valid _ (.inl rfl) (.inl rfl) (.inl rfl) (.inr rfl) (.inl rfl)
  have hs := InputExample.keigen_same
  refine ⟨?_, ?_, ?_, ?_, ?_, ?_, ?_, ?_, ?_, ?_⟩
  · refine ⟨?_, ?_, ?_⟩ <;> simp [InputExample.keigenRoot, InputExample.el, Xml.children, Xml.name,
      InputExample.general, InputExample.nuclides, InputExample.materials, InputExample.surfaces,
      InputExample.cells, InputExample.estimators, InputExample.perturbations]
  · rw [hs "general" (by simp)]; exact hv.general
  · rw [hs "nuclides" (by simp)]; exact hv.nuclides
  · rw [hs "materials" (by simp)]; exact hv.materials
  · rw [hs "surfaces" (by simp)]; exact hv.surfaces
  · rw [hs "cells" (by simp)]; exact hv.cells
  · have hp := hv.problemType
    rw [InputExample.child_problem] at hp
    rw [InputExample.keigen_problem]
    have hsrc : Schema.SourceType env (InputExample.el "initialsource" []
        (InputExample.source "1" "1" [("type", "neutron")])) := by
      have := hp.2
      rw [if_pos (by decide)] at this
      exact this
    refine ⟨?_, ?_⟩
    · simp [InputExample.el, Xml.children, Xml.name, Schema.OneOf]
    · rw [if_neg (by decide)]
      refine ⟨?_, ?_, ?_, ?_⟩
      · simp [InputExample.el, Xml.children, Xml.firstChild, Xml.name, Schema.AllOf]
      · exact hsrc
      · simp [InputExample.el, Xml.children, Xml.firstChild, Xml.attrs, Xml.attr, Schema.Attrs]
      · simp [InputExample.el, Xml.children, Xml.firstChild, Xml.attr, Xml.attrs, Schema.Val,
          InputExample.positive1]
  · intro c hc hn
    exact hv.temperature c (keigen_children hc (by rw [hn]; decide)) hn
  · intro c hc hn
    exact hv.estimators c (keigen_children hc (by rw [hn]; decide)) hn
  · intro c hc hn
    exact hv.perturbations c (keigen_children hc (by rw [hn]; decide)) hn

/-- The hypotheses of `C68_keigenvalue_violated` hold for a document with an estimator. -/
example : ∃ P i j bank, loadDriver env addr InputExample.keigenRoot = .ok (.keigenvalue P i j bank) ∧
    OneLine P ∧ P.init.estimators ≠ [] := by
  have hk := keigen_valid
  have hsame := InputExample.keigen_same
  obtain ⟨f, hf, hd⟩ := InputExample.driver_eq {} rfl rfl rfl rfl rfl stoull2
    (Input.source env (InputExample.root {})
      (InputExample.el "fixedsource" [] (InputExample.source "1" "1" [("type", "neutron")])))
  have hsrc := InputExample.source_eq {} 1 InputExample.real1
  have h1 : Text.stoull "1" = .ok 1 := by decide
  have h2 : toType ((InputExample.el "constant" [("type", "neutron")] []).attrString "type") =
      .ok .neutron := by decide
  rw [normalize1] at hsrc
  simp only [bind, Except.bind, h1, h2] at hsrc
  rw [hsrc] at hd
  simp only [bind, Except.bind] at hd
  set src : Source := ⟨⟨0, 0, 0⟩, .constant ⟨1, 0, 0⟩, .group 1, .neutron⟩ with hsrc'
  have hinit : (InputExample.keigenRoot.child "problemtype").child "keigenvalue" =
      InputExample.el "keigenvalue" [("inactive", "1"), ("active", "1")]
        [InputExample.el "initialsource" [] (InputExample.source "1" "1" [("type", "neutron")])] := by
    rw [InputExample.keigen_problem]
    simp [InputExample.el, Xml.child, Xml.children, Xml.name]
  have hchild : (InputExample.el "keigenvalue" [("inactive", "1"), ("active", "1")]
      [InputExample.el "initialsource" [] (InputExample.source "1" "1" [("type", "neutron")])]).child
        "initialsource" =
      InputExample.el "initialsource" [] (InputExample.source "1" "1" [("type", "neutron")]) := by
    simp [InputExample.el, Xml.child, Xml.children, Xml.name]
  have hs' : Input.source env (InputExample.root {}) (InputExample.el "initialsource" []
      (InputExample.source "1" "1" [("type", "neutron")])) = .ok src := hsrc
  have hdrv : driver env addr InputExample.keigenRoot (Input.source env InputExample.keigenRoot
      (InputExample.el "initialsource" [] (InputExample.source "1" "1" [("type", "neutron")]))) =
      .ok (f src) := by
    rw [source_same hsame, hs', driver_same hsame, ← hd]
  obtain ⟨bank, hbank⟩ : ∃ bank, keigenSourceBank (f src).source (f src).batchsize = .ok bank := by
    rw [hf src]
    unfold keigenSourceBank
    have : ∀ l : List ℕ, ∃ bs, l.mapM src.sample = .ok bs := by
      intro l
      have : src.sample = fun seed => Except.ok (ε := Err)
          ((C51_source_particle src (by norm_num [Configured, hsrc', UnitVec]) seed).choose) := by
        funext seed
        exact (C51_source_particle src (by norm_num [Configured, hsrc', UnitVec])
          seed).choose_spec.1
      rw [this]
      exact ⟨_, List.mapM_pure⟩
    obtain ⟨bs, hbs⟩ := this (List.range' 1 (f src).batchsize)
    rw [hbs]
    exact ⟨_, rfl⟩
  have hload : ∃ i j, loadDriver env addr InputExample.keigenRoot =
      .ok (.keigenvalue (f src) i j bank) := by
    unfold loadDriver
    rw [if_pos hk]
    unfold createDriver
    have hname : (InputExample.keigenRoot.child "problemtype").firstChild.name = "keigenvalue" := by
      rw [InputExample.keigen_problem]
      rfl
    simp only
    rw [hname, if_neg (by decide), if_pos rfl]
    unfold keigenvalue
    rw [hinit]
    simp only [hchild, hdrv, bind, Except.bind, hbank]
    exact ⟨_, _, rfl⟩
  obtain ⟨i, j, hload⟩ := hload
  obtain ⟨parts, -, hall⟩ := C58_created_iff (addr := addr) InputExample.unsigned hk
    Function.injective_id Function.injective_id
  obtain ⟨_, _, _, hl⟩ := example_absorber
  have hprob : ProblemOf parts (f src) := by
    have := hall _ hload
    cases this with
    | keigenvalue _ hp => exact hp
  refine ⟨f src, i, j, bank, hload, document_oneLine hprob ?_, fun hnil => ?_⟩
  · rintro s hs cs (⟨c, hc, rfl⟩ | ⟨-, rfl⟩) n hn v hv
    · refine hl s hs _ (.inl ⟨c, ⟨keigen_children hc.1 ?_, hc.2⟩, rfl⟩) n hn v hv
      rw [hc.2]
      simp only [List.mem_cons, List.not_mem_nil, or_false] at hs
      rcases hs with rfl | rfl <;> decide
    · cases hn
  · obtain ⟨cs, hcs, hcf⟩ := parts.areEstimators
    have h0 : cs.length = 0 := by
      rw [hcf.length_eq, hprob.estimators.length_eq, hnil]
      rfl
    rcases hcs with ⟨c, hc, rfl⟩ | ⟨hno, -⟩
    · have hc' := keigen_children hc.1 (by rw [hc.2]; decide)
      simp only [InputExample.root, InputExample.el, Xml.children, List.mem_cons,
        List.not_mem_nil, or_false] at hc'
      have hcn := hc.2
      rcases hc' with rfl | rfl | rfl | rfl | rfl | rfl | rfl | rfl <;>
        first | exact absurd hcn (by decide) | exact absurd h0 (by decide)
    · exact hno ⟨InputExample.estimators "s" "0" "q", by
        simp [InputExample.keigenRoot, InputExample.el, Xml.children], rfl⟩

end Minimc.Props
