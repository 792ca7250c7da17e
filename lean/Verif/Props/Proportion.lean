import Verif.Lemmas.Proportion
import Verif.Props.Order
import Verif.Props.AbsorberInput

/-!
# Proportions in the input

Of the fractions of a material only their proportions count, and of the vectors that stand for directions only
where they point to.
-/

open Classical

namespace Minimc.Props

open Minimc.Spec Minimc.Schema Minimc.Input

/-- **C111** Valid documents that differ only in common factors of fractions and in lengths of directions give
the same driver, or are refused for the same reason. -/
theorem C111_driver {env : Env} {root root' : Xml} (h : OnlyProportions env root root') (hv : Valid env root)
    (hv' : Valid env root') (addr : Addresses) : loadDriver env addr root' = loadDriver env addr root := by
  unfold loadDriver
  rw [if_pos hv, if_pos hv']
  exact scaled_createDriver h addr

/-- **C111** Whatever a run of the program can do with one of these documents it can do with the other: it ends
in the same way and writes the same text, or nothing. -/
theorem C111_program {env : Env} {addr : Addresses} {parse : Chars → Option Xml} {fuel : ℕ} {fs fs' : Files}
    {path text text' : Chars} {root root' : Xml} (ht : fs.content path = some text)
    (ht' : fs'.content path = some text') (hp : parse text = some root) (hp' : parse text' = some root')
    (h : OnlyProportions env root root') (hv : Valid env root) (hv' : Valid env root') {exit : Exit}
    {out : Files} (hrun : Main env addr parse fuel fs [path] exit out) :
    ∃ out', Main env addr parse fuel fs' [path] exit out' ∧ (out = fs ∧ out' = fs' ∨
      ∃ t, out = fs.write (FilePath.replaceExtension path ".out".toList) t ∧
        out' = fs'.write (FilePath.replaceExtension path ".out".toList) t) := by
  have e := C111_driver h hv hv' addr
  have hroot : ∀ {text₁ : Chars} {root₁ : Xml}, fs.content path = some text₁ → parse text₁ = some root₁ →
      root₁ = root := by
    intro text₁ root₁ h1 h2
    rw [ht] at h1
    cases h1
    rw [hp] at h2
    cases h2
    rfl
  cases hrun with
  | usage hl => exact absurd rfl hl
  | missing hm =>
    rw [ht] at hm
    cases hm
  | malformed h1 h2 =>
    rw [ht] at h1
    cases h1
    rw [hp] at h2
    cases h2
  | rejected h1 h2 h3 =>
    cases hroot h1 h2
    exact ⟨fs', .rejected ht' hp' (e.trans h3), .inl ⟨rfl, rfl⟩⟩
  | raised h1 h2 h3 h4 =>
    cases hroot h1 h2
    exact ⟨_, .raised ht' hp' (e.trans h3) h4, .inr ⟨[], rfl, rfl⟩⟩
  | solved h1 h2 h3 h4 =>
    cases hroot h1 h2
    exact ⟨_, .solved ht' hp' (e.trans h3) h4, .inr ⟨_, rfl, rfl⟩⟩

/-! ### Instances -/

namespace ProportionExample

open InputExample

/-- The material of `InputExample.materials`, with twice the fraction. -/
def materials' : Xml :=
  el "materials" [] [el "material" [("name", "m"), ("aden", "1")]
    [el "nuclide" [("name", "a"), ("afrac", "1")] []]]

/-- The estimators of `InputExample.estimators`, with a vector of twice the length. -/
def estimators' : Xml :=
  el "estimators" [] [el "current" [("name", "e"), ("surface", "s")]
    [el "bins" [] [el "cosine" [("u", "2"), ("v", "0"), ("w", "0")]
        [el "linspace" [("min", "0"), ("max", "1"), ("bins", "2")] []]],
      el "sensitivities" [] [el "perturbation" [("name", "q")] []]]]

/-- The document of `InputExample.root`, with another fraction and longer directions. -/
def root' : Xml :=
  el "minimc" [] [general "2", nuclides "a" "b", materials', surfaces, cells,
    el "problemtype" [] [el "fixedsource" [] (source "2" "1" [("type", "neutron")])],
    estimators', perturbations "a"]

set_option linter.unusedSimpArgs false in
theorem valid' : Valid env root' := by
  have hg : root'.child "general" = general "2" := by
    simp [root', el, Xml.child, Xml.children, Xml.name, general]
  have hn : root'.child "nuclides" = nuclides "a" "b" := by
    simp [root', el, Xml.child, Xml.children, Xml.name, general, nuclides]
  have hm : root'.child "materials" = materials' := by
    simp [root', el, Xml.child, Xml.children, Xml.name, general, nuclides, materials']
  have hs : root'.child "surfaces" = surfaces := by
    simp [root', el, Xml.child, Xml.children, Xml.name, general, nuclides, materials', surfaces]
  have hc : root'.child "cells" = cells := by
    simp [root', el, Xml.child, Xml.children, Xml.name, general, nuclides, materials', surfaces, cells]
  have hp : root'.child "problemtype" =
      el "problemtype" [] [el "fixedsource" [] (source "2" "1" [("type", "neutron")])] := by
    simp [root', el, Xml.child, Xml.children, Xml.name, general, nuclides, materials', surfaces, cells]
  refine ⟨?_, ?_, ?_, ?_, ?_, ?_, ?_, ?_, ?_, ?_⟩
  · refine ⟨?_, ?_, ?_⟩ <;> simp [root', el, Xml.children, Xml.name, general, nuclides, materials',
      surfaces, cells, estimators', perturbations]
  · rw [hg]
    refine ⟨⟨?_, ?_, ?_⟩, ?_⟩ <;> simp [el, Xml.children, Xml.name, general, txt, Xml.text,
      positive1, positive2]
    intro w hw
    have : Text.words "neutron" = ["neutron"] := by decide
    rw [this] at hw
    simp only [List.mem_singleton] at hw
    exact .inl hw
  · rw [hn]
    refine ⟨?_, ?_⟩ <;> simp [el, txt, Xml.children, Xml.child, Xml.firstChild, Xml.name,
      Xml.text, Xml.attrs, Xml.attr, Attrs, AllOf, OneOf, SomeOf, Val, Schema.Unique, nuclides,
      MultigroupNuclearData, GroupXSReactions, group1,
      group2, positive1]
  · rw [hm]
    refine ⟨?_, ?_, ?_⟩ <;> simp [el, txt, Xml.children, Xml.child, Xml.firstChild, Xml.name,
      Xml.text, Xml.attrs, Xml.attr, Attrs, AllOf, OneOf, SomeOf, Val, Schema.Unique, materials',
      Double, Positive, NonNegative, real0, real1, realHalf, real2]
    tauto
  · rw [hs]
    refine ⟨?_, ?_, ?_⟩ <;> simp [el, txt, Xml.children, Xml.child, Xml.firstChild, Xml.name,
      Xml.text, Xml.attrs, Xml.attr, Attrs, AllOf, OneOf, SomeOf, Val, Schema.Unique, surfaces,
      SurfaceElement, IsPoint, Double, Positive, NonNegative, real0, real1, realHalf, real2]
    tauto
  · rw [hc]
    refine ⟨?_, ?_, ?_⟩ <;> simp [el, txt, Xml.children, Xml.child, Xml.firstChild, Xml.name,
      Xml.text, Xml.attrs, Xml.attr, Attrs, AllOf, OneOf, SomeOf, Val, Schema.Unique, cells,
      CSGDefinition, Double, Positive, NonNegative, real0, real1, realHalf, real2]
    tauto
  · rw [hp]
    refine ⟨?_, ?_⟩
    · simp [el, txt, Xml.children, Xml.child, Xml.firstChild, Xml.name, Xml.text, Xml.attrs,
      Xml.attr, Attrs, AllOf, OneOf, SomeOf, Val, Schema.Unique]
    · simp [el, txt, Xml.children, Xml.child, Xml.firstChild, Xml.name, Xml.text, Xml.attrs,
        Xml.attr, Attrs, AllOf, OneOf, SomeOf, Val, Schema.Unique, InputExample.source, SourceType,
        DirectionType, IsPoint, ParticleName, real0, real1, real2, Double, Positive]
  · simp [root', el, Xml.children, Xml.name, general, nuclides, materials', surfaces, cells,
      estimators', perturbations]
  · intro d hd hn
    have : d = estimators' := by
      simp [root', el, Xml.children, general, nuclides, materials', surfaces, cells, estimators',
        perturbations] at hd
      rcases hd with rfl | rfl | rfl | rfl | rfl | rfl | rfl | rfl <;>
        simp [Xml.name, estimators', el] at hn ⊢
    subst this
    simp [el, txt, Xml.children, Xml.child, Xml.firstChild, Xml.name, Xml.text, Xml.attrs,
      Xml.attr, Attrs, AllOf, OneOf, SomeOf, Val, Schema.Unique, estimators', Estimators,
      ParticleBinType, BinType, BinElement, Double, Positive, NonNegative, real0, real1, realHalf,
      real2, positive2]
    tauto
  · intro d hd hn
    have : d = perturbations "a" := by
      simp [root', el, Xml.children, general, nuclides, materials', surfaces, cells, estimators',
        perturbations] at hd
      rcases hd with rfl | rfl | rfl | rfl | rfl | rfl | rfl | rfl <;>
        simp [Xml.name, perturbations, el] at hn ⊢
    subst this
    simp [el, txt, Xml.children, Xml.child, Xml.firstChild, Xml.name, Xml.text, Xml.attrs,
      Xml.attr, Attrs, AllOf, OneOf, SomeOf, Val, Schema.Unique, perturbations, Perturbations]
    tauto

set_option linter.unusedSimpArgs false in
theorem onlyProportions : OnlyProportions env (InputExample.root {}) root' := by
  have hm : root'.child "materials" = materials' := by
    simp [root', el, Xml.child, Xml.children, Xml.name, general, nuclides, materials']
  have hp : root'.child "problemtype" =
      el "problemtype" [] [el "fixedsource" [] (source "2" "1" [("type", "neutron")])] := by
    simp [root', el, Xml.child, Xml.children, Xml.name, general, nuclides, materials', surfaces, cells]
  have he : root'.child "estimators" = estimators' := by
    simp [root', el, Xml.child, Xml.children, Xml.name, general, nuclides, materials', surfaces, cells, estimators']
  refine ⟨?_, ?_, ?_, ?_, ?_, ?_, ?_⟩
  · intro s h1 h2 h3
    have h1' : ("materials" == s) = false := by simpa using h1.symm
    have h2' : ("problemtype" == s) = false := by simpa using h2.symm
    have h3' : ("estimators" == s) = false := by simpa using h3.symm
    simp only [root', InputExample.root, el, Xml.child, Xml.children, List.find?_cons, Xml.name, general, nuclides,
      materials, materials', surfaces, cells, estimators, estimators', perturbations, h1', h2', h3']
  · rw [hm, child_materials]
    refine .cons ⟨rfl, rfl, 2, two_pos, .cons ⟨rfl, ?_⟩ .nil⟩ .nil
    change (env.real "1").getD 0 = 2 * (env.real "0.5").getD 0
    rw [real1, realHalf]
    norm_num
  · rw [he, child_estimators]
    refine .cons ⟨rfl, rfl, ?_, ?_, rfl, rfl, 2, two_pos, ?_⟩ .nil
    · intro s hs
      have hs' : ("bins" == s) = false := by simpa using hs.symm
      simp only [el, Xml.child, Xml.children, List.find?_cons, Xml.name, hs']
    · intro s hs
      have hs' : ("cosine" == s) = false := by simpa using hs.symm
      simp [el, Xml.child, Xml.children, List.find?_cons, Xml.name, hs']
    · change (env.real "2").getD 0 = 2 * (env.real "1").getD 0 ∧ (env.real "0").getD 0 = 2 * (env.real "0").getD 0 ∧
        (env.real "0").getD 0 = 2 * (env.real "0").getD 0
      rw [real0, real1, real2]
      norm_num
  · rw [hp, child_problem]
    rfl
  · rw [hp, child_problem]
    refine ⟨?_, ?_, 2, two_pos, ?_⟩
    · intro s hs
      have hs' : ("direction" == s) = false := by simpa using hs.symm
      simp [InputExample.source, el, Xml.child, Xml.children, List.find?_cons, Xml.name, hs']
    · simp [InputExample.source, el, Xml.child, Xml.children, Xml.name, Xml.firstChild]
    · change (env.real "2").getD 0 = 2 * (env.real "1").getD 0 ∧ (env.real "0").getD 0 = 2 * (env.real "0").getD 0 ∧
        (env.real "0").getD 0 = 2 * (env.real "0").getD 0
      rw [real0, real1, real2]
      norm_num
  · rw [hp, child_problem]
    refine ⟨?_, ?_, 1, one_pos, ?_⟩
    · intro s hs
      simp [InputExample.source, el, Xml.child, Xml.children, Xml.name]
    · simp [InputExample.source, el, Xml.child, Xml.children, Xml.name]
    · simp [InputExample.source, el, Xml.child, Xml.children, Xml.name]
  · rw [hp, child_problem]
    simp [InputExample.source, el, Xml.child, Xml.children, Xml.name]

/-- Instance of `C111_driver`: both documents give a driver, the same one. -/
example : ∃ P : Problem, loadDriver env addr (InputExample.root {}) = .ok (.fixedSource P) ∧
    loadDriver env addr root' = .ok (.fixedSource P) := by
  have hv := example_valid {} (.inl rfl) (.inl rfl) (.inl rfl) (.inr rfl) (.inl rfl)
  obtain ⟨P, h, -⟩ := example_created_of {} hv rfl rfl rfl rfl rfl stoull2 rfl rfl rfl
  exact ⟨P, h, (C111_driver onlyProportions hv valid' addr).trans h⟩

/-- A parser that gives one of the documents for one text and the other for all others. -/
def parse : Chars → Option Xml := fun t => if t = ['x'] then some (InputExample.root {}) else some root'

/-- The files before the run on the other document. -/
def files' (path : Chars) : Files := ⟨fun p => if p = path then some ['y'] else none, fun _ => True⟩

/-- Instance of `C111_program`: both runs succeed, and write the same output. -/
example (path : Chars) : ∃ out out', Main env addr parse (2 ^ 52) (exampleFiles path True) [path] .success out ∧
    Main env addr parse (2 ^ 52) (files' path) [path] .success out' ∧
    (out = exampleFiles path True ∧ out' = files' path ∨
      ∃ t, out = (exampleFiles path True).write (FilePath.replaceExtension path ".out".toList) t ∧
        out' = (files' path).write (FilePath.replaceExtension path ".out".toList) t) := by
  obtain ⟨P, hP, h, hl⟩ := example_absorber
  have hx : parse ['x'] = some (InputExample.root {}) := if_pos rfl
  have hy : parse ['y'] = some root' := if_neg (by decide)
  obtain ⟨⟨out, hout⟩, -⟩ := C69_program (fs := exampleFiles path True) (text := ['x'])
    (parse := parse) InputExample.unsigned Function.injective_id
    Function.injective_id (exampleFiles_self _ _) hx hP h exampleFuel
  have hv := example_valid {} (.inl rfl) (.inl rfl) (.inl rfl) (.inr rfl) (.inl rfl)
  obtain ⟨out', h1, h2⟩ := C111_program (fs' := files' path) (exampleFiles_self _ _) (if_pos rfl) hx hy
    onlyProportions hv valid' hout
  exact ⟨out, out', hout, h1, h2⟩

end ProportionExample

end Minimc.Props
