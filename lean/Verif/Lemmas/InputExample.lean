import Verif.Model.Schema

/-! # A concrete document that the schema accepts -/

namespace Minimc.InputExample

open Schema Xml

/-- Some literals. -/
noncomputable def env : Env where
  real s := if s = "0" then some 0 else if s = "1" then some 1 else if s = "0.5" then some (1 / 2)
    else if s = "2" then some 2 else none
  files _ := none

theorem real0 : env.real "0" = some 0 := by simp [env]
theorem real1 : env.real "1" = some 1 := by simp [env]
theorem realHalf : env.real "0.5" = some (1 / 2) := by simp [env]
theorem real2 : env.real "2" = some 2 := by simp [env]

/-- An element without text. -/
def el (name : String) (attrs : List (String × String)) (children : List Xml) : Xml :=
  node name attrs "" children

/-- An element with text only. -/
def txt (name text : String) : Xml := node name [] text []

/-- The `general` section. -/
def general (threads : String) : Xml :=
  el "general" [] [txt "particles" "neutron", txt "histories" "1", txt "threads" threads,
    txt "chunksize" "1"]

/-- One group, two nuclides: an absorber and a scatterer. -/
def nuclides (first second : String) : Xml :=
  el "nuclides" [] [el "multigroup" [("groups", "1")]
    [el "nuclide" [("name", first)] [el "neutron" [] [txt "capture" "1"]],
      el "nuclide" [("name", second)] [el "neutron" [] [txt "capture" "2", txt "scatter" "1"]]]]

/-- One material with the nuclide `a`. -/
def materials : Xml :=
  el "materials" [] [el "material" [("name", "m"), ("aden", "1")]
    [el "nuclide" [("name", "a"), ("afrac", "0.5")] []]]

/-- A sphere and a plane. -/
def surfaces : Xml :=
  el "surfaces" [] [el "sphere" [("name", "s")]
      [el "center" [("x", "0"), ("y", "0"), ("z", "0")] [], el "radius" [("r", "1")] []],
    el "planex" [("name", "p"), ("x", "0")] []]

/-- The inside of the sphere is filled, the outside is void. -/
def cells : Xml :=
  el "cells" [] [el "cell" [("name", "in"), ("material", "m")]
      [el "surface" [("name", "s"), ("sense", "-1")] []],
    el "void" [] [el "surface" [("name", "s"), ("sense", "+1")] []]]

/-- The source. -/
def source (x energy : String) (type : List (String × String)) : List Xml :=
  [el "position" [] [el "constant" [("x", "0"), ("y", "0"), ("z", "0")] []],
    el "direction" [] [el "constant" [("x", x), ("y", "0"), ("z", "0")] []],
    el "energy" [] [el "constant" [("energy", energy)] []],
    el "particletype" [] [el "constant" type []]]

/-- The estimators: one on the sphere, with two bins in the cosine. -/
def estimators (surface lo sensitivity : String) : Xml :=
  el "estimators" [] [el "current" [("name", "e"), ("surface", surface)]
    [el "bins" [] [el "cosine" [("u", "1"), ("v", "0"), ("w", "0")]
        [el "linspace" [("min", lo), ("max", "1"), ("bins", "2")] []]],
      el "sensitivities" [] [el "perturbation" [("name", sensitivity)] []]]]

/-- The perturbations: one. -/
def perturbations (nuclide : String) : Xml :=
  el "perturbations" [] [el "total" [("name", "q"), ("nuclide", nuclide)] []]

/-- What varies between the documents. -/
structure Choice where
  threads : String := "2"
  first : String := "a"
  second : String := "b"
  x : String := "1"
  energy : String := "1"
  type : List (String × String) := [("type", "neutron")]
  surface : String := "s"
  lo : String := "0"
  sensitivity : String := "q"
  nuclide : String := "a"

/-- The document. -/
def root (c : Choice) : Xml :=
  el "minimc" [] [general c.threads, nuclides c.first c.second, materials, surfaces, cells,
    el "problemtype" [] [el "fixedsource" [] (source c.x c.energy c.type)],
    estimators c.surface c.lo c.sensitivity, perturbations c.nuclide]

theorem positive1 : PositiveInteger "1" :=
  ⟨[], [], ['1'], [], rfl, by simp, by simp, .inl rfl, by decide, '1', by simp, by decide⟩

theorem positive2 : PositiveInteger "2" :=
  ⟨[], [], ['2'], [], rfl, by simp, by simp, .inl rfl, by decide, '2', by simp, by decide⟩

theorem words1 : Text.words "1" = ["1"] := by decide
theorem words2 : Text.words "2" = ["2"] := by decide

theorem group1 : GroupXS env "1" := by
  intro w hw
  rw [words1] at hw
  simp only [List.mem_singleton] at hw
  subst hw
  exact ⟨1, real1, by norm_num⟩

theorem group2 : GroupXS env "2" := by
  intro w hw
  rw [words2] at hw
  simp only [List.mem_singleton] at hw
  subst hw
  exact ⟨2, real2, by norm_num⟩

theorem child_general (c : Choice) : (root c).child "general" = general c.threads := by
  simp [root, el, Xml.child, Xml.children, Xml.name, general]

theorem child_nuclides (c : Choice) :
    (root c).child "nuclides" = nuclides c.first c.second := by
  simp [root, el, Xml.child, Xml.children, Xml.name, general, nuclides]

theorem child_materials (c : Choice) : (root c).child "materials" = materials := by
  simp [root, el, Xml.child, Xml.children, Xml.name, general, nuclides, materials]

theorem child_surfaces (c : Choice) : (root c).child "surfaces" = surfaces := by
  simp [root, el, Xml.child, Xml.children, Xml.name, general, nuclides, materials, surfaces]

theorem child_cells (c : Choice) : (root c).child "cells" = cells := by
  simp [root, el, Xml.child, Xml.children, Xml.name, general, nuclides, materials, surfaces, cells]

theorem child_problem (c : Choice) : (root c).child "problemtype" =
    el "problemtype" [] [el "fixedsource" [] (source c.x c.energy c.type)] := by
  simp [root, el, Xml.child, Xml.children, Xml.name, general, nuclides, materials, surfaces, cells]

theorem child_estimators (c : Choice) :
    (root c).child "estimators" = estimators c.surface c.lo c.sensitivity := by
  simp [root, el, Xml.child, Xml.children, Xml.name, general, nuclides, materials, surfaces, cells,
    estimators]

theorem child_perturbations (c : Choice) :
    (root c).child "perturbations" = perturbations c.nuclide := by
  simp [root, el, Xml.child, Xml.children, Xml.name, general, nuclides, materials, surfaces, cells,
    estimators, perturbations]

theorem child_temperature (c : Choice) : (root c).child "temperature" = Xml.null := by
  simp [root, el, Xml.child, Xml.children, Xml.name, general, nuclides, materials, surfaces, cells,
    estimators, perturbations]

set_option linter.unusedSimpArgs false in
/-- The schema accepts the documents. -/
theorem valid (c : Choice) (h1 : PositiveInteger c.threads) (h2 : Double env c.x)
    (h3 : Positive env c.energy) (h4 : c.type = [] ∨ c.type = [("type", "neutron")])
    (h5 : Double env c.lo) : Valid env (root c) := by
  refine ⟨?_, ?_, ?_, ?_, ?_, ?_, ?_, ?_, ?_, ?_⟩
  · refine ⟨?_, ?_, ?_⟩ <;> simp [root, el, Xml.children, Xml.name, general, nuclides, materials,
      surfaces, cells, estimators, perturbations]
  · rw [child_general]
    refine ⟨⟨?_, ?_, ?_⟩, ?_⟩ <;> simp [el, Xml.children, Xml.name, general, txt, Xml.text,
      positive1, h1]
    intro w hw
    have : Text.words "neutron" = ["neutron"] := by decide
    rw [this] at hw
    simp only [List.mem_singleton] at hw
    exact .inl hw
  · rw [child_nuclides]
    refine ⟨?_, ?_⟩ <;> simp [el, txt, Xml.children, Xml.child, Xml.firstChild, Xml.name,
      Xml.text, Xml.attrs, Xml.attr, Attrs, AllOf, OneOf, SomeOf, Val, Schema.Unique, nuclides,
      MultigroupNuclearData, GroupXSReactions, group1,
      group2, positive1]
  · rw [child_materials]
    refine ⟨?_, ?_, ?_⟩ <;> simp [el, txt, Xml.children, Xml.child, Xml.firstChild, Xml.name,
      Xml.text, Xml.attrs, Xml.attr, Attrs, AllOf, OneOf, SomeOf, Val, Schema.Unique, materials,
      Double, Positive, NonNegative, real0, real1, realHalf, real2]
    tauto
  · rw [child_surfaces]
    refine ⟨?_, ?_, ?_⟩ <;> simp [el, txt, Xml.children, Xml.child, Xml.firstChild, Xml.name,
      Xml.text, Xml.attrs, Xml.attr, Attrs, AllOf, OneOf, SomeOf, Val, Schema.Unique, surfaces,
      SurfaceElement, IsPoint, Double, Positive, NonNegative, real0, real1, realHalf, real2]
    tauto
  · rw [child_cells]
    refine ⟨?_, ?_, ?_⟩ <;> simp [el, txt, Xml.children, Xml.child, Xml.firstChild, Xml.name,
      Xml.text, Xml.attrs, Xml.attr, Attrs, AllOf, OneOf, SomeOf, Val, Schema.Unique, cells,
      CSGDefinition, Double, Positive, NonNegative, real0, real1, realHalf, real2]
    tauto
  · rw [child_problem]
    refine ⟨?_, ?_⟩
    · simp [el, txt, Xml.children, Xml.child, Xml.firstChild, Xml.name, Xml.text, Xml.attrs,
      Xml.attr, Attrs, AllOf, OneOf, SomeOf, Val, Schema.Unique]
    · rcases h4 with h4 | h4 <;>
        simp [el, txt, Xml.children, Xml.child, Xml.firstChild, Xml.name, Xml.text, Xml.attrs,
      Xml.attr, Attrs, AllOf, OneOf, SomeOf, Val, Schema.Unique, source, SourceType,
      DirectionType, IsPoint, h4, ParticleName, real0, Double] <;>
        exact ⟨h2, h3⟩
  · simp [root, el, Xml.children, Xml.name, general, nuclides, materials, surfaces, cells,
      estimators, perturbations]
  · intro d hd hn
    have : d = estimators c.surface c.lo c.sensitivity := by
      simp [root, el, Xml.children, general, nuclides, materials, surfaces, cells, estimators,
        perturbations] at hd
      rcases hd with rfl | rfl | rfl | rfl | rfl | rfl | rfl | rfl <;>
        simp [Xml.name, estimators, el] at hn ⊢
    subst this
    simp [el, txt, Xml.children, Xml.child, Xml.firstChild, Xml.name, Xml.text, Xml.attrs,
      Xml.attr, Attrs, AllOf, OneOf, SomeOf, Val, Schema.Unique, estimators, Estimators,
      ParticleBinType, BinType, BinElement, Double, Positive, NonNegative, real0, real1, realHalf,
      real2, positive2]
    exact ⟨by tauto, ⟨by tauto, h5⟩, by tauto⟩
  · intro d hd hn
    have : d = perturbations c.nuclide := by
      simp [root, el, Xml.children, general, nuclides, materials, surfaces, cells, estimators,
        perturbations] at hd
      rcases hd with rfl | rfl | rfl | rfl | rfl | rfl | rfl | rfl <;>
        simp [Xml.name, perturbations, el] at hn ⊢
    subst this
    simp [el, txt, Xml.children, Xml.child, Xml.firstChild, Xml.name, Xml.text, Xml.attrs,
      Xml.attr, Attrs, AllOf, OneOf, SomeOf, Val, Schema.Unique, perturbations, Perturbations]
    tauto

end Minimc.InputExample
