import Verif.Lemmas.InputExampleRun

/-! # An eigenvalue document

It is the example with another problem type. -/

namespace Minimc

namespace Input

/-- The documents differ in the problem type only. -/
def SameButProblem (a b : Xml) : Prop :=
  ∀ s ∈ ["general", "nuclides", "materials", "surfaces", "cells", "temperature", "estimators",
    "perturbations"], a.child s = b.child s

variable {env : Env} {addr : Addresses} {a b : Xml}

theorem interaction_same (h : SameButProblem a b) (n p : Xml) :
    interaction env a n p = interaction env b n p := by
  have e := h "nuclides" (by simp)
  unfold interaction multigroup groupCount
  rw [e]

theorem interactionsFrom_same (h : SameButProblem a b) (n : Xml) (l : List String) :
    ∀ xs, interactionsFrom env a n xs l = interactionsFrom env b n xs l := by
  induction l with
  | nil => intro xs; rfl
  | cons w l ih =>
    intro xs
    unfold interactionsFrom
    simp only [interaction_same h, ih]

theorem document_same (h : SameButProblem a b) : document env a = document env b := by
  have hn : nuclide env a = nuclide env b := by
    funext n
    unfold nuclide interactions
    rw [h "general" (by simp), interactionsFrom_same h]
  unfold document
  rw [h "surfaces" (by simp), h "temperature" (by simp), h "materials" (by simp),
    h "nuclides" (by simp), h "cells" (by simp), hn]

theorem driver_same (h : SameButProblem a b) (src : Res Source) :
    driver env addr a src = driver env addr b src := by
  unfold driver
  rw [document_same h, h "general" (by simp), h "perturbations" (by simp),
    h "estimators" (by simp)]

theorem source_same (h : SameButProblem a b) (n : Xml) : source env a n = source env b n := by
  unfold source energyDist
  rw [h "nuclides" (by simp)]

end Input

namespace InputExample

open Spec Schema Xml Input

/-- The example with an eigenvalue problem: one inactive and one active cycle. -/
def keigenRoot : Xml :=
  el "minimc" [] [general "2", nuclides "a" "b", materials, surfaces, cells,
    el "problemtype" [] [el "keigenvalue" [("inactive", "1"), ("active", "1")]
      [el "initialsource" [] (source "1" "1" [("type", "neutron")])]],
    estimators "s" "0" "q", perturbations "a"]

theorem keigen_same : SameButProblem keigenRoot (root {}) := by
  intro s hs
  simp only [List.mem_cons, List.not_mem_nil, or_false] at hs
  rcases hs with rfl | rfl | rfl | rfl | rfl | rfl | rfl | rfl <;>
    simp [keigenRoot, root, el, Xml.child, Xml.children, Xml.name, general, nuclides, materials,
      surfaces, cells, estimators, perturbations]

theorem keigen_problem : keigenRoot.child "problemtype" =
    el "problemtype" [] [el "keigenvalue" [("inactive", "1"), ("active", "1")]
      [el "initialsource" [] (source "1" "1" [("type", "neutron")])]] := by
  simp [keigenRoot, el, Xml.child, Xml.children, Xml.name, general, nuclides, materials, surfaces,
    cells]

end InputExample

end Minimc
