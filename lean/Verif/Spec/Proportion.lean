import Verif.Model.Schema

/-!
# Specification: proportions in the input

Documents that differ only in a common factor of the fractions of a material and in the length of vectors that
stand for directions.
-/

namespace Minimc.Spec

open Input

/-- The attributes of both elements point the same way. -/
def SameWay (env : Env) (x y z : String) (n n' : Xml) : Prop :=
  ∃ k : ℝ, 0 < k ∧ attrReal env n' x = k * attrReal env n x ∧ attrReal env n' y = k * attrReal env n y ∧
    attrReal env n' z = k * attrReal env n z

/-- Two `material` elements that list the same nuclides, with fractions in the same proportions. -/
structure SameProportions (env : Env) (n n' : Xml) : Prop where
  name : n'.attrString "name" = n.attrString "name"
  density : attrReal env n' "aden" = attrReal env n "aden"
  fractions : ∃ k : ℝ, 0 < k ∧ List.Forall₂ (fun x x' : Xml => x'.attrString "name" = x.attrString "name" ∧
    attrReal env x' "afrac" = k * attrReal env x "afrac") n.children n'.children

/-- Two elements for sources that emit the same way. -/
structure SameSource (env : Env) (n n' : Xml) : Prop where
  others : ∀ s, s ≠ "direction" → n'.child s = n.child s
  kind : (n'.child "direction").firstChild.name = (n.child "direction").firstChild.name
  way : SameWay env "x" "y" "z" (n.child "direction").firstChild (n'.child "direction").firstChild

/-- Two elements for estimators with the same bins, for cosines with vectors that point the same way. -/
structure SameCosines (env : Env) (n n' : Xml) : Prop where
  kind : n'.name = n.name
  attrs : n'.attrs = n.attrs
  others : ∀ s, s ≠ "bins" → n'.child s = n.child s
  bins : ∀ s, s ≠ "cosine" → (n'.child "bins").child s = (n.child "bins").child s
  present : ((n'.child "bins").child "cosine").isNull = ((n.child "bins").child "cosine").isNull
  cosines : ((n'.child "bins").child "cosine").firstChild = ((n.child "bins").child "cosine").firstChild
  way : SameWay env "u" "v" "w" ((n.child "bins").child "cosine") ((n'.child "bins").child "cosine")

/-- Two documents that differ only in common factors of fractions and in lengths of directions. -/
structure OnlyProportions (env : Env) (root root' : Xml) : Prop where
  sections : ∀ s, s ≠ "materials" → s ≠ "problemtype" → s ≠ "estimators" → root'.child s = root.child s
  materials : List.Forall₂ (SameProportions env) (root.child "materials").children
    (root'.child "materials").children
  estimators : List.Forall₂ (SameCosines env) (root.child "estimators").children
    (root'.child "estimators").children
  kind : (root'.child "problemtype").firstChild.name = (root.child "problemtype").firstChild.name
  fixed : SameSource env ((root.child "problemtype").child "fixedsource")
    ((root'.child "problemtype").child "fixedsource")
  eigen : SameSource env (((root.child "problemtype").child "keigenvalue").child "initialsource")
    (((root'.child "problemtype").child "keigenvalue").child "initialsource")
  cycles : ((root'.child "problemtype").child "keigenvalue").attrs =
    ((root.child "problemtype").child "keigenvalue").attrs

end Minimc.Spec
