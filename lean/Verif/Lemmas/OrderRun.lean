import Verif.Lemmas.Order
import Verif.Props.InputNames
import Verif.Lemmas.WorldParts

/-! # Lemmas about worlds whose objects are listed in another order -/

namespace Minimc

open Spec Input Xml Schema Props WorldBuild

/-- At most one member of a list has a property: it is found in whatever order the list is. -/
theorem find_perm {α : Type} {f : α → Bool} {l l' : List α} (h : l.Perm l')
    (hs : l.Pairwise (fun a b => ¬ (f a = true ∧ f b = true))) : l.find? f = l'.find? f := by
  have hsym : ∀ a b, ¬ (f a = true ∧ f b = true) → ¬ (f b = true ∧ f a = true) :=
    fun a b h h' => h ⟨h'.2, h'.1⟩
  induction h with
  | nil => rfl
  | cons x _ ih =>
    rw [List.find?_cons, List.find?_cons, ih (List.pairwise_cons.1 hs).2]
  | swap x y l =>
    have h1 := (List.pairwise_cons.1 hs).1 x (by simp)
    rw [List.find?_cons, List.find?_cons, List.find?_cons, List.find?_cons]
    cases hx : f x <;> cases hy : f y <;> simp_all
  | trans h1 _ ih1 ih2 =>
    rw [ih1 hs, ih2 (h1.pairwise hs (fun {a b} => hsym a b))]

theorem contains_iff_inCell (c : Cell) (x : Point) : c.contains x = true ↔ InCell c x := by
  simp [Cell.contains, InCell]

theorem findCell_reordered {w w' : World} (h : ReorderedWorld w w') (hs : Separate w) :
    w.findCellContaining = w'.findCellContaining := by
  funext x
  unfold World.findCellContaining
  rw [find_perm h.cells (hs.imp fun {a b} h1 h2 =>
    h1 ⟨x, (contains_iff_inCell _ _).1 h2.1, (contains_iff_inCell _ _).1 h2.2⟩)]

theorem transport_reordered {w w' : World} (h : w.findCellContaining = w'.findCellContaining)
    (method : Method) (fuel : ℕ) : transport method fuel w = transport method fuel w' := by
  have hl : ∀ p : Particle, p.locate w = p.locate w' := by
    intro p; unfold Particle.locate; rw [h]
  have hcross : crossSurface method w = crossSurface method w' := by
    funext p s d
    unfold crossSurface
    simp only [hl]
  have hstep : transportStep method fuel w = transportStep method fuel w' := by
    funext p
    cases method with
    | surfaceTracking =>
      simp only [transportStep]
      unfold surfaceStep
      rw [hcross]
    | cellDeltaTracking =>
      simp only [transportStep]
      unfold deltaStep
      rw [hcross]
  have hloop : ∀ n p, transportLoop method fuel w n p = transportLoop method fuel w' n p := by
    intro n
    induction n with
    | zero => intro p; rfl
    | succ n ih =>
      intro p
      unfold transportLoop
      rw [hstep]
      simp only [ih]
  funext p
  unfold transport
  simp only [hl, hloop]

theorem history_reordered {P : Problem} {w' : World}
    (h : P.world.findCellContaining = w'.findCellContaining) (fuel : ℕ) :
    P.history fuel = ({ P with world := w' } : Problem).history fuel := by
  funext e
  unfold Problem.history
  simp only [transport_reordered h]

theorem named_reordered {α : Type} {nm : α → String} {l l' : List α} (h : l.Perm l')
    (hn : (l.map nm).Nodup) (x : String) :
    l.find? (fun a => nm a == x) = l'.find? (fun a => nm a == x) := by
  refine find_perm h ?_
  rw [List.Nodup, List.pairwise_map] at hn
  refine hn.imp fun {a b} hab h1 => hab ?_
  have := beq_iff_eq.1 h1.1
  rw [this, beq_iff_eq.1 h1.2]

theorem surfaces_nodup {doc : Document} {sa na : ℕ → ℕ} {w : World}
    (h : WorldBuild.create doc sa na = .ok w) : (w.surfaces.map SurfaceObj.name).Nodup :=
  nodup_of_eraseDups (Props.C48_surfaces h).1

theorem nuclides_nodup {doc : Document} {sa na : ℕ → ℕ} {w : World}
    (h : WorldBuild.create doc sa na = .ok w) : (w.nuclides.map Nuclide.name).Nodup := by
  obtain ⟨xs, -, h1, -⟩ := Props.C48_nuclides h
  exact nodup_of_eraseDups h1

theorem findSurface_reordered {doc : Document} {sa na : ℕ → ℕ} {w w' : World}
    (hc : WorldBuild.create doc sa na = .ok w) (h : ReorderedWorld w w') :
    w.findSurfaceByName = w'.findSurfaceByName := by
  funext x
  unfold World.findSurfaceByName
  rw [named_reordered h.surfaces (surfaces_nodup hc)]

theorem findNuclide_reordered {doc : Document} {sa na : ℕ → ℕ} {w w' : World}
    (hc : WorldBuild.create doc sa na = .ok w) (h : ReorderedWorld w w') :
    w.findNuclideByName = w'.findNuclideByName := by
  funext x
  unfold World.findNuclideByName
  rw [named_reordered h.nuclides (nuclides_nodup hc)]

theorem createPerturbations_reordered {w w' : World}
    (h : w.findNuclideByName = w'.findNuclideByName) :
    createPerturbations w = createPerturbations w' := by
  have h1 : createPerturbation w = createPerturbation w' := by
    funext i n
    unfold createPerturbation
    rw [h]
  funext ids ns
  induction ids generalizing ns with
  | nil => cases ns <;> rfl
  | cons i ids ih =>
    cases ns with
    | nil => rfl
    | cons n ns =>
      unfold createPerturbations
      rw [h1, ih]

theorem createEstimatorSet_reordered {w w' : World}
    (h : w.findSurfaceByName = w'.findSurfaceByName) :
    createEstimatorSet w = createEstimatorSet w' := by
  have h1 : createEstimator w = createEstimator w' := by
    funext qs n
    unfold createEstimator
    rw [h]
  funext qs ns t
  unfold createEstimatorSet
  rw [h1]

theorem createMethod_reordered {w w' : World} (h : ReorderedWorld w w') (t : TrackingType) :
    createMethod t w = createMethod t w' := by
  unfold createMethod World.hasConstantTemperature
  rw [h.temperature]

theorem mapM_perm {α β : Type} {f : α → Res β} {l l' : List α} (h : l.Perm l') {r : List β}
    (hr : l.mapM f = .ok r) : ∃ r', l'.mapM f = .ok r' ∧ r.Perm r' := by
  have hok : ∀ {l : List α} {r : List β}, List.Forall₂ (fun a b => f a = .ok b) l r →
      l.mapM f = .ok r := by
    intro l r h
    induction h with
    | nil => rfl
    | cons h1 _ ih => rw [List.mapM_cons, h1, ih]; rfl
  have h1 := mapM_forall₂ hr
  obtain ⟨r', h2, h3⟩ := List.perm_comp_forall₂ h.symm h1
  exact ⟨r', hok h2, h3.symm⟩

theorem upToOrder_map {α β : Type} {R : α → α → Prop} {S : β → β → Prop} {f : α → β}
    (hf : ∀ a b, R a b → S (f a) (f b)) {l l' : List α} (h : UpToOrder R l l') :
    UpToOrder S (l.map f) (l'.map f) := by
  obtain ⟨m, h1, h2⟩ := h
  refine ⟨m.map f, h1.map f, ?_⟩
  rw [List.forall₂_map_left_iff, List.forall₂_map_right_iff]
  exact h2.imp hf

section
variable {env : Env} {root root' : Xml}

/-- The nuclides of a valid document, below the kind of data. -/
theorem order_nuclides (hv : Valid env root) (hv' : Valid env root') (he : OnlyOrder root root') :
    SameElement (root.child "nuclides").firstChild (root'.child "nuclides").firstChild ∧
      groupCount root = groupCount root' := by
  obtain ⟨k, hk, -⟩ := hv.nuclides.1
  obtain ⟨k', hk', -⟩ := hv'.nuclides.1
  have h := he.nuclides _ _ k k' ((allOf_child_iff hv.elements (by simp) _).2 rfl)
    ((allOf_child_iff hv'.elements (by simp) _).2 rfl) hk hk'
  have h1 : (root.child "nuclides").firstChild = k := by rw [firstChild, hk]; rfl
  have h1' : (root'.child "nuclides").firstChild = k' := by rw [firstChild, hk']; rfl
  refine ⟨by rw [h1, h1']; exact h, ?_⟩
  unfold groupCount
  have h2 : ((root.child "nuclides").child "multigroup").attrString "groups" =
      ((root'.child "nuclides").child "multigroup").attrString "groups" := by
    generalize root.child "nuclides" = a at hk ⊢
    generalize root'.child "nuclides" = a' at hk' ⊢
    unfold Xml.child
    rw [hk, hk', List.find?_singleton, List.find?_singleton, h.name]
    split
    · simp only [Option.getD_some, attrString, attr, h.attrs]
    · rfl
  rw [h2]

theorem order_nuclide (hv : Valid env root) (hv' : Valid env root') (he : OnlyOrder root root') :
    nuclide env root = nuclide env root' := by
  obtain ⟨h1, h2⟩ := order_nuclides hv hv' he
  have hinteraction : interaction env root = interaction env root' := by
    funext n d
    unfold interaction multigroup
    rw [h1.name, h2]
  have hfrom : ∀ n ws f, interactionsFrom env root n f ws = interactionsFrom env root' n f ws := by
    intro n ws
    induction ws with
    | nil => intro f; rfl
    | cons w ws ih =>
      intro f
      unfold interactionsFrom
      rw [hinteraction]
      simp only [ih]
  funext n
  unfold nuclide interactions
  rw [hfrom, child_congr hv.elements.2.1 hv'.elements.2.1 (by simp)
    (he.sections "general" (by simp) (by simp) (by simp) (by simp))]

theorem order_source (hv : Valid env root) (hv' : Valid env root') (he : OnlyOrder root root') :
    source env root = source env root' := by
  obtain ⟨h1, -⟩ := order_nuclides hv hv' he
  funext n
  unfold source energyDist
  rw [h1.name]

theorem order_document (hv : Valid env root) (hv' : Valid env root') (he : OnlyOrder root root')
    {doc : Document} (hd : document env root = .ok doc) :
    ∃ doc', document env root' = .ok doc' ∧ Reordered doc doc' := by
  have hc : ∀ {root : Xml} {s}, Valid env root → s ∈ ["general", "nuclides", "materials",
      "surfaces", "cells", "problemtype"] → Child root s (root.child s) :=
    fun hv hs => (allOf_child_iff hv.elements hs _).2 rfl
  unfold document at hd
  simp only [res_bind_ok] at hd
  obtain ⟨ss, hss, t, ht, e⟩ := hd
  obtain ⟨ss', hss', hp⟩ := mapM_perm
    (he.surfaces _ _ (hc hv (by simp)) (hc hv' (by simp))) hss
  have ht' : temperature env (root'.child "temperature") = .ok t := by
    rw [← ht, child_congr hv.elements.2.1 hv'.elements.2.1 (by simp)
      (he.sections "temperature" (by simp) (by simp) (by simp) (by simp))]
  cases e
  refine ⟨⟨ss', (root'.child "materials").children.map (material env),
      (root'.child "nuclides").firstChild.children.map (nuclide env root'), t,
      (root'.child "cells").children.map (cell env)⟩, ?_, ?_⟩
  · unfold document
    rw [hss', ht']
    rfl
  · refine ⟨hp, ?_, ?_, rfl, ?_⟩
    · refine upToOrder_map ?_ (he.materials _ _ (hc hv (by simp)) (hc hv' (by simp)))
      intro a b h
      exact ⟨by simp [material, attrString, attr, h.attrs],
        by simp [material, attrReal, attr, h.attrs], h.children.map _⟩
    · dsimp only
      rw [order_nuclide hv hv' he]
      exact (order_nuclides hv hv' he).1.children.map _
    · refine upToOrder_map ?_ (he.cells _ _ (hc hv (by simp)) (hc hv' (by simp)))
      intro a b h
      exact ⟨by simp [cell, h.name], by simp [cell, attr, h.attrs],
        by simp [cell, attrString, attr, h.attrs], by simp [cell, attr, h.attrs],
        h.children.map _⟩

end

end Minimc
