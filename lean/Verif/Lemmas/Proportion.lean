import Verif.Spec.Proportion

/-! # Reading proportions -/

namespace Minimc

open Classical Spec Input

/-- A common factor does not change a direction. -/
theorem normalize_scale {k : ℝ} (hk : 0 < k) (x y z : ℝ) :
    Point.normalize ⟨k * x, k * y, k * z⟩ = Point.normalize ⟨x, y, z⟩ := by
  have e : Point.dot ⟨k * x, k * y, k * z⟩ ⟨k * x, k * y, k * z⟩ = k ^ 2 * Point.dot ⟨x, y, z⟩ ⟨x, y, z⟩ := by
    simp only [Point.dot]
    ring
  unfold Point.normalize
  rw [e]
  by_cases h : Point.dot ⟨x, y, z⟩ ⟨x, y, z⟩ = 0
  · rw [if_pos h, h, mul_zero, if_pos rfl]
  · rw [if_neg h, if_neg (mul_ne_zero (pow_ne_zero 2 hk.ne') h), Real.sqrt_mul (sq_nonneg k),
      Real.sqrt_sq hk.le]
    simp only [Point.sdiv]
    rw [mul_div_mul_left _ _ hk.ne', mul_div_mul_left _ _ hk.ne', mul_div_mul_left _ _ hk.ne']

variable {env : Env}

theorem sameWay_normalize {x y z : String} {n n' : Xml} (h : SameWay env x y z n n') :
    Point.normalize ⟨attrReal env n' x, attrReal env n' y, attrReal env n' z⟩ =
      Point.normalize ⟨attrReal env n x, attrReal env n y, attrReal env n z⟩ := by
  obtain ⟨k, hk, h1, h2, h3⟩ := h
  rw [h1, h2, h3, normalize_scale hk]

/-! ### Fractions -/

theorem emplace_scale {κ : Type} (addr : κ → ℕ) (k : ℝ) (x : κ) (v : ℝ) (m : List (κ × ℝ)) :
    emplaceByAddr addr x (k * v) (m.map fun e => (e.1, k * e.2)) =
      (emplaceByAddr addr x v m).map fun e => (e.1, k * e.2) := by
  induction m with
  | nil => rfl
  | cons e m ih =>
    simp only [List.map_cons, emplaceByAddr]
    split_ifs
    · rfl
    · rfl
    · rw [ih]
      rfl

theorem collect_scale (all : List Nuclide) (k : ℝ) (m : List (Nuclide × ℝ)) (nodes : List (String × ℝ)) :
    Material.collect all (m.map fun e => (e.1, k * e.2)) (nodes.map fun e => (e.1, k * e.2)) =
      (Material.collect all m nodes).map fun l => l.map fun e => (e.1, k * e.2) := by
  induction nodes generalizing m with
  | nil => rfl
  | cons e nodes ih =>
    simp only [List.map_cons, Material.collect]
    cases all.find? fun n => n.name == e.1 with
    | none => rfl
    | some n =>
      dsimp only
      rw [emplace_scale, ih]

theorem sumAfrac_scale (k : ℝ) (m : List (Nuclide × ℝ)) :
    Material.sumAfrac (m.map fun e => (e.1, k * e.2)) = k * Material.sumAfrac m := by
  unfold Material.sumAfrac
  have key : ∀ (m : List (Nuclide × ℝ)) (a : ℝ), (m.map fun e => (e.1, k * e.2)).foldl
      (fun acc e => acc + e.2) (k * a) = k * m.foldl (fun acc e => acc + e.2) a := by
    intro m
    induction m with
    | nil => intro a; rfl
    | cons e m ih =>
      intro a
      simp only [List.map_cons, List.foldl_cons]
      rw [← mul_add, ih]
  have := key m 0
  rwa [mul_zero] at this

/-- Only the proportions of fractions count. -/
theorem assignNuclides_scale (all : List Nuclide) {k : ℝ} (hk : 0 < k) (nodes : List (String × ℝ)) :
    Material.assignNuclides all (nodes.map fun e => (e.1, k * e.2)) = Material.assignNuclides all nodes := by
  unfold Material.assignNuclides
  have e := collect_scale all k [] nodes
  rw [List.map_nil] at e
  rw [e]
  cases Material.collect all [] nodes with
  | error x => rfl
  | ok m =>
    simp only [bind, Except.bind, Except.map]
    rw [sumAfrac_scale]
    have h1 : k * Material.sumAfrac m = 0 ↔ Material.sumAfrac m = 0 := by simp [hk.ne']
    have h2 : (m.map fun e => (e.1, k * e.2)) ≠ [] ↔ m ≠ [] := by simp
    simp only [h1, h2]
    split_ifs
    · rfl
    · congr 1
      rw [List.map_map]
      refine List.map_congr_left fun e _ => ?_
      simp only [Function.comp]
      rw [mul_div_mul_left _ _ hk.ne']

/-! ### Worlds -/

/-- What is read of two `material` elements. -/
def ScaledNode (n n' : MaterialNode) : Prop :=
  n'.name = n.name ∧ n'.aden = n.aden ∧ ∃ k : ℝ, 0 < k ∧ n'.nuclides = n.nuclides.map fun e => (e.1, k * e.2)

theorem scaledNode_of {n n' : Xml} (h : SameProportions env n n') :
    ScaledNode (material env n) (material env n') := by
  obtain ⟨h1, h2, k, hk, h3⟩ := h
  refine ⟨h1, h2, k, hk, ?_⟩
  simp only [material]
  rw [List.map_map]
  generalize n.children = l at h3
  generalize n'.children = l' at h3
  induction h3 with
  | nil => rfl
  | cons h _ ih =>
    simp only [List.map_cons, Function.comp]
    rw [ih, h.1, h.2]

theorem find_scaled {l l' : List MaterialNode} (h : List.Forall₂ ScaledNode l l') (name : String) :
    (l.find? (fun n => n.name == name) = none ∧ l'.find? (fun n => n.name == name) = none) ∨
      ∃ n n', l.find? (fun n => n.name == name) = some n ∧ l'.find? (fun n => n.name == name) = some n' ∧
        ScaledNode n n' := by
  induction h with
  | nil => exact .inl ⟨rfl, rfl⟩
  | @cons a b l l' hab _ ih =>
    simp only [List.find?_cons]
    rw [hab.1]
    cases a.name == name with
    | true => exact .inr ⟨a, b, rfl, rfl, hab⟩
    | false => exact ih

theorem create_scaled {doc : Document} {ms : List MaterialNode} (h : List.Forall₂ ScaledNode doc.materials ms)
    (sa na : ℕ → ℕ) : WorldBuild.create { doc with materials := ms } sa na = WorldBuild.create doc sa na := by
  have hs : ∀ names all, WorldBuild.addSurfaces { doc with materials := ms } sa all names =
      WorldBuild.addSurfaces doc sa all names := by
    intro names
    induction names with
    | nil => intro all; rfl
    | cons x names ih =>
      intro all
      simp only [WorldBuild.addSurfaces, ih]
      rfl
  have hn : ∀ names all, WorldBuild.addNuclides { doc with materials := ms } na all names =
      WorldBuild.addNuclides doc na all names := by
    intro names
    induction names with
    | nil => intro all; rfl
    | cons x names ih =>
      intro all
      simp only [WorldBuild.addNuclides, ih]
      rfl
  have hc : ∀ cells all, WorldBuild.addCellNuclides { doc with materials := ms } na all cells =
      WorldBuild.addCellNuclides doc na all cells := by
    intro cells
    induction cells with
    | nil => intro all; rfl
    | cons c cells ih =>
      intro all
      simp only [WorldBuild.addCellNuclides, ih, hn, WorldBuild.findMaterialNode]
      rcases find_scaled h c.material with ⟨h1, h2⟩ | ⟨n, n', h1, h2, -, -, k, -, h3⟩
      · rw [h1, h2]
      · rw [h1, h2]
        simp only [bind, Except.bind]
        rw [h3, List.map_map]
        rfl
  have hm : ∀ nuclides cells all, WorldBuild.addMaterials { doc with materials := ms } nuclides all cells =
      WorldBuild.addMaterials doc nuclides all cells := by
    intro nuclides cells
    induction cells with
    | nil => intro all; rfl
    | cons c cells ih =>
      intro all
      simp only [WorldBuild.addMaterials, ih, WorldBuild.createMaterial, WorldBuild.findMaterialNode]
      rcases find_scaled h c.material with ⟨h1, h2⟩ | ⟨n, n', h1, h2, -, h4, k, hk, h3⟩
      · rw [h1, h2]
      · rw [h1, h2]
        simp only [bind, Except.bind, Material.create]
        rw [h3, h4, assignNuclides_scale _ hk]
  unfold WorldBuild.create WorldBuild.createSurfaces WorldBuild.createNuclides
  simp only [hs, hc, hm]
  rfl

/-! ### Documents -/

theorem scaled_source {root root' n n' : Xml} (hr : root'.child "nuclides" = root.child "nuclides")
    (h : SameSource env n n') : source env root' n' = source env root n := by
  unfold source energyDist directionDist direction point
  rw [hr, h.others "position" (by simp), h.others "energy" (by simp), h.others "particletype" (by simp), h.kind,
    sameWay_normalize h.way]

theorem scaled_estimator {n n' : Xml} (h : SameCosines env n n') : estimator env n' = estimator env n := by
  have hbins : particleBins env (n'.child "bins") = particleBins env (n.child "bins") := by
    unfold particleBins cosineDirection Direction.ofXYZ
    rw [h.present, h.cosines, h.bins "energy" (by simp), sameWay_normalize h.way]
  unfold estimator
  rw [hbins, h.kind, h.others "sensitivities" (by simp)]
  simp only [Xml.attrString, Xml.attr, h.attrs]

theorem scaled_driver {root root' : Xml} (h : OnlyProportions env root root') (addr : Addresses)
    (src : Res Source) : driver env addr root' src = driver env addr root src := by
  have hg := h.sections "general" (by simp) (by simp) (by simp)
  have hN := h.sections "nuclides" (by simp) (by simp) (by simp)
  have hnuc : nuclide env root' = nuclide env root := by
    have hinteraction : interaction env root' = interaction env root := by
      funext n d
      unfold interaction multigroup groupCount
      rw [hN]
    have hfrom : ∀ n ws f, interactionsFrom env root' n f ws = interactionsFrom env root n f ws := by
      intro n ws
      induction ws with
      | nil => intro f; rfl
      | cons w ws ih =>
        intro f
        unfold interactionsFrom
        rw [hinteraction]
        simp only [ih]
    funext n
    unfold nuclide interactions
    rw [hfrom, hg]
  have hest : (root'.child "estimators").children.map (estimator env) =
      (root.child "estimators").children.map (estimator env) := by
    have key : ∀ {l l' : List Xml}, List.Forall₂ (SameCosines env) l l' →
        l'.map (estimator env) = l.map (estimator env) := by
      intro l l' hl
      induction hl with
      | nil => rfl
      | cons ha _ ih => rw [List.map_cons, List.map_cons, ih, scaled_estimator ha]
    exact key h.estimators
  have hmat : List.Forall₂ ScaledNode ((root.child "materials").children.map (material env))
      ((root'.child "materials").children.map (material env)) := by
    have key : ∀ {l l' : List Xml}, List.Forall₂ (SameProportions env) l l' →
        List.Forall₂ ScaledNode (l.map (material env)) (l'.map (material env)) := by
      intro l l' hl
      induction hl with
      | nil => exact .nil
      | cons ha _ ih => exact .cons (scaledNode_of ha) ih
    exact key h.materials
  unfold driver document
  rw [hg, hN, hnuc, hest, h.sections "surfaces" (by simp) (by simp) (by simp),
    h.sections "cells" (by simp) (by simp) (by simp), h.sections "temperature" (by simp) (by simp) (by simp),
    h.sections "perturbations" (by simp) (by simp) (by simp)]
  cases (root.child "surfaces").children.mapM (surface env) with
  | error e => rfl
  | ok ss =>
    cases temperature env (root.child "temperature") with
    | error e => rfl
    | ok t =>
      simp only [bind, Except.bind]
      have := create_scaled (doc := ⟨ss, (root.child "materials").children.map (material env),
        (root.child "nuclides").firstChild.children.map (nuclide env root), t,
        (root.child "cells").children.map (cell env)⟩) hmat addr.surface addr.nuclide
      dsimp only at this
      rw [this]

theorem scaled_createDriver {root root' : Xml} (h : OnlyProportions env root root') (addr : Addresses) :
    createDriver env addr root' = createDriver env addr root := by
  have hN := h.sections "nuclides" (by simp) (by simp) (by simp)
  unfold createDriver fixedSource keigenvalue
  simp only [Xml.attrString, Xml.attr]
  rw [h.kind, h.cycles, scaled_source hN h.fixed, scaled_source hN h.eigen, scaled_driver h, scaled_driver h]

end Minimc
