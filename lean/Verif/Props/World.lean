import Verif.Lemmas.WorldParts
import Verif.Props.Material
import Verif.Props.Geometry

/-! # Properties C48 and C39: construction of the world, and where surface tracking is used -/

namespace Minimc

open Spec

namespace Props

open WorldBuild

/-! ## C48 -/

/-- Construction of a world can only fail when a used name is not defined, by raising
`std::runtime_error`, or in the way reading the cross sections of a used nuclide fails. -/
theorem C48_fails_only_if_undefined {doc : Document} (hw : WellFormed doc) {sa na : ℕ → ℕ}
    {e : Err} (h : create doc sa na = .error e) :
    ¬ AllDefined doc ∧ (e = .runtimeError ∨ Unreadable doc e) := by
  rw [create] at h
  simp only [bind, Except.bind] at h
  split at h
  · rename_i e' he
    cases h
    have := createSurfaces_error he
    exact ⟨fun hd => this.2 hd.surfaces, .inl this.1⟩
  rename_i surfaces hs
  split at h
  · rename_i e' he
    cases h
    obtain ⟨c, hc, hv, h⟩ := addCellNuclides_error doc na _ _ _ he
    rcases h with ⟨h1, h2⟩ | ⟨m, hm, x, hx, ⟨h1, h2⟩ | ⟨n, hn, h2⟩⟩
    · exact ⟨fun hd => h2 ((hd.materials c hc hv).imp fun _ h => h.1), .inl h1⟩
    · refine ⟨fun hd => ?_, .inl h1⟩
      obtain ⟨m', hm', hall⟩ := hd.materials c hc hv
      cases firstNamed_unique hm hm'
      exact h2 ((hall x hx).imp fun _ h => h.1)
    · refine ⟨fun hd => ?_, .inr ⟨c, hc, hv, m, hm, x, hx, n, hn, h2⟩⟩
      obtain ⟨m', hm', hall⟩ := hd.materials c hc hv
      cases firstNamed_unique hm hm'
      obtain ⟨n', hn', xs, hxs⟩ := hall x hx
      cases firstNamed_unique hn hn'
      rw [hxs] at h2
      cases h2
  rename_i nuclides hnu
  exfalso
  obtain ⟨xs, hxs, hnames, -⟩ := createNuclides_spec hnu
  have hmem : ∀ x, x ∈ usedMaterials doc → ∃ m, createMaterial doc nuclides x = .ok m := by
    intro x hx
    obtain ⟨node, hnode, hall⟩ := mem_usedNuclides hxs x hx
    obtain ⟨m, hm⟩ := (Material.create_exists (name := x) (all := nuclides)
      (nodes := node.nuclides) (aden := node.aden)
      (hw.afracs node (firstNamed_mem hnode))).2 (by
        intro n hn
        rw [hnames]
        exact mem_eraseDups.2 (hall n hn))
    exact ⟨m, createMaterial_ok.2 ⟨node, hnode, hm⟩⟩
  split at h
  · rename_i e' he
    cases h
    rw [addMaterials_eq] at he
    obtain ⟨x, hx, i, hi⟩ := intern_error _ _ _ he
    obtain ⟨m, hm⟩ := hmem x hx
    rw [hm] at hi
    cases hi
  rename_i materials hma
  obtain ⟨hmn, -⟩ := materials_spec hma
  obtain ⟨hsn, -⟩ := createSurfaces_spec hs
  split at h
  · rename_i e' he
    obtain ⟨c, hc, e'', hce⟩ := createCells_error he
    refine createCell_error hce ⟨?_, ?_⟩
    · intro s hs'
      refine ⟨?_, hw.senses c hc s hs'⟩
      rw [hsn, mem_eraseDups, usedSurfaces, List.mem_flatten]
      exact ⟨_, List.mem_map.2 ⟨c, hc, rfl⟩, List.mem_map.2 ⟨s, hs', rfl⟩⟩
    · intro hname
      rw [hmn, mem_eraseDups, usedMaterials]
      refine List.mem_map.2 ⟨c, List.mem_filter.2 ⟨hc, ?_⟩, rfl⟩
      rcases hv : c.isVoid with _ | _
      · rfl
      · exact absurd ((hw.names c hc).1 hv) hname
  · cases h

/-- A world is built exactly when every used name is defined and the used nuclides can be read.
If all nuclides can be read, `std::runtime_error` is raised exactly when a used name is not
defined. -/
theorem C48_built_iff {doc : Document} (hw : WellFormed doc) (sa na : ℕ → ℕ) :
    ((∃ w, create doc sa na = .ok w) ↔ AllDefined doc) ∧
    ((∀ n ∈ doc.nuclides, ∃ xs, n.xs = .ok xs) →
      (create doc sa na = .error .runtimeError ↔ ¬ AllDefined doc)) := by
  have key : (∃ w, create doc sa na = .ok w) → AllDefined doc := by
    rintro ⟨w, h⟩
    rw [create] at h
    simp only [bind, Except.bind] at h
    split at h
    · cases h
    rename_i surfaces hs
    split at h
    · cases h
    rename_i nuclides hn
    obtain ⟨hsn, hsd⟩ := createSurfaces_spec hs
    obtain ⟨xs, hxs, hnn, hnd⟩ := createNuclides_spec hn
    refine ⟨?_, ?_⟩
    · intro c hc s hs'
      have hmem : s.1 ∈ surfaces.map SurfaceObj.name := by
        rw [hsn, mem_eraseDups, usedSurfaces, List.mem_flatten]
        exact ⟨_, List.mem_map.2 ⟨c, hc, rfl⟩, List.mem_map.2 ⟨s, hs', rfl⟩⟩
      obtain ⟨o, ho, hos⟩ := List.mem_map.1 hmem
      obtain ⟨i, hi, rfl⟩ := List.getElem_of_mem ho
      obtain ⟨n, hn, -⟩ := hsd i hi
      exact ⟨n, firstNamed_mem hn, (firstNamed_name hn).trans hos⟩
    · intro c hc hv
      obtain ⟨node, hnode, hall⟩ := mem_usedNuclides hxs c.material (by
        rw [usedMaterials]
        exact List.mem_map.2 ⟨c, List.mem_filter.2 ⟨hc, by simp [hv]⟩, rfl⟩)
      refine ⟨node, hnode, fun x hx => ?_⟩
      have hmem : x.1 ∈ nuclides.map Nuclide.name := by
        rw [hnn, mem_eraseDups]; exact hall x hx
      obtain ⟨o, ho, hos⟩ := List.mem_map.1 hmem
      obtain ⟨i, hi, rfl⟩ := List.getElem_of_mem ho
      obtain ⟨n, hn, hxs, -⟩ := hnd i hi
      rw [hos] at hn
      exact ⟨n, hn, _, hxs⟩
  rcases h : create doc sa na with e | w
  · obtain ⟨hd, he⟩ := C48_fails_only_if_undefined hw h
    refine ⟨by simp [hd], fun hall => ?_⟩
    rcases he with rfl | ⟨c, -, -, m, -, x, -, n, hn, hx⟩
    · simp [hd]
    · obtain ⟨xs, hxs⟩ := hall n (firstNamed_mem hn)
      rw [hxs] at hx
      cases hx
  · have := key ⟨w, h⟩
    simp [this]

/-- The surfaces of the world are the used ones, each once, in order of first use, with the
shape of their definition. -/
theorem C48_surfaces {doc : Document} {sa na : ℕ → ℕ} {w : World}
    (h : create doc sa na = .ok w) :
    w.surfaces.map SurfaceObj.name = (usedSurfaces doc).eraseDups ∧
    ∀ s ∈ w.surfaces, ∃ n, FirstNamed SurfaceNode.name doc.surfaces s.name n ∧
      s.shape = n.shape := by
  obtain ⟨hs, hn, hm, ht, hc⟩ := create_ok h
  obtain ⟨hsn, hsd⟩ := createSurfaces_spec hs
  refine ⟨hsn, fun s hs' => ?_⟩
  obtain ⟨i, hi, rfl⟩ := List.getElem_of_mem hs'
  obtain ⟨n, hn, e⟩ := hsd i hi
  exact ⟨n, hn, by rw [e]⟩

/-- The nuclides of the world are those of the used materials, each once, in order of first use,
with the data of their definition. -/
theorem C48_nuclides {doc : Document} {sa na : ℕ → ℕ} {w : World}
    (h : create doc sa na = .ok w) :
    ∃ xs, UsedNuclides doc (usedMaterials doc) xs ∧ w.nuclides.map Nuclide.name = xs.eraseDups ∧
    ∀ n ∈ w.nuclides, ∃ node, FirstNamed NuclideNode.name doc.nuclides n.name node ∧
      node.xs = .ok n.xs := by
  obtain ⟨hs, hn, hm, ht, hc⟩ := create_ok h
  obtain ⟨xs, hxs, hnn, hnd⟩ := createNuclides_spec hn
  refine ⟨xs, hxs, hnn, fun n hn' => ?_⟩
  obtain ⟨i, hi, rfl⟩ := List.getElem_of_mem hn'
  obtain ⟨node, h1, h2, -⟩ := hnd i hi
  exact ⟨node, h1, h2⟩

theorem ids_nodup {α : Type} {idOf : α → ℕ} {addr : ℕ → ℕ} (hinj : Function.Injective addr)
    {r : List α} (h : ∀ i (hi : i < r.length), idOf r[i] = addr i) : (r.map idOf).Nodup := by
  rw [List.nodup_iff_injective_getElem]
  intro i j hij
  have hi : (i : ℕ) < r.length := by simpa using i.2
  have hj : (j : ℕ) < r.length := by simpa using j.2
  simp only [List.getElem_map] at hij
  rw [h _ hi, h _ hj] at hij
  exact Fin.ext (hinj hij)

/-- The materials of the world are the used ones, each once, in order of first use, with the
composition of their definition made of the nuclides of the world. -/
theorem C48_materials {doc : Document} (hw : WellFormed doc) {sa na : ℕ → ℕ}
    (hna : Function.Injective na) {w : World} (h : create doc sa na = .ok w) :
    w.materials.map Material.name = (usedMaterials doc).eraseDups ∧
    ∀ m ∈ w.materials, ∃ node, FirstNamed MaterialNode.name doc.materials m.name node ∧
      Composition w.nuclides node.nuclides m ∧ m.numberDensity = node.aden := by
  obtain ⟨hs, hn, hm, ht, hc⟩ := create_ok h
  obtain ⟨hmn, hmd⟩ := materials_spec hm
  obtain ⟨xs, hxs, hnn, hnd⟩ := createNuclides_spec hn
  refine ⟨hmn, fun m hm' => ?_⟩
  obtain ⟨node, hnode, hc⟩ := hmd m hm'
  have hids : (w.nuclides.map Nuclide.id).Nodup := ids_nodup hna fun i hi => by
    obtain ⟨_, _, _, h3, _⟩ := hnd i hi
    exact h3
  obtain ⟨h1, h2, -⟩ := C23_composition (nodup_of_eraseDups hnn) hids
    (hw.afracs node (firstNamed_mem hnode)) hc
  exact ⟨node, hnode, h1, h2⟩

/-- The cells are those of the document, in order; each refers to the shared surface and material
objects of the world and keeps the senses given for its surfaces. -/
theorem C48_cells {doc : Document} (hw : WellFormed doc) {sa na : ℕ → ℕ}
    (hsa : Function.Injective sa) {w : World} (h : create doc sa na = .ok w) :
    List.Forall₂ (CellOf w.surfaces w.materials w.temperature) doc.cells w.cells ∧
    (w.surfaces.map SurfaceObj.name).Nodup ∧ (w.surfaces.map SurfaceObj.id).Nodup ∧
    w.temperature = doc.temperature.getD (.constant 293.6) := by
  obtain ⟨hs, hn, hm, ht, hc⟩ := create_ok h
  obtain ⟨hsn, hsd⟩ := createSurfaces_spec hs
  have hids : (w.surfaces.map SurfaceObj.id).Nodup := ids_nodup hsa fun i hi => by
    obtain ⟨n, _, e⟩ := hsd i hi
    rw [e]
  have hnd := nodup_of_eraseDups hsn
  refine ⟨?_, hnd, hids, ?_⟩
  · rw [ht]
    rw [createCells, noexcept_eq_ok] at hc
    have hf := mapM_forall₂ hc
    rw [List.forall₂_iff_get] at hf ⊢
    refine ⟨hf.1, fun i h1 h2 => ?_⟩
    exact createCell_spec hnd hids (hw.names _ (List.get_mem _ _)) (hf.2 i h1 h2)
  · rw [ht, createTemperature]
    rcases doc.temperature with _ | f
    · rfl
    · rfl

/-- A document used in the instances: two cells sharing the plane "mid", one filled with "m". -/
noncomputable def exampleDoc : Document where
  surfaces := [⟨"right", .planeX 2⟩, ⟨"left", .planeX 0⟩, ⟨"unused", .planeX 9⟩, ⟨"mid", .planeX 1⟩]
  materials := [⟨"m", 0.5, [("n", 1)]⟩]
  nuclides := [⟨"n", .ok (absorber 0 "n" 2).xs⟩]
  temperature := none
  cells := [⟨false, some "A", "m", some 300, [("left", .plus), ("mid", .minus)]⟩,
    ⟨true, none, "", none, [("mid", .plus), ("right", .minus)]⟩]

theorem exampleDoc_wellFormed : WellFormed exampleDoc where
  senses := by
    simp only [exampleDoc, List.mem_cons, List.not_mem_nil, or_false]
    rintro c (rfl | rfl) s hs <;> simp only [List.mem_cons, List.not_mem_nil, or_false] at hs <;>
      rcases hs with rfl | rfl <;> simp
  names := by simp [exampleDoc]
  afracs := by simp [exampleDoc]

theorem exampleDoc_defined : AllDefined exampleDoc where
  surfaces := by
    simp only [exampleDoc, List.mem_cons, List.not_mem_nil, or_false]
    rintro c (rfl | rfl) s hs <;> simp only [List.mem_cons, List.not_mem_nil, or_false] at hs <;>
      rcases hs with rfl | rfl <;> simp
  materials := by
    intro c hc hv
    simp only [exampleDoc, List.mem_cons, List.not_mem_nil, or_false] at hc
    rcases hc with rfl | rfl
    · refine ⟨⟨"m", 0.5, [("n", 1)]⟩, ⟨[], [], rfl, rfl, by simp⟩, ?_⟩
      simp only [List.mem_singleton, forall_eq]
      exact ⟨_, ⟨[], [], rfl, rfl, by simp⟩, _, rfl⟩
    · cases hv

/-- Instance: the example is well formed and complete, and its world has the three used surfaces
in order of first use. -/
example : WellFormed exampleDoc ∧ AllDefined exampleDoc ∧
    (usedSurfaces exampleDoc).eraseDups = ["left", "mid", "right"] := by
  exact ⟨exampleDoc_wellFormed, exampleDoc_defined, by decide⟩

/-! ## C39 -/

/-- Creating the surface tracking method, asked for or by default, raises exactly when the global
temperature field is not the same everywhere; it is never created otherwise. -/
theorem C39_created_iff (w : World) (t : TrackingType) (ht : t = .absent ∨ t = .surface) :
    (createMethod t w = .error .runtimeError ↔
      ∃ p q : Point, w.temperature.at' p ≠ w.temperature.at' q) ∧
    (createMethod t w = .ok .surfaceTracking ↔
      ∀ p q : Point, w.temperature.at' p = w.temperature.at' q) := by
  have hiff := C38_constant_iff w.temperature
  have e : createMethod t w = if w.hasConstantTemperature = true then .ok .surfaceTracking
      else .error .runtimeError := by
    rcases ht with rfl | rfl <;> rfl
  rw [e, World.hasConstantTemperature]
  by_cases h : w.temperature.isConstant = true
  · rw [if_pos h]
    have := hiff.1 h
    refine ⟨⟨fun hh => (by cases hh), fun ⟨p, q, hpq⟩ => absurd (this p q) hpq⟩,
      ⟨fun _ => this, fun _ => rfl⟩⟩
  · rw [if_neg h]
    have : ¬ ∀ p q : Point, w.temperature.at' p = w.temperature.at' q := fun hh => h (hiff.2 hh)
    refine ⟨⟨fun _ => ?_, fun _ => rfl⟩, ⟨fun hh => (by cases hh), fun hh => absurd hh this⟩⟩
    push Not at this
    exact this

/-- Delta tracking is created for every field; no other word gives surface tracking. -/
theorem C39_other_methods (w : World) :
    createMethod .cellDelta w = .ok .cellDeltaTracking ∧
    createMethod .other w = .error .assertFail := ⟨rfl, rfl⟩

/-- In a world built from a document and tracked by surfaces, every cell has the same temperature
at all points. -/
theorem C39_cells_constant {doc : Document} (hw : WellFormed doc) {sa na : ℕ → ℕ}
    (hsa : Function.Injective sa) {w : World} (h : create doc sa na = .ok w) {t : TrackingType}
    (hm : createMethod t w = .ok .surfaceTracking) {c : Cell} (hc : c ∈ w.cells) (p q : Point) :
    c.temperature.at' p = c.temperature.at' q := by
  have ht : t = .absent ∨ t = .surface := by
    cases t
    · exact .inl rfl
    · exact .inr rfl
    · cases hm
    · cases hm
  have hconst := ((C39_created_iff w t ht).2).1 hm
  obtain ⟨hf, -⟩ := C48_cells hw hsa h
  rw [List.forall₂_iff_get] at hf
  obtain ⟨i, hi, rfl⟩ := List.getElem_of_mem hc
  have := (hf.2 i (hf.1 ▸ hi) hi).temperature
  simp only [List.get_eq_getElem] at this
  rw [this]
  split
  · rfl
  · exact hconst p q

/-- Then the cross section of any material is the same all along a flight inside the cell. -/
theorem C39_cross_section_constant {doc : Document} (hw : WellFormed doc) {sa na : ℕ → ℕ}
    (hsa : Function.Injective sa) {w : World} (h : create doc sa na = .ok w) {t : TrackingType}
    (hm : createMethod t w = .ok .surfaceTracking) {c : Cell} (hc : c ∈ w.cells) (m : Material)
    (p : Particle) (hp : p.cell = some c) (x : ℝ) :
    m.getMicroscopicTotal { p with position := along p.position p.direction x } =
      m.getMicroscopicTotal p := by
  refine m.getMicroscopicTotal_congr rfl rfl ?_
  simp only [Particle.temperatureAt, Particle.getCell, hp]
  simp only [bind, Except.bind]
  rw [C39_cells_constant hw hsa h hm hc _ p.position]

/-- Instance: the example document gives a world whose default method is surface tracking. -/
example : ∃ w, create exampleDoc (fun n => n) (fun n => n) = .ok w ∧
    createMethod .absent w = .ok .surfaceTracking ∧ w.cells.length = 2 := by
  obtain ⟨w, hw⟩ := (C48_built_iff exampleDoc_wellFormed (fun n => n) (fun n => n)).1.2 exampleDoc_defined
  obtain ⟨h1, -, -, h4⟩ := C48_cells exampleDoc_wellFormed (fun a b h => h) hw
  refine ⟨w, hw, ?_, ?_⟩
  · rw [(C39_created_iff w .absent (.inl rfl)).2, h4]
    intro p q; rfl
  · rw [← h1.length_eq]; rfl

end Props
end Minimc
