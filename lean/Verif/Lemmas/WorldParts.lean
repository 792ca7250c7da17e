import Verif.Lemmas.WorldBuild
import Verif.Lemmas.Material
import Verif.Lemmas.Multigroup

/-! # Lemmas about the parts of a constructed world -/

namespace Minimc

open Spec

theorem mapM_forall₂ {α β : Type} {f : α → Res β} : ∀ {l : List α} {r : List β},
    l.mapM f = .ok r → List.Forall₂ (fun a b => f a = .ok b) l r
  | [], r, h => by
    simp only [List.mapM_nil, pure, Except.pure, Except.ok.injEq] at h
    subst h; exact .nil
  | a :: l, r, h => by
    rw [List.mapM_cons] at h
    simp only [bind, Except.bind, pure, Except.pure] at h
    split at h
    · cases h
    · rename_i b hb
      split at h
      · cases h
      · rename_i bs hbs
        cases h
        exact .cons hb (mapM_forall₂ hbs)

theorem mapM_error {α β : Type} {f : α → Res β} : ∀ {l : List α} {e : Err},
    l.mapM f = .error e → ∃ a ∈ l, f a = .error e
  | [], e, h => by cases h
  | a :: l, e, h => by
    rw [List.mapM_cons] at h
    simp only [bind, Except.bind, pure, Except.pure] at h
    split at h
    · rename_i e' he
      cases h
      exact ⟨a, List.mem_cons_self, he⟩
    · split at h
      · rename_i e' he
        cases h
        obtain ⟨x, hx, hx'⟩ := mapM_error he
        exact ⟨x, List.mem_cons_of_mem _ hx, hx'⟩
      · cases h

namespace WorldBuild

/-- The value of a valid `sense` attribute. -/
def senseValue : Sense → Option Bool
  | .minus => some true
  | .plus => some false
  | .other => none

theorem assignSurfaceSenses_eq (all : List SurfaceObj) :
    ∀ (nodes : List (String × Sense)) (m : List (SurfaceObj × Bool)),
      assignSurfaceSenses all m nodes =
        resolveLoop SurfaceObj.id SurfaceObj.name senseValue all m nodes
  | [], m => rfl
  | (x, y) :: nodes, m => by
    rw [assignSurfaceSenses, resolveLoop]
    generalize List.find? _ all = o
    rcases o with _ | k
    · rfl
    · rcases y with _ | _ | _
      · exact assignSurfaceSenses_eq all nodes _
      · exact assignSurfaceSenses_eq all nodes _
      · rfl

/-- The surfaces are created exactly for the used names, in order of first use. -/
theorem createSurfaces_spec {doc : Document} {addr : ℕ → ℕ} {r : List SurfaceObj}
    (h : createSurfaces doc addr = .ok r) :
    r.map SurfaceObj.name = (usedSurfaces doc).eraseDups ∧
    ∀ i (hi : i < r.length), ∃ n, FirstNamed SurfaceNode.name doc.surfaces r[i].name n ∧
      r[i] = ⟨addr i, n.name, n.shape⟩ := by
  rw [createSurfaces, addSurfaces_eq] at h
  obtain ⟨new, h1, h2, h3⟩ := intern_ok (by
    intro i x a ha
    obtain ⟨n, hn, rfl⟩ := (createSurface_ok doc (addr i) x a).1 ha
    exact (firstNamed_name hn : n.name = x)) _ _ _ h
  simp only [List.nil_append] at h1
  subst h1
  refine ⟨?_, ?_⟩
  · rw [h2]
    congr 1
    simp only [List.map_nil, List.not_mem_nil, not_false_eq_true, decide_true, List.filter_true]
    rw [usedSurfaces, List.flatMap_def]
  · intro i hi
    have := h3 i hi
    rw [createSurface_ok] at this
    simpa using this

theorem createSurfaces_error {doc : Document} {addr : ℕ → ℕ} {e : Err}
    (h : createSurfaces doc addr = .error e) : e = .runtimeError ∧
      ¬ ∀ c ∈ doc.cells, ∀ s ∈ c.surfaces, ∃ n ∈ doc.surfaces, n.name = s.1 := by
  rw [createSurfaces, addSurfaces_eq] at h
  obtain ⟨x, hx, i, hi⟩ := intern_error _ _ _ h
  have := createSurface_error _ _ _ _ hi
  refine ⟨this.1, fun hall => this.2 ?_⟩
  obtain ⟨c, hc, hx⟩ := List.mem_flatMap.1 hx
  obtain ⟨s, hs, rfl⟩ := List.mem_map.1 hx
  exact hall c hc s hs

theorem createNuclides_spec {doc : Document} {addr : ℕ → ℕ} {r : List Nuclide}
    (h : createNuclides doc addr = .ok r) :
    ∃ xs, UsedNuclides doc (usedMaterials doc) xs ∧ r.map Nuclide.name = xs.eraseDups ∧
    ∀ i (hi : i < r.length), ∃ n, FirstNamed NuclideNode.name doc.nuclides r[i].name n ∧
      n.xs = .ok r[i].xs ∧ r[i].id = addr i ∧ r[i].name = n.name := by
  rw [createNuclides, addCellNuclides_ok] at h
  obtain ⟨xs, hxs, h⟩ := h
  obtain ⟨new, h1, h2, h3⟩ := intern_ok (by
    intro i x a ha
    obtain ⟨n, xs, hn, -, rfl⟩ := (createNuclide_ok doc (addr i) x a).1 ha
    exact (firstNamed_name hn : n.name = x)) _ _ _ h
  simp only [List.nil_append] at h1
  subst h1
  refine ⟨xs, hxs, ?_, ?_⟩
  · rw [h2]
    congr 1
    simp
  · intro i hi
    have := h3 i hi
    rw [createNuclide_ok] at this
    obtain ⟨n, xs, hn, hx, e⟩ := this
    refine ⟨n, hn, ?_, ?_, ?_⟩
    · rw [hx, e]
    · rw [e]; simp
    · rw [e]

theorem createMaterial_ok {doc : Document} {ns : List Nuclide} {x : String} {a : Material} :
    createMaterial doc ns x = .ok a ↔
      ∃ node, FirstNamed MaterialNode.name doc.materials x node ∧
        Material.create x ns node.nuclides node.aden = .ok a := by
  rw [createMaterial]
  simp only [bind, Except.bind, ← findMaterialNode_ok]
  rcases findMaterialNode doc x with e | n <;> simp

theorem materials_spec {doc : Document} {ns : List Nuclide} {r : List Material}
    (h : addMaterials doc ns [] doc.cells = .ok r) :
    r.map Material.name = (usedMaterials doc).eraseDups ∧
    ∀ m ∈ r, ∃ node, FirstNamed MaterialNode.name doc.materials m.name node ∧
      Material.create m.name ns node.nuclides node.aden = .ok m := by
  rw [addMaterials_eq] at h
  obtain ⟨new, h1, h2, h3⟩ := intern_ok (by
    intro i x a ha
    obtain ⟨n, hn, h'⟩ := createMaterial_ok.1 ha
    exact Material.create_name h') _ _ _ h
  simp only [List.nil_append] at h1
  subst h1
  refine ⟨?_, ?_⟩
  · rw [h2]
    congr 1
    simp [usedMaterials]
  · intro m hm
    obtain ⟨i, hi, rfl⟩ := List.getElem_of_mem hm
    exact createMaterial_ok.1 (h3 i hi)

theorem mem_eraseDups_aux : ∀ (n : ℕ) (l : List String), l.length ≤ n →
    l.eraseDups.Nodup ∧ ∀ x, x ∈ l.eraseDups ↔ x ∈ l
  | _, [], _ => by simp
  | 0, a :: l, h => by simp at h
  | n + 1, a :: l, h => by
    rw [List.eraseDups_cons]
    have hle : (l.filter (fun b => !b == a)).length ≤ n :=
      (List.length_filter_le _ _).trans (by simpa using h)
    obtain ⟨h1, h2⟩ := mem_eraseDups_aux n _ hle
    refine ⟨List.nodup_cons.2 ⟨?_, h1⟩, fun x => ?_⟩
    · rw [h2]; simp
    · rw [List.mem_cons, List.mem_cons, h2, List.mem_filter]
      by_cases hx : x = a <;> simp [hx]

theorem nodup_of_eraseDups {l r : List String} (h : r = l.eraseDups) : r.Nodup :=
  h ▸ (mem_eraseDups_aux _ l le_rfl).1

theorem mem_eraseDups {l : List String} {x : String} : x ∈ l.eraseDups ↔ x ∈ l :=
  (mem_eraseDups_aux _ l le_rfl).2 x

theorem createCell_spec {node : CellNode} {surfaces : List SurfaceObj} {materials : List Material}
    {t : ScalarField} {c : Cell} (hn : (surfaces.map SurfaceObj.name).Nodup)
    (ha : (surfaces.map SurfaceObj.id).Nodup) (hv : node.isVoid = true ↔ node.name = none)
    (h : createCell node surfaces materials t = .ok c) : CellOf surfaces materials t node c := by
  rw [createCell, noexcept_eq_ok, assignSurfaceSenses_eq] at h
  simp only [bind, Except.bind] at h
  split at h
  · cases h
  rename_i senses hs
  split at h
  · cases h
  rename_i material hm
  simp only [Except.ok.injEq] at h
  obtain ⟨h1, h2⟩ := resolveLoop_spec hn
    (fun k hk k' hk' e => List.inj_on_of_nodup_map ha hk hk' e) node.surfaces [] senses
    (by simp [SortedByAddr]) (by simp) hs
  subst h
  refine ⟨rfl, ?_, h1, ?_, ?_, ?_⟩
  · intro s b
    change (s, b) ∈ senses ↔ _
    rw [h2]
    simp only [List.not_mem_nil, List.map_nil, not_false_eq_true, true_and, false_or, FirstSense]
    refine and_congr_right fun _ => exists_congr fun x => and_congr_right fun _ => ?_
    rcases x with _ | _ | _ <;> rcases b with _ | _ <;> simp [senseValue]
  · intro hvoid
    rw [assignMaterial, hv.1 hvoid] at hm
    simp only [Except.ok.injEq] at hm
    exact hm.symm
  · intro hvoid
    rcases hname : node.name with _ | nm
    · rw [hv.2 hname] at hvoid; cases hvoid
    · rw [assignMaterial, hname] at hm
      simp only at hm
      split at hm
      · cases hm
      · rename_i m hf
        have hf := (find_firstNamed Material.name materials node.material m).1 hf
        simp only [Except.ok.injEq] at hm
        exact ⟨m, firstNamed_mem hf, hm.symm, firstNamed_name hf⟩
  · change assignTemperature node t = _
    rw [assignTemperature]
    rcases node.temperature <;> rfl

theorem createCell_error {node : CellNode} {surfaces : List SurfaceObj} {materials : List Material}
    {t : ScalarField} {e : Err} (h : createCell node surfaces materials t = .error e) :
    ¬ ((∀ s ∈ node.surfaces, s.1 ∈ surfaces.map SurfaceObj.name ∧ s.2 ≠ .other) ∧
      (node.name ≠ none → node.material ∈ materials.map Material.name)) := by
  rintro ⟨h1, h2⟩
  rw [createCell, assignSurfaceSenses_eq] at h
  obtain ⟨r, hr⟩ := (resolveLoop_exists (addr := SurfaceObj.id) (nm := SurfaceObj.name)
    (val := senseValue) (all := surfaces) node.surfaces ([] : List (SurfaceObj × Bool))).2 (by
      intro n hn
      refine ⟨(h1 n hn).1, ?_⟩
      have := (h1 n hn).2
      rcases hs : n.2 with _ | _ | _
      · exact ⟨_, rfl⟩
      · exact ⟨_, rfl⟩
      · exact absurd hs this)
  rw [hr] at h
  simp only [bind, Except.bind] at h
  have : ∃ m, assignMaterial node materials = .ok m := by
    rw [assignMaterial]
    rcases hname : node.name with _ | nm
    · exact ⟨_, rfl⟩
    · have := h2 (by simp [hname])
      obtain ⟨m, hm, hmn⟩ := List.mem_map.1 this
      obtain ⟨m', hm'⟩ := (firstNamed_exists Material.name materials node.material).2 ⟨m, hm, hmn⟩
      rw [← find_firstNamed] at hm'
      simp only [hm']
      exact ⟨_, rfl⟩
  obtain ⟨m, hm⟩ := this
  rw [hm] at h
  simp only [noexcept] at h
  cases h

theorem create_ok {doc : Document} {sa na : ℕ → ℕ} {w : World} (h : create doc sa na = .ok w) :
    createSurfaces doc sa = .ok w.surfaces ∧ createNuclides doc na = .ok w.nuclides ∧
    addMaterials doc w.nuclides [] doc.cells = .ok w.materials ∧
    w.temperature = createTemperature doc ∧
    createCells w.surfaces w.materials (createTemperature doc) doc.cells = .ok w.cells := by
  rw [create] at h
  simp only [bind, Except.bind] at h
  split at h
  · cases h
  rename_i surfaces hs
  split at h
  · cases h
  rename_i nuclides hn
  split at h
  · cases h
  rename_i materials hm
  split at h
  · cases h
  rename_i cells hc
  cases h
  exact ⟨hs, hn, hm, rfl, hc⟩

theorem createCells_error {doc : Document} {surfaces : List SurfaceObj} {materials : List Material}
    {t : ScalarField} {e : Err} (h : createCells surfaces materials t doc.cells = .error e) :
    ∃ c ∈ doc.cells, ∃ e', createCell c surfaces materials t = .error e' := by
  rw [createCells] at h
  rcases hr : doc.cells.mapM (fun c => createCell c surfaces materials t) with e'' | r
  · obtain ⟨c, hc, hce⟩ := mapM_error hr
    exact ⟨c, hc, _, hce⟩
  · rw [hr] at h; cases h

end WorldBuild

end Minimc
