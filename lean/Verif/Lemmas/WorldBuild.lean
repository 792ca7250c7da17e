import Verif.Spec.World
import Verif.Lemmas.PtrMap
import Mathlib.Data.List.Basic

/-! # Lemmas about the construction of the world -/

namespace Minimc

open Spec

/-- The common shape of the loops that create every named object once. -/
def intern {α : Type} (mk : ℕ → String → Res α) (nm : α → String) :
    List α → List String → Res (List α)
  | all, [] => .ok all
  | all, x :: xs =>
    if all.any (fun a => nm a == x) then intern mk nm all xs
    else match mk all.length x with
      | .ok a => intern mk nm (all ++ [a]) xs
      | .error e => .error e

section
variable {α : Type} {mk : ℕ → String → Res α} {nm : α → String}

theorem any_name {all : List α} {x : String} :
    all.any (fun a => nm a == x) = true ↔ x ∈ all.map nm := by
  simp [List.any_eq_true]

theorem intern_ok (hmk : ∀ i x a, mk i x = .ok a → nm a = x) :
    ∀ (xs : List String) (all r : List α), intern mk nm all xs = .ok r →
      ∃ new, r = all ++ new ∧
        new.map nm = (xs.filter (fun x => decide (x ∉ all.map nm))).eraseDups ∧
        ∀ i (h : i < new.length), mk (all.length + i) (nm new[i]) = .ok new[i]
  | [], all, r, h => by
    simp only [intern, Except.ok.injEq] at h
    exact ⟨[], by simp [h], by simp, by simp⟩
  | x :: xs, all, r, h => by
    rw [intern] at h
    by_cases hx : x ∈ all.map nm
    · rw [if_pos (any_name.2 hx)] at h
      obtain ⟨new, h1, h2, h3⟩ := intern_ok hmk xs all r h
      refine ⟨new, h1, ?_, h3⟩
      rw [h2, List.filter_cons_of_neg (by simpa using hx)]
    · rw [if_neg (fun hc => hx (any_name.1 hc))] at h
      split at h
      · rename_i a ha
        obtain ⟨new, h1, h2, h3⟩ := intern_ok hmk xs (all ++ [a]) r h
        have hna := hmk _ _ _ ha
        refine ⟨a :: new, by simp [h1], ?_, ?_⟩
        · rw [List.map_cons, h2, List.filter_cons_of_pos (by simpa using hx),
            List.eraseDups_cons, hna, List.filter_filter]
          congr 3
          funext y
          rw [Bool.eq_iff_iff]
          simp only [List.map_append, List.map_cons, List.map_nil, hna, List.mem_append,
            List.mem_singleton, decide_eq_true_eq, Bool.and_eq_true, Bool.not_eq_true',
            beq_eq_false_iff_ne, not_or]
          tauto
        · intro i hi
          rcases i with _ | i
          · simpa [hna] using ha
          · have := h3 i (by simpa using hi)
            simp only [List.length_append, List.length_singleton] at this
            simp only [List.getElem_cons_succ]
            rw [← this]
            congr 1
            omega
      · cases h

theorem intern_exists (hmk : ∀ i x a, mk i x = .ok a → nm a = x) :
    ∀ (xs : List String) (all : List α),
      (∀ x ∈ xs, x ∈ all.map nm ∨ ∀ i, ∃ a, mk i x = .ok a) → ∃ r, intern mk nm all xs = .ok r
  | [], all, _ => ⟨all, rfl⟩
  | x :: xs, all, h => by
    rw [intern]
    by_cases hx : x ∈ all.map nm
    · rw [if_pos (any_name.2 hx)]
      exact intern_exists hmk xs all (fun y hy => h y (List.mem_cons_of_mem _ hy))
    · rw [if_neg (fun hc => hx (any_name.1 hc))]
      obtain ⟨a, ha⟩ := (h x List.mem_cons_self).resolve_left hx all.length
      rw [ha]
      refine intern_exists hmk xs (all ++ [a]) (fun y hy => ?_)
      rcases h y (List.mem_cons_of_mem _ hy) with h' | h'
      · left; simp only [List.map_append, List.mem_append]; exact .inl h'
      · exact .inr h'

theorem intern_error : ∀ (xs : List String) (all : List α) (e : Err),
    intern mk nm all xs = .error e → ∃ x ∈ xs, ∃ i, mk i x = .error e
  | [], all, e, h => by cases h
  | x :: xs, all, e, h => by
    rw [intern] at h
    split at h
    · obtain ⟨y, hy, r⟩ := intern_error xs all e h
      exact ⟨y, List.mem_cons_of_mem _ hy, r⟩
    · split at h
      · obtain ⟨y, hy, r⟩ := intern_error xs _ e h
        exact ⟨y, List.mem_cons_of_mem _ hy, r⟩
      · rename_i e' he
        cases h
        exact ⟨x, List.mem_cons_self, _, he⟩

theorem intern_append : ∀ (xs ys : List String) (all : List α),
    intern mk nm all (xs ++ ys) =
      match intern mk nm all xs with
      | .ok a => intern mk nm a ys
      | .error e => .error e
  | [], ys, all => rfl
  | x :: xs, ys, all => by
    rw [List.cons_append, intern, intern]
    split
    · exact intern_append xs ys all
    · split
      · exact intern_append xs ys _
      · rfl

end

namespace WorldBuild

theorem addSurfaces_eq (doc : Document) (addr : ℕ → ℕ) : ∀ (xs : List String) (all : List SurfaceObj),
    addSurfaces doc addr all xs =
      intern (fun i x => createSurface doc (addr i) x) SurfaceObj.name all xs
  | [], all => rfl
  | x :: xs, all => by
    rw [addSurfaces, intern]
    split
    · exact addSurfaces_eq doc addr xs all
    · simp only [bind, Except.bind]
      rcases createSurface doc (addr all.length) x with e | s
      · rfl
      · exact addSurfaces_eq doc addr xs _

theorem addNuclides_eq (doc : Document) (addr : ℕ → ℕ) : ∀ (xs : List String) (all : List Nuclide),
    addNuclides doc addr all xs =
      intern (fun i x => createNuclide doc (addr i) x) Nuclide.name all xs
  | [], all => rfl
  | x :: xs, all => by
    rw [addNuclides, intern]
    split
    · exact addNuclides_eq doc addr xs all
    · simp only [bind, Except.bind]
      rcases createNuclide doc (addr all.length) x with e | s
      · rfl
      · exact addNuclides_eq doc addr xs _

theorem addMaterials_eq (doc : Document) (ns : List Nuclide) :
    ∀ (cells : List CellNode) (all : List Material),
      addMaterials doc ns all cells =
        intern (fun _ x => createMaterial doc ns x) Material.name all
          ((cells.filter (fun c => !c.isVoid)).map CellNode.material)
  | [], all => rfl
  | c :: cells, all => by
    rw [addMaterials]
    rcases hv : c.isVoid with _ | _
    · rw [List.filter_cons_of_pos (by simp [hv]), List.map_cons, intern]
      rw [if_neg (by simp)]
      split
      · exact addMaterials_eq doc ns cells all
      · simp only [bind, Except.bind]
        rcases createMaterial doc ns c.material with e | s
        · rfl
        · exact addMaterials_eq doc ns cells _
    · rw [List.filter_cons_of_neg (by simp [hv])]
      rw [if_pos rfl]
      exact addMaterials_eq doc ns cells all

theorem findMaterialNode_ok (doc : Document) (name : String) (m : MaterialNode) :
    findMaterialNode doc name = .ok m ↔ FirstNamed MaterialNode.name doc.materials name m := by
  rw [← find_firstNamed, findMaterialNode]
  generalize List.find? _ doc.materials = o
  rcases o with _ | m' <;> simp

theorem findMaterialNode_error (doc : Document) (name : String) (e : Err) :
    findMaterialNode doc name = .error e → e = .runtimeError ∧
      ¬ ∃ m, FirstNamed MaterialNode.name doc.materials name m := by
  intro h
  refine ⟨?_, ?_⟩
  · rw [findMaterialNode] at h
    split at h <;> cases h
    rfl
  · rintro ⟨m, hm⟩
    rw [(findMaterialNode_ok doc name m).2 hm] at h
    cases h

theorem createSurface_ok (doc : Document) (id : ℕ) (name : String) (s : SurfaceObj) :
    createSurface doc id name = .ok s ↔
      ∃ n, FirstNamed SurfaceNode.name doc.surfaces name n ∧ s = ⟨id, n.name, n.shape⟩ := by
  simp only [← find_firstNamed, createSurface]
  generalize List.find? _ doc.surfaces = o
  rcases o with _ | m'
  · simp
  · simp [eq_comm]

theorem createSurface_error (doc : Document) (id : ℕ) (name : String) (e : Err)
    (h : createSurface doc id name = .error e) : e = .runtimeError ∧
      ¬ ∃ n ∈ doc.surfaces, n.name = name := by
  refine ⟨?_, ?_⟩
  · rw [createSurface] at h
    split at h <;> cases h
    rfl
  · rw [← firstNamed_exists]
    rintro ⟨n, hn⟩
    rw [(createSurface_ok doc id name _).2 ⟨n, hn, rfl⟩] at h
    cases h

theorem createNuclide_ok (doc : Document) (id : ℕ) (name : String) (s : Nuclide) :
    createNuclide doc id name = .ok s ↔
      ∃ n xs, FirstNamed NuclideNode.name doc.nuclides name n ∧ n.xs = .ok xs ∧
        s = ⟨id, n.name, xs⟩ := by
  simp only [← find_firstNamed, createNuclide]
  generalize List.find? _ doc.nuclides = o
  rcases o with _ | m'
  · simp
  · simp only [bind, Except.bind, Option.some.injEq]
    rcases hx : m'.xs with e | xs
    · simp only [reduceCtorEq, false_iff, not_exists, not_and]
      rintro n xs rfl h
      rw [hx] at h; cases h
    · constructor
      · intro h
        exact ⟨m', xs, rfl, hx, (Except.ok.inj h).symm⟩
      · rintro ⟨n, xs', rfl, h, rfl⟩
        rw [hx] at h
        cases h; rfl

theorem createNuclide_error (doc : Document) (id : ℕ) (name : String) (e : Err)
    (h : createNuclide doc id name = .error e) :
    (e = .runtimeError ∧ ¬ ∃ n, FirstNamed NuclideNode.name doc.nuclides name n) ∨
      ∃ n, FirstNamed NuclideNode.name doc.nuclides name n ∧ n.xs = .error e := by
  rw [createNuclide] at h
  split at h
  · rename_i hn
    cases h
    refine .inl ⟨rfl, ?_⟩
    rintro ⟨n, hf⟩
    rw [(find_firstNamed _ _ _ _).2 hf] at hn
    cases hn
  · rename_i n hn
    refine .inr ⟨n, (find_firstNamed _ _ _ _).1 hn, ?_⟩
    rcases hx : n.xs with e' | xs
    · rw [hx] at h
      cases h; rfl
    · rw [hx] at h
      cases h

/-- Creating the nuclides is creating those of the used materials, provided these exist. -/
theorem addCellNuclides_ok (doc : Document) (addr : ℕ → ℕ) :
    ∀ (cells : List CellNode) (all r : List Nuclide),
      addCellNuclides doc addr all cells = .ok r ↔
        ∃ xs, UsedNuclides doc ((cells.filter (fun c => !c.isVoid)).map CellNode.material) xs ∧
          intern (fun i x => createNuclide doc (addr i) x) Nuclide.name all xs = .ok r
  | [], all, r => by
    constructor
    · intro h
      exact ⟨[], .nil, h⟩
    · rintro ⟨xs, h1, h2⟩
      cases h1
      exact h2
  | c :: cells, all, r => by
    rw [addCellNuclides]
    rcases hv : c.isVoid with _ | _
    · rw [List.filter_cons_of_pos (by simp [hv]), List.map_cons, if_neg (by simp)]
      simp only [bind, Except.bind]
      rcases hm : findMaterialNode doc c.material with e | m
      · have := (findMaterialNode_error _ _ _ hm).2
        constructor
        · intro h; cases h
        · rintro ⟨xs, h1, -⟩
          cases h1
          rename_i node _ hn _
          exact absurd ⟨node, hn⟩ this
      · rw [findMaterialNode_ok] at hm
        simp only [addNuclides_eq]
        constructor
        · intro h
          split at h
          · cases h
          · rename_i a ha
            rw [addCellNuclides_ok doc addr cells a r] at h
            obtain ⟨xs, h1, h2⟩ := h
            refine ⟨_, .cons hm h1, ?_⟩
            rw [intern_append, ha]
            exact h2
        · rintro ⟨xs, h1, h2⟩
          cases h1
          rename_i node xs hn h1
          cases firstNamed_unique hm hn
          rw [intern_append] at h2
          split at h2
          · rename_i a ha
            rw [ha]
            exact (addCellNuclides_ok doc addr cells a r).2 ⟨xs, h1, h2⟩
          · cases h2
    · rw [List.filter_cons_of_neg (by simp [hv]), if_pos rfl]
      exact addCellNuclides_ok doc addr cells all r

theorem addCellNuclides_error (doc : Document) (addr : ℕ → ℕ) :
    ∀ (cells : List CellNode) (all : List Nuclide) (e : Err),
      addCellNuclides doc addr all cells = .error e →
        ∃ c ∈ cells, c.isVoid = false ∧
          ((e = .runtimeError ∧ ¬ ∃ m, FirstNamed MaterialNode.name doc.materials c.material m) ∨
          ∃ m, FirstNamed MaterialNode.name doc.materials c.material m ∧ ∃ x ∈ m.nuclides,
            ((e = .runtimeError ∧ ¬ ∃ n, FirstNamed NuclideNode.name doc.nuclides x.1 n) ∨
            ∃ n, FirstNamed NuclideNode.name doc.nuclides x.1 n ∧ n.xs = .error e))
  | [], all, e, h => by cases h
  | c :: cells, all, e, h => by
    rw [addCellNuclides] at h
    rcases hv : c.isVoid with _ | _
    · rw [if_neg (by simp [hv])] at h
      simp only [bind, Except.bind] at h
      split at h
      · rename_i e' he
        cases h
        exact ⟨c, List.mem_cons_self, hv, .inl (findMaterialNode_error _ _ _ he)⟩
      · rename_i m hm
        rw [findMaterialNode_ok] at hm
        split at h
        · rename_i e' he
          cases h
          rw [addNuclides_eq] at he
          obtain ⟨x, hx, i, hi⟩ := intern_error _ _ _ he
          have := createNuclide_error doc _ _ _ hi
          obtain ⟨y, hy, rfl⟩ := List.mem_map.1 hx
          exact ⟨c, List.mem_cons_self, hv, .inr ⟨m, hm, y, hy, this⟩⟩
        · rename_i a _
          obtain ⟨c', hc', h2⟩ := addCellNuclides_error doc addr cells a e h
          exact ⟨c', List.mem_cons_of_mem _ hc', h2⟩
    · rw [if_pos hv] at h
      obtain ⟨c', hc', h2⟩ := addCellNuclides_error doc addr cells all e h
      exact ⟨c', List.mem_cons_of_mem _ hc', h2⟩

theorem mem_usedNuclides {doc : Document} {ms xs : List String} (h : UsedNuclides doc ms xs) :
    ∀ m ∈ ms, ∃ node, FirstNamed MaterialNode.name doc.materials m node ∧
      ∀ x ∈ node.nuclides, x.1 ∈ xs := by
  induction h with
  | nil => intro m hm; cases hm
  | cons hn _ ih =>
    intro m hm
    rcases List.mem_cons.1 hm with rfl | hm
    · exact ⟨_, hn, fun x hx => List.mem_append_left _ (List.mem_map_of_mem hx)⟩
    · obtain ⟨node, h1, h2⟩ := ih m hm
      exact ⟨node, h1, fun x hx => List.mem_append_right _ (h2 x hx)⟩

end WorldBuild
end Minimc
