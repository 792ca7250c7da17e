import Verif.Spec.Order
import Verif.Lemmas.Placement
import Mathlib.Data.List.Sort

/-! # Lemmas about documents that differ in the order of their elements -/

namespace Minimc

open Spec Props WorldBuild

theorem Spec.UpToOrder.mem {α : Type} {R : α → α → Prop} {l l' : List α} (h : UpToOrder R l l')
    {a : α} (ha : a ∈ l) : ∃ b ∈ l', R a b := by
  obtain ⟨m, h1, h2⟩ := h
  obtain ⟨i, hi, h3⟩ := List.getElem_of_mem (h1.mem_iff.1 ha)
  rw [List.forall₂_iff_get] at h2
  have := h2.2 i hi (h2.1 ▸ hi)
  rw [List.get_eq_getElem, List.get_eq_getElem, h3] at this
  exact ⟨_, List.getElem_mem _, this⟩

theorem Spec.UpToOrder.mem' {α : Type} {R : α → α → Prop} {l l' : List α} (h : UpToOrder R l l')
    {b : α} (hb : b ∈ l') : ∃ a ∈ l, R a b := by
  obtain ⟨m, h1, h2⟩ := h
  obtain ⟨i, hi, h3⟩ := List.getElem_of_mem hb
  rw [List.forall₂_iff_get] at h2
  have := h2.2 i (h2.1 ▸ hi) hi
  rw [List.get_eq_getElem, List.get_eq_getElem, h3] at this
  exact ⟨_, h1.mem_iff.2 (List.getElem_mem _), this⟩

theorem Spec.UpToOrder.map {α β : Type} {R : α → α → Prop} {l l' : List α} (h : UpToOrder R l l')
    {f : α → β} (hf : ∀ a b, R a b → f a = f b) : (l.map f).Perm (l'.map f) := by
  obtain ⟨m, h1, h2⟩ := h
  have : m.map f = l'.map f := by
    induction h2 generalizing l with
    | nil => rfl
    | cons hab _ ih =>
      rw [List.map_cons, List.map_cons, hf _ _ hab, ih (List.Perm.refl _)]
  rw [← this]
  exact h1.map f

/-- With unique names the first node of a name is the one of that name. -/
theorem firstNamed_iff_mem {α : Type} {nm : α → String} {l : List α} (h : (l.map nm).Nodup)
    {x : String} {n : α} : FirstNamed nm l x n ↔ n ∈ l ∧ nm n = x := by
  refine ⟨fun hf => ⟨firstNamed_mem hf, firstNamed_name hf⟩, fun ⟨h1, h2⟩ => ?_⟩
  obtain ⟨n', hn'⟩ := (firstNamed_exists nm l x).2 ⟨n, h1, h2⟩
  have : n = n' := List.inj_on_of_nodup_map h h1 (firstNamed_mem hn')
    (h2.trans (firstNamed_name hn').symm)
  rwa [this]

theorem firstNamed_perm {α : Type} {nm : α → String} {l l' : List α} (h : (l.map nm).Nodup)
    (hp : l.Perm l') {x : String} {n : α} : FirstNamed nm l x n ↔ FirstNamed nm l' x n := by
  rw [firstNamed_iff_mem h, firstNamed_iff_mem ((hp.map nm).nodup_iff.1 h), hp.mem_iff]

/-- Lists without repeated names, with the same names, whose members are determined by them. -/
theorem perm_of_names {α : Type} {nm : α → String} {l l' : List α} (h : (l.map nm).Nodup)
    (h' : (l'.map nm).Nodup) (hm : ∀ x, x ∈ l.map nm ↔ x ∈ l'.map nm)
    (he : ∀ a ∈ l, ∀ b ∈ l', nm a = nm b → a = b) : l.Perm l' := by
  rw [List.perm_ext_iff_of_nodup h.of_map h'.of_map]
  intro a
  constructor
  · intro ha
    obtain ⟨b, hb, hba⟩ := List.mem_map.1 ((hm _).1 (List.mem_map_of_mem (f := nm) ha))
    rwa [he a ha b hb hba.symm]
  · intro hb
    obtain ⟨c, hc, hca⟩ := List.mem_map.1 ((hm _).2 (List.mem_map_of_mem (f := nm) hb))
    rwa [← he c hc a hb hca]

/-- Objects created in another order can be placed at the same addresses. -/
theorem exists_addresses {L L' : List String} (h : L.Nodup) (h' : L'.Nodup)
    (hm : ∀ x, x ∈ L ↔ x ∈ L') {addr : ℕ → ℕ} (ha : Function.Injective addr) :
    ∃ addr' : ℕ → ℕ, Function.Injective addr' ∧
      ∀ i (hi : i < L'.length), ∃ j, ∃ hj : j < L.length, L[j] = L'[i] ∧ addr' i = addr j := by
  have hlen : L.length = L'.length :=
    ((List.perm_ext_iff_of_nodup h h').2 hm).length_eq
  have hidx : ∀ i (hi : i < L'.length), L.idxOf L'[i] < L.length := fun i hi =>
    List.idxOf_lt_length_iff.2 ((hm _).2 (List.getElem_mem hi))
  refine ⟨fun i => if hi : i < L'.length then addr (L.idxOf L'[i]) else addr i, ?_, ?_⟩
  · intro i j hij
    dsimp only at hij
    split at hij <;> split at hij
    · rename_i h1 h2
      have h3 := ha hij
      have h4 : L[L.idxOf L'[i]]'(hidx i h1) = L'[i] := List.getElem_idxOf _
      have h5 : L[L.idxOf L'[j]]'(hidx j h2) = L'[j] := List.getElem_idxOf _
      have h6 : L'[i] = L'[j] := by
        rw [← h4, ← h5]
        congr 1
      exact (h'.getElem_inj_iff).1 h6
    · rename_i h1 h2
      have h3 := ha hij
      have := hidx i h1
      omega
    · rename_i h1 h2
      have h3 := ha hij
      have := hidx j h2
      omega
    · exact ha hij
  · intro i hi
    refine ⟨L.idxOf L'[i], hidx i hi, List.getElem_idxOf _, ?_⟩
    dsimp only
    rw [dif_pos hi]

section
variable {doc doc' : Document}

theorem Spec.Reordered.material (h : Reordered doc doc') (hu : UniqueNames doc) {x : String}
    {node : MaterialNode} (hn : FirstNamed MaterialNode.name doc.materials x node) :
    ∃ node', FirstNamed MaterialNode.name doc'.materials x node' ∧ SameMaterialNode node node' := by
  rw [firstNamed_iff_mem hu.materials] at hn
  obtain ⟨node', h1, h2⟩ := h.materials.mem hn.1
  refine ⟨node', ?_, h2⟩
  rw [firstNamed_iff_mem ((h.materials.map fun a b h => h.name).nodup_iff.1 hu.materials)]
  exact ⟨h1, h2.name ▸ hn.2⟩

theorem Spec.Reordered.wellFormed (h : Reordered doc doc') (hw : WellFormed doc) : WellFormed doc' where
  senses := by
    intro c hc s hs
    obtain ⟨c0, h1, h2⟩ := h.cells.mem' hc
    exact hw.senses c0 h1 s (h2.surfaces.mem_iff.2 hs)
  names := by
    intro c hc
    obtain ⟨c0, h1, h2⟩ := h.cells.mem' hc
    rw [← h2.isVoid, ← h2.name]
    exact hw.names c0 h1
  afracs := by
    intro m hm n hn
    obtain ⟨m0, h1, h2⟩ := h.materials.mem' hm
    exact hw.afracs m0 h1 n (h2.nuclides.mem_iff.2 hn)

theorem Spec.Reordered.allDefined (h : Reordered doc doc') (hu : UniqueNames doc)
    (hd : AllDefined doc) : AllDefined doc' where
  surfaces := by
    intro c hc s hs
    obtain ⟨c0, h1, h2⟩ := h.cells.mem' hc
    obtain ⟨n, hn, hns⟩ := hd.surfaces c0 h1 s (h2.surfaces.mem_iff.2 hs)
    exact ⟨n, h.surfaces.mem_iff.1 hn, hns⟩
  materials := by
    intro c hc hv
    obtain ⟨c0, h1, h2⟩ := h.cells.mem' hc
    obtain ⟨m, hm, hx⟩ := hd.materials c0 h1 (h2.isVoid ▸ hv)
    rw [h2.material] at hm
    obtain ⟨m', hm', hs⟩ := h.material hu hm
    refine ⟨m', hm', fun x hxm => ?_⟩
    obtain ⟨n, hn, r⟩ := hx x (hs.nuclides.mem_iff.2 hxm)
    exact ⟨n, (firstNamed_perm hu.nuclides h.nuclides).1 hn, r⟩

theorem mem_usedSurfaces {x : String} :
    x ∈ usedSurfaces doc ↔ ∃ c ∈ doc.cells, x ∈ c.surfaces.map Prod.fst := by
  simp only [usedSurfaces, List.mem_flatten, List.mem_map]
  constructor
  · rintro ⟨_, ⟨c, hc, rfl⟩, h⟩
    exact ⟨c, hc, List.mem_map.1 h⟩
  · rintro ⟨c, hc, h⟩
    exact ⟨_, ⟨c, hc, rfl⟩, List.mem_map.2 h⟩

theorem mem_usedMaterials {x : String} :
    x ∈ usedMaterials doc ↔ ∃ c ∈ doc.cells, c.isVoid = false ∧ c.material = x := by
  simp only [usedMaterials, List.mem_map, List.mem_filter, Bool.not_eq_true']
  constructor
  · rintro ⟨c, ⟨h1, h2⟩, h3⟩
    exact ⟨c, h1, h2, h3⟩
  · rintro ⟨c, h1, h2, h3⟩
    exact ⟨c, ⟨h1, h2⟩, h3⟩

theorem Spec.Reordered.usedSurfaces_iff (h : Reordered doc doc') (x : String) :
    x ∈ usedSurfaces doc ↔ x ∈ usedSurfaces doc' := by
  rw [mem_usedSurfaces, mem_usedSurfaces]
  constructor
  · rintro ⟨c, hc, hx⟩
    obtain ⟨c', h1, h2⟩ := h.cells.mem hc
    exact ⟨c', h1, (h2.surfaces.map Prod.fst).mem_iff.1 hx⟩
  · rintro ⟨c', hc, hx⟩
    obtain ⟨c, h1, h2⟩ := h.cells.mem' hc
    exact ⟨c, h1, (h2.surfaces.map Prod.fst).mem_iff.2 hx⟩

theorem Spec.Reordered.usedMaterials_iff (h : Reordered doc doc') (x : String) :
    x ∈ usedMaterials doc ↔ x ∈ usedMaterials doc' := by
  rw [mem_usedMaterials, mem_usedMaterials]
  constructor
  · rintro ⟨c, hc, hv, hx⟩
    obtain ⟨c', h1, h2⟩ := h.cells.mem hc
    exact ⟨c', h1, h2.isVoid ▸ hv, h2.material ▸ hx⟩
  · rintro ⟨c', hc, hv, hx⟩
    obtain ⟨c, h1, h2⟩ := h.cells.mem' hc
    exact ⟨c, h1, h2.isVoid ▸ hv, h2.material ▸ hx⟩

theorem usedNuclides_mem {ms xs : List String} (h : UsedNuclides doc ms xs) (x : String) :
    x ∈ xs ↔ ∃ m ∈ ms, ∃ node, FirstNamed MaterialNode.name doc.materials m node ∧
      x ∈ node.nuclides.map Prod.fst := by
  induction h with
  | nil => simp
  | @cons m ms node xs hn _ ih =>
    rw [List.mem_append, ih]
    constructor
    · rintro (h | ⟨m', h1, h2⟩)
      · exact ⟨m, List.mem_cons_self, node, hn, h⟩
      · exact ⟨m', List.mem_cons_of_mem _ h1, h2⟩
    · rintro ⟨m', h1, node', h2, h3⟩
      rcases List.mem_cons.1 h1 with rfl | h1
      · rw [firstNamed_unique hn h2]; exact .inl h3
      · exact .inr ⟨m', h1, node', h2, h3⟩

theorem Spec.Reordered.symm (h : Reordered doc doc') : Reordered doc' doc := by
  have aux : ∀ {α : Type} {R : α → α → Prop} {l l' : List α}, (∀ a b, R a b → R b a) →
      UpToOrder R l l' → UpToOrder R l' l := by
    intro α R l l' hs ⟨m, h1, h2⟩
    have h3 : List.Forall₂ R l' m := h2.flip.imp fun a b h => hs _ _ h
    have : Relation.Comp (List.Forall₂ R) List.Perm l' l := ⟨m, h3, h1.symm⟩
    rw [List.forall₂_comp_perm_eq_perm_comp_forall₂] at this
    exact this
  exact ⟨h.surfaces.symm,
    aux (fun a b h => ⟨h.name.symm, h.aden.symm, h.nuclides.symm⟩) h.materials,
    h.nuclides.symm, h.temperature.symm,
    aux (fun a b h => ⟨h.isVoid.symm, h.name.symm, h.material.symm, h.temperature.symm,
      h.surfaces.symm⟩) h.cells⟩

theorem Spec.Reordered.unique (h : Reordered doc doc') (hu : UniqueNames doc) : UniqueNames doc' where
  surfaces := (h.surfaces.map _).nodup_iff.1 hu.surfaces
  materials := (h.materials.map fun _ _ h => h.name).nodup_iff.1 hu.materials
  nuclides := (h.nuclides.map _).nodup_iff.1 hu.nuclides
  fractions := by
    intro m hm
    obtain ⟨m0, h1, h2⟩ := h.materials.mem' hm
    exact (h2.nuclides.map _).nodup_iff.1 (hu.fractions m0 h1)
  senses := by
    intro c hc
    obtain ⟨c0, h1, h2⟩ := h.cells.mem' hc
    exact (h2.surfaces.map _).nodup_iff.1 (hu.senses c0 h1)

theorem Spec.Reordered.usedNuclides_iff (h : Reordered doc doc') (hu : UniqueNames doc)
    {xs xs' : List String} (hx : UsedNuclides doc (usedMaterials doc) xs)
    (hx' : UsedNuclides doc' (usedMaterials doc') xs') (x : String) : x ∈ xs ↔ x ∈ xs' := by
  rw [usedNuclides_mem hx, usedNuclides_mem hx']
  constructor
  · rintro ⟨m, h1, node, h2, h3⟩
    obtain ⟨node', h4, h5⟩ := h.material hu h2
    exact ⟨m, (h.usedMaterials_iff m).1 h1, node', h4, (h5.nuclides.map _).mem_iff.1 h3⟩
  · rintro ⟨m, h1, node, h2, h3⟩
    obtain ⟨node', h4, h5⟩ := h.symm.material (h.unique hu) h2
    exact ⟨m, (h.usedMaterials_iff m).2 h1, node', h4, (h5.nuclides.map _).mem_iff.1 h3⟩

end

/-- Materials with the same composition made of the same nuclides are equal. -/
theorem composition_unique {all all' : List Nuclide} {nodes nodes' : List (String × ℝ)}
    {m m' : Material} (ha : ∀ n, n ∈ all ↔ n ∈ all')
    (hp : nodes.Perm nodes') (hu : (nodes.map Prod.fst).Nodup) (hpos : ∀ n ∈ nodes, 0 < n.2)
    (hc : Composition all nodes m) (hc' : Composition all' nodes' m') (hname : m.name = m'.name)
    (hden : m.numberDensity = m'.numberDensity) : m = m' := by
  have hids : ∀ {all : List Nuclide} {nodes : List (String × ℝ)} {m : Material},
      Composition all nodes m → (m.afracs.map Prod.fst).Pairwise (fun a b => a.id < b.id) := by
    intro all nodes m hc
    have := hc.once
    rw [List.pairwise_map] at this ⊢
    exact this
  have hmem : ∀ n, n ∈ m.afracs.map Prod.fst ↔ n ∈ m'.afracs.map Prod.fst := by
    intro n
    rw [hc.members, hc'.members, ha, (hp.map Prod.fst).mem_iff]
  have hfst : m.afracs.map Prod.fst = m'.afracs.map Prod.fst := by
    have h1 := hids hc
    have h2 := hids hc'
    have hnd : ∀ {l : List Nuclide}, l.Pairwise (fun a b => a.id < b.id) → l.Nodup := by
      intro l hl
      exact hl.imp (fun {a b} h hab => by rw [hab] at h; exact lt_irrefl _ h)
    refine List.Perm.eq_of_pairwise (fun a b _ _ h h' => absurd (h.trans h') (lt_irrefl _)) h1 h2 ?_
    exact (List.perm_ext_iff_of_nodup (hnd h1) (hnd h2)).2 hmem
  have hc'' : Composition all nodes m' :=
    ⟨hc'.once, fun n => by rw [hc'.members, ha, (hp.map Prod.fst).mem_iff],
      fun h => hc'.sum_one (by rintro rfl; exact h (List.perm_nil.1 hp)),
      fun n f n' f' x x' h1 h2 h3 h4 => hc'.ratio n f n' f' x x' h1 h2
        ((firstNamed_perm hu hp).1 h3) ((firstNamed_perm hu hp).1 h4), hc'.positive⟩
  have hsum : (m.afracs.map (fun e => inputFraction nodes e.1.name)).sum =
      (m'.afracs.map (fun e => inputFraction nodes e.1.name)).sum := by
    have : ∀ m : Material, m.afracs.map (fun e => inputFraction nodes e.1.name) =
        (m.afracs.map Prod.fst).map (fun n => inputFraction nodes n.name) := by
      intro m; rw [List.map_map]; rfl
    rw [this, this, hfst]
  have hsnd : m.afracs = m'.afracs := by
    have hlen : m.afracs.length = m'.afracs.length := by
      have := congrArg List.length hfst
      simpa using this
    refine List.ext_getElem hlen fun i h1 h2 => ?_
    have e1 : m.afracs[i].1 = m'.afracs[i].1 := by
      have := List.getElem_of_eq hfst (i := i) (by simpa using h1)
      simpa using this
    have f1 := fraction_eq hc hpos (List.getElem_mem h1)
    have f2 := fraction_eq hc'' hpos (List.getElem_mem h2)
    rw [← hsum, ← e1, ← f1] at f2
    have hne : (m.afracs.map (fun e => inputFraction nodes e.1.name)).sum ≠ 0 := by
      intro h0
      rw [h0, mul_zero] at f1
      have := inputFraction_pos hpos (((hc.members _).1
        (List.mem_map_of_mem (f := Prod.fst) (List.getElem_mem h1))).2)
      linarith
    exact Prod.ext e1 (mul_right_cancel₀ hne f2).symm
  rcases m with ⟨a, b, c⟩
  rcases m' with ⟨a', b', c'⟩
  simp only at hname hden hsnd
  rw [hname, hden, hsnd]

/-- Cells with the same description made of the same surfaces and materials are equal. -/
theorem cellOf_unique {ss ss' : List SurfaceObj} {ms ms' : List Material} {t : ScalarField}
    {node node' : CellNode} {c c' : Cell} (hs : ∀ s, s ∈ ss ↔ s ∈ ss') (hm : ∀ m, m ∈ ms ↔ m ∈ ms')
    (hn : (ms.map Material.name).Nodup) (hu : (node.surfaces.map Prod.fst).Nodup)
    (h : SameCellNode node node') (hc : CellOf ss ms t node c) (hc' : CellOf ss' ms' t node' c') :
    c = c' := by
  have hsense : c.surfaceSenses = c'.surfaceSenses := by
    have h1 := hc.once
    have h2 := hc'.once
    rw [List.pairwise_map] at h1 h2
    have hnd : ∀ {l : List (SurfaceObj × Bool)}, l.Pairwise (fun a b => a.1.id < b.1.id) →
        l.Nodup := by
      intro l hl
      exact hl.imp (fun {a b} h hab => by rw [hab] at h; exact lt_irrefl _ h)
    refine List.Perm.eq_of_pairwise (fun a b _ _ h h' => absurd (h.trans h') (lt_irrefl _)) h1 h2 ?_
    refine (List.perm_ext_iff_of_nodup (hnd h1) (hnd h2)).2 ?_
    rintro ⟨s, b⟩
    rw [hc.senses, hc'.senses, hs]
    unfold FirstSense
    simp only [firstNamed_perm hu h.surfaces]
  have hmat : c.material = c'.material := by
    cases hv : node.isVoid with
    | true => rw [hc.void hv, hc'.void (h.isVoid ▸ hv)]
    | false =>
      obtain ⟨m, h1, h2, h3⟩ := hc.material hv
      obtain ⟨m', h1', h2', h3'⟩ := hc'.material (h.isVoid ▸ hv)
      rw [h2, h2']
      congr 1
      exact List.inj_on_of_nodup_map hn h1 ((hm _).2 h1') (h3.trans (h.material.trans h3'.symm))
  have hname : c.name = c'.name := by rw [hc.name, hc'.name, h.name]
  have htemp : c.temperature = c'.temperature := by rw [hc.temperature, hc'.temperature, h.temperature]
  rcases c with ⟨a, b, c, d⟩
  rcases c' with ⟨a', b', c', d'⟩
  simp only at hsense hmat hname htemp
  rw [hsense, hmat, hname, htemp]

/-- A reordered document gives a reordered world, when objects are placed at suitable addresses. -/
theorem reordered_world {doc doc' : Document} (h : Reordered doc doc') (hu : UniqueNames doc)
    (hw : WellFormed doc) {sa na : ℕ → ℕ} (hsa : Function.Injective sa)
    (hna : Function.Injective na) {w : World} (hc : create doc sa na = .ok w) :
    ∃ sa' na', Function.Injective sa' ∧ Function.Injective na' ∧
      ∃ w', create doc' sa' na' = .ok w' ∧ ReorderedWorld w w' := by
  have hu' := h.unique hu
  have hw' := h.wellFormed hw
  have hd := (C48_built_iff hw sa na).1.1 ⟨w, hc⟩
  have hd' := h.allDefined hu hd
  -- the names that are used
  obtain ⟨hs, hn, hm, ht, -⟩ := create_ok hc
  obtain ⟨s1, s2⟩ := createSurfaces_spec hs
  obtain ⟨xs, n0, n1, n2⟩ := createNuclides_spec hn
  obtain ⟨w1, hw1⟩ := (C48_built_iff hw' sa na).1.2 hd'
  obtain ⟨xs', n0', -, -⟩ := createNuclides_spec (create_ok hw1).2.1
  obtain ⟨sa', hsa', hsx⟩ := exists_addresses (L := (usedSurfaces doc).eraseDups)
    (L' := (usedSurfaces doc').eraseDups) (nodup_of_eraseDups rfl) (nodup_of_eraseDups rfl)
    (fun x => by rw [mem_eraseDups, mem_eraseDups]; exact h.usedSurfaces_iff x) hsa
  obtain ⟨na', hna', hnx⟩ := exists_addresses (L := xs.eraseDups)
    (L' := xs'.eraseDups) (nodup_of_eraseDups rfl) (nodup_of_eraseDups rfl)
    (fun x => by rw [mem_eraseDups, mem_eraseDups]; exact h.usedNuclides_iff hu n0 n0' x) hna
  obtain ⟨w', hc'⟩ := (C48_built_iff hw' sa' na').1.2 hd'
  obtain ⟨hs', hn', hm', ht', -⟩ := create_ok hc'
  obtain ⟨s1', s2'⟩ := createSurfaces_spec hs'
  obtain ⟨ys, n0'', n1', n2'⟩ := createNuclides_spec hn'
  rw [usedNuclides_unique n0'' n0'] at n1'
  have hsurf : w.surfaces.Perm w'.surfaces := by
    refine perm_of_names (nodup_of_eraseDups s1) (nodup_of_eraseDups s1') (fun x => ?_) ?_
    · rw [s1, s1', mem_eraseDups, mem_eraseDups]
      exact h.usedSurfaces_iff x
    · intro a ha b hb hab
      obtain ⟨i, hi, rfl⟩ := List.getElem_of_mem hb
      have hi' : i < (usedSurfaces doc').eraseDups.length := by rw [← s1']; simpa using hi
      obtain ⟨j, hj, h1, h2⟩ := hsx i hi'
      have hj' : j < w.surfaces.length := by rw [← s1] at hj; simpa using hj
      have h3 : w.surfaces[j].name = w'.surfaces[i].name := by
        have e1 := List.getElem_of_eq s1 (i := j) (by simpa using hj')
        have e2 := List.getElem_of_eq s1' (i := i) (by simpa using hi)
        simp only [List.getElem_map] at e1 e2
        rw [e1, e2, h1]
      have h4 : a = w.surfaces[j] := List.inj_on_of_nodup_map (nodup_of_eraseDups s1) ha
        (List.getElem_mem _) (hab.trans h3.symm)
      obtain ⟨n, f1, f2⟩ := s2 j hj'
      obtain ⟨n', f1', f2'⟩ := s2' i hi
      rw [h3] at f1
      have : n = n' := firstNamed_unique ((firstNamed_perm hu.surfaces h.surfaces).1 f1) f1'
      rw [h4, f2, f2', h2, this]
  have hnuc : w.nuclides.Perm w'.nuclides := by
    refine perm_of_names (nodup_of_eraseDups n1) (nodup_of_eraseDups n1') (fun x => ?_) ?_
    · rw [n1, n1', mem_eraseDups, mem_eraseDups]
      exact h.usedNuclides_iff hu n0 n0' x
    · intro a ha b hb hab
      obtain ⟨i, hi, rfl⟩ := List.getElem_of_mem hb
      have hi' : i < xs'.eraseDups.length := by rw [← n1']; simpa using hi
      obtain ⟨j, hj, h1, h2⟩ := hnx i hi'
      have hj' : j < w.nuclides.length := by rw [← n1] at hj; simpa using hj
      have h3 : w.nuclides[j].name = w'.nuclides[i].name := by
        have e1 := List.getElem_of_eq n1 (i := j) (by simpa using hj')
        have e2 := List.getElem_of_eq n1' (i := i) (by simpa using hi)
        simp only [List.getElem_map] at e1 e2
        rw [e1, e2, h1]
      have h4 : a = w.nuclides[j] := List.inj_on_of_nodup_map (nodup_of_eraseDups n1) ha
        (List.getElem_mem _) (hab.trans h3.symm)
      obtain ⟨n, f1, f2, f3, -⟩ := n2 j hj'
      obtain ⟨n', f1', f2', f3', -⟩ := n2' i hi
      rw [h3] at f1
      have : n = n' := firstNamed_unique ((firstNamed_perm hu.nuclides h.nuclides).1 f1) f1'
      rw [this, f2'] at f2
      have f4 := Except.ok.inj f2
      rw [h4]
      generalize w.nuclides[j] = u at *
      generalize w'.nuclides[i] = v at *
      rcases u with ⟨u1, u2, u3⟩
      rcases v with ⟨v1, v2, v3⟩
      simp only at h3 f3 f3' f4
      rw [f3, f3', h3, h2, f4]
  obtain ⟨m1, m2⟩ := C48_materials hw hna hc
  obtain ⟨m1', m2'⟩ := C48_materials hw' hna' hc'
  have hmat : w.materials.Perm w'.materials := by
    refine perm_of_names (nodup_of_eraseDups m1) (nodup_of_eraseDups m1') (fun x => ?_) ?_
    · rw [m1, m1', mem_eraseDups, mem_eraseDups]
      exact h.usedMaterials_iff x
    · intro a ha b hb hab
      obtain ⟨node, f1, f2, f3⟩ := m2 a ha
      obtain ⟨node', f1', f2', f3'⟩ := m2' b hb
      obtain ⟨node'', g1, g2⟩ := h.material hu f1
      rw [hab] at g1
      rw [firstNamed_unique g1 f1'] at g2
      exact composition_unique (fun n => hnuc.mem_iff) g2.nuclides
        (hu.fractions node (firstNamed_mem f1)) (hw.afracs node (firstNamed_mem f1)) f2 f2' hab
        (by rw [f3, f3', g2.aden])
  obtain ⟨c1, -, -, c4⟩ := C48_cells hw hsa hc
  obtain ⟨c1', -, -, c4'⟩ := C48_cells hw' hsa' hc'
  have htemp : w.temperature = w'.temperature := by rw [c4, c4', h.temperature]
  refine ⟨sa', na', hsa', hna', w', hc', hsurf, hnuc, hmat, htemp, ?_⟩
  obtain ⟨mid, p1, p2⟩ := h.cells
  obtain ⟨cells, q1, q2⟩ := List.perm_comp_forall₂ p1.symm c1
  refine q2.symm.trans ?_
  have : cells = w'.cells := by
    rw [List.forall₂_iff_get] at q1 p2 c1'
    refine List.ext_getElem (q1.1.symm.trans (p2.1.trans c1'.1)) fun i h1 h2 => ?_
    have k1 : i < mid.length := q1.1 ▸ h1
    have k2 : i < doc'.cells.length := p2.1 ▸ k1
    have r1 := q1.2 i k1 h1
    have r2 := p2.2 i k1 k2
    have r3 := c1'.2 i k2 h2
    rw [← htemp] at r3
    exact cellOf_unique (fun s => hsurf.mem_iff) (fun m => hmat.mem_iff) (nodup_of_eraseDups m1)
      (hu.senses _ (p1.mem_iff.2 (List.get_mem _ _))) r2 r1 r3
  rw [this]

end Minimc
