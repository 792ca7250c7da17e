import Verif.Spec.Placement
import Verif.Props.World

/-! # Lemmas about worlds built with different object addresses -/

namespace Minimc

open Spec Props

theorem usedNuclides_unique {doc : Document} {ms xs ys : List String}
    (h : UsedNuclides doc ms xs) (h' : UsedNuclides doc ms ys) : xs = ys := by
  induction h generalizing ys with
  | nil => cases h'; rfl
  | cons h1 _ ih =>
    cases h' with
    | cons h1' h2' => rw [firstNamed_unique h1 h1', ih h2']

/-- Lists with the same names whose members are determined by their names. -/
theorem forall₂_of_names {α β : Type} {nm : α → String} {nm' : β → String} {R : α → β → Prop} :
    ∀ {l : List α} {l' : List β}, l.map nm = l'.map nm' →
      (∀ a ∈ l, ∀ b ∈ l', nm a = nm' b → R a b) → List.Forall₂ R l l'
  | [], [], _, _ => .nil
  | [], _ :: _, h, _ => by simp at h
  | _ :: _, [], h, _ => by simp at h
  | a :: l, b :: l', h, hR => by
    simp only [List.map_cons, List.cons.injEq] at h
    exact .cons (hR a (by simp) b (by simp) h.1)
      (forall₂_of_names h.2 fun x hx y hy => hR x (by simp [hx]) y (by simp [hy]))

/-- The input fraction of a name. -/
noncomputable def inputFraction (nodes : List (String × ℝ)) (s : String) : ℝ :=
  ((nodes.find? (fun n => n.1 == s)).map Prod.snd).getD 0

theorem inputFraction_first {nodes : List (String × ℝ)} {s : String} (h : s ∈ nodes.map Prod.fst) :
    FirstNamed Prod.fst nodes s (s, inputFraction nodes s) := by
  obtain ⟨e, he, rfl⟩ := List.mem_map.1 h
  obtain ⟨n, hn⟩ := (firstNamed_exists Prod.fst nodes e.1).2 ⟨e, he, rfl⟩
  have h1 := (find_firstNamed Prod.fst nodes e.1 n).2 hn
  have h2 := firstNamed_name hn
  have : n = (e.1, inputFraction nodes e.1) := by
    rw [inputFraction, h1]
    rcases n with ⟨a, b⟩
    simp only at h2
    simp [h2]
  rwa [this] at hn

theorem inputFraction_pos {nodes : List (String × ℝ)} (hpos : ∀ n ∈ nodes, 0 < n.2) {s : String}
    (h : s ∈ nodes.map Prod.fst) : 0 < inputFraction nodes s :=
  hpos _ (firstNamed_mem (inputFraction_first h))

theorem names_nodup {all : List Nuclide} {nodes : List (String × ℝ)} {m : Material}
    (hn : (all.map Nuclide.name).Nodup) (hc : Composition all nodes m) :
    (m.afracs.map (fun e => e.1.name)).Nodup := by
  have h1 : (m.afracs.map Prod.fst).Nodup := by
    have : ((m.afracs.map Prod.fst).map Nuclide.id).Nodup := by
      rw [List.map_map]
      exact hc.once.imp (fun h => h.ne)
    exact this.of_map
  have h2 : ((m.afracs.map Prod.fst).map Nuclide.name).Nodup := by
    refine h1.map_on ?_
    intro x hx y hy hxy
    exact List.inj_on_of_nodup_map hn ((hc.members x).1 hx).1 ((hc.members y).1 hy).1 hxy
  rwa [List.map_map] at h2

/-- Fractions are the input fractions divided by their sum over the nuclides. -/
theorem fraction_eq {all : List Nuclide} {nodes : List (String × ℝ)} {m : Material}
    (hc : Composition all nodes m) (hpos : ∀ n ∈ nodes, 0 < n.2)
    {e : Nuclide × ℝ} (he : e ∈ m.afracs) :
    e.2 * (m.afracs.map (fun e => inputFraction nodes e.1.name)).sum =
      inputFraction nodes e.1.name := by
  have hin : ∀ e ∈ m.afracs, e.1.name ∈ nodes.map Prod.fst := fun e he =>
    ((hc.members e.1).1 (List.mem_map.2 ⟨e, he, rfl⟩)).2
  have hne : nodes ≠ [] := by
    rintro rfl
    simpa using hin e he
  have hsum := hc.sum_one hne
  have key : (m.afracs.map (fun e' => e.2 * inputFraction nodes e'.1.name)).sum =
      (m.afracs.map (fun e' => inputFraction nodes e.1.name * e'.2)).sum := by
    congr 1
    refine List.map_congr_left fun e' he' => ?_
    have := hc.ratio e.1 e.2 e'.1 e'.2 _ _ he he' (inputFraction_first (hin e he))
      (inputFraction_first (hin e' he'))
    rw [this, mul_comm]
  rw [List.sum_map_mul_left, List.sum_map_mul_left] at key
  rw [key, hsum, mul_one]

/-- Materials built from the same nodes and the same nuclides are the same. -/
theorem sameMaterial_of_composition {all all' : List Nuclide} {nodes : List (String × ℝ)}
    {m m' : Material} (hall : List.Forall₂ SameNuclide all all')
    (hn : (all.map Nuclide.name).Nodup) (hn' : (all'.map Nuclide.name).Nodup)
    (hpos : ∀ n ∈ nodes, 0 < n.2) (hc : Composition all nodes m) (hc' : Composition all' nodes m')
    (hname : m.name = m'.name) (hden : m.numberDensity = m'.numberDensity) :
    SameMaterial m m' := by
  refine ⟨hname, hden, ?_⟩
  have hnd := names_nodup hn hc
  have hnd' := names_nodup hn' hc'
  -- every nuclide of one material is in the other
  have half : ∀ {all all' : List Nuclide} {m m' : Material},
      List.Forall₂ SameNuclide all all' → Composition all nodes m → Composition all' nodes m' →
      ∀ e ∈ m.afracs, ∃ e' ∈ m'.afracs, e'.1.name = e.1.name ∧ e'.1.xs = e.1.xs := by
    intro all all' m m' hall hc hc' e he
    obtain ⟨h1, h2⟩ := (hc.members e.1).1 (List.mem_map.2 ⟨e, he, rfl⟩)
    obtain ⟨i, hi, h3⟩ := List.getElem_of_mem h1
    rw [List.forall₂_iff_get] at hall
    have hs := hall.2 i hi (hall.1 ▸ hi)
    simp only [List.get_eq_getElem, h3] at hs
    have := (hc'.members (all'[i]'(hall.1 ▸ hi))).2 ⟨List.getElem_mem _, by rwa [← hs.name]⟩
    obtain ⟨e', he', h4⟩ := List.mem_map.1 this
    exact ⟨e', he', by rw [h4, hs.name], by rw [h4, hs.xs]⟩
  have hsymm : List.Forall₂ SameNuclide all' all :=
    hall.flip.imp fun a b h => ⟨h.name.symm, h.xs.symm⟩
  have hX : (m.afracs.map (fun e => inputFraction nodes e.1.name)).sum =
      (m'.afracs.map (fun e => inputFraction nodes e.1.name)).sum := by
    have hp : (m.afracs.map (fun e => e.1.name)).Perm (m'.afracs.map (fun e => e.1.name)) := by
      rw [List.perm_ext_iff_of_nodup hnd hnd']
      intro s
      simp only [List.mem_map]
      constructor
      · rintro ⟨e, he, rfl⟩
        obtain ⟨e', he', h, _⟩ := half hall hc hc' e he
        exact ⟨e', he', h⟩
      · rintro ⟨e, he, rfl⟩
        obtain ⟨e', he', h, _⟩ := half hsymm hc' hc e he
        exact ⟨e', he', h⟩
    have := (hp.map (inputFraction nodes)).sum_eq
    simpa only [List.map_map, Function.comp_def] using this
  have hfrac : ∀ e ∈ m.afracs, ∀ e' ∈ m'.afracs, e'.1.name = e.1.name → e'.2 = e.2 := by
    intro e he e' he' h
    have h1 := fraction_eq hc hpos he
    have h2 := fraction_eq hc' hpos he'
    rw [← hX, h, ← h1] at h2
    have hin : e.1.name ∈ nodes.map Prod.fst :=
      ((hc.members e.1).1 (List.mem_map.2 ⟨e, he, rfl⟩)).2
    have h3 := inputFraction_pos hpos hin
    rw [← h1] at h3
    have hne : (m.afracs.map (fun e => inputFraction nodes e.1.name)).sum ≠ 0 := by
      intro h0
      rw [h0, mul_zero] at h3
      exact lt_irrefl _ h3
    exact mul_right_cancel₀ hne h2
  have nod : ∀ {m : Material}, (m.afracs.map (fun e => e.1.name)).Nodup →
      (m.afracs.map (fun e => (e.1.name, e.1.xs, e.2))).Nodup := by
    intro m h
    refine List.Nodup.of_map Prod.fst ?_
    rwa [List.map_map]
  rw [List.perm_ext_iff_of_nodup (nod hnd) (nod hnd')]
  rintro ⟨s, x, f⟩
  simp only [List.mem_map, Prod.mk.injEq]
  constructor
  · rintro ⟨e, he, rfl, rfl, rfl⟩
    obtain ⟨e', he', h1, h2⟩ := half hall hc hc' e he
    exact ⟨e', he', h1, h2, hfrac e he e' he' h1⟩
  · rintro ⟨e, he, rfl, rfl, rfl⟩
    obtain ⟨e', he', h1, h2⟩ := half hsymm hc' hc e he
    exact ⟨e', he', h1, h2, (hfrac e' he' e he h1.symm).symm⟩

/-- Cells made from the same node are the same. -/
theorem sameCell_of_cellOf {surfaces surfaces' : List SurfaceObj}
    {materials materials' : List Material} {t : ScalarField} {node : CellNode} {c c' : Cell}
    (hs : List.Forall₂ SameSurface surfaces surfaces')
    (hn : (surfaces.map SurfaceObj.name).Nodup) (hn' : (surfaces'.map SurfaceObj.name).Nodup)
    (hm : ∀ m ∈ materials, ∀ m' ∈ materials', m.name = m'.name → SameMaterial m m')
    (h : CellOf surfaces materials t node c) (h' : CellOf surfaces' materials' t node c') :
    SameCell c c' := by
  refine ⟨h.name.trans h'.name.symm, h.temperature.trans h'.temperature.symm, ?_, ?_⟩
  · have nod : ∀ {surfaces : List SurfaceObj} {materials : List Material} {c : Cell},
        (surfaces.map SurfaceObj.name).Nodup → CellOf surfaces materials t node c →
        (c.surfaceSenses.map (fun e => (e.1.name, e.1.shape, e.2))).Nodup := by
      intro surfaces materials c hn h
      have h1 : (c.surfaceSenses.map Prod.fst).Nodup := by
        have : ((c.surfaceSenses.map Prod.fst).map SurfaceObj.id).Nodup := by
          rw [List.map_map]
          exact h.once.imp (fun h => h.ne)
        exact this.of_map
      have h2 : ((c.surfaceSenses.map Prod.fst).map SurfaceObj.name).Nodup := by
        refine h1.map_on ?_
        intro x hx y hy hxy
        obtain ⟨e, he, rfl⟩ := List.mem_map.1 hx
        obtain ⟨e', he', rfl⟩ := List.mem_map.1 hy
        exact List.inj_on_of_nodup_map hn ((h.senses e.1 e.2).1 he).1 ((h.senses e'.1 e'.2).1 he').1
          hxy
      refine List.Nodup.of_map Prod.fst ?_
      rw [List.map_map] at h2 ⊢
      exact h2
    have half : ∀ {surfaces surfaces' : List SurfaceObj} {materials materials' : List Material}
        {c c' : Cell}, List.Forall₂ SameSurface surfaces surfaces' →
        CellOf surfaces materials t node c → CellOf surfaces' materials' t node c' →
        ∀ e ∈ c.surfaceSenses, ∃ e' ∈ c'.surfaceSenses,
          e'.1.name = e.1.name ∧ e'.1.shape = e.1.shape ∧ e'.2 = e.2 := by
      intro surfaces surfaces' materials materials' c c' hs h h' e he
      obtain ⟨h1, h2⟩ := (h.senses e.1 e.2).1 he
      obtain ⟨i, hi, h3⟩ := List.getElem_of_mem h1
      rw [List.forall₂_iff_get] at hs
      have hss := hs.2 i hi (hs.1 ▸ hi)
      simp only [List.get_eq_getElem, h3] at hss
      exact ⟨(surfaces'[i]'(hs.1 ▸ hi), e.2),
        (h'.senses _ _).2 ⟨List.getElem_mem _, by rwa [← hss.name]⟩, hss.name.symm,
        hss.shape.symm, rfl⟩
    rw [List.perm_ext_iff_of_nodup (nod hn h) (nod hn' h')]
    rintro ⟨s, x, f⟩
    simp only [List.mem_map, Prod.mk.injEq]
    constructor
    · rintro ⟨e, he, rfl, rfl, rfl⟩
      exact half hs h h' e he
    · rintro ⟨e, he, rfl, rfl, rfl⟩
      exact half (hs.flip.imp fun a b h => ⟨h.name.symm, h.shape.symm⟩) h' h e he
  · rcases hv : node.isVoid with _ | _
    · obtain ⟨m, hm1, hm2, hm3⟩ := h.material hv
      obtain ⟨m', hm1', hm2', hm3'⟩ := h'.material hv
      rw [hm2, hm2']
      exact .some (hm m hm1 m' hm1' (hm3.trans hm3'.symm))
    · rw [h.void hv, h'.void hv]
      exact .none

end Minimc
