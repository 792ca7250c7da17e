import Verif.Lemmas.Placement
import Verif.Lemmas.Absorber
import Verif.Props.Geometry
import Verif.Props.Transport

/-! # Property C52: independence of the placement of objects in memory -/

namespace Minimc.Props

open Classical Spec WorldBuild

/-- **C52** Whatever the addresses, the same world is built from a document, up to the order in
which materials and cells list their nuclides and surfaces. -/
theorem C52_world {doc : Document} (hw : WellFormed doc) {sa na sa' na' : ℕ → ℕ}
    (hsa : Function.Injective sa) (hna : Function.Injective na) (hsa' : Function.Injective sa')
    (hna' : Function.Injective na') {w : World} (h : create doc sa na = .ok w) :
    ∃ w', create doc sa' na' = .ok w' ∧ SameWorld w w' := by
  obtain ⟨w', h'⟩ := (C48_built_iff hw sa' na').1.2 ((C48_built_iff hw sa na).1.1 ⟨w, h⟩)
  refine ⟨w', h', ?_⟩
  obtain ⟨hs1, hs2⟩ := C48_surfaces h
  obtain ⟨hs1', hs2'⟩ := C48_surfaces h'
  obtain ⟨xs, hx, hn1, hn2⟩ := C48_nuclides h
  obtain ⟨xs', hx', hn1', hn2'⟩ := C48_nuclides h'
  obtain ⟨hm1, hm2⟩ := C48_materials hw hna h
  obtain ⟨hm1', hm2'⟩ := C48_materials hw hna' h'
  obtain ⟨hc, hnd, -, ht⟩ := C48_cells hw hsa h
  obtain ⟨hc', hnd', -, ht'⟩ := C48_cells hw hsa' h'
  have hsurf : List.Forall₂ SameSurface w.surfaces w'.surfaces := by
    refine forall₂_of_names (hs1.trans hs1'.symm) fun s hs s' hs' hss => ⟨hss, ?_⟩
    obtain ⟨n, h1, h2⟩ := hs2 s hs
    obtain ⟨n', h1', h2'⟩ := hs2' s' hs'
    rw [hss] at h1
    rw [h2, h2', firstNamed_unique h1 h1']
  have hnuc : List.Forall₂ SameNuclide w.nuclides w'.nuclides := by
    refine forall₂_of_names (hn1.trans (by rw [usedNuclides_unique hx hx', ← hn1']))
      fun n hn n' hn' hnn => ⟨hnn, ?_⟩
    obtain ⟨a, h1, h2⟩ := hn2 n hn
    obtain ⟨a', h1', h2'⟩ := hn2' n' hn'
    rw [hnn] at h1
    rw [firstNamed_unique h1 h1', h2'] at h2
    simpa using h2.symm
  have hmat : ∀ m ∈ w.materials, ∀ m' ∈ w'.materials, m.name = m'.name → SameMaterial m m' := by
    intro m hm m' hm' hmm
    obtain ⟨node, h1, h2, h3⟩ := hm2 m hm
    obtain ⟨node', h1', h2', h3'⟩ := hm2' m' hm'
    rw [hmm] at h1
    have hnode := firstNamed_unique h1 h1'
    subst hnode
    exact sameMaterial_of_composition hnuc (nodup_of_eraseDups hn1) (nodup_of_eraseDups hn1')
      (hw.afracs node (firstNamed_mem h1)) h2 h2' hmm (h3.trans h3'.symm)
  have htt := ht.trans ht'.symm
  refine ⟨hsurf, hnuc, forall₂_of_names (hm1.trans hm1'.symm) hmat, htt, ?_⟩
  rw [List.forall₂_iff_get] at hc hc' ⊢
  refine ⟨hc.1.symm.trans hc'.1, fun i hi hi' => ?_⟩
  have h1 := hc.2 i (hc.1 ▸ hi) hi
  have h2 := hc'.2 i (hc.1 ▸ hi) hi'
  rw [← htt] at h2
  exact sameCell_of_cellOf hsurf hnd hnd' hmat h1 h2

theorem sameCell_contains {c c' : Cell} (h : SameCell c c') (p : Point) :
    c.contains p = c'.contains p := by
  have hall : ∀ c : Cell, c.contains p =
      (c.surfaceSenses.map (fun e => (e.1.name, e.1.shape, e.2))).all
        (fun t => t.2.1.contains p == t.2.2) := by
    intro c
    rw [Cell.contains, List.all_map]
    rfl
  rw [hall, hall]
  exact h.surfaces.all_eq

/-- **C52** The cell found for a point is the same. -/
theorem C52_cell {w w' : World} (h : SameWorld w w') (p : Point) :
    (∀ c, w.findCellContaining p = .ok c →
      ∃ c', w'.findCellContaining p = .ok c' ∧ SameCell c c') ∧
    (∀ e, w.findCellContaining p = .error e → w'.findCellContaining p = .error e) := by
  have key : ∀ (l l' : List Cell), List.Forall₂ SameCell l l' →
      Option.Rel SameCell (l.find? (fun c => c.contains p)) (l'.find? (fun c => c.contains p)) := by
    intro l l' hl
    induction hl with
    | nil => exact .none
    | cons hcc _ ih =>
      rw [List.find?_cons, List.find?_cons, sameCell_contains hcc p]
      split
      · exact .some hcc
      · exact ih
  have hk := key _ _ h.cells
  unfold World.findCellContaining
  revert hk
  generalize w.cells.find? (fun c => c.contains p) = a
  generalize w'.cells.find? (fun c => c.contains p) = b
  intro hk
  cases hk with
  | none => exact ⟨fun c hc => (by cases hc), fun e he => he⟩
  | @some c c' hcc =>
    refine ⟨fun d hd => ?_, fun e he => by cases he⟩
    simp only [Except.ok.injEq] at hd
    exact ⟨c', rfl, hd ▸ hcc⟩

/-- **C52** The distance to the nearest surface of a cell is the same, and so is the surface
unless another one is equally near.  Missing from C52: surfaces that are equally near, for which
the code is wrong (below). -/
theorem C52_surface_partial {c c' : Cell} (h : SameCell c c') {p : Point} {d : Direction}
    {s : SurfaceObj} {t : WithTop ℝ} (hs : c.nearestSurface p d = .ok (s, t)) :
    ∃ s', c'.nearestSurface p d = .ok (s', t) ∧
      ((∀ e ∈ c.surfaceSenses, e.1.shape.distance p d = t → e.1 = s) → SameSurface s s') := by
  obtain ⟨h1, h2, l, b, r, h3, -⟩ := C07_nearest hs
  have hne : c'.surfaceSenses ≠ [] := by
    intro h0
    have := h.surfaces.length_eq
    rw [h0, h3] at this
    simp at this
  obtain ⟨⟨s', t'⟩, hs'⟩ := (C07_raises_iff_no_surfaces c' p d).2 hne
  obtain ⟨h1', h2', l', b', r', h3', -⟩ := C07_nearest hs'
  have hmem : (s', b') ∈ c'.surfaceSenses := by rw [h3']; simp
  have hmem0 : (s, b) ∈ c.surfaceSenses := by rw [h3]; simp
  obtain ⟨e, he, hee⟩ := List.mem_map.1 (h.surfaces.mem_iff.2
    (List.mem_map.2 ⟨(s', b'), hmem, rfl⟩))
  obtain ⟨e0, he0, hee0⟩ := List.mem_map.1 (h.surfaces.mem_iff.1
    (List.mem_map.2 ⟨(s, b), hmem0, rfl⟩))
  simp only [Prod.mk.injEq] at hee hee0
  have htt : t = t' := by
    refine le_antisymm ?_ ?_
    · rw [h1', ← hee.2.1]
      exact h2 e he
    · rw [h1, ← hee0.2.1]
      exact h2' e0 he0
  refine ⟨s', htt ▸ hs', fun huniq => ?_⟩
  have := huniq e he (by rw [hee.2.1, htt, h1'])
  exact ⟨by rw [← this, hee.1], by rw [← this, hee.2.1]⟩

/-- **C52** Cells with and without surfaces are the same ones. -/
theorem C52_no_surface {c c' : Cell} (h : SameCell c c') {p : Point} {d : Direction} {e : Err}
    (he : c.nearestSurface p d = .error e) : c'.nearestSurface p d = .error e := by
  have hl := h.surfaces.length_eq
  simp only [List.length_map] at hl
  unfold Cell.nearestSurface at he ⊢
  rcases h1 : c.surfaceSenses with _ | ⟨x, y⟩
  · rw [h1] at he hl
    have : c'.surfaceSenses = [] := List.length_eq_zero_iff.1 hl.symm
    rw [this]
    exact he
  · rw [h1] at he
    cases he

theorem xs_getTotal {n n' : Nuclide} (h : n.xs = n'.xs) (p : Particle) :
    n.getTotal p = n'.getTotal p := by
  simp only [Nuclide.getTotal, Nuclide.xsAt, h]

theorem xs_getMajorant {n n' : Nuclide} (h : n.xs = n'.xs) (p : Particle) :
    n.getMajorant p = n'.getMajorant p := by
  simp only [Nuclide.getMajorant, Nuclide.xsAt, h]

theorem sumLoop_ok_iff {α : Type} {f : α → Res ℝ} : ∀ {l : List α} {a x : ℝ},
    sumLoop f a l = .ok x ↔ ∃ v : List ℝ, l.map f = v.map .ok ∧ x = a + v.sum
  | [], a, x => by
    simp only [sumLoop, Except.ok.injEq, List.map_nil]
    constructor
    · rintro rfl; exact ⟨[], rfl, by simp⟩
    · rintro ⟨v, hv, rfl⟩
      rw [List.map_eq_nil_iff.1 hv.symm]; simp
  | y :: l, a, x => by
    simp only [sumLoop, res_bind_ok, sumLoop_ok_iff (l := l)]
    constructor
    · rintro ⟨b, hb, v, hv, rfl⟩
      exact ⟨b :: v, by simp [hb, hv], by simp [add_assoc]⟩
    · rintro ⟨v, hv, rfl⟩
      rcases v with _ | ⟨b, v⟩
      · simp at hv
      · simp only [List.map_cons, List.cons.injEq] at hv
        exact ⟨b, hv.1, v, hv.2, by simp [add_assoc]⟩

theorem sumLoop_perm {α β : Type} {f : α → Res ℝ} {g : β → Res ℝ} {l : List α} {l' : List β}
    (h : (l.map f).Perm (l'.map g)) {a x : ℝ} (hx : sumLoop f a l = .ok x) :
    sumLoop g a l' = .ok x := by
  obtain ⟨v, hv, rfl⟩ := sumLoop_ok_iff.1 hx
  rw [hv] at h
  have hval : ∀ y ∈ l'.map g, ∃ z, y = .ok z := by
    intro y hy
    obtain ⟨z, _, rfl⟩ := List.mem_map.1 (h.mem_iff.2 hy)
    exact ⟨z, rfl⟩
  have hval' : l'.map g = ((l'.map g).map (fun y => match y with | .ok z => z | .error _ => 0)).map
      Except.ok := by
    rw [List.map_map, List.map_map]
    refine List.map_congr_left fun y hy => ?_
    obtain ⟨z, hz⟩ := hval (g y) (List.mem_map.2 ⟨y, hy, rfl⟩)
    simp [hz]
  refine sumLoop_ok_iff.2 ⟨_, hval', ?_⟩
  have := h.map (fun y : Res ℝ => match y with | .ok z => z | .error _ => 0)
  rw [List.map_map] at this
  have hid : v.map ((fun y : Res ℝ => match y with | .ok z => z | .error _ => 0) ∘ Except.ok) = v := by
    conv_rhs => rw [← List.map_id v]
    rfl
  rw [hid] at this
  rw [this.sum_eq]

/-- **C52** The cross sections of a material are the same (in exact arithmetic). -/
theorem C52_cross_sections {m m' : Material} (h : SameMaterial m m') {c c' : Cell}
    (hcc : SameCell c c') {p : Particle} (hp : p.cell = some c) {x : ℝ} :
    (m.getMicroscopicTotal p = .ok x →
      m'.getMicroscopicTotal { p with cell := some c' } = .ok x) ∧
    (m.getMicroscopicMajorant p = .ok x →
      m'.getMicroscopicMajorant { p with cell := some c' } = .ok x) := by
  have hT : ({ p with cell := some c' } : Particle).temperatureAt = p.temperatureAt := by
    simp only [Particle.temperatureAt, Particle.getCell, hp, bind, Except.bind, hcc.temperature]
  have hU : ({ p with cell := some c' } : Particle).temperatureUpper = p.temperatureUpper := by
    simp only [Particle.temperatureUpper, Particle.getCell, hp, bind, Except.bind, hcc.temperature]
  rw [m'.getMicroscopicTotal_congr (p := { p with cell := some c' }) (q := p) rfl rfl hT,
    m'.getMicroscopicMajorant_congr (p := { p with cell := some c' }) (q := p) rfl rfl hU]
  constructor
  · intro hx
    unfold Material.getMicroscopicTotal at hx ⊢
    rw [noexcept_eq_ok] at hx ⊢
    refine sumLoop_perm ?_ hx
    have := h.fractions.map (fun t : String × (ParticleType → Option Interaction) × ℝ =>
      (do .ok (t.2.2 * (← (Nuclide.mk 0 "" t.2.1).getTotal p)) : Res ℝ))
    rw [List.map_map, List.map_map] at this
    exact this
  · intro hx
    unfold Material.getMicroscopicMajorant at hx ⊢
    rw [noexcept_eq_ok] at hx ⊢
    refine sumLoop_perm ?_ hx
    have := h.fractions.map (fun t : String × (ParticleType → Option Interaction) × ℝ =>
      (do .ok (t.2.2 * (← (Nuclide.mk 0 "" t.2.1).getMajorant p)) : Res ℝ))
    rw [List.map_map, List.map_map] at this
    exact this

/-- **C52** The probability of meeting a nuclide is the same. -/
theorem C52_probability {m m' : Material} (h : SameMaterial m m') {c c' : Cell}
    (hcc : SameCell c c') {p : Particle} (hp : p.cell = some c) {σ σ' : Nuclide → ℝ}
    (hσ : ∀ e ∈ m.afracs, e.1.getTotal p = .ok (σ e.1))
    (hσ' : ∀ e ∈ m'.afracs, e.1.getTotal { p with cell := some c' } = .ok (σ' e.1))
    (hσ0 : ∀ e ∈ m.afracs, 0 ≤ e.2 * σ e.1) (hpos : 0 < (shares m σ).sum) {i j : ℕ}
    (hi : i < m.afracs.length) (hj : j < m'.afracs.length)
    (hxs : m.afracs[i].1.xs = m'.afracs[j].1.xs) (hf : m.afracs[i].2 = m'.afracs[j].2) :
    prob {u | Selected (shares m σ) (u * (shares m σ).sum) i} =
      prob {u | Selected (shares m' σ') (u * (shares m' σ').sum) j} := by
  have hT : ({ p with cell := some c' } : Particle).temperatureAt = p.temperatureAt := by
    simp only [Particle.temperatureAt, Particle.getCell, hp, bind, Except.bind, hcc.temperature]
  -- the same data have the same total
  have hsame : ∀ e ∈ m.afracs, ∀ e' ∈ m'.afracs, e.1.xs = e'.1.xs → σ e.1 = σ' e'.1 := by
    intro e he e' he' hxs
    have h1 := hσ e he
    have h2 := hσ' e' he'
    rw [e'.1.getTotal_congr (p := { p with cell := some c' }) (q := p) rfl rfl hT,
      ← xs_getTotal hxs, h1] at h2
    simpa using h2
  have hperm : (shares m σ).Perm (shares m' σ') := by
    let τ : (ParticleType → Option Interaction) → ℝ := fun x =>
      match (Nuclide.mk 0 "" x).getTotal p with
      | .ok v => v
      | .error _ => 0
    have hτ : shares m σ = (m.afracs.map (fun e => (e.1.name, e.1.xs, e.2))).map
        (fun t => t.2.2 * τ t.2.1) := by
      rw [shares, List.map_map]
      refine List.map_congr_left fun e he => ?_
      have h1 : (Nuclide.mk 0 "" e.1.xs).getTotal p = .ok (σ e.1) := by
        rw [xs_getTotal (n := Nuclide.mk 0 "" e.1.xs) (n' := e.1) rfl p, hσ e he]
      simp only [Function.comp_apply, τ, h1]
    have hτ' : shares m' σ' = (m'.afracs.map (fun e => (e.1.name, e.1.xs, e.2))).map
        (fun t => t.2.2 * τ t.2.1) := by
      rw [shares, List.map_map]
      refine List.map_congr_left fun e he => ?_
      have h1 : (Nuclide.mk 0 "" e.1.xs).getTotal p = .ok (σ' e.1) := by
        rw [xs_getTotal (n := Nuclide.mk 0 "" e.1.xs) (n' := e.1) rfl p,
          ← e.1.getTotal_congr (p := { p with cell := some c' }) (q := p) rfl rfl hT, hσ' e he]
      simp only [Function.comp_apply, τ, h1]
    rw [hτ, hτ']
    exact h.fractions.map _
  have hs := hperm.sum_eq
  have hσ0' : ∀ e ∈ m'.afracs, 0 ≤ e.2 * σ' e.1 := by
    intro e he
    have : e.2 * σ' e.1 ∈ shares m σ := hperm.mem_iff.2 (List.mem_map.2 ⟨e, he, rfl⟩)
    obtain ⟨e', he', h'⟩ := List.mem_map.1 this
    rw [← h']
    exact hσ0 e' he'
  rw [C24_probability hσ0 hpos hi, C24_probability hσ0' (hs ▸ hpos) hj, hf, hs,
    hsame _ (List.getElem_mem hi) _ (List.getElem_mem hj) hxs]

/-- **C52** In a material of one nuclide the sampled nuclide is the same.  Missing from C52:
materials of several nuclides, for which the code is wrong (below). -/
theorem C52_nuclide_partial {c c' : Cell} (hcc : SameCell c c') {m : Material}
    (hm : c.material = some m) (h1 : m.afracs.length = 1) {p q : Particle} (hp : p.cell = some c)
    {n : Nuclide} (h : p.sampleNuclide = .ok (n, q)) :
    ∃ n', ({ p with cell := some c' } : Particle).sampleNuclide =
      .ok (n', { q with cell := some c' }) ∧ SameNuclide n n' := by
  have hmat := hcc.material
  rw [hm] at hmat
  rcases hm' : c'.material with _ | m'
  · rw [hm'] at hmat; cases hmat
  rw [hm'] at hmat
  have hmm : SameMaterial m m' := by cases hmat with | some h => exact h
  obtain ⟨⟨a, f⟩, ha⟩ := List.length_eq_one_iff.1 h1
  obtain ⟨⟨a', f'⟩, ha'⟩ := List.length_eq_one_iff.1
    (by simpa using hmm.fractions.length_eq.symm.trans (by simpa using h1) : m'.afracs.length = 1)
  have hperm := hmm.fractions
  rw [ha, ha'] at hperm
  simp only [List.map_cons, List.map_nil, List.perm_singleton, List.cons.injEq, Prod.mk.injEq,
    and_true] at hperm
  obtain ⟨hn, hx, hf⟩ := hperm
  have hT : ∀ g, ({ p with cell := some c', rng := g } : Particle).temperatureAt =
      p.temperatureAt := by
    intro g
    simp only [Particle.temperatureAt, Particle.getCell, hp, bind, Except.bind, hcc.temperature]
  have htot : ∀ g, a'.getTotal { p with cell := some c', rng := g } = a.getTotal p := by
    intro g
    rw [a'.getTotal_congr (p := { p with cell := some c', rng := g }) (q := p) rfl rfl (hT g),
      xs_getTotal hx]
  have htotal : m'.getMicroscopicTotal { p with cell := some c' } = m.getMicroscopicTotal p := by
    rw [Material.getMicroscopicTotal, Material.getMicroscopicTotal, ha, ha']
    simp only [sumLoop]
    rw [htot p.rng, hf]
  have hsel : ∀ t, m'.selectNuclide { p with cell := some c', rng := (Rng.canonical p.rng).2 } t =
      (m.selectNuclide { p with rng := (Rng.canonical p.rng).2 } t).map
        (fun o => o.map (fun _ => (a', f'))) := by
    intro t
    rw [Material.selectNuclide, Material.selectNuclide, ha, ha']
    simp only [selectLoop]
    rw [a.getTotal_rng p (Rng.canonical p.rng).2, htot (Rng.canonical p.rng).2, hf]
    rcases a.getTotal p with e | x
    · rfl
    · simp only [bind, Except.bind]
      split <;> rfl
  have hmem : ∀ {t e}, m.selectNuclide { p with rng := (Rng.canonical p.rng).2 } t = .ok (some e) →
      e = (a, f) := by
    intro t e he
    rw [Material.selectNuclide, ha] at he
    simp only [selectLoop, res_bind_ok] at he
    obtain ⟨x, _, he⟩ := he
    split at he
    · simpa using he.symm
    · simp at he
  have hu : p.materialOrUB = .ok m := by simp [Particle.materialOrUB, hp, hm]
  have hu' : ({ p with cell := some c' } : Particle).materialOrUB = .ok m' := by
    simp [Particle.materialOrUB, hm']
  unfold Particle.sampleNuclide at h ⊢
  rw [noexcept_eq_ok, hu] at h
  simp only [res_bind_ok, Except.ok.injEq, exists_eq_left', Particle.sample] at h
  obtain ⟨x, hx', o, ho, h⟩ := h
  rcases o with _ | e
  · cases h
  have hea := hmem ho
  subst hea
  simp only [Except.ok.injEq, Prod.mk.injEq] at h
  obtain ⟨rfl, rfl⟩ := h
  refine ⟨a', ?_, ⟨hn, hx⟩⟩
  rw [noexcept_eq_ok, hu']
  simp only [res_bind_ok, Except.ok.injEq, exists_eq_left', Particle.sample]
  refine ⟨x, htotal.trans hx', some (a', f'), ?_, rfl⟩
  rw [hsel, ho]
  rfl

/-- A document used below: one cell bounded by a plane and a sphere, filled with two nuclides. -/
noncomputable def pairDoc : Document where
  surfaces := [⟨"p", .planeX 3⟩, ⟨"s", .sphere ⟨0, 0, 0⟩ 5⟩]
  materials := [⟨"mix", 1, [("a", 1), ("b", 1)]⟩]
  nuclides := [⟨"a", .ok (absorber 0 "a" 2).xs⟩, ⟨"b", .ok (absorber 0 "b" 2).xs⟩]
  temperature := none
  cells := [⟨false, some "c", "mix", none, [("p", .minus), ("s", .minus)]⟩]

theorem pairDoc_wellFormed : WellFormed pairDoc where
  senses := by
    simp only [pairDoc, List.mem_singleton]
    rintro c rfl s hs
    simp only [List.mem_cons, List.not_mem_nil, or_false] at hs
    rcases hs with rfl | rfl <;> simp
  names := by simp [pairDoc]
  afracs := by
    simp only [pairDoc, List.mem_singleton]
    rintro c rfl s hs
    simp only [List.mem_cons, List.not_mem_nil, or_false] at hs
    rcases hs with rfl | rfl <;> simp

/-- Addresses in the opposite order. -/
def swapped : ℕ → ℕ := Equiv.swap 0 1

theorem swapped_injective : Function.Injective swapped := (Equiv.swap 0 1).injective

/-- The cell of `pairDoc` with addresses in order of creation. -/
noncomputable def pairCell : Cell :=
  ⟨"c", [(⟨0, "p", .planeX 3⟩, true), (⟨1, "s", .sphere ⟨0, 0, 0⟩ 5⟩, true)],
    some ⟨"mix", [(absorber 0 "a" 2, 1 / 2), (absorber 1 "b" 2, 1 / 2)], 1⟩,
    .constant roomTemperature⟩

/-- The cell of `pairDoc` with addresses in the opposite order. -/
noncomputable def pairCell' : Cell :=
  ⟨"c", [(⟨0, "s", .sphere ⟨0, 0, 0⟩ 5⟩, true), (⟨1, "p", .planeX 3⟩, true)],
    some ⟨"mix", [(absorber 0 "b" 2, 1 / 2), (absorber 1 "a" 2, 1 / 2)], 1⟩,
    .constant roomTemperature⟩

theorem pairDoc_world : ∃ w, create pairDoc id id = .ok w ∧ w.cells = [pairCell] := by
  simp [create, createSurfaces, pairDoc, addSurfaces, createSurface, createNuclides,
    addCellNuclides, findMaterialNode, addNuclides, createNuclide, addMaterials, createMaterial,
    Material.create, Material.assignNuclides, Material.collect, emplaceByAddr, Material.sumAfrac,
    createCells, createCell, noexcept, assignSurfaceSenses, assignMaterial, assignTemperature,
    createTemperature, bind, Except.bind, pure, Except.pure, one_add_one_eq_two, absorber, pairCell]

theorem pairDoc_world' : ∃ w, create pairDoc swapped swapped = .ok w ∧ w.cells = [pairCell'] := by
  have h0 : swapped 0 = 1 := by decide
  have h1 : swapped 1 = 0 := by decide
  simp [create, createSurfaces, pairDoc, addSurfaces, createSurface, createNuclides,
    addCellNuclides, findMaterialNode, addNuclides, createNuclide, addMaterials, createMaterial,
    Material.create, Material.assignNuclides, Material.collect, emplaceByAddr, Material.sumAfrac,
    createCells, createCell, noexcept, assignSurfaceSenses, assignMaterial, assignTemperature,
    createTemperature, bind, Except.bind, pure, Except.pure, one_add_one_eq_two, absorber, pairCell', h0, h1]

theorem point_sub (a b : Point) : a - b = ⟨a.x - b.x, a.y - b.y, a.z - b.z⟩ := rfl

theorem pair_find {w : World} {c : Cell} (hw : w.cells = [c])
    (hc : c = pairCell ∨ c = pairCell') : w.findCellContaining ⟨0, 0, 0⟩ = .ok c := by
  have : c.contains ⟨0, 0, 0⟩ = true := by
    rcases hc with rfl | rfl <;>
      norm_num [Cell.contains, pairCell, pairCell', Surface.contains, Surface.planeXContains,
        Surface.sphereContains, Point.dot, point_sub]
  rw [World.findCellContaining, hw]
  simp [this]

theorem pair_distances :
    (Surface.planeX 3).distance ⟨0, 0, 0⟩ ⟨3 / 5, 4 / 5, 0⟩ = ((5 : ℝ) : WithTop ℝ) ∧
    (Surface.sphere ⟨0, 0, 0⟩ 5).distance ⟨0, 0, 0⟩ ⟨3 / 5, 4 / 5, 0⟩ = ((5 : ℝ) : WithTop ℝ) := by
  have h : Real.sqrt 100 = 10 := by
    rw [show (100 : ℝ) = 10 ^ 2 by norm_num]
    exact Real.sqrt_sq (by norm_num)
  constructor
  · norm_num [Surface.distance, Surface.planeXDistance, Point.dot]
  · norm_num [Surface.distance, Surface.sphereDistance, Surface.solveQuadratic, Point.dot,
      point_sub, h]

/-- The code violates C52 where two surfaces are equally near: which of them is crossed depends on
their addresses. -/
theorem C52_surface_violated : ∃ (doc : Document) (sa sa' : ℕ → ℕ) (w w' : World) (c c' : Cell)
    (s s' : SurfaceObj) (t t' : WithTop ℝ), WellFormed doc ∧ Function.Injective sa ∧
      Function.Injective sa' ∧ create doc sa sa = .ok w ∧ create doc sa' sa' = .ok w' ∧
      w.findCellContaining ⟨0, 0, 0⟩ = .ok c ∧ w'.findCellContaining ⟨0, 0, 0⟩ = .ok c' ∧
      c.nearestSurface ⟨0, 0, 0⟩ ⟨3 / 5, 4 / 5, 0⟩ = .ok (s, t) ∧
      c'.nearestSurface ⟨0, 0, 0⟩ ⟨3 / 5, 4 / 5, 0⟩ = .ok (s', t') ∧ s.name ≠ s'.name := by
  obtain ⟨w, h1, h2⟩ := pairDoc_world
  obtain ⟨w', h1', h2'⟩ := pairDoc_world'
  obtain ⟨d1, d2⟩ := pair_distances
  have e1 : pairCell.nearestSurface ⟨0, 0, 0⟩ ⟨3 / 5, 4 / 5, 0⟩ =
      .ok (⟨0, "p", .planeX 3⟩, ((5 : ℝ) : WithTop ℝ)) := by
    rw [Cell.nearestSurface]
    simp only [pairCell, Cell.nearestFrom, d1, d2, lt_irrefl, if_false]
  have e2 : pairCell'.nearestSurface ⟨0, 0, 0⟩ ⟨3 / 5, 4 / 5, 0⟩ =
      .ok (⟨0, "s", .sphere ⟨0, 0, 0⟩ 5⟩, ((5 : ℝ) : WithTop ℝ)) := by
    rw [Cell.nearestSurface]
    simp only [pairCell', Cell.nearestFrom, d1, d2, lt_irrefl, if_false]
  exact ⟨pairDoc, id, swapped, w, w', pairCell, pairCell', _, _, _, _, pairDoc_wellFormed,
    Function.injective_id, swapped_injective, h1, h1', pair_find h2 (.inl rfl),
    pair_find h2' (.inr rfl), e1, e2, by decide⟩

/-- The code violates C52 for materials of several nuclides: here every random number selects
different nuclides for different addresses. -/
theorem C52_nuclide_violated : ∃ (doc : Document) (na na' : ℕ → ℕ) (w w' : World) (c c' : Cell),
    WellFormed doc ∧ Function.Injective na ∧ Function.Injective na' ∧
      create doc na na = .ok w ∧ create doc na' na' = .ok w' ∧
      w.findCellContaining ⟨0, 0, 0⟩ = .ok c ∧ w'.findCellContaining ⟨0, 0, 0⟩ = .ok c' ∧
      ∀ p : Particle, p.cell = some c → p.energy = .group 1 → Rng.Valid p.rng →
        ∃ n n' q q', p.sampleNuclide = .ok (n, q) ∧
          ({ p with cell := some c' } : Particle).sampleNuclide = .ok (n', q') ∧
          n.name ≠ n'.name := by
  obtain ⟨w, h1, h2⟩ := pairDoc_world
  obtain ⟨w', h1', h2'⟩ := pairDoc_world'
  refine ⟨pairDoc, id, swapped, w, w', pairCell, pairCell', pairDoc_wellFormed,
    Function.injective_id, swapped_injective, h1, h1', pair_find h2 (.inl rfl),
    pair_find h2' (.inr rfl), fun p hp he hr => ?_⟩
  have htot : ∀ (x y : String) (i j : ℕ) (q : Particle), q.energy = .group 1 →
      ∀ e ∈ (⟨"mix", [(absorber i x 2, 1 / 2), (absorber j y 2, 1 / 2)], 1⟩ : Material).afracs,
        e.1.getTotal q = .ok 2 := by
    intro x y i j q hq e he
    simp only [List.mem_cons, List.not_mem_nil, or_false] at he
    rcases he with rfl | rfl <;> exact absorber_total _ _ _ hq
  have hsh : ∀ (x y : String) (i j : ℕ), shares (⟨"mix", [(absorber i x 2, 1 / 2),
      (absorber j y 2, 1 / 2)], 1⟩ : Material) (fun _ => 2) = [1, 1] := by
    intro x y i j
    norm_num [shares]
  obtain ⟨i, hi, hs, -, e1⟩ := C24_selects (c := pairCell) (p := p) (σ := fun _ => 2) hp rfl
    (htot "a" "b" 0 1 _ he) (by simp) hr (by rw [hsh]; norm_num)
  obtain ⟨j, hj, hs', -, e2⟩ := C24_selects (c := pairCell') (p := { p with cell := some pairCell' })
    (σ := fun _ => 2) rfl rfl (htot "b" "a" 0 1 _ he) (by simp) hr (by rw [hsh]; norm_num)
  rw [hsh] at hs hs'
  have hij : i = j := (hs' i).1 ((hs i).2 rfl)
  subst hij
  refine ⟨_, _, _, _, e1, e2, ?_⟩
  have hi2 : i < 2 := hi
  interval_cases i <;> simp [absorber]

theorem pairCell_same : SameCell pairCell pairCell' where
  name := rfl
  temperature := rfl
  surfaces := List.Perm.swap _ _ _
  material := .some ⟨rfl, rfl, List.Perm.swap _ _ _⟩

/-- Instance of `C52_world` and `C52_cell`: the two worlds built from the document. -/
example : ∃ w w', create pairDoc id id = .ok w ∧ create pairDoc swapped swapped = .ok w' ∧
    SameWorld w w' ∧ ∃ c', w'.findCellContaining ⟨0, 0, 0⟩ = .ok c' ∧ SameCell pairCell c' := by
  obtain ⟨w, h1, h2⟩ := pairDoc_world
  obtain ⟨w', h3, h4⟩ := C52_world pairDoc_wellFormed Function.injective_id Function.injective_id
    swapped_injective swapped_injective h1
  exact ⟨w, w', h1, h3, h4, (C52_cell h4 _).1 _ (pair_find h2 (.inl rfl))⟩

/-- Instance of `C52_surface_partial`: flying away from the plane only the sphere is ahead. -/
example : ∃ s', pairCell'.nearestSurface ⟨0, 0, 0⟩ ⟨-1, 0, 0⟩ = .ok (s', ((5 : ℝ) : WithTop ℝ)) ∧
    SameSurface ⟨1, "s", .sphere ⟨0, 0, 0⟩ 5⟩ s' := by
  have h : Real.sqrt 100 = 10 := by
    rw [show (100 : ℝ) = 10 ^ 2 by norm_num]
    exact Real.sqrt_sq (by norm_num)
  have d1 : (Surface.planeX 3).distance ⟨0, 0, 0⟩ ⟨-1, 0, 0⟩ = ⊤ := by
    norm_num [Surface.distance, Surface.planeXDistance, Point.dot]
  have d2 : (Surface.sphere ⟨0, 0, 0⟩ 5).distance ⟨0, 0, 0⟩ ⟨-1, 0, 0⟩ =
      ((5 : ℝ) : WithTop ℝ) := by
    norm_num [Surface.distance, Surface.sphereDistance, Surface.solveQuadratic, Point.dot,
      point_sub, h]
  have hn : pairCell.nearestSurface ⟨0, 0, 0⟩ ⟨-1, 0, 0⟩ =
      .ok (⟨1, "s", .sphere ⟨0, 0, 0⟩ 5⟩, ((5 : ℝ) : WithTop ℝ)) := by
    rw [Cell.nearestSurface]
    simp only [pairCell, Cell.nearestFrom, d1, d2, WithTop.coe_lt_top, if_true]
  obtain ⟨s', h1, h2⟩ := C52_surface_partial pairCell_same hn
  refine ⟨s', h1, h2 ?_⟩
  intro e he hd
  simp only [pairCell, List.mem_cons, List.not_mem_nil, or_false] at he
  rcases he with rfl | rfl
  · rw [d1] at hd
    cases hd
  · rfl

/-- Instance of `C52_no_surface`: an unbounded cell. -/
example : (⟨"c", [], none, .constant 300⟩ : Cell).nearestSurface ⟨0, 0, 0⟩ ⟨1, 0, 0⟩ =
    .error .runtimeError :=
  C52_no_surface (c := ⟨"c", [], none, .constant 300⟩) ⟨rfl, rfl, .refl _, .none⟩ rfl

/-- Instance of `C52_cross_sections`: the mixture has the cross section 2 in both cells. -/
example {p : Particle} (hp : p.cell = some pairCell) (he : p.energy = .group 1) :
    (⟨"mix", [(absorber 0 "b" 2, 1 / 2), (absorber 1 "a" 2, 1 / 2)], 1⟩ :
      Material).getMicroscopicTotal { p with cell := some pairCell' } = .ok 2 := by
  refine (C52_cross_sections (m := ⟨"mix", [(absorber 0 "a" 2, 1 / 2), (absorber 1 "b" 2, 1 / 2)],
    1⟩) (m' := ⟨"mix", [(absorber 0 "b" 2, 1 / 2), (absorber 1 "a" 2, 1 / 2)], 1⟩)
    ⟨rfl, rfl, List.Perm.swap _ _ _⟩ pairCell_same hp).1 ?_
  rw [(C23_weighted_mean _ p (fun _ => 2)).1]
  · norm_num
  · intro e he'
    simp only [List.mem_cons, List.not_mem_nil, or_false] at he'
    rcases he' with rfl | rfl <;> exact absorber_total _ _ _ he

/-- Instance of `C52_probability`: "a" is met with the same probability in both cells, though it
is the first nuclide in one and the second in the other. -/
example {p : Particle} (hp : p.cell = some pairCell) (he : p.energy = .group 1) :
    prob {u | Selected [1, 1] (u * 2) 0} = prob {u | Selected [1, 1] (u * 2) 1} := by
  have hsh : ∀ (x y : String) (i j : ℕ), shares (⟨"mix", [(absorber i x 2, 1 / 2),
      (absorber j y 2, 1 / 2)], 1⟩ : Material) (fun _ => 2) = [1, 1] := by
    intro x y i j
    norm_num [shares]
  have := C52_probability (m := ⟨"mix", [(absorber 0 "a" 2, 1 / 2), (absorber 1 "b" 2, 1 / 2)], 1⟩)
    (m' := ⟨"mix", [(absorber 0 "b" 2, 1 / 2), (absorber 1 "a" 2, 1 / 2)], 1⟩)
    ⟨rfl, rfl, List.Perm.swap _ _ _⟩ pairCell_same hp (σ := fun _ => 2) (σ' := fun _ => 2)
    (by
      intro e he'
      simp only [List.mem_cons, List.not_mem_nil, or_false] at he'
      rcases he' with rfl | rfl <;> exact absorber_total _ _ _ he)
    (by
      intro e he'
      simp only [List.mem_cons, List.not_mem_nil, or_false] at he'
      rcases he' with rfl | rfl <;> exact absorber_total _ _ _ he)
    (by simp) (by rw [hsh]; norm_num) (i := 0) (j := 1) (by simp) (by simp) rfl rfl
  rw [hsh, hsh] at this
  norm_num at this ⊢
  exact this

/-- Instance of `C52_nuclide_partial`: the same absorber at two addresses. -/
example : ∃ n', ({ groupOne ⟨0, 0, 0⟩ ⟨1, 0, 0⟩ 1 with cell := some ⟨"c", [], some ⟨"m",
      [(absorber 9 "a" 2, 1)], 1⟩, .constant 300⟩ } : Particle).sampleNuclide =
    .ok (n', { groupOne ⟨0, 0, 0⟩ ⟨1, 0, 0⟩ 1 with
      rng := (Rng.canonical 1).2
      cell := some ⟨"c", [], some ⟨"m", [(absorber 9 "a" 2, 1)], 1⟩, .constant 300⟩ }) ∧
    n'.name = "a" := by
  have hsame : SameCell ⟨"c", [], some ⟨"m", [(absorber 7 "a" 2, 1)], 1⟩, .constant 300⟩
      ⟨"c", [], some ⟨"m", [(absorber 9 "a" 2, 1)], 1⟩, .constant 300⟩ :=
    ⟨rfl, rfl, .refl _, .some ⟨rfl, rfl, .refl _⟩⟩
  obtain ⟨i, hi, -, -, h⟩ := C24_selects (c := ⟨"c", [], some ⟨"m", [(absorber 7 "a" 2, 1)], 1⟩,
    .constant 300⟩) (p := { groupOne ⟨0, 0, 0⟩ ⟨1, 0, 0⟩ 1 with cell := some ⟨"c", [], some ⟨"m",
      [(absorber 7 "a" 2, 1)], 1⟩, .constant 300⟩ }) (σ := fun _ => 2) rfl rfl
    (by intro e he; rw [List.mem_singleton.1 he]; exact absorber_total _ _ _ rfl)
    (by simp) ⟨by norm_num [groupOne], by norm_num [groupOne]⟩ (by norm_num [shares])
  obtain ⟨n', h1, h2⟩ := C52_nuclide_partial hsame rfl rfl rfl h
  refine ⟨n', h1, ?_⟩
  rw [← h2.name]
  have : i = 0 := by simpa using hi
  subst this
  rfl

end Minimc.Props
