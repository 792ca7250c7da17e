import Verif.Lemmas.Material
import Verif.Lemmas.MgInteract
import Verif.Spec.World

/-! # Properties C23 and C24: materials and the choice of the colliding nuclide -/

namespace Minimc.Props

open Spec

/-! ## C23 -/

/-- A material is built with the composition given in the input. -/
theorem C23_composition {name : String} {all : List Nuclide} {nodes : List (String × ℝ)}
    {aden : ℝ} {m : Material} (hn : (all.map Nuclide.name).Nodup)
    (ha : (all.map Nuclide.id).Nodup) (hpos : ∀ n ∈ nodes, 0 < n.2)
    (h : Material.create name all nodes aden = .ok m) :
    Composition all nodes m ∧ m.numberDensity = aden ∧ m.name = name := by
  have hname := Material.create_name h
  rw [Material.create, Material.assignNuclides] at h
  simp only [bind, Except.bind] at h
  rcases hr : Material.collect all [] nodes with e | r
  · rw [hr] at h; cases h
  have hp := Material.collect_pos hpos (by simp) hr
  rw [hr] at h
  simp only at h
  by_cases hs : Material.sumAfrac r = 0 ∧ r ≠ []
  · rw [if_pos hs] at h; cases h
  rw [if_neg hs] at h
  simp only [Except.ok.injEq] at h
  rw [Material.collect_eq] at hr
  obtain ⟨h1, h2⟩ := resolveLoop_spec hn
    (fun k hk k' hk' e => List.inj_on_of_nodup_map ha hk hk' e) nodes [] r
    (by simp [SortedByAddr]) (by simp) hr
  simp only [List.not_mem_nil, List.map_nil, not_false_eq_true, true_and, false_or,
    Option.some.injEq, exists_eq_right] at h2
  have hmemr : ∀ n, n ∈ r.map Prod.fst ↔ n ∈ all ∧ n.name ∈ nodes.map Prod.fst := by
    intro n
    constructor
    · intro hh
      obtain ⟨⟨n', v⟩, he, rfl⟩ := List.mem_map.1 hh
      obtain ⟨h3, h4⟩ := (h2 _ _).1 he
      exact ⟨h3, List.mem_map.2 ⟨_, firstNamed_mem h4, rfl⟩⟩
    · rintro ⟨h3, h4⟩
      obtain ⟨x, hx, hxn⟩ := List.mem_map.1 h4
      obtain ⟨y, hy⟩ := (firstNamed_exists Prod.fst nodes n.name).2 ⟨x, hx, hxn⟩
      have e := firstNamed_name hy
      rcases y with ⟨y1, y2⟩
      simp only at e
      subst e
      exact List.mem_map.2 ⟨(n, y2), (h2 _ _).2 ⟨h3, hy⟩, rfl⟩
  subst h
  have hfst : ((r.map (fun e => (e.1, e.2 / Material.sumAfrac r))).map Prod.fst) =
      r.map Prod.fst := by
    simp [List.map_map, Function.comp_def]
  have hSpos : r ≠ [] → 0 < Material.sumAfrac r := by
    intro hne
    rw [Material.sumAfrac_eq]
    refine Material.sum_pos_of_pos ?_ (by simpa using hne)
    intro x hx
    obtain ⟨e, he, rfl⟩ := List.mem_map.1 hx
    exact hp e he
  refine ⟨⟨?_, ?_, ?_, ?_, ?_⟩, rfl, hname⟩
  · rw [show (r.map (fun e => (e.1, e.2 / Material.sumAfrac r))).map (fun e => e.1.id) =
      r.map (fun e => e.1.id) by simp [List.map_map, Function.comp_def]]
    exact h1
  · intro n
    rw [hfst, hmemr]
  · intro hne
    have hrne : r ≠ [] := by
      rintro rfl
      rcases nodes with _ | ⟨⟨x, y⟩, nodes⟩
      · exact hne rfl
      · have hx := ((resolveLoop_exists (addr := Nuclide.id) (nm := Nuclide.name) (val := some)
          (all := all) _ ([] : List (Nuclide × ℝ))).1 ⟨_, hr⟩ (x, y) List.mem_cons_self).1
        obtain ⟨k, hk, hkx⟩ := List.mem_map.1 hx
        have := (hmemr k).2 ⟨hk, by simp [hkx]⟩
        simp at this
    have e : (r.map (fun e => (e.1, e.2 / Material.sumAfrac r))).map Prod.snd =
        (r.map Prod.snd).map (fun x => x * (Material.sumAfrac r)⁻¹) := by
      simp [List.map_map, Function.comp_def, div_eq_mul_inv]
    rw [e, List.sum_map_mul_right, List.map_id', ← Material.sumAfrac_eq]
    exact mul_inv_cancel₀ (hSpos hrne).ne'
  · intro n f n' f' x x' hf hf' hx hx'
    obtain ⟨⟨k, v⟩, hk, hkk⟩ := List.mem_map.1 hf
    obtain ⟨⟨k', v'⟩, hk', hkk'⟩ := List.mem_map.1 hf'
    simp only [Prod.mk.injEq] at hkk hkk'
    obtain ⟨rfl, rfl⟩ := hkk
    obtain ⟨rfl, rfl⟩ := hkk'
    have e1 := firstNamed_unique ((h2 _ _).1 hk).2 hx
    have e2 := firstNamed_unique ((h2 _ _).1 hk').2 hx'
    simp only [Prod.mk.injEq, true_and] at e1 e2
    rw [e1, e2]
    ring
  · intro e he
    obtain ⟨e', he', rfl⟩ := List.mem_map.1 he
    exact div_pos (hp e' he') (hSpos (List.ne_nil_of_mem he'))

/-- Construction succeeds exactly when all nuclides named exist. -/
theorem C23_built_iff {name : String} {all : List Nuclide} {nodes : List (String × ℝ)} {aden : ℝ}
    (hpos : ∀ n ∈ nodes, 0 < n.2) :
    (∃ m, Material.create name all nodes aden = .ok m) ↔
      ∀ n ∈ nodes, ∃ k ∈ all, k.name = n.1 := by
  rw [Material.create_exists hpos]
  simp

/-- The total and majorant cross sections are the mean over the nuclides weighted by their
fractions. -/
theorem C23_weighted_mean (m : Material) (p : Particle) (σ : Nuclide → ℝ) :
    ((∀ e ∈ m.afracs, e.1.getTotal p = .ok (σ e.1)) →
      m.getMicroscopicTotal p = .ok (m.afracs.map (fun e => e.2 * σ e.1)).sum) ∧
    ((∀ e ∈ m.afracs, e.1.getMajorant p = .ok (σ e.1)) →
      m.getMicroscopicMajorant p = .ok (m.afracs.map (fun e => e.2 * σ e.1)).sum) := by
  constructor
  · intro h
    rw [Material.getMicroscopicTotal, sumLoop_ok (w := fun e => e.2 * σ e.1), zero_add]
    · rfl
    · intro e he
      rw [h e he]; rfl
  · intro h
    rw [Material.getMicroscopicMajorant, sumLoop_ok (w := fun e => e.2 * σ e.1), zero_add]
    · rfl
    · intro e he
      rw [h e he]; rfl

/-- A one-group nuclide that only captures, used in the instances. -/
noncomputable def absorber (id : ℕ) (name : String) (σ : ℝ) : Nuclide where
  id := id
  name := name
  xs := fun _ => some (.multigroup ⟨none, none, none, [(.capture, [σ])], [σ], 1⟩)

/-- Instance: one part of "a" to three of "b", where "b" has the lower address. -/
theorem exampleMaterial_ok : Material.create "mix" [absorber 7 "a" 2, absorber 3 "b" 4]
    [("a", 1), ("b", 3)] 0.1 = .ok ⟨"mix", [(absorber 3 "b" 4, 3 / 4), (absorber 7 "a" 2, 1 / 4)], 0.1⟩ := by
  have e : Material.collect [absorber 7 "a" 2, absorber 3 "b" 4] [] [("a", 1), ("b", 3)] =
      .ok [(absorber 3 "b" 4, 3), (absorber 7 "a" 2, 1)] := by
    rfl
  rw [Material.create, Material.assignNuclides, e]
  simp only [bind, Except.bind, Material.sumAfrac_eq]
  norm_num

example : Composition [absorber 7 "a" 2, absorber 3 "b" 4] [("a", 1), ("b", 3)]
    ⟨"mix", [(absorber 3 "b" 4, 3 / 4), (absorber 7 "a" 2, 1 / 4)], 0.1⟩ :=
  (C23_composition (by simp [absorber]) (by simp [absorber]) (by simp) exampleMaterial_ok).1

/-! ## C24 -/

/-- The pieces laid end to end by the sampling: fraction times total of each nuclide. -/
noncomputable def shares (m : Material) (σ : Nuclide → ℝ) : List ℝ :=
  m.afracs.map (fun e => e.2 * σ e.1)

/-- Every random number selects exactly one nuclide of the material, namely the one whose piece
of the total it falls into; nothing but the generator state changes. -/
theorem C24_selects {c : Cell} {m : Material} {p : Particle} {σ : Nuclide → ℝ}
    (hc : p.cell = some c) (hm : c.material = some m)
    (hσ : ∀ e ∈ m.afracs, e.1.getTotal p = .ok (σ e.1)) (hσ0 : ∀ e ∈ m.afracs, 0 ≤ e.2 * σ e.1)
    (hr : Rng.Valid p.rng) (hpos : 0 < (shares m σ).sum) :
    ∃ i, ∃ hi : i < m.afracs.length,
      (∀ j, Selected (shares m σ) ((Rng.canonical p.rng).1 * (shares m σ).sum) j ↔ j = i) ∧
      0 < m.afracs[i].2 * σ m.afracs[i].1 ∧
      p.sampleNuclide = .ok (m.afracs[i].1, { p with rng := (Rng.canonical p.rng).2 }) := by
  have hu0 := (Rng.canonical_pos hr).le
  have hu1 := Rng.canonical_lt_one hr
  have hnn : ∀ w ∈ shares m σ, 0 ≤ w := by
    intro w hw
    obtain ⟨e, he, rfl⟩ := List.mem_map.1 hw
    exact hσ0 e he
  obtain ⟨i, hi⟩ := Selected.exists (ws := shares m σ)
    (θ := (Rng.canonical p.rng).1 * (shares m σ).sum) (mul_nonneg hu0 hpos.le) (by nlinarith)
  have hil : i < m.afracs.length := by simpa [shares] using hi.1
  refine ⟨i, hil, fun j => ⟨fun hj => Selected.unique hnn hj hi, fun hj => hj ▸ hi⟩, ?_, ?_⟩
  · obtain ⟨w, hw, hwpos⟩ := Selected.pos hi
    simp only [shares, List.getElem?_map, List.getElem?_eq_getElem hil, Option.map_some,
      Option.some.injEq] at hw
    rw [hw]; exact hwpos
  · have htot := (C23_weighted_mean m p σ).1 hσ
    change _ = Except.ok (shares m σ).sum at htot
    have hsel : m.selectNuclide { p with rng := (Rng.canonical p.rng).2 }
        ((shares m σ).sum * (Rng.canonical p.rng).1) = .ok m.afracs[i]? := by
      rw [Material.selectNuclide]
      refine selectLoop_of_selected (w := fun e => e.2 * σ e.1) ?_ hσ0 ?_
      · intro e he
        rw [Nuclide.getTotal_rng, hσ e he]; rfl
      · rw [sub_zero, mul_comm]; exact hi
    have hmat : p.materialOrUB = .ok m := by
      rw [Particle.materialOrUB, hc]; simp only [hm]
    rw [Particle.sampleNuclide, hmat]
    simp only [bind, Except.bind, htot, Particle.sample, hsel, List.getElem?_eq_getElem hil]
    rfl

/-- A nuclide is selected with probability fraction times its total over the total of the
material. -/
theorem C24_probability {m : Material} {σ : Nuclide → ℝ} (hσ0 : ∀ e ∈ m.afracs, 0 ≤ e.2 * σ e.1)
    (hpos : 0 < (shares m σ).sum) {i : ℕ} (hi : i < m.afracs.length) :
    prob {u | Selected (shares m σ) (u * (shares m σ).sum) i} =
      ENNReal.ofReal (m.afracs[i].2 * σ m.afracs[i].1 / (shares m σ).sum) := by
  have hnn : ∀ w ∈ shares m σ, 0 ≤ w := by
    intro w hw
    obtain ⟨e, he, rfl⟩ := List.mem_map.1 hw
    exact hσ0 e he
  rw [prob_selected hnn hpos (by simpa [shares] using hi)]
  simp [shares]

/-- The probability of a nuclide is the same in every storage order. -/
theorem C24_any_order {m m' : Material} {σ : Nuclide → ℝ} (hperm : m.afracs.Perm m'.afracs)
    (hσ0 : ∀ e ∈ m.afracs, 0 ≤ e.2 * σ e.1) (hpos : 0 < (shares m σ).sum) {i j : ℕ}
    (hi : i < m.afracs.length) (hj : j < m'.afracs.length) (he : m.afracs[i] = m'.afracs[j]) :
    prob {u | Selected (shares m σ) (u * (shares m σ).sum) i} =
      prob {u | Selected (shares m' σ) (u * (shares m' σ).sum) j} := by
  have hs : (shares m σ).sum = (shares m' σ).sum := (hperm.map _).sum_eq
  rw [C24_probability hσ0 hpos hi,
    C24_probability (fun e he => hσ0 e (hperm.mem_iff.2 he)) (hs ▸ hpos) hj, he, hs]

/-- Sampling from a particle without a cell or in a void is undefined behaviour: the code
dereferences a null pointer. -/
theorem C24_void (p : Particle) (h : p.cell = none ∨ ∃ c, p.cell = some c ∧ c.material = none) :
    p.sampleNuclide = .error .ub := by
  have : p.materialOrUB = .error .ub := by
    rw [Particle.materialOrUB]
    rcases h with h | ⟨c, h, h'⟩
    · simp [h]
    · simp [h, h']
  rw [Particle.sampleNuclide, this]
  rfl

/-- Instance: in the example mixture a neutron of group 1 meets "b" with probability
(3/4 * 4) / 3.5 = 6/7. -/
example : (∀ e ∈ [(absorber 3 "b" 4, (3 / 4 : ℝ)), (absorber 7 "a" 2, 1 / 4)],
      e.1.getTotal { Particle.ofBorn ⟨⟨0, 0, 0⟩, ⟨1, 0, 0⟩, .group 1, .neutron, 1, none⟩ with
        rng := 5 } = .ok (if e.1.id = 3 then 4 else 2)) ∧
    prob {u | Selected
        (shares ⟨"mix", [(absorber 3 "b" 4, 3 / 4), (absorber 7 "a" 2, 1 / 4)], 0.1⟩
          (fun n => if n.id = 3 then 4 else 2))
        (u * (shares ⟨"mix", [(absorber 3 "b" 4, 3 / 4), (absorber 7 "a" 2, 1 / 4)], 0.1⟩
          (fun n => if n.id = 3 then 4 else 2)).sum) 0} = ENNReal.ofReal (6 / 7) := by
  constructor
  · intro e he
    simp only [List.mem_cons, List.not_mem_nil, or_false] at he
    rcases he with rfl | rfl <;> rfl
  · rw [C24_probability (i := 0) _ _ (by simp)]
    · norm_num [shares, absorber]
    · intro e he
      simp only [List.mem_cons, List.not_mem_nil, or_false] at he
      rcases he with rfl | rfl <;> norm_num [absorber]
    · norm_num [shares, absorber]

end Minimc.Props
