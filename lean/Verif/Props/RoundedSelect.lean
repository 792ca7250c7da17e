import Verif.Lemmas.RoundedSelect
import Verif.Lemmas.MgInteract
import Verif.Props.Material

/-!
# Selections in double precision

The nuclide of a collision, its reaction and the outgoing group are chosen by adding up weights until
a threshold is passed.  Sums, products and the random number are all rounded.  Whatever the rounding
to nearest: the loops never run out of items, the item chosen has a positive weight, and the random
number lies in its piece of the total or closer to it than a few units of rounding error per item.
-/

namespace Minimc.Props

open Minimc Spec

variable {rnd : ℝ → ℝ}

/-- A nuclide is always found; `total` gives the total cross sections, which do not depend on the
random number generator. -/
theorem C73_nuclide (h : Nearest rnd) {total : Nuclide → Particle → Res ℝ} {c : Cell} {m : Material}
    {p : Particle} {σ : Nuclide → ℝ} (hc : p.cell = some c) (hm : c.material = some m)
    (hσ : ∀ e ∈ m.afracs, ∀ g, total e.1 { p with rng := g } = .ok (σ e.1))
    (hσ0 : ∀ e ∈ m.afracs, 0 ≤ e.2 * σ e.1) (hr : Rng.Valid p.rng)
    (hpos : 0 < (shares m σ).sum) :
    ∃ i, ∃ hi : i < m.afracs.length,
      Rounded.sampleNuclide rnd total p =
        .ok (m.afracs[i].1, { p with rng := (Rng.canonical p.rng).2 }) ∧
      0 < m.afracs[i].2 * σ m.afracs[i].1 ∧
      NearlySelected (shares m σ) ((Rng.canonical p.rng).1 * (shares m σ).sum)
        (((2 * m.afracs.length + 9 : ℕ) : ℝ) / 2 ^ 53 * (shares m σ).sum) i := by
  have hmat : p.materialOrUB = .ok m := by simp [Particle.materialOrUB, hc, hm]
  have hu0 := Rng.canonical_pos hr
  have hu1 := Rng.canonical_lt_one hr
  obtain ⟨hc0, hc1⟩ := Rounded.canonical_mem h hr
  have hc0' : 0 ≤ (Rounded.canonical rnd p.rng).1 := le_trans (by norm_num) hc0.le
  have hnear := Rounded.canonical_near h hr
  set u := (Rng.canonical p.rng).1
  set u' := (Rounded.canonical rnd p.rng).1
  have hnn : ∀ w ∈ shares m σ, 0 ≤ w := by
    intro w hw
    obtain ⟨e, he, rfl⟩ := List.mem_map.1 hw
    exact hσ0 e he
  have hall : List.Forall₂ (Near 1) (shares m σ)
      (m.afracs.map (fun e => rnd (e.2 * σ e.1))) := by
    rw [shares, List.forall₂_map_left_iff, List.forall₂_map_right_iff, List.forall₂_same]
    exact fun e he => h.near (hσ0 e he)
  have hT := Rounded.running_zero_near h hall hnn
  set T := Rounded.running rnd 0 (m.afracs.map (fun e => rnd (e.2 * σ e.1)))
  have hT0 : 0 < T := hT.pos hpos
  have hθ : Near (1 + (shares m σ).length + 6 + 1) ((shares m σ).sum * u) (rnd (T * u')) :=
    (hT.mul hnear hpos.le hu0.le hT0.le hc0').trans (h.near (mul_nonneg hT0.le hc0'))
  have hf : ∀ g, ∀ e ∈ m.afracs, (do .ok (rnd (e.2 * (← total e.1 { p with rng := g }))) : Res ℝ)
      = .ok (rnd (e.2 * σ e.1)) := by
    intro g e he
    rw [hσ e he g]; rfl
  obtain ⟨i, hi, h1, h2, h3⟩ := Rounded.selectLoop_near (xs := m.afracs)
    (f := fun e => do .ok (rnd (e.2 * (← total e.1 { p with rng := (Rounded.canonical rnd p.rng).2 }))))
    (v := fun e => rnd (e.2 * σ e.1)) (w := fun e => e.2 * σ e.1) (θ := rnd (T * u'))
    (k := 1) h (hf _) hσ0 (fun e he => h.near (hσ0 e he)) (h.nonneg (mul_nonneg hT0.le hc0'))
    (Rounded.rnd_mul_lt h hT0 hc0' hc1) hθ (mul_nonneg hpos.le hu0.le)
    (by change _ ≤ (shares m σ).sum; nlinarith)
  refine ⟨i, hi, ?_, h2, ?_⟩
  · have htot : Rounded.getMicroscopicTotal rnd total m p = .ok T := by
      rw [Rounded.getMicroscopicTotal, Rounded.sumLoop_ok (v := fun e => rnd (e.2 * σ e.1)) (hf p.rng)]
      rfl
    rw [Rounded.sampleNuclide, hmat]
    simp only [bind, Except.bind, htot, Rounded.sample, Rounded.selectNuclide] at h1 ⊢
    rw [h1]
    rfl
  · have hl : (shares m σ).length = m.afracs.length := by simp [shares]
    rw [hl, mul_comm] at h3
    change NearlySelected (shares m σ) _ (_ / 2 ^ 53 * (shares m σ).sum) i at h3
    rwa [show 1 + m.afracs.length + 6 + 1 + 1 + m.afracs.length = 2 * m.afracs.length + 9 by ring]
      at h3

/-- The reaction of a multigroup collision is always found when the total is the sum over the
reactions that the constructor computes. -/
theorem C73_reaction (h : Nearest rnd) {G g rng : ℕ} {reactions : List (Reaction × List ℝ)}
    (hlen : ∀ r ∈ reactions, r.2.length = G) (hnn : ∀ r ∈ reactions, ∀ x ∈ r.2, 0 ≤ x)
    (hg1 : 1 ≤ g) (hg2 : g ≤ G) (hr : Rng.Valid rng)
    (hpos : 0 < (reactions.map (fun r => entry1 r.2 g)).sum) :
    ∃ i, ∃ hi : i < reactions.length,
      Rounded.sampleReaction rnd (Rounded.createTotalXS rnd G reactions) reactions g rng =
        .ok reactions[i].1 ∧
      0 < entry1 reactions[i].2 g ∧
      NearlySelected (reactions.map (fun r => entry1 r.2 g))
        ((Rng.canonical rng).1 * (reactions.map (fun r => entry1 r.2 g)).sum)
        (((2 * reactions.length + 7 : ℕ) : ℝ) / 2 ^ 53
          * (reactions.map (fun r => entry1 r.2 g)).sum) i := by
  have htab : ∀ (rs : List (Reaction × List ℝ)) (acc : List ℝ), (∀ r ∈ rs, r.2.length = G) →
      acc.length = G →
      Multigroup.oneAt (rs.foldl (fun accumulated r =>
        List.zipWith (fun a b => rnd (a + b)) accumulated r.2) acc) g =
        .ok (Rounded.running rnd (entry1 acc g) (rs.map (fun r => entry1 r.2 g))) := by
    intro rs
    induction rs with
    | nil => intro acc _ ha; exact Multigroup.oneAt_ok hg1 (by rw [List.foldl_nil]; omega)
    | cons r rs ih =>
      intro acc hrs ha
      have hl : r.2.length = G := hrs r (by simp)
      rw [List.foldl_cons, ih _ (fun r' hr' => hrs r' (by simp [hr'])) (by simp [ha, hl])]
      have : entry1 (List.zipWith (fun a b => rnd (a + b)) acc r.2) g =
          rnd (entry1 acc g + entry1 r.2 g) := by
        simp only [entry1, List.getD_eq_getElem?_getD]
        rw [List.getElem?_eq_getElem (by simp [ha, hl]; omega),
          List.getElem?_eq_getElem (by omega), List.getElem?_eq_getElem (by omega)]
        simp
      rw [this]
      rfl
  have hT1 := htab reactions (List.replicate G 0) hlen (by simp)
  have h0 : entry1 (List.replicate G (0 : ℝ)) g = 0 := by
    simp only [entry1, List.getD_eq_getElem?_getD]
    rw [List.getElem?_eq_getElem (by simp; omega)]
    simp
  rw [h0] at hT1
  set ws := reactions.map (fun r => entry1 r.2 g) with hws
  have hw0 : ∀ r ∈ reactions, 0 ≤ entry1 r.2 g := by
    intro r hr'
    have hl := hlen r hr'
    simp only [entry1, List.getD_eq_getElem?_getD]
    rw [List.getElem?_eq_getElem (by omega)]
    exact hnn r hr' _ (List.getElem_mem _)
  have hwnn : ∀ w ∈ ws, 0 ≤ w := by
    intro w hw
    obtain ⟨r, hr', rfl⟩ := List.mem_map.1 hw
    exact hw0 r hr'
  have hT := Rounded.running_zero_near h (k := 0) (ws := ws) (vs := ws)
    (List.forall₂_same.2 fun x _ => Near.refl x) hwnn
  set T := Rounded.running rnd 0 ws
  have hT0 : 0 < T := hT.pos hpos
  have hu0 := Rng.canonical_pos hr
  have hu1 := Rng.canonical_lt_one hr
  obtain ⟨hc0, hc1⟩ := Rounded.canonical_mem h hr
  have hc0' : 0 ≤ (Rounded.canonical rnd rng).1 := le_trans (by norm_num) hc0.le
  have hnear := Rounded.canonical_near h hr
  set u := (Rng.canonical rng).1
  set u' := (Rounded.canonical rnd rng).1
  have hθ : Near (0 + ws.length + 6 + 1) (ws.sum * u) (rnd (T * u')) :=
    (hT.mul hnear hpos.le hu0.le hT0.le hc0').trans (h.near (mul_nonneg hT0.le hc0'))
  have hf : ∀ r ∈ reactions, Multigroup.oneAt r.2 g = .ok (entry1 r.2 g) := by
    intro r hr'
    exact Multigroup.oneAt_ok hg1 (by have := hlen r hr'; omega)
  obtain ⟨i, hi, h1, h2, h3⟩ := Rounded.selectLoop_near (xs := reactions)
    (f := fun r => Multigroup.oneAt r.2 g) (v := fun r => entry1 r.2 g)
    (w := fun r => entry1 r.2 g) (θ := rnd (T * u')) (k := 0) h hf hw0 (fun r _ => Near.refl _)
    (h.nonneg (mul_nonneg hT0.le hc0')) (Rounded.rnd_mul_lt h hT0 hc0' hc1) hθ
    (mul_nonneg hpos.le hu0.le) (by nlinarith)
  refine ⟨i, hi, ?_, h2, ?_⟩
  · rw [Rounded.sampleReaction, Rounded.createTotalXS, hT1]
    simp only [bind, Except.bind]
    rw [mul_comm T u'] at h1
    rw [h1]
  · have hl : ws.length = reactions.length := by simp [hws]
    rw [hl, mul_comm] at h3
    rwa [show 0 + reactions.length + 6 + 1 + 0 + reactions.length = 2 * reactions.length + 7 by ring]
      at h3

/-- The outgoing group is always found, though the rounded probabilities of a normalised column
need not add up to one, for up to a million groups. -/
theorem C73_group (h : Nearest rnd) {rng : ℕ} {column : List ℝ} (hnn : ∀ x ∈ column, 0 ≤ x)
    (hpos : 0 < column.sum) (hlen : column.length < 2 ^ 20) (hr : Rng.Valid rng) :
    ∃ g, 1 ≤ g ∧ g ≤ column.length ∧
      Rounded.sampleGroup rnd column.length (Rounded.normalizeColumn rnd column) rng = .ok g ∧
      0 < entry1 column g ∧
      NearlySelected (column.map (· / column.sum)) (Rng.canonical rng).1
        (((2 * column.length + 7 : ℕ) : ℝ) / 2 ^ 53) (g - 1) := by
  set S := column.sum with hS
  set n := column.length with hn
  have hC : Near (0 + n) S (Rounded.columnSum rnd column) :=
    Rounded.running_zero_near h (k := 0) (List.forall₂_same.2 fun x _ => Near.refl x) hnn
  set C := Rounded.columnSum rnd column with hCdef
  have hC0 : 0 < C := hC.pos hpos
  have hcol : Rounded.normalizeColumn rnd column = column.map (fun e => rnd (e / C)) := by
    rw [Rounded.normalizeColumn, ← hCdef, if_neg hC0.ne']
  have hel : ∀ x ∈ column, Near (n + 1) (x / S) (rnd (x / C)) := by
    intro x hx
    have hx0 := hnn x hx
    have := ((Near.refl x).div hC hx0 hpos hx0 hC0).trans (h.near (x := x / C) (by positivity))
    simpa using this
  have hwnn : ∀ w ∈ column.map (· / S), 0 ≤ w := by
    intro w hw
    obtain ⟨x, hx, rfl⟩ := List.mem_map.1 hw
    exact div_nonneg (hnn x hx) hpos.le
  have hsum : (column.map (· / S)).sum = 1 := by
    simp only [div_eq_mul_inv]
    rw [List.sum_map_mul_right, List.map_id', ← hS, mul_inv_cancel₀ hpos.ne']
  have hall : List.Forall₂ (Near (n + 1)) (column.map (· / S)) (column.map (fun e => rnd (e / C))) := by
    rw [List.forall₂_map_left_iff, List.forall₂_map_right_iff, List.forall₂_same]
    exact hel
  have hT := Rounded.running_zero_near h hall hwnn
  rw [hsum, List.length_map, ← hn] at hT
  have hu0 := Rng.canonical_pos hr
  have hu1 := Rng.canonical_lt_one hr
  obtain ⟨hc0, hc1⟩ := Rounded.canonical_mem h hr
  have hc0' : 0 ≤ (Rounded.canonical rnd rng).1 := le_trans (by norm_num) hc0.le
  have hnear := Rounded.canonical_near h hr
  set u := (Rng.canonical rng).1
  set u' := (Rounded.canonical rnd rng).1
  have hlt : u' < Rounded.running rnd 0 (column.map (fun e => rnd (e / C))) := by
    refine lt_of_lt_of_le hc1 (le_trans ?_ hT.1)
    rw [one_mul]
    refine le_trans ?_ (Near.fac_ge _)
    have : ((n + 1 + n : ℕ) : ℝ) ≤ 2 ^ 21 := by
      have : n + 1 + n ≤ 2 ^ 21 := by norm_num at hlen ⊢; omega
      exact_mod_cast this
    have h3 : ((n + 1 + n : ℕ) : ℝ) / 2 ^ 53 ≤ 2 ^ 21 / 2 ^ 53 := by gcongr
    norm_num at h3 ⊢
    linarith
  -- the loop runs over the numbers of the groups
  have hmap (F : ℝ → ℝ) : (List.range' 1 n).map (fun g => F (entry1 column g)) = column.map F := by
    apply List.ext_getElem
    · simp [hn]
    · intro i h1 h2
      simp only [List.getElem_map, List.getElem_range', entry1, List.getD_eq_getElem?_getD]
      rw [List.getElem?_eq_getElem (by simp at h2; omega)]
      congr 1
      simp
  have hmem : ∀ g ∈ List.range' 1 n, 1 ≤ g ∧ g ≤ n ∧ entry1 column g ∈ column := by
    intro g hg
    rw [List.mem_range'_1] at hg
    refine ⟨hg.1, by omega, ?_⟩
    simp only [entry1, List.getD_eq_getElem?_getD]
    rw [List.getElem?_eq_getElem (by omega)]
    exact List.getElem_mem _
  have hf : ∀ g ∈ List.range' 1 n,
      Multigroup.oneAt (Rounded.normalizeColumn rnd column) g = .ok (rnd (entry1 column g / C)) := by
    intro g hg
    obtain ⟨h1, h2, _⟩ := hmem g hg
    rw [hcol, Multigroup.oneAt_ok h1 (by simp [← hn, h2])]
    simp only [entry1, List.getD_eq_getElem?_getD, List.getElem?_map]
    rw [List.getElem?_eq_getElem (by omega)]
    rfl
  obtain ⟨i, hi, h1, h2, h3⟩ := Rounded.selectLoop_near (xs := List.range' 1 n)
    (f := fun g => Multigroup.oneAt (Rounded.normalizeColumn rnd column) g)
    (v := fun g => rnd (entry1 column g / C)) (w := fun g => entry1 column g / S) (θ := u')
    (t := u) (j := 6) (k := n + 1) h hf
    (fun g hg => div_nonneg (hnn _ (hmem g hg).2.2) hpos.le) (fun g hg => hel _ (hmem g hg).2.2)
    hc0' (by rw [hmap (fun e => rnd (e / C))]; exact hlt) hnear hu0.le
    (by rw [hmap (fun e => e / S), hsum]; exact hu1.le)
  have hin : i < n := by simpa using hi
  rw [hmap (fun e => e / S), hsum, mul_one] at h3
  have hgi : (List.range' 1 n)[i] = i + 1 := by simp; ring
  rw [hgi] at h1 h2
  refine ⟨i + 1, by omega, by omega, ?_, ?_, ?_⟩
  · rw [Rounded.sampleGroup, h1]
    rfl
  · by_contra hle
    push Not at hle
    exact absurd h2 (not_lt.2 (div_nonpos_of_nonpos_of_nonneg hle hpos.le))
  · rw [List.length_range', show 6 + (n + 1) + n = 2 * n + 7 by ring] at h3
    simpa using h3

/-- Away from the ends of the pieces — by the small distance the theorems above allow — the item is
the one chosen without rounding. -/
theorem C73_same_choice {ws : List ℝ} (hnn : ∀ w ∈ ws, 0 ≤ w) {θ δ : ℝ} {i j : ℕ}
    (hi : NearlySelected ws θ δ i) (h1 : (ws.take j).sum + δ ≤ θ)
    (h2 : θ + δ < (ws.take (j + 1)).sum) : i = j :=
  Rounded.NearlySelected.eq hnn hi h1 h2

/-- The number of fission neutrons is the yield rounded down or up. -/
theorem C73_fission_yield (h : Nearest rnd) {nu : ℝ} (h0 : 0 ≤ nu) (h1 : nu < 2 ^ 20) {rng : ℕ}
    (hr : Rng.Valid rng) :
    ∃ n, Rounded.fissionYield rnd nu rng = .ok n ∧ ⌊nu⌋₊ ≤ n ∧ n ≤ ⌈nu⌉₊ := by
  obtain ⟨hc0, hc1⟩ := Rounded.canonical_mem h hr
  set u := (Rounded.canonical rnd rng).1 with hu
  have hu0 : 0 ≤ u := le_trans (by norm_num) hc0.le
  have hfl : ⌊nu⌋₊ < 2 ^ 20 := by
    have : (⌊nu⌋₊ : ℝ) < 2 ^ 20 := lt_of_le_of_lt (Nat.floor_le h0) h1
    exact_mod_cast this
  have hce : ⌈nu⌉₊ ≤ 2 ^ 20 := by
    rw [Nat.ceil_le]; norm_num at h1 ⊢; exact h1.le
  have hlo : (⌊nu⌋₊ : ℝ) ≤ rnd (nu + u) := by
    rw [← h.self (IsDouble.nat (m := ⌊nu⌋₊) (le_trans hfl.le (by norm_num)))]
    exact h.mono (by linarith [Nat.floor_le h0])
  have hhi : rnd (nu + u) < ⌈nu⌉₊ + 1 := by
    have hd : IsDouble ((⌈nu⌉₊ : ℝ) + 1 - 1 / 2 ^ 32) := by
      have hz : |((⌈nu⌉₊ : ℤ) + 1) * 2 ^ 32 - 1| ≤ 2 ^ 53 := by
        rw [abs_le]
        have : (⌈nu⌉₊ : ℤ) ≤ 2 ^ 20 := by exact_mod_cast hce
        have h4 : (0 : ℤ) ≤ (⌈nu⌉₊ : ℤ) := by positivity
        constructor <;> norm_num at this ⊢ <;> omega
      have := IsDouble.intScale hz (-32)
      convert this using 1
      push_cast
      rw [zpow_neg]
      norm_num
      ring
    have : rnd (nu + u) ≤ (⌈nu⌉₊ : ℝ) + 1 - 1 / 2 ^ 32 := by
      rw [← h.self hd]
      exact h.mono (by linarith [Nat.le_ceil nu])
    have : (0 : ℝ) < 1 / 2 ^ 32 := by norm_num
    linarith
  have hr0 : 0 ≤ rnd (nu + u) := le_trans (by positivity) hlo
  refine ⟨⌊rnd (nu + u)⌋₊, ?_, Nat.le_floor hlo, ?_⟩
  · rw [Rounded.fissionYield, ← hu, toSize]
    split_ifs with h2
    · linarith
    · rfl
  · have : ⌊rnd (nu + u)⌋₊ < ⌈nu⌉₊ + 1 := by
      rw [Nat.floor_lt hr0]; push_cast; exact hhi
    omega

/-- Instance for C73_nuclide: in a mixture of two nuclides one of them is found. -/
example (c : Cell) (hc : c.material =
      some ⟨"mix", [(absorber 3 "b" 4, 3 / 4), (absorber 7 "a" 2, 1 / 4)], 0.1⟩) :
    ∃ n q, Rounded.sampleNuclide double (fun n _ => .ok (if n.id = 3 then 4 else 2))
      { Particle.ofBorn ⟨⟨0, 0, 0⟩, ⟨1, 0, 0⟩, .group 1, .neutron, 5, none⟩ with cell := some c } =
      .ok (n, q) := by
  obtain ⟨i, hi, h1, _⟩ := C73_nuclide double_nearest (total := fun n _ => .ok (if n.id = 3 then 4 else 2))
    (p := { Particle.ofBorn ⟨⟨0, 0, 0⟩, ⟨1, 0, 0⟩, .group 1, .neutron, 5, none⟩ with cell := some c })
    (σ := fun n => if n.id = 3 then 4 else 2) rfl hc (fun _ _ _ => rfl)
    (by intro e he
        simp only [List.mem_cons, List.not_mem_nil, or_false] at he
        rcases he with rfl | rfl <;> norm_num [absorber])
    (Rng.valid_ofSeed 5) (by norm_num [shares, absorber])
  exact ⟨_, _, h1⟩

/-- Instance for C73_reaction: capture and scattering in two groups; in group 2 it is capture. -/
example : Rounded.sampleReaction double
    (Rounded.createTotalXS double 2 [(.capture, [1, 2]), (.scatter, [3, 0])])
    [(.capture, [1, 2]), (.scatter, [3, 0])] 2 1 = .ok .capture := by
  obtain ⟨i, hi, h1, h2, _⟩ := C73_reaction double_nearest (G := 2) (g := 2) (rng := 1)
    (reactions := [(.capture, [1, 2]), (.scatter, [3, 0])]) (by simp)
    (by intro r hr x hx
        simp only [List.mem_cons, List.not_mem_nil, or_false] at hr
        rcases hr with rfl | rfl <;>
          (simp only [List.mem_cons, List.not_mem_nil, or_false] at hx
           rcases hx with rfl | rfl <;> norm_num))
    (by norm_num) le_rfl ⟨by norm_num, by norm_num⟩ (by norm_num [entry1])
  rw [h1]
  match i, hi with
  | 0, _ => rfl
  | 1, _ => norm_num [entry1] at h2

/-- Instance for C73_group: a column of three groups of which only the second can be reached. -/
example : Rounded.sampleGroup double 3 (Rounded.normalizeColumn double [0, 3, 0]) 1 = .ok 2 := by
  obtain ⟨g, h1, h2, h3, h4, _⟩ := C73_group double_nearest (rng := 1) (column := [0, 3, 0])
    (by intro x hx
        simp only [List.mem_cons, List.not_mem_nil, or_false] at hx
        rcases hx with rfl | rfl | rfl <;> norm_num)
    (by norm_num) (by norm_num) ⟨by norm_num, by norm_num⟩
  have h3' : Rounded.sampleGroup double 3 (Rounded.normalizeColumn double [0, 3, 0]) 1 = .ok g := h3
  rw [h3']
  simp only [List.length_cons, List.length_nil] at h2
  interval_cases g
  · norm_num [entry1] at h4
  · rfl
  · norm_num [entry1] at h4

/-- Instance for C73_same_choice: a half is well inside the second of two pieces. -/
example : NearlySelected [1 / 4, 3 / 4] (1 / 2) (1 / 8) 1 := by
  refine ⟨by simp, ?_, ?_⟩ <;> norm_num

/-- Instance for C73_fission_yield: 2.5 neutrons per fission. -/
example : (0 : ℝ) ≤ 2.5 ∧ (2.5 : ℝ) < 2 ^ 20 := by norm_num

end Minimc.Props
