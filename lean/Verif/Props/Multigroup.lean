import Verif.Lemmas.MgInteract
import Mathlib.MeasureTheory.Integral.Bochner.Set

/-! # Properties C16 to C22: multigroup data and sampling -/

namespace Minimc.Props

open Spec Multigroup MeasureTheory

/-! ## C16 -/

/-- A one-dimensional table is rejected exactly when it has the wrong number of entries. -/
theorem C16_one_rejected (G : ℕ) (l : List ℝ) :
    oneDimensional G l = .error .runtimeError ↔ l.length ≠ G := by
  rw [oneDimensional]
  split_ifs with h <;> simp [h]

/-- A two-dimensional table is rejected exactly when it has the wrong number of entries. -/
theorem C16_two_rejected (G : ℕ) (flat : List ℝ) :
    twoDimensional G flat = .error .runtimeError ↔ flat.length ≠ G * G := by
  by_cases h : flat.length = G * G
  · rw [twoDimensional_ok h]; simp [h]
  · rw [twoDimensional, if_pos h]; simp [h]

/-- The value of a one-dimensional table for group `g` is its `g`-th number. -/
theorem C16_one_lookup {G : ℕ} {l t : List ℝ} (h : oneDimensional G l = .ok t) {g : ℕ}
    (h1 : 1 ≤ g) (h2 : g ≤ G) : oneAt t g = .ok (entry1 l g) ∧ l[g - 1]? = some (entry1 l g) := by
  rw [oneDimensional] at h
  split_ifs at h with hl
  simp only [Except.ok.injEq] at h
  subst h
  have hl : l.length = G := by simpa using hl
  refine ⟨oneAt_ok h1 (by omega), ?_⟩
  rw [entry1, List.getD_eq_getElem?_getD, List.getElem?_eq_getElem (by omega)]
  rfl

/-- The entry for incoming group `gp` and outgoing group `g` of a two-dimensional table is
number `G * (g - 1) + (gp - 1)` of the list. -/
theorem C16_two_lookup {G : ℕ} {flat : List ℝ} {t : List (List ℝ)}
    (h : twoDimensional G flat = .ok t) {gp g : ℕ} (h1 : 1 ≤ gp) (h2 : gp ≤ G) (h3 : 1 ≤ g)
    (h4 : g ≤ G) :
    ∃ c x, twoAt t gp = .ok c ∧ c.length = G ∧ oneAt c g = .ok x ∧
      flat[G * (g - 1) + (gp - 1)]? = some x := by
  have hl := twoDimensional_length h
  rw [twoDimensional_ok hl] at h
  simp only [Except.ok.injEq] at h
  subst h
  refine ⟨_, entry2 G flat gp g, twoAt_map h1 h2, by simp, ?_, ?_⟩
  · rw [oneAt_ok h3 (by simp [h4])]
    simp only [entry1, List.getD_eq_getElem?_getD, List.getElem?_map, Except.ok.injEq]
    rw [List.getElem?_range' (by omega)]
    simp only [Option.map_some, Option.getD_some]
    congr 1
    omega
  · have hlt : G * (g - 1) + (gp - 1) < flat.length := by
      rw [hl]
      have : G * (g - 1 + 1) ≤ G * G := Nat.mul_le_mul_left _ (by omega)
      have := Nat.mul_add G (g - 1) 1
      omega
    rw [entry2, List.getD_eq_getElem?_getD, List.getElem?_eq_getElem hlt]
    rfl

/-- A group outside `1 .. G` raises, in both kinds of table. -/
theorem C16_group_out_of_range {G g : ℕ} (hg : g = 0 ∨ G < g) {l t : List ℝ}
    (h1 : oneDimensional G l = .ok t) {flat : List ℝ} {t2 : List (List ℝ)}
    (h2 : twoDimensional G flat = .ok t2) :
    oneAt t g = .error .outOfRange ∧ twoAt t2 g = .error .outOfRange := by
  have hl1 : t.length = G := by
    rw [oneDimensional] at h1
    split_ifs at h1 with hl
    simp only [Except.ok.injEq] at h1
    subst h1
    simpa using hl
  have hl2 : t2.length = G := by
    rw [twoDimensional_ok (twoDimensional_length h2)] at h2
    simp only [Except.ok.injEq] at h2
    subst h2
    simp
  rw [oneAt, twoAt]
  rcases hg with rfl | hg
  · simp
  · rw [if_neg (by omega), if_neg (by omega), vecAt_ge (by omega), vecAt_ge (by omega)]
    simp

/-- Instance: a table of two groups; incoming group 2, outgoing group 1 is the second number. -/
example : ∃ t c, twoDimensional 2 [1, 2, 3, 4] = .ok t ∧ twoAt t 2 = .ok c ∧ oneAt c 1 = .ok 2 ∧
    oneAt c 2 = .ok 4 := by
  refine ⟨_, _, twoDimensional_ok rfl, twoAt_map (by norm_num) (by norm_num), ?_, ?_⟩ <;> rfl

/-! ## C17 -/

/-- Normalisation succeeds exactly for `G * G` numbers and gives a column of `G` numbers for
every group. -/
theorem C17_columns {G : ℕ} (flat : List ℝ) :
    (flat.length ≠ G * G → normalizedTwoDimensional G flat = .error .runtimeError) ∧
    (flat.length = G * G → ∃ t, normalizedTwoDimensional G flat = .ok t ∧
      ∀ gp, 1 ≤ gp → gp ≤ G → ∃ c, twoAt t gp = .ok c ∧ c.length = G) := by
  constructor
  · intro h
    simp [normalizedTwoDimensional, twoDimensional, h, bind, Except.bind]
  · intro h
    exact ⟨_, normalized_ok h, fun gp h1 h2 => ⟨_, twoAt_map h1 h2, length_normCol G flat gp⟩⟩

/-- A column of non-zero sum is divided by that sum: it sums to one and the ratios of entries
are those of the input. -/
theorem C17_normalised {G : ℕ} {flat : List ℝ} {t : List (List ℝ)}
    (h : normalizedTwoDimensional G flat = .ok t) {gp : ℕ} (h1 : 1 ≤ gp) (h2 : gp ≤ G)
    (hs : colSum G flat gp ≠ 0) :
    ∃ c, twoAt t gp = .ok c ∧ c.sum = 1 ∧
      ∀ g, 1 ≤ g → g ≤ G → oneAt c g = .ok (entry2 G flat gp g / colSum G flat gp) := by
  obtain ⟨hl, rfl⟩ := normalized_length h
  refine ⟨_, twoAt_map h1 h2, sum_normCol hs, fun g h3 h4 => ?_⟩
  rw [oneAt_ok h3 (by rw [length_normCol]; exact h4), normCol_eq, if_neg hs]
  simp only [entry1, List.getD_eq_getElem?_getD, List.getElem?_map, col, Except.ok.injEq]
  rw [List.getElem?_range' (by omega)]
  simp only [Option.map_some, Option.getD_some]
  congr 2
  omega

/-- A column of non-negative entries summing to zero stays at zero. -/
theorem C17_zero_column {G : ℕ} {flat : List ℝ} (hn : ∀ x ∈ flat, 0 ≤ x) {t : List (List ℝ)}
    (h : normalizedTwoDimensional G flat = .ok t) {gp : ℕ} (h1 : 1 ≤ gp) (h2 : gp ≤ G)
    (hs : colSum G flat gp = 0) :
    ∃ c, twoAt t gp = .ok c ∧ ∀ g, 1 ≤ g → g ≤ G → oneAt c g = .ok 0 := by
  obtain ⟨hl, rfl⟩ := normalized_length h
  refine ⟨_, twoAt_map h1 h2, fun g h3 h4 => ?_⟩
  rw [oneAt_ok h3 (by rw [length_normCol]; exact h4), normCol_eq, if_pos hs]
  have hz : ∀ x ∈ col G flat gp, x = 0 := by
    rw [← sum_col] at hs
    intro x hx
    have := List.single_le_sum (col_nonneg hn gp) x hx
    exact le_antisymm (by rw [← hs]; exact this) (col_nonneg hn gp x hx)
  simp only [entry1, List.getD_eq_getElem?_getD, Except.ok.injEq]
  rcases hx : (col G flat gp)[g - 1]? with _ | x
  · rfl
  · simpa using hz x (List.mem_of_getElem? hx)

/-- Instance: in a table of two groups, column 1 is (1, 3) and column 2 is (0, 0). -/
example : colSum 2 [1, 0, 3, 0] 1 = 4 ∧ entry2 2 [1, 0, 3, 0] 1 2 = 3 ∧ colSum 2 [1, 0, 3, 0] 2 = 0 := by
  refine ⟨?_, ?_, ?_⟩ <;> norm_num [colSum, entry2, List.range']

/-! ## C18 -/

/-- The total cross section of a group is the sum of the cross sections of the reactions
present; that of scattering is the sum of the column of the scattering table. -/
theorem C18_total {G : ℕ} {nodes : List MgNode} {m : Multigroup} (h : create G nodes = .ok m)
    {p : Particle} {g : ℕ} (hp : InGroup p g) (h1 : 1 ≤ g) (h2 : g ≤ G) :
    m.getTotal p = .ok (specTotal G nodes g) ∧ m.getMajorant p = .ok (specTotal G nodes g) :=
  ⟨getTotal_eq h hp h1 h2, getTotal_eq h hp h1 h2⟩

/-- A particle with a continuous energy or a group that does not exist ends the program. -/
theorem C18_wrong_energy {G : ℕ} {nodes : List MgNode} {m : Multigroup}
    (h : create G nodes = .ok m) {p : Particle}
    (hp : (∃ e, p.energy = .continuous e) ∨ ∃ g, InGroup p g ∧ (g = 0 ∨ G < g)) :
    m.getTotal p = .error .terminate := by
  obtain ⟨hG, hs, hlen, hlk, ht, _⟩ := create_spec h
  have hz := (zipWith_foldl (G := G) m.reactions (List.replicate G 0) (by simp) hlen 0).1
  rcases hp with ⟨e, he⟩ | ⟨g, hg, hout⟩
  · rw [getTotal, he]; rfl
  · rw [getTotal, hg]
    simp only [Energy.getGroup, bind, Except.bind, oneAt]
    rcases hout with rfl | hout
    · rfl
    · rw [if_neg (by omega), vecAt_ge (by rw [ht, createTotalXS, hz]; omega)]
      rfl

/-- Input used in the instances: two groups, all three reactions, the second group has no
fission and no capture. -/
def exampleNodes : List MgNode :=
  [.scatter [1, 0, 1, 2], .capture [1, 0], .fission (some [2.5, 0]) (some [1, 0, 0, 0]) [3, 0]]

theorem exampleNodes_ok : ∃ m, create 2 exampleNodes = .ok m := by
  simp only [create, exampleNodes, findNubar, findChi, findScatter, optionally, createReactions,
    reactionXS, createScatterXS, oneDimensional, normalized_ok (G := 2) (flat := [1, 0, 0, 0]) rfl,
    normalized_ok (G := 2) (flat := [1, 0, 1, 2]) rfl,
    twoDimensional_ok (G := 2) (flat := [1, 0, 1, 2]) rfl, bind, Except.bind]
  exact ⟨_, rfl⟩

theorem exampleNodes_nonneg : NonnegNodes exampleNodes := by
  intro n hn
  simp only [exampleNodes, List.mem_cons, List.not_mem_nil, or_false] at hn
  rcases hn with rfl | rfl | rfl
  · intro x hx; simp at hx; rcases hx with rfl | rfl | rfl | rfl <;> norm_num
  · intro x hx; simp at hx; rcases hx with rfl | rfl <;> norm_num
  · refine ⟨?_, ?_, ?_⟩
    · intro x hx; simp at hx; rcases hx with rfl | rfl <;> norm_num
    · rintro l ⟨⟩ x hx; simp at hx; rcases hx with rfl | rfl <;> norm_num
    · rintro l ⟨⟩ x hx; simp at hx; rcases hx with rfl | rfl <;> norm_num

/-- Instance: the totals of the two groups. -/
example : specTotal 2 exampleNodes 1 = 6 ∧ specTotal 2 exampleNodes 2 = 2 := by
  constructor
  · change (1 : ℝ) + colSum 2 [1, 0, 1, 2] 1 + 3 = 6
    norm_num [colSum, entry2, List.range']
  · change (0 : ℝ) + colSum 2 [1, 0, 1, 2] 2 + 0 = 2
    norm_num [colSum, entry2, List.range']

/-! ## C19 -/

/-- The weights of capture, scattering and fission. -/
noncomputable def weights (G : ℕ) (nodes : List MgNode) (g : ℕ) : List ℝ :=
  [specXS G nodes .capture g, specXS G nodes .scatter g, specXS G nodes .fission g]

/-- One uniform number decides: exactly one of the three reactions is selected, and that
reaction is performed next. -/
theorem C19_reaction {G : ℕ} {nodes : List MgNode} {m : Multigroup} (h : create G nodes = .ok m)
    (hn : NonnegNodes nodes) {p : Particle} {g : ℕ} (hp : InGroup p g) (h1 : 1 ≤ g) (h2 : g ≤ G)
    (hr : Rng.Valid p.rng) (hpos : 0 < specTotal G nodes g) :
    (∃! i, Selected (weights G nodes g) ((Rng.canonical p.rng).1 * specTotal G nodes g) i) ∧
    (Selected (weights G nodes g) ((Rng.canonical p.rng).1 * specTotal G nodes g) 0 →
      m.interact p = .ok { p with event := .capture, rng := (Rng.canonical p.rng).2 }) ∧
    (Selected (weights G nodes g) ((Rng.canonical p.rng).1 * specTotal G nodes g) 1 →
      m.interact p = m.scatter { p with rng := (Rng.canonical p.rng).2 }) ∧
    (Selected (weights G nodes g) ((Rng.canonical p.rng).1 * specTotal G nodes g) 2 →
      m.interact p = m.fission { p with rng := (Rng.canonical p.rng).2 }) := by
  have hu0 := (Rng.canonical_pos hr).le
  have hu1 := Rng.canonical_lt_one hr
  have hnn : ∀ w ∈ weights G nodes g, 0 ≤ w := by
    intro w hw
    simp only [weights, List.mem_cons, List.not_mem_nil, or_false] at hw
    rcases hw with rfl | rfl | rfl <;> exact specXS_nonneg hn _ g
  have hp' : InGroup { p with rng := (Rng.canonical p.rng).2 } g := hp
  obtain ⟨r, xs, hsel, hmem, hxs, hS⟩ := selectReaction_spec h hn hp' h1 h2
    (mul_nonneg hu0 hpos.le)
    (show (Rng.canonical p.rng).1 * specTotal G nodes g < specTotal G nodes g by nlinarith)
  change Selected (weights G nodes g) _ _ at hS
  have hgt := getTotal_eq h hp' h1 h2
  have hi : m.interact p = noexcept (match r with
      | .capture => .ok (capture { p with rng := (Rng.canonical p.rng).2 })
      | .scatter => m.scatter { p with rng := (Rng.canonical p.rng).2 }
      | .fission => m.fission { p with rng := (Rng.canonical p.rng).2 }) := by
    simp only [interact, Particle.sample, bind, Except.bind]
    rw [hgt]
    simp only [hsel]
    cases r <;> rfl
  refine ⟨⟨rank r, hS, fun j hj => Selected.unique hnn hj hS⟩, ?_, ?_, ?_⟩
  · intro h0
    have hrk := Selected.unique hnn hS h0
    obtain rfl : r = .capture := rank_inj hrk
    rw [hi]; rfl
  · intro h0
    have hrk := Selected.unique hnn hS h0
    obtain rfl : r = .scatter := rank_inj hrk
    rw [hi]; exact noexcept_idem _
  · intro h0
    have hrk := Selected.unique hnn hS h0
    obtain rfl : r = .fission := rank_inj hrk
    rw [hi]; exact noexcept_idem _

/-- Each reaction is selected on a set of uniform numbers of measure cross section over
total. -/
theorem C19_probability {G : ℕ} {nodes : List MgNode} (hn : NonnegNodes nodes) {g : ℕ}
    (hpos : 0 < specTotal G nodes g) :
    prob {u | Selected (weights G nodes g) (u * specTotal G nodes g) 0} =
      ENNReal.ofReal (specXS G nodes .capture g / specTotal G nodes g) ∧
    prob {u | Selected (weights G nodes g) (u * specTotal G nodes g) 1} =
      ENNReal.ofReal (specXS G nodes .scatter g / specTotal G nodes g) ∧
    prob {u | Selected (weights G nodes g) (u * specTotal G nodes g) 2} =
      ENNReal.ofReal (specXS G nodes .fission g / specTotal G nodes g) := by
  have hnn : ∀ w ∈ weights G nodes g, 0 ≤ w := by
    intro w hw
    simp only [weights, List.mem_cons, List.not_mem_nil, or_false] at hw
    rcases hw with rfl | rfl | rfl <;> exact specXS_nonneg hn _ g
  have hsum : (weights G nodes g).sum = specTotal G nodes g := by
    simp [weights, specTotal, add_assoc]
  rw [← hsum] at hpos ⊢
  exact ⟨prob_selected hnn hpos (i := 0) (by simp [weights]),
    prob_selected hnn hpos (i := 1) (by simp [weights]),
    prob_selected hnn hpos (i := 2) (by simp [weights])⟩

/-- A reaction of zero cross section is never selected. -/
theorem C19_zero_never {G : ℕ} {nodes : List MgNode} {g : ℕ} {θ : ℝ} (r : Reaction)
    (hz : specXS G nodes r g = 0) : ¬ Selected (weights G nodes g) θ (rank r) := by
  intro hs
  obtain ⟨w, hw, hpos⟩ := Selected.pos hs
  cases r <;> simp [weights, rank] at hw <;> linarith

/-- When a nuclide with fission comes with its yield and emission spectrum, an interaction
always succeeds (it never runs off the end of a selection), and its event tells which of the
reactions was selected. -/
theorem C19_succeeds {G : ℕ} {nodes : List MgNode} {m : Multigroup} (h : create G nodes = .ok m)
    (hn : NonnegNodes nodes) {p : Particle} {g : ℕ} (hp : InGroup p g) (h1 : 1 ≤ g) (h2 : g ≤ G)
    (hr : Rng.Valid p.rng) (hpos : 0 < specTotal G nodes g)
    (hdata : 0 < specXS G nodes .fission g →
      ∃ nubar chi, findNubar nodes = some nubar ∧ findChi nodes = some chi) :
    ∃ p', m.interact p = .ok p' ∧
      (p'.event = .capture ↔
        Selected (weights G nodes g) ((Rng.canonical p.rng).1 * specTotal G nodes g) 0) ∧
      (p'.event = .scatter ↔
        Selected (weights G nodes g) ((Rng.canonical p.rng).1 * specTotal G nodes g) 1) ∧
      (p'.event = .fission ↔
        Selected (weights G nodes g) ((Rng.canonical p.rng).1 * specTotal G nodes g) 2) ∧
      (p'.event = .capture ∨ p'.event = .scatter ∨ p'.event = .fission) := by
  obtain ⟨⟨i, hi, huniq⟩, c0, c1, c2⟩ := C19_reaction h hn hp h1 h2 hr hpos
  have hv := Rng.valid_canonical hr
  have hp' : InGroup { p with rng := (Rng.canonical p.rng).2 } g := hp
  have hlen : i < 3 := hi.1
  have key : ∀ (j : ℕ) (e : Event) (p' : Particle), p'.event = e → i = j →
      (e = [Event.capture, .scatter, .fission].getD j .birth) → j < 3 →
      (p'.event = .capture ↔
        Selected (weights G nodes g) ((Rng.canonical p.rng).1 * specTotal G nodes g) 0) ∧
      (p'.event = .scatter ↔
        Selected (weights G nodes g) ((Rng.canonical p.rng).1 * specTotal G nodes g) 1) ∧
      (p'.event = .fission ↔
        Selected (weights G nodes g) ((Rng.canonical p.rng).1 * specTotal G nodes g) 2) ∧
      (p'.event = .capture ∨ p'.event = .scatter ∨ p'.event = .fission) := by
    intro j e p' he hij hej hj
    have hall : ∀ k, Selected (weights G nodes g)
        ((Rng.canonical p.rng).1 * specTotal G nodes g) k ↔ k = i :=
      fun k => ⟨fun hk => huniq k hk, fun hk => hk ▸ hi⟩
    rw [hall, hall, hall, he, hej, hij]
    rcases (by omega : j = 0 ∨ j = 1 ∨ j = 2) with rfl | rfl | rfl <;> simp
  rcases (by omega : i = 0 ∨ i = 1 ∨ i = 2) with rfl | rfl | rfl
  · exact ⟨_, c0 hi, key 0 _ _ rfl rfl rfl (by norm_num)⟩
  · obtain ⟨w, hw, hwpos⟩ := Selected.pos hi
    simp only [weights, List.getElem?_cons_succ, List.getElem?_cons_zero,
      Option.some.injEq] at hw
    rw [specXS, findScatter_eq] at hw
    rcases hf : findScatter nodes with _ | flat
    · rw [hf] at hw; simp at hw; linarith
    · rw [hf] at hw
      simp at hw
      obtain ⟨g', _, _, hs⟩ := scatter_spec h hn hf hp' h1 h2 hv (by rw [hw]; exact hwpos)
      exact ⟨_, (c1 hi).trans hs, key 1 _ _ rfl rfl rfl (by norm_num)⟩
  · obtain ⟨w, hw, hwpos⟩ := Selected.pos hi
    simp only [weights, List.getElem?_cons_succ, List.getElem?_cons_zero,
      Option.some.injEq] at hw
    obtain ⟨nubar, chi, hnu, hchi⟩ := hdata (by rw [hw]; exact hwpos)
    obtain ⟨hf, hnn1, hnn2⟩ := fission_loop h hn hnu hchi hp' h1 h2 hv
    by_cases hz : colSum G chi g = 0
    · rw [bankLoop_zero (length_normCol G chi g) (normCol_nonneg hnn2 g)
        (by rw [normCol_eq, if_pos hz]; exact hz) _ _ (Rng.valid_iterate hv 2)] at hf
      exact ⟨_, (c2 hi).trans hf, key 2 _ _ rfl rfl rfl (by norm_num)⟩
    · obtain ⟨gs, _, _, hb⟩ := bankLoop_spec (length_normCol G chi g) (normCol_nonneg hnn2 g)
        (sum_normCol hz) ⌊entry1 nubar g + (Rng.canonical (Rng.canonical p.rng).2).1⌋₊
        { p with event := .fission, rng := Rng.next^[2] (Rng.canonical p.rng).2 }
        (Rng.valid_iterate hv 2)
      rw [hb] at hf
      exact ⟨_, (c2 hi).trans hf, key 2 _ _ rfl rfl rfl (by norm_num)⟩

/-- Without a yield or an emission spectrum a selected fission ends the program. -/
theorem C19_fission_data_missing {G : ℕ} {nodes : List MgNode} {m : Multigroup}
    (h : create G nodes = .ok m) (hn : NonnegNodes nodes) {p : Particle} {g : ℕ}
    (hp : InGroup p g) (h1 : 1 ≤ g) (h2 : g ≤ G) (hr : Rng.Valid p.rng)
    (hpos : 0 < specTotal G nodes g) (hmiss : findNubar nodes = none)
    (hs : Selected (weights G nodes g) ((Rng.canonical p.rng).1 * specTotal G nodes g) 2) :
    m.interact p = .error .terminate := by
  obtain ⟨_, _, _, c2⟩ := C19_reaction h hn hp h1 h2 hr hpos
  rw [c2 hs, fission]
  obtain ⟨_, _, _, _, _, hnb, _⟩ := create_spec h
  rw [hmiss] at hnb
  simp only [optionally, Except.ok.injEq] at hnb
  rw [show p.energy = .group g from hp]
  simp only [← hnb, optValue, Energy.getGroup, bind, Except.bind]
  rfl

/-- Instance: the example accepts, has non-negative data, a positive total in group 1 and fission
data. -/
example : (∃ m, create 2 exampleNodes = .ok m) ∧ NonnegNodes exampleNodes ∧
    0 < specTotal 2 exampleNodes 1 ∧ findNubar exampleNodes = some [2.5, 0] ∧
    findChi exampleNodes = some [1, 0, 0, 0] := by
  refine ⟨exampleNodes_ok, exampleNodes_nonneg, ?_, rfl, rfl⟩
  change (0 : ℝ) < 1 + colSum 2 [1, 0, 1, 2] 1 + 3
  norm_num [colSum, entry2, List.range']

/-! ## C20 -/

/-- Scattering succeeds, chooses an existing group with non-zero entry as the table says,
redraws the direction and leaves everything else alone. -/
theorem C20_scatter {G : ℕ} {nodes : List MgNode} {m : Multigroup} (h : create G nodes = .ok m)
    (hn : NonnegNodes nodes) {flat : List ℝ} (hf : findScatter nodes = some flat) {p : Particle}
    {g : ℕ} (hp : InGroup p g) (h1 : 1 ≤ g) (h2 : g ≤ G) (hr : Rng.Valid p.rng)
    (hpos : 0 < colSum G flat g) :
    ∃ g' d, m.scatter p = .ok { p with
        event := .scatter, energy := .group g', direction := d, rng := Rng.next^[6] p.rng } ∧
      1 ≤ g' ∧ g' ≤ G ∧ 0 < entry2 G flat g g' ∧
      Selected (colEntries G flat g) ((Rng.canonical p.rng).1 * colSum G flat g) (g' - 1) ∧
      d = (Direction.isotropic (Rng.next^[2] p.rng)).1 ∧ UnitVec d := by
  obtain ⟨g', hg1, hsel, hs⟩ := scatter_spec h hn hf hp h1 h2 hr hpos
  have hlen : g' - 1 < G := by simpa [length_col] using hsel.1
  refine ⟨g', _, hs, hg1, by omega, ?_, hsel, rfl, unitVec_isotropic (Rng.valid_canonical hr)⟩
  obtain ⟨w, hw, hpos'⟩ := Selected.pos hsel
  simp only [col, List.getElem?_map] at hw
  rw [List.getElem?_range' (by omega)] at hw
  simp only [Option.map_some, Option.some.injEq] at hw
  rw [← hw] at hpos'
  convert hpos' using 2
  omega

/-- The outgoing group is a given one on a set of uniform numbers of measure
entry over column sum. -/
theorem C20_probability {G : ℕ} {flat : List ℝ} (hn : ∀ x ∈ flat, 0 ≤ x) {g g' : ℕ}
    (h1 : 1 ≤ g') (h2 : g' ≤ G) (hpos : 0 < colSum G flat g) :
    prob {u | Selected (colEntries G flat g) (u * colSum G flat g) (g' - 1)} =
      ENNReal.ofReal (entry2 G flat g g' / colSum G flat g) := by
  have := prob_selected (ws := colEntries G flat g) (col_nonneg hn g) hpos (i := g' - 1)
    (by simp [colEntries]; omega)
  rw [show (colEntries G flat g).sum = colSum G flat g from rfl] at this
  rw [this]
  congr 2
  simp only [colEntries, List.getElem_map, List.getElem_range']
  congr 1
  omega

/-- The scattering cross section used for the choice of the reaction is the column sum used for
the choice of the group, so that a scatter is only ever performed with a positive column sum. -/
theorem C20_reached_with_positive_column {G : ℕ} {nodes : List MgNode} {g : ℕ} {θ : ℝ}
    (hs : Selected (weights G nodes g) θ (rank .scatter)) :
    ∃ flat, findScatter nodes = some flat ∧ 0 < colSum G flat g := by
  obtain ⟨w, hw, hpos⟩ := Selected.pos hs
  simp only [weights, rank, List.getElem?_cons_succ, List.getElem?_cons_zero,
    Option.some.injEq] at hw
  rw [specXS, findScatter_eq] at hw
  rcases hf : findScatter nodes with _ | flat
  · rw [hf] at hw; simp at hw; linarith
  · rw [hf] at hw
    simp at hw
    exact ⟨flat, rfl, by rw [hw]; exact hpos⟩

/-- Instance: group 1 of the example scatters to both groups with equal weight. -/
example : findScatter exampleNodes = some [1, 0, 1, 2] ∧ colSum 2 [1, 0, 1, 2] 1 = 2 ∧
    entry2 2 [1, 0, 1, 2] 1 2 = 1 := by
  refine ⟨rfl, ?_, ?_⟩ <;> norm_num [colSum, entry2, List.range']

/-! ## C21 -/

theorem yield_eq {nu u : ℝ} (hnu : 0 ≤ nu) (h0 : 0 ≤ u) (h1 : u < 1) :
    ⌊nu + u⌋₊ = if u < 1 - (nu - ⌊nu⌋₊) then ⌊nu⌋₊ else ⌊nu⌋₊ + 1 := by
  have a := Nat.floor_le hnu
  have b := Nat.lt_floor_add_one nu
  split_ifs with h
  · rw [Nat.floor_eq_iff (by linarith)]
    exact ⟨by linarith, by linarith⟩
  · push Not at h
    rw [Nat.floor_eq_iff (by linarith)]
    push_cast
    exact ⟨by linarith, by linarith⟩

/-- The number of fission neutrons is the average yield rounded down or up, and on average it
is the average yield. -/
theorem C21_unbiased {nu : ℝ} (hnu : 0 ≤ nu) :
    ∃ N : ℝ → ℕ,
      (∀ u ∈ Set.Ico (0 : ℝ) 1, toSize (nu + u) = .ok (N u) ∧ (N u = ⌊nu⌋₊ ∨ N u = ⌈nu⌉₊)) ∧
      ∫ u in Set.Ico (0 : ℝ) 1, (N u : ℝ) = nu := by
  have a := Nat.floor_le hnu
  have b := Nat.lt_floor_add_one nu
  refine ⟨fun u => ⌊nu + u⌋₊, ?_, ?_⟩
  · rintro u ⟨h0, h1⟩
    refine ⟨toSize_ok (by linarith), ?_⟩
    simp only [yield_eq hnu h0 h1]
    split_ifs with h
    · exact .inl rfl
    · right
      push Not at h
      have : (⌊nu⌋₊ : ℝ) < nu := by linarith
      symm
      rw [Nat.ceil_eq_iff (by omega)]
      push_cast
      exact ⟨by simpa using this, by linarith⟩
  · have e : Set.EqOn (fun u : ℝ => ((⌊nu + u⌋₊ : ℕ) : ℝ))
        (fun u => (⌊nu⌋₊ : ℝ) + (Set.Ico (1 - (nu - ⌊nu⌋₊)) 1).indicator (fun _ => (1 : ℝ)) u)
        (Set.Ico 0 1) := by
      rintro u ⟨h0, h1⟩
      simp only [yield_eq hnu h0 h1]
      split_ifs with h
      · rw [Set.indicator_of_notMem (by simp only [Set.mem_Ico, not_and]; intro hh; linarith)]
        simp
      · push Not at h
        rw [Set.indicator_of_mem (show u ∈ Set.Ico (1 - (nu - (⌊nu⌋₊ : ℝ))) 1 from ⟨by linarith, h1⟩)]
        push_cast; rfl
    rw [setIntegral_congr_fun measurableSet_Ico e]
    have hint : Integrable (fun u : ℝ => (Set.Ico (1 - (nu - ⌊nu⌋₊)) 1).indicator
        (fun _ => (1 : ℝ)) u) (volume.restrict (Set.Ico (0 : ℝ) 1)) := by
      apply Integrable.indicator _ measurableSet_Ico
      exact integrable_const 1
    rw [integral_add (integrable_const _) hint]
    rw [setIntegral_indicator measurableSet_Ico]
    have hinter : Set.Ico (0 : ℝ) 1 ∩ Set.Ico (1 - (nu - ⌊nu⌋₊)) 1 = Set.Ico (1 - (nu - ⌊nu⌋₊)) 1 := by
      apply Set.inter_eq_right.2
      apply Set.Ico_subset_Ico_left
      linarith
    rw [hinter]
    simp only [integral_const, MeasurableSet.univ, measureReal_restrict_apply, Set.univ_inter,
      Real.volume_real_Ico, smul_eq_mul]
    rw [max_eq_left (by linarith), max_eq_left (by linarith)]
    ring

/-- A fission in group `g` banks that number of secondaries. -/
theorem C21_banked {G : ℕ} {nodes : List MgNode} {m : Multigroup} (h : create G nodes = .ok m)
    (hn : NonnegNodes nodes) {nubar chi : List ℝ} (hnu : findNubar nodes = some nubar)
    (hchi : findChi nodes = some chi) {p : Particle} {g : ℕ} (hp : InGroup p g) (h1 : 1 ≤ g)
    (h2 : g ≤ G) (hr : Rng.Valid p.rng) (hpos : 0 < colSum G chi g) :
    ∃ p' n, m.fission p = .ok p' ∧ toSize (entry1 nubar g + (Rng.canonical p.rng).1) = .ok n ∧
      p'.secondaries.length = p.secondaries.length + n := by
  obtain ⟨hf, hnn1, hnn2⟩ := fission_loop h hn hnu hchi hp h1 h2 hr
  obtain ⟨gs, hl, _, hb⟩ := bankLoop_spec (length_normCol G chi g) (normCol_nonneg hnn2 g)
    (sum_normCol (ne_of_gt hpos)) ⌊entry1 nubar g + (Rng.canonical p.rng).1⌋₊
    { p with event := .fission, rng := Rng.next^[2] p.rng } (Rng.valid_iterate hr 2)
  rw [hb] at hf
  exact ⟨_, _, hf, toSize_ok (add_nonneg (entry1_nonneg hnn1 g) (Rng.canonical_pos hr).le),
    by simp [hl]⟩

/-- Instance: an average yield of 2.5 gives 2 or 3. -/
example : (0 : ℝ) ≤ 2.5 ∧ ⌊(2.5 : ℝ)⌋₊ = 2 ∧ ⌈(2.5 : ℝ)⌉₊ = 3 := by
  refine ⟨by norm_num, ?_, ?_⟩
  · rw [Nat.floor_eq_iff (by norm_num)]; norm_num
  · rw [Nat.ceil_eq_iff (by norm_num)]; norm_num

/-! ## C22 -/

/-- With a non-zero emission spectrum a fission banks, after those already banked, exactly the
sampled number of secondaries; the `i`-th is a neutron at the site and in the cell of the
parent, its group is selected by the emission spectrum, its direction is an isotropic unit
vector; nothing but the event, the generator and the bank changes in the parent, which stops
being alive. -/
theorem C22_fission_partial {G : ℕ} {nodes : List MgNode} {m : Multigroup}
    (h : create G nodes = .ok m) (hn : NonnegNodes nodes) {nubar chi : List ℝ}
    (hnu : findNubar nodes = some nubar) (hchi : findChi nodes = some chi) {p : Particle} {g : ℕ}
    (hp : InGroup p g) (h1 : 1 ≤ g) (h2 : g ≤ G) (hr : Rng.Valid p.rng)
    (hpos : 0 < colSum G chi g) :
    ∃ new : List Born, ∃ p', m.fission p = .ok p' ∧
      new.length = ⌊entry1 nubar g + (Rng.canonical p.rng).1⌋₊ ∧
      p' = { p with
        event := .fission
        rng := Rng.next^[2 + 7 * new.length] p.rng
        secondaries := p.secondaries ++ new } ∧
      p'.isAlive = false ∧
      ∀ i b, new[i]? = some b →
        b.position = p.position ∧ b.cell = p.cell ∧ b.type = .neutron ∧
        UnitVec b.direction ∧
        b.direction = (Direction.isotropic (Rng.next^[2 + 7 * i + 2] p.rng)).1 ∧
        b.seed = Rng.next^[2 + 7 * i + 7] p.rng ∧
        ∃ g', b.energy = .group g' ∧ 1 ≤ g' ∧ g' ≤ G ∧
          Selected (colEntries G chi g)
            ((Rng.canonical (Rng.next^[2 + 7 * i] p.rng)).1 * colSum G chi g) (g' - 1) := by
  obtain ⟨hf, hnn1, hnn2⟩ := fission_loop h hn hnu hchi hp h1 h2 hr
  obtain ⟨gs, hl, hsel, hb⟩ := bankLoop_spec (length_normCol G chi g) (normCol_nonneg hnn2 g)
    (sum_normCol (ne_of_gt hpos)) ⌊entry1 nubar g + (Rng.canonical p.rng).1⌋₊
    { p with event := .fission, rng := Rng.next^[2] p.rng } (Rng.valid_iterate hr 2)
  rw [hb] at hf
  have e : ∀ k, Rng.next^[k] (Rng.next^[2] p.rng) = Rng.next^[2 + k] p.rng := by
    intro k
    rw [← Function.iterate_add_apply, add_comm]
  have e' : ∀ a k, Rng.next^[a] (Rng.next^[k] p.rng) = Rng.next^[k + a] p.rng := by
    intro a k
    rw [← Function.iterate_add_apply, add_comm]
  refine ⟨gs.mapIdx (fun i g => bornAt p (Rng.next^[2 + 7 * i] p.rng) g), _, hf,
    by simpa using hl, ?_, rfl, ?_⟩
  · simp only [e, hl, List.length_mapIdx]
    rfl
  · intro i b hi
    rw [List.getElem?_mapIdx] at hi
    rcases hgi : gs[i]? with _ | g'
    · rw [hgi] at hi; simp at hi
    rw [hgi] at hi
    simp only [Option.map_some, Option.some.injEq, bornAt] at hi
    obtain ⟨hg1, hg2⟩ := hsel i g' hgi
    rw [selected_normCol hpos] at hg2
    simp only [e] at hg2
    have hlen : g' - 1 < G := by simpa [length_col] using hg2.1
    subst hi
    refine ⟨rfl, rfl, rfl, unitVec_isotropic (Rng.valid_iterate (Rng.valid_iterate hr _) _), ?_,
      ?_, g', rfl, hg1, by omega, hg2⟩
    · simp only [e']
    · simp only [e']

/-- A particle taken from the bank is at its birth, without secondaries and without perturbation
effects. -/
theorem C22_born_fresh (b : Born) :
    (Particle.ofBorn b).event = .birth ∧ (Particle.ofBorn b).secondaries = [] ∧
      (Particle.ofBorn b).indirectEffects = [] ∧ (Particle.ofBorn b).isAlive = true ∧
      (Particle.ofBorn b).position = b.position ∧ (Particle.ofBorn b).direction = b.direction ∧
      (Particle.ofBorn b).energy = b.energy ∧ (Particle.ofBorn b).cell = b.cell ∧
      (Particle.ofBorn b).type = b.type ∧ (Particle.ofBorn b).currentSurface = none ∧
      Rng.Valid (Particle.ofBorn b).rng :=
  ⟨rfl, rfl, rfl, rfl, rfl, rfl, rfl, rfl, rfl, rfl, Rng.valid_ofSeed b.seed⟩

/-- The code violates the property when the emission spectrum of the incoming group is zero: the
sampled secondaries are silently dropped. -/
theorem C22_zero_spectrum_violated {G : ℕ} {nodes : List MgNode} {m : Multigroup}
    (h : create G nodes = .ok m) (hn : NonnegNodes nodes) {nubar chi : List ℝ}
    (hnu : findNubar nodes = some nubar) (hchi : findChi nodes = some chi) {p : Particle} {g : ℕ}
    (hp : InGroup p g) (h1 : 1 ≤ g) (h2 : g ≤ G) (hr : Rng.Valid p.rng)
    (hzero : colSum G chi g = 0) :
    ∃ p', m.fission p = .ok p' ∧ p'.event = .fission ∧ p'.secondaries = p.secondaries := by
  obtain ⟨hf, hnn1, hnn2⟩ := fission_loop h hn hnu hchi hp h1 h2 hr
  have hsum : (normCol G chi g).sum = 0 := by
    rw [normCol_eq, if_pos hzero]; exact hzero
  rw [bankLoop_zero (length_normCol G chi g) (normCol_nonneg hnn2 g) hsum _ _
    (Rng.valid_iterate hr 2)] at hf
  exact ⟨_, hf, rfl, rfl⟩

/-- Witness: one group, yield 1, spectrum 0, total cross section 1.  The fission that is
selected should bank at least one secondary and banks none. -/
theorem C22_dropped_secondary_violated :
    ∃ m, create 1 [.fission (some [1]) (some [0]) [1]] = .ok m ∧
      ∀ p, InGroup p 1 → Rng.Valid p.rng → p.secondaries = [] →
        1 ≤ ⌊entry1 [1] 1 + (Rng.canonical p.rng).1⌋₊ ∧
        ∃ p', m.fission p = .ok p' ∧ p'.secondaries = [] := by
  have hc : ∃ m, create 1 [.fission (some [1]) (some [0]) [1]] = .ok m := by
    simp only [create, findNubar, findChi, findScatter, optionally, createReactions,
      reactionXS, oneDimensional, normalized_ok (G := 1) (flat := [0]) rfl, bind, Except.bind]
    exact ⟨_, rfl⟩
  obtain ⟨m, hm⟩ := hc
  refine ⟨m, hm, fun p hp hr hsec => ⟨?_, ?_⟩⟩
  · rw [Nat.one_le_floor_iff]
    have := (Rng.canonical_pos hr).le
    have e : entry1 [(1 : ℝ)] 1 = 1 := rfl
    rw [e]; linarith
  · obtain ⟨p', h1, _, h2⟩ := C22_zero_spectrum_violated hm (nubar := [1]) (chi := [0])
      (by
        intro n hn
        simp only [List.mem_cons, List.not_mem_nil, or_false] at hn
        subst hn
        refine ⟨by simp, ?_, ?_⟩
        · rintro l ⟨⟩; simp
        · rintro l ⟨⟩; simp) rfl rfl hp le_rfl le_rfl hr
      (by norm_num [colSum, entry2, List.range'])
    exact ⟨p', h1, h2.trans hsec⟩

/-- Instance: the example has a positive spectrum in group 1 and yield 2.5. -/
example : findNubar exampleNodes = some [2.5, 0] ∧ findChi exampleNodes = some [1, 0, 0, 0] ∧
    entry1 [(2.5 : ℝ), 0] 1 = 2.5 ∧ 0 < colSum 2 [1, 0, 0, 0] 1 := by
  refine ⟨rfl, rfl, rfl, ?_⟩
  norm_num [colSum, entry2, List.range']

end Minimc.Props
