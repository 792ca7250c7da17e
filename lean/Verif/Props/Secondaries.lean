import Verif.Props.Multigroup
import Verif.Props.Rng
import Verif.Spec.Streams
import Verif.Lemmas.Keeps

/-! # Properties C22 (continuous energy) and C56: fission secondaries and their random numbers -/

namespace Minimc.Props

open Spec Multigroup

/-! ## C22, continuous energy -/

/-- What the loop banking continuous-energy fission neutrons does. -/
theorem continuousBank_spec : ∀ (n : ℕ) (p : Particle),
    ContinuousReaction.bankLoop n p = { p with
      rng := Rng.next^[5 * n] p.rng
      secondaries := p.secondaries ++ (List.range n).map fun i =>
        ⟨p.position, (Direction.isotropic (Rng.next^[5 * i] p.rng)).1, p.energy, .neutron,
          Rng.next^[5 * i + 5] p.rng, p.cell⟩ }
  | 0, p => by simp [ContinuousReaction.bankLoop]
  | n + 1, p => by
    have h0 : ContinuousReaction.bankLoop (n + 1) p = ContinuousReaction.bankLoop n
        ({ p with rng := (Direction.isotropic p.rng).2 }.bankSecondary
          (Direction.isotropic p.rng).1 p.energy) := rfl
    rw [h0, continuousBank_spec n]
    have e : ∀ k, Rng.next^[k] (Rng.next (Direction.isotropic p.rng).2) =
        Rng.next^[k + 5] p.rng := by
      intro k
      rw [Function.iterate_add_apply]
      rfl
    simp only [Particle.bankSecondary, e, List.range_succ_eq_map, List.map_cons, List.map_map,
      List.append_assoc, List.singleton_append]
    congr 3

/-- A continuous-energy fission banks, after those already banked, exactly the sampled number of
secondaries; the `i`-th is a neutron at the site and in the cell of the parent, with an isotropic
unit direction and the energy of the parent; nothing but the event, the generator and the bank
changes in the parent, which stops being alive. -/
theorem C22_continuous {fuel : ℕ} {xs : ContinuousEvaluation} {m : ContinuousMap} {p : Particle} {e nu : ℝ}
    (he : p.energy = .continuous e) (hm : m.at' e = .ok nu) (hnu : 0 ≤ nu)
    (hr : Rng.Valid p.rng) :
    ∃ new : List Born, ∃ p',
      (ContinuousReaction.fission xs (some m)).interact fuel p = .ok p' ∧
      new.length = ⌊nu + (Rng.canonical p.rng).1⌋₊ ∧
      p' = { p with
        event := .fission
        rng := Rng.next^[2 + 5 * new.length] p.rng
        secondaries := p.secondaries ++ new } ∧
      p'.isAlive = false ∧
      ∀ i b, new[i]? = some b →
        b.position = p.position ∧ b.cell = p.cell ∧ b.type = .neutron ∧
        b.energy = .continuous e ∧ UnitVec b.direction ∧
        b.direction = (Direction.isotropic (Rng.next^[2 + 5 * i] p.rng)).1 ∧
        b.seed = Rng.next^[2 + 5 * i + 5] p.rng := by
  have ht : toSize (nu + (Rng.canonical p.rng).1) = .ok ⌊nu + (Rng.canonical p.rng).1⌋₊ :=
    toSize_ok (add_nonneg hnu (Rng.canonical_pos hr).le)
  have e2 : ∀ k, Rng.next^[k] (Rng.canonical p.rng).2 = Rng.next^[2 + k] p.rng := by
    intro k
    rw [add_comm, Function.iterate_add_apply]
    rfl
  refine ⟨(List.range ⌊nu + (Rng.canonical p.rng).1⌋₊).map fun i =>
      ⟨p.position, (Direction.isotropic (Rng.next^[2 + 5 * i] p.rng)).1, p.energy, .neutron,
          Rng.next^[2 + 5 * i + 5] p.rng, p.cell⟩, _, ?_, ?_, rfl, rfl, ?_⟩
  · simp only [ContinuousReaction.interact, ContinuousReaction.fissionInteract, optValue, he,
      Energy.getContinuous, hm, Particle.sample, ht, bind, Except.bind, noexcept_ok,
      continuousBank_spec, e2, List.length_map, List.length_range, Except.ok.injEq]
    congr 3
  · simp
  · intro i b hi
    rw [List.getElem?_map] at hi
    rcases hgi : (List.range ⌊nu + (Rng.canonical p.rng).1⌋₊)[i]? with _ | j
    · rw [hgi] at hi; simp at hi
    rw [hgi] at hi
    obtain ⟨hlt, hj⟩ := List.getElem?_eq_some_iff.1 hgi
    simp only [List.getElem_range] at hj
    subst hj
    simp only [Option.map_some, Option.some.injEq] at hi
    subst hi
    exact ⟨rfl, rfl, rfl, he, unitVec_isotropic (Rng.valid_iterate hr _), rfl, rfl⟩

/-- Without yield data a continuous-energy fission ends the program. -/
theorem C22_continuous_no_yield (fuel : ℕ) (xs : ContinuousEvaluation) (p : Particle) :
    (ContinuousReaction.fission xs none).interact fuel p = .error .terminate := rfl

/-- Instance: a table with the constant yield 2 gives two or three secondaries at any energy. -/
example (e : ℝ) : ContinuousMap.at' [(0, 2), (1, 2)] e = .ok 2 := by
  unfold ContinuousMap.at'
  by_cases h0 : (0 : ℝ) ≤ e <;> by_cases h1 : (1 : ℝ) ≤ e <;>
    simp [List.takeWhile, List.dropWhile, h0, h1]

/-! ## C56 -/

/-- The full statement: the secondaries of one fission do not share random numbers, as long as
each uses no more than `N`. -/
def OwnNumbers (N : ℕ) (new : List Born) : Prop :=
  ∀ (i j : ℕ) (a b : Born), new[i]? = some a → new[j]? = some b → i ≠ j →
    DisjointStreams N (Particle.ofBorn a).rng (Particle.ofBorn b).rng

theorem ofSeed_valid {s : ℕ} (h : Rng.Valid s) : Rng.ofSeed s = s := by
  obtain ⟨h1, h2⟩ := h
  have : s % Rng.modulus = s := Nat.mod_eq_of_lt (by simp only [Rng.modulus]; omega)
  rw [Rng.ofSeed, this, if_neg (by omega)]

theorem streams_iff {g : ℕ} (hg : Rng.Valid g) {c d n N : ℕ} (hd : 0 < d)
    (hn : d * n ≤ 2147483646) (h2 : 2 ≤ n) :
    (∀ i < n, ∀ j < n, i ≠ j →
      DisjointStreams N (Rng.next^[c + d * i] g) (Rng.next^[c + d * j] g)) ↔ N ≤ d := by
  have e : ∀ a k, Rng.next^[a] (Rng.next^[k] g) = Rng.next^[k + a] g := by
    intro a k
    rw [← Function.iterate_add_apply, add_comm]
  constructor
  · intro h
    by_contra hN
    push Not at hN
    apply h 0 (by omega) 1 (by omega) (by omega) d hN 0 (by omega)
    simp [e]
  · intro hN i hi j hj hij a ha b hb hab
    simp only [e] at hab
    have hlt : ∀ i < n, ∀ a < N, d * i + a < 2147483646 := by
      intro i hi a ha
      have : d * (i + 1) ≤ d * n := Nat.mul_le_mul_left _ (by omega)
      rw [Nat.mul_add] at this
      omega
    have hb' : ∀ i a, Rng.next^[c + d * i + a] g = Rng.next^[d * i + a] (Rng.next^[c] g) := by
      intro i a
      rw [e, add_assoc]
    rw [hb', hb'] at hab
    have hk := Rng.iterate_injOn (Rng.valid_iterate hg c) (hlt i hi a ha) (hlt j hj b hb) hab
    apply hij
    have h3 : (d * i + a) / d = i := by
      rw [Nat.mul_add_div hd, Nat.div_eq_of_lt (by omega), add_zero]
    have h4 : (d * j + b) / d = j := by
      rw [Nat.mul_add_div hd, Nat.div_eq_of_lt (by omega), add_zero]
    rw [← h3, hk, h4]

theorem ownNumbers_iff {g : ℕ} (hg : Rng.Valid g) {c d N : ℕ} (hd : 0 < d) {new : List Born}
    (hseed : ∀ i b, new[i]? = some b → b.seed = Rng.next^[c + d * i] g)
    (hn : d * new.length ≤ 2147483646) (h2 : 2 ≤ new.length) : OwnNumbers N new ↔ N ≤ d := by
  rw [← streams_iff hg (c := c) hd hn h2]
  have hrng : ∀ i b, new[i]? = some b → (Particle.ofBorn b).rng = Rng.next^[c + d * i] g := by
    intro i b hb
    show Rng.ofSeed b.seed = _
    rw [hseed i b hb, ofSeed_valid (Rng.valid_iterate hg _)]
  constructor
  · intro h i hi j hj hij
    have := h i j _ _ (List.getElem?_eq_getElem hi) (List.getElem?_eq_getElem hj) hij
    rwa [hrng i _ (List.getElem?_eq_getElem hi), hrng j _ (List.getElem?_eq_getElem hj)] at this
  · intro h i j a b ha hb hij
    rw [hrng i a ha, hrng j b hb]
    exact h i (List.getElem?_eq_some_iff.1 ha).1 j (List.getElem?_eq_some_iff.1 hb).1 hij

/-- Two or more secondaries of a multigroup fission do not share random numbers exactly as long
as none of them uses more than seven; a flight and a scattering use eight. -/
theorem C56_multigroup_partial {G : ℕ} {nodes : List MgNode} {m : Multigroup}
    (h : create G nodes = .ok m) (hn : NonnegNodes nodes) {nubar chi : List ℝ}
    (hnu : findNubar nodes = some nubar) (hchi : findChi nodes = some chi) {p p' : Particle}
    {g : ℕ} (hp : InGroup p g) (h1 : 1 ≤ g) (h2 : g ≤ G) (hr : Rng.Valid p.rng)
    (hpos : 0 < colSum G chi g) (hf : m.fission p = .ok p') {new : List Born}
    (hs : p'.secondaries = p.secondaries ++ new) (htwo : 2 ≤ new.length)
    (hmany : 7 * new.length ≤ 2 ^ 31 - 2) (N : ℕ) : OwnNumbers N new ↔ N ≤ 7 := by
  obtain ⟨new', q, hq, _, hp', _, hall⟩ := C22_fission_partial h hn hnu hchi hp h1 h2 hr hpos
  rw [hf, Except.ok.injEq] at hq
  subst hq
  have : new = new' := by
    rw [hp'] at hs
    exact (List.append_cancel_left hs).symm
  subst this
  refine ownNumbers_iff hr (c := 9) (d := 7) (by omega) (fun i b hb => ?_) (by omega) htwo
  rw [(hall i b hb).2.2.2.2.2.1]
  have e' : 2 + 7 * i + 7 = 9 + 7 * i := by omega
  rw [e']

/-- Two or more secondaries of a continuous-energy fission do not share random numbers exactly as
long as none of them uses more than five. -/
theorem C56_continuous_partial {fuel : ℕ} {xs : ContinuousEvaluation} {m : ContinuousMap}
    {p p' : Particle} {e nu : ℝ} (he : p.energy = .continuous e) (hm : m.at' e = .ok nu)
    (hnu : 0 ≤ nu) (hr : Rng.Valid p.rng)
    (hf : (ContinuousReaction.fission xs (some m)).interact fuel p = .ok p') {new : List Born}
    (hs : p'.secondaries = p.secondaries ++ new) (htwo : 2 ≤ new.length)
    (hmany : 5 * new.length ≤ 2 ^ 31 - 2) (N : ℕ) : OwnNumbers N new ↔ N ≤ 5 := by
  obtain ⟨new', q, hq, _, hp', _, hall⟩ := C22_continuous (fuel := fuel) (xs := xs) he hm hnu hr
  rw [hf, Except.ok.injEq] at hq
  subst hq
  have : new = new' := by
    rw [hp'] at hs
    exact (List.append_cancel_left hs).symm
  subst this
  refine ownNumbers_iff hr (c := 7) (d := 5) (by omega) (fun i b hb => ?_) (by omega) htwo
  rw [(hall i b hb).2.2.2.2.2.2]
  have e' : 2 + 5 * i + 5 = 7 + 5 * i := by omega
  rw [e']

/-- The code violates the property: in a multigroup fission the number that decides how far a
secondary flies until its first collision also selects the group of the next secondary, and the
numbers after it decide the direction of the next secondary. -/
theorem C56_flight_selects_sibling_violated {G : ℕ} {nodes : List MgNode} {m : Multigroup}
    (h : create G nodes = .ok m) (hn : NonnegNodes nodes) {nubar chi : List ℝ}
    (hnu : findNubar nodes = some nubar) (hchi : findChi nodes = some chi) {p p' : Particle}
    {g : ℕ} (hp : InGroup p g) (h1 : 1 ≤ g) (h2 : g ≤ G) (hr : Rng.Valid p.rng)
    (hpos : 0 < colSum G chi g) (hf : m.fission p = .ok p') {new : List Born}
    (hs : p'.secondaries = p.secondaries ++ new) {i : ℕ} {a b : Born}
    (ha : new[i]? = some a) (hb : new[i + 1]? = some b) :
    ∃ u ∈ Set.Ioo (0 : ℝ) 1,
      (∀ total, (Rng.exponential total (Particle.ofBorn a).rng).1 = Rng.exponentialOf total u) ∧
      (∃ g', b.energy = .group g' ∧ 1 ≤ g' ∧
        Selected (colEntries G chi g) (u * colSum G chi g) (g' - 1)) ∧
      b.direction = (Direction.isotropic (Rng.next^[2] (Particle.ofBorn a).rng)).1 ∧
      (Particle.ofBorn b).rng = Rng.next^[7] (Particle.ofBorn a).rng := by
  obtain ⟨new', q, hq, _, hp', _, hall⟩ := C22_fission_partial h hn hnu hchi hp h1 h2 hr hpos
  rw [hf, Except.ok.injEq] at hq
  subst hq
  have : new = new' := by
    rw [hp'] at hs
    exact (List.append_cancel_left hs).symm
  subst this
  obtain ⟨_, _, _, _, _, hsa, _⟩ := hall i a ha
  obtain ⟨_, _, _, _, hdb, hsb, g', hg', hg1, _, hsel⟩ := hall (i + 1) b hb
  have hra : (Particle.ofBorn a).rng = Rng.next^[2 + 7 * (i + 1)] p.rng := by
    show Rng.ofSeed a.seed = _
    rw [hsa, ofSeed_valid (Rng.valid_iterate hr _)]
    congr 1
  have hrb : (Particle.ofBorn b).rng = Rng.next^[2 + 7 * (i + 1) + 7] p.rng := by
    show Rng.ofSeed b.seed = _
    rw [hsb, ofSeed_valid (Rng.valid_iterate hr _)]
  have e : ∀ a k, Rng.next^[a] (Rng.next^[k] p.rng) = Rng.next^[k + a] p.rng := by
    intro a k
    rw [← Function.iterate_add_apply, add_comm]
  rw [hrb, hra, e, e]
  have hv := Rng.valid_iterate hr (2 + 7 * (i + 1))
  exact ⟨_, ⟨Rng.canonical_pos hv, Rng.canonical_lt_one hv⟩, fun _ => rfl, ⟨g', hg', hg1, hsel⟩,
    hdb, rfl⟩

/-- Witness: in the example data, whose average yield in group 1 is 2.5, every fission gives two
or three secondaries, and their streams of random numbers overlap within eight numbers. -/
theorem C56_violated : ∃ m, create 2 exampleNodes = .ok m ∧
    ∀ p, InGroup p 1 → Rng.Valid p.rng → ∃ p' new, m.fission p = .ok p' ∧
      p'.secondaries = p.secondaries ++ new ∧ 2 ≤ new.length ∧ ¬ OwnNumbers 8 new := by
  obtain ⟨m, hm⟩ := exampleNodes_ok
  refine ⟨m, hm, fun p hp hr => ?_⟩
  have hpos : 0 < colSum 2 [1, 0, 0, 0] 1 := by norm_num [colSum, entry2, List.range']
  obtain ⟨new, p', hf, hlen, hp', -, -⟩ := C22_fission_partial hm exampleNodes_nonneg
    (nubar := [2.5, 0]) (chi := [1, 0, 0, 0]) rfl rfl hp le_rfl (by omega) hr hpos
  have hu0 := Rng.canonical_pos hr
  have hu1 := Rng.canonical_lt_one hr
  have e : entry1 [(2.5 : ℝ), 0] 1 = 2.5 := rfl
  rw [e] at hlen
  have h2 : 2 ≤ new.length := by
    rw [hlen, Nat.le_floor_iff (by linarith)]
    norm_num
    linarith
  have h3 : new.length < 4 := by
    rw [hlen, Nat.floor_lt (by linarith)]
    norm_num
    linarith
  have hs : p'.secondaries = p.secondaries ++ new := by rw [hp']
  refine ⟨p', new, hf, hs, h2, ?_⟩
  rw [C56_multigroup_partial hm exampleNodes_nonneg (nubar := [2.5, 0]) (chi := [1, 0, 0, 0]) rfl
    rfl hp le_rfl (by omega) hr hpos hf hs h2 (by omega)]
  omega

end Minimc.Props
