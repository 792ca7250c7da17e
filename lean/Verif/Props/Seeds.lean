import Verif.Lemmas.Rng
import Verif.Model.Source
import Mathlib.Data.Finset.Card

/-!
# Random numbers of different histories

History `h` starts its generator with the seed plus `h`.  The generator is multiplicative, so the
numbers of one history are those of the one before plus a constant, modulo 1: each history by itself
has well distributed numbers, but together they lie on a lattice.
-/

namespace Minimc.Props

open Minimc

/-- The same state of two histories differs by a constant, whatever the seed. -/
theorem C90_states (n j s : ℕ) (h1 : 1 ≤ s) (h2 : s + j ≤ 2 ^ 31 - 2) :
    Rng.next^[n] (Rng.ofSeed (s + j)) =
      (Rng.next^[n] (Rng.ofSeed s) + 48271 ^ n * j) % (2 ^ 31 - 1) := by
  have e1 : Rng.ofSeed s = s := by unfold Rng.ofSeed Rng.modulus; split_ifs <;> omega
  have e2 : Rng.ofSeed (s + j) = s + j := by unfold Rng.ofSeed Rng.modulus; split_ifs <;> omega
  have hv := Rng.valid_iterate (Rng.valid_ofSeed (s + j)) n
  have h3 := Rng.cast_iterate (Rng.ofSeed (s + j)) n
  have h4 := Rng.cast_iterate (Rng.ofSeed s) n
  have h5 : ((Rng.next^[n] (Rng.ofSeed (s + j)) : ℕ) : ZMod 2147483647) =
      ((Rng.next^[n] (Rng.ofSeed s) + 48271 ^ n * j : ℕ) : ZMod 2147483647) := by
    push_cast
    rw [h3, h4, e1, e2]
    push_cast
    ring
  rw [ZMod.natCast_eq_natCast_iff', Nat.mod_eq_of_lt (by have := hv.2; omega)] at h5
  rw [h5]
  norm_num

example : Rng.next^[3] (Rng.ofSeed (5 + 2)) =
    (Rng.next^[3] (Rng.ofSeed 5) + 48271 ^ 3 * 2) % (2 ^ 31 - 1) :=
  C90_states 3 2 5 (by norm_num) (by norm_num)

/-- By itself every history is fair: as the seed runs over all values, every state of the generator
occurs exactly once at every point of the history. -/
theorem C90_fair (n : ℕ) : Set.BijOn (fun s => Rng.next^[n] (Rng.ofSeed s))
    (Set.Icc 1 (2 ^ 31 - 2)) (Set.Icc 1 (2 ^ 31 - 2)) := by
  have e : ∀ s ∈ Set.Icc 1 (2 ^ 31 - 2), Rng.ofSeed s = s := by
    intro s hs
    have := hs.1
    have := hs.2
    unfold Rng.ofSeed Rng.modulus
    split_ifs <;> omega
  have hval : ∀ s, s ∈ Set.Icc 1 (2 ^ 31 - 2) ↔ Rng.Valid s := by
    intro s
    simp only [Set.mem_Icc, Rng.Valid]
    omega
  have maps : Set.MapsTo (fun s => Rng.next^[n] (Rng.ofSeed s)) (Set.Icc 1 (2 ^ 31 - 2))
      (Set.Icc 1 (2 ^ 31 - 2)) :=
    fun s _ => (hval _).2 (Rng.valid_iterate (Rng.valid_ofSeed s) n)
  have inj : Set.InjOn (fun s => Rng.next^[n] (Rng.ofSeed s)) (Set.Icc 1 (2 ^ 31 - 2)) := by
    intro s hs t ht hst
    dsimp only at hst
    rw [e s hs, e t ht] at hst
    have h1 := (hval s).1 hs
    have h2 := (hval t).1 ht
    clear hs ht
    induction n generalizing s t with
    | zero => exact hst
    | succ n ih =>
      rw [Function.iterate_succ_apply', Function.iterate_succ_apply'] at hst
      have := Rng.next_inj (Rng.valid_iterate h1 n) (Rng.valid_iterate h2 n) hst
      exact ih (fun s _ => (hval _).2 (Rng.valid_iterate (Rng.valid_ofSeed s) n)) this h1 h2
  refine ⟨maps, inj, ?_⟩
  have := Finset.surjOn_of_injOn_of_card_le (s := Finset.Icc 1 (2 ^ 31 - 2))
    (t := Finset.Icc 1 (2 ^ 31 - 2)) (fun s => Rng.next^[n] (Rng.ofSeed s))
    (by simpa using maps) (by simpa using inj) le_rfl
  simpa using this

/-- Together they are not: the difference of the numbers that two histories draw at the same point
takes at most four values. -/
theorem C90_numbers (n j : ℕ) : ∃ V : Finset ℝ, V.card ≤ 4 ∧
    ∀ s, 1 ≤ s → s + j ≤ 2 ^ 31 - 2 →
      (Rng.canonical (Rng.next^[n] (Rng.ofSeed (s + j)))).1 -
        (Rng.canonical (Rng.next^[n] (Rng.ofSeed s))).1 ∈ V := by
  classical
  set a := 48271 ^ (n + 1) * j % (2 ^ 31 - 1) with ha
  set b := 48271 ^ (n + 2) * j % (2 ^ 31 - 1) with hb
  let W : Finset (ℤ × ℤ) :=
    {((a : ℤ), (b : ℤ)), ((a : ℤ) - 2147483647, (b : ℤ)), ((a : ℤ), (b : ℤ) - 2147483647),
      ((a : ℤ) - 2147483647, (b : ℤ) - 2147483647)}
  refine ⟨W.image (fun w => ((w.1 : ℝ) + w.2 * Rng.range) / ((Rng.range : ℝ) * Rng.range)),
    Finset.card_image_le.trans Finset.card_le_four, fun s h1 h2 => ?_⟩
  have key : ∀ k, ∃ d : ℤ, ((Rng.next^[k] (Rng.ofSeed (s + j)) : ℕ) : ℤ) -
      (Rng.next^[k] (Rng.ofSeed s) : ℕ) = d ∧
      (d = (48271 ^ k * j % (2 ^ 31 - 1) : ℕ) ∨
        d = (48271 ^ k * j % (2 ^ 31 - 1) : ℕ) - 2147483647) := by
    intro k
    have e := C90_states k j s h1 h2
    have v := (Rng.valid_iterate (Rng.valid_ofSeed s) k).2
    rw [Nat.add_mod] at e
    refine ⟨_, rfl, ?_⟩
    generalize Rng.next^[k] (Rng.ofSeed (s + j)) = x at e ⊢
    generalize Rng.next^[k] (Rng.ofSeed s) = y at e v ⊢
    generalize 48271 ^ k * j = z at e ⊢
    omega
  obtain ⟨d₁, e1, c1⟩ := key (n + 1)
  obtain ⟨d₂, e2, c2⟩ := key (n + 2)
  rw [← ha] at c1
  rw [← hb] at c2
  rw [Finset.mem_image]
  refine ⟨(d₁, d₂), ?_, ?_⟩
  · simp only [W, Finset.mem_insert, Finset.mem_singleton, Prod.mk.injEq]
    tauto
  · simp only [Rng.canonical, ← Function.iterate_succ_apply' Rng.next]
    have r1 : (d₁ : ℝ) = ((Rng.next^[n + 1] (Rng.ofSeed (s + j)) : ℕ) : ℝ) -
        (Rng.next^[n + 1] (Rng.ofSeed s) : ℕ) := by
      rw [← e1]; push_cast; ring
    have r2 : (d₂ : ℝ) = ((Rng.next^[n + 2] (Rng.ofSeed (s + j)) : ℕ) : ℝ) -
        (Rng.next^[n + 2] (Rng.ofSeed s) : ℕ) := by
      rw [← e2]; push_cast; ring
    rw [r1, r2]
    simp only [Nat.succ_eq_add_one]
    ring

/-- How many of twelve states in steps of `a` are at least `c`. -/
theorem count_ge (G a c : ℕ) :
    ∃ k ≤ 12, ((Finset.range 12).filter (fun i => c ≤ G + a * i)).card = 12 - k ∧
      (k < 12 → c ≤ G + a * k) ∧ (0 < k → G + a * (k - 1) < c) := by
  by_cases hall : ∃ i < 12, c ≤ G + a * i
  · classical
    have hk := Nat.find_spec hall
    have hmin := fun m => Nat.find_min hall (m := m)
    set k := Nat.find hall
    refine ⟨k, hk.1.le, ?_, fun _ => hk.2, fun h0 => ?_⟩
    · have : (Finset.range 12).filter (fun i => c ≤ G + a * i) = Finset.Ico k 12 := by
        ext i
        simp only [Finset.mem_filter, Finset.mem_range, Finset.mem_Ico]
        constructor
        · rintro ⟨h1, h2⟩
          refine ⟨?_, h1⟩
          by_contra hlt
          exact hmin i (by omega) ⟨h1, h2⟩
        · rintro ⟨h1, h2⟩
          exact ⟨h2, hk.2.trans (by gcongr)⟩
      rw [this, Nat.card_Ico]
    · have := hmin (k - 1) (by omega)
      by_contra hcon
      exact this ⟨by omega, not_lt.1 hcon⟩
  · push Not at hall
    refine ⟨12, le_rfl, ?_, fun h => absurd h (lt_irrefl _), fun _ => hall 11 (by norm_num)⟩
    rw [Finset.card_eq_zero, Finset.filter_eq_empty_iff]
    intro i hi
    exact not_le.2 (hall i (Finset.mem_range.1 hi))

/-- Of twelve states five to seven are in the upper half. -/
theorem count_half {G : ℕ} (hG : G ≤ 2147483646) :
    5 ≤ ((Finset.range 12).filter (fun i =>
      1073741824 ≤ (G + 182605794 * i) % 2147483647)).card ∧
    ((Finset.range 12).filter (fun i =>
      1073741824 ≤ (G + 182605794 * i) % 2147483647)).card ≤ 7 := by
  classical
  let A : ℕ → Finset ℕ := fun c => (Finset.range 12).filter (fun i => c ≤ G + 182605794 * i)
  have e : (Finset.range 12).filter (fun i =>
      1073741824 ≤ (G + 182605794 * i) % 2147483647) =
      (A 1073741824 \ A 2147483647) ∪ A 3221225471 := by
    ext i
    simp only [A, Finset.mem_filter, Finset.mem_union, Finset.mem_sdiff, Finset.mem_range]
    constructor
    · rintro ⟨h1, h2⟩
      omega
    · intro h
      omega
  have sub1 : A 2147483647 ⊆ A 1073741824 := by
    intro i
    simp only [A, Finset.mem_filter]
    rintro ⟨h1, h2⟩
    exact ⟨h1, by omega⟩
  have dis : Disjoint (A 1073741824 \ A 2147483647) (A 3221225471) := by
    rw [Finset.disjoint_left]
    intro i
    simp only [A, Finset.mem_filter, Finset.mem_sdiff, Finset.mem_range]
    omega
  rw [e, Finset.card_union_of_disjoint dis, Finset.card_sdiff_of_subset sub1]
  obtain ⟨k1, l1, c1, f1, g1⟩ := count_ge G 182605794 1073741824
  obtain ⟨k2, l2, c2, f2, g2⟩ := count_ge G 182605794 2147483647
  obtain ⟨k3, l3, c3, f3, g3⟩ := count_ge G 182605794 3221225471
  simp only [A, c1, c2, c3]
  omega

/-- The side to which history `s` starts. -/
theorem forward_iff {src : Source} (hsrc : src.direction = .isotropic) (s : ℕ) :
    (∃ b, src.sample s = .ok b ∧ 0 ≤ b.direction.x) ↔
      1073741824 ≤ Rng.next^[2] (Rng.ofSeed s) := by
  have hv1 := Rng.valid_iterate (Rng.valid_ofSeed s) 1
  have hv2 := Rng.valid_iterate (Rng.valid_ofSeed s) 2
  have e : src.sample s = .ok ⟨src.position, (Direction.isotropic (Rng.ofSeed s)).1, src.energy,
      src.type, Rng.next (Direction.isotropic (Rng.ofSeed s)).2, none⟩ := by
    simp only [Source.sample, hsrc, DirectionDist.sample, bind, Except.bind]
  have ex : (Direction.isotropic (Rng.ofSeed s)).1.x =
      2 * (Rng.canonical (Rng.ofSeed s)).1 - 1 := by
    simp only [Direction.isotropic, Direction.isotropicOf, Rng.uniformReal]
    ring
  have e1 : Rng.next^[1] (Rng.ofSeed s) = Rng.next (Rng.ofSeed s) := rfl
  have e2 : Rng.next^[2] (Rng.ofSeed s) = Rng.next (Rng.next (Rng.ofSeed s)) := rfl
  rw [e1] at hv1
  rw [e2] at hv2 ⊢
  have hc : 0 ≤ 2 * (Rng.canonical (Rng.ofSeed s)).1 - 1 ↔
      1073741824 ≤ Rng.next (Rng.next (Rng.ofSeed s)) := by
    simp only [Rng.canonical]
    generalize Rng.next (Rng.ofSeed s) = x at *
    generalize Rng.next x = y at *
    unfold Rng.Valid at hv1 hv2
    have hr : (Rng.range : ℝ) = 2147483646 := by norm_num [Rng.range]
    have x1 : (1 : ℝ) ≤ x := by exact_mod_cast hv1.1
    have x2 : (x : ℝ) ≤ 2147483646 := by exact_mod_cast hv1.2
    rw [hr, sub_nonneg, ← div_le_iff₀' two_pos, le_div_iff₀ (by norm_num)]
    constructor
    · intro h
      by_contra hcon
      have : (y : ℝ) ≤ 1073741823 := by exact_mod_cast (by omega : y ≤ 1073741823)
      linarith
    · intro h
      have : (1073741824 : ℝ) ≤ y := by exact_mod_cast h
      linarith
  constructor
  · rintro ⟨b, hb, hx⟩
    rw [e] at hb
    cases hb
    rw [ex] at hx
    exact hc.1 hx
  · intro h
    exact ⟨_, e, by rw [ex]; exact hc.2 h⟩

open Classical in
/-- An isotropic source: of any twelve consecutive histories five to seven start towards positive x,
for every seed.  Of twelve unrelated directions fewer or more would do so in 39 percent of all
cases. -/
theorem C90_unrelated_violated {src : Source} (hsrc : src.direction = .isotropic) {s : ℕ}
    (h1 : 1 ≤ s) (h2 : s + 11 ≤ 2 ^ 31 - 2) :
    ((Finset.range 12).filter (fun h => ∃ b, src.sample (s + h) = .ok b ∧
      0 ≤ b.direction.x)).card ∈ Set.Icc 5 7 := by
  have e : (Finset.range 12).filter (fun h => ∃ b, src.sample (s + h) = .ok b ∧
      0 ≤ b.direction.x) = (Finset.range 12).filter (fun i =>
      1073741824 ≤ (Rng.next^[2] (Rng.ofSeed s) + 182605794 * i) % 2147483647) := by
    apply Finset.filter_congr
    intro i hi
    rw [forward_iff hsrc, C90_states 2 i s h1 (by have := Finset.mem_range.1 hi; omega)]
    have : (48271 ^ 2 * i) % 2147483647 = (182605794 * i) % 2147483647 := by
      omega
    have : (Rng.next^[2] (Rng.ofSeed s) + 48271 ^ 2 * i) % (2 ^ 31 - 1) =
        (Rng.next^[2] (Rng.ofSeed s) + 182605794 * i) % 2147483647 := by
      omega
    rw [this]
  rw [e]
  exact count_half (Rng.valid_iterate (Rng.valid_ofSeed s) 2).2

/-- The probability of five to seven successes of twelve. -/
example : ((Nat.choose 12 5 + Nat.choose 12 6 + Nat.choose 12 7 : ℕ) : ℝ) / 2 ^ 12 < 0.613 := by
  norm_num [Nat.choose]

/-- An isotropic source: the next history starts in a direction whose first component is larger by
0.17006490, unless that exceeds 1, and then smaller by 1.82993510. -/
theorem C90_next_direction_violated {src : Source} (hsrc : src.direction = .isotropic) {s : ℕ}
    (h1 : 1 ≤ s) (h2 : s + 1 ≤ 2 ^ 31 - 2) {b b' : Born} (hb : src.sample s = .ok b)
    (hb' : src.sample (s + 1) = .ok b') :
    |b'.direction.x - b.direction.x - 0.17006490| < 1 / 10 ^ 8 ∨
    |b'.direction.x - b.direction.x + 1.82993510| < 1 / 10 ^ 8 := by
  have hx : ∀ t c, src.sample t = .ok c → c.direction.x =
      2 * (Rng.canonical (Rng.ofSeed t)).1 - 1 := by
    intro t c hc
    simp only [Source.sample, hsrc, DirectionDist.sample, bind, Except.bind] at hc
    cases hc
    simp only [Direction.isotropic, Direction.isotropicOf, Rng.uniformReal]
    ring
  rw [hx _ _ hb, hx _ _ hb']
  have s1 := C90_states 1 1 s h1 h2
  have s2 := C90_states 2 1 s h1 h2
  have v1 := (Rng.valid_iterate (Rng.valid_ofSeed s) 1)
  have v2 := (Rng.valid_iterate (Rng.valid_ofSeed s) 2)
  have w1 := (Rng.valid_iterate (Rng.valid_ofSeed (s + 1)) 1)
  simp only [Rng.canonical]
  have e1 : ∀ t, Rng.next^[1] (Rng.ofSeed t) = Rng.next (Rng.ofSeed t) := fun t => rfl
  have e2 : ∀ t, Rng.next^[2] (Rng.ofSeed t) = Rng.next (Rng.next (Rng.ofSeed t)) := fun t => rfl
  rw [e1, e1] at s1
  rw [e2, e2] at s2
  rw [e1] at v1 w1
  rw [e2] at v2
  generalize Rng.next (Rng.ofSeed s) = x at *
  generalize Rng.next (Rng.ofSeed (s + 1)) = x' at *
  generalize Rng.next x = y at *
  generalize Rng.next x' = y' at *
  have hr : (Rng.range : ℝ) = 2147483646 := by norm_num [Rng.range]
  rw [hr]
  unfold Rng.Valid at v1 v2 w1
  have a1 : (1 : ℝ) ≤ x := by exact_mod_cast v1.1
  have a2 : (x : ℝ) ≤ 2147483646 := by exact_mod_cast v1.2
  have a3 : (1 : ℝ) ≤ x' := by exact_mod_cast w1.1
  have a4 : (x' : ℝ) ≤ 2147483646 := by exact_mod_cast w1.2
  have hy : y' = y + 182605794 ∨ y' + 2147483647 = y + 182605794 := by omega
  rcases hy with hy | hy
  · left
    have : (y' : ℝ) = y + 182605794 := by exact_mod_cast hy
    rw [this, abs_lt]
    constructor
    · norm_num; linarith
    · norm_num; linarith
  · right
    have : (y' : ℝ) = y + 182605794 - 2147483647 := by
      have : (y' : ℝ) + 2147483647 = y + 182605794 := by exact_mod_cast hy
      linarith
    rw [this, abs_lt]
    constructor
    · norm_num; linarith
    · norm_num; linarith

/-- Such a source exists. -/
example : ∃ src : Source, src.direction = .isotropic :=
  ⟨⟨⟨0, 0, 0⟩, .isotropic, .group 1, .neutron⟩, rfl⟩

end Minimc.Props
