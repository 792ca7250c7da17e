import Verif.Spec.Subcritical
import Verif.Lemmas.WalkRounds
import Verif.Props.Surface
import Mathlib.Data.Set.Card
import Mathlib.Data.Set.Card.Arithmetic

/-! # How often a line can cross surfaces -/

namespace Minimc

open Classical Spec Set

/-- Along a line the equation of a surface is quadratic. -/
theorem surfaceValue_along (s : Surface) (x d : Point) :
    ∃ a b c : ℝ, (∀ t, surfaceValue s (along x d t) = a * t ^ 2 + b * t + c) ∧
      (mostCrossings s = 1 → a = 0) ∧ 1 ≤ mostCrossings s ∧ mostCrossings s ≤ 2 := by
  cases s with
  | sphere p r =>
    refine ⟨d.x ^ 2 + d.y ^ 2 + d.z ^ 2,
      2 * ((x.x - p.x) * d.x + (x.y - p.y) * d.y + (x.z - p.z) * d.z),
      (x.x - p.x) ^ 2 + (x.y - p.y) ^ 2 + (x.z - p.z) ^ 2 - r ^ 2, fun t => ?_, ?_, ?_, ?_⟩
    · simp only [surfaceValue, along]
      ring
    all_goals simp [mostCrossings]
  | planeX p =>
    refine ⟨0, d.x, x.x - p, fun t => ?_, ?_, ?_, ?_⟩
    · simp only [surfaceValue, along]
      ring
    all_goals simp [mostCrossings]
  | cylinderX r =>
    refine ⟨d.y ^ 2 + d.z ^ 2, 2 * (x.y * d.y + x.z * d.z), x.y ^ 2 + x.z ^ 2 - r ^ 2, fun t => ?_, ?_,
      ?_, ?_⟩
    · simp only [surfaceValue, along]
      ring
    all_goals simp [mostCrossings]

/-- The places ahead where a line meets a surface. -/
def metAt (s : Surface) (x d : Point) : Set ℝ := {t | 0 < t ∧ OnSurface s (along x d t)}

/-- Where there is a finite number of them there are not more than possible. -/
theorem metAt_finite {s : Surface} {x d : Point} {t : ℝ} (h : ¬ OnSurface s (along x d t)) :
    (metAt s x d).Finite ∧ (metAt s x d).ncard ≤ mostCrossings s := by
  obtain ⟨a, b, c, hq, h1, h2, h3⟩ := surfaceValue_along s x d
  unfold OnSurface at h
  rw [hq] at h
  have key : ∃ T : Finset ℝ, metAt s x d ⊆ T ∧ T.card ≤ mostCrossings s := by
    by_cases hone : ∃ u, u ∈ metAt s x d
    swap
    · refine ⟨∅, fun u hu => absurd ⟨u, hu⟩ hone, by simp⟩
    obtain ⟨u, hu0, hu⟩ := hone
    unfold OnSurface at hu
    rw [hq] at hu
    by_cases ha : a = 0
    · refine ⟨{u}, fun v hv => ?_, by simpa using h2⟩
      obtain ⟨hv0, hv⟩ := hv
      unfold OnSurface at hv
      rw [hq] at hv
      subst ha
      simp only [Finset.coe_singleton, mem_singleton_iff]
      have hb : b ≠ 0 := by
        rintro rfl
        apply h
        linarith
      have : b * (v - u) = 0 := by linear_combination hv - hu
      rcases mul_eq_zero.1 this with h | h
      · exact absurd h hb
      · linarith
    · have hmc : mostCrossings s = 2 := by
        have : mostCrossings s ≠ 1 := fun h => ha (h1 h)
        omega
      refine ⟨{u, -b / a - u}, fun v hv => ?_, by rw [hmc]; exact Finset.card_le_two⟩
      obtain ⟨hv0, hv⟩ := hv
      unfold OnSurface at hv
      rw [hq] at hv
      simp only [Finset.coe_insert, Finset.coe_singleton, mem_insert_iff, mem_singleton_iff]
      have : (v - u) * (a * (v + u) + b) = 0 := by linear_combination hv - hu
      rcases mul_eq_zero.1 this with h | h
      · left
        linarith
      · right
        field_simp
        linarith
  obtain ⟨T, hT, hc⟩ := key
  have hf := T.finite_toSet.subset hT
  refine ⟨hf, le_trans ?_ hc⟩
  rw [← Set.ncard_coe_finset]
  exact Set.ncard_le_ncard hT T.finite_toSet

/-- How often the line ahead crosses a surface; nought if it lies in the surface. -/
noncomputable def meets (s : Surface) (x d : Point) : ℕ := (metAt s x d).ncard

theorem meets_le (s : Surface) (x d : Point) : meets s x d ≤ mostCrossings s := by
  by_cases h : ∃ t > 0, ¬ OnSurface s (along x d t)
  · obtain ⟨t, -, h⟩ := h
    exact (metAt_finite h).2
  · push Not at h
    have : metAt s x d = Ioi 0 := by
      ext t
      exact ⟨fun ht => ht.1, fun ht => ⟨ht, h t ht⟩⟩
    unfold meets
    rw [this, Set.Infinite.ncard (Set.Ioi_infinite 0)]
    exact Nat.zero_le _

theorem along_along (x d : Point) (r t : ℝ) : along (along x d r) d t = along x d (r + t) := by
  simp only [along, Point.mk.injEq]
  refine ⟨?_, ?_, ?_⟩ <;> ring

theorem metAt_along (s : Surface) (x d : Point) {r : ℝ} (hr : 0 < r) :
    (fun t => r + t) '' metAt s (along x d r) d = metAt s x d ∩ Ioi r := by
  ext t
  constructor
  · rintro ⟨u, ⟨h0, h⟩, rfl⟩
    rw [along_along] at h
    dsimp only
    exact ⟨⟨by linarith, h⟩, by simp only [mem_Ioi]; linarith⟩
  · rintro ⟨⟨h0, h⟩, h1⟩
    refine ⟨t - r, ⟨by simpa using h1, ?_⟩, by ring⟩
    rw [along_along]
    simpa using h

theorem meets_along (s : Surface) (x d : Point) {r : ℝ} (hr : 0 < r) :
    meets s (along x d r) d = (metAt s x d ∩ Ioi r).ncard := by
  rw [← metAt_along s x d hr, Set.ncard_image_of_injective _ (add_right_injective r)]
  rfl

/-- Moving on does not bring more crossings. -/
theorem meets_mono (s : Surface) (x d : Point) {r : ℝ} (hr : 0 < r) :
    meets s (along x d r) d ≤ meets s x d := by
  by_cases h : ∃ t > 0, ¬ OnSurface s (along x d t)
  · obtain ⟨t, -, h⟩ := h
    rw [meets_along s x d hr]
    exact Set.ncard_le_ncard inter_subset_left (metAt_finite h).1
  · push Not at h
    have : metAt s (along x d r) d = Ioi 0 := by
      ext t
      refine ⟨fun ht => ht.1, fun ht => ⟨ht, ?_⟩⟩
      rw [along_along]
      exact h _ (add_pos hr ht)
    unfold meets
    rw [this, Set.Infinite.ncard (Set.Ioi_infinite 0)]
    exact Nat.zero_le _

/-- Passing a surface leaves one crossing less. -/
theorem meets_passed {s : Surface} {x : Point} {d : Direction} (hd : UnitVec d) {t : ℝ}
    (h : s.distance x d = (t : WithTop ℝ)) {r : ℝ} (hr : t ≤ r) :
    meets s (along x d r) d + 1 ≤ meets s x d := by
  obtain ⟨h0, hon, hoff⟩ := Props.C04_distance_first_crossing s x d t hd h
  have hfin := (metAt_finite (hoff _ (half_pos h0) (half_lt_self h0))).1
  rw [meets_along s x d (h0.trans_le hr)]
  have hmem : t ∈ metAt s x d := ⟨h0, hon⟩
  have hsub : metAt s x d ∩ Ioi r ⊆ metAt s x d \ {t} := by
    rintro u ⟨hu, hru⟩
    refine ⟨hu, ?_⟩
    rintro rfl
    exact absurd hru (not_lt.2 hr)
  have h1 := Set.ncard_le_ncard hsub (hfin.subset sdiff_subset)
  have h2 := Set.ncard_sdiff_singleton_add_one hmem hfin
  unfold meets
  omega

/-! ### All surfaces -/

/-- How many crossings are ahead. -/
noncomputable def crossingsAhead (w : World) (x d : Point) : ℕ := ∑ s ∈ shapesOf w, meets s x d

theorem crossingsAhead_le (w : World) (x d : Point) : crossingsAhead w x d ≤ crossable w :=
  Finset.sum_le_sum fun s _ => meets_le s x d

/-- Crossing the nearest surface leaves one crossing less. -/
theorem crossingsAhead_beyond {w : World} {c : Cell} (hc : c ∈ w.cells) {x : Point} {d : Direction}
    (hd : UnitVec d) (h : ahead c x d ≠ ⊤) :
    crossingsAhead w (beyond c x d) d + 1 ≤ crossingsAhead w x d := by
  obtain ⟨t, ht⟩ := WithTop.ne_top_iff_exists.1 h
  have h0 := ahead_pos ht.symm
  obtain ⟨e, he, hte⟩ := List.mem_map.1 (foldr_min_mem ht.symm)
  have hmem : e.1.shape ∈ shapesOf w := by
    unfold shapesOf
    rw [List.mem_toFinset, List.mem_flatMap]
    exact ⟨c, hc, List.mem_map.2 ⟨e, he, rfl⟩⟩
  have hb : beyond c x d = along x d (t + 10 / 2 ^ 52) := by
    unfold beyond
    rw [← ht]
    rfl
  rw [hb]
  unfold crossingsAhead
  rw [← Finset.add_sum_erase _ _ hmem, ← Finset.add_sum_erase _ _ hmem]
  have h1 := meets_passed hd hte (r := t + 10 / 2 ^ 52) (by norm_num)
  have h2 : ∑ s ∈ (shapesOf w).erase e.1.shape, meets s (along x d (t + 10 / 2 ^ 52)) d ≤
      ∑ s ∈ (shapesOf w).erase e.1.shape, meets s x d :=
    Finset.sum_le_sum fun s _ => meets_mono s x d (by linarith [show (0 : ℝ) < 10 / 2 ^ 52 by norm_num])
  omega

end Minimc
