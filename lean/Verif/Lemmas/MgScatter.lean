import Verif.Lemmas.Multigroup
import Verif.Lemmas.Point

/-! # Lemmas on multigroup sampling -/

namespace Minimc

open Spec Multigroup

namespace Multigroup

/-- Entries of column `gp`. -/
noncomputable def col (G : ℕ) (flat : List ℝ) (gp : ℕ) : List ℝ :=
  (List.range' 1 G).map (entry2 G flat gp)

/-- Entries of column `gp` after normalisation. -/
noncomputable def normCol (G : ℕ) (flat : List ℝ) (gp : ℕ) : List ℝ :=
  normalizeColumn (col G flat gp)

theorem length_col (G : ℕ) (flat : List ℝ) (gp : ℕ) : (col G flat gp).length = G := by
  simp [col]

theorem length_normCol (G : ℕ) (flat : List ℝ) (gp : ℕ) : (normCol G flat gp).length = G := by
  unfold normCol normalizeColumn
  split_ifs <;> simp [length_col]

theorem sum_col (G : ℕ) (flat : List ℝ) (gp : ℕ) : (col G flat gp).sum = colSum G flat gp := rfl

theorem normCol_eq (G : ℕ) (flat : List ℝ) (gp : ℕ) :
    normCol G flat gp = if colSum G flat gp = 0 then col G flat gp
      else (col G flat gp).map (fun e => e / colSum G flat gp) := by
  rw [normCol, normalizeColumn, columnSum_eq, sum_col]

theorem twoAt_map {G : ℕ} {f : ℕ → List ℝ} {gp : ℕ} (h1 : 1 ≤ gp) (h2 : gp ≤ G) :
    twoAt ((List.range' 1 G).map f) gp = .ok (f gp) := by
  rw [twoAt, if_neg (by omega), vecAt_lt (by simp; omega)]
  simp only [List.getElem_map, List.getElem_range', Except.ok.injEq]
  congr 1
  omega

theorem normalized_ok {G : ℕ} {flat : List ℝ} (hl : flat.length = G * G) :
    normalizedTwoDimensional G flat = .ok ((List.range' 1 G).map (normCol G flat)) := by
  rw [normalizedTwoDimensional, twoDimensional_ok hl]
  simp only [bind, Except.bind, List.map_map, Except.ok.injEq]
  apply List.map_congr_left
  intro gp _
  rfl

theorem normalized_length {G : ℕ} {flat : List ℝ} {t : List (List ℝ)}
    (h : normalizedTwoDimensional G flat = .ok t) :
    flat.length = G * G ∧ t = (List.range' 1 G).map (normCol G flat) := by
  have hl : flat.length = G * G := by
    by_contra hne
    simp [normalizedTwoDimensional, twoDimensional, hne, bind, Except.bind] at h
  rw [normalized_ok hl] at h
  exact ⟨hl, by simpa using h.symm⟩

theorem optionally_some {α β : Type _} {f : α → Res β} {a : α} {r : Option β}
    (h : optionally f (some a) = .ok r) : ∃ b, f a = .ok b ∧ r = some b := by
  simp only [optionally, bind, Except.bind] at h
  split at h
  · cases h
  · rename_i b hb
    simp only [Except.ok.injEq] at h
    exact ⟨b, hb, h.symm⟩

theorem entry2_nonneg {G : ℕ} {flat : List ℝ} (h : ∀ x ∈ flat, 0 ≤ x) (gp g : ℕ) :
    0 ≤ entry2 G flat gp g := by
  rw [entry2, List.getD_eq_getElem?_getD]
  rcases hx : flat[G * (g - 1) + (gp - 1)]? with _ | x
  · simp
  · simpa using h x (List.mem_of_getElem? hx)

theorem entry1_nonneg {l : List ℝ} (h : ∀ x ∈ l, 0 ≤ x) (g : ℕ) : 0 ≤ entry1 l g := by
  rw [entry1, List.getD_eq_getElem?_getD]
  rcases hx : l[g - 1]? with _ | x
  · simp
  · simpa using h x (List.mem_of_getElem? hx)

theorem col_nonneg {G : ℕ} {flat : List ℝ} (h : ∀ x ∈ flat, 0 ≤ x) (gp : ℕ) :
    ∀ x ∈ col G flat gp, 0 ≤ x := by
  intro x hx
  obtain ⟨g, _, rfl⟩ := List.mem_map.1 hx
  exact entry2_nonneg h gp g

theorem colSum_nonneg {G : ℕ} {flat : List ℝ} (h : ∀ x ∈ flat, 0 ≤ x) (gp : ℕ) :
    0 ≤ colSum G flat gp := List.sum_nonneg (col_nonneg h gp)

theorem normCol_nonneg {G : ℕ} {flat : List ℝ} (h : ∀ x ∈ flat, 0 ≤ x) (gp : ℕ) :
    ∀ x ∈ normCol G flat gp, 0 ≤ x := by
  rw [normCol_eq]
  split_ifs
  · exact col_nonneg h gp
  · intro x hx
    obtain ⟨y, hy, rfl⟩ := List.mem_map.1 hx
    exact div_nonneg (col_nonneg h gp y hy) (colSum_nonneg h gp)

theorem sum_map_div (l : List ℝ) (c : ℝ) : (l.map (fun e => e / c)).sum = l.sum / c := by
  induction l with
  | nil => simp
  | cons a l ih => simp [ih, add_div]

theorem sum_normCol {G : ℕ} {flat : List ℝ} {gp : ℕ} (h : colSum G flat gp ≠ 0) :
    (normCol G flat gp).sum = 1 := by
  rw [normCol_eq, if_neg h, sum_map_div, sum_col, div_self h]

theorem map_oneAt (c : List ℝ) : (List.range' 1 c.length).map (entry1 c) = c := by
  apply List.ext_getElem
  · simp
  · intro i h1 h2
    simp [entry1, List.getD_eq_getElem?_getD, h2]

/-- The group loop returns group `g` exactly when the threshold falls into its piece. -/
theorem selectGroup_iff {G : ℕ} {c : List ℝ} (hl : c.length = G) (hnn : ∀ x ∈ c, 0 ≤ x) {θ : ℝ}
    (hθ : 0 ≤ θ) (g : ℕ) :
    selectGroup G c θ = .ok (some g) ↔ 1 ≤ g ∧ Selected c θ (g - 1) := by
  subst hl
  have hf : ∀ x ∈ List.range' 1 c.length, oneAt c x = .ok (entry1 c x) := by
    intro x hx
    rw [List.mem_range'_1] at hx
    exact oneAt_ok hx.1 (by omega)
  have hw : ∀ x ∈ List.range' 1 c.length, 0 ≤ entry1 c x := fun x _ => entry1_nonneg hnn x
  have key : ∀ i (hi : i < (List.range' 1 c.length).length),
      selectGroup c.length c θ = .ok (some (i + 1)) ↔ Selected c θ i := by
    intro i hi
    have := selectLoop_eq_some_iff hf hw hθ (List.nodup_range') hi
    rw [map_oneAt] at this
    rw [← this]
    simp [selectGroup, add_comm]
  constructor
  · intro h
    have hmem : 1 ≤ g ∧ g ≤ c.length := by
      by_cases hs : θ < c.sum
      · obtain ⟨x, hx, hsel, _⟩ := selectLoop_exists hf hw hθ (by rw [map_oneAt]; exact hs)
        unfold selectGroup at h
        rw [hsel] at h
        simp only [Except.ok.injEq, Option.some.injEq] at h
        subst h
        rw [List.mem_range'_1] at hx
        omega
      · have := selectLoop_none (acc := 0) hf hw (by rw [map_oneAt]; simpa using hs)
        unfold selectGroup at h
        rw [this] at h
        simp at h
    refine ⟨hmem.1, (key (g - 1) (by simp; omega)).1 ?_⟩
    rw [h]
    congr 2
    omega
  · rintro ⟨h1, h2⟩
    have := (key (g - 1) (by simpa using h2.1)).2 h2
    rw [this]
    congr 2
    omega

theorem selectGroup_exists {G : ℕ} {c : List ℝ} (hl : c.length = G) (hnn : ∀ x ∈ c, 0 ≤ x)
    {θ : ℝ} (hθ : 0 ≤ θ) (hs : θ < c.sum) : ∃ g, selectGroup G c θ = .ok (some g) := by
  obtain ⟨i, hi⟩ := Selected.exists hθ hs
  exact ⟨i + 1, (selectGroup_iff hl hnn hθ (i + 1)).2 ⟨by omega, by simpa using hi⟩⟩

theorem selectGroup_none {G : ℕ} {c : List ℝ} (hl : c.length = G) (hnn : ∀ x ∈ c, 0 ≤ x)
    {θ : ℝ} (hs : c.sum ≤ θ) : selectGroup G c θ = .ok none := by
  subst hl
  exact selectLoop_none (acc := 0) (w := entry1 c)
    (fun x hx => by
      rw [List.mem_range'_1] at hx
      exact oneAt_ok hx.1 (by omega))
    (fun x _ => entry1_nonneg hnn x) (by rw [map_oneAt]; simpa using hs)

/-- Scaling the weights. -/
theorem selected_scale {ws : List ℝ} {c θ : ℝ} (hc : 0 < c) (i : ℕ) :
    Selected (ws.map (fun e => e / c)) θ i ↔ Selected ws (θ * c) i := by
  unfold Selected
  rw [List.length_map, ← List.map_take, ← List.map_take, sum_map_div, sum_map_div,
    div_le_iff₀ hc, lt_div_iff₀ hc]

theorem selected_normCol {G : ℕ} {flat : List ℝ} {gp : ℕ} (h : 0 < colSum G flat gp) (θ : ℝ)
    (i : ℕ) :
    Selected (normCol G flat gp) θ i ↔ Selected (col G flat gp) (θ * colSum G flat gp) i := by
  rw [normCol_eq, if_neg (ne_of_gt h), selected_scale h]

end Multigroup

namespace Particle

theorem sample_fst (p : Particle) : p.sample.1 = (Rng.canonical p.rng).1 := rfl

theorem sample_snd (p : Particle) : p.sample.2 = { p with rng := (Rng.canonical p.rng).2 } := rfl

end Particle

theorem unitVec_isotropic {g : ℕ} (hv : Rng.Valid g) : UnitVec (Direction.isotropic g).1 := by
  have h0 := Rng.canonical_pos hv
  have h1 := Rng.canonical_lt_one hv
  unfold Direction.isotropic Rng.uniformReal
  apply Direction.unitVec_isotropicOf <;> linarith

theorem isotropic_snd (g : ℕ) : (Direction.isotropic g).2 = Rng.next^[4] g := rfl

end Minimc
