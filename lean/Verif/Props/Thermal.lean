import Verif.Lemmas.Thermal
import Verif.Lemmas.Keeps

/-! # Property C44 -/

namespace Minimc.Props

open Classical Spec

/-- **C44** Between tabulated energies and temperatures the total cross section is the bilinear
interpolant of the four surrounding entries. -/
theorem C44_bilinear_partial {s : ThermalScattering} {es ts : List ℝ} {X : ℕ → ℕ → ℝ}
    (h : TotalTable s es ts X) {i j : ℕ} {e₀ e₁ t₀ t₁ e t : ℝ}
    (h1 : es[i]? = some e₀) (h2 : es[i + 1]? = some e₁) (h3 : ts[j]? = some t₀)
    (h4 : ts[j + 1]? = some t₁) (he₀ : e₀ ≤ e) (he₁ : e < e₁) (ht₀ : t₀ ≤ t) (ht₁ : t < t₁) :
    s.totalAt e t = .ok (mix (weight t₀ t₁ t)
      (mix (weight e₀ e₁ e) (X i j) (X (i + 1) j))
      (mix (weight e₀ e₁ e) (X i (j + 1)) (X (i + 1) (j + 1)))) := by
  have hu := upperIdx_between h.1 h1 h2 he₀ he₁
  obtain ⟨k1, k2, k3, k4⟩ := tempHi_between h.2.1 h3 h4 ht₀ ht₁
  rw [ThermalScattering.totalAt_eq h (eLo := e₀) (eHi := e₁) (tLo := t₀) (tHi := t₁)
    (by rw [hu]; exact lt_of_getElem? h2)
    (by rw [hu, if_neg (by omega)]; exact h1) (by rw [hu]; exact h2) (by rw [k3]; exact h3)
    (by rw [k2]; exact h4)]
  simp only [hu, k1, k2, k3, if_neg k4, Nat.add_one_ne_zero, if_false, Nat.add_sub_cancel]

/-- **C44** At a tabulated energy and temperature, neither of them the last one, the total cross
section is the tabulated one. -/
theorem C44_tabulated_partial {s : ThermalScattering} {es ts : List ℝ} {X : ℕ → ℕ → ℝ}
    (h : TotalTable s es ts X) {i j : ℕ} {e t : ℝ} (h1 : es[i]? = some e)
    (h2 : i + 1 < es.length) (h3 : ts[j]? = some t) (h4 : j + 1 < ts.length) :
    s.totalAt e t = .ok (X i j) := by
  have e1 : es[i + 1]? = some es[i + 1] := List.getElem?_eq_getElem h2
  have e2 : ts[j + 1]? = some ts[j + 1] := List.getElem?_eq_getElem h4
  have l1 := pairwise_lt_getElem? h.1 (Nat.lt_succ_self i) h1 e1
  have l2 := pairwise_lt_getElem? h.2.1 (Nat.lt_succ_self j) h3 e2
  rw [C44_bilinear_partial h h1 e1 h3 e2 le_rfl l1 le_rfl l2]
  simp [mix, weight]

/-- **C44** Below the lowest temperature the value at the lowest temperature is used. -/
theorem C44_below_temperature {s : ThermalScattering} {es ts : List ℝ} {X : ℕ → ℕ → ℝ}
    (h : TotalTable s es ts X) {i : ℕ} {e₀ e₁ t₀ e t : ℝ}
    (h1 : es[i]? = some e₀) (h2 : es[i + 1]? = some e₁) (h3 : ts[0]? = some t₀)
    (he₀ : e₀ ≤ e) (he₁ : e < e₁) (ht : t < t₀) :
    s.totalAt e t = .ok (mix (weight e₀ e₁ e) (X i 0) (X (i + 1) 0)) := by
  have hu := upperIdx_between h.1 h1 h2 he₀ he₁
  obtain ⟨k1, k2⟩ := tempHi_below h.2.1 h3 ht
  rw [ThermalScattering.totalAt_eq h (eLo := e₀) (eHi := e₁) (tLo := t₀) (tHi := t₀)
    (by rw [hu]; exact lt_of_getElem? h2)
    (by rw [hu, if_neg (by omega)]; exact h1) (by rw [hu]; exact h2) (by rw [k2]; exact h3)
    (by rw [k1]; exact h3)]
  simp only [hu, k1, k2, Nat.add_one_ne_zero, if_false, Nat.add_sub_cancel, if_true]
  simp [mix]

/-- **C44** Below the lowest energy the value at the lowest energy is used. -/
theorem C44_below_energy {s : ThermalScattering} {es ts : List ℝ} {X : ℕ → ℕ → ℝ}
    (h : TotalTable s es ts X) {j : ℕ} {e₀ t₀ t₁ e t : ℝ} (h1 : es[0]? = some e₀)
    (h3 : ts[j]? = some t₀) (h4 : ts[j + 1]? = some t₁) (he : e < e₀) (ht₀ : t₀ ≤ t)
    (ht₁ : t < t₁) :
    s.totalAt e t = .ok (mix (weight t₀ t₁ t) (X 0 j) (X 0 (j + 1))) := by
  have hu := upperIdx_zero h.1 h1 he
  obtain ⟨k1, k2, k3, k4⟩ := tempHi_between h.2.1 h3 h4 ht₀ ht₁
  rw [ThermalScattering.totalAt_eq h (eLo := e₀) (eHi := e₀) (tLo := t₀) (tHi := t₁)
    (by rw [hu]; exact lt_of_getElem? h1)
    (by rw [hu, if_pos rfl]; exact h1) (by rw [hu]; exact h1) (by rw [k3]; exact h3)
    (by rw [k2]; exact h4)]
  simp only [hu, k1, k2, k3, if_neg k4, Nat.add_one_ne_zero, if_false, if_true]
  simp [mix]

/-- With a single tabulated temperature the value at that temperature is used. -/
theorem C44_single_temperature {s : ThermalScattering} {es : List ℝ} {t₀ : ℝ} {X : ℕ → ℕ → ℝ}
    (h : TotalTable s es [t₀] X) {i : ℕ} {e₀ e₁ e t : ℝ}
    (h1 : es[i]? = some e₀) (h2 : es[i + 1]? = some e₁) (he₀ : e₀ ≤ e) (he₁ : e < e₁) :
    s.totalAt e t = .ok (mix (weight e₀ e₁ e) (X i 0) (X (i + 1) 0)) := by
  rcases lt_or_ge t t₀ with ht | ht
  · exact C44_below_temperature h h1 h2 rfl he₀ he₁ ht
  · have hu := upperIdx_between h.1 h1 h2 he₀ he₁
    obtain ⟨k1, k2, k3⟩ := tempHi_above (ts := [t₀]) h.2.1 (n := 0) rfl rfl ht
    rw [ThermalScattering.totalAt_eq h (eLo := e₀) (eHi := e₁) (tLo := t₀) (tHi := t₀)
      (by rw [hu]; exact lt_of_getElem? h2)
      (by rw [hu, if_neg (by omega)]; exact h1) (by rw [hu]; exact h2) (by rw [k3]; rfl)
      (by rw [k2]; rfl)]
    simp only [hu, k2, k3, Nat.add_one_ne_zero, if_false, Nat.add_sub_cancel, if_true]
    simp [mix]

/-- **C44** What the code does at or above the highest of two or more temperatures: it uses the
value at the second highest. -/
theorem C44_above_temperature_violated {s : ThermalScattering} {es ts : List ℝ} {X : ℕ → ℕ → ℝ}
    (h : TotalTable s es ts X) {i n : ℕ} {e₀ e₁ t₁ e t : ℝ} (hn : ts.length = n + 2)
    (h1 : es[i]? = some e₀) (h2 : es[i + 1]? = some e₁) (h3 : ts[n + 1]? = some t₁)
    (he₀ : e₀ ≤ e) (he₁ : e < e₁) (ht : t₁ ≤ t) :
    s.totalAt e t = .ok (mix (weight e₀ e₁ e) (X i n) (X (i + 1) n)) := by
  have hu := upperIdx_between h.1 h1 h2 he₀ he₁
  obtain ⟨k1, k2, k3⟩ := tempHi_above h.2.1 (n := n + 1) hn h3 ht
  rw [Nat.add_sub_cancel] at k3
  have e0 : ts[n]? = some ts[n] := List.getElem?_eq_getElem (by omega)
  rw [ThermalScattering.totalAt_eq h (eLo := e₀) (eHi := e₁) (tLo := ts[n]) (tHi := t₁)
    (by rw [hu]; exact lt_of_getElem? h2)
    (by rw [hu, if_neg (by omega)]; exact h1) (by rw [hu]; exact h2) (by rw [k3]; exact e0)
    (by rw [k2]; exact h3)]
  simp only [hu, k1, k2, k3, Nat.add_one_ne_zero, if_false, Nat.add_sub_cancel, if_true]
  simp [mix]

/-- **C44** No value is given at or above the last tabulated energy: there the thermal data is
declared not valid, and the lookup itself would stop at an assertion. -/
theorem C44_above_energy {s : ThermalScattering} {es ts : List ℝ} {X : ℕ → ℕ → ℝ}
    (h : TotalTable s es ts X) {n : ℕ} {e₁ e : ℝ} (hn : es.length = n + 1)
    (h1 : es[n]? = some e₁) (he : e₁ ≤ e) (t : ℝ) : s.totalAt e t = .error .assertFail := by
  have hu := upperIdx_length h.1 hn h1 he
  obtain ⟨_, _, _, o, oE, oT, S, E, T, hE, hT, a1, a2, a3, hX⟩ := h
  unfold ThermalScattering.totalAt
  rw [a2.getAxis (i := 0) rfl]
  simp only [bind, Except.bind]
  rw [if_pos (by rw [hu, hn])]

/-- Thermal data with two energies, two temperatures and a total cross section of 1 at the lower
and 2 at the higher temperature. -/
noncomputable def twoByTwo : ThermalScattering :=
  ⟨[(1, 5)], ⟨[[100, 200], [0]], [1, 2]⟩, ⟨[[0]], [1]⟩, ⟨[[1, 2], [0]], [1, 1]⟩, [], [], [], [],
    [], [], 0, 0, 1, 2⟩

theorem twoByTwo_table : TotalTable twoByTwo [1, 2] [100, 200] (fun _ j => j + 1) := by
  refine ⟨by norm_num, by norm_num, by simp, [0], [0], [0], fun _ => 1, fun _ _ => 1,
    fun j _ => j + 1, rfl, rfl, ?_, ?_, ?_, ?_⟩
  · exact holds1 (f := fun _ => 1) (by intro i hi; simp at hi; subst hi; rfl)
  · refine holds2 (f := fun _ _ => 1) ?_
    intro i hi j hj
    simp at hi hj
    subst hj
    interval_cases i <;> rfl
  · refine holds2 (f := fun i _ => (i : ℝ) + 1) ?_
    intro i hi j hj
    simp at hi hj
    subst hj
    interval_cases i
    · simp
    · norm_num
  · intro i j
    simp

/-- Instance of `C44_bilinear_partial`. -/
example : twoByTwo.totalAt 1.5 150 = .ok 1.5 := by
  rw [C44_bilinear_partial twoByTwo_table (i := 0) (j := 0) rfl rfl rfl rfl (by norm_num)
    (by norm_num) (by norm_num) (by norm_num)]
  norm_num [mix, weight]

/-- **C44 is violated**: at the highest tabulated temperature, and at a tabulated energy, the
total cross section is not the tabulated one. -/
theorem C44_violated : ¬ ∀ (s : ThermalScattering) (es ts : List ℝ) (X : ℕ → ℕ → ℝ),
    TotalTable s es ts X → ∀ (i j : ℕ) (e t : ℝ), es[i]? = some e → i + 1 < es.length →
      ts[j]? = some t → s.totalAt e t = .ok (X i j) := by
  intro h
  have h1 := h twoByTwo _ _ _ twoByTwo_table 0 1 1 200 rfl (by norm_num) rfl
  have h2 := C44_above_temperature_violated twoByTwo_table (i := 0) (n := 0) (t := 200) rfl rfl rfl
    rfl le_rfl (by norm_num) le_rfl
  rw [h2] at h1
  norm_num [mix, weight] at h1

/-- **C44** Thermal data built from data sets is declared valid exactly for neutrons below the
last tabulated energy, and there the total cross section is defined at every temperature. -/
theorem C44_valid_total {maj xsT xsS xsE : DataSet} {bp ap : List Partition} {bc ac awr : ℝ}
    {s : ThermalScattering} (hc : ThermalScattering.create maj xsT xsS xsE bp ap bc ac awr = .ok s)
    {es ts : List ℝ} {X : ℕ → ℕ → ℝ} (h : TotalTable s es ts X) {p : Particle} {e t : ℝ}
    (he : p.energy = .continuous e) (ht : p.temperatureAt = .ok t) :
    (s.isValid p = .ok true ↔ p.type = .neutron ∧ ∃ last, es.getLast? = some last ∧ e < last) ∧
    (s.isValid p = .ok true → ∃ v, s.getTotal p = .ok v ∧ s.totalAt e t = .ok v) := by
  have hl : es.getLast? = some s.cutoffEnergy := by
    unfold ThermalScattering.create at hc
    rw [noexcept_eq_ok] at hc
    simp only [res_bind_ok] at hc
    obtain ⟨m, _, es', _, _, _, be, _, bs, _, _, _, ae, _, ax, hax, hc⟩ := hc
    cases hlast : ax.getLast? with
    | none => rw [hlast] at hc; cases hc
    | some c =>
      rw [hlast] at hc
      cases hc
      obtain ⟨_, _, _, o, oE, oT, S, E, T, hE, hT, a1, a2, a3, hX⟩ := h
      have := a2.getAxis (i := 0) rfl
      rw [this] at hax
      cases hax
      exact hlast
  have hv : s.isValid p = .ok true ↔ p.type = .neutron ∧ e < s.cutoffEnergy := by
    unfold ThermalScattering.isValid
    rw [he]
    simp [Energy.getContinuous, bind, Except.bind, noexcept]
  refine ⟨?_, ?_⟩
  · rw [hv]
    constructor
    · rintro ⟨h1, h2⟩
      exact ⟨h1, _, hl, h2⟩
    · rintro ⟨h1, last, h2, h3⟩
      rw [hl] at h2
      cases h2
      exact ⟨h1, h3⟩
  · intro hval
    obtain ⟨_, hlt⟩ := hv.1 hval
    have hne : es ≠ [] := by rintro rfl; simp at hl
    have hlast : es[es.length - 1]? = some s.cutoffEnergy := by
      rw [List.getLast?_eq_getElem?] at hl
      exact hl
    have hu : upperIdx es e < es.length := by
      rcases (upperIdx_le_length es e).lt_or_eq with h1 | h1
      · exact h1
      · have : 0 < es.length := List.length_pos_iff.2 hne
        have := upperIdx_pred (l := es) (x := e) (i := es.length - 1) (by omega) hlast
        linarith
    have htl : 0 < ts.length := List.length_pos_iff.2 h.2.2.1
    have hhi : tempHi ts t < ts.length := by
      unfold tempHi
      have := upperIdx_le_length ts t
      split_ifs <;> omega
    have hlo : tempLo ts t < ts.length := by
      unfold tempLo
      split_ifs <;> omega
    have hel : (if upperIdx es e = 0 then upperIdx es e else upperIdx es e - 1) < es.length := by
      split_ifs <;> omega
    have key := ThermalScattering.totalAt_eq h (t := t) hu (List.getElem?_eq_getElem hel)
      (List.getElem?_eq_getElem hu) (List.getElem?_eq_getElem hlo) (List.getElem?_eq_getElem hhi)
    refine ⟨_, ?_, key⟩
    unfold ThermalScattering.getTotal
    rw [he, ht]
    simp only [Energy.getContinuous, bind, Except.bind]
    rw [key]
    rfl

end Minimc.Props
