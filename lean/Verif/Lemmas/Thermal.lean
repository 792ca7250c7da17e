import Verif.Spec.Thermal
import Verif.Lemmas.Search
import Verif.Lemmas.Select
import Verif.Lemmas.Multigroup
import Verif.Props.Table

/-! # Lemmas about thermal scattering tables -/

namespace Minimc

open Classical Spec

theorem pairwise_lt_getElem? {l : List ℝ} (hs : l.Pairwise (· < ·)) {i j : ℕ} {a b : ℝ}
    (hij : i < j) (ha : l[i]? = some a) (hb : l[j]? = some b) : a < b := by
  obtain ⟨hi, rfl⟩ := List.getElem?_eq_some_iff.1 ha
  obtain ⟨hj, rfl⟩ := List.getElem?_eq_some_iff.1 hb
  exact List.pairwise_iff_getElem.1 hs i j hi hj hij

theorem pairwise_le_getElem? {l : List ℝ} (hs : l.Pairwise (· < ·)) {i j : ℕ} {a b : ℝ}
    (hij : i ≤ j) (ha : l[i]? = some a) (hb : l[j]? = some b) : a ≤ b := by
  rcases hij.lt_or_eq with h | rfl
  · exact (pairwise_lt_getElem? hs h ha hb).le
  · rw [ha] at hb; cases hb; exact le_rfl

theorem lt_of_getElem? {α : Type _} {l : List α} {i : ℕ} {a : α} (h : l[i]? = some a) :
    i < l.length := (List.getElem?_eq_some_iff.1 h).1

/-- Between neighbours. -/
theorem upperIdx_between {l : List ℝ} (hs : l.Pairwise (· < ·)) {i : ℕ} {a b x : ℝ}
    (ha : l[i]? = some a) (hb : l[i + 1]? = some b) (h1 : a ≤ x) (h2 : x < b) :
    upperIdx l x = i + 1 := by
  refine upperIdx_eq (lt_of_getElem? hb).le ?_ ?_
  · intro j c hj hc
    exact (pairwise_le_getElem? hs (by omega) hc ha).trans h1
  · intro j c hj hc
    exact h2.trans_le (pairwise_le_getElem? hs hj hb hc)

/-- Below the first. -/
theorem upperIdx_zero {l : List ℝ} (hs : l.Pairwise (· < ·)) {a x : ℝ} (ha : l[0]? = some a) (h : x < a) :
    upperIdx l x = 0 := by
  refine upperIdx_eq (Nat.zero_le _) (by intro i _ hi; omega) ?_
  intro j c hj hc
  exact h.trans_le (pairwise_le_getElem? hs hj ha hc)

/-- At or above the last. -/
theorem upperIdx_length {l : List ℝ} (hs : l.Pairwise (· < ·)) {n : ℕ} (hn : l.length = n + 1)
    {a x : ℝ} (ha : l[n]? = some a) (h : a ≤ x) : upperIdx l x = n + 1 := by
  refine upperIdx_eq hn.ge ?_ ?_
  · intro j c hj hc
    exact (pairwise_le_getElem? hs (by omega) hc ha).trans h
  · intro j c hj hc
    have := lt_of_getElem? hc
    omega

theorem Spec.Holds.at' {ds : DataSet} {axes : List (List ℝ)} {f : List ℕ → ℝ} (h : Holds ds axes f)
    {idx : List ℕ} (hne : idx ≠ []) (hr : InRange (axes.map List.length) idx) :
    ds.at' idx = .ok (f idx) := by
  obtain ⟨hax, hv⟩ := h
  have hlen : idx.length = ds.axes.length := by
    rw [hax]
    have := List.Forall₂.length_eq hr
    simpa using this.symm
  have := (Props.atFromBase_eq ds 0 [] ds.axes idx rfl hlen hne).1 (by rw [hax]; exact hr)
  rw [Nat.zero_add, hax] at this
  unfold DataSet.at'
  rw [List.length_nil] at this
  rw [this]
  exact Props.vecAt_eq_ok (hv idx hr)

theorem Spec.Holds.at1 {ds : DataSet} {xs : List ℝ} {f : ℕ → ℝ}
    (h : Holds ds [xs] (fun idx => f (idx[0]?.getD 0))) {i : ℕ} (hi : i < xs.length) :
    ds.at' [i] = .ok (f i) := by
  have := h.at' (idx := [i]) (by simp) (by unfold InRange; simpa using hi)
  simpa using this

theorem Spec.Holds.at2 {ds : DataSet} {xs ys : List ℝ} {f : ℕ → ℕ → ℝ}
    (h : Holds ds [xs, ys] (fun idx => f (idx[0]?.getD 0) (idx[1]?.getD 0))) {i j : ℕ}
    (hi : i < xs.length) (hj : j < ys.length) : ds.at' [i, j] = .ok (f i j) := by
  have := h.at' (idx := [i, j]) (by simp) (by unfold InRange; simp [hi, hj])
  simpa using this

theorem Spec.Holds.at3 {ds : DataSet} {xs ys zs : List ℝ} {f : ℕ → ℕ → ℕ → ℝ}
    (h : Holds ds [xs, ys, zs]
      (fun idx => f (idx[0]?.getD 0) (idx[1]?.getD 0) (idx[2]?.getD 0))) {i j k : ℕ}
    (hi : i < xs.length) (hj : j < ys.length) (hk : k < zs.length) :
    ds.at' [i, j, k] = .ok (f i j k) := by
  have := h.at' (idx := [i, j, k]) (by simp) (by unfold InRange; simp [hi, hj, hk])
  simpa using this

theorem Spec.Holds.getAxis {ds : DataSet} {axes : List (List ℝ)} {f : List ℕ → ℝ} (h : Holds ds axes f)
    {i : ℕ} {ax : List ℝ} (hi : axes[i]? = some ax) : ds.getAxis i = .ok ax := by
  unfold DataSet.getAxis
  rw [h.1]
  exact Props.vecAt_eq_ok hi

theorem sumOrders_ok {f : ℕ → Res ℝ} {g : ℕ → ℝ} {n : ℕ} (h : ∀ k < n, f k = .ok (g k)) :
    sumOrders f n = .ok (∑ k ∈ Finset.range n, g k) := by
  unfold sumOrders
  rw [sumLoop_ok (w := g) (fun k hk => h k (List.mem_range.1 hk)), zero_add]
  congr 1

namespace ThermalScattering

theorem evaluateInelastic_eq {s : ThermalScattering} {es ts : List ℝ} {X : ℕ → ℕ → ℝ}
    (h : TotalTable s es ts X) {i j : ℕ} (hi : i < es.length) (hj : j < ts.length) :
    s.evaluateInelastic i j = .ok (X i j) := by
  obtain ⟨_, _, _, o, oE, oT, S, E, T, hE, hT, h1, h2, h3, hX⟩ := h
  unfold evaluateInelastic
  rw [noexcept_eq_ok, h1.getAxis (i := 0) rfl]
  simp only [bind, Except.bind]
  rw [sumOrders_ok (g := fun k => S k * E i k * T j k), ← hX]
  intro k hk
  rw [h1.at1 hk, h2.at2 hi (by omega), h3.at2 hj (by omega)]

/-- The total cross section in terms of the table, below the last energy. -/
theorem totalAt_eq {s : ThermalScattering} {es ts : List ℝ} {X : ℕ → ℕ → ℝ}
    (h : TotalTable s es ts X) {e t : ℝ} (he : upperIdx es e < es.length)
    {eLo eHi tLo tHi : ℝ}
    (h1 : es[if upperIdx es e = 0 then upperIdx es e else upperIdx es e - 1]? = some eLo)
    (h2 : es[upperIdx es e]? = some eHi) (h3 : ts[tempLo ts t]? = some tLo)
    (h4 : ts[tempHi ts t]? = some tHi) :
    s.totalAt e t =
      let iLo := if upperIdx es e = 0 then upperIdx es e else upperIdx es e - 1
      let wE := if upperIdx es e = 0 then 1 else weight eLo eHi e
      let wT := if tempHi ts t = 0 then 1
                else if upperIdx ts t = ts.length then 0 else weight tLo tHi t
      .ok (mix wT (mix wE (X iLo (tempLo ts t)) (X (upperIdx es e) (tempLo ts t)))
        (mix wE (X iLo (tempHi ts t)) (X (upperIdx es e) (tempHi ts t)))) := by
  have hh := h
  obtain ⟨_, _, _, o, oE, oT, S, E, T, hE, hT, a1, a2, a3, hX⟩ := hh
  unfold totalAt
  rw [a2.getAxis (i := 0) rfl, a3.getAxis (i := 0) rfl]
  simp only [bind, Except.bind]
  rw [if_neg he.ne]
  rw [evaluateInelastic_eq h (lt_of_getElem? h1) (lt_of_getElem? h3),
    evaluateInelastic_eq h (lt_of_getElem? h1) (lt_of_getElem? h4),
    evaluateInelastic_eq h (lt_of_getElem? h2) (lt_of_getElem? h3),
    evaluateInelastic_eq h (lt_of_getElem? h2) (lt_of_getElem? h4),
    Props.vecAt_eq_ok h1, Props.vecAt_eq_ok h2, Props.vecAt_eq_ok h3, Props.vecAt_eq_ok h4]
  simp only [mix, weight]
  congr 1
  ring

end ThermalScattering

theorem tempHi_between {ts : List ℝ} (hs : ts.Pairwise (· < ·)) {j : ℕ} {a b t : ℝ}
    (ha : ts[j]? = some a) (hb : ts[j + 1]? = some b) (h1 : a ≤ t) (h2 : t < b) :
    upperIdx ts t = j + 1 ∧ tempHi ts t = j + 1 ∧ tempLo ts t = j ∧ j + 1 ≠ ts.length := by
  have hu := upperIdx_between hs ha hb h1 h2
  have hl := lt_of_getElem? hb
  have hhi : tempHi ts t = j + 1 := by
    unfold tempHi
    rw [hu, if_neg (by omega)]
  refine ⟨hu, hhi, ?_, by omega⟩
  unfold tempLo
  rw [hhi, if_neg (by omega)]
  omega

theorem tempHi_below {ts : List ℝ} (hs : ts.Pairwise (· < ·)) {a t : ℝ} (ha : ts[0]? = some a) (h : t < a) :
    tempHi ts t = 0 ∧ tempLo ts t = 0 := by
  have hu := upperIdx_zero hs ha h
  have hl := lt_of_getElem? ha
  have hhi : tempHi ts t = 0 := by
    unfold tempHi
    rw [hu, if_neg (by omega)]
  refine ⟨hhi, ?_⟩
  unfold tempLo
  rw [hhi, if_pos rfl]

theorem tempHi_above {ts : List ℝ} (hs : ts.Pairwise (· < ·)) {n : ℕ} (hn : ts.length = n + 1)
    {a t : ℝ} (ha : ts[n]? = some a) (h : a ≤ t) :
    upperIdx ts t = ts.length ∧ tempHi ts t = n ∧ tempLo ts t = n - 1 := by
  have hu := upperIdx_length hs hn ha h
  have hhi : tempHi ts t = n := by
    unfold tempHi
    rw [hu, if_pos hn.symm]
    omega
  refine ⟨by rw [hu, hn], hhi, ?_⟩
  unfold tempLo
  rw [hhi]
  split_ifs with h0 <;> omega

end Minimc

namespace Minimc

open Spec

theorem holds1 {xs values : List ℝ} {f : ℕ → ℝ}
    (h : ∀ i < xs.length, values[i]? = some (f i)) :
    Holds ⟨[xs], values⟩ [xs] (fun idx => f (idx[0]?.getD 0)) := by
  refine ⟨rfl, ?_⟩
  intro idx hr
  simp only [List.map_cons, List.map_nil] at hr
  cases hr with
  | cons h1 h2 =>
    cases h2
    simpa [offset] using h _ h1

theorem holds2 {xs ys values : List ℝ} {f : ℕ → ℕ → ℝ}
    (h : ∀ i < xs.length, ∀ j < ys.length, values[i * ys.length + j]? = some (f i j)) :
    Holds ⟨[xs, ys], values⟩ [xs, ys] (fun idx => f (idx[0]?.getD 0) (idx[1]?.getD 0)) := by
  refine ⟨rfl, ?_⟩
  intro idx hr
  simp only [List.map_cons, List.map_nil] at hr
  cases hr with
  | cons h1 h2 =>
    cases h2 with
    | cons h2 h3 =>
      cases h3
      simpa [offset] using h _ h1 _ h2

theorem holds3 {xs ys zs values : List ℝ} {f : ℕ → ℕ → ℕ → ℝ}
    (h : ∀ i < xs.length, ∀ j < ys.length, ∀ k < zs.length,
      values[i * (ys.length * zs.length) + j * zs.length + k]? = some (f i j k)) :
    Holds ⟨[xs, ys, zs], values⟩ [xs, ys, zs]
      (fun idx => f (idx[0]?.getD 0) (idx[1]?.getD 0) (idx[2]?.getD 0)) := by
  refine ⟨rfl, ?_⟩
  intro idx hr
  simp only [List.map_cons, List.map_nil] at hr
  cases hr with
  | cons h1 h2 =>
    cases h2 with
    | cons h2 h3 =>
      cases h3 with
      | cons h3 h4 =>
        cases h4
        have := h _ h1 _ h2 _ h3
        simpa [offset, add_assoc] using this

end Minimc
