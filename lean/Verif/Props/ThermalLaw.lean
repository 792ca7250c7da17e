import Verif.Spec.ThermalLaw
import Verif.Props.ThermalSample
import Verif.Props.DeltaTracking
import Verif.Lemmas.Sequence
import Verif.Lemmas.Flight

/-! # Property C84: what thermal scattering does with a sequence of random numbers -/

namespace Minimc.Props

open Classical Spec

/-! ## The tables -/

theorem _root_.Minimc.Spec.RowsAt.rows_eq {P : Partition} {t : ℝ} {l : List (ℝ × Curve)}
    (h : RowsAt P t l) : P.rows = .ok (l.map Prod.fst) := by
  obtain ⟨fs, rows, ts, X, j, a, b, ⟨_, o, oC, oM, S, C, M, _, _, _, _, h3, _⟩, _, _, _, _, rfl, _⟩ :=
    h
  exact h3.getAxis (i := 0) rfl

theorem _root_.Minimc.Spec.RowsAt.row {P : Partition} {t : ℝ} {l : List (ℝ × Curve)}
    (h : RowsAt P t l) {i : ℕ} {x : ℝ} {c : Curve} (hi : l[i]? = some (x, c)) :
    Row P i t c.n c.f c.v := by
  obtain ⟨fs, rows, ts, X, j, a, b, hP, h1, h2, h3, h4, rfl, h5⟩ := h
  obtain ⟨k1, k2, k3⟩ := h5 i x c hi
  refine ⟨⟨fs, ?_, k1.symm, k2⟩, fun k hk => ?_⟩
  · obtain ⟨_, o, oC, oM, S, C, M, _, _, _, h6, _⟩ := hP
    exact h6.getAxis (i := 0) rfl
  · rw [k3 k hk]
    exact C47_interpolated_partial hP (by omega)
      (by rw [List.length_map]; exact lt_of_getElem? hi) h1 h2 h3 h4

theorem flatten_at {α : Type} : ∀ {ls : List (List α)} {k l : ℕ} {r : List α}
    (_ : ls[k]? = some r) (_ : l < r.length),
    ls.flatten[((ls.take k).map List.length).sum + l]? = r[l]?
  | [], _, _, _, h, _ => by simp at h
  | a :: ls, 0, l, r, h, hl => by
    simp at h
    subst h
    simp only [List.take_zero, List.map_nil, List.sum_nil, zero_add, List.flatten_cons]
    rw [List.getElem?_append_left hl]
  | a :: ls, k + 1, l, r, h, hl => by
    have ih := flatten_at (ls := ls) (k := k) (by simpa using h) hl
    rw [← ih]
    simp only [List.take_succ_cons, List.map_cons, List.sum_cons, List.flatten_cons]
    rw [List.getElem?_append_right (by omega)]
    congr 1
    omega

/-- Each distribution is found in its partition. -/
theorem tabulates_located {parts : List Partition} {t : ℝ} {L : List (ℝ × Curve)}
    (h : Tabulates parts t L) {l : List ℝ} (hl : ThermalScattering.concatRows parts = .ok l)
    {ends : List ℕ} (he : ThermalScattering.partitionEnds 0 parts = .ok ends) :
    l = L.map Prod.fst ∧ ∀ {g : ℕ} {x : ℝ} {c : Curve}, L[g]? = some (x, c) →
      ∃ k i P, ThermalScattering.locate ends g = .ok (k, i) ∧ parts[k]? = some P ∧
        Row P i t c.n c.f c.v := by
  obtain ⟨ls, hls, rfl⟩ := h
  have hax : RowAxes parts (ls.map (List.map Prod.fst)) := by
    unfold RowAxes
    rw [List.forall₂_map_right_iff]
    exact hls.imp fun P r h => h.rows_eq
  refine ⟨?_, ?_⟩
  · rw [concatRows_eq hax] at hl
    cases hl
    rw [List.map_flatten]
  · intro g x c hg
    have hlen : g < (ls.map (List.map Prod.fst)).flatten.length := by
      rw [← List.map_flatten, List.length_map]
      exact lt_of_getElem? hg
    obtain ⟨k, i, r, k1, k2, k3, _, k5, _⟩ := C47_located hax he hlen
    rw [List.getElem?_map, Option.map_eq_some_iff] at k2
    obtain ⟨lk, k2, rfl⟩ := k2
    rw [List.length_map] at k3
    have hb : rowsBefore (ls.map (List.map Prod.fst)) k = ((ls.take k).map List.length).sum := by
      unfold rowsBefore
      rw [← List.map_take, List.map_map]
      congr 1
      refine List.map_congr_left fun a _ => ?_
      simp
    have hi : lk[i]? = some (x, c) := by
      rw [← flatten_at k2 k3, ← hb, ← k5, hg]
    obtain ⟨hlen2, hget⟩ := List.forall₂_iff_get.1 hls
    have hkls := lt_of_getElem? k2
    have hkp : k < parts.length := by omega
    have hR := hget k hkp hkls
    obtain ⟨_, hk2⟩ := List.getElem?_eq_some_iff.1 k2
    refine ⟨k, i, parts[k], k1, List.getElem?_eq_getElem hkp, ?_⟩
    have : RowsAt parts[k] t lk := by simpa [hk2] using hR
    exact this.row hi

/-- What the constructor makes of the tables. -/
structure Holding (s : ThermalScattering) (t : ℝ) (L M : List (ℝ × Curve)) : Prop where
  es : s.es = L.map Prod.fst
  betas : s.betas = M.map Prod.fst
  esUp : s.es.Pairwise (· < ·)
  betasUp : ((0 : ℝ) :: s.betas).Pairwise (· < ·)
  energy : ∀ {g : ℕ} {x : ℝ} {c : Curve}, L[g]? = some (x, c) →
      ∃ k i P, ThermalScattering.locate s.betaEnds g = .ok (k, i) ∧
        s.betaPartitions[k]? = some P ∧ Row P i t c.n c.f c.v
  momentum : ∀ {g : ℕ} {x : ℝ} {c : Curve}, M[g]? = some (x, c) →
      ∃ k i P, ThermalScattering.locate s.alphaEnds g = .ok (k, i) ∧
        s.alphaPartitions[k]? = some P ∧ Row P i t c.n c.f c.v

theorem holding {maj xsT xsS xsE : DataSet} {bp ap : List Partition} {bc ac awr : ℝ}
    {s : ThermalScattering}
    (hc : ThermalScattering.create maj xsT xsS xsE bp ap bc ac awr = .ok s) {t : ℝ}
    {L M : List (ℝ × Curve)} (hL : Tabulates bp t L) (hM : Tabulates ap t M) :
    Holding s t L M ∧ s.betaCutoff = bc ∧ s.alphaCutoff = ac ∧ s.awr = awr := by
  unfold ThermalScattering.create at hc
  rw [noexcept_eq_ok] at hc
  simp only [res_bind_ok] at hc
  obtain ⟨m, _, es, h1, _, h2, be, h3, bs, h4, _, h5, ae, h6, ax, hax, hc⟩ := hc
  cases hlast : ax.getLast? with
  | none => rw [hlast] at hc; cases hc
  | some c =>
    rw [hlast] at hc
    cases hc
    obtain ⟨a1, a2⟩ := tabulates_located hL h1 h3
    obtain ⟨b1, b2⟩ := tabulates_located hM h4 h6
    exact ⟨⟨a1, b1, (List.pairwise_cons.1 (increasing_of_assert h2)).2, increasing_of_assert h5,
      a2, b2⟩, rfl, rfl, rfl⟩

/-! ## Energy transfers -/

theorem drawn_next (g k i : ℕ) : drawn (Rng.next^[2 * k] g) i = drawn g (i + k) := by
  unfold drawn
  rw [← Function.iterate_add_apply]
  congr 3
  ring

theorem betaLoop_cases {s : ThermalScattering} {P : Partition} {row : ℕ} {t : ℝ} {c : Curve}
    (h : Row P row t c.n c.f c.v) (ht : 0 < t) {eS e : ℝ}
    (hs : c.Sound (allLost eS t) s.betaCutoff) : ∀ (n : ℕ) {p : Particle} (_ : Rng.Valid p.rng),
    (∃ k b, k < n ∧ c.At (allLost eS t) s.betaCutoff (drawn p.rng k) b ∧ allLost e t ≤ b ∧
      (∀ j < k, ∃ b', c.At (allLost eS t) s.betaCutoff (drawn p.rng j) b' ∧ b' < allLost e t) ∧
      s.betaLoop P row eS e t n p = .ok (b, { p with rng := Rng.next^[2 * (k + 1)] p.rng })) ∨
    ((∀ j < n, ∃ b', c.At (allLost eS t) s.betaCutoff (drawn p.rng j) b' ∧ b' < allLost e t) ∧
      s.betaLoop P row eS e t n p = .error .runtimeError)
  | 0, p, _ => Or.inr ⟨fun j hj => absurd hj (by omega), rfl⟩
  | n + 1, p, hr => by
    have hkt : 0 < boltzmann * t := mul_pos boltzmann_pos ht
    have hu0 : 0 < p.sample.1 := Rng.canonical_pos hr
    have hu1 : p.sample.1 < 1 := Rng.canonical_lt_one hr
    obtain ⟨b, hb⟩ := OnCurve.exists_value (n := c.n)
      (K := knot c.n c.f c.v (allLost eS t) s.betaCutoff) (F := p.sample.1) hu0.le
      (by rw [knot_last]; exact hu1)
    have hinv := inverseCdf_eq h hs hb
    have hd0 : drawn p.rng 0 = p.sample.1 := rfl
    have hloop : s.betaLoop P row eS e t (n + 1) p =
        if allLost e t ≤ b then .ok (b, p.sample.2)
        else s.betaLoop P row eS e t n p.sample.2 := by
      unfold allLost at hinv ⊢
      rw [ThermalScattering.betaLoop]
      simp only [bind, Except.bind]
      rw [if_neg hkt.ne', hinv]
    rw [hloop]
    by_cases hle : allLost e t ≤ b
    · rw [if_pos hle]
      exact Or.inl ⟨0, b, by omega, hb, hle, fun j hj => absurd hj (by omega), rfl⟩
    · rw [if_neg hle]
      have hsh : ∀ i, drawn p.sample.2.rng i = drawn p.rng (i + 1) := fun i => drawn_next p.rng 1 i
      rcases betaLoop_cases h ht hs n (p := p.sample.2) (Rng.valid_canonical hr) with
        ⟨k, b', h1, h2, h3, h4, h5⟩ | ⟨h1, h2⟩
      · refine Or.inl ⟨k + 1, b', by omega, by rw [← hsh]; exact h2, h3, ?_, ?_⟩
        · intro j hj
          cases j with
          | zero => exact ⟨b, hb, not_le.1 hle⟩
          | succ j =>
            rw [← hsh]
            exact h4 j (by omega)
        · rw [h5]
          congr 2
      · refine Or.inr ⟨?_, h2⟩
        intro j hj
        cases j with
        | zero => exact ⟨b, hb, not_le.1 hle⟩
        | succ j =>
          rw [← hsh]
          exact h1 j (by omega)

theorem allLost_mono {a b t : ℝ} (ht : 0 < t) (h : a ≤ b) : allLost b t ≤ allLost a t := by
  unfold allLost
  exact (div_le_div_iff_of_pos_right (mul_pos boltzmann_pos ht)).2 (by linarith)

theorem Curve_at_bounds {c : Curve} {lo hi F a : ℝ} (hs : c.Sound lo hi) (h : c.At lo hi F a) :
    lo ≤ a ∧ a < hi ∧ 0 ≤ F ∧ F < 1 := by
  obtain ⟨k, hk, a1, a2, a3⟩ := h
  obtain ⟨b1, b2⟩ := OnCurve.bounds hs hk a1 a2 a3
  have c1 := knots_le hs (Nat.zero_le k) (by omega)
  have c2 := knots_le hs (show k + 1 ≤ c.n + 1 by omega) le_rfl
  rw [knot_last] at c2
  have e0 : knot c.n c.f c.v lo hi 0 = (0, lo) := rfl
  rw [e0] at c1
  exact ⟨c1.2.trans b1, b2.trans_le c2.2, c1.1.trans a1, a2.trans_le c2.1⟩

/-- Sampling an energy transfer. -/
theorem sampleBeta_cases {s : ThermalScattering} {t : ℝ} {L M : List (ℝ × Curve)}
    (h : Holding s t L M) (ht : 0 < t) {e w : ℝ} {x y : ℝ × Curve} (hn : Neighbours L e w x y)
    (hx : x.2.Sound (allLost x.1 t) s.betaCutoff) (hy : y.2.Sound (allLost y.1 t) s.betaCutoff)
    {p : Particle} (hr : Rng.Valid p.rng) :
    (∃ k b, EnergyTransfer w x y e t s.betaCutoff (drawn p.rng) k b ∧
      s.sampleBeta p e t = .ok (b, { p with rng := Rng.next^[2 * (k + 2)] p.rng })) ∨
    (NoTransfer w y e t s.betaCutoff (drawn p.rng) ∧
      s.sampleBeta p e t = .error .runtimeError) := by
  have hu0 : 0 < p.sample.1 := Rng.canonical_pos hr
  have hu1 : p.sample.1 < 1 := Rng.canonical_lt_one hr
  have hd0 : drawn p.rng 0 = p.sample.1 := rfl
  have hsh : ∀ i, drawn p.sample.2.rng i = drawn p.rng (i + 1) := fun i => drawn_next p.rng 1 i
  have red : ∀ {g : ℕ} {z : ℝ × Curve}, L[g]? = some z →
      s.betaIndex e p.sample.1 = .ok g → ∃ P row, Row P row t z.2.n z.2.f z.2.v ∧
        s.sampleBeta p e t = s.betaLoop P row z.1 e t betaResampleLimit p.sample.2 := by
    intro g z hz hi
    obtain ⟨k, i, P, k1, k2, k3⟩ := h.energy (x := z.1) (c := z.2) hz
    refine ⟨P, i, k3, ?_⟩
    have hg : s.es[g]? = some z.1 := by rw [h.es, List.getElem?_map, hz]; rfl
    unfold ThermalScattering.sampleBeta
    simp only [hi, bind, Except.bind, vecAt_eq_ok hg, k1, vecAt_eq_ok k2]
  have up : ∀ {g : ℕ}, L[g]? = some y → s.betaIndex e p.sample.1 = .ok g → p.sample.1 < w →
      (∃ k b, EnergyTransfer w x y e t s.betaCutoff (drawn p.rng) k b ∧
        s.sampleBeta p e t = .ok (b, { p with rng := Rng.next^[2 * (k + 2)] p.rng })) ∨
      (NoTransfer w y e t s.betaCutoff (drawn p.rng) ∧
        s.sampleBeta p e t = .error .runtimeError) := by
    intro g hg hi hw
    obtain ⟨P, row, hrow, hred⟩ := red hg hi
    rw [hred]
    rcases betaLoop_cases hrow ht (e := e) hy betaResampleLimit (p := p.sample.2)
      (Rng.valid_canonical hr) with ⟨k, b, h1, h2, h3, h4, h5⟩ | ⟨h1, h2⟩
    · refine Or.inl ⟨k, b, Or.inr ⟨hw, h1, by rw [← hsh]; exact h2, h3, ?_⟩, ?_⟩
      · intro j hj
        rw [← hsh]
        exact h4 j hj
      · rw [h5]
        congr 2
    · exact Or.inr ⟨⟨hw, fun j hj => by rw [← hsh]; exact h1 j hj⟩, h2⟩
  cases hn with
  | @between i _ _ hi hj h1 h2 =>
    have hx' : s.es[i]? = some x.1 := by rw [h.es, List.getElem?_map, hi]; rfl
    have hy' : s.es[i + 1]? = some y.1 := by rw [h.es, List.getElem?_map, hj]; rfl
    have hidx := betaIndex_between h.esUp hx' hy' h1 h2 p.sample.1
    by_cases hw : weight x.1 y.1 e ≤ p.sample.1
    · rw [if_pos hw] at hidx
      obtain ⟨P, row, hrow, hred⟩ := red hi hidx
      left
      rw [hred]
      obtain ⟨b, hb, hl⟩ := C61_energy_first_round (s := s) hrow ht h1 hx (p := p.sample.2)
        (Rng.valid_canonical hr) 9
      exact ⟨0, b, Or.inl ⟨hw, rfl, hb⟩, hl⟩
    · rw [if_neg hw] at hidx
      exact up hj hidx (not_le.1 hw)
  | below h0 h1 =>
    have hx' : s.es[0]? = some x.1 := by rw [h.es, List.getElem?_map, h0]; rfl
    exact up h0 (C60_below h.esUp hx' h1 hu1) hu1

/-! ## Momentum transfers -/

theorem Curve_at_exists {c : Curve} {lo hi a : ℝ} (hs : c.Sound lo hi) (h1 : lo ≤ a) (h2 : a < hi) :
    ∃ F, c.At lo hi F a := by
  obtain ⟨k, hk, b1, b2⟩ := exists_interval (n := c.n)
    (g := fun k => (knot c.n c.f c.v lo hi k).2) (x := a) h1 (by simp only [knot_last]; exact h2)
  obtain ⟨i1, i2⟩ := hs k hk
  set A := knot c.n c.f c.v lo hi k
  set B := knot c.n c.f c.v lo hi (k + 1)
  have hF := (line_swap i1 i2 (F := line A.swap B.swap a) (x := a)).2 rfl
  have hs1 : A.swap.1 < B.swap.1 := i2
  have hs2 : A.swap.2 < B.swap.2 := i1
  refine ⟨line A.swap B.swap a, k, hk, ?_, ?_, hF⟩
  · have e1 := line_left hs1
    rcases b1.eq_or_lt with b1 | b1
    · have : a = A.swap.1 := b1.symm
      rw [this, e1]
      exact le_rfl
    · have := line_lt hs1 hs2 (F := A.swap.1) (G := a) b1
      rw [e1] at this
      exact this.le
  · have := line_lt hs1 hs2 (F := a) (G := B.swap.1) b2
    rw [line_right hs1] at this
    exact this

theorem sgn_eq (b : ℝ) : ThermalScattering.sgn b = Real.sign b := by
  unfold ThermalScattering.sgn
  rcases lt_trichotomy b 0 with h | rfl | h
  · rw [Real.sign_of_neg h, if_neg (by linarith), if_pos h]; norm_num
  · simp
  · rw [Real.sign_of_pos h, if_pos h, if_neg (by linarith)]; norm_num

theorem alphaBounds {s : ThermalScattering} {e t b : ℝ} (ht : 0 < t) (hA : 0 < s.awr) (he : 0 ≤ e)
    (hb : 0 ≤ e + b * boltzmann * t) : s.alphaMin b e t = .ok (leastMomentum s.awr e t b) ∧
      s.alphaMax b e t = .ok (mostMomentum s.awr e t b) := by
  have hc : ¬ (e < 0 ∨ e + b * boltzmann * t < 0 ∨ s.awr * boltzmann * t = 0) := by
    have : 0 < s.awr * boltzmann * t := mul_pos (mul_pos hA boltzmann_pos) ht
    rintro (h | h | h) <;> linarith
  constructor
  · rw [ThermalScattering.alphaMin, if_neg hc]; rfl
  · rw [ThermalScattering.alphaMax, if_neg hc]; rfl

/-- The tabulated energy transfer that is used. -/
theorem alphaIndex_cases {s : ThermalScattering} {t : ℝ} {L M : List (ℝ × Curve)}
    (h : Holding s t L M) {e b u : ℝ}
    (hS : Serves M s.betaCutoff s.alphaCutoff s.awr e t) (hb1 : allLost e t ≤ b)
    (hb2 : b < s.betaCutoff) (hu0 : 0 ≤ u) (hu1 : u < 1) :
    ∃ g x, M[g]? = some x ∧ Chosen M s.betaCutoff e t b u x ∧ s.alphaIndex b e t u = .ok g ∧
      (0 < b → x.1 < s.betaCutoff) ∧ (b < 0 → x.1 < e / (boltzmann * t)) ∧ 0 < x.1 := by
  have hpos : ∀ {g : ℕ} {x : ℝ × Curve}, M[g]? = some x → s.betas[g]? = some x.1 := by
    intro g x hx
    rw [h.betas, List.getElem?_map, hx]
    rfl
  have hup := (List.pairwise_cons.1 h.betasUp).2
  have h0 : ∀ x ∈ M, 0 < x.1 := fun x hx =>
    (List.pairwise_cons.1 h.betasUp).1 x.1 (by rw [h.betas]; exact List.mem_map_of_mem hx)
  obtain ⟨x₀, f1, f2, f3⟩ := hS.first
  have hcut : 0 < s.betaCutoff := (h0 x₀ (List.mem_of_getElem? f1)).trans f2
  have habs : b < 0 → |b| ≤ e / (boltzmann * t) := by
    intro hb
    rw [abs_of_neg hb]
    have : allLost e t = -(e / (boltzmann * t)) := by unfold allLost; rw [neg_div]
    linarith
  have strict : ∀ x ∈ M, x.1 ≤ e / (boltzmann * t) → x.1 < e / (boltzmann * t) :=
    fun x hx hle => lt_of_le_of_ne hle (hS.off x hx)
  have open' : ∀ {x : ℝ × Curve}, x ∈ M → ¬ Barred s.betaCutoff e t b x.1 →
      (0 < b → x.1 < s.betaCutoff) ∧ (b < 0 → x.1 < e / (boltzmann * t)) := by
    intro x hx hnb
    unfold Barred at hnb
    push Not at hnb
    exact ⟨hnb.1, fun hb => strict x hx (hnb.2 hb)⟩
  obtain ⟨y, hy, y1, y2⟩ := hS.last
  obtain ⟨gy, hgy⟩ := List.mem_iff_getElem?.1 hy
  have hex : ∃ g : ℕ, ∃ z : ℝ × Curve, M[g]? = some z ∧ |b| < z.1 := by
    refine ⟨gy, y, hgy, ?_⟩
    rcases lt_trichotomy b 0 with hb | rfl | hb
    · exact (habs hb).trans_lt y2
    · rw [abs_zero]; exact h0 y hy
    · rw [abs_of_pos hb]; linarith
  obtain ⟨z, hz, hbz⟩ := Nat.find_spec hex
  have hmin := fun g (hg : g < Nat.find hex) => Nat.find_min hex hg
  have hzm := List.mem_of_getElem? hz
  generalize Nat.find hex = g at hz hmin
  cases g with
  | zero =>
    have : z = x₀ := by rw [f1] at hz; cases hz; rfl
    subst this
    have hnb : ¬ Barred s.betaCutoff e t b z.1 := by
      rintro (⟨_, h⟩ | ⟨_, h⟩) <;> linarith
    obtain ⟨o1, o2⟩ := open' hzm hnb
    exact ⟨0, z, hz, .lowest hz hbz hnb, C46_lowest_partial (List.pairwise_cons.1 h.betasUp).2 (hpos hz) hbz hnb hu1, o1, o2, h0 z hzm⟩
  | succ i =>
    have hxi : ∃ x, M[i]? = some x :=
      ⟨_, List.getElem?_eq_getElem (by have := lt_of_getElem? hz; omega)⟩
    obtain ⟨x, hx⟩ := hxi
    have hxm := List.mem_of_getElem? hx
    have hxb : x.1 ≤ |b| := by
      by_contra hc
      exact hmin i (by omega) ⟨x, hx, not_le.1 hc⟩
    have hlow : (0 < b → x.1 < s.betaCutoff) ∧ (b < 0 → x.1 < e / (boltzmann * t)) := by
      refine ⟨fun hb => ?_, fun hb => strict x hxm (hxb.trans (habs hb))⟩
      rw [abs_of_pos hb] at hxb
      linarith
    by_cases hf : Barred s.betaCutoff e t b z.1
    · exact ⟨i, x, hx, .lower hx hz hxb hbz (Or.inl hf),
        C46_forced_partial hup (hpos hx) (hpos hz) hxb hbz hf hu0, hlow.1, hlow.2, h0 x hxm⟩
    · have hidx := alphaIndex_between (s := s) (t := t) (e := e) hup (hpos hx) (hpos hz) hxb hbz hf u
      by_cases hu : |b| - x.1 / (z.1 - x.1) ≤ u
      · rw [if_pos hu] at hidx
        exact ⟨i, x, hx, .lower hx hz hxb hbz (Or.inr hu), hidx, hlow.1, hlow.2, h0 x hxm⟩
      · rw [if_neg hu] at hidx
        obtain ⟨o1, o2⟩ := open' hzm hf
        exact ⟨i + 1, z, hz, .upper hx hz hxb hbz hf (not_le.1 hu), hidx, o1, o2, h0 z hzm⟩

theorem mostMomentum_mono {A e t b c : ℝ} (hA : 0 < A) (ht : 0 < t) (h : b ≤ c) :
    mostMomentum A e t b ≤ mostMomentum A e t c := by
  have hK : 0 < A * boltzmann * t := mul_pos (mul_pos hA boltzmann_pos) ht
  unfold mostMomentum
  rw [div_le_div_iff_of_pos_right hK]
  have h1 : e + b * boltzmann * t ≤ e + c * boltzmann * t := by
    have := mul_le_mul_of_nonneg_right h (mul_pos boltzmann_pos ht).le
    nlinarith
  have h2 := Real.sqrt_le_sqrt h1
  have h3 := Real.sqrt_nonneg e
  have h4 := Real.sqrt_nonneg (e + b * boltzmann * t)
  exact pow_le_pow_left₀ (by linarith) (by linarith) 2

/-- Sampling a momentum transfer. -/
theorem sampleAlpha_cases {s : ThermalScattering} {t : ℝ} {L M : List (ℝ × Curve)}
    (h : Holding s t L M) (ht : 0 < t) (hA : 0 < s.awr) {e b : ℝ} (he : 0 < e)
    (hS : Serves M s.betaCutoff s.alphaCutoff s.awr e t) (hb1 : allLost e t ≤ b)
    (hb2 : b < s.betaCutoff) {p : Particle} (hr : Rng.Valid p.rng) :
    ∃ α, MomentumTransfer M s.betaCutoff s.alphaCutoff s.awr e t b (drawn p.rng 0) (drawn p.rng 1) α ∧
      s.sampleAlpha p b e t = .ok (α, { p with rng := Rng.next^[4] p.rng }) := by
  have hkt : 0 < boltzmann * t := mul_pos boltzmann_pos ht
  have hK : 0 < s.awr * boltzmann * t := mul_pos (mul_pos hA boltzmann_pos) ht
  have hu0 : 0 < p.sample.1 := Rng.canonical_pos hr
  have hu1 : p.sample.1 < 1 := Rng.canonical_lt_one hr
  obtain ⟨g, x, hx, hch, hidx, o1, o2, hx0⟩ := alphaIndex_cases h hS hb1 hb2 hu0.le hu1
  obtain ⟨k, i, P, k1, k2, k3⟩ := h.momentum (x := x.1) (c := x.2) hx
  have hxm := List.mem_of_getElem? hx
  have hcut : 0 < s.betaCutoff := by
    obtain ⟨x₀, f1, f2, f3⟩ := hS.first
    have := (List.pairwise_cons.1 h.betasUp).1 x₀.1
      (by rw [h.betas]; exact List.mem_map_of_mem (List.mem_of_getElem? f1))
    linarith
  set bS := Real.sign b * x.1 with hbS
  have hpos : 0 < e + bS * boltzmann * t := by
    rcases lt_trichotomy b 0 with hb | hb | hb
    · rw [hbS, Real.sign_of_neg hb]
      have := o2 hb
      rw [lt_div_iff₀ hkt] at this
      linarith
    · rw [hbS, hb, Real.sign_zero]
      linarith
    · rw [hbS, Real.sign_of_pos hb]
      have := mul_pos hx0 hkt
      linarith
  have hle : bS ≤ s.betaCutoff := by
    rcases lt_trichotomy b 0 with hb | hb | hb
    · rw [hbS, Real.sign_of_neg hb]; linarith
    · rw [hbS, hb, Real.sign_zero]; linarith
    · rw [hbS, Real.sign_of_pos hb]; linarith [o1 hb]
  have hpb : 0 ≤ e + b * boltzmann * t := by
    unfold allLost at hb1
    rw [div_le_iff₀ hkt] at hb1
    linarith
  obtain ⟨m1, m2⟩ := alphaBounds (s := s) ht hA he.le hpos.le
  obtain ⟨n1, n2⟩ := alphaBounds (s := s) ht hA he.le hpb
  have hmost : mostMomentum s.awr e t bS < s.alphaCutoff :=
    (mostMomentum_mono hA ht hle).trans_lt hS.momentum
  have hlt : leastMomentum s.awr e t bS < mostMomentum s.awr e t bS := by
    unfold leastMomentum mostMomentum
    rw [div_lt_div_iff_of_pos_right hK]
    have q1 := Real.sqrt_pos.2 he
    have q2 := Real.sqrt_pos.2 hpos
    nlinarith [mul_pos q1 q2]
  have hleast : 0 ≤ leastMomentum s.awr e t bS := div_nonneg (sq_nonneg _) hK.le
  obtain ⟨fMin, hmin⟩ := Curve_at_exists (hS.sound x hxm) hleast (hlt.trans hmost)
  obtain ⟨fMax, hmax⟩ := Curve_at_exists (hS.sound x hxm) (hleast.trans hlt.le) hmost
  obtain ⟨a, _, _, ha, hl⟩ := C61_momentum_first_round k3 (hS.sound x hxm) hmin hmax hlt n1 n2
    (p := p.sample.2) (Rng.valid_canonical hr) 9
  refine ⟨_, ⟨x, fMin, fMax, a, hch, hmin, hmax, ha, rfl⟩, ?_⟩
  have hg : s.betas[g]? = some x.1 := by rw [h.betas, List.getElem?_map, hx]; rfl
  unfold ThermalScattering.sampleAlpha
  simp only [hidx, bind, Except.bind, vecAt_eq_ok hg, sgn_eq, ← hbS, m1, m2, k1, vecAt_eq_ok k2]
  rw [if_neg (not_not.2 hmost)]
  simp only [findCdf_eq k3 (hS.sound x hxm) hmin, findCdf_eq k3 (hS.sound x hxm) hmax]
  exact hl

/-! ## The claims -/

section claims

variable {maj xsT xsS xsE : DataSet} {bp ap : List Partition} {bc ac awr : ℝ}
  {s : ThermalScattering} (hc : ThermalScattering.create maj xsT xsS xsE bp ap bc ac awr = .ok s)
  {t : ℝ} {L M : List (ℝ × Curve)} (hL : Tabulates bp t L) (hM : Tabulates ap t M) (ht : 0 < t)

include hc hL hM ht

/-- **C84** Energy transfers are sampled from the tables as specified: the code returns the transfer
that the random numbers select, and gives up exactly when ten of them in a row select one that the
neutron cannot afford. -/
theorem C84_energy_transfer {e w : ℝ} {x y : ℝ × Curve} (hn : Neighbours L e w x y)
    (hx : x.2.Sound (allLost x.1 t) bc) (hy : y.2.Sound (allLost y.1 t) bc)
    {p : Particle} (hr : Rng.Valid p.rng) :
    (∃ k b, EnergyTransfer w x y e t bc (drawn p.rng) k b ∧
      s.sampleBeta p e t = .ok (b, { p with rng := Rng.next^[2 * (k + 2)] p.rng })) ∨
    (NoTransfer w y e t bc (drawn p.rng) ∧ s.sampleBeta p e t = .error .runtimeError) := by
  obtain ⟨h, rfl, rfl, rfl⟩ := holding hc hL hM
  exact sampleBeta_cases h ht hn hx hy hr

/-- **C84** When the tables serve the neutron, a momentum transfer is sampled as specified from two
random numbers, whatever energy transfer below the cutoff it can afford. -/
theorem C84_momentum_transfer (hA : 0 < awr) {e b : ℝ} (he : 0 < e) (hS : Serves M bc ac awr e t)
    (hb1 : allLost e t ≤ b) (hb2 : b < bc) {p : Particle} (hr : Rng.Valid p.rng) :
    ∃ α, MomentumTransfer M bc ac awr e t b (drawn p.rng 0) (drawn p.rng 1) α ∧
      s.sampleAlpha p b e t = .ok (α, { p with rng := Rng.next^[4] p.rng }) := by
  obtain ⟨h, rfl, rfl, rfl⟩ := holding hc hL hM
  exact sampleAlpha_cases h ht hA he hS hb1 hb2 hr

/-- **C84** The outcome of thermal scattering.  It fails only if ten energy transfers in a row cannot
be afforded, or if the neutron would come to rest exactly.  Otherwise the neutron leaves with the
energy and the scattering angle that belong to the energy and momentum transfers selected by the
random numbers, and with nothing else changed but the state of the generator. -/
theorem C84_outcome_partial (hA : 0 < awr) {e w : ℝ} {x y : ℝ × Curve} (he : 0 < e)
    (hn : Neighbours L e w x y) (hx : x.2.Sound (allLost x.1 t) bc)
    (hy : y.2.Sound (allLost y.1 t) bc) (hS : Serves M bc ac awr e t) {p : Particle}
    (hr : Rng.Valid p.rng) (hu : UnitVec p.direction) (hpe : p.energy = .continuous e)
    (hpt : p.temperatureAt = .ok t) :
    (NoTransfer w y e t bc (drawn p.rng) ∧ s.scatter p = .error .runtimeError) ∨
    ∃ k b α, EnergyTransfer w x y e t bc (drawn p.rng) k b ∧
      MomentumTransfer M bc ac awr e t b (drawn p.rng (k + 2)) (drawn p.rng (k + 3)) α ∧
      ((b = allLost e t ∧ s.scatter p = .error .nan) ∨
        ∃ e' mu d, 0 < e' ∧ b = (e' - e) / (boltzmann * t) ∧
          α = (e + e' - 2 * mu * Real.sqrt (e * e')) / (awr * boltzmann * t) ∧
          UnitVec d ∧ cosAngle p.direction d = mu ∧
          Direction.rotated p.direction mu (2 * Real.pi * drawn p.rng (k + 4)) = .ok d ∧
          s.scatter p = .ok { p with energy := .continuous e', direction := d,
                                     rng := Rng.next^[2 * (k + 5)] p.rng }) := by
  obtain ⟨h, rfl, rfl, rfl⟩ := holding hc hL hM
  have hkt : 0 < boltzmann * t := mul_pos boltzmann_pos ht
  have hK : 0 < s.awr * boltzmann * t := mul_pos (mul_pos hA boltzmann_pos) ht
  rcases sampleBeta_cases h ht hn hx hy hr with ⟨k, b, h1, h2⟩ | ⟨h1, h2⟩
  · right
    have hb : allLost e t ≤ b ∧ b < s.betaCutoff := by
      rcases h1 with ⟨hw, _, h3⟩ | ⟨_, _, h3, h4, _⟩
      · obtain ⟨a1, a2, _⟩ := Curve_at_bounds hx h3
        refine ⟨(allLost_mono ht ?_).trans a1, a2⟩
        cases hn with
        | between _ _ h5 _ => exact h5
        | below h5 h6 =>
          exfalso
          exact absurd hw (not_le.2 (Rng.canonical_lt_one hr))
      · exact ⟨h4, (Curve_at_bounds hy h3).2.1⟩
    set q : Particle := { p with rng := Rng.next^[2 * (k + 2)] p.rng } with hq
    have hqr : Rng.Valid q.rng := Rng.valid_iterate hr _
    obtain ⟨α, h3, h4⟩ := sampleAlpha_cases h ht hA he hS hb.1 hb.2 hqr
    have d0 : drawn q.rng 0 = drawn p.rng (k + 2) := by
      rw [show q.rng = Rng.next^[2 * (k + 2)] p.rng from rfl, drawn_next, zero_add]
    have d1 : drawn q.rng 1 = drawn p.rng (k + 3) := by
      rw [show q.rng = Rng.next^[2 * (k + 2)] p.rng from rfl, drawn_next]
      congr 1
      omega
    rw [d0, d1] at h3
    refine ⟨k, b, α, h1, h3, ?_⟩
    have hq4 : Rng.next^[4] q.rng = Rng.next^[2 * (k + 4)] p.rng := by
      rw [show q.rng = Rng.next^[2 * (k + 2)] p.rng from rfl, ← Function.iterate_add_apply]
      congr 1
      omega
    have hout : s.sampleOutgoing p = (s.outgoingCosine e t b α).bind fun mu =>
        .ok (mu, ThermalScattering.outgoingEnergy e t b,
          { p with rng := Rng.next^[2 * (k + 4)] p.rng }) := by
      unfold ThermalScattering.sampleOutgoing
      have hge : p.energy.getContinuous = .ok e := by rw [hpe]; rfl
      simp only [hge, hpt, bind, Except.bind, h2, h4, hq4]
      rfl
    by_cases hz : b = allLost e t
    · left
      refine ⟨hz, ?_⟩
      have : s.outgoingCosine e t b α = .error .nan := by
        unfold ThermalScattering.outgoingCosine ThermalScattering.outgoingEnergy
        rw [if_pos]
        have : e + b * boltzmann * t = 0 := by
          rw [hz, allLost, mul_assoc, div_mul_cancel₀ _ hkt.ne']
          ring
        rw [this, mul_zero]
      unfold ThermalScattering.scatter
      rw [hout, this]
      rfl
    · right
      have hlt : allLost e t < b := lt_of_le_of_ne hb.1 (Ne.symm hz)
      have he' : 0 < ThermalScattering.outgoingEnergy e t b := by
        unfold ThermalScattering.outgoingEnergy
        unfold allLost at hlt
        rw [div_lt_iff₀ hkt] at hlt
        linarith
      have hcos : ∃ mu, s.outgoingCosine e t b α = .ok mu := by
        unfold ThermalScattering.outgoingCosine
        rw [if_neg (not_le.2 (mul_pos he he'))]
        exact ⟨_, rfl⟩
      obtain ⟨mu, hmu⟩ := hcos
      rw [hmu] at hout
      have hout' : s.sampleOutgoing p = .ok (mu, ThermalScattering.outgoingEnergy e t b,
          { p with rng := Rng.next^[2 * (k + 4)] p.rng }) := hout
      obtain ⟨_, c1, c2, _⟩ := C45_outgoing_state hr hpe hpt ht hA hout'
      obtain ⟨β, q', α', t1, t2, t3, t4⟩ := C45_transfers hpe hpt ht hA hout'
      have e3 : (b, q) = (β, q') := by rw [h2] at t1; exact Except.ok.inj t1
      obtain ⟨rfl, rfl⟩ := Prod.mk.inj e3
      have e4 : α = α' := by
        rw [h4] at t2
        exact (Prod.mk.inj (Except.ok.inj t2)).1
      subst e4
      obtain ⟨d, r1, r2, r3⟩ := C03_rotated_direction p.direction mu
        (2 * Real.pi * drawn p.rng (k + 4)) hu c1 c2
      refine ⟨_, mu, d, he', t3, t4, r2, r3, r1, ?_⟩
      unfold ThermalScattering.scatter
      rw [hout']
      simp only [bind, Except.bind, Particle.scatter, Particle.sample]
      have e1 : (Rng.canonical (Rng.next^[2 * (k + 4)] p.rng)).1 = drawn p.rng (k + 4) := rfl
      have e2 : (Rng.canonical (Rng.next^[2 * (k + 4)] p.rng)).2 = Rng.next^[2 * (k + 5)] p.rng := by
        rw [show 2 * (k + 5) = 2 + 2 * (k + 4) by ring, Function.iterate_add_apply]
        rfl
      simp only [e1, e2, r1]
  · left
    refine ⟨h1, ?_⟩
    unfold ThermalScattering.scatter ThermalScattering.sampleOutgoing
    simp only [hpe, hpt, Energy.getContinuous, bind, Except.bind, h2]

end claims

/-! ## Probabilities -/

open MeasureTheory

theorem Neighbours_weight {L : List (ℝ × Curve)} {e w : ℝ} {x y : ℝ × Curve}
    (h : Neighbours L e w x y) : 0 ≤ w ∧ w ≤ 1 := by
  cases h with
  | between _ _ h1 h2 => exact ⟨weight_nonneg h1 h2, (weight_lt_one h1 h2).le⟩
  | below _ _ => exact ⟨zero_le_one, le_rfl⟩

theorem Curve_set_lt {c : Curve} {lo hi q z : ℝ} (hs : c.Sound lo hi) (h : c.At lo hi q z) :
    {F | ∃ b, c.At lo hi F b ∧ b < z} = Set.Ico 0 q := by
  obtain ⟨_, _, _, hq1⟩ := Curve_at_bounds hs h
  ext F
  simp only [Set.mem_ofPred_eq, Set.mem_Ico]
  constructor
  · rintro ⟨b, h1, h2⟩
    exact ⟨(Curve_at_bounds hs h1).2.2.1, (OnCurve.lt_iff hs h1 h).1 h2⟩
  · rintro ⟨h1, h2⟩
    obtain ⟨b, hb⟩ := OnCurve.exists_value (n := c.n) (K := knot c.n c.f c.v lo hi) (F := F) h1
      (by rw [knot_last]; exact h2.trans hq1)
    exact ⟨b, hb, OnCurve.lt hs hb h h2⟩

theorem Curve_at_le {c : Curve} {lo hi F G a b : ℝ} (hs : c.Sound lo hi) (h : c.At lo hi F a)
    (h' : c.At lo hi G b) : a ≤ b ↔ F ≤ G := by
  rw [← not_lt, ← not_lt, OnCurve.lt_iff hs h' h]

/-- The numbers that give a value from `m` to `z`. -/
theorem Curve_set_mid {c : Curve} {lo hi q m z Fz : ℝ} (hs : c.Sound lo hi) (h : c.At lo hi q m)
    (hmz : m ≤ z) (hz : c.Cumulative lo hi z Fz) :
    MeasurableSet {F | ∃ b, c.At lo hi F b ∧ m ≤ b ∧ b ≤ z} ∧
      prob {F | ∃ b, c.At lo hi F b ∧ m ≤ b ∧ b ≤ z} = ENNReal.ofReal (Fz - q) := by
  obtain ⟨b1, b2, b3, b4⟩ := Curve_at_bounds hs h
  have hval : ∀ F, 0 ≤ F → F < 1 → ∃ b, c.At lo hi F b := fun F h1 h2 =>
    OnCurve.exists_value (n := c.n) (K := knot c.n c.f c.v lo hi) (F := F) h1
      (by rw [knot_last]; exact h2)
  rcases hz with ⟨h1, _⟩ | h1 | ⟨h1, rfl⟩
  · exact absurd (b1.trans hmz) (not_le.2 h1)
  · obtain ⟨_, _, _, c4⟩ := Curve_at_bounds hs h1
    have hset : {F | ∃ b, c.At lo hi F b ∧ m ≤ b ∧ b ≤ z} = Set.Icc q Fz := by
      ext F
      simp only [Set.mem_ofPred_eq, Set.mem_Icc]
      constructor
      · rintro ⟨b, a1, a2, a3⟩
        exact ⟨(Curve_at_le hs h a1).1 a2, (Curve_at_le hs a1 h1).1 a3⟩
      · rintro ⟨a1, a2⟩
        obtain ⟨b, hb⟩ := hval F (b3.trans a1) (a2.trans_lt c4)
        exact ⟨b, hb, (Curve_at_le hs h hb).2 a1, (Curve_at_le hs hb h1).2 a2⟩
    rw [hset]
    refine ⟨measurableSet_Icc, ?_⟩
    have : Set.Icc q Fz ∩ Set.Ico 0 1 = Set.Icc q Fz := by
      apply Set.inter_eq_left.2
      intro F hF
      exact ⟨b3.trans hF.1, hF.2.trans_lt c4⟩
    rw [prob, this, Real.volume_Icc]
  · have hset : {F | ∃ b, c.At lo hi F b ∧ m ≤ b ∧ b ≤ z} = Set.Ico q 1 := by
      ext F
      simp only [Set.mem_ofPred_eq, Set.mem_Ico]
      constructor
      · rintro ⟨b, a1, a2, a3⟩
        exact ⟨(Curve_at_le hs h a1).1 a2, (Curve_at_bounds hs a1).2.2.2⟩
      · rintro ⟨a1, a2⟩
        obtain ⟨b, hb⟩ := hval F (b3.trans a1) a2
        exact ⟨b, hb, (Curve_at_le hs h hb).2 a1, ((Curve_at_bounds hs hb).2.1.trans_le h1).le⟩
    rw [hset]
    refine ⟨measurableSet_Ico, ?_⟩
    have : Set.Ico q 1 ∩ Set.Ico 0 1 = Set.Ico q 1 := by
      apply Set.inter_eq_left.2
      intro F hF
      exact ⟨b3.trans hF.1, hF.2⟩
    rw [prob, this, Real.volume_Ico]

/-- The numbers that give a value of at most `z`. -/
theorem Curve_set_le {c : Curve} {lo hi z Fz : ℝ} (hs : c.Sound lo hi)
    (hz : c.Cumulative lo hi z Fz) :
    MeasurableSet {F | ∃ b, c.At lo hi F b ∧ b ≤ z} ∧
      prob {F | ∃ b, c.At lo hi F b ∧ b ≤ z} = ENNReal.ofReal Fz ∧ 0 ≤ Fz := by
  by_cases hlo : z < lo
  · have hF : Fz = 0 := by
      rcases hz with ⟨_, h⟩ | h | ⟨h, _⟩
      · exact h
      · exact absurd (Curve_at_bounds hs h).1 (not_le.2 hlo)
      · have h1 := (knots_le hs (Nat.zero_le (c.n + 1)) le_rfl).2
        rw [knot_last] at h1
        have : lo ≤ hi := h1
        linarith
    have hset : {F | ∃ b, c.At lo hi F b ∧ b ≤ z} = ∅ := by
      rw [Set.eq_empty_iff_forall_notMem]
      rintro F ⟨b, h1, h2⟩
      have := (Curve_at_bounds hs h1).1
      linarith
    rw [hset, hF]
    exact ⟨MeasurableSet.empty, by simp [prob], le_rfl⟩
  · have h0 : c.At lo hi 0 lo := by
      obtain ⟨i1, i2⟩ := hs 0 (by omega)
      refine ⟨0, by omega, le_rfl, i1, ?_⟩
      exact (line_left i1).symm
    have hset : {F | ∃ b, c.At lo hi F b ∧ b ≤ z} = {F | ∃ b, c.At lo hi F b ∧ lo ≤ b ∧ b ≤ z} := by
      ext F
      constructor
      · rintro ⟨b, h1, h2⟩
        exact ⟨b, h1, (Curve_at_bounds hs h1).1, h2⟩
      · rintro ⟨b, h1, _, h2⟩
        exact ⟨b, h1, h2⟩
    have := Curve_set_mid hs h0 (not_lt.1 hlo) hz
    rw [sub_zero, ← hset] at this
    refine ⟨this.1, this.2, ?_⟩
    rcases hz with ⟨h, _⟩ | h | ⟨_, rfl⟩
    · exact absurd h hlo
    · exact (Curve_at_bounds hs h).2.2.1
    · exact zero_le_one

/-- The first number chooses between two events about the others. -/
theorem uniforms_choose {w : ℝ} (h0 : 0 ≤ w) (h1 : w ≤ 1) {A B : Set (ℕ → ℝ)} (hA : MeasurableSet A)
    (hB : MeasurableSet B) :
    uniforms {us | (w ≤ us 0 ∧ (fun n => us (n + 1)) ∈ A) ∨ (us 0 < w ∧ (fun n => us (n + 1)) ∈ B)} =
      ENNReal.ofReal (1 - w) * uniforms A + ENNReal.ofReal w * uniforms B := by
  have hshift : Measurable fun us : ℕ → ℝ => fun n => us (n + 1) :=
    measurable_pi_iff.2 fun n => measurable_pi_apply (n + 1)
  have hmeas : MeasurableSet {us : ℕ → ℝ | (w ≤ us 0 ∧ (fun n => us (n + 1)) ∈ A) ∨
      (us 0 < w ∧ (fun n => us (n + 1)) ∈ B)} := by
    refine MeasurableSet.union (MeasurableSet.inter ?_ (hshift hA)) (MeasurableSet.inter ?_ (hshift hB))
    · exact measurableSet_le measurable_const (measurable_pi_apply 0)
    · exact measurableSet_lt (measurable_pi_apply 0) measurable_const
  conv_lhs => rw [← uniforms_cons]
  rw [Measure.map_apply measurable_consSeq hmeas]
  have hpre : consSeq ⁻¹' {us : ℕ → ℝ | (w ≤ us 0 ∧ (fun n => us (n + 1)) ∈ A) ∨
      (us 0 < w ∧ (fun n => us (n + 1)) ∈ B)} = Set.Ici w ×ˢ A ∪ Set.Iio w ×ˢ B := by
    ext ⟨u, us⟩
    rfl
  rw [hpre, measure_union _ (measurableSet_Iio.prod hB), Measure.prod_prod, Measure.prod_prod,
    uniform_apply measurableSet_Ici, uniform_apply measurableSet_Iio]
  · congr 2
    · exact prob_ge h0
    · exact prob_lt h1
  · rw [Set.disjoint_left]
    rintro ⟨u, us⟩ ⟨h2, _⟩ ⟨h3, _⟩
    simp only [Set.mem_Ici, Set.mem_Iio] at h2 h3
    linarith

/-- Up to `n` trials. -/
theorem uniforms_trials {N S : Set ℝ} (hN : MeasurableSet N) (hS : MeasurableSet S)
    (hd : Disjoint N S) (n : ℕ) :
    MeasurableSet {us | ∃ k < n, us ∈ firstAt N S k} ∧
    uniforms {us | ∃ k < n, us ∈ firstAt N S k} = (∑ k ∈ Finset.range n, prob N ^ k) * prob S := by
  have e : {us : ℕ → ℝ | ∃ k < n, us ∈ firstAt N S k} = ⋃ k ∈ Finset.range n, firstAt N S k := by
    ext us; simp
  rw [e]
  refine ⟨Finset.measurableSet_biUnion _ fun k _ => measurableSet_firstAt hN hS k, ?_⟩
  rw [measure_biUnion_finset _ (fun k _ => measurableSet_firstAt hN hS k), Finset.sum_mul]
  · exact Finset.sum_congr rfl fun k _ => uniforms_firstAt hN hS k
  · intro k _ l _ hkl
    rw [Function.onFun, Set.disjoint_left]
    rintro us ⟨h1, h2⟩ ⟨h3, h4⟩
    rcases lt_or_gt_of_ne hkl with h | h
    · exact (Set.disjoint_left.1 hd) (h3 k h) h2
    · exact (Set.disjoint_left.1 hd) (h1 l h) h4

theorem prob_Ico {q : ℝ} (h1 : q ≤ 1) : prob (Set.Ico 0 q) = ENNReal.ofReal q := by
  have : Set.Ico 0 q ∩ Set.Ico 0 1 = Set.Ico (0 : ℝ) q := by
    apply Set.inter_eq_left.2
    intro F hF
    exact ⟨hF.1, hF.2.trans_le h1⟩
  rw [prob, this, Real.volume_Ico, sub_zero]

/-- **C84** The distribution of the energy transfers that are returned, with independent uniform
random numbers: with the weight of the lower neighbour its distribution, with the weight of the upper
its distribution without the part `q` that the neutron cannot afford, in up to ten trials. -/
theorem C84_energy_law {L : List (ℝ × Curve)} {e t cut w q z Fx Fy : ℝ} {x y : ℝ × Curve}
    (hn : Neighbours L e w x y) (hx : x.2.Sound (allLost x.1 t) cut)
    (hy : y.2.Sound (allLost y.1 t) cut) (hq : y.2.At (allLost y.1 t) cut q (allLost e t))
    (hz : allLost e t ≤ z) (hFx : x.2.Cumulative (allLost x.1 t) cut z Fx)
    (hFy : y.2.Cumulative (allLost y.1 t) cut z Fy) :
    uniforms {us | ∃ k b, EnergyTransfer w x y e t cut us k b ∧ b ≤ z} =
      ENNReal.ofReal ((1 - w) * Fx + w * ((∑ k ∈ Finset.range 10, q ^ k) * (Fy - q))) := by
  obtain ⟨w0, w1⟩ := Neighbours_weight hn
  obtain ⟨_, _, q0, q1⟩ := Curve_at_bounds hy hq
  obtain ⟨mA, pA, x0⟩ := Curve_set_le hx hFx
  obtain ⟨mB, pB⟩ := Curve_set_mid hy hq hz hFy
  have hN := Curve_set_lt hy hq
  set A := {F | ∃ b, x.2.At (allLost x.1 t) cut F b ∧ b ≤ z}
  set B := {F | ∃ b, y.2.At (allLost y.1 t) cut F b ∧ allLost e t ≤ b ∧ b ≤ z}
  set N := {F | ∃ b, y.2.At (allLost y.1 t) cut F b ∧ b < allLost e t}
  have hd : Disjoint N B := by
    rw [Set.disjoint_left]
    rintro F ⟨b, h1, h2⟩ ⟨b', h3, h4, _⟩
    have := OnCurve.unique hy h1 h3
    linarith
  have mN : MeasurableSet N := by rw [hN]; exact measurableSet_Ico
  have pN : prob N = ENNReal.ofReal q := by rw [hN]; exact prob_Ico q1.le
  obtain ⟨mT, pT⟩ := uniforms_trials mN mB hd 10
  have hset : {us : ℕ → ℝ | ∃ k b, EnergyTransfer w x y e t cut us k b ∧ b ≤ z} =
      {us | (w ≤ us 0 ∧ (fun n => us (n + 1)) ∈ {vs : ℕ → ℝ | vs 0 ∈ A}) ∨
        (us 0 < w ∧ (fun n => us (n + 1)) ∈ {vs | ∃ k < 10, vs ∈ firstAt N B k})} := by
    ext us
    constructor
    · rintro ⟨k, b, ⟨h1, rfl, h3⟩ | ⟨h1, h2, h3, h4, h5⟩, hb⟩
      · exact Or.inl ⟨h1, b, h3, hb⟩
      · exact Or.inr ⟨h1, k, h2, fun j hj => h5 j hj, b, h3, h4, hb⟩
    · rintro (⟨h1, b, h3, hb⟩ | ⟨h1, k, h2, h5, b, h3, h4, hb⟩)
      · exact ⟨0, b, Or.inl ⟨h1, rfl, h3⟩, hb⟩
      · exact ⟨k, b, Or.inr ⟨h1, h2, h3, h4, fun j hj => h5 j hj⟩, hb⟩
  have hfirst : {vs : ℕ → ℝ | vs 0 ∈ A} = firstAt ∅ A 0 := by
    ext vs
    exact ⟨fun h => ⟨fun j hj => absurd hj (by omega), h⟩, fun h => h.2⟩
  have hFq : 0 ≤ Fy - q := by
    rcases hFy with ⟨h, _⟩ | h | ⟨_, rfl⟩
    · exact absurd ((Curve_at_bounds hy hq).1.trans hz) (not_le.2 h)
    · linarith [(Curve_at_le hy hq h).1 hz]
    · linarith
  rw [hset, hfirst, uniforms_choose w0 w1 (measurableSet_firstAt MeasurableSet.empty mA 0) mT, pT,
    uniforms_firstAt MeasurableSet.empty mA, pow_zero, one_mul, pA, pN, pB]
  have hsum : (∑ k ∈ Finset.range 10, ENNReal.ofReal q ^ k) =
      ENNReal.ofReal (∑ k ∈ Finset.range 10, q ^ k) := by
    rw [ENNReal.ofReal_sum_of_nonneg fun k _ => pow_nonneg q0 k]
    exact Finset.sum_congr rfl fun k _ => (ENNReal.ofReal_pow q0 k).symm
  have hs0 : 0 ≤ ∑ k ∈ Finset.range 10, q ^ k := Finset.sum_nonneg fun k _ => pow_nonneg q0 k
  rw [hsum, ← ENNReal.ofReal_mul hs0, ← ENNReal.ofReal_mul (by linarith), ← ENNReal.ofReal_mul w0,
    ← ENNReal.ofReal_add (mul_nonneg (by linarith) x0) (mul_nonneg w0 (mul_nonneg hs0 hFq))]

/-- **C84** The probability that thermal scattering gives up: the weight of the upper neighbour, times
the tenth power of the probability of a transfer that cannot be afforded. -/
theorem C84_gives_up {L : List (ℝ × Curve)} {e t cut w q : ℝ} {x y : ℝ × Curve}
    (hn : Neighbours L e w x y) (hy : y.2.Sound (allLost y.1 t) cut)
    (hq : y.2.At (allLost y.1 t) cut q (allLost e t)) :
    uniforms {us | NoTransfer w y e t cut us} = ENNReal.ofReal (w * q ^ 10) := by
  obtain ⟨w0, w1⟩ := Neighbours_weight hn
  obtain ⟨_, _, q0, q1⟩ := Curve_at_bounds hy hq
  have hN := Curve_set_lt hy hq
  set N := {F | ∃ b, y.2.At (allLost y.1 t) cut F b ∧ b < allLost e t}
  have mN : MeasurableSet N := by rw [hN]; exact measurableSet_Ico
  have pN : prob N = ENNReal.ofReal q := by rw [hN]; exact prob_Ico q1.le
  have hset : {us : ℕ → ℝ | NoTransfer w y e t cut us} =
      {us | (w ≤ us 0 ∧ (fun n => us (n + 1)) ∈ (∅ : Set (ℕ → ℝ))) ∨
        (us 0 < w ∧ (fun n => us (n + 1)) ∈ firstAt N Set.univ 10)} := by
    ext us
    constructor
    · rintro ⟨h1, h2⟩
      exact Or.inr ⟨h1, fun j hj => h2 j hj, trivial⟩
    · rintro (⟨_, h⟩ | ⟨h1, h2, _⟩)
      · exact absurd h (Set.notMem_empty _)
      · exact ⟨h1, fun j hj => h2 j hj⟩
  have hone : prob Set.univ = 1 := by simp [prob]
  rw [hset, uniforms_choose w0 w1 MeasurableSet.empty (measurableSet_firstAt mN MeasurableSet.univ 10),
    uniforms_firstAt mN MeasurableSet.univ, measure_empty, mul_zero, zero_add, pN, hone, mul_one,
    ← ENNReal.ofReal_pow q0, ← ENNReal.ofReal_mul w0]

/-- **C84** A neutron almost surely keeps some energy. -/
theorem C84_keeps_energy {L : List (ℝ × Curve)} {e t cut w q : ℝ} (ht : 0 < t) {x y : ℝ × Curve}
    (hn : Neighbours L e w x y) (hx : x.2.Sound (allLost x.1 t) cut)
    (hy : y.2.Sound (allLost y.1 t) cut) (hq : y.2.At (allLost y.1 t) cut q (allLost e t)) :
    uniforms {us | ∃ k, EnergyTransfer w x y e t cut us k (allLost e t)} = 0 := by
  have hFx : w = 1 ∨ x.2.Cumulative (allLost x.1 t) cut (allLost e t) 0 := by
    cases hn with
    | between _ _ h1 _ =>
      right
      rcases (allLost_mono ht h1).lt_or_eq with h | h
      · exact Or.inl ⟨h, rfl⟩
      · rw [h]
        obtain ⟨i1, i2⟩ := hx 0 (by omega)
        exact Or.inr (Or.inl ⟨0, by omega, le_rfl, i1, (line_left i1).symm⟩)
    | below _ _ => exact Or.inl rfl
  rcases hFx with rfl | hF
  · obtain ⟨Fx, hF⟩ : ∃ Fx, x.2.Cumulative (allLost x.1 t) cut (allLost e t) Fx := by
      by_cases h1 : allLost e t < allLost x.1 t
      · exact ⟨0, Or.inl ⟨h1, rfl⟩⟩
      · by_cases h2 : cut ≤ allLost e t
        · exact ⟨1, Or.inr (Or.inr ⟨h2, rfl⟩)⟩
        · obtain ⟨F, hF⟩ := Curve_at_exists hx (not_lt.1 h1) (not_le.1 h2)
          exact ⟨F, Or.inr (Or.inl hF)⟩
    have := C84_energy_law hn hx hy hq le_rfl hF (Or.inr (Or.inl hq))
    rw [sub_self, sub_self, mul_zero, mul_zero, zero_mul, add_zero, ENNReal.ofReal_zero] at this
    refine measure_mono_null ?_ this
    rintro us ⟨k, hk⟩
    exact ⟨k, _, hk, le_rfl⟩
  · have := C84_energy_law hn hx hy hq le_rfl hF (Or.inr (Or.inl hq))
    rw [mul_zero, sub_self, mul_zero, mul_zero, add_zero, ENNReal.ofReal_zero] at this
    refine measure_mono_null ?_ this
    rintro us ⟨k, hk⟩
    exact ⟨k, _, hk, le_rfl⟩

end Minimc.Props
