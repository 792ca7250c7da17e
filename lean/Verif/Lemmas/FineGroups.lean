import Verif.Lemmas.Units
import Verif.Spec.FineGroups

/-! # Groups that are divided -/

namespace Minimc

open Classical Spec MeasureTheory
open scoped ENNReal

/-! ### Choices among parts -/

theorem picked_congr {α : Type} {weight weight' : α → ℝ} {value value' : α → ℝ≥0∞} {l : List α}
    (hw : ∀ a ∈ l, weight' a = weight a) (hv : ∀ a ∈ l, value' a = value a) (θ : ℝ) :
    picked weight' value' l θ = picked weight value l θ := by
  induction l generalizing θ with
  | nil => rfl
  | cons a l ih =>
    rw [picked, picked, hw a (by simp), hv a (by simp),
      ih (fun b hb => hw b (by simp [hb])) fun b hb => hv b (by simp [hb])]

theorem filter_first {p : ℕ → ℕ} {a : ℕ} {l : List ℕ} (hl : l.Pairwise fun x y => p x ≤ p y)
    (ha : ∀ x ∈ l, a ≤ p x) :
    l = (l.filter fun x => decide (p x = a)) ++ l.filter fun x => !decide (p x = a) := by
  induction l with
  | nil => rfl
  | cons x l ih =>
    obtain ⟨h1, h2⟩ := List.pairwise_cons.1 hl
    by_cases hx : p x = a
    · simp only [List.filter_cons, hx, decide_true, if_true, Bool.not_true, Bool.false_eq_true, if_false,
        List.cons_append]
      rw [← ih h2 fun y hy => ha y (by simp [hy])]
    · have hlt : a < p x := lt_of_le_of_ne (ha x (by simp)) (Ne.symm hx)
      have hne : ∀ y ∈ x :: l, p y ≠ a := by
        intro y hy
        rcases List.mem_cons.1 hy with rfl | hy
        · exact hx
        · exact (hlt.trans_le (h1 y hy)).ne'
      rw [List.filter_eq_nil_iff.2 fun y hy => by simpa using hne y hy,
        List.filter_eq_self.2 fun y hy => by simpa using hne y hy, List.nil_append]

/-- Choosing among parts that stand in the order of what they are parts of. -/
theorem picked_blocks {p : ℕ → ℕ} {weight : ℕ → ℝ} (F : ℕ → ℝ≥0∞) (n a : ℕ) (l : List ℕ)
    (hl : l.Pairwise fun x y => p x ≤ p y) (ha : ∀ x ∈ l, a ≤ p x ∧ p x < a + n)
    (hw : ∀ x ∈ l, 0 ≤ weight x) (θ : ℝ) :
    picked weight (fun x => F (p x)) l θ =
      picked (fun h => ((l.filter fun x => decide (p x = h)).map weight).sum) F (List.range' a n) θ := by
  induction n generalizing a l θ with
  | zero =>
    have : l = [] := List.eq_nil_iff_forall_not_mem.2 fun x hx => by
      have := ha x hx
      omega
    subst this
    rfl
  | succ n ih =>
    have hsub : (l.filter fun x => !decide (p x = a)).Sublist l := List.filter_sublist
    conv_lhs => rw [filter_first hl fun x hx => (ha x hx).1]
    rw [picked_parts (v := F a) _ (fun x hx => hw x (List.mem_filter.1 hx).1)
      (fun x hx => by
        have := (List.mem_filter.1 hx).2
        rw [of_decide_eq_true this]), List.range'_succ, picked]
    congr 1
    rw [ih (a + 1) _ (hl.sublist hsub) (fun x hx => by
      obtain ⟨h1, h2⟩ := List.mem_filter.1 hx
      have := ha x h1
      have h3 : p x ≠ a := by simpa using h2
      omega) fun x hx => hw x (List.mem_filter.1 hx).1]
    refine picked_congr (fun h hh => ?_) (fun _ _ => rfl) _
    have hne : h ≠ a := by
      have := (List.mem_range'_1.1 hh).1
      omega
    rw [List.filter_filter]
    congr 2
    refine List.filter_congr fun x _ => ?_
    by_cases hx : p x = h
    · simp [hx, hne]
    · simp [hx]

variable {G G' : ℕ} {into : ℕ → ℕ} {nodes nodes' : Nuclide → List MgNode}

theorem sum_blocks {p : ℕ → ℕ} {weight : ℕ → ℝ} (n a : ℕ) (l : List ℕ)
    (hl : l.Pairwise fun x y => p x ≤ p y) (ha : ∀ x ∈ l, a ≤ p x ∧ p x < a + n) :
    (l.map weight).sum =
      ((List.range' a n).map fun h => ((l.filter fun x => decide (p x = h)).map weight).sum).sum := by
  induction n generalizing a l with
  | zero =>
    have : l = [] := List.eq_nil_iff_forall_not_mem.2 fun x hx => by
      have := ha x hx
      omega
    subst this
    rfl
  | succ n ih =>
    have hsub : (l.filter fun x => !decide (p x = a)).Sublist l := List.filter_sublist
    conv_lhs => rw [filter_first hl fun x hx => (ha x hx).1]
    rw [List.map_append, List.sum_append, List.range'_succ, List.map_cons, List.sum_cons]
    congr 1
    rw [ih (a + 1) _ (hl.sublist hsub) fun x hx => by
      obtain ⟨h1, h2⟩ := List.mem_filter.1 hx
      have := ha x h1
      have h3 : p x ≠ a := by simpa using h2
      omega]
    congr 1
    refine List.map_congr_left fun h hh => ?_
    have hne : h ≠ a := by
      have := (List.mem_range'_1.1 hh).1
      omega
    rw [List.filter_filter]
    congr 2
    refine List.filter_congr fun x _ => ?_
    by_cases hx : p x = h
    · simp [hx, hne]
    · simp [hx]

theorem fine_pairwise (h : Subdivides G G' into) : (List.range' 1 G').Pairwise fun x y => into x ≤ into y := by
  refine (List.pairwise_lt_range' (s := 1) (n := G')).imp_of_mem fun {x y} hx hy hxy => ?_
  rw [List.mem_range'_1] at hx hy
  exact h.order x y hx.1 hxy.le (by omega)

theorem byWeight_groups (n : ℕ) (weight : ℕ → ℝ) (u : ℝ) (F : ℕ → ℝ≥0∞) :
    (byWeight ((List.range' 1 n).map weight) u fun j => F (j + 1)) =
      picked weight F (List.range' 1 n) (u * ((List.range' 1 n).map weight).sum) := by
  rw [← byWeight_picked]
  unfold byWeight
  refine Finset.sum_congr rfl fun i hi => ?_
  have hi' : i < n := by simpa using hi
  dsimp only
  rw [List.getElem?_range' hi', Option.elim_some, one_mul, add_comm 1 i]

/-- A number that chooses a fine group chooses a group in the coarse one that it would choose. -/
theorem byWeight_fine (h : Subdivides G G' into) {weight weight' : ℕ → ℝ} {s : ℝ} (hs : 0 < s)
    (hpos : ∀ g, 0 ≤ weight' g)
    (hw : ∀ g, 1 ≤ g → g ≤ G →
      (((List.range' 1 G').filter fun g' => decide (into g' = g)).map weight').sum = s * weight g)
    (u : ℝ) {F F' : ℕ → ℝ≥0∞} (hF : ∀ g, 1 ≤ g → g ≤ G' → F' g = F (into g)) :
    (byWeight ((List.range' 1 G').map weight') u fun j => F' (j + 1)) =
      byWeight ((List.range' 1 G).map weight) u fun j => F (j + 1) := by
  have hin : ∀ x ∈ List.range' 1 G', 1 ≤ into x ∧ into x < 1 + G := fun x hx => by
    rw [List.mem_range'_1] at hx
    have := h.range x hx.1 (by omega)
    omega
  have e1 : (byWeight ((List.range' 1 G').map weight') u fun j => F' (j + 1)) =
      byWeight ((List.range' 1 G).map fun g => s * weight g) u fun j => F (j + 1) := by
    rw [byWeight_groups, byWeight_groups, picked_congr (weight := weight') (value := fun g => F (into g))
      (fun _ _ => rfl) fun g hg => by
        rw [List.mem_range'_1] at hg
        exact hF g hg.1 (by omega),
      picked_blocks F G 1 _ (fine_pairwise h) hin (fun x _ => hpos x),
      sum_blocks (weight := weight') G 1 _ (fine_pairwise h) hin]
    have e2 : ∀ g ∈ List.range' 1 G,
        (((List.range' 1 G').filter fun g' => decide (into g' = g)).map weight').sum = s * weight g :=
      fun g hg => by
        rw [List.mem_range'_1] at hg
        exact hw g hg.1 (by omega)
    rw [List.map_congr_left e2]
    exact picked_congr (fun g hg => e2 g hg) (fun _ _ => rfl) _
  rw [e1]
  exact byWeight_times hs (by rw [List.map_map]; rfl) u fun _ _ _ _ => rfl

/-! ### Events -/

theorem fine_births {σ : Type} (S : Supply σ) (h : Subdivides G G' into) {flat flat' : List ℝ}
    (hpos : ∀ x ∈ flat', 0 ≤ x) {k : ℝ} (hk : 0 < k) {g g0 : ℕ}
    (hf : ∀ t, 1 ≤ t → t ≤ G → intoGroup G' into flat' g t = k * entry2 G flat g0 t)
    {start start' : Direction → ℕ → σ → ℝ≥0∞}
    (hs : ∀ d t s, 1 ≤ t → t ≤ G' → start' d t s = start d (into t) s) (n : ℕ) (s : σ) :
    births S (colEntries G' flat' g) start' n s = births S (colEntries G flat g0) start n s := by
  induction n generalizing s with
  | zero => rfl
  | succ n ih =>
    unfold births colEntries
    refine byWeight_fine (weight := entry2 G flat g0) (weight' := entry2 G' flat' g) h hk
      (entry2_nonneg hpos G' g) hf _
      (F := fun t => start (directionFrom (S.numbers s 1) (S.numbers s 2)) t (S.child (S.rest^[3] s)) +
        births S (colEntries G flat g0) start n (S.after (S.rest^[3] s)))
      (F' := fun t => start' (directionFrom (S.numbers s 1) (S.numbers s 2)) t (S.child (S.rest^[3] s)) +
        births S (colEntries G' flat' g) start' n (S.after (S.rest^[3] s))) fun t h1 h2 => ?_
    rw [hs _ _ _ h1 h2, ih]

theorem fine_total {data data' : List MgNode} (h : DividedGroups G G' into data data') {g : ℕ} (h1 : 1 ≤ g)
    (h2 : g ≤ G') : specTotal G' data' g = specTotal G data (into g) := by
  unfold specTotal
  rw [h.reaction _ g h1 h2, h.reaction _ g h1 h2, h.reaction _ g h1 h2]

theorem fine_eventOn {σ : Type} (S : Supply σ) (hd : Subdivides G G' into) {data data' : List MgNode}
    (hN : NonnegNodes data') (h : DividedGroups G G' into data data') {g : ℕ} (h1 : 1 ≤ g) (h2 : g ≤ G')
    {next next' start start' : Direction → ℕ → σ → ℝ≥0∞}
    (hn : ∀ d t s, 1 ≤ t → t ≤ G' → next' d t s = next d (into t) s)
    (hs : ∀ d t s, 1 ≤ t → t ≤ G' → start' d t s = start d (into t) s) (s : σ) :
    eventOn S G' data' g next' start' s = eventOn S G data (into g) next start s := by
  unfold eventOn
  refine byWeight_times one_pos (by simp [h.reaction _ g h1 h2]) _ fun r x hx hpos => ?_
  split_ifs with r1 r2
  · unfold colEntries
    refine byWeight_fine (weight := entry2 G (scatterTable data) (into g))
      (weight' := entry2 G' (scatterTable data') g) hd one_pos
      (entry2_nonneg (scatterTable_nonneg hN) G' g) (fun t k1 k2 => ?_) _
      (F := fun t => next (directionFrom (S.numbers s 2) (S.numbers s 3)) t (S.rest^[4] s))
      (F' := fun t => next' (directionFrom (S.numbers s 2) (S.numbers s 3)) t (S.rest^[4] s))
      fun t k1 k2 => hn _ t _ k1 k2
    rw [one_mul]
    exact h.transfer g t h1 h2 k1 k2
  · subst r2
    have hf : 0 < specXS G' data' .fission g := by
      rw [h.reaction _ g h1 h2]
      simp only [List.getElem?_cons_succ, List.getElem?_cons_zero, Option.some.injEq] at hx
      rwa [hx]
    obtain ⟨t, ht, hspec⟩ := h.spectrum g h1 h2 hf
    rw [h.yield g h1 h2 hf]
    exact fine_births S hd (chiTable_nonneg hN) ht hspec hs _ _
  · rfl

theorem fine_weights {g : ℕ} (h1 : 1 ≤ g) (h2 : g ≤ G') {l l' : List (Nuclide × ℝ)}
    (h : List.Forall₂ (fun e e' : Nuclide × ℝ =>
      DividedGroups G G' into (nodes e.1) (nodes' e'.1) ∧ e'.2 = e.2) l l') :
    l'.map (fun e => e.2 * specTotal G' (nodes' e.1) g) =
      l.map fun e => e.2 * specTotal G (nodes e.1) (into g) := by
  induction h with
  | nil => rfl
  | cons he _ ih =>
    simp only [List.map_cons]
    rw [ih, fine_total he.1 h1 h2, he.2]

theorem fine_macroscopic {m m' : Material} (h : FineMaterial G G' into nodes nodes' m m') {g : ℕ} (h1 : 1 ≤ g)
    (h2 : g ≤ G') : macroscopic G' nodes' g m' = macroscopic G nodes (into g) m := by
  unfold macroscopic
  rw [fine_weights h1 h2 h.2, h.1]

theorem fine_afterEvent {σ : Type} (S : Supply σ) (hd : Subdivides G G' into) {m m' : Material}
    (h : FineMaterial G G' into nodes nodes' m m') (hN : ∀ e ∈ m'.afracs, NonnegNodes (nodes' e.1)) {g : ℕ}
    (h1 : 1 ≤ g) (h2 : g ≤ G') {next next' start start' : Direction → ℕ → σ → ℝ≥0∞}
    (hn : ∀ d t s, 1 ≤ t → t ≤ G' → next' d t s = next d (into t) s)
    (hs : ∀ d t s, 1 ≤ t → t ≤ G' → start' d t s = start d (into t) s) (s : σ) :
    afterEvent S G' nodes' m' g next' start' s = afterEvent S G nodes m (into g) next start s := by
  rw [afterEvent_eventOn, afterEvent_eventOn]
  refine byWeight_times one_pos (by rw [fine_weights h1 h2 h.2]; simp) _ fun i x hx _ => ?_
  have hi : i < m.afracs.length := by simpa using (List.getElem?_eq_some_iff.1 hx).1
  have hi' : i < m'.afracs.length := h.2.length_eq ▸ hi
  rw [List.getElem?_eq_getElem hi, List.getElem?_eq_getElem hi', Option.elim_some, Option.elim_some]
  exact fine_eventOn S hd (hN _ (List.getElem_mem hi')) ((List.forall₂_iff_get.1 h.2).2 i hi hi').1 h1 h2 hn hs _

/-- A neutron and its descendants, with the same numbers. -/
theorem fine_chain {σ : Type} (S : Supply σ) (hd : Subdivides G G' into) {w w' : World}
    (hw' : WellPosed G' nodes' w') (h : WorldsAlike (FineMaterial G G' into nodes nodes') w w')
    (method : Method) {hit hit' : SurfaceObj → Direction → ℕ → ℝ≥0∞}
    (hh : ∀ f d g, 1 ≤ g → g ≤ G' → hit' f d g = hit f d (into g)) (n : ℕ) {c c' : Cell} (hc' : c' ∈ w'.cells)
    (hcc : CellsAlike (FineMaterial G G' into nodes nodes') c c') (x : Point) (d : Direction) {g : ℕ}
    (h1 : 1 ≤ g) (h2 : g ≤ G') (s : σ) :
    chainScore S G' nodes' w' method hit' n c' x d g s =
      chainScore S G nodes w method hit n c x d (into g) s := by
  induction n generalizing c c' x d g s with
  | zero => rfl
  | succ n ih =>
    simp only [chainScore, oneRound]
    rcases hcc.material with ⟨k1, k2⟩ | ⟨m, m', k1, k2, hm⟩
    · simp only [k1, k2, Option.elim_none]
    · have hN : ∀ e ∈ m'.afracs, NonnegNodes (nodes' e.1) := fun e he => by
        obtain ⟨_, _, _, _, h, _⟩ := hw'.data c' hc' m' k2 e he
        exact h
      rw [k1, k2]
      simp only [Option.elim_some]
      rw [alike_ahead hcc, alike_faced hcc, alike_beyond hcc, fine_macroscopic hm h1 h2]
      rw [fine_afterEvent S hd hm hN h1 h2 (fun d' g' s' a1 a2 => ih hc' hcc _ d' a1 a2 s')
        fun d' g' s' a1 a2 => ?_]
      · split_ifs
        · cases faced c x d with
          | none => simp only [Option.elim_none]
          | some f =>
            simp only [Option.elim_some]
            rcases alike_cellAt h (beyond c x d) with ⟨k1, k2⟩ | ⟨a, a', k1, k2, ha⟩
            · simp only [k1, k2, Option.elim_none]
            · simp only [k1, k2, Option.elim_some]
              rw [ih (cellAt_mem k2) ha _ _ h1 h2, hh _ _ _ h1 h2]
        · rfl
      · rcases alike_cellAt h (along x d (-Real.log (1 - S.number s) / macroscopic G nodes (into g) m)) with
          ⟨k1, k2⟩ | ⟨a, a', k1, k2, ha⟩
        · simp only [k1, k2, Option.elim_none]
        · simp only [k1, k2, Option.elim_some]
          exact ih (cellAt_mem k2) ha _ d' a1 a2 s'

end Minimc
