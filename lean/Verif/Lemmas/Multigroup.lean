import Verif.Lemmas.Select
import Verif.Lemmas.Rng
import Verif.Spec.Multigroup

/-! # Lemmas on multigroup data -/

namespace Minimc

open Spec Multigroup

theorem vecAt_lt {α : Type _} {l : List α} {i : ℕ} (h : i < l.length) :
    vecAt l i = .ok l[i] := by
  simp [vecAt, h]

theorem vecAt_ge {α : Type _} {l : List α} {i : ℕ} (h : l.length ≤ i) :
    vecAt l i = .error .outOfRange := by
  simp [vecAt, h]

@[simp] theorem noexcept_ok {α : Type _} (a : α) : noexcept (.ok a : Res α) = .ok a := rfl

theorem noexcept_eq_ok {α : Type _} {r : Res α} {a : α} : noexcept r = .ok a ↔ r = .ok a := by
  rcases r with e | b
  · cases e <;> simp [noexcept]
  · simp [noexcept]

theorem mapM_ok {α β : Type _} {f : α → Res β} {v : α → β} :
    ∀ {l : List α} (_ : ∀ x ∈ l, f x = .ok (v x)), l.mapM f = .ok (l.map v)
  | [], _ => rfl
  | x :: l, h => by
    rw [List.mapM_cons, h x (by simp)]
    simp only [bind, Except.bind]
    rw [mapM_ok (fun y hy => h y (by simp [hy]))]
    rfl

namespace Multigroup

theorem oneAt_ok {l : List ℝ} {g : ℕ} (h1 : 1 ≤ g) (h2 : g ≤ l.length) :
    oneAt l g = .ok (entry1 l g) := by
  rw [oneAt, if_neg (by omega), vecAt_lt (by omega), entry1, List.getD_eq_getElem?_getD,
    List.getElem?_eq_getElem (by omega)]
  rfl

theorem column_ok {G : ℕ} {flat : List ℝ} (hl : flat.length = G * G) {gp : ℕ} (h1 : 1 ≤ gp)
    (h2 : gp ≤ G) : column G flat gp = .ok ((List.range' 1 G).map (entry2 G flat gp)) := by
  apply mapM_ok
  intro g hg
  rw [List.mem_range'_1] at hg
  have hlt : G * (g - 1) + (gp - 1) < flat.length := by
    rw [hl]
    have : G * (g - 1) + G ≤ G * G := by
      have : G * (g - 1 + 1) ≤ G * G := Nat.mul_le_mul_left _ (by omega)
      linarith [Nat.mul_add G (g - 1) 1]
    omega
  rw [vecAt_lt hlt, entry2, List.getD_eq_getElem?_getD, List.getElem?_eq_getElem hlt]
  rfl

theorem twoDimensional_ok {G : ℕ} {flat : List ℝ} (hl : flat.length = G * G) :
    twoDimensional G flat =
      .ok ((List.range' 1 G).map (fun gp => (List.range' 1 G).map (entry2 G flat gp))) := by
  rw [twoDimensional, if_neg (by simp [hl])]
  apply mapM_ok
  intro gp hgp
  rw [List.mem_range'_1] at hgp
  exact column_ok hl hgp.1 (by omega)

theorem twoDimensional_length {G : ℕ} {flat : List ℝ} {t : List (List ℝ)}
    (h : twoDimensional G flat = .ok t) : flat.length = G * G := by
  by_contra hne
  rw [twoDimensional, if_pos hne] at h
  cases h

theorem columnSum_eq (l : List ℝ) : columnSum l = l.sum := by
  rw [columnSum, ← List.sum_eq_foldl]

/-- The cross section a node gives: the list of its values over the groups. -/
noncomputable def nodeList (G : ℕ) : MgNode → Reaction × List ℝ
  | .capture xs => (.capture, xs)
  | .scatter flat => (.scatter, (List.range' 1 G).map (colSum G flat))
  | .fission _ _ xs => (.fission, xs)

theorem reactionXS_ok {G : ℕ} {n : MgNode} {e : Reaction × List ℝ}
    (h : reactionXS G n = .ok e) : e = nodeList G n ∧ e.2.length = G := by
  cases n with
  | capture xs =>
    by_cases hl : xs.length = G
    · simp [reactionXS, oneDimensional, hl, bind, Except.bind] at h
      subst h; exact ⟨rfl, hl⟩
    · simp [reactionXS, oneDimensional, hl, bind, Except.bind] at h
  | scatter flat =>
    by_cases hl : flat.length = G * G
    · simp only [reactionXS, createScatterXS, twoDimensional_ok hl, bind, Except.bind,
        Except.ok.injEq] at h
      subst h
      simp only [nodeList, List.map_map, List.length_map, List.length_range', and_true,
        Prod.mk.injEq, true_and]
      apply List.map_congr_left
      intro gp _
      simp [columnSum_eq, colSum]
    · simp [reactionXS, createScatterXS, twoDimensional, hl, bind, Except.bind] at h
  | fission nubar chi xs =>
    by_cases hl : xs.length = G
    · simp [reactionXS, oneDimensional, hl, bind, Except.bind] at h
      subst h; exact ⟨rfl, hl⟩
    · simp [reactionXS, oneDimensional, hl, bind, Except.bind] at h

theorem nodeXS_eq (G : ℕ) (r : Reaction) (g : ℕ) (h1 : 1 ≤ g) (h2 : g ≤ G) (n : MgNode) :
    nodeXS G r g n = if r = (nodeList G n).1 then some (entry1 (nodeList G n).2 g) else none := by
  cases n with
  | capture xs => rfl
  | scatter flat =>
    simp only [nodeXS, nodeList]
    congr 2
    simp only [entry1, List.getD_eq_getElem?_getD, List.getElem?_map]
    rw [List.getElem?_range' (by omega)]
    simp only [Option.map_some, Option.getD_some]
    congr 1
    omega
  | fission nubar chi xs => rfl

/-- Value stored for reaction `r`. -/
def lk (m : List (Reaction × List ℝ)) (r : Reaction) : Option (List ℝ) :=
  (m.find? (fun e => decide (e.1 = r))).map Prod.snd

theorem lk_cons (e : Reaction × List ℝ) (m : List (Reaction × List ℝ)) (r : Reaction) :
    lk (e :: m) r = if e.1 = r then some e.2 else lk m r := by
  simp only [lk, List.find?_cons]
  by_cases h : e.1 = r <;> simp [h]

/-- Keys strictly increasing, as in a `std::map`. -/
def SortedKeys (m : List (Reaction × List ℝ)) : Prop :=
  m.Pairwise (fun a b => rank a.1 < rank b.1)

theorem rank_inj {a b : Reaction} (h : rank a = rank b) : a = b := by
  cases a <;> cases b <;> simp_all [rank]

theorem mem_emplace {r : Reaction} {xs : List ℝ} {m : List (Reaction × List ℝ)}
    {e : Reaction × List ℝ} (h : e ∈ emplace r xs m) : e = (r, xs) ∨ e ∈ m := by
  induction m with
  | nil => simpa [emplace] using h
  | cons a m ih =>
    simp only [emplace] at h
    split_ifs at h with h1 h2
    · simpa using h
    · exact .inr h
    · rcases List.mem_cons.1 h with h | h
      · exact .inr (by simp [h])
      · rcases ih h with h | h
        · exact .inl h
        · exact .inr (by simp [h])

theorem sorted_emplace {r : Reaction} {xs : List ℝ} {m : List (Reaction × List ℝ)}
    (h : SortedKeys m) : SortedKeys (emplace r xs m) := by
  induction m with
  | nil => simp [emplace, SortedKeys]
  | cons a m ih =>
    have ha := List.pairwise_cons.1 h
    simp only [emplace]
    split_ifs with h1 h2
    · refine List.pairwise_cons.2 ⟨?_, h⟩
      intro b hb
      rcases List.mem_cons.1 hb with rfl | hb
      · exact h1
      · exact lt_trans h1 (ha.1 b hb)
    · exact h
    · refine List.pairwise_cons.2 ⟨?_, ih ha.2⟩
      intro b hb
      rcases mem_emplace hb with rfl | hb
      · rcases lt_or_eq_of_le (not_lt.1 h1) with h3 | h3
        · exact h3
        · exact absurd (rank_inj h3).symm h2
      · exact ha.1 b hb

theorem lk_eq_none {m : List (Reaction × List ℝ)} {r : Reaction} (h : ∀ e ∈ m, e.1 ≠ r) :
    lk m r = none := by
  simp only [lk, Option.map_eq_none_iff, List.find?_eq_none]
  intro e he
  simpa using h e he

theorem lk_emplace {r : Reaction} {xs : List ℝ} {m : List (Reaction × List ℝ)}
    (h : SortedKeys m) (r' : Reaction) :
    lk (emplace r xs m) r' = if r = r' then some ((lk m r).getD xs) else lk m r' := by
  induction m with
  | nil => simp [emplace, lk]
  | cons a m ih =>
    have ha := List.pairwise_cons.1 h
    simp only [emplace]
    by_cases h1 : rank r < rank a.1
    · rw [if_pos h1]
      have hn : lk (a :: m) r = none := by
        apply lk_eq_none
        intro e he heq
        rcases List.mem_cons.1 he with rfl | he
        · rw [heq] at h1; omega
        · have := ha.1 e he
          rw [heq] at this; omega
      rw [lk_cons, hn]
      simp
    · rw [if_neg h1]
      by_cases h2 : r = a.1
      · rw [if_pos h2]
        by_cases h3 : r = r'
        · subst h3; simp [lk_cons, h2]
        · simp [h3]
      · rw [if_neg h2]
        have h2' : ¬ a.1 = r := fun e => h2 e.symm
        by_cases h3 : r = r'
        · subst h3
          rw [lk_cons, if_neg h2', ih ha.2, if_pos rfl, if_pos rfl, lk_cons, if_neg h2']
        · rw [lk_cons, ih ha.2, if_neg h3, if_neg h3, lk_cons]

theorem createReactions_spec {G : ℕ} :
    ∀ {nodes : List MgNode} {m m' : List (Reaction × List ℝ)}
      (_ : createReactions G m nodes = .ok m') (_ : SortedKeys m) (_ : ∀ e ∈ m, e.2.length = G),
      SortedKeys m' ∧ (∀ e ∈ m', e.2.length = G) ∧
      ∀ r, lk m' r = (lk m r).or
        ((nodes.find? (fun n => decide ((nodeList G n).1 = r))).map (fun n => (nodeList G n).2))
  | [], m, m', h, hs, hl => by
    simp only [createReactions, Except.ok.injEq] at h
    subst h
    exact ⟨hs, hl, fun r => by simp⟩
  | n :: nodes, m, m', h, hs, hl => by
    simp only [createReactions, bind, Except.bind] at h
    split at h
    · cases h
    · rename_i e he
      obtain ⟨he1, he2⟩ := reactionXS_ok he
      have hl' : ∀ e' ∈ emplace e.1 e.2 m, e'.2.length = G := by
        intro e' he'
        rcases mem_emplace he' with rfl | h'
        · exact he2
        · exact hl e' h'
      obtain ⟨h1, h2, h3⟩ := createReactions_spec h (sorted_emplace hs) hl'
      refine ⟨h1, h2, fun r => ?_⟩
      rw [h3 r, lk_emplace hs, List.find?_cons]
      subst he1
      by_cases hr : (nodeList G n).1 = r
      · subst hr
        cases lk m (nodeList G n).1 <;> simp
      · simp [hr]

/-- Sum over a sorted map by looking up the three reactions. -/
theorem sum_eq_lk {m : List (Reaction × List ℝ)} (hs : SortedKeys m) (w : List ℝ → ℝ) :
    (m.map (fun e => w e.2)).sum = ((lk m .capture).map w).getD 0 +
      ((lk m .scatter).map w).getD 0 + ((lk m .fission).map w).getD 0 := by
  induction m with
  | nil => simp [lk]
  | cons a m ih =>
    have ha := List.pairwise_cons.1 hs
    rw [List.map_cons, List.sum_cons, ih ha.2]
    have hn : lk m a.1 = none := by
      apply lk_eq_none
      intro e he heq
      have := ha.1 e he
      rw [heq] at this; omega
    obtain ⟨r, xs⟩ := a
    cases r <;> simp only [lk_cons] <;> simp_all <;> ring

theorem mem_iff_lk {m : List (Reaction × List ℝ)} (hs : SortedKeys m) {r : Reaction}
    {xs : List ℝ} : (r, xs) ∈ m ↔ lk m r = some xs := by
  induction m with
  | nil => simp [lk]
  | cons a m ih =>
    have ha := List.pairwise_cons.1 hs
    rw [lk_cons, List.mem_cons, ih ha.2]
    constructor
    · rintro (rfl | h)
      · simp
      · rw [if_neg, h]
        intro heq
        have := ha.1 (r, xs) ((ih ha.2).2 h)
        rw [heq] at this
        simp at this
    · intro h
      split_ifs at h with h1
      · left
        cases a
        simp_all
      · exact .inr h

theorem find_node_eq {G : ℕ} (nodes : List MgNode) (r : Reaction) (g : ℕ) (h1 : 1 ≤ g)
    (h2 : g ≤ G) :
    ((nodes.find? (fun n => decide ((nodeList G n).1 = r))).map
      (fun n => entry1 (nodeList G n).2 g)) = nodes.findSome? (nodeXS G r g) := by
  induction nodes with
  | nil => rfl
  | cons n nodes ih =>
    rw [List.find?_cons, List.findSome?_cons, nodeXS_eq G r g h1 h2]
    by_cases hr : (nodeList G n).1 = r
    · simp [hr]
    · have : ¬ r = (nodeList G n).1 := fun h => hr h.symm
      simp only [hr, this, decide_false, if_false]
      exact ih

theorem zipWith_foldl {G : ℕ} :
    ∀ (m : List (Reaction × List ℝ)) (acc : List ℝ) (_ : acc.length = G)
      (_ : ∀ e ∈ m, e.2.length = G) (g : ℕ),
      (m.foldl (fun a r => List.zipWith (· + ·) a r.2) acc).length = G ∧
      (g < G → (m.foldl (fun a r => List.zipWith (· + ·) a r.2) acc).getD g 0 =
        acc.getD g 0 + (m.map (fun e => e.2.getD g 0)).sum)
  | [], acc, ha, _, g => ⟨ha, fun _ => by simp⟩
  | e :: m, acc, ha, hm, g => by
    have he := hm e (by simp)
    obtain ⟨h1, h2⟩ := zipWith_foldl m (List.zipWith (· + ·) acc e.2)
      (by simp [ha, he]) (fun e' he' => hm e' (by simp [he'])) g
    refine ⟨h1, fun hg => ?_⟩
    rw [List.foldl_cons, h2 hg]
    simp only [List.map_cons, List.sum_cons]
    have : (List.zipWith (· + ·) acc e.2).getD g 0 = acc.getD g 0 + e.2.getD g 0 := by
      simp [List.getD_eq_getElem?_getD, ha, he, hg]
    rw [this]; ring

/-- Everything the constructor establishes. -/
theorem create_spec {G : ℕ} {nodes : List MgNode} {m : Multigroup}
    (h : create G nodes = .ok m) :
    m.maxGroup = G ∧ SortedKeys m.reactions ∧ (∀ e ∈ m.reactions, e.2.length = G) ∧
    (∀ r, lk m.reactions r =
      (nodes.find? (fun n => decide ((nodeList G n).1 = r))).map (fun n => (nodeList G n).2)) ∧
    m.total = createTotalXS G m.reactions ∧
    optionally (oneDimensional G) (findNubar nodes) = .ok m.nubar ∧
    optionally (normalizedTwoDimensional G) (findChi nodes) = .ok m.chi ∧
    optionally (normalizedTwoDimensional G) (findScatter nodes) = .ok m.scatterProbs := by
  simp only [create, bind, Except.bind] at h
  split at h
  · cases h
  rename_i nubar hnubar
  split at h
  · cases h
  rename_i chi hchi
  split at h
  · cases h
  rename_i sp hsp
  split at h
  · cases h
  rename_i rs hrs
  simp only [Except.ok.injEq] at h
  subst h
  obtain ⟨h1, h2, h3⟩ := createReactions_spec hrs (by simp [SortedKeys]) (by simp)
  refine ⟨rfl, h1, h2, fun r => ?_, rfl, hnubar, hchi, hsp⟩
  rw [h3 r]
  simp [lk]

theorem lk_entry {G : ℕ} {nodes : List MgNode} {m : Multigroup} (h : create G nodes = .ok m)
    (r : Reaction) {g : ℕ} (h1 : 1 ≤ g) (h2 : g ≤ G) :
    ((lk m.reactions r).map (fun l => entry1 l g)).getD 0 = specXS G nodes r g := by
  obtain ⟨_, _, _, hlk, _⟩ := create_spec h
  rw [hlk r, specXS, ← find_node_eq nodes r g h1 h2, Option.map_map]
  rfl

theorem getTotal_eq {G : ℕ} {nodes : List MgNode} {m : Multigroup} (h : create G nodes = .ok m)
    {p : Particle} {g : ℕ} (hp : InGroup p g) (h1 : 1 ≤ g) (h2 : g ≤ G) :
    m.getTotal p = .ok (specTotal G nodes g) := by
  obtain ⟨hG, hs, hlen, hlk, ht, _⟩ := create_spec h
  have hz := zipWith_foldl (G := G) m.reactions (List.replicate G 0) (by simp) hlen (g - 1)
  rw [getTotal, hp]
  simp only [Energy.getGroup, bind, Except.bind]
  rw [ht, oneAt_ok h1 (by rw [createTotalXS, hz.1]; exact h2)]
  simp only [noexcept_ok, Except.ok.injEq]
  rw [entry1, createTotalXS, hz.2 (by omega)]
  have e0 : (List.replicate G (0 : ℝ)).getD (g - 1) 0 = 0 := by
    rw [List.getD_eq_getElem?_getD, List.getElem?_replicate]
    split_ifs <;> rfl
  rw [e0, zero_add]
  change (m.reactions.map (fun e => entry1 e.2 g)).sum = _
  rw [sum_eq_lk hs (fun l => entry1 l g)]
  rw [lk_entry h _ h1 h2, lk_entry h _ h1 h2, lk_entry h _ h1 h2]
  rfl

end Multigroup
end Minimc
