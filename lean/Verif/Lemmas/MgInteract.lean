import Verif.Lemmas.MgScatter

/-! # Lemmas on the choice of a multigroup reaction and on fission -/

namespace Minimc

open Spec

namespace Multigroup

theorem lk_append (l r : List (Reaction × List ℝ)) (k : Reaction) :
    lk (l ++ r) k = (lk l k).or (lk r k) := by
  induction l with
  | nil => simp [lk]
  | cons a l ih =>
    rw [List.cons_append, lk_cons, lk_cons, ih]
    split_ifs <;> simp

/-- The weights of the three reactions in key order. -/
noncomputable def three (m : List (Reaction × List ℝ)) (w : List ℝ → ℝ) : List ℝ :=
  [((lk m .capture).map w).getD 0, ((lk m .scatter).map w).getD 0,
    ((lk m .fission).map w).getD 0]

theorem split_sum {l rest : List (Reaction × List ℝ)} {r : Reaction} {xs : List ℝ}
    (hs : SortedKeys (l ++ (r, xs) :: rest)) (w : List ℝ → ℝ) :
    (l.map (fun e => w e.2)).sum = ((three (l ++ (r, xs) :: rest) w).take (rank r)).sum ∧
    (three (l ++ (r, xs) :: rest) w)[rank r]? = some (w xs) := by
  obtain ⟨h1, h2, h3⟩ := List.pairwise_append.1 hs
  have hlt : ∀ e ∈ l, rank e.1 < rank r := fun e he => h3 e he (r, xs) (by simp)
  have hnone : ∀ k, rank r ≤ rank k → lk l k = none := by
    intro k hk
    apply lk_eq_none
    intro e he heq
    have := hlt e he
    rw [heq] at this
    omega
  have hl := sum_eq_lk (m := l) h1 w
  have hrest : ∀ k, rank k < rank r → lk ((r, xs) :: rest) k = none := by
    intro k hk
    apply lk_eq_none
    intro e he heq
    rcases List.mem_cons.1 he with rfl | he
    · simp only at heq; rw [heq] at hk; omega
    · have := (List.pairwise_cons.1 h2).1 e he
      rw [heq] at this; simp only at this; omega
  have hself : lk ((r, xs) :: rest) r = some xs := by rw [lk_cons]; simp
  rw [hl]
  simp only [three, lk_append]
  cases r with
  | capture =>
    rw [hnone .capture (by simp [rank]), hnone .scatter (by simp [rank]),
      hnone .fission (by simp [rank]), hself]
    simp [rank]
  | scatter =>
    rw [hnone .scatter (by simp [rank]), hnone .fission (by simp [rank]), hself,
      hrest .capture (by simp [rank])]
    simp [rank]
  | fission =>
    rw [hnone .fission (by simp [rank]), hself,
      hrest .capture (by simp [rank]), hrest .scatter (by simp [rank])]
    simp [rank]

theorem selected_three {l rest : List (Reaction × List ℝ)} {r : Reaction} {xs : List ℝ}
    (hs : SortedKeys (l ++ (r, xs) :: rest)) (w : List ℝ → ℝ) (θ : ℝ) :
    Selected ((l ++ (r, xs) :: rest).map (fun e => w e.2)) θ l.length ↔
      Selected (three (l ++ (r, xs) :: rest) w) θ (rank r) := by
  obtain ⟨h1, h2⟩ := split_sum hs w
  have e1 : (((l ++ (r, xs) :: rest).map (fun e => w e.2)).take l.length).sum
      = ((three (l ++ (r, xs) :: rest) w).take (rank r)).sum := by
    rw [← h1]; simp
  have e2 : (((l ++ (r, xs) :: rest).map (fun e => w e.2)).take (l.length + 1)).sum
      = ((three (l ++ (r, xs) :: rest) w).take (rank r + 1)).sum := by
    rw [List.take_add_one, List.sum_append, e1, List.take_add_one (i := rank r), List.sum_append,
      h2]
    simp
  unfold Selected
  rw [e1, e2]
  have : rank r < (three (l ++ (r, xs) :: rest) w).length := by
    cases r <;> simp [rank, three]
  simp [this]

theorem three_eq {G : ℕ} {nodes : List MgNode} {m : Multigroup} (h : create G nodes = .ok m)
    {g : ℕ} (h1 : 1 ≤ g) (h2 : g ≤ G) :
    three m.reactions (fun l => entry1 l g) =
      [specXS G nodes .capture g, specXS G nodes .scatter g, specXS G nodes .fission g] := by
  rw [three, lk_entry h _ h1 h2, lk_entry h _ h1 h2, lk_entry h _ h1 h2]

theorem nodeXS_nonneg {G : ℕ} {n : MgNode} (hn : NonnegNode n) {r : Reaction} {g : ℕ} {x : ℝ}
    (h : nodeXS G r g n = some x) : 0 ≤ x := by
  cases n with
  | capture xs =>
    simp only [nodeXS] at h
    split_ifs at h
    cases h; exact entry1_nonneg hn g
  | scatter flat =>
    simp only [nodeXS] at h
    split_ifs at h
    cases h; exact colSum_nonneg hn g
  | fission nubar chi xs =>
    simp only [nodeXS] at h
    split_ifs at h
    cases h; exact entry1_nonneg hn.1 g

theorem specXS_nonneg {G : ℕ} {nodes : List MgNode} (hn : NonnegNodes nodes) (r : Reaction)
    (g : ℕ) : 0 ≤ specXS G nodes r g := by
  rw [specXS]
  rcases hx : nodes.findSome? (nodeXS G r g) with _ | x
  · simp
  · obtain ⟨n, hmem, hx'⟩ := List.exists_of_findSome?_eq_some hx
    exact nodeXS_nonneg (hn n hmem) hx'

theorem entry_reaction_nonneg {G : ℕ} {nodes : List MgNode} {m : Multigroup}
    (h : create G nodes = .ok m) (hn : NonnegNodes nodes) {g : ℕ} (h1 : 1 ≤ g) (h2 : g ≤ G)
    {e : Reaction × List ℝ} (he : e ∈ m.reactions) : 0 ≤ entry1 e.2 g := by
  obtain ⟨_, hs, _⟩ := create_spec h
  have := lk_entry h e.1 h1 h2
  rw [(mem_iff_lk hs).1 (show (e.1, e.2) ∈ m.reactions from he)] at this
  simp only [Option.map_some, Option.getD_some] at this
  rw [this]
  exact specXS_nonneg hn e.1 g

/-- For a threshold below the total, the loop over the reactions picks the one into whose piece
the threshold falls, and it has a positive cross section. -/
theorem selectReaction_spec {G : ℕ} {nodes : List MgNode} {m : Multigroup}
    (h : create G nodes = .ok m) (hn : NonnegNodes nodes) {p : Particle} {g : ℕ}
    (hp : InGroup p g) (h1 : 1 ≤ g) (h2 : g ≤ G) {θ : ℝ} (hθ : 0 ≤ θ)
    (hlt : θ < specTotal G nodes g) :
    ∃ r xs, m.selectReaction p θ = .ok (some (r, xs)) ∧ (r, xs) ∈ m.reactions ∧
      0 < specXS G nodes r g ∧
      Selected [specXS G nodes .capture g, specXS G nodes .scatter g, specXS G nodes .fission g] θ
        (rank r) := by
  obtain ⟨_, hs, hlen, _⟩ := create_spec h
  have hf : ∀ e ∈ m.reactions,
      (fun r : Reaction × List ℝ => do oneAt r.2 (← p.energy.getGroup)) e
        = (.ok (entry1 e.2 g) : Res ℝ) := by
    intro e he
    rw [hp]
    simp only [Energy.getGroup, bind, Except.bind]
    exact oneAt_ok h1 (by rw [hlen e he]; exact h2)
  have hw : ∀ e ∈ m.reactions, 0 ≤ entry1 e.2 g :=
    fun e he => entry_reaction_nonneg h hn h1 h2 he
  have hsum : (m.reactions.map (fun e => entry1 e.2 g)).sum = specTotal G nodes g := by
    rw [sum_eq_lk hs (fun l => entry1 l g), lk_entry h _ h1 h2, lk_entry h _ h1 h2,
      lk_entry h _ h1 h2]
    rfl
  obtain ⟨i, hi⟩ := Selected.exists hθ (by rw [hsum]; exact hlt)
  have hil : i < m.reactions.length := by simpa using hi.1
  have hsel := selectLoop_of_selected (acc := 0) (θ := θ) hf hw (by simpa using hi)
  rw [List.getElem?_eq_getElem hil] at hsel
  obtain ⟨v, hv, hpos⟩ := Selected.pos hi
  rcases hrx : m.reactions[i] with ⟨r, xs⟩
  have hmem : (r, xs) ∈ m.reactions := hrx ▸ List.getElem_mem hil
  refine ⟨r, xs, ?_, hmem, ?_, ?_⟩
  · rw [← hrx]; exact hsel
  · have := lk_entry h r h1 h2
    rw [(mem_iff_lk hs).1 hmem] at this
    simp only [Option.map_some, Option.getD_some] at this
    rw [← this]
    simp [hil, hrx] at hv
    rw [hv]; exact hpos
  · have hsplit : m.reactions = m.reactions.take i ++ (r, xs) :: m.reactions.drop (i + 1) := by
      rw [← hrx, List.getElem_cons_drop, List.take_append_drop]
    have hlen' : (m.reactions.take i).length = i := by simp; omega
    rw [← three_eq h h1 h2]
    have := selected_three (l := m.reactions.take i) (r := r) (xs := xs)
      (rest := m.reactions.drop (i + 1)) (by rw [← hsplit]; exact hs) (fun l => entry1 l g) θ
    rw [← hsplit, hlen'] at this
    exact this.1 hi

theorem findScatter_eq (G : ℕ) (nodes : List MgNode) (g : ℕ) :
    nodes.findSome? (nodeXS G .scatter g) = (findScatter nodes).map (fun f => colSum G f g) := by
  induction nodes with
  | nil => rfl
  | cons n nodes ih =>
    cases n <;> simp [nodeXS, findScatter, ih]

theorem findScatter_mem {nodes : List MgNode} {flat : List ℝ} (h : findScatter nodes = some flat) :
    .scatter flat ∈ nodes := by
  induction nodes with
  | nil => simp [findScatter] at h
  | cons n nodes ih =>
    cases n <;> simp_all [findScatter]

theorem findChi_mem {nodes : List MgNode} {flat : List ℝ} (h : findChi nodes = some flat) :
    ∃ nubar xs, .fission nubar (some flat) xs ∈ nodes := by
  induction nodes with
  | nil => simp [findChi] at h
  | cons n nodes ih =>
    cases n with
    | fission a b c =>
      simp only [findChi] at h
      subst h
      exact ⟨a, c, by simp⟩
    | capture _ =>
      obtain ⟨a, c, hm⟩ := ih h
      exact ⟨a, c, by simp [hm]⟩
    | scatter _ =>
      obtain ⟨a, c, hm⟩ := ih h
      exact ⟨a, c, by simp [hm]⟩

theorem findNubar_mem {nodes : List MgNode} {l : List ℝ} (h : findNubar nodes = some l) :
    ∃ chi xs, .fission (some l) chi xs ∈ nodes := by
  induction nodes with
  | nil => simp [findNubar] at h
  | cons n nodes ih =>
    cases n with
    | fission a b c =>
      simp only [findNubar] at h
      subst h
      exact ⟨b, c, by simp⟩
    | capture _ =>
      obtain ⟨a, c, hm⟩ := ih h
      exact ⟨a, c, by simp [hm]⟩
    | scatter _ =>
      obtain ⟨a, c, hm⟩ := ih h
      exact ⟨a, c, by simp [hm]⟩

/-- The scattering step, spelled out. -/
theorem scatter_spec {G : ℕ} {nodes : List MgNode} {m : Multigroup} (h : create G nodes = .ok m)
    (hn : NonnegNodes nodes) {flat : List ℝ} (hf : findScatter nodes = some flat) {p : Particle}
    {g : ℕ} (hp : InGroup p g) (h1 : 1 ≤ g) (h2 : g ≤ G) (hr : Rng.Valid p.rng)
    (hpos : 0 < colSum G flat g) :
    ∃ g', 1 ≤ g' ∧ Selected (col G flat g) ((Rng.canonical p.rng).1 * colSum G flat g) (g' - 1) ∧
      m.scatter p = .ok { p with
        event := .scatter
        energy := .group g'
        direction := (Direction.isotropic (Rng.canonical p.rng).2).1
        rng := (Direction.isotropic (Rng.canonical p.rng).2).2 } := by
  obtain ⟨hG, _, _, _, _, _, _, hsp⟩ := create_spec h
  rw [hf] at hsp
  obtain ⟨t, ht, hsp'⟩ := optionally_some hsp
  obtain ⟨hl, rfl⟩ := normalized_length ht
  have hnn : ∀ x ∈ flat, 0 ≤ x := hn _ (findScatter_mem hf)
  have hu0 := (Rng.canonical_pos hr).le
  have hu1 := Rng.canonical_lt_one hr
  obtain ⟨g', hg'⟩ := selectGroup_exists (length_normCol G flat g) (normCol_nonneg hnn g) hu0
    (by rw [sum_normCol (ne_of_gt hpos)]; exact hu1)
  have hiff := (selectGroup_iff (length_normCol G flat g) (normCol_nonneg hnn g) hu0 g').1 hg'
  refine ⟨g', hiff.1, (selected_normCol hpos _ _).1 hiff.2, ?_⟩
  simp only [scatter, Particle.sample, hsp', optValue, bind, Except.bind]
  rw [hp]
  simp only [Energy.getGroup]
  rw [twoAt_map h1 h2]
  simp only [hG, hg']
  rfl

/-- The born particle that round `i` of the bank loop creates, from generator state `r`. -/
noncomputable def bornAt (p : Particle) (r : ℕ) (g : ℕ) : Born :=
  ⟨p.position, (Direction.isotropic (Rng.next^[2] r)).1, .group g, .neutron, Rng.next^[7] r, p.cell⟩

theorem bankLoop_succ {G : ℕ} {c : List ℝ} {n : ℕ} {p : Particle} {g : ℕ}
    (h : selectGroup G c (Rng.canonical p.rng).1 = .ok (some g)) :
    bankLoop G c (n + 1) p = bankLoop G c n { p with
      rng := Rng.next^[7] p.rng
      secondaries := p.secondaries ++ [bornAt p p.rng g] } := by
  rw [bankLoop]
  simp only [Particle.sample, h, bind, Except.bind]
  rfl

theorem bankLoop_spec {G : ℕ} {c : List ℝ} (hl : c.length = G) (hnn : ∀ x ∈ c, 0 ≤ x)
    (hsum : c.sum = 1) : ∀ (n : ℕ) (p : Particle) (_ : Rng.Valid p.rng),
    ∃ gs : List ℕ, gs.length = n ∧
      (∀ i g, gs[i]? = some g →
        1 ≤ g ∧ Selected c (Rng.canonical (Rng.next^[7 * i] p.rng)).1 (g - 1)) ∧
      bankLoop G c n p = .ok { p with
        rng := Rng.next^[7 * n] p.rng
        secondaries := p.secondaries ++
          gs.mapIdx (fun i g => bornAt p (Rng.next^[7 * i] p.rng) g) }
  | 0, p, _ => ⟨[], rfl, by simp, by simp [bankLoop]⟩
  | n + 1, p, hv => by
    have hu0 := (Rng.canonical_pos hv).le
    have hu1 := Rng.canonical_lt_one hv
    obtain ⟨g, hg⟩ := selectGroup_exists hl hnn hu0 (by rw [hsum]; exact hu1)
    have hsel := (selectGroup_iff hl hnn hu0 g).1 hg
    obtain ⟨gs, h1, h2, h3⟩ := bankLoop_spec hl hnn hsum n { p with
      rng := Rng.next^[7] p.rng
      secondaries := p.secondaries ++ [bornAt p p.rng g] } (Rng.valid_iterate hv 7)
    refine ⟨g :: gs, by simp [h1], ?_, ?_⟩
    · intro i g' hi
      rcases i with _ | i
      · simp at hi; subst hi; exact hsel
      · have := h2 i g' (by simpa using hi)
        rw [show 7 * (i + 1) = 7 * i + 7 by ring, Function.iterate_add_apply]
        exact this
    · rw [bankLoop_succ hg, h3]
      simp only [List.mapIdx_cons, List.append_assoc, List.singleton_append, Except.ok.injEq]
      have e : ∀ k, Rng.next^[7 * k] (Rng.next^[7] p.rng) = Rng.next^[7 * (k + 1)] p.rng := by
        intro k
        rw [show 7 * (k + 1) = 7 * k + 7 by ring, Function.iterate_add_apply]
      simp only [e]
      rfl

/-- With an all-zero emission spectrum no secondary is banked. -/
theorem bankLoop_zero {G : ℕ} {c : List ℝ} (hl : c.length = G) (hnn : ∀ x ∈ c, 0 ≤ x)
    (hsum : c.sum = 0) : ∀ (n : ℕ) (p : Particle) (_ : Rng.Valid p.rng),
      bankLoop G c n p = .ok { p with rng := Rng.next^[2 * n] p.rng }
  | 0, p, _ => by simp [bankLoop]
  | n + 1, p, hv => by
    have hu0 := (Rng.canonical_pos hv).le
    rw [bankLoop]
    simp only [Particle.sample]
    rw [selectGroup_none hl hnn (by rw [hsum]; exact hu0)]
    simp only [bind, Except.bind]
    rw [bankLoop_zero hl hnn hsum n _ (Rng.valid_canonical hv)]
    rw [show 2 * (n + 1) = 2 * n + 2 by ring, Function.iterate_add_apply]
    rfl

theorem toSize_ok {x : ℝ} (h : 0 ≤ x) : toSize x = .ok ⌊x⌋₊ := by
  rw [toSize, if_neg (by linarith)]

/-- Everything up to the bank loop. -/
theorem fission_loop {G : ℕ} {nodes : List MgNode} {m : Multigroup} (h : create G nodes = .ok m)
    (hn : NonnegNodes nodes) {nubar chi : List ℝ} (hnu : findNubar nodes = some nubar)
    (hchi : findChi nodes = some chi) {p : Particle} {g : ℕ} (hp : InGroup p g) (h1 : 1 ≤ g)
    (h2 : g ≤ G) (hr : Rng.Valid p.rng) :
    m.fission p = noexcept (bankLoop G (normCol G chi g)
      ⌊entry1 nubar g + (Rng.canonical p.rng).1⌋₊
      { p with event := .fission, rng := Rng.next^[2] p.rng }) ∧
    (∀ x ∈ nubar, 0 ≤ x) ∧ ∀ x ∈ chi, 0 ≤ x := by
  obtain ⟨hG, _, _, _, _, hnb, hch, _⟩ := create_spec h
  rw [hnu] at hnb
  rw [hchi] at hch
  obtain ⟨t, ht, hch'⟩ := optionally_some hch
  obtain ⟨hl, rfl⟩ := normalized_length ht
  obtain ⟨nb, hnb', hnb''⟩ := optionally_some hnb
  have hlen : nubar.length = G ∧ nb = nubar := by
    rw [oneDimensional] at hnb'
    split_ifs at hnb' with hl
    simp only [Except.ok.injEq] at hnb'
    exact ⟨by simpa using hl, hnb'.symm⟩
  obtain ⟨hlen, rfl⟩ := hlen
  obtain ⟨chi', xs', hm1⟩ := findNubar_mem hnu
  obtain ⟨nu', xs'', hm2⟩ := findChi_mem hchi
  have hnn1 : ∀ x ∈ nb, 0 ≤ x := (hn _ hm1).2.1 nb rfl
  have hnn2 : ∀ x ∈ chi, 0 ≤ x := (hn _ hm2).2.2 chi rfl
  refine ⟨?_, hnn1, hnn2⟩
  have hu0 := (Rng.canonical_pos hr).le
  simp only [fission, Particle.sample, hnb'', hch', optValue, bind, Except.bind]
  rw [hp]
  simp only [Energy.getGroup]
  rw [oneAt_ok h1 (by omega), twoAt_map h1 h2]
  simp only [hG]
  rw [toSize_ok (add_nonneg (entry1_nonneg hnn1 g) hu0)]
  rfl

theorem noexcept_idem {α : Type _} (r : Res α) : noexcept (noexcept r) = noexcept r := by
  rcases r with e | a
  · cases e <;> rfl
  · rfl

end Multigroup
end Minimc
