import Verif.Model.RoundedScore
import Verif.Spec.RoundedScore
import Verif.Lemmas.Double
import Verif.Lemmas.Score

/-! # Lemmas on scores in rounded arithmetic -/

open Classical

namespace Minimc

open Spec

namespace Rounded

variable {rnd : ℝ → ℝ}

theorem rnd_nat (h : Nearest rnd) {n : ℕ} (hn : n ≤ 2 ^ 53) : rnd (n : ℝ) = n :=
  h.self (IsDouble.nat hn)

theorem pendingAdd_eq {k : ℕ} {x : ℝ} : ∀ {l : Pending}, l.Sorted →
    rnd (Pending.val l k + x) = Pending.val l k + x → pendingAdd rnd k x l = Pending.add k x l
  | [], _, _ => rfl
  | (i, y) :: l, hs, hr => by
    have hs' := List.pairwise_cons.1 hs
    rw [pendingAdd, Pending.add]
    split
    · rfl
    · split
      · next h =>
        subst h
        have h0 : Pending.val l k = 0 :=
          Pending.val_of_not_mem (fun e he => Nat.ne_of_gt (hs'.1 e he))
        rw [Pending.val_cons, if_pos rfl, h0, add_zero] at hr
        rw [hr]
      · next h =>
        rw [Pending.val_cons, if_neg (Ne.symm h), zero_add] at hr
        rw [pendingAdd_eq hs'.2 hr]

/-- The pending scores are the given counts. -/
structure Counts (l : Pending) (c : ℕ → ℕ) (n : ℕ) : Prop where
  sorted : l.Sorted
  val : ∀ i, Pending.val l i = c i
  lt : ∀ e ∈ l, e.1 < n

theorem counts_nil (n : ℕ) : Counts [] (fun _ => 0) n :=
  ⟨List.Pairwise.nil, fun i => by simp [Pending.val_nil], fun _ h => by cases h⟩

theorem crossingsIn_cons (surface : SurfaceObj) (index : Particle → Res ℕ) (i : ℕ) (p : Particle)
    (ps : List Particle) : crossingsIn surface index i (p :: ps) =
      (if Crossed surface p ∧ index p = .ok i then 1 else 0) + crossingsIn surface index i ps := by
  unfold crossingsIn
  rw [List.countP_cons, add_comm]
  simp only [decide_eq_true_eq]

theorem scoreStates_counts (h : Nearest rnd) (surface : SurfaceObj) (index : Particle → Res ℕ)
    {n : ℕ} : ∀ (states : List Particle) {l : Pending} {c : ℕ → ℕ}, Counts l c n →
    (∀ p ∈ states, Crossed surface p → ∃ i < n, index p = .ok i) →
    (∀ i < n, c i + crossingsIn surface index i states ≤ 2 ^ 53) →
    ∃ l', scoreStates rnd index (fun p => .ok (currentScore surface p)) states l = .ok l' ∧
      Counts l' (fun i => c i + crossingsIn surface index i states) n
  | [], l, c, hl, _, _ => ⟨l, rfl, by simpa [crossingsIn] using hl⟩
  | p :: ps, l, c, hl, hi, hb => by
    have hi' := fun q hq => hi q (List.mem_cons_of_mem p hq)
    rw [scoreStates]
    by_cases hc : Crossed surface p
    · obtain ⟨k, hk, hkp⟩ := hi p (List.mem_cons_self ..) hc
      have e1 : pendingScore rnd index (.ok (currentScore surface p)) p l =
          .ok (Pending.add k 1 l) := by
        rw [pendingScore, currentScore_eq, if_pos hc]
        simp only [bind, Except.bind, one_ne_zero, if_false, hkp]
        rw [pendingAdd_eq hl.sorted]
        · rfl
        · rw [hl.val]
          have := hb k hk
          rw [crossingsIn_cons, if_pos ⟨hc, hkp⟩] at this
          have h1 := rnd_nat h (show c k + 1 ≤ 2 ^ 53 by omega)
          push_cast at h1
          exact h1
      have h' : Counts (Pending.add k 1 l) (fun i => c i + if k = i then 1 else 0) n := by
        refine ⟨Pending.sorted_add hl.sorted, ?_, ?_⟩
        · intro i
          rw [Pending.val_add, hl.val]
          push_cast
          rfl
        · intro e he
          rcases Pending.keys_add he with h | ⟨e', he', h⟩
          · rw [h]; exact hk
          · rw [← h]; exact hl.lt e' he'
      have hsame : ∀ i, (if Crossed surface p ∧ index p = .ok i then 1 else 0 : ℕ) =
          if k = i then 1 else 0 := by
        intro i
        by_cases hki : k = i
        · rw [if_pos hki, if_pos ⟨hc, by rw [hkp, hki]⟩]
        · rw [if_neg hki, if_neg]
          rintro ⟨_, h⟩
          rw [hkp] at h
          exact hki (Except.ok.inj h)
      obtain ⟨l', h1, h2⟩ := scoreStates_counts h surface index ps h' hi' (by
        intro i hin
        have := hb i hin
        rw [crossingsIn_cons, hsame] at this
        omega)
      refine ⟨l', ?_, ?_⟩
      · simp only [bind, Except.bind, e1]
        exact h1
      · refine ⟨h2.sorted, ?_, h2.lt⟩
        intro i
        rw [h2.val, crossingsIn_cons, hsame]
        push_cast
        ring
    · have e1 : pendingScore rnd index (.ok (currentScore surface p)) p l = .ok l := by
        rw [pendingScore, currentScore_eq, if_neg hc]
        simp only [bind, Except.bind, if_true]
        rfl
      have hsame : ∀ i, (if Crossed surface p ∧ index p = .ok i then 1 else 0 : ℕ) = 0 :=
        fun i => if_neg (fun h => hc h.1)
      obtain ⟨l', h1, h2⟩ := scoreStates_counts h surface index ps hl hi' (by
        intro i hin
        have := hb i hin
        rw [crossingsIn_cons, hsame] at this
        omega)
      refine ⟨l', ?_, ?_⟩
      · simp only [bind, Except.bind, e1]
        exact h1
      · refine ⟨h2.sorted, ?_, h2.lt⟩
        intro i
        rw [h2.val, crossingsIn_cons, hsame, zero_add]

/-- The scorable with counts for scores. -/
noncomputable def counted (s : Scorable) (t : ℕ → ℕ × ℕ) : Scorable :=
  s.withTally (fun i => ((t i).1, (t i).2))

theorem counted_congr {s : Scorable} {t u : ℕ → ℕ × ℕ} (h : ∀ i < s.bins.size, t i = u i) :
    counted s t = counted s u := withTally_eq_iff (fun i hi => by rw [h i hi])

theorem counted_zero (name : String) (bins : ParticleBins) :
    counted (Scorable.fresh name bins) (fun _ => (0, 0)) = Scorable.fresh name bins := by
  have hz : (List.range bins.size).map (fun _ => (0 : ℝ)) = List.replicate bins.size 0 := by
    rw [List.map_const', List.length_range]
  simp only [counted, Scorable.withTally, Scorable.fresh, Nat.cast_zero, hz]

theorem commit_counted (h : Nearest rnd) (s : Scorable) : ∀ (l : Pending) (c : ℕ → ℕ)
    (t : ℕ → ℕ × ℕ), Counts l c s.bins.size →
    (∀ i < s.bins.size, (t i).1 + c i ≤ 2 ^ 53 ∧ (t i).2 + c i ^ 2 ≤ 2 ^ 53) →
    commit rnd l (counted s t) = .ok (counted s (fun i => ((t i).1 + c i, (t i).2 + c i ^ 2)))
  | [], c, t, hc, _ => by
    rw [commit]
    congr 1
    apply counted_congr
    intro i _
    have : c i = 0 := by
      have := hc.val i
      rw [Pending.val_nil] at this
      exact_mod_cast this.symm
    simp [this]
  | (k, x) :: l, c, t, hc, hb => by
    have hs' := List.pairwise_cons.1 hc.sorted
    have hkn : k < s.bins.size := hc.lt (k, x) (List.mem_cons_self ..)
    have h0 : Pending.val l k = 0 :=
      Pending.val_of_not_mem (fun e he => Nat.ne_of_gt (hs'.1 e he))
    have hx : x = c k := by
      have := hc.val k
      rwa [Pending.val_cons, if_pos rfl, h0, add_zero] at this
    have h1 : (counted s t).scores[k]? = some ((t k).1 : ℝ) := by
      simp [counted, Scorable.withTally, hkn]
    have h2 : (counted s t).squareScores[k]? = some ((t k).2 : ℝ) := by
      simp [counted, Scorable.withTally, hkn]
    obtain ⟨hb1, hb2⟩ := hb k hkn
    have r1 : rnd (((t k).1 : ℝ) + x) = (((t k).1 + c k : ℕ) : ℝ) := by
      rw [hx, ← rnd_nat h hb1]; push_cast; rfl
    have r2 : rnd (x * x) = ((c k ^ 2 : ℕ) : ℝ) := by
      rw [hx, ← rnd_nat h (show c k ^ 2 ≤ 2 ^ 53 by omega)]; push_cast; rw [sq]
    have r3 : rnd (((t k).2 : ℝ) + rnd (x * x)) = (((t k).2 + c k ^ 2 : ℕ) : ℝ) := by
      rw [r2, ← rnd_nat h hb2]; push_cast; rfl
    rw [commit, h1, h2]
    dsimp only
    rw [r1, r3]
    have key : ({ counted s t with
        scores := (counted s t).scores.set k (((t k).1 + c k : ℕ) : ℝ)
        squareScores := (counted s t).squareScores.set k (((t k).2 + c k ^ 2 : ℕ) : ℝ) } : Scorable) =
        counted s (fun i => if i = k then ((t k).1 + c k, (t k).2 + c k ^ 2) else t i) := by
      unfold counted Scorable.withTally
      dsimp only
      rw [range_map_set, range_map_set]
      congr 1 <;>
      · apply List.map_congr_left
        intro i _
        by_cases h : i = k
        · rw [if_pos h, if_pos h]
        · rw [if_neg h, if_neg h]
    have hc' : Counts l (fun i => if i = k then 0 else c i) s.bins.size := by
      refine ⟨hs'.2, ?_, fun e he => hc.lt e (List.mem_cons_of_mem _ he)⟩
      intro i
      have := hc.val i
      rw [Pending.val_cons] at this
      by_cases hik : i = k
      · rw [if_pos hik, hik, h0, Nat.cast_zero]
      · rw [if_neg (Ne.symm hik), zero_add] at this
        rw [if_neg hik, this]
    rw [key, commit_counted h s l _ _ hc' (by
      intro i hi
      by_cases hik : i = k
      · simp only [if_pos hik]
        exact ⟨by simpa using hb1, by simpa using hb2⟩
      · simp only [if_neg hik]
        exact hb i hi)]
    congr 1
    apply counted_congr
    intro i _
    by_cases hik : i = k
    · subst hik; simp
    · simp only [if_neg hik]

theorem total_cons (a : List Particle) (hs : List (List Particle)) (f : List Particle → ℕ) :
    total (a :: hs) f = f a + total hs f := by simp [total]

theorem total_append (a b : List (List Particle)) (f : List Particle → ℕ) :
    total (a ++ b) f = total a f + total b f := by simp [total]

theorem le_sq_nat (n : ℕ) : n ≤ n ^ 2 := by
  rcases n with _ | n
  · simp
  · exact Nat.le_self_pow (by norm_num) _

theorem total_le_sq (hs : List (List Particle)) (f : List Particle → ℕ) :
    total hs f ≤ total hs (fun a => f a ^ 2) := by
  induction hs with
  | nil => rfl
  | cons a hs ih =>
    rw [total_cons, total_cons]
    exact add_le_add (le_sq_nat _) ih

theorem addHistories_counted (h : Nearest rnd) (surface : SurfaceObj) (index : Particle → Res ℕ)
    (s : Scorable) : ∀ (hs : List (List Particle)) (t : ℕ → ℕ × ℕ),
    (∀ states ∈ hs, ∀ p ∈ states, Crossed surface p → ∃ i < s.bins.size, index p = .ok i) →
    (∀ i < s.bins.size, (t i).1 + total hs (crossingsIn surface index i) ≤ 2 ^ 53 ∧
      (t i).2 + total hs (fun a => crossingsIn surface index i a ^ 2) ≤ 2 ^ 53) →
    addHistories rnd index (fun p => .ok (currentScore surface p)) hs (counted s t) =
      .ok (counted s (fun i => ((t i).1 + total hs (crossingsIn surface index i),
        (t i).2 + total hs (fun a => crossingsIn surface index i a ^ 2))))
  | [], t, _, _ => by
    rw [addHistories]
    simp [total]
  | a :: hs, t, hi, hb => by
    obtain ⟨l, h1, h2⟩ := scoreStates_counts h surface index a (counts_nil s.bins.size)
      (hi a (List.mem_cons_self ..)) (by
        intro i hi
        have := (hb i hi).1
        rw [total_cons] at this
        omega)
    have h3 := commit_counted h s l _ t h2 (by
      intro i hi
      have := hb i hi
      rw [total_cons, total_cons] at this
      simp only [zero_add]
      omega)
    rw [addHistories]
    simp only [bind, Except.bind, h1, h3]
    rw [addHistories_counted h surface index s hs _
      (fun b hb' => hi b (List.mem_cons_of_mem _ hb')) (by
        intro i hi
        have := hb i hi
        rw [total_cons, total_cons] at this
        simp only [zero_add]
        omega)]
    simp only [zero_add, total_cons, add_assoc]

theorem addAll_range (h : Nearest rnd) (f g : ℕ → ℕ) : ∀ (l : List ℕ),
    (∀ i ∈ l, f i + g i ≤ 2 ^ 53) →
    addAll rnd (l.map (fun i => (f i : ℝ))) (l.map (fun i => (g i : ℝ))) =
      .ok (l.map (fun i => ((f i + g i : ℕ) : ℝ)))
  | [], _ => rfl
  | i :: l, hb => by
    have h1 := rnd_nat h (hb i (List.mem_cons_self ..))
    push_cast at h1
    simp only [List.map_cons, addAll, bind, Except.bind,
      addAll_range h f g l (fun j hj => hb j (List.mem_cons_of_mem _ hj)), h1]
    push_cast
    rfl

theorem addScorable_counted (h : Nearest rnd) (s : Scorable) (t u : ℕ → ℕ × ℕ)
    (hb : ∀ i < s.bins.size, (t i).1 + (u i).1 ≤ 2 ^ 53 ∧ (t i).2 + (u i).2 ≤ 2 ^ 53) :
    addScorable rnd (counted s t) (counted s u) =
      .ok (counted s (fun i => ((t i).1 + (u i).1, (t i).2 + (u i).2))) := by
  simp only [addScorable, counted, Scorable.withTally,
    addAll_range h (fun i => (t i).1) (fun i => (u i).1) (List.range s.bins.size)
      (fun i hi => (hb i (List.mem_range.1 hi)).1),
    addAll_range h (fun i => (t i).2) (fun i => (u i).2) (List.range s.bins.size)
      (fun i hi => (hb i (List.mem_range.1 hi)).2), bind, Except.bind]

theorem solveScores_counted (h : Nearest rnd) (surface : SurfaceObj) (index : Particle → Res ℕ)
    (name : String) (bins : ParticleBins) :
    ∀ (workers : List (List (List Particle))) (t : ℕ → ℕ × ℕ),
    (∀ states ∈ workers.flatten, ∀ p ∈ states, Crossed surface p →
      ∃ i < bins.size, index p = .ok i) →
    (∀ i < bins.size, (t i).1 + total workers.flatten (crossingsIn surface index i) ≤ 2 ^ 53 ∧
      (t i).2 + total workers.flatten (fun a => crossingsIn surface index i a ^ 2) ≤ 2 ^ 53) →
    solveScores rnd index (fun p => .ok (currentScore surface p)) (Scorable.fresh name bins) workers
        (counted (Scorable.fresh name bins) t) =
      .ok (counted (Scorable.fresh name bins)
        (fun i => ((t i).1 + total workers.flatten (crossingsIn surface index i),
          (t i).2 + total workers.flatten (fun a => crossingsIn surface index i a ^ 2))))
  | [], t, _, _ => by
    rw [solveScores]
    simp [total]
  | w :: ws, t, hi, hb => by
    have hb' : ∀ i < bins.size,
        (t i).1 + (total w (crossingsIn surface index i) +
          total ws.flatten (crossingsIn surface index i)) ≤ 2 ^ 53 ∧
        (t i).2 + (total w (fun a => crossingsIn surface index i a ^ 2) +
          total ws.flatten (fun a => crossingsIn surface index i a ^ 2)) ≤ 2 ^ 53 := by
      intro i hi
      have := hb i hi
      rwa [List.flatten_cons, total_append, total_append] at this
    have h1 := addHistories_counted h surface index (Scorable.fresh name bins) w (fun _ => (0, 0))
      (fun a ha => hi a (by rw [List.flatten_cons]; exact List.mem_append_left _ ha)) (by
        intro i hi
        have := hb' i hi
        dsimp only
        omega)
    rw [counted_zero] at h1
    have h2 := addScorable_counted h (Scorable.fresh name bins) t
      (fun i => (0 + total w (crossingsIn surface index i),
        0 + total w (fun a => crossingsIn surface index i a ^ 2))) (by
        intro i hi
        have := hb' i hi
        dsimp only
        omega)
    rw [solveScores]
    simp only [bind, Except.bind, h1, h2]
    rw [solveScores_counted h surface index name bins ws _
      (fun a ha => hi a (by rw [List.flatten_cons]; exact List.mem_append_right _ ha)) (by
        intro i hi
        have := hb' i hi
        dsimp only
        omega)]
    simp only [zero_add, List.flatten_cons, total_append, add_assoc]

end Rounded
end Minimc
