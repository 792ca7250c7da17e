import Verif.Lemmas.RoundedScore
import Verif.Lemmas.RoundedSelect
import Verif.Props.Score
import Verif.Model.Driver

/-! # Property C76: scores in double precision -/

open Classical

namespace Minimc

/-- A number closer to a double than half the distance of that double from its neighbours is rounded to
that double. -/
theorem Nearest.eq_of_close {rnd : ℝ → ℝ} (h : Nearest rnd) {x : ℝ} {m e : ℤ}
    (h1 : 4503599627370496 < m) (h2 : m < 9007199254740992)
    (hx : |x - m * (2 : ℝ) ^ e| < (2 : ℝ) ^ e / 2) : rnd x = m * (2 : ℝ) ^ e := by
  have hp : (0 : ℝ) < (2 : ℝ) ^ e := by positivity
  have hd : IsDouble (m * (2 : ℝ) ^ e) :=
    ⟨m, e, by rw [abs_of_pos (by omega)]; norm_num; exact h2, rfl⟩
  have hn := h.nearest x _ hd
  rw [abs_sub_comm (m * (2 : ℝ) ^ e) x] at hn
  have hm : (4503599627370496 : ℝ) + 1 ≤ m := by exact_mod_cast h1
  have hclose : |rnd x - m * (2 : ℝ) ^ e| < (2 : ℝ) ^ e := by
    have := abs_sub_le (rnd x) x (m * (2 : ℝ) ^ e)
    linarith
  rw [abs_lt] at hclose
  have hge : (2 : ℝ) ^ (e + 52) ≤ |rnd x| := by
    have e1 : (2 : ℝ) ^ (e + 52) = 4503599627370496 * (2 : ℝ) ^ e := by
      rw [zpow_add₀ (by norm_num)]
      have : (2 : ℝ) ^ (52 : ℤ) = 4503599627370496 := by norm_num [zpow_ofNat]
      rw [this]; ring
    rw [e1]
    refine le_trans ?_ (le_abs_self _)
    nlinarith
  obtain ⟨n, hn'⟩ := (h.isDouble x).multiple hge
  rw [show e + 52 - 52 = e by ring] at hn'
  rw [hn'] at hclose ⊢
  have hlt : |((n - m : ℤ) : ℝ)| < 1 := by
    push_cast
    rw [abs_lt]
    constructor
    · have : -((2 : ℝ) ^ e) < (n - m) * (2 : ℝ) ^ e := by linarith [hclose.1]
      nlinarith
    · have : (n - m) * (2 : ℝ) ^ e < (2 : ℝ) ^ e := by linarith [hclose.2]
      nlinarith
  have : n - m = 0 := by
    have : |n - m| < 1 := by exact_mod_cast hlt
    exact Int.abs_lt_one_iff.1 this
  rw [show n = m by omega]

namespace Props

open Spec

/-- Currents are exact in double precision: whatever the histories, however they are distributed over
the workers, as long as no bin has more than `2 ^ 53` in the sum over the histories of their squared
numbers of crossings, the scores of `CurrentEstimator` are the numbers of crossings, and the squared
scores the sums of their squares. -/
theorem C76_current {rnd : ℝ → ℝ} (h : Nearest rnd) (surface : SurfaceObj)
    (index : Particle → Res ℕ) (name : String) (bins : ParticleBins)
    (workers : List (List (List Particle)))
    (hi : ∀ states ∈ workers.flatten, ∀ p ∈ states, Crossed surface p →
      ∃ i < bins.size, index p = .ok i)
    (hb : ∀ i < bins.size,
      total workers.flatten (fun states => crossingsIn surface index i states ^ 2) ≤ 2 ^ 53) :
    Rounded.solveScores rnd index (fun p => .ok (currentScore surface p))
        (Scorable.fresh name bins) workers (Scorable.fresh name bins) =
      .ok ⟨name, bins,
        (List.range bins.size).map
          (fun i => (total workers.flatten (crossingsIn surface index i) : ℝ)),
        (List.range bins.size).map (fun i =>
          (total workers.flatten (fun states => crossingsIn surface index i states ^ 2) : ℝ))⟩ := by
  have h1 := Rounded.solveScores_counted h surface index name bins workers (fun _ => (0, 0)) hi (by
    intro i hi
    have h1 := hb i hi
    have h2 := Rounded.total_le_sq workers.flatten (crossingsIn surface index i)
    dsimp only
    omega)
  rw [Rounded.counted_zero] at h1
  rw [h1]
  simp only [Rounded.counted, Scorable.withTally, Scorable.fresh, zero_add]

/-- The scores of currents are the same, to the last bit, for any two ways to distribute the histories
over any numbers of workers. -/
theorem C76_any_schedule {rnd : ℝ → ℝ} (h : Nearest rnd) (surface : SurfaceObj)
    (index : Particle → Res ℕ) (name : String) (bins : ParticleBins)
    (workers workers' : List (List (List Particle)))
    (hp : workers.flatten.Perm workers'.flatten)
    (hi : ∀ states ∈ workers.flatten, ∀ p ∈ states, Crossed surface p →
      ∃ i < bins.size, index p = .ok i)
    (hb : ∀ i < bins.size,
      total workers.flatten (fun states => crossingsIn surface index i states ^ 2) ≤ 2 ^ 53) :
    Rounded.solveScores rnd index (fun p => .ok (currentScore surface p))
        (Scorable.fresh name bins) workers (Scorable.fresh name bins) =
      Rounded.solveScores rnd index (fun p => .ok (currentScore surface p))
        (Scorable.fresh name bins) workers' (Scorable.fresh name bins) := by
  have ht : ∀ f, total workers.flatten f = total workers'.flatten f :=
    fun f => (hp.map f).sum_eq
  rw [C76_current h surface index name bins workers hi hb,
    C76_current h surface index name bins workers'
      (fun states hs => hi states (hp.mem_iff.2 hs)) (fun i hi => by rw [← ht]; exact hb i hi)]
  simp only [ht]

/-- Instance: two histories crossing the plane twice and once; with two workers and with one. -/
example (plane : SurfaceObj) :
    Rounded.solveScores double (fun _ => .ok 0) (fun p => .ok (currentScore plane p))
        (Scorable.fresh "c" oneBin)
        [[[exampleState 2 plane .surfaceCross, exampleState 9 plane .scatter,
          exampleState 3 plane .leak]], [[exampleState 2 plane .leak]]]
        (Scorable.fresh "c" oneBin) = .ok ⟨"c", oneBin, [3], [5]⟩ := by
  have h1 : Crossed plane (exampleState 2 plane .surfaceCross) :=
    ⟨plane, rfl, rfl, Or.inl rfl⟩
  have h2 : ¬ Crossed plane (exampleState 9 plane .scatter) := by
    rintro ⟨_, _, _, h | h⟩ <;> cases h
  have h3 : Crossed plane (exampleState 3 plane .leak) := ⟨plane, rfl, rfl, Or.inr rfl⟩
  have h4 : Crossed plane (exampleState 2 plane .leak) := ⟨plane, rfl, rfl, Or.inr rfl⟩
  have hsz : oneBin.size = 1 := rfl
  have c1 : crossingsIn plane (fun _ => .ok 0) 0 [exampleState 2 plane .surfaceCross,
      exampleState 9 plane .scatter, exampleState 3 plane .leak] = 2 := by
    simp [crossingsIn, h1, h2, h3]
  have c2 : crossingsIn plane (fun _ => .ok 0) 0 [exampleState 2 plane .leak] = 1 := by
    simp [crossingsIn, h4]
  rw [C76_current double_nearest]
  · simp only [hsz, List.range_one, List.map_cons, List.map_nil, List.flatten_cons,
      List.flatten_nil, List.append_nil, List.cons_append, List.nil_append, total, c1, c2]
    norm_num
  · intro _ _ _ _ _
    exact ⟨0, by rw [hsz]; norm_num, rfl⟩
  · intro i hi
    rw [hsz] at hi
    obtain rfl : i = 0 := by omega
    simp only [List.flatten_cons, List.flatten_nil, List.append_nil, List.cons_append,
      List.nil_append, total, List.map_cons, List.map_nil, c1, c2]
    norm_num

/-! ## Sensitivities depend on the schedule -/

/-- Three histories, two workers, the same histories in the same order: one sensitivity is 1 if the
first worker does all of them, and 1 + 2^-52 if it does the first only.  (The effects are 1 and twice
3 * 2^-55.) -/
theorem C76_any_schedule_violated {rnd : ℝ → ℝ} (h : Nearest rnd) (plane : SurfaceObj) :
    ∃ (s : Sensitivity) (h₁ h₂ h₃ : List Particle) (r r' : Scorable),
      Rounded.solveScores rnd (fun _ => .ok 0) (Rounded.sensitivityScore rnd s) s.base
        [[h₁, h₂, h₃], []] s.base = .ok r ∧
      Rounded.solveScores rnd (fun _ => .ok 0) (Rounded.sensitivityScore rnd s) s.base
        [[h₁], [h₂, h₃]] s.base = .ok r' ∧
      r.scores = [1] ∧ r'.scores = [1 + 1 / 2 ^ 52] := by
  have hcross : ∀ x, currentScore plane (exampleState x plane .leak) = 1 := by
    intro x
    rw [currentScore_eq, if_pos ⟨plane, rfl, rfl, Or.inr rfl⟩]
  have heff : ∀ x, (exampleState x plane .leak).getIndirectEffect exampleQ = .ok x := fun x => rfl
  have da : IsDouble (3 / 2 ^ 55) := ⟨3, -55, by norm_num, by rw [zpow_neg]; norm_num⟩
  have d2a : IsDouble (3 / 2 ^ 55 + 3 / 2 ^ 55) :=
    ⟨3, -54, by norm_num, by rw [zpow_neg]; norm_num⟩
  have r1 : rnd (1 + 3 / 2 ^ 55) = 1 := by
    have hn := h.nearest (1 + 3 / 2 ^ 55) 1 IsDouble.one
    have hge : (1 : ℝ) ≤ rnd (1 + 3 / 2 ^ 55) := by
      conv_lhs => rw [← h.one]
      exact h.mono (by norm_num)
    obtain ⟨n, hn'⟩ := (h.isDouble (1 + 3 / 2 ^ 55)).multiple (k := 0)
      (by rw [zpow_zero]; exact hge.trans (le_abs_self _))
    rw [hn'] at hn hge ⊢
    rw [show (2 : ℝ) ^ ((0 : ℤ) - 52) = 1 / 4503599627370496 by
      rw [show ((0 : ℤ) - 52) = -52 by norm_num, zpow_neg]; norm_num] at hn hge ⊢
    have h1 : (4503599627370496 : ℤ) ≤ n := by
      have : (4503599627370496 : ℝ) ≤ n := by linarith
      exact_mod_cast this
    have h2 : n < 4503599627370497 := by
      rw [abs_of_nonpos (by norm_num : (1 : ℝ) - (1 + 3 / 2 ^ 55) ≤ 0)] at hn
      have := (abs_le.1 hn).2
      have : (n : ℝ) < 4503599627370497 := by linarith
      exact_mod_cast this
    rw [show n = 4503599627370496 by omega]
    norm_num
  have r2 : rnd (1 + (3 / 2 ^ 55 + 3 / 2 ^ 55)) = 1 + 1 / 2 ^ 52 := by
    have := h.eq_of_close (x := 1 + (3 / 2 ^ 55 + 3 / 2 ^ 55)) (m := 4503599627370497) (e := -52)
      (by norm_num) (by norm_num) (by rw [zpow_neg, abs_lt]; norm_num)
    rw [this, zpow_neg]
    norm_num
  let s : Sensitivity := ⟨⟨"right::q", oneBin, [0], [0]⟩, plane, exampleQ⟩
  have pend : ∀ x : ℝ, x ≠ 0 → rnd x = x →
      Rounded.scoreStates rnd (fun _ => .ok 0) (Rounded.sensitivityScore rnd s)
        [exampleState x plane .leak] [] = .ok [(0, x)] := by
    intro x hx hr
    have e1 : Rounded.sensitivityScore rnd s (exampleState x plane .leak) = .ok x := by
      simp only [Rounded.sensitivityScore, s, heff, bind, Except.bind, hcross, mul_one, hr]
    simp only [Rounded.scoreStates, bind, Except.bind, e1, Rounded.pendingScore, if_neg hx,
      Rounded.pendingAdd, noexcept]
  have step : ∀ (x : ℝ), x ≠ 0 → rnd x = x → ∀ (rest : List (List Particle)) (a b : ℝ),
      Rounded.addHistories rnd (fun _ => .ok 0) (Rounded.sensitivityScore rnd s)
        ([exampleState x plane .leak] :: rest) ⟨"right::q", oneBin, [a], [b]⟩ =
      Rounded.addHistories rnd (fun _ => .ok 0) (Rounded.sensitivityScore rnd s) rest
        ⟨"right::q", oneBin, [rnd (a + x)], [rnd (b + rnd (x * x))]⟩ := by
    intro x hx hr rest a b
    rw [Rounded.addHistories]
    simp only [bind, Except.bind, pend x hx hr]
    rfl
  have merge : ∀ (a b a' b' : ℝ),
      Rounded.addScorable rnd ⟨"right::q", oneBin, [a], [b]⟩ ⟨"right::q", oneBin, [a'], [b']⟩ =
        .ok ⟨"right::q", oneBin, [rnd (a + a')], [rnd (b + b')]⟩ := fun _ _ _ _ => rfl
  have stop : ∀ b : Scorable, Rounded.addHistories rnd (fun _ => .ok 0)
      (Rounded.sensitivityScore rnd s) [] b = .ok b := fun _ => rfl
  have ha0 : (3 / 2 ^ 55 : ℝ) ≠ 0 := by norm_num
  have hbase : s.base = ⟨"right::q", oneBin, [0], [0]⟩ := rfl
  refine ⟨s, [exampleState 1 plane .leak],
    [exampleState (3 / 2 ^ 55) plane .leak], [exampleState (3 / 2 ^ 55) plane .leak], ?_⟩
  simp only [Rounded.solveScores, hbase, step 1 one_ne_zero h.one, step _ ha0 (h.self da), stop, bind,
    Except.bind, merge, Except.ok.injEq]
  refine ⟨_, _, rfl, rfl, ?_, ?_⟩
  · simp only [zero_add, add_zero, h.one, r1]
  · simp only [zero_add, h.one, h.self da, h.self d2a, r2]

/-! ## Printed numbers -/

theorem sum_sq_le_sq_sum : ∀ cs : List ℕ, (cs.map (fun c => c ^ 2)).sum ≤ cs.sum ^ 2
  | [] => by simp
  | c :: cs => by
    have := sum_sq_le_sq_sum cs
    rw [List.map_cons, List.sum_cons, List.sum_cons]
    nlinarith [Nat.zero_le (c * cs.sum)]

theorem cast_sum (cs : List ℕ) : ((cs.map (Nat.cast : ℕ → ℝ)).sum) = (cs.sum : ℝ) :=
  (Nat.cast_list_sum cs).symm

theorem cast_sum_sq (cs : List ℕ) :
    (((cs.map (Nat.cast : ℕ → ℝ)).map (fun x => x ^ 2)).sum) =
      (((cs.map (fun c : ℕ => c ^ 2)).sum : ℕ) : ℝ) := by
  induction cs with
  | nil => simp
  | cons c cs ih =>
    rw [List.map_cons, List.map_cons, List.map_cons, List.sum_cons, List.sum_cons, ih]
    push_cast
    rfl

/-- The mean of a current is printed to the last digit of a double. -/
theorem C76_mean {rnd : ℝ → ℝ} (h : Nearest rnd) (cs : List ℕ) (hne : cs ≠ []) :
    ∃ x, Rounded.mean rnd cs.sum cs.length = .ok x ∧ IsDouble x ∧
      ∀ y, IsDouble y → |x - Spec.mean (cs.map Nat.cast)| ≤ |y - Spec.mean (cs.map Nat.cast)| := by
  have hN : (cs.length : ℝ) ≠ 0 := by exact_mod_cast (List.length_pos_iff.2 hne).ne'
  refine ⟨_, if_neg hN, h.isDouble _, ?_⟩
  intro y hy
  have : Spec.mean (cs.map (Nat.cast : ℕ → ℝ)) = cs.sum / cs.length := by
    rw [Spec.mean, cast_sum, List.length_map]
  rw [this]
  exact h.nearest _ y hy

/-- The standard deviation of a current, when the histories together have at most 94906265 crossings:
a number is printed, it is zero exactly if all histories have the same number of crossings, and its
square is within a few roundings of the mean squared score over the number of histories. -/
theorem C76_std_dev_partial {rnd : ℝ → ℝ} (h : Nearest rnd) (cs : List ℕ) (hne : cs ≠ [])
    (hS : cs.sum ≤ 94906265) :
    ∃ x, Rounded.stdDev rnd cs.sum ((cs.map (fun c => c ^ 2)).sum : ℕ) cs.length = .ok x ∧
      0 ≤ x ∧ (x = 0 ↔ ∀ c ∈ cs, ∀ c' ∈ cs, c = c') ∧
      |x ^ 2 - standardError (cs.map Nat.cast) ^ 2| ≤
        8 / 2 ^ 53 * ((cs.map (fun c => c ^ 2)).sum : ℕ) / (cs.length : ℝ) ^ 2 := by
  obtain ⟨S, hSdef⟩ : ∃ S, S = cs.sum := ⟨_, rfl⟩
  obtain ⟨Q, hQdef⟩ : ∃ Q, Q = (cs.map (fun c => c ^ 2)).sum := ⟨_, rfl⟩
  obtain ⟨N, hNdef⟩ : ∃ N, N = cs.length := ⟨_, rfl⟩
  rw [← hSdef] at hS
  have hN0 : 0 < N := by rw [hNdef]; exact List.length_pos_iff.2 hne
  have hNR : (0 : ℝ) < N := by exact_mod_cast hN0
  have hS2 : S ^ 2 < 9007199254740992 := by nlinarith
  have hQS : Q ≤ S ^ 2 := by rw [hQdef, hSdef]; exact sum_sq_le_sq_sum cs
  have hne' : cs.map (Nat.cast : ℕ → ℝ) ≠ [] := by simpa using hne
  have hdev := sum_sq_dev_mean hne'
  rw [cast_sum, cast_sum_sq, List.length_map, ← hSdef, ← hQdef, ← hNdef] at hdev
  have hV0 : (0 : ℝ) ≤ Q - S * S / N := by
    rw [← hdev]
    apply List.sum_nonneg
    intro x hx
    obtain ⟨y, _, rfl⟩ := List.mem_map.1 hx
    positivity
  have hse : standardError (cs.map (Nat.cast : ℕ → ℝ)) ^ 2 = (Q - S * S / N) / N ^ 2 := by
    rw [standardError_eq hne', hdev, List.length_map, ← hNdef, div_pow, Real.sq_sqrt hV0]
  have hiff : (Q : ℝ) - S * S / N = 0 ↔ ∀ c ∈ cs, ∀ c' ∈ cs, c = c' := by
    have := C35_zero_iff_equal hne'
    rw [← sq_eq_zero_iff, hse, div_eq_zero_iff, or_iff_left (by positivity)] at this
    rw [this]
    simp
  have e1 : rnd ((S : ℝ) * S) = S * S := by
    have := Rounded.rnd_nat h (n := S ^ 2) (by omega)
    push_cast at this
    rwa [sq] at this
  have hQd : rnd (Q : ℝ) = Q := Rounded.rnd_nat h (by omega)
  obtain ⟨r, hr⟩ : ∃ r, r = rnd ((S : ℝ) * S / N) := ⟨_, rfl⟩
  have hrQ : r ≤ Q := by
    rw [hr, ← hQd]
    exact h.mono (by linarith)
  have hq0 : (0 : ℝ) ≤ S * S / N := by positivity
  have hrerr : |r - S * S / N| ≤ S * S / N / 2 ^ 53 := by
    have := h.err ((S : ℝ) * S / N)
    rwa [abs_of_nonneg hq0, ← hr] at this
  have hd0 : 0 ≤ rnd (Q - r) := h.nonneg (by linarith)
  have hval : Rounded.stdDev rnd S Q N =
      .ok (rnd (rnd (Real.sqrt (rnd (Q - r))) / N)) := by
    simp only [Rounded.stdDev, e1, ← hr, if_neg hNR.ne', if_neg (not_lt.2 hd0)]
  rw [← hSdef, ← hQdef, ← hNdef]
  refine ⟨_, hval, ?_, ?_, ?_⟩
  · exact h.nonneg (div_nonneg (h.nonneg (Real.sqrt_nonneg _)) hNR.le)
  · rw [← hiff]
    constructor
    · intro hx
      have hD : (Q : ℝ) - r = 0 := by
        by_contra hD
        have hD' : 0 < (Q : ℝ) - r := lt_of_le_of_ne (by linarith) (Ne.symm hD)
        have := h.pos (div_pos (h.pos (Real.sqrt_pos.2 (h.pos hD'))) hNR)
        linarith
      have hrQ' : r = Q := by linarith
      rw [hrQ'] at hrerr
      have h1 := (abs_le.1 hrerr).2
      have h2 : (N : ℝ) * Q - S * S ≤ S * S / 2 ^ 53 := by
        have e : (N : ℝ) * Q - S * S = N * (Q - S * S / N) := by field_simp
        have e' : (S : ℝ) * S / 2 ^ 53 = N * (S * S / N / 2 ^ 53) := by field_simp
        rw [e, e']
        exact mul_le_mul_of_nonneg_left h1 hNR.le
      have h3 : (S : ℝ) * S < 9007199254740992 := by
        have : ((S ^ 2 : ℕ) : ℝ) < 9007199254740992 := by exact_mod_cast hS2
        push_cast at this
        rwa [sq] at this
      have h4 : ((N * Q : ℕ) : ℝ) < ((S * S + 1 : ℕ) : ℝ) := by
        push_cast
        have : (S : ℝ) * S / 2 ^ 53 < 1 := by rw [div_lt_one (by norm_num)]; norm_num; exact h3
        linarith
      have h5 : N * Q ≤ S * S := Nat.lt_succ_iff.1 (by exact_mod_cast h4)
      have h6 : (N : ℝ) * Q ≤ S * S := by exact_mod_cast h5
      have : (Q : ℝ) ≤ S * S / N := by rw [le_div_iff₀ hNR]; linarith
      linarith
    · intro hV
      have : r = Q := by rw [hr, show (S : ℝ) * S / N = Q by linarith, hQd]
      rw [this, sub_self, h.zero, Real.sqrt_zero, h.zero, zero_div, h.zero]
  · have hD0 : 0 ≤ (Q : ℝ) - r := by linarith
    obtain ⟨D, hD⟩ : ∃ D, D = (Q : ℝ) - r := ⟨_, rfl⟩
    rw [← hD] at hD0 hd0 ⊢
    obtain ⟨d, hd⟩ : ∃ d, d = rnd D := ⟨_, rfl⟩
    rw [← hd] at hd0 ⊢
    obtain ⟨s, hs⟩ : ∃ s, s = rnd (Real.sqrt d) := ⟨_, rfl⟩
    rw [← hs]
    have hs0 : 0 ≤ s := by rw [hs]; exact h.nonneg (Real.sqrt_nonneg _)
    have n1 : Near 1 D d := by rw [hd]; exact h.near hD0
    have n2 : Near 1 (Real.sqrt d) s := by rw [hs]; exact h.near (Real.sqrt_nonneg _)
    have n2' : Near 2 d (s * s) := by
      have := n2.mul n2 (Real.sqrt_nonneg _) (Real.sqrt_nonneg _) hs0 hs0
      rwa [Real.mul_self_sqrt hd0] at this
    have n3 : Near 1 (s / N) (rnd (s / N)) := h.near (div_nonneg hs0 hNR.le)
    obtain ⟨x, hx⟩ : ∃ x, x = rnd (s / N) := ⟨_, rfl⟩
    rw [← hx] at n3 ⊢
    have hx0 : 0 ≤ x := n3.nonneg (div_nonneg hs0 hNR.le)
    have n3' : Near 2 (s / N * (s / N)) (x * x) :=
      n3.mul n3 (div_nonneg hs0 hNR.le) (div_nonneg hs0 hNR.le) hx0 hx0
    have n4 : Near 3 D (s * s) := n1.trans n2'
    have n5 : Near 5 (D / N ^ 2) (x ^ 2) := by
      have n6 : Near 3 (D / N ^ 2) (s / N * (s / N)) := by
        have hN2 : (0 : ℝ) < N ^ 2 := by positivity
        have := n4.div (Near.refl ((N : ℝ) ^ 2)) hD0 hN2 (mul_self_nonneg s) hN2
        rw [show s / N * (s / N) = s * s / N ^ 2 by field_simp]
        exact this
      have := n6.trans n3'
      rwa [← sq x] at this
    obtain ⟨a, b⟩ := n5
    have hf : (1 : ℝ) - 5 / 2 ^ 53 ≤ (1 - 1 / 2 ^ 53) ^ 5 := by norm_num
    have hDQ : D ≤ Q := by
      have : 0 ≤ r := by rw [hr]; exact h.nonneg hq0
      linarith
    have hDV : |D - (Q - S * S / N)| ≤ Q / 2 ^ 53 := by
      rw [hD, show (Q : ℝ) - r - (Q - S * S / N) = -(r - S * S / N) by ring, abs_neg]
      refine hrerr.trans ?_
      gcongr
      linarith
    rw [hse]
    have hu0 : 0 ≤ D / (N : ℝ) ^ 2 := by positivity
    have hx2 : 0 ≤ x ^ 2 := sq_nonneg x
    have hDN : D / (N : ℝ) ^ 2 ≤ Q / N ^ 2 := by gcongr
    have k1 : |x ^ 2 - D / (N : ℝ) ^ 2| ≤ 6 / 2 ^ 53 * (Q / N ^ 2) := by
      have l1 : D / (N : ℝ) ^ 2 * (1 - 5 / 2 ^ 53) ≤ x ^ 2 := by
        refine le_trans ?_ a
        exact mul_le_mul_of_nonneg_left hf hu0
      have l2 : x ^ 2 * (1 - 5 / 2 ^ 53) ≤ D / (N : ℝ) ^ 2 := by
        refine le_trans ?_ b
        exact mul_le_mul_of_nonneg_left hf hx2
      rw [abs_le]
      constructor
      · linarith
      · have : x ^ 2 ≤ D / (N : ℝ) ^ 2 * (1 + 6 / 2 ^ 53) := by
          by_contra hcon
          push Not at hcon
          have h1 : D / (N : ℝ) ^ 2 * (1 + 6 / 2 ^ 53) * (1 - 5 / 2 ^ 53) <
              x ^ 2 * (1 - 5 / 2 ^ 53) := by
            apply mul_lt_mul_of_pos_right hcon
            norm_num
          have h2 : D / (N : ℝ) ^ 2 * 1 ≤ D / (N : ℝ) ^ 2 * ((1 + 6 / 2 ^ 53) * (1 - 5 / 2 ^ 53)) :=
            mul_le_mul_of_nonneg_left (by norm_num) hu0
          linarith
        linarith
    have k2 : |D / (N : ℝ) ^ 2 - (Q - S * S / N) / N ^ 2| ≤ 1 / 2 ^ 53 * (Q / N ^ 2) := by
      rw [← sub_div, abs_div, abs_of_pos (by positivity : (0 : ℝ) < N ^ 2)]
      rw [show 1 / 2 ^ 53 * ((Q : ℝ) / N ^ 2) = Q / 2 ^ 53 / N ^ 2 by ring]
      gcongr
    have hQN : 0 ≤ (Q : ℝ) / N ^ 2 := by positivity
    calc |x ^ 2 - (Q - S * S / N) / (N : ℝ) ^ 2|
        ≤ |x ^ 2 - D / (N : ℝ) ^ 2| + |D / (N : ℝ) ^ 2 - (Q - S * S / N) / N ^ 2| :=
          abs_sub_le _ _ _
      _ ≤ 6 / 2 ^ 53 * (Q / N ^ 2) + 1 / 2 ^ 53 * (Q / N ^ 2) := add_le_add k1 k2
      _ ≤ 8 / 2 ^ 53 * (Q / N ^ 2) := by linarith
      _ = 8 / 2 ^ 53 * Q / (N : ℝ) ^ 2 := by ring

/-- Instance: three histories with 1, 2 and 3 crossings. -/
example : ([1, 2, 3] : List ℕ) ≠ [] ∧ ([1, 2, 3] : List ℕ).sum ≤ 94906265 := by decide

/-- In 379625063 histories of one crossing each, the number under the root is rounded to a negative
one and "nan" is printed for a standard deviation of zero, whatever is done about ties. -/
theorem C76_std_dev_violated {rnd : ℝ → ℝ} (h : Nearest rnd) :
    (∀ cs : List ℕ, cs = List.replicate 379625063 1 →
      Rounded.stdDev rnd cs.sum ((cs.map (fun c => c ^ 2)).sum : ℕ) cs.length = .error .nan) ∧
    ∀ cs : List ℕ, cs = List.replicate 379625063 1 →
      standardError (cs.map Nat.cast) = 0 := by
  constructor
  · intro cs hcs
    have h1 : cs.sum = 379625063 := by rw [hcs, List.sum_replicate]; norm_num
    have h2 : (cs.map (fun c => c ^ 2)).sum = 379625063 := by
      rw [hcs, List.map_replicate, List.sum_replicate]; norm_num
    have h3 : cs.length = 379625063 := by rw [hcs, List.length_replicate]
    rw [h1, h2, h3]
    have r1 : rnd (((379625063 : ℕ) : ℝ) * ((379625063 : ℕ) : ℝ)) = 144115188457753984 := by
      have := h.eq_of_close (x := ((379625063 : ℕ) : ℝ) * ((379625063 : ℕ) : ℝ))
        (m := 4503599639304812) (e := 5) (by norm_num) (by norm_num)
        (by rw [show (2 : ℝ) ^ (5 : ℤ) = 32 by norm_num [zpow_ofNat], abs_lt]; norm_num)
      rw [this, show (2 : ℝ) ^ (5 : ℤ) = 32 by norm_num [zpow_ofNat]]
      norm_num
    have r2 : rnd ((144115188457753984 : ℝ) / ((379625063 : ℕ) : ℝ)) = 379625063 + 1 / 16777216 := by
      have e24 : (2 : ℝ) ^ (-24 : ℤ) = 1 / 16777216 := by rw [zpow_neg]; norm_num
      have := h.eq_of_close (x := (144115188457753984 : ℝ) / ((379625063 : ℕ) : ℝ))
        (m := 6369051680964609) (e := -24) (by norm_num) (by norm_num)
        (by rw [e24, abs_lt]; norm_num)
      rw [this, e24]
      norm_num
    have r3 : rnd (((379625063 : ℕ) : ℝ) - (379625063 + 1 / 16777216)) < 0 := by
      have hd : IsDouble (-(1 / 16777216)) :=
        ⟨-1, -24, by norm_num, by rw [zpow_neg]; norm_num⟩
      rw [show ((379625063 : ℕ) : ℝ) - (379625063 + 1 / 16777216) = -(1 / 16777216) by norm_num,
        h.self hd]
      norm_num
    simp only [Rounded.stdDev, r1, r2, if_pos r3]
    rw [if_neg (by norm_num)]
  · intro cs hcs
    have hne : cs.map (Nat.cast : ℕ → ℝ) ≠ [] := by
      intro h0
      have : cs.length = 0 := by simpa using h0
      rw [hcs, List.length_replicate] at this
      omega
    rw [C35_zero_iff_equal hne]
    intro x hx y hy
    rw [hcs, List.map_replicate] at hx hy
    rw [List.eq_of_mem_replicate hx, List.eq_of_mem_replicate hy]

/-! ## Without rounding -/

theorem Rounded.pendingAdd_id (k : ℕ) (x : ℝ) : ∀ l : Pending,
    Minimc.Rounded.pendingAdd id k x l = Pending.add k x l
  | [] => rfl
  | (i, y) :: l => by
    rw [Minimc.Rounded.pendingAdd, Pending.add, Rounded.pendingAdd_id k x l]
    rfl

theorem Rounded.commit_id : ∀ (l : Pending) (s : Scorable),
    Minimc.Rounded.commit id l s = l.commit s
  | [], _ => rfl
  | (i, y) :: l, s => by
    rw [Minimc.Rounded.commit, Pending.commit]
    rcases s.scores[i]? with _ | a
    · rfl
    · rcases s.squareScores[i]? with _ | b
      · rfl
      · exact Rounded.commit_id l _

theorem Rounded.addAll_id : ∀ (xs ys : List ℝ), Minimc.Rounded.addAll id xs ys = Scorable.addAll xs ys
  | [], _ => rfl
  | _ :: _, [] => rfl
  | x :: xs, y :: ys => by
    rw [Minimc.Rounded.addAll, Scorable.addAll, Rounded.addAll_id xs ys]
    rfl

theorem commit_bins : ∀ {l : Pending} {b b' : Scorable}, l.commit b = .ok b' → b'.bins = b.bins
  | [], b, b', h => by
    rw [Pending.commit] at h
    rw [Except.ok.inj h]
  | (i, x) :: l, b, b', h => by
    rw [Pending.commit] at h
    split at h
    · have := commit_bins h
      exact this
    · cases h

/-- Scoring and merging. -/
theorem C76_exact_scores (bins : ParticleBins) (score : Res ℝ) (p : Particle) (l : Pending)
    (s o : Scorable) (q : Sensitivity) :
    Rounded.pendingScore id (fun p => bins.getIndex p.direction p.energy.toReal) score p l =
      Pending.score bins score p l ∧
    Rounded.sensitivityScore id q p = q.getScore p ∧
    Minimc.Rounded.commit id l s = l.commit s ∧
    Rounded.addScorable id s o = s.add o := by
  refine ⟨?_, rfl, Rounded.commit_id l s, ?_⟩
  · simp only [Rounded.pendingScore, Pending.score, Rounded.pendingAdd_id]
  · simp only [Rounded.addScorable, Scorable.add, Rounded.addAll_id]

theorem scoreHistory_single (surface : SurfaceObj) (b : Scorable) :
    ∀ (states : List Particle) (l : Pending),
    EstimatorSet.scoreHistory [⟨b, surface, []⟩] states [⟨l, []⟩] =
      (do let l' ← Rounded.scoreStates id (fun p => b.bins.getIndex p.direction p.energy.toReal)
            (fun p => .ok (currentScore surface p)) states l
          .ok [⟨l', []⟩])
  | [], l => rfl
  | p :: ps, l => by
    rw [EstimatorSet.scoreHistory, Rounded.scoreStates]
    have e := (C76_exact_scores b.bins (.ok (currentScore surface p)) p l b b
      ⟨b, surface, ⟨0, "", 0⟩⟩).1
    simp only [EstimatorSet.scoreAll, EstimatorProxy.score, EstimatorProxy.scoreSensitivities, bind,
      Except.bind, e]
    rcases Pending.score b.bins (.ok (currentScore surface p)) p l with er | l'
    · rfl
    · exact scoreHistory_single surface b ps l'

/-- The histories of a worker, for an estimator without sensitivities. -/
theorem C76_exact_histories (surface : SurfaceObj) (w : ℝ) :
    ∀ (hs : List (List Particle)) (b : Scorable),
    afterHistories ⟨[⟨b, surface, []⟩], w⟩ hs =
      (do let b' ← Rounded.addHistories id
            (fun p => b.bins.getIndex p.direction p.energy.toReal)
            (fun p => .ok (currentScore surface p)) hs b
          .ok ⟨[⟨b', surface, []⟩], w⟩)
  | [], b => rfl
  | a :: hs, b => by
    rw [afterHistories, Rounded.addHistories, EstimatorSet.addHistory]
    have h0 : EstimatorSet.getProxy ⟨[⟨b, surface, []⟩], w⟩ = [⟨[], []⟩] := rfl
    simp only [h0, scoreHistory_single, bind, Except.bind]
    rcases Rounded.scoreStates id (fun p => b.bins.getIndex p.direction p.energy.toReal)
      (fun p => .ok (currentScore surface p)) a [] with er | l
    · rfl
    · simp only [EstimatorSet.commitAll, EstimatorProxy.commit, EstimatorProxy.commitSensitivities,
        bind, Except.bind, Rounded.commit_id]
      rcases hc : l.commit b with er | b'
      · rfl
      · have hbins : b'.bins = b.bins := commit_bins hc
        have := C76_exact_histories surface w hs b'
        rw [hbins] at this
        exact this

theorem afterHistories_base (surface : SurfaceObj) (w : ℝ) : ∀ (hs : List (List Particle))
    {b b' : Scorable}, Rounded.addHistories id
      (fun p => b.bins.getIndex p.direction p.energy.toReal)
      (fun p => .ok (currentScore surface p)) hs b = .ok b' →
    afterHistories ⟨[⟨b, surface, []⟩], w⟩ hs = .ok ⟨[⟨b', surface, []⟩], w⟩ := by
  intro hs b b' h
  rw [C76_exact_histories, h]
  rfl

theorem addHistories_name (index : Particle → Res ℕ) (f : Particle → Res ℝ) :
    ∀ (hs : List (List Particle)) {b b' : Scorable},
      Rounded.addHistories id index f hs b = .ok b' → b'.name = b.name
  | [], b, b', h => by
    rw [Rounded.addHistories] at h
    rw [Except.ok.inj h]
  | a :: hs, b, b', h => by
    rw [Rounded.addHistories] at h
    simp only [bind, Except.bind] at h
    rcases h1 : Rounded.scoreStates id index f a [] with er | l
    · rw [h1] at h; cases h
    · rw [h1] at h
      simp only at h
      rcases h2 : Minimc.Rounded.commit id l b with er | b₁
      · rw [h2] at h; cases h
      · rw [h2] at h
        rw [addHistories_name index f hs h]
        rw [Rounded.commit_id] at h2
        exact commit_name h2
where
  commit_name : ∀ {l : Pending} {b b' : Scorable}, l.commit b = .ok b' → b'.name = b.name
  | [], b, b', h => by
    rw [Pending.commit] at h
    rw [Except.ok.inj h]
  | (i, x) :: l, b, b', h => by
    rw [Pending.commit] at h
    split at h
    · have := commit_name h
      exact this
    · cases h

/-- The sum over the workers, for an estimator without sensitivities: their sets are added one after
another. -/
theorem C76_exact_solve (surface : SurfaceObj) (w : ℝ) (init : Scorable) :
    ∀ (workers : List (List (List Particle))) (s r : Scorable), s.name = init.name →
    Rounded.solveScores id (fun p => init.bins.getIndex p.direction p.energy.toReal)
      (fun p => .ok (currentScore surface p)) init workers s = .ok r →
    ∃ sets, List.Forall₂ (fun hs set => afterHistories ⟨[⟨init, surface, []⟩], w⟩ hs = .ok set)
        workers sets ∧
      mergeAll ⟨[⟨s, surface, []⟩], w⟩ sets = .ok ⟨[⟨r, surface, []⟩], w⟩
  | [], s, r, _, h => by
    rw [Rounded.solveScores] at h
    rw [Except.ok.inj h]
    exact ⟨[], List.Forall₂.nil, rfl⟩
  | hs :: rest, s, r, hn, h => by
    rw [Rounded.solveScores] at h
    simp only [bind, Except.bind] at h
    rcases h1 : Rounded.addHistories id (fun p => init.bins.getIndex p.direction p.energy.toReal)
        (fun p => .ok (currentScore surface p)) hs init with er | b
    · rw [h1] at h; cases h
    · rw [h1] at h
      simp only at h
      rcases h2 : Rounded.addScorable id s b with er | s'
      · rw [h2] at h; cases h
      · rw [h2] at h
        have e := (C76_exact_scores init.bins (.ok 0) (Particle.ofBorn
          ⟨⟨0, 0, 0⟩, ⟨1, 0, 0⟩, .group 1, .neutron, 1, none⟩) [] s b
          ⟨b, surface, ⟨0, "", 0⟩⟩).2.2.2
        rw [e] at h2
        have hs'n : s'.name = init.name := by
          rw [← hn]
          unfold Scorable.add at h2
          simp only [bind, Except.bind] at h2
          split at h2
          · cases h2
          · split at h2
            · cases h2
            · rw [← Except.ok.inj h2]
        obtain ⟨sets, hf, hm⟩ := C76_exact_solve surface w init rest s' r hs'n h
        refine ⟨_ :: sets, List.Forall₂.cons (afterHistories_base surface w hs h1) hf, ?_⟩
        have hname : (s.name == b.name) = true := by
          rw [addHistories_name _ _ hs h1, hn]
          exact beq_self_eq_true _
        rw [mergeAll]
        simp only [EstimatorSet.add, EstimatorSet.addEstimators, List.find?_cons, hname, Estimator.add,
          h2, Estimator.addSensitivities, bind, Except.bind]
        exact hm

/-- Printing. -/
theorem C76_exact_printed (s : Scorable) (w : ℝ) :
    s.means w = s.scores.map (fun x => Rounded.mean id x w) ∧
    s.stdDevs w = List.zipWith (fun x y => Rounded.stdDev id x y w) s.scores s.squareScores :=
  ⟨rfl, rfl⟩

end Props
end Minimc
