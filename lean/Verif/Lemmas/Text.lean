import Verif.Spec.Input
import Verif.Model.Schema

/-! # Lemmas about text: words and numbers -/

namespace Minimc

open Spec

namespace Text

theorem isSpace_iff (c : Char) : isSpace c = true ↔ Space c := by
  simp [isSpace, Space, or_assoc]

theorem isDigit_iff (c : Char) : isDigit c = true ↔ 48 ≤ c.toNat ∧ c.toNat ≤ 57 := by
  simp only [isDigit, decide_eq_true_eq, Char.le_def, UInt32.le_iff_toNat_le, Char.toNat]
  rfl

theorem not_digit_of_space {c : Char} (h : isSpace c = true) : isDigit c = false := by
  rcases hd : isDigit c with _ | _
  · rfl
  · rw [isSpace_iff] at h
    rw [isDigit_iff] at hd
    simp only [Space, List.mem_cons, List.not_mem_nil, or_false] at h
    rcases h with rfl | rfl | rfl | rfl | rfl | rfl <;> revert hd <;> decide

/-! ### Words -/

theorem wordsFrom_cons {acc cs : List Char} (h : acc ≠ []) :
    wordsFrom acc cs = String.ofList (acc.reverse ++ cs.takeWhile (fun c => !isSpace c)) ::
      wordsFrom [] (cs.dropWhile (fun c => !isSpace c)) := by
  induction cs generalizing acc with
  | nil => simp [wordsFrom, h]
  | cons c cs ih =>
    rw [wordsFrom]
    by_cases hs : isSpace c = true
    · simp [hs, h, wordsFrom]
    · rw [if_neg hs, ih (by simp)]
      simp [hs]

theorem wordsFrom_space {c : Char} (h : isSpace c = true) (cs : List Char) :
    wordsFrom [] (c :: cs) = wordsFrom [] cs := by
  rw [wordsFrom, if_pos h, if_pos rfl]

theorem wordsFrom_spaces {sp : List Char} (h : ∀ c ∈ sp, Space c) (cs : List Char) :
    wordsFrom [] (sp ++ cs) = wordsFrom [] cs := by
  induction sp with
  | nil => rfl
  | cons c sp ih =>
    rw [List.cons_append, wordsFrom_space ((isSpace_iff c).2 (h c (by simp))),
      ih (fun c hc => h c (by simp [hc]))]

theorem wordsFrom_word {w rest : List Char} (hw : w ≠ []) (h : ∀ c ∈ w, ¬ Space c)
    (hr : ∀ c, rest.head? = some c → Space c) :
    wordsFrom [] (w ++ rest) = String.ofList w :: wordsFrom [] rest := by
  obtain ⟨c, w, rfl⟩ := List.exists_cons_of_ne_nil hw
  have hc : ¬ isSpace c = true := by rw [isSpace_iff]; exact h c (by simp)
  have hw' : ∀ x ∈ w, (!isSpace x) = true := by
    intro x hx
    have := h x (by simp [hx])
    rw [← isSpace_iff] at this
    simpa using this
  rw [List.cons_append, wordsFrom, if_neg hc, wordsFrom_cons (by simp)]
  have h1 : (w ++ rest).takeWhile (fun c => !isSpace c) = w := by
    rw [List.takeWhile_append_of_pos hw']
    cases rest with
    | nil => simp
    | cons x rest =>
      have := (isSpace_iff x).2 (hr x rfl)
      simp [this]
  have h2 : (w ++ rest).dropWhile (fun c => !isSpace c) = rest := by
    rw [List.dropWhile_append_of_pos hw']
    cases rest with
    | nil => simp
    | cons x rest =>
      have := (isSpace_iff x).2 (hr x rfl)
      simp [this]
  rw [h1, h2]
  simp

theorem words_unique {cs : List Char} {ws : List String} (h : Words cs ws) :
    wordsFrom [] cs = ws := by
  induction h with
  | @nil sp h =>
    have := wordsFrom_spaces h []
    rw [List.append_nil] at this
    rw [this]
    rfl
  | cons h1 h2 h3 h4 _ ih =>
    rw [List.append_assoc, wordsFrom_spaces h1, wordsFrom_word h2 h3 h4, ih]

theorem mem_takeWhile {p : Char → Bool} {cs : List Char} {c : Char} (h : c ∈ cs.takeWhile p) :
    p c = true := by
  have := List.all_takeWhile (p := p) (l := cs)
  rw [List.all_eq_true] at this
  exact this c h

theorem words_exists : ∀ (n : ℕ) (cs : List Char), cs.length ≤ n → ∃ ws, Words cs ws
  | 0, [], _ => ⟨[], .nil (by simp)⟩
  | n + 1, cs, hn => by
    have e : cs = cs.takeWhile isSpace ++ cs.dropWhile isSpace :=
      (List.takeWhile_append_dropWhile (p := isSpace)).symm
    have hsp : ∀ c ∈ cs.takeWhile isSpace, Space c := by
      intro c hc
      exact (isSpace_iff c).1 (mem_takeWhile hc)
    rcases hd : cs.dropWhile isSpace with _ | ⟨x, xs⟩
    · rw [hd, List.append_nil] at e
      exact ⟨[], e ▸ .nil hsp⟩
    · have hx : ¬ isSpace x = true := by
        have := List.head_dropWhile_not isSpace (l := cs) (by rw [hd]; simp)
        simpa [hd] using this
      have e2 : x :: xs = (x :: xs).takeWhile (fun c => !isSpace c) ++
          (x :: xs).dropWhile (fun c => !isSpace c) := List.takeWhile_append_dropWhile.symm
      have hl : ((x :: xs).dropWhile (fun c => !isSpace c)).length ≤ n := by
        have h1 : ((x :: xs).dropWhile (fun c => !isSpace c)).length ≤ xs.length := by
          simp only [List.dropWhile_cons, hx]
          simpa using (List.dropWhile_sublist (fun c => !isSpace c) (l := xs)).length_le
        have h2 : (x :: xs).length ≤ cs.length := by
          rw [← hd]
          exact (List.dropWhile_sublist isSpace).length_le
        simp only [List.length_cons] at h2
        omega
      obtain ⟨ws, hws⟩ := words_exists n _ hl
      rw [hd, e2, ← List.append_assoc] at e
      rw [e]
      refine ⟨_, .cons hsp (by simp [hx]) ?_ ?_ hws⟩
      · intro c hc
        have := mem_takeWhile hc
        rw [← isSpace_iff]
        simpa using this
      · intro c hc
        rw [← isSpace_iff]
        have := List.head?_dropWhile_not (fun c => !isSpace c) (x :: xs)
        rw [hc] at this
        simpa using this

theorem words_iff (s : String) (ws : List String) : Words s.toList ws ↔ words s = ws := by
  constructor
  · exact words_unique
  · rintro rfl
    obtain ⟨ws, h⟩ := words_exists _ s.toList le_rfl
    rw [words, words_unique h]
    exact h

/-! ### Lists of numbers -/

theorem numbers_iff {env : Env} {s : String} (h : ∀ w ∈ words s, ∃ x, env.real w = some x)
    (xs : List ℝ) : Numbers env s xs ↔ Input.reals env s = xs := by
  have key : ∀ ws : List String, (∀ w ∈ ws, ∃ x, env.real w = some x) →
      ∀ xs, List.Forall₂ (fun w x => env.real w = some x) ws xs ↔
        ((ws.map env.real).takeWhile Option.isSome).filterMap id = xs := by
    intro ws
    induction ws with
    | nil => intro _ xs; simp [eq_comm]
    | cons w ws ih =>
      intro h xs
      obtain ⟨x, hx⟩ := h w (by simp)
      simp only [List.map_cons, hx, List.takeWhile_cons, Option.isSome_some, if_true,
        List.filterMap_cons, id]
      constructor
      · intro hf
        cases hf with
        | cons h1 h2 =>
          rw [hx] at h1
          cases h1
          rw [← (ih (fun w hw => h w (by simp [hw])) _).1 h2]
          rfl
      · rintro rfl
        exact .cons hx ((ih (fun w hw => h w (by simp [hw])) _).2 rfl)
  unfold Numbers Input.reals
  constructor
  · rintro ⟨ws, h1, h2⟩
    rw [words_iff] at h1
    subst h1
    exact (key _ h _).1 h2
  · intro h2
    exact ⟨_, (words_iff _ _).2 rfl, (key _ h _).2 h2⟩

theorem reals_numbers {env : Env} {s : String} (h : ∀ w ∈ words s, ∃ x, env.real w = some x) :
    Numbers env s (Input.reals env s) := (numbers_iff h _).2 rfl

theorem reals_nonneg {env : Env} {s : String}
    (h : ∀ w ∈ words s, ∃ x, env.real w = some x ∧ 0 ≤ x) : ∀ x ∈ Input.reals env s, 0 ≤ x := by
  intro x hx
  obtain ⟨ws, h1, h2⟩ := reals_numbers (env := env) (s := s) (fun w hw => (h w hw).imp fun _ h => h.1)
  rw [words_iff] at h1
  subst h1
  obtain ⟨w, hw, hwx⟩ : ∃ w ∈ words s, env.real w = some x := by
    generalize words s = ws at h2 h
    generalize Input.reals env s = xs at h2 hx
    clear h
    induction h2 with
    | nil => cases hx
    | @cons a b _ _ h1 _ ih =>
      rcases List.mem_cons.1 hx with rfl | hx
      · exact ⟨a, by simp, h1⟩
      · obtain ⟨w, hw, h⟩ := ih hx
        exact ⟨w, by simp [hw], h⟩
  obtain ⟨y, hy, hpos⟩ := h w hw
  rw [hwx] at hy
  cases hy
  exact hpos

/-! ### Natural numbers -/

theorem digitsValue_eq (ds : List Char) :
    digitsValue ds = Nat.ofDigits 10 (ds.reverse.map digit) := by
  induction ds using List.reverseRecOn with
  | nil => rfl
  | append_singleton ds c ih =>
    rw [digitsValue, List.foldl_append] at *
    rw [List.reverse_append]
    simp only [List.foldl_cons, List.foldl_nil, List.reverse_cons, List.reverse_nil, List.nil_append,
      List.singleton_append, List.map_cons, Nat.ofDigits_cons]
    rw [ih]
    simp only [digit]
    have : ('0' : Char).toNat = 48 := by decide
    rw [this]
    ring

theorem integer_start {s : String} {v : ℕ} (h : StartsWith s v) : integer s = .ok (false, v) := by
  obtain ⟨before, sign, digits, after, hs, hb, hsign, hd, hdig, haft, rfl⟩ := h
  obtain ⟨d, ds, rfl⟩ := List.exists_cons_of_ne_nil hd
  have hdd : ∀ c ∈ d :: ds, isDigit c = true := fun c hc => (isDigit_iff c).2 (hdig c hc)
  have hnd : ∀ c, isDigit c = true → isSpace c = false ∧ c ≠ '-' ∧ c ≠ '+' := by
    intro c hc
    refine ⟨?_, ?_, ?_⟩
    · rcases h : isSpace c with _ | _
      · rfl
      · rw [not_digit_of_space h] at hc; cases hc
    · rintro rfl; revert hc; decide
    · rintro rfl; revert hc; decide
  have htake : ((d :: ds) ++ after).takeWhile isDigit = d :: ds := by
    rw [List.takeWhile_append_of_pos hdd]
    cases after with
    | nil => simp
    | cons a after =>
      have : isDigit a = false := by
        rcases h : isDigit a with _ | _
        · rfl
        · exact absurd ((isDigit_iff a).1 h) (haft a rfl)
      simp [this]
  have hdrop : s.toList.dropWhile isSpace = sign ++ ((d :: ds) ++ after) := by
    rw [hs, List.append_assoc, List.append_assoc,
      List.dropWhile_append_of_pos (fun c hc => (isSpace_iff c).2 (hb c hc))]
    have h1 := (hnd d (hdd d (by simp))).1
    rcases hsign with rfl | rfl
    · simp [h1]
    · have : isSpace '+' = false := by decide
      simp [this]
  obtain ⟨-, h2, h3⟩ := hnd d (hdd d (by simp))
  have hsg : Text.sign (s.toList.dropWhile isSpace) = (false, (d :: ds) ++ after) := by
    rw [hdrop]
    rcases hsign with rfl | rfl
    · rw [List.nil_append, List.cons_append, Text.sign]
      · rintro rest h; cases h; exact h2 rfl
      · rintro rest h; cases h; exact h3 rfl
    · rfl
  unfold integer
  rw [hsg]
  simp only [htake, digitsValue_eq]
  rw [if_neg (by simp)]

theorem startsWith_of_denotes {s : String} {v : ℕ} (h : Denotes s v) : StartsWith s v := by
  obtain ⟨before, sign, digits, after, hs, hb, ha, hsign, hd, hdig, hv⟩ := h
  refine ⟨before, sign, digits, after, hs, hb, hsign, hd, hdig, ?_, hv⟩
  intro c hc
  have := not_digit_of_space ((isSpace_iff c).2 (ha c (List.mem_of_mem_head? (by rw [hc]; rfl))))
  rw [← isDigit_iff, this]
  simp

theorem integer_denotes {s : String} {v : ℕ} (h : Denotes s v) : integer s = .ok (false, v) :=
  integer_start (startsWith_of_denotes h)

theorem denotes_unique {s : String} {v v' : ℕ} (h : Denotes s v) (h' : Denotes s v') : v = v' := by
  have h1 := integer_denotes h
  rw [integer_denotes h'] at h1
  simpa using h1.symm

theorem positiveInteger_denotes {s : String} (h : Schema.PositiveInteger s) :
    ∃ v, Denotes s v ∧ 0 < v := by
  obtain ⟨before, sign, digits, after, hs, hb, ha, hsign, hdig, c, hc, hc0⟩ := h
  refine ⟨_, ⟨before, sign, digits, after, hs, fun c hc => (isSpace_iff c).1 (hb c hc),
    fun c hc => (isSpace_iff c).1 (ha c hc), hsign, List.ne_nil_of_mem hc,
    fun c hc => (isDigit_iff c).1 (hdig c hc), rfl⟩, ?_⟩
  have hpos : 0 < digit c := by
    have h1 := (isDigit_iff c).1 (hdig c hc)
    rcases Nat.eq_zero_or_pos (digit c) with h | h
    · exfalso
      apply hc0
      have : c.toNat = 48 := by unfold digit at h; omega
      apply Char.ext
      apply UInt32.toNat.inj
      exact this
    · exact h
  have hmem : digit c ∈ digits.reverse.map digit := List.mem_map_of_mem (by simpa using hc)
  generalize digits.reverse.map digit = l at hmem
  induction l with
  | nil => cases hmem
  | cons x l ih =>
    rw [Nat.ofDigits_cons]
    rcases List.mem_cons.1 hmem with h | h
    · omega
    · have := ih h
      omega

theorem stoi_denotes {s : String} {v : ℕ} (h : Denotes s v) :
    stoi s = if v < 2 ^ 31 then .ok v else .error .outOfRange := by
  rw [stoi, integer_denotes h]
  rfl

theorem stoull_start {s : String} {v : ℕ} (h : StartsWith s v) :
    stoull s = if v < 2 ^ 64 then .ok v else .error .outOfRange := by
  rw [stoull, integer_start h]
  rfl

theorem asUnsigned_denotes {s : String} {v : ℕ} (h : Denotes s v) (bits : ℕ) :
    asUnsigned bits s = min v (2 ^ bits - 1) := by
  rw [asUnsigned, integer_denotes h]

/-- A text that is not read as a negative number: it starts with a number, or is refused. -/
theorem stoull_unsigned {s : String}
    (h : ¬ ∃ before rest, s.toList = before ++ '-' :: rest ∧ ∀ c ∈ before, Space c) :
    (∃ v, StartsWith s v) ∨ stoull s = .error .runtimeError := by
  have e : s.toList = s.toList.takeWhile isSpace ++ s.toList.dropWhile isSpace :=
    List.takeWhile_append_dropWhile.symm
  have hsp : ∀ c ∈ s.toList.takeWhile isSpace, Space c := fun c hc =>
    (isSpace_iff c).1 (mem_takeWhile hc)
  obtain ⟨sg, rest, h1, h2, h3⟩ : ∃ sg rest, s.toList.dropWhile isSpace = sg ++ rest ∧
      (sg = [] ∨ sg = ['+']) ∧ Text.sign (s.toList.dropWhile isSpace) = (false, rest) := by
    rcases hd : s.toList.dropWhile isSpace with _ | ⟨c, cs⟩
    · exact ⟨[], [], rfl, .inl rfl, rfl⟩
    · by_cases hm : c = '-'
      · subst hm
        exact absurd ⟨_, cs, by rw [← hd]; exact e, hsp⟩ h
      · by_cases hp : c = '+'
        · subst hp
          exact ⟨['+'], cs, rfl, .inr rfl, rfl⟩
        · refine ⟨[], c :: cs, rfl, .inl rfl, ?_⟩
          rw [Text.sign]
          · rintro rest h; cases h; exact hm rfl
          · rintro rest h; cases h; exact hp rfl
  by_cases hd : rest.takeWhile isDigit = []
  · right
    rw [stoull, integer, h3]
    simp only [hd]
    rfl
  · left
    refine ⟨_, s.toList.takeWhile isSpace, sg, rest.takeWhile isDigit, rest.dropWhile isDigit, ?_,
      hsp, h2, hd, fun c hc => (isDigit_iff c).1 (mem_takeWhile hc), ?_, rfl⟩
    · rw [List.append_assoc, List.takeWhile_append_dropWhile, List.append_assoc, ← h1,
        List.takeWhile_append_dropWhile]
    · intro c hc
      rw [← isDigit_iff]
      have := List.head?_dropWhile_not isDigit rest
      rw [hc] at this
      simpa using this

end Text
end Minimc
