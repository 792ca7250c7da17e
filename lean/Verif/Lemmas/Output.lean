import Verif.Spec.Output
import Mathlib.Tactic.Linarith
import Mathlib.Tactic.NormNum
import Mathlib.Tactic.Positivity
import Mathlib.Tactic.FieldSimp
import Mathlib.Tactic.Ring

/-! # Lemmas on printed numbers -/

namespace Minimc

open Spec Print

theorem digit_spec : ∀ d < 10, IsDigit (digit d) ∧ (digit d).toNat - 48 = d := by decide

theorem digitsValue_append (a : List Char) (c : Char) :
    digitsValue (a ++ [c]) = 10 * digitsValue a + (c.toNat - 48) := by
  simp [digitsValue]

theorem decimal_spec (n : ℕ) : decimal n ≠ [] ∧ (∀ c ∈ decimal n, IsDigit c) ∧
    digitsValue (decimal n) = n := by
  induction n using Nat.strong_induction_on with
  | _ n ih =>
    unfold decimal
    by_cases h : n < 10
    · rw [if_pos h]
      obtain ⟨h1, h2⟩ := digit_spec n h
      refine ⟨by simp, by simpa using h1, ?_⟩
      simpa [digitsValue] using h2
    · rw [if_neg h]
      obtain ⟨_, i2, i3⟩ := ih (n / 10) (by omega)
      obtain ⟨h1, h2⟩ := digit_spec (n % 10) (by omega)
      refine ⟨by simp, ?_, ?_⟩
      · intro c hc
        rcases List.mem_append.1 hc with hc | hc
        · exact i2 c hc
        · rw [List.mem_singleton.1 hc]; exact h1
      · rw [digitsValue_append, i3, h2]
        omega

theorem decimal_length (k n : ℕ) (h1 : 10 ^ k ≤ n) (h2 : n < 10 ^ (k + 1)) :
    (decimal n).length = k + 1 := by
  induction k generalizing n with
  | zero =>
    unfold decimal
    rw [if_pos (by simpa using h2)]
    rfl
  | succ k ih =>
    have h10 : 10 ≤ n := le_trans (by
      rw [pow_succ]
      have := Nat.one_le_pow k 10 (by norm_num)
      omega) h1
    unfold decimal
    rw [if_neg (by omega), List.length_append, ih (n / 10)]
    · rfl
    · rw [Nat.le_div_iff_mul_le (by norm_num), ← pow_succ]; exact h1
    · rw [Nat.div_lt_iff_lt_mul (by norm_num), ← pow_succ]; exact h2

theorem readNat_decimal (n : ℕ) : readNat (decimal n) = some n := by
  obtain ⟨h1, h2, h3⟩ := decimal_spec n
  unfold readNat
  rw [if_pos ⟨h1, h2⟩, h3]

theorem readExponent_exponent (e : ℤ) : readExponent (exponent e) = some e := by
  have key : 2 ≤ (if e.natAbs < 10 then '0' :: decimal e.natAbs else decimal e.natAbs).length ∧
      readNat (if e.natAbs < 10 then '0' :: decimal e.natAbs else decimal e.natAbs) =
        some e.natAbs := by
    obtain ⟨h1, h2, h3⟩ := decimal_spec e.natAbs
    split_ifs with h
    · constructor
      · rw [List.length_cons]
        have := List.length_pos_of_ne_nil h1
        omega
      · unfold readNat
        have hall : ∀ c ∈ '0' :: decimal e.natAbs, IsDigit c := by
          intro c hc
          rcases List.mem_cons.1 hc with rfl | hc
          · decide
          · exact h2 c hc
        rw [if_pos ⟨by simp, hall⟩]
        have : digitsValue ('0' :: decimal e.natAbs) = digitsValue (decimal e.natAbs) := rfl
        rw [this, h3]
    · refine ⟨?_, readNat_decimal _⟩
      have h10 : 10 ≤ e.natAbs := by omega
      generalize e.natAbs = n at h10
      unfold decimal
      rw [if_neg (by omega), List.length_append]
      have := List.length_pos_of_ne_nil (decimal_spec (n / 10)).1
      simp only [List.length_singleton]
      omega
  obtain ⟨k1, k2⟩ := key
  unfold exponent
  by_cases he : e < 0
  · rw [if_pos he, readExponent, if_pos k1, k2, Option.map_some, Option.some.injEq]
    omega
  · rw [if_neg he, readExponent, if_pos k1, k2, Option.map_some, Option.some.injEq]
    omega

theorem roundEven_near {y : ℝ} (hy : 0 ≤ y) : |(roundEven y : ℝ) - y| ≤ 1 / 2 := by
  have h1 := Nat.floor_le hy
  have h2 := Nat.lt_floor_add_one y
  unfold roundEven
  rw [abs_le]
  split_ifs <;> push_cast <;> constructor <;> linarith

/-- Rounding keeps to integer bounds. -/
theorem roundEven_bounds {y : ℝ} {a b : ℕ} (h1 : (a : ℝ) ≤ y) (h2 : y < b) :
    a ≤ roundEven y ∧ roundEven y ≤ b := by
  have hy : (0 : ℝ) ≤ y := (Nat.cast_nonneg a).trans h1
  have ha : a ≤ ⌊y⌋₊ := Nat.le_floor h1
  have hb : ⌊y⌋₊ < b := (Nat.floor_lt hy).2 h2
  unfold roundEven
  split_ifs <;> omega

theorem significand_spec {x : ℝ} (hx : 0 < x) :
    10 ^ 6 ≤ (significand x).1 ∧ (significand x).1 < 10 ^ 7 ∧
      |((significand x).1 : ℝ) * (10 : ℝ) ^ ((significand x).2 - 6) - x| ≤ 5 / 10 ^ 7 * x := by
  set e := Int.log 10 x with he
  have l1 : (10 : ℝ) ^ e ≤ x := by
    have := Int.zpow_log_le_self (b := 10) (by norm_num) hx
    exact_mod_cast this
  have l2 : x < (10 : ℝ) ^ (e + 1) := by
    have := Int.lt_zpow_succ_log_self (b := 10) (by norm_num) x
    exact_mod_cast this
  have hs : (0 : ℝ) < (10 : ℝ) ^ (e - 6) := by positivity
  set y := x / (10 : ℝ) ^ (e - 6) with hy
  have hxy : x = y * (10 : ℝ) ^ (e - 6) := by rw [hy]; field_simp
  have e6 : (10 : ℝ) ^ e = 10 ^ 6 * (10 : ℝ) ^ (e - 6) := by
    rw [← zpow_natCast, ← zpow_add₀ (by norm_num)]; congr 1; norm_num
  have e7 : (10 : ℝ) ^ (e + 1) = 10 ^ 7 * (10 : ℝ) ^ (e - 6) := by
    rw [← zpow_natCast, ← zpow_add₀ (by norm_num)]; congr 1; push_cast; ring
  have y1 : ((10 ^ 6 : ℕ) : ℝ) ≤ y := by
    rw [hy, le_div_iff₀ hs, Nat.cast_pow, Nat.cast_ofNat, ← e6]; exact l1
  have y2 : y < ((10 ^ 7 : ℕ) : ℝ) := by
    rw [hy, div_lt_iff₀ hs, Nat.cast_pow, Nat.cast_ofNat, ← e7]; exact l2
  obtain ⟨r1, r2⟩ := roundEven_bounds y1 y2
  have near := roundEven_near ((Nat.cast_nonneg _).trans y1)
  have err : |(roundEven y : ℝ) * (10 : ℝ) ^ (e - 6) - x| ≤ 5 / 10 ^ 7 * x := by
    have : (roundEven y : ℝ) * (10 : ℝ) ^ (e - 6) - x =
        ((roundEven y : ℝ) - y) * (10 : ℝ) ^ (e - 6) := by
      rw [hxy]; ring
    rw [this, abs_mul, abs_of_pos hs]
    have h1 := mul_le_mul_of_nonneg_right near hs.le
    rw [e6] at l1
    linarith
  unfold significand
  rw [← he]
  simp only [← hy]
  split_ifs with h
  · refine ⟨le_rfl, by norm_num, ?_⟩
    rw [h] at err
    have : ((10 ^ 6 : ℕ) : ℝ) * (10 : ℝ) ^ (e + 1 - 6) =
        ((10 ^ 7 : ℕ) : ℝ) * (10 : ℝ) ^ (e - 6) := by
      have h' : (10 : ℝ) ^ (e + 1 - 6) = 10 * (10 : ℝ) ^ (e - 6) := by
        rw [show e + 1 - 6 = 1 + (e - 6) by ring, zpow_add₀ (by norm_num), zpow_one]
      rw [h']; push_cast; ring
    rw [this]
    exact err
  · exact ⟨r1, lt_of_le_of_ne r2 h, err⟩

/-- The characters of printed numbers. -/
def NumberChar (c : Char) : Prop :=
  IsDigit c ∨ c = '.' ∨ c = 'e' ∨ c = '+' ∨ c = '-' ∨ c = 'n' ∨ c = 'a'

theorem NumberChar.not {c : Char} (h : NumberChar c) : c ≠ ',' ∧ c ≠ '\n' ∧ c ≠ ' ' := by
  refine ⟨?_, ?_, ?_⟩ <;>
  · rintro rfl
    revert h
    unfold NumberChar
    decide

theorem exponent_chars (e : ℤ) : ∀ c ∈ exponent e, NumberChar c := by
  intro c hc
  have hd := (decimal_spec e.natAbs).2.1
  unfold exponent at hc
  rcases List.mem_cons.1 hc with rfl | hc
  · split_ifs
    · exact Or.inr (Or.inr (Or.inr (Or.inr (Or.inl rfl))))
    · exact Or.inr (Or.inr (Or.inr (Or.inl rfl)))
  · split_ifs at hc
    · rcases List.mem_cons.1 hc with rfl | hc
      · exact Or.inl (by decide)
      · exact Or.inl (hd c hc)
    · exact Or.inl (hd c hc)

/-- A significand of seven digits is read as printed. -/
theorem mantissa_spec {m : ℕ} (h1 : 10 ^ 6 ≤ m) (h2 : m < 10 ^ 7) (e : ℤ) :
    readUnsigned (mantissa m e) = some (m * (10 : ℝ) ^ (e - 6)) ∧
      (∀ c ∈ mantissa m e, NumberChar c) ∧ ∃ c t, mantissa m e = c :: t ∧ IsDigit c := by
  have hl := decimal_length 6 m h1 h2
  obtain ⟨_, hd, hv⟩ := decimal_spec m
  have hn := readNat_decimal m
  unfold mantissa
  generalize hg : decimal m = l at hl hd hn
  match l, hl with
  | [a, b, c, d, f, g, h], _ =>
    refine ⟨?_, ?_, a, _, rfl, hd a (by simp)⟩
    · simp only [List.cons_append, List.nil_append, readUnsigned, hn, readExponent_exponent]
      rfl
    · intro x hx
      simp only [List.cons_append, List.nil_append, List.mem_cons] at hx
      rcases hx with rfl | rfl | rfl | rfl | rfl | rfl | rfl | rfl | rfl | hx
      · exact Or.inl (hd _ (by simp))
      · exact Or.inr (Or.inl rfl)
      · exact Or.inl (hd _ (by simp))
      · exact Or.inl (hd _ (by simp))
      · exact Or.inl (hd _ (by simp))
      · exact Or.inl (hd _ (by simp))
      · exact Or.inl (hd _ (by simp))
      · exact Or.inl (hd _ (by simp))
      · exact Or.inr (Or.inr (Or.inl rfl))
      · exact exponent_chars e x hx

theorem readNumber_digit {c : Char} {t : List Char} (h : IsDigit c) :
    readNumber (c :: t) = readUnsigned (c :: t) := by
  unfold readNumber
  split
  · next heq =>
    rw [(List.cons.inj heq).1] at h
    exact absurd h (by decide)
  · rfl

theorem scientific_spec (x : ℝ) : (∃ v, readNumber (scientific x) = some v ∧ SevenDigits x v) ∧
    ∀ c ∈ scientific x, NumberChar c := by
  unfold scientific
  by_cases h0 : x = 0
  · rw [if_pos h0]
    refine ⟨⟨0, ?_, by simp [SevenDigits, h0]⟩, ?_⟩
    · have : readNumber "0.000000e+00".toList =
          some ((digitsValue "0000000".toList : ℝ) *
            (10 : ℝ) ^ ((digitsValue "00".toList : ℤ) - 6)) := rfl
      rw [this]
      have h : digitsValue "0000000".toList = 0 := rfl
      rw [h]
      simp
    · intro c hc
      have : c ∈ ['0', '.', '0', '0', '0', '0', '0', '0', 'e', '+', '0', '0'] := hc
      simp only [List.mem_cons, List.not_mem_nil, or_false] at this
      unfold NumberChar
      rcases this with rfl | rfl | rfl | rfl | rfl | rfl | rfl | rfl | rfl | rfl | rfl | rfl <;> decide
  · rw [if_neg h0]
    by_cases hn : x < 0
    · rw [if_pos hn]
      obtain ⟨s1, s2, s3⟩ := significand_spec (x := -x) (by linarith)
      obtain ⟨m1, m2, _⟩ := mantissa_spec s1 s2 (significand (-x)).2
      refine ⟨⟨_, by simp only [readNumber, m1, Option.map_some]; rfl, ?_⟩, ?_⟩
      · unfold SevenDigits
        rw [abs_of_neg hn]
        refine le_trans (le_of_eq ?_) s3
        rw [← abs_neg]
        congr 1
        ring
      · intro c hc
        rcases List.mem_cons.1 hc with rfl | hc
        · exact Or.inr (Or.inr (Or.inr (Or.inr (Or.inl rfl))))
        · exact m2 c hc
    · rw [if_neg hn]
      have hp : 0 < x := lt_of_le_of_ne (not_lt.1 hn) (Ne.symm h0)
      obtain ⟨s1, s2, s3⟩ := significand_spec hp
      obtain ⟨m1, m2, c, t, m3, m4⟩ := mantissa_spec s1 s2 (significand x).2
      refine ⟨⟨_, by rw [m3, readNumber_digit m4, ← m3, m1], ?_⟩, m2⟩
      unfold SevenDigits
      rw [abs_of_pos hp]
      exact s3

theorem number_spec (x : Res ℝ) : Agrees x (readNumber (number x)) ∧
    ∀ c ∈ number x, NumberChar c := by
  cases x with
  | ok x =>
    obtain ⟨⟨v, h1, h2⟩, h3⟩ := scientific_spec x
    refine ⟨?_, h3⟩
    change Agrees _ (readNumber (scientific x))
    rw [h1]
    exact .number h2
  | error e =>
    refine ⟨?_, ?_⟩
    · have : readNumber (number (.error e)) = none := rfl
      rw [this]
      exact .nan
    · intro c hc
      have : c ∈ ['n', 'a', 'n'] := hc
      simp only [List.mem_cons, List.not_mem_nil, or_false] at this
      unfold NumberChar
      rcases this with rfl | rfl | rfl <;> decide

theorem number_no_space (x : Res ℝ) : (number x).dropWhile (· == ' ') = number x := by
  have h := (number_spec x).2
  cases hn : number x with
  | nil => rfl
  | cons c t =>
    have := (h c (by rw [hn]; simp)).not.2.2
    simp [this]

theorem comma_space (t : List Char) : ", ".toList ++ t = ',' :: ' ' :: t := rfl

theorem row_cons (x : Res ℝ) (xs : List (Res ℝ)) :
    row (x :: xs) = number x ++ ',' :: ' ' :: row xs := by
  simp [row]

/-- Splitting a row after any number of spaces. -/
theorem row_split (xs : List (Res ℝ)) (k : ℕ) (hk : xs ≠ [] ∨ 0 < k ∨ k = 0) :
    List.Forall₂ Agrees xs (((List.replicate k ' ' ++ row xs).splitOn ',').dropLast.map
      (fun x => readNumber (x.dropWhile (· == ' ')))) := by
  induction xs generalizing k with
  | nil =>
    have : (List.replicate k ' ' ++ row []).splitOn ',' = [List.replicate k ' '] := by
      simp only [row, List.flatMap_nil, List.append_nil]
      exact List.splitOn_eq_singleton (by simp)
    rw [this]
    exact .nil
  | cons x xs ih =>
    have hs : (List.replicate k ' ' ++ row (x :: xs)).splitOn ',' =
        (List.replicate k ' ' ++ number x) :: (List.replicate 1 ' ' ++ row xs).splitOn ',' := by
      rw [row_cons, ← List.append_assoc]
      refine List.splitOn_append_cons_self_of_not_mem ?_ _
      intro hmem
      rcases List.mem_append.1 hmem with h | h
      · simp at h
      · exact ((number_spec x).2 _ h).not.1 rfl
    rw [hs, List.dropLast_cons_of_ne_nil (List.splitOn_ne_nil _ _), List.map_cons]
    refine .cons ?_ (ih 1 (by simp))
    have : (List.replicate k ' ' ++ number x).dropWhile (· == ' ') = number x := by
      rw [List.dropWhile_append_of_pos (by simp), number_no_space]
    rw [this]
    exact (number_spec x).1

theorem readRow_row (xs : List (Res ℝ)) : List.Forall₂ Agrees xs (readRow (row xs)) := by
  have := row_split xs 0 (by simp)
  simpa [readRow] using this

theorem row_no_newline (xs : List (Res ℝ)) : '\n' ∉ row xs := by
  intro h
  obtain ⟨x, _, h⟩ := List.mem_flatMap.1 h
  rcases List.mem_append.1 h with h | h
  · exact ((number_spec x).2 _ h).not.2.1 rfl
  · revert h; decide

/-! ### Lines -/

/-- A line and what follows it. -/
def line (l t : Chars) : Chars := l ++ '\n' :: t

theorem linesOf_line {l : Chars} (h : '\n' ∉ l) (t : Chars) :
    linesOf (line l t) = l :: linesOf t :=
  List.splitOn_append_cons_self_of_not_mem h t

theorem Bins.toText_no_newline (b : Bins) : '\n' ∉ b.toText := by
  cases b with
  | none => change '\n' ∉ ['n', 'o', 'n', 'e']; decide
  | linspace => exact row_no_newline _
  | logspace => exact row_no_newline _
  | boundaries => exact row_no_newline _

theorem readRow_map (xs : List ℝ) :
    List.Forall₂ (fun x => Agrees (.ok x)) xs (readRow (row (xs.map .ok))) := by
  have := readRow_row (xs.map .ok)
  rwa [List.forall₂_map_left_iff] at this

theorem Bins.readRow_toText (b : Bins) :
    List.Forall₂ (fun x => Agrees (.ok x)) b.printed (readRow b.toText) := by
  cases b with
  | none =>
    have : readRow (Bins.toText .none) = [] := by
      change readRow ['n', 'o', 'n', 'e'] = []
      unfold readRow
      rw [List.splitOn_eq_singleton (by decide)]
      rfl
    rw [this]
    exact .nil
  | linspace => exact readRow_map _
  | logspace => exact readRow_map _
  | boundaries => exact readRow_map _

theorem readRow_means {s : Scorable} {weight : ℝ} (hw : weight ≠ 0) :
    List.Forall₂ (fun x => Agrees (.ok (x / weight))) s.scores (readRow (row (s.means weight))) := by
  have := readRow_row (s.means weight)
  unfold Scorable.means at this ⊢
  rw [List.forall₂_map_left_iff] at this
  refine this.imp ?_
  intro a b h
  rwa [if_neg hw] at h

theorem readRow_stdDevs {s : Scorable} {weight : ℝ} (hw : weight ≠ 0) :
    List.Forall₂ (DeviationAgrees weight) (s.scores.zip s.squareScores)
      (readRow (row (s.stdDevs weight))) := by
  have := readRow_row (s.stdDevs weight)
  unfold Scorable.stdDevs at this ⊢
  rw [← List.map_uncurry_zip_eq_zipWith, List.forall₂_map_left_iff] at this
  rw [← List.map_uncurry_zip_eq_zipWith]
  refine this.imp ?_
  rintro ⟨x, q⟩ b h
  simp only [Function.uncurry_apply_pair, Scorable.stdDev, if_neg hw, ← sq] at h
  split_ifs at h with hq
  · cases h
    exact .nan hq
  · cases h with
    | number h => exact .number (not_lt.1 hq) h

theorem heading_line (name : String) (t : Chars) :
    heading name ++ t =
      line name.toList (line (List.replicate name.utf8ByteSize '=') (line [] t)) := by
  have h1 : "\n".toList = ['\n'] := rfl
  have h2 : "\n\n".toList = ['\n', '\n'] := rfl
  simp [heading, line, h1, h2]

theorem ParticleBins.toText_line (b : ParticleBins) (t : Chars) :
    b.toText ++ t = line "cosine".toList (line "------".toList (line b.cosine.toText (line []
      (line "energy".toList (line "------".toList (line b.energy.toText (line [] t))))))) := by
  have h1 : "cosine\n------\n".toList = "cosine".toList ++ '\n' :: "------".toList ++ ['\n'] := by simp
  have h2 : "energy\n------\n".toList = "energy".toList ++ '\n' :: "------".toList ++ ['\n'] := by simp
  have h3 : "\n\n".toList = ['\n', '\n'] := rfl
  have key : ∀ a b c d x y : Chars, a ++ '\n' :: b ++ ['\n'] ++ x ++ ['\n', '\n'] ++
      (c ++ '\n' :: d ++ ['\n']) ++ y ++ ['\n', '\n'] ++ t =
      line a (line b (line x (line [] (line c (line d (line y (line [] t))))))) := by
    intro a b c d x y
    simp only [line, List.append_assoc, List.cons_append, List.nil_append]
  unfold ParticleBins.toText
  rw [h1, h2, h3]
  exact key _ _ _ _ _ _

theorem Scorable.scoreText_line (s : Scorable) (weight : ℝ) (t : Chars) :
    s.scoreText weight ++ t = line "mean".toList (line "----".toList (line (row (s.means weight))
      (line [] (line "std dev".toList (line "-------".toList (line (row (s.stdDevs weight))
        (line [] t))))))) := by
  have h1 : "mean\n----\n".toList = "mean".toList ++ '\n' :: "----".toList ++ ['\n'] := by simp
  have h2 : "std dev\n-------\n".toList =
      "std dev".toList ++ '\n' :: "-------".toList ++ ['\n'] := by simp
  have h3 : "\n\n".toList = ['\n', '\n'] := rfl
  have key : ∀ a b c d x y : Chars, a ++ '\n' :: b ++ ['\n'] ++ x ++ ['\n', '\n'] ++
      (c ++ '\n' :: d ++ ['\n']) ++ y ++ ['\n', '\n'] ++ t =
      line a (line b (line x (line [] (line c (line d (line y (line [] t))))))) := by
    intro a b c d x y
    simp only [line, List.append_assoc, List.cons_append, List.nil_append]
  unfold Scorable.scoreText
  rw [h1, h2, h3]
  exact key _ _ _ _ _ _

theorem no_newline_replicate (n : ℕ) : '\n' ∉ List.replicate n '=' := by
  intro h
  exact absurd (List.eq_of_mem_replicate h) (by decide)

theorem linesOf_heading {name : String} (h : '\n' ∉ name.toList) (t : Chars) :
    linesOf (heading name ++ t) =
      name.toList :: List.replicate name.utf8ByteSize '=' :: [] :: linesOf t := by
  rw [heading_line, linesOf_line h, linesOf_line (no_newline_replicate _), linesOf_line (by simp)]

theorem linesOf_bins (b : ParticleBins) (t : Chars) :
    linesOf (b.toText ++ t) = "cosine".toList :: "------".toList :: b.cosine.toText :: [] ::
      "energy".toList :: "------".toList :: b.energy.toText :: [] :: linesOf t := by
  have h1 : '\n' ∉ "cosine".toList := by decide
  have h2 : '\n' ∉ "------".toList := by decide
  have h3 : '\n' ∉ "energy".toList := by decide
  rw [ParticleBins.toText_line, linesOf_line h1, linesOf_line h2,
    linesOf_line (Bins.toText_no_newline _), linesOf_line (by simp), linesOf_line h3,
    linesOf_line h2, linesOf_line (Bins.toText_no_newline _), linesOf_line (by simp)]

theorem linesOf_score (s : Scorable) (weight : ℝ) (t : Chars) :
    linesOf (s.scoreText weight ++ t) = "mean".toList :: "----".toList :: row (s.means weight) ::
      [] :: "std dev".toList :: "-------".toList :: row (s.stdDevs weight) :: [] :: linesOf t := by
  have h1 : '\n' ∉ "mean".toList := by decide
  have h2 : '\n' ∉ "----".toList := by decide
  have h3 : '\n' ∉ "std dev".toList := by decide
  have h4 : '\n' ∉ "-------".toList := by decide
  rw [Scorable.scoreText_line, linesOf_line h1, linesOf_line h2, linesOf_line (row_no_newline _),
    linesOf_line (by simp), linesOf_line h3, linesOf_line h4, linesOf_line (row_no_newline _),
    linesOf_line (by simp)]

theorem linesOf_blank (t : Chars) : linesOf ("\n".toList ++ t) = [] :: linesOf t :=
  linesOf_line (l := []) (by simp) t

theorem underlines_replicate (name : String) :
    Underlines (List.replicate name.utf8ByteSize '=') name.toList := by
  unfold Underlines
  rw [String.ofList_toList]

/-- The sensitivities of an estimator and the blank line after it. -/
theorem readSensitivities_text {ss : List Sensitivity} {weight : ℝ} (hw : weight ≠ 0)
    (hn : ∀ s ∈ ss, '\n' ∉ s.base.name.toList ∧ s.base.name ≠ "") (t : Chars) :
    ∃ rs, readSensitivities (linesOf (ss.flatMap (fun s => s.toText weight) ++ ("\n".toList ++ t))) =
        some (rs, linesOf t) ∧
      List.Forall₂ (fun (s : Sensitivity) => ScoresAgree s.base weight) ss rs := by
  induction ss with
  | nil =>
    refine ⟨[], ?_, .nil⟩
    rw [List.flatMap_nil, List.nil_append, linesOf_blank]
    simp only [readSensitivities]
  | cons s ss ih =>
    obtain ⟨rs, h1, h2⟩ := ih (fun s hs => hn s (List.mem_cons_of_mem _ hs))
    obtain ⟨n1, n2⟩ := hn s List.mem_cons_self
    refine ⟨⟨s.base.name.toList, readRow (row (s.base.means weight)),
      readRow (row (s.base.stdDevs weight))⟩ :: rs, ?_, .cons ⟨rfl, readRow_means hw,
        readRow_stdDevs hw⟩ h2⟩
    rw [List.flatMap_cons, Sensitivity.toText]
    simp only [List.append_assoc]
    rw [linesOf_heading n1, linesOf_score, linesOf_blank]
    have hu := underlines_replicate s.base.name
    have n3 : s.base.name.toList ≠ [] := by
      intro h
      exact n2 (String.toList_eq_nil_iff.1 h)
    cases hc : s.base.name.toList with
    | nil => exact absurd hc n3
    | cons c cs =>
      rw [hc] at hu
      rw [readSensitivities, if_pos ⟨hu, rfl, rfl, rfl, rfl⟩, h1]
      · rfl
      · simp

theorem readEstimators_text {es : List Estimator} {weight : ℝ} (hw : weight ≠ 0)
    (hn : ∀ e ∈ es, '\n' ∉ e.base.name.toList ∧
      ∀ s ∈ e.sensitivities, '\n' ∉ s.base.name.toList ∧ s.base.name ≠ "")
    (n : ℕ) (hl : es.length ≤ n) :
    ∃ rs, readEstimators n (linesOf (es.flatMap (fun e =>
        "\n".toList ++ e.toText weight ++ "\n".toList))) = some rs ∧
      List.Forall₂ (EstimatorAgrees weight) es rs := by
  induction es generalizing n with
  | nil =>
    refine ⟨[], ?_, .nil⟩
    have : linesOf ([] : Chars) = [[]] := rfl
    rw [List.flatMap_nil, this]
    cases n <;> simp only [readEstimators]
  | cons e es ih =>
    cases n with
    | zero => simp at hl
    | succ n =>
      obtain ⟨rs, h1, h2⟩ := ih (fun s hs => hn s (List.mem_cons_of_mem _ hs)) n (by simpa using hl)
      obtain ⟨n1, n2⟩ := hn e List.mem_cons_self
      obtain ⟨ss, g1, g2⟩ := readSensitivities_text hw n2 (es.flatMap (fun e =>
        "\n".toList ++ e.toText weight ++ "\n".toList))
      refine ⟨⟨⟨e.base.name.toList, readRow (row (e.base.means weight)),
        readRow (row (e.base.stdDevs weight))⟩, readRow e.base.bins.cosine.toText,
        readRow e.base.bins.energy.toText, ss⟩ :: rs, ?_, .cons ⟨⟨rfl, readRow_means hw,
          readRow_stdDevs hw⟩, Bins.readRow_toText _, Bins.readRow_toText _, g2⟩ h2⟩
      rw [List.flatMap_cons, Estimator.toText]
      simp only [List.append_assoc] at g1 h1 ⊢
      rw [linesOf_blank, linesOf_heading n1, linesOf_bins, linesOf_score]
      rw [readEstimators, if_pos ⟨underlines_replicate _, rfl, rfl, rfl, rfl, rfl, rfl, rfl, rfl⟩,
        g1]
      simp only [Option.bind_eq_bind, Option.bind_some, h1]

theorem length_linesOf_append (a t : Chars) : (linesOf t).length ≤ (linesOf (a ++ t)).length := by
  induction a with
  | nil => exact le_rfl
  | cons c a ih =>
    rw [List.cons_append]
    unfold linesOf at ih ⊢
    rw [List.splitOn_cons_eq_if_modifyHead]
    split_ifs
    · simp only [List.length_cons]
      omega
    · rw [List.length_modifyHead]
      exact ih

theorem length_lines (es : List Estimator) (weight : ℝ) :
    es.length ≤ (linesOf (es.flatMap (fun e =>
        "\n".toList ++ e.toText weight ++ "\n".toList))).length := by
  induction es with
  | nil => exact Nat.zero_le _
  | cons e es ih =>
    rw [List.flatMap_cons, List.append_assoc, List.append_assoc, linesOf_blank, List.length_cons,
      List.length_cons, ← List.append_assoc]
    have := length_linesOf_append (e.toText weight ++ "\n".toList) (es.flatMap (fun e =>
        "\n".toList ++ e.toText weight ++ "\n".toList))
    omega

theorem readReport_outputText {set : EstimatorSet} (hw : set.totalWeight ≠ 0) (hn : Printable set)
    (n : ℕ) :
    ∃ rs, readReport (outputText n set) = some ⟨n, rs⟩ ∧
      List.Forall₂ (EstimatorAgrees set.totalWeight) set.estimators rs := by
  obtain ⟨rs, h1, h2⟩ := readEstimators_text hw hn _ (length_lines set.estimators set.totalWeight)
  refine ⟨rs, ?_, h2⟩
  have hd : '\n' ∉ decimal n := by
    intro h
    exact absurd ((decimal_spec n).2.1 _ h) (by decide)
  have hl : linesOf (outputText n set) = decimal n :: linesOf set.toText := by
    have : outputText n set = line (decimal n) set.toText := by
      simp [outputText, line]
    rw [this, linesOf_line hd]
  unfold readReport
  rw [hl]
  simp only [Option.bind_eq_bind, readNat_decimal, Option.bind_some]
  unfold EstimatorSet.toText
  rw [h1]
  rfl

end Minimc
