import Verif.Spec.Output

/-! # Lemmas on file names -/

namespace Minimc

open Spec FilePath

/-- What follows the last `c`. -/
def afterLast (c : Char) (l : Chars) : Chars := (l.reverse.takeWhile (· != c)).reverse

theorem afterLast_split (c : Char) (l : Chars) : ∃ d, l = d ++ afterLast c l ∧ c ∉ afterLast c l ∧
    (d = [] ∨ ∃ a, d = a ++ [c]) := by
  refine ⟨(l.reverse.dropWhile (· != c)).reverse, ?_, ?_, ?_⟩
  · unfold afterLast
    rw [← List.reverse_append, List.takeWhile_append_dropWhile, List.reverse_reverse]
  · unfold afterLast
    rw [List.mem_reverse]
    intro h
    simpa using List.all_eq_true.1 (List.all_takeWhile (p := (· != c)) (l := l.reverse)) c h
  · cases h : l.reverse.dropWhile (· != c) with
    | nil => exact .inl rfl
    | cons x r =>
      refine .inr ⟨r.reverse, ?_⟩
      have hx := List.head_dropWhile_not (· != c) (l := l.reverse) (by rw [h]; simp)
      simp only [h, List.head_cons, bne_eq_false_iff_eq] at hx
      rw [List.reverse_cons, hx]

theorem afterLast_append {c : Char} {t : Chars} (h : c ∉ t) (a : Chars) :
    afterLast c (a ++ c :: t) = t := by
  unfold afterLast
  rw [List.reverse_append, List.reverse_cons, List.append_assoc, List.takeWhile_append_of_pos]
  · simp
  · intro x hx
    simp only [bne_iff_ne, ne_eq]
    rintro rfl
    exact h (List.mem_reverse.1 hx)

theorem afterLast_self {c : Char} {t : Chars} (h : c ∉ t) : afterLast c t = t := by
  unfold afterLast
  have := List.takeWhile_append_of_pos (p := (· != c)) (l₁ := t.reverse) (l₂ := []) ?_
  · rw [List.append_nil] at this
    rw [this, List.takeWhile_nil, List.append_nil, List.reverse_reverse]
  intro x hx
  simp only [bne_iff_ne, ne_eq]
  rintro rfl
  exact h (List.mem_reverse.1 hx)

theorem filename_eq (p : Chars) : filename p = afterLast '/' p := rfl

theorem extension_eq (p : Chars) : extension p =
    if filename p = "..".toList ∨ (afterLast '.' (filename p)).length + 1 ≥ (filename p).length then []
    else '.' :: afterLast '.' (filename p) := rfl

theorem outText : ".out".toList = ['.', 'o', 'u', 't'] := rfl

/-- The extension ends the path; if there is one, the name starts before it. -/
theorem extension_suffix (p : Chars) : ∃ a, p = a ++ extension p := by
  obtain ⟨d, h1, -, -⟩ := afterLast_split '/' p
  obtain ⟨d', h2, -, h3⟩ := afterLast_split '.' (filename p)
  rw [extension_eq]
  split_ifs with h
  · exact ⟨p, by simp⟩
  · push Not at h
    rcases h3 with rfl | ⟨a, rfl⟩
    · exfalso
      have := congrArg List.length h2
      rw [List.nil_append] at this
      omega
    · refine ⟨d ++ a, ?_⟩
      rw [← filename_eq] at h1
      rw [h2] at h1
      simpa using h1

theorem extension_out {p : Chars} : extension p = ".out".toList ↔ HasExtension p ".out".toList := by
  constructor
  · intro h
    obtain ⟨d, h1, h2, h3⟩ := afterLast_split '/' p
    obtain ⟨d', g1, g2, g3⟩ := afterLast_split '.' (filename p)
    rw [extension_eq, outText] at h
    split_ifs at h with hc
    push Not at hc
    have he : afterLast '.' (filename p) = ['o', 'u', 't'] := (List.cons.inj h).2
    rw [he] at g1 hc
    rcases g3 with rfl | ⟨a, rfl⟩
    · rw [g1] at hc
      simp at hc
    · rw [← filename_eq] at h1 h2
      refine ⟨d, a, ?_, h3, ?_, ?_⟩
      · rw [g1] at h1
        rw [h1, outText]
        simp
      · intro hm
        exact h2 (by rw [g1]; simp [hm])
      · rintro rfl
        rw [g1] at hc
        simp at hc
  · rintro ⟨d, a, rfl, hd, ha, hne⟩
    have hf : filename (d ++ a ++ ".out".toList) = a ++ ".out".toList := by
      have hn : '/' ∉ a ++ ".out".toList := by
        rw [outText]
        simp [ha]
      rw [filename_eq]
      rcases hd with rfl | ⟨d', rfl⟩
      · rw [List.nil_append]
        exact afterLast_self hn
      · rw [show d' ++ ['/'] ++ a ++ ".out".toList = d' ++ '/' :: (a ++ ".out".toList) by simp]
        exact afterLast_append hn d'
    have he : afterLast '.' (a ++ ".out".toList) = ['o', 'u', 't'] := by
      rw [outText]
      exact afterLast_append (by decide) a
    have hl : 0 < a.length := List.length_pos_of_ne_nil hne
    rw [extension_eq, hf, he, if_neg, outText]
    push Not
    refine ⟨?_, ?_⟩
    · intro h
      have := congrArg List.length h
      rw [List.length_append, outText] at this
      have h2 : "..".toList.length = 2 := rfl
      rw [h2] at this
      simp at this
    · rw [List.length_append, outText]
      simp only [List.length_cons, List.length_nil]
      omega

/-- The output file is the input file exactly if that has the extension of output files. -/
theorem replaceExtension_self {p : Chars} :
    replaceExtension p ".out".toList = p ↔ HasExtension p ".out".toList := by
  rw [← extension_out]
  obtain ⟨a, ha⟩ := extension_suffix p
  unfold replaceExtension
  have ht : p.take (p.length - (extension p).length) = a := by
    conv_lhs => rw [ha]
    have hl : p.length = a.length + (extension p).length := by
      conv_lhs => rw [ha]
      rw [List.length_append]
    rw [← ha, hl]
    rw [Nat.add_sub_cancel]
    conv_lhs => rw [ha]
    simp
  rw [ht]
  constructor
  · intro h
    exact (List.append_cancel_left (h.trans ha)).symm
  · intro h
    rw [h] at ha
    exact ha.symm

end Minimc
