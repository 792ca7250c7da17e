import Verif.Spec.World
import Mathlib.Data.List.Basic

/-! # Lemmas about maps keyed by pointer and the loops that fill them -/

namespace Minimc

open Spec

theorem find_firstNamed {α : Type} (nm : α → String) (nodes : List α) (name : String) (n : α) :
    nodes.find? (fun m => nm m == name) = some n ↔ FirstNamed nm nodes name n := by
  rw [List.find?_eq_some_iff_append]
  constructor
  · rintro ⟨h, l, r, h1, h2⟩
    exact ⟨l, r, h1, by simpa using h, fun m hm => by simpa using h2 m hm⟩
  · rintro ⟨l, r, h1, h2, h3⟩
    exact ⟨by simpa using h2, l, r, h1, fun m hm => by simpa using h3 m hm⟩

theorem firstNamed_exists {α : Type} (nm : α → String) (nodes : List α) (name : String) :
    (∃ n, FirstNamed nm nodes name n) ↔ ∃ n ∈ nodes, nm n = name := by
  constructor
  · rintro ⟨n, l, r, h1, h2, -⟩
    exact ⟨n, by rw [h1]; simp, h2⟩
  · rintro ⟨n, hn, h⟩
    rcases hf : nodes.find? (fun m => nm m == name) with _ | n'
    · rw [List.find?_eq_none] at hf
      exact absurd h (by simpa using hf n hn)
    · exact ⟨n', (find_firstNamed _ _ _ _).1 hf⟩

theorem firstNamed_mem {α : Type} {nm : α → String} {nodes : List α} {name : String} {n : α}
    (h : FirstNamed nm nodes name n) : n ∈ nodes := by
  obtain ⟨l, r, h1, -, -⟩ := h
  rw [h1]; simp

theorem firstNamed_name {α : Type} {nm : α → String} {nodes : List α} {name : String} {n : α}
    (h : FirstNamed nm nodes name n) : nm n = name := h.choose_spec.choose_spec.2.1

theorem firstNamed_unique {α : Type} {nm : α → String} {nodes : List α} {name : String} {n n' : α}
    (h : FirstNamed nm nodes name n) (h' : FirstNamed nm nodes name n') : n = n' := by
  rw [← find_firstNamed] at h h'
  rw [h] at h'
  exact Option.some.inj h'

theorem firstNamed_cons {α : Type} {nm : α → String} {a : α} {l : List α} {name : String} {n : α} :
    FirstNamed nm (a :: l) name n ↔
      (nm a = name ∧ n = a) ∨ (nm a ≠ name ∧ FirstNamed nm l name n) := by
  rw [← find_firstNamed, ← find_firstNamed, List.find?_cons]
  by_cases h : nm a = name
  · simp [h, eq_comm]
  · have : (nm a == name) = false := by simpa using h
    simp [this, h]

variable {κ β σ : Type}

/-- Entries of a map ordered by address. -/
def SortedByAddr (addr : κ → ℕ) (m : List (κ × β)) : Prop :=
  (m.map (fun e => addr e.1)).Pairwise (· < ·)

theorem emplaceByAddr_ids (addr : κ → ℕ) (s : κ) (b : β) :
    ∀ (m : List (κ × β)) (i : ℕ),
      i ∈ (emplaceByAddr addr s b m).map (fun e => addr e.1) ↔ i = addr s ∨ i ∈ m.map (fun e => addr e.1)
  | [], i => by simp [emplaceByAddr]
  | (s', b') :: m, i => by
    rw [emplaceByAddr]
    split
    · simp
    · split
      · rename_i h
        simp only [List.map_cons, List.mem_cons, h]
        tauto
      · simp only [List.map_cons, List.mem_cons, emplaceByAddr_ids addr s b m i]
        tauto

theorem emplaceByAddr_sorted (addr : κ → ℕ) (s : κ) (b : β) :
    ∀ (m : List (κ × β)), SortedByAddr addr m → SortedByAddr addr (emplaceByAddr addr s b m)
  | [], _ => by simp [emplaceByAddr, SortedByAddr]
  | (s', b') :: m, h => by
    rw [emplaceByAddr]
    have h' : SortedByAddr addr m := (List.pairwise_cons.1 h).2
    have h1 : ∀ i ∈ m.map (fun e => addr e.1), addr s' < i := (List.pairwise_cons.1 h).1
    split
    · rename_i hlt
      refine List.pairwise_cons.2 ⟨?_, h⟩
      intro i hi
      rcases List.mem_cons.1 hi with rfl | hi
      · exact hlt
      · exact lt_trans hlt (h1 i hi)
    · split
      · exact h
      · rename_i h2 h3
        refine List.pairwise_cons.2 ⟨?_, emplaceByAddr_sorted addr s b m h'⟩
        intro i hi
        rcases (emplaceByAddr_ids addr s b m i).1 hi with rfl | hi
        · simp only; omega
        · exact h1 i hi

theorem emplaceByAddr_mem (addr : κ → ℕ) (s : κ) (b : β) :
    ∀ (m : List (κ × β)) (e : κ × β),
      e ∈ emplaceByAddr addr s b m ↔ e ∈ m ∨ (e = (s, b) ∧ addr s ∉ m.map (fun e => addr e.1)) ∨
        (e = (s, b) ∧ e ∈ emplaceByAddr addr s b m)
  | m, e => by
    constructor
    · intro h
      by_cases he : e = (s, b)
      · exact .inr (.inr ⟨he, h⟩)
      · left
        induction m with
        | nil => simp [emplaceByAddr, he] at h
        | cons a m ih =>
          rcases a with ⟨s', b'⟩
          rw [emplaceByAddr] at h
          split at h
          · rcases List.mem_cons.1 h with h | h
            · exact absurd h he
            · exact h
          · split at h
            · exact h
            · rcases List.mem_cons.1 h with h | h
              · rw [h]; exact List.mem_cons_self
              · exact List.mem_cons_of_mem _ (ih h)
    · rintro (h | ⟨rfl, h⟩ | ⟨-, h⟩)
      · induction m with
        | nil => cases h
        | cons a m ih =>
          rcases a with ⟨s', b'⟩
          rw [emplaceByAddr]
          split
          · exact List.mem_cons_of_mem _ h
          · split
            · exact h
            · rcases List.mem_cons.1 h with h | h
              · rw [h]; exact List.mem_cons_self
              · exact List.mem_cons_of_mem _ (ih h)
      · induction m with
        | nil => simp [emplaceByAddr]
        | cons a m ih =>
          rcases a with ⟨s', b'⟩
          simp only [List.map_cons, List.mem_cons, not_or] at h
          rw [emplaceByAddr]
          split
          · exact List.mem_cons_self
          · rw [if_neg h.1]
            exact List.mem_cons_of_mem _ (ih h.2)
      · exact h

/-- If the address is already there, `emplace` changes nothing. -/
theorem emplaceByAddr_present (addr : κ → ℕ) (s : κ) (b : β) :
    ∀ (m : List (κ × β)), SortedByAddr addr m → addr s ∈ m.map (fun e => addr e.1) →
      emplaceByAddr addr s b m = m
  | [], _, h => by cases h
  | (s', b') :: m, hs, h => by
    rw [emplaceByAddr]
    have h1 : ∀ i ∈ m.map (fun e => addr e.1), addr s' < i := (List.pairwise_cons.1 hs).1
    have h' : SortedByAddr addr m := (List.pairwise_cons.1 hs).2
    rcases List.mem_cons.1 h with h | h
    · have h : addr s = addr s' := h
      rw [if_neg (by omega), if_pos h]
    · have := h1 _ h
      rw [if_neg (by omega), if_neg (by omega), emplaceByAddr_present addr s b m h' h]

theorem emplaceByAddr_absent (addr : κ → ℕ) (s : κ) (b : β) (m : List (κ × β))
    (h : addr s ∉ m.map (fun e => addr e.1)) (e : κ × β) :
    e ∈ emplaceByAddr addr s b m ↔ e = (s, b) ∨ e ∈ m := by
  constructor
  · intro he
    rcases (emplaceByAddr_mem addr s b m e).1 he with h' | ⟨h', -⟩ | ⟨h', -⟩
    · exact .inr h'
    · exact .inl h'
    · exact .inl h'
  · rintro (h' | h')
    · exact (emplaceByAddr_mem addr s b m e).2 (.inr (.inl ⟨h', h⟩))
    · exact (emplaceByAddr_mem addr s b m e).2 (.inl h')

/-- The loop that `AssignSurfaceSenses` and `AssignNuclides` have in common: find the object with
the name, read a value from the node, and put both in the map. -/
def resolveLoop (addr : κ → ℕ) (nm : κ → String) (val : σ → Option β) (all : List κ) :
    List (κ × β) → List (String × σ) → Res (List (κ × β))
  | m, [] => .ok m
  | m, (name, x) :: nodes =>
    match all.find? (fun k => nm k == name) with
    | none => .error .assertFail
    | some k =>
      match val x with
      | none => .error .assertFail
      | some v => resolveLoop addr nm val all (emplaceByAddr addr k v m) nodes

section
variable {addr : κ → ℕ} {nm : κ → String} {val : σ → Option β} {all : List κ}

theorem resolveLoop_exists : ∀ (nodes : List (String × σ)) (m : List (κ × β)),
    (∃ r, resolveLoop addr nm val all m nodes = .ok r) ↔
      ∀ n ∈ nodes, n.1 ∈ all.map nm ∧ ∃ v, val n.2 = some v
  | [], m => by simp [resolveLoop]
  | (x, y) :: nodes, m => by
    rw [resolveLoop, List.forall_mem_cons]
    split
    · rename_i hf
      rw [List.find?_eq_none] at hf
      simp only [reduceCtorEq, exists_false, List.mem_map, false_iff, not_and]
      rintro ⟨⟨k, hk, rfl⟩, -⟩
      exact absurd (hf k hk) (by simp)
    · rename_i k hf
      have hk := (find_firstNamed _ _ _ _).1 hf
      split
      · rename_i hv
        simp [hv]
      · rename_i v hv
        rw [resolveLoop_exists nodes]
        have : x ∈ all.map nm := List.mem_map.2 ⟨k, firstNamed_mem hk, firstNamed_name hk⟩
        simp [this, hv]

theorem resolveLoop_error : ∀ (nodes : List (String × σ)) (m : List (κ × β)) (e : Err),
    resolveLoop addr nm val all m nodes = .error e → e = .assertFail
  | [], m, e, h => by cases h
  | (x, y) :: nodes, m, e, h => by
    rw [resolveLoop] at h
    split at h
    · cases h; rfl
    · split at h
      · cases h; rfl
      · exact resolveLoop_error nodes _ e h

theorem resolveLoop_spec (hn : (all.map nm).Nodup) (ha : ∀ k ∈ all, ∀ k' ∈ all, addr k = addr k' → k = k') :
    ∀ (nodes : List (String × σ)) (m r : List (κ × β)), SortedByAddr addr m →
      (∀ e ∈ m, e.1 ∈ all) → resolveLoop addr nm val all m nodes = .ok r →
      SortedByAddr addr r ∧ ∀ k v, (k, v) ∈ r ↔ (k, v) ∈ m ∨
        (k ∈ all ∧ addr k ∉ m.map (fun e => addr e.1) ∧
          ∃ x, FirstNamed Prod.fst nodes (nm k) (nm k, x) ∧ val x = some v)
  | [], m, r, hs, hm, h => by
    simp only [resolveLoop, Except.ok.injEq] at h
    subst h
    refine ⟨hs, fun k v => ?_⟩
    simp only [iff_self_or]
    rintro ⟨-, -, x, ⟨l, r, h, -⟩, -⟩
    simp at h
  | (x, y) :: nodes, m, r, hs, hm, h => by
    rw [resolveLoop] at h
    split at h
    · cases h
    rename_i k hf
    have hk := (find_firstNamed _ _ _ _).1 hf
    have hkall := firstNamed_mem hk
    have hkx := firstNamed_name hk
    split at h
    · cases h
    rename_i v hv
    have huniq : ∀ k' ∈ all, nm k' = x → k' = k := by
      intro k' hk' h'
      rw [← hkx] at h'
      exact List.inj_on_of_nodup_map hn hk' hkall h'
    have hm' : ∀ e ∈ emplaceByAddr addr k v m, e.1 ∈ all := by
      intro e he
      rcases (emplaceByAddr_mem addr k v m e).1 he with h' | ⟨h', -⟩ | ⟨h', -⟩
      · exact hm e h'
      · rw [h']; exact hkall
      · rw [h']; exact hkall
    obtain ⟨h1, h2⟩ := resolveLoop_spec hn ha nodes _ r (emplaceByAddr_sorted addr k v m hs) hm' h
    refine ⟨h1, fun k' v' => ?_⟩
    rw [h2]
    by_cases hp : addr k ∈ m.map (fun e => addr e.1)
    · rw [emplaceByAddr_present addr k v m hs hp]
      refine or_congr_right (and_congr_right fun hk' => and_congr_right fun hnot => ?_)
      have hne : x ≠ nm k' := by
        intro e
        rw [huniq k' hk' e.symm] at hnot
        exact hnot hp
      refine exists_congr fun z => ?_
      rw [firstNamed_cons]
      simp [hne]
    · rw [emplaceByAddr_absent addr k v m hp]
      simp only [emplaceByAddr_ids, firstNamed_cons]
      by_cases hkk : k' = k
      · subst hkk
        have hvm : ∀ w, (k', w) ∉ m := fun w hw =>
          hp (List.mem_map.2 ⟨_, hw, rfl⟩)
        simp only [Prod.mk.injEq, true_and, hvm, or_false, not_true_eq_false, false_and,
          and_false, false_or, hkall, hp, not_false_eq_true]
        constructor
        · rintro rfl
          exact ⟨y, .inl ⟨hkx.symm, by rw [hkx]; exact ⟨rfl, rfl⟩⟩, hv⟩
        · rintro ⟨z, ⟨-, hz⟩ | ⟨hz, -⟩, hz'⟩
          · rw [hz.2, hv] at hz'
            exact (Option.some.inj hz').symm
          · exact absurd hkx.symm hz
      · have hne : ∀ w, ((k', v') : κ × β) ≠ (k, w) := fun w hw => hkk (Prod.mk.inj hw).1
        simp only [hne, false_or]
        refine or_congr_right (and_congr_right fun hk' => ?_)
        have h1 : addr k' ≠ addr k := fun e => hkk (ha k' hk' k hkall e)
        have h2 : x ≠ nm k' := fun e => hkk (huniq k' hk' e.symm)
        simp only [h1, false_or, h2, false_and, ne_eq, not_false_eq_true, true_and]

end

end Minimc
