import Verif.Spec.Driver
import Verif.Lemmas.Fuel

/-! # Lemmas about banks and pools of workers -/

namespace Minimc

open Spec

theorem Forest.append_inv {R : Particle → Particle × List Particle → Prop}
    {prepare : Particle → Particle} {a b : List Particle} {l : List (Particle × List Particle)}
    (h : Forest R prepare (a ++ b) l) :
    ∃ la lb, l = la ++ lb ∧ Forest R prepare a la ∧ Forest R prepare b lb := by
  induction a generalizing l with
  | nil => exact ⟨[], l, rfl, .nil, h⟩
  | cons p a ih =>
    cases h with
    | cons h1 h2 h3 =>
      obtain ⟨la, lb, rfl, ha, hb⟩ := ih h3
      exact ⟨_, lb, by simp, .cons h1 h2 ha, hb⟩

theorem Forest.append {R : Particle → Particle × List Particle → Prop}
    {prepare : Particle → Particle} {a b : List Particle} {la lb : List (Particle × List Particle)}
    (ha : Forest R prepare a la) (hb : Forest R prepare b lb) :
    Forest R prepare (a ++ b) (la ++ lb) := by
  induction ha with
  | nil => exact hb
  | cons h1 h2 _ _ ih =>
    rw [List.cons_append, List.cons_append, List.append_assoc]
    exact .cons h1 h2 ih

theorem Forest.imp {R R' : Particle → Particle × List Particle → Prop}
    {prepare : Particle → Particle} (hR : ∀ p r, R p r → R' p r) {a : List Particle}
    {l : List (Particle × List Particle)} (h : Forest R prepare a l) : Forest R' prepare a l := by
  induction h with
  | nil => exact .nil
  | cons h1 _ _ ih2 ih3 => exact .cons (hR _ _ h1) ih2 ih3

theorem Forest.unique {R : Particle → Particle × List Particle → Prop}
    {prepare : Particle → Particle} (hR : ∀ p r r', R p r → R p r' → r = r') {a : List Particle}
    {l l' : List (Particle × List Particle)} (h : Forest R prepare a l)
    (h' : Forest R prepare a l') : l = l' := by
  induction h generalizing l' with
  | nil => cases h'; rfl
  | cons h1 _ _ ih2 ih3 =>
    cases h' with
    | cons h1' h2' h3' =>
      have := hR _ _ _ h1 h1'
      simp only [Prod.mk.injEq] at this
      obtain ⟨rfl, rfl⟩ := this
      rw [ih2 h2', ih3 h3']

/-- The bank at hand is processed from the back. -/
theorem processBank_concat {run : Particle → Res (Particle × List Particle)}
    {qs : List Perturbation} (n : ℕ) (bank : Bank) (p : Particle) :
    processBank run qs (n + 1) (bank ++ [p]) = (do
      let (last, scored) ← run (p.setPerturbations qs)
      let rest ← processBank run qs n (last.secondaries.map Particle.ofBorn ++ bank)
      .ok ((p.setPerturbations qs, scored) :: rest)) := by
  conv_lhs => unfold processBank
  rw [List.getLast?_concat, List.dropLast_concat]
  rfl

theorem processBank_nil {run : Particle → Res (Particle × List Particle)}
    {qs : List Perturbation} (n : ℕ) : processBank run qs n [] = .ok [] := by
  unfold processBank
  rfl

theorem processBank_zero {run : Particle → Res (Particle × List Particle)}
    {qs : List Perturbation} (bank : Bank) (p : Particle) :
    processBank run qs 0 (bank ++ [p]) = .error .fuel := by
  unfold processBank
  rw [List.getLast?_concat]

/-- Replacing one element of a list. -/
theorem set_split {α : Type _} {l : List α} {i : ℕ} {a : α} (h : l[i]? = some a) (b : α) :
    ∃ x y, l = x ++ a :: y ∧ l.set i b = x ++ b :: y := by
  obtain ⟨hi, he⟩ := List.getElem?_eq_some_iff.1 h
  refine ⟨l.take i, l.drop (i + 1), ?_, ?_⟩
  · rw [← he, List.getElem_cons_drop, List.take_append_drop]
  · rw [List.set_eq_take_append_cons_drop, if_pos hi]

end Minimc
