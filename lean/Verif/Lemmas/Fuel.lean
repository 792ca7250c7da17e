import Verif.Model.Driver

/-! # More rounds give the same outcome

A result is never changed by allowing loops more rounds, unless the rounds ran out. -/

namespace Minimc

/-- `y` is `x` with more rounds allowed. -/
def Res.Le {α : Type _} (x y : Res α) : Prop := x = .error .fuel ∨ x = y

theorem Res.Le.refl {α : Type _} (x : Res α) : Res.Le x x := Or.inr rfl

theorem Res.Le.bind {α β : Type _} {x y : Res α} {f g : α → Res β} (h : Res.Le x y)
    (hf : ∀ a, Res.Le (f a) (g a)) : Res.Le (x >>= f) (y >>= g) := by
  rcases h with rfl | rfl
  · exact Or.inl rfl
  · rcases x with e | a
    · exact Or.inr rfl
    · exact hf a

theorem Res.Le.noexcept {α : Type _} {x y : Res α} (h : Res.Le x y) :
    Res.Le (Minimc.noexcept x) (Minimc.noexcept y) := by
  rcases h with rfl | rfl
  · exact Or.inl rfl
  · exact Or.inr rfl

theorem Res.Le.ite {α : Type _} {c : Prop} [Decidable c] {x y x' y' : Res α} (h : Res.Le x y)
    (h' : Res.Le x' y') : Res.Le (if c then x else x') (if c then y else y') := by
  split
  · exact h
  · exact h'

theorem Res.Le.ok {α : Type _} {x y : Res α} {a : α} (h : Res.Le x y) (hx : x = .ok a) :
    y = .ok a := by
  rcases h with rfl | rfl
  · cases hx
  · exact hx

theorem FreeGas.targetLoop_le {y : ℝ} : ∀ {n n' : ℕ} (_ : n ≤ n') (p : Particle),
    Res.Le (FreeGas.targetLoop y n p) (FreeGas.targetLoop y n' p)
  | 0, _, _, _ => Or.inl rfl
  | n + 1, 0, h, _ => absurd h (by omega)
  | n + 1, n' + 1, h, p => by
    unfold FreeGas.targetLoop
    dsimp only
    exact Res.Le.ite (FreeGas.targetLoop_le (Nat.le_of_succ_le_succ h) _) (Res.Le.refl _)

theorem FreeGas.interact_le {f f' : ℕ} (h : f ≤ f') (awr : ℝ) (p : Particle) :
    Res.Le (FreeGas.interact f awr p) (FreeGas.interact f' awr p) := by
  unfold FreeGas.interact
  refine Res.Le.bind (Res.Le.refl _) (fun e => Res.Le.bind (Res.Le.refl _) (fun t => ?_))
  refine Res.Le.ite (Res.Le.refl _) (Res.Le.bind ?_ (fun _ => Res.Le.refl _))
  unfold FreeGas.sampleTarget
  exact Res.Le.ite (Res.Le.refl _)
    (Res.Le.bind (FreeGas.targetLoop_le h _) (fun _ => Res.Le.refl _))

theorem ContinuousReaction.interact_le {f f' : ℕ} (h : f ≤ f') (r : ContinuousReaction)
    (p : Particle) : Res.Le (r.interact f p) (r.interact f' p) := by
  unfold ContinuousReaction.interact
  apply Res.Le.noexcept
  rcases r with ev | ⟨ev, tsl, awr⟩ | ⟨ev, nubar⟩
  · exact Res.Le.refl _
  · dsimp only
    unfold ContinuousReaction.scatterInteract
    rcases tsl with _ | s
    · exact FreeGas.interact_le h _ _
    · exact Res.Le.bind (Res.Le.refl _)
        (fun b => Res.Le.ite (Res.Le.refl _) (FreeGas.interact_le h _ _))
  · exact Res.Le.refl _

theorem Continuous.interactLoop_le {f f' : ℕ} (h : f ≤ f') (c : Continuous) :
    ∀ {n n' : ℕ} (_ : n ≤ n') (p : Particle),
      Res.Le (c.interactLoop f n p) (c.interactLoop f' n' p)
  | 0, _, _, _ => Or.inl rfl
  | n + 1, 0, hn, _ => absurd hn (by omega)
  | n + 1, n' + 1, hn, p => by
    unfold Continuous.interactLoop
    refine Res.Le.bind (Res.Le.refl _) (fun t => Res.Le.bind (Res.Le.refl _) (fun o => ?_))
    rcases o with _ | r
    · exact Continuous.interactLoop_le h c (Nat.le_of_succ_le_succ hn) _
    · exact ContinuousReaction.interact_le h r _

theorem Nuclide.interact_le {f f' : ℕ} (h : f ≤ f') (n : Nuclide) (p : Particle) :
    Res.Le (n.interact f p) (n.interact f' p) := by
  unfold Nuclide.interact
  refine Res.Le.noexcept (Res.Le.bind (Res.Le.refl _) (fun i => ?_))
  rcases i with m | c
  · exact Res.Le.refl _
  · exact Res.Le.noexcept (Continuous.interactLoop_le h c h p)

theorem collide_le {f f' : ℕ} (h : f ≤ f') (method : Method) (p : Particle) (d : WithTop ℝ) :
    Res.Le (collide method f p d) (collide method f' p d) := by
  unfold collide
  exact Res.Le.bind (Res.Le.refl _) (fun _ => Res.Le.bind (Res.Le.refl _)
    (fun _ => Nuclide.interact_le h _ _))

theorem transportStep_le {f f' : ℕ} (h : f ≤ f') (method : Method) (w : World) (p : Particle) :
    Res.Le (transportStep method f w p) (transportStep method f' w p) := by
  cases method
  · change Res.Le (surfaceStep f w p) (surfaceStep f' w p)
    unfold surfaceStep
    refine Res.Le.bind (Res.Le.refl _) (fun _ => Res.Le.bind (Res.Le.refl _)
      (fun _ => Res.Le.bind (Res.Le.refl _) (fun _ => ?_)))
    exact Res.Le.ite (collide_le h _ _ _) (Res.Le.refl _)
  · change Res.Le (deltaStep f w p) (deltaStep f' w p)
    unfold deltaStep
    refine Res.Le.bind (Res.Le.refl _) (fun _ => Res.Le.bind (Res.Le.refl _)
      (fun _ => Res.Le.bind (Res.Le.refl _) (fun _ => ?_)))
    refine Res.Le.ite (Res.Le.refl _) (Res.Le.bind (Res.Le.refl _) (fun _ => ?_))
    exact Res.Le.ite (collide_le h _ _ _) (Res.Le.refl _)

theorem transportLoop_le {f f' : ℕ} (h : f ≤ f') (method : Method) (w : World) :
    ∀ {n n' : ℕ} (_ : n ≤ n') (p : Particle),
      Res.Le (transportLoop method f w n p) (transportLoop method f' w n' p)
  | 0, 0, _, _ => Res.Le.refl _
  | 0, n' + 1, _, p => by
    unfold transportLoop
    by_cases ha : p.isAlive = true
    · rw [if_pos ha]; exact Or.inl rfl
    · rw [if_neg ha, if_neg ha]; exact Res.Le.refl _
  | n + 1, 0, hn, _ => absurd hn (by omega)
  | n + 1, n' + 1, hn, p => by
    unfold transportLoop
    refine Res.Le.ite (Res.Le.bind (transportStep_le h _ _ _) (fun p' => ?_)) (Res.Le.refl _)
    exact Res.Le.bind (transportLoop_le h method w (Nat.le_of_succ_le_succ hn) p')
      (fun _ => Res.Le.refl _)

theorem transport_le {f f' : ℕ} (h : f ≤ f') (method : Method) (w : World) (p : Particle) :
    Res.Le (transport method f w p) (transport method f' w p) := by
  unfold transport
  exact Res.Le.noexcept (Res.Le.bind (Res.Le.refl _)
    (fun _ => transportLoop_le h method w h _))

theorem processBank_le {run run' : Particle → Res (Particle × List Particle)}
    (hr : ∀ p, Res.Le (run p) (run' p)) (qs : List Perturbation) :
    ∀ {n n' : ℕ} (_ : n ≤ n') (bank : Bank),
      Res.Le (processBank run qs n bank) (processBank run' qs n' bank) := by
  intro n
  induction n with
  | zero =>
    intro n' _ bank
    unfold processBank
    rcases bank.getLast? with _ | p
    · exact Res.Le.refl _
    · exact Or.inl rfl
  | succ n ih =>
    intro n' hn bank
    rcases n' with _ | n'
    · omega
    · unfold processBank
      rcases bank.getLast? with _ | p
      · exact Res.Le.refl _
      · exact Res.Le.bind (hr _) (fun _ => Res.Le.bind (ih (by omega) _) (fun _ => Res.Le.refl _))

theorem history_le {f f' : ℕ} (h : f ≤ f') (P : Problem) (e : ℕ) :
    Res.Le (P.history f e) (P.history f' e) := by
  unfold Problem.history
  exact Res.Le.bind (Res.Le.refl _) (fun _ => Res.Le.bind
    (processBank_le (fun p => transport_le h _ _ p) _ h _) (fun _ => Res.Le.refl _))

end Minimc
