import Verif.Lemmas.Xml
import Verif.Lemmas.WorldParts
import Verif.Lemmas.Keeps
import Verif.Lemmas.MgInteract

/-! # Lemmas about reading the parts of a document that the schema accepts -/

namespace Minimc

open Spec Schema Xml

namespace Input

theorem mapM_iff {α β : Type} {f : α → Res β} {R : α → β → Prop} :
    ∀ {l : List α}, (∀ a ∈ l, ∀ b, f a = .ok b ↔ R a b) →
      ∀ r, l.mapM f = .ok r ↔ List.Forall₂ R l r
  | [], _, r => by
    simp only [List.mapM_nil, pure, Except.pure, Except.ok.injEq, List.forall₂_nil_left_iff]
    exact eq_comm
  | a :: l, h, r => by
    simp only [List.mapM_cons, res_bind_ok, pure, Except.pure, Except.ok.injEq]
    constructor
    · rintro ⟨b, hb, bs, hbs, rfl⟩
      exact .cons ((h a (by simp) b).1 hb) ((mapM_iff (fun a ha => h a (by simp [ha])) bs).1 hbs)
    · intro hr
      cases hr with
      | @cons _ b _ bs h1 h2 =>
        exact ⟨b, (h a (by simp) b).2 h1, bs, (mapM_iff (fun a ha => h a (by simp [ha])) bs).2 h2,
          rfl⟩

theorem map_forall₂ {α β : Type} {f : α → β} {R : α → β → Prop} :
    ∀ {l : List α}, (∀ a ∈ l, R a (f a)) → List.Forall₂ R l (l.map f)
  | [], _ => .nil
  | a :: l, h => .cons (h a (by simp)) (map_forall₂ (fun a ha => h a (by simp [ha])))

/-! ### Geometry -/

theorem surface_iff {env : Env} {n : Xml} (h : SurfaceElement env n) (s : SurfaceNode) :
    surface env n = .ok s ↔ SurfaceOf env n s := by
  unfold SurfaceElement at h
  unfold surface
  by_cases h1 : n.name = "sphere"
  · rw [if_pos h1] at h ⊢
    obtain ⟨ha, hc, hp, hr, hv⟩ := h
    have hn := attrs_value_iff ha (a := "name") (by simp)
    have hrn := number_iff hr (a := "r") (by simp) (double_of_positive hv)
    constructor
    · intro e
      cases e
      exact .sphere h1 ((hn _).2 rfl) (allOf_child hc (by simp)) ((point_iff hp _).2 rfl)
        (allOf_child hc (by simp)) ((hrn _).2 rfl)
    · intro e
      cases e with
      | sphere _ e2 e3 e4 e5 e6 =>
        rw [hn] at e2
        rw [allOf_child_iff hc (by simp)] at e3 e5
        subst e3 e5
        rw [point_iff hp] at e4
        rw [hrn] at e6
        rw [e2, e4, e6]
      | planeX e1 => rw [h1] at e1; simp at e1
      | cylinderX e1 => rw [h1] at e1; simp at e1
  · rw [if_neg h1] at h ⊢
    by_cases h2 : n.name = "planex"
    · rw [if_pos h2] at h ⊢
      obtain ⟨ha, hv⟩ := h
      have hn := attrs_value_iff ha (a := "name") (by simp)
      have hx := number_iff ha (a := "x") (by simp) hv
      constructor
      · intro e
        cases e
        exact .planeX h2 ((hn _).2 rfl) ((hx _).2 rfl)
      · intro e
        cases e with
        | sphere e1 => exact absurd e1 h1
        | planeX _ e2 e3 => rw [hn] at e2; rw [hx] at e3; rw [e2, e3]
        | cylinderX e1 => rw [h2] at e1; simp at e1
    · rw [if_neg h2] at h ⊢
      obtain ⟨ha, hv⟩ := h
      have hn := attrs_value_iff ha (a := "name") (by simp)
      have hx := number_iff ha (a := "r") (by simp) hv
      by_cases h3 : n.name = "cylinderx"
      · rw [if_pos h3]
        constructor
        · intro e
          cases e
          exact .cylinderX h3 ((hn _).2 rfl) ((hx _).2 rfl)
        · intro e
          cases e with
          | sphere e1 => exact absurd e1 h1
          | planeX e1 => exact absurd e1 h2
          | cylinderX _ e2 e3 => rw [hn] at e2; rw [hx] at e3; rw [e2, e3]
      · rw [if_neg h3]
        constructor
        · intro e; cases e
        · intro e
          cases e with
          | sphere e1 => exact absurd e1 h1
          | planeX e1 => exact absurd e1 h2
          | cylinderX e1 => exact absurd e1 h3

theorem surface_ok {env : Env} {n : Xml} (h : n.name ∈ ["sphere", "planex", "cylinderx"]) :
    ∃ s, surface env n = .ok s := by
  unfold surface
  simp only [List.mem_cons, List.not_mem_nil, or_false] at h
  rcases h with h | h | h <;> rw [h] <;> simp

theorem material_of {env : Env} {n : Xml} (h1 : Attrs n ["name", "aden"] [])
    (h2 : Val n "aden" (Positive env))
    (h3 : ∀ d ∈ n.children, Attrs d ["name", "afrac"] [] ∧ Val d "afrac" (Positive env)) :
    MaterialOf env n (material env n) ∧ 0 < (material env n).aden ∧
      ∀ x ∈ (material env n).nuclides, 0 < x.2 := by
  refine ⟨⟨attrs_value h1 (by simp), number_self h1 (by simp) (double_of_positive h2), ?_⟩,
    attrReal_pos h1 (by simp) h2, ?_⟩
  · refine map_forall₂ fun d hd => ⟨?_, ?_⟩
    · exact attrs_value (h3 d hd).1 (by simp)
    · exact number_self (h3 d hd).1 (by simp) (double_of_positive (h3 d hd).2)
  · intro x hx
    obtain ⟨d, hd, rfl⟩ := List.mem_map.1 hx
    exact attrReal_pos (h3 d hd).1 (by simp) (h3 d hd).2

theorem cell_of {env : Env} {n : Xml} (h0 : n.name ∈ ["cell", "void"]) (h1 : CSGDefinition n)
    (h2 : if n.name = "cell" then Attrs n ["name", "material"] ["temperature"] ∧
        Val n "temperature" (NonNegative env) ∧ Unique n.children
      else Attrs n [] []) :
    CellNodeOf env n (cell env n) ∧ (∀ s ∈ (cell env n).surfaces, s.2 ≠ .other) ∧
      ((cell env n).isVoid = true ↔ (cell env n).name = none) := by
  have hnd : (n.attrs.map Prod.fst).Nodup := by
    split at h2
    · exact h2.1.2.1
    · exact h2.2.1
  have hs : ∀ d ∈ n.children, HasAttr d "name" (d.attrString "name") ∧
      ((HasAttr d "sense" "-1" ∧ sense (d.attrString "sense") = .minus) ∨
      (HasAttr d "sense" "+1" ∧ sense (d.attrString "sense") = .plus)) := by
    intro d hd
    obtain ⟨ha, hv⟩ := h1.2 d hd
    refine ⟨attrs_value ha (by simp), ?_⟩
    have := attrs_value ha (a := "sense") (by simp)
    rcases hv _ ((attr_iff ha.2.1 _ _).1 this) with e | e
    · rw [e] at this ⊢
      exact .inr ⟨this, by decide⟩
    · rw [e] at this ⊢
      exact .inl ⟨this, by decide⟩
  have hvoid : (cell env n).isVoid = true ↔ n.name = "void" := by simp [cell]
  refine ⟨⟨hvoid, ?_, ?_, ?_, ?_⟩, ?_, ?_⟩
  · intro v
    exact (attr_iff hnd _ _).symm
  · intro hv
    have hc : n.name = "cell" := by
      simp only [List.mem_cons, List.not_mem_nil, or_false] at h0
      rcases h0 with h | h
      · exact h
      · rw [hvoid.2 h] at hv; cases hv
    rw [if_pos hc] at h2
    exact attrs_value h2.1 (by simp)
  · intro x
    have hval : Val n "temperature" (Double env) := by
      split at h2
      · exact double_of_nonneg h2.2.1
      · intro v hv
        have : "temperature" ∈ n.attrs.map Prod.fst :=
          List.mem_map.2 ⟨("temperature", v), (attr_iff hnd _ _).2 hv, rfl⟩
        have := h2.2.2 _ this
        simp at this
    unfold Number
    show (n.attr "temperature").map (fun s => (env.real s).getD 0) = some x ↔ _
    rcases hv : n.attr "temperature" with _ | v
    · simp only [Option.map_none, reduceCtorEq, false_iff]
      rintro ⟨v, h, -⟩
      rw [attr_iff hnd, hv] at h
      cases h
    · obtain ⟨y, hy⟩ := hval v hv
      simp only [Option.map_some, hy, Option.getD_some, Option.some.injEq]
      constructor
      · rintro rfl
        exact ⟨v, (attr_iff hnd _ _).2 hv, hy⟩
      · rintro ⟨u, hu, hx⟩
        rw [attr_iff hnd, hv] at hu
        cases hu
        rw [hy] at hx
        exact Option.some.inj hx
  · exact map_forall₂ hs
  · intro s h
    obtain ⟨d, hd, rfl⟩ := List.mem_map.1 h
    rcases (hs d hd).2 with ⟨-, e⟩ | ⟨-, e⟩ <;> simp [e]
  · rw [hvoid]
    show _ ↔ n.attr "name" = none
    by_cases hc : n.name = "cell"
    · rw [if_pos hc] at h2
      obtain ⟨v, hv⟩ := h2.1.1 "name" (by simp)
      simp [hc, hv]
    · rw [if_neg hc] at h2
      simp only [List.mem_cons, List.not_mem_nil, or_false] at h0
      rcases h0 with h | h
      · exact absurd h hc
      · simp only [h, true_iff]
        rcases hv : n.attr "name" with _ | v
        · rfl
        · have : "name" ∈ n.attrs.map Prod.fst :=
            List.mem_map.2 ⟨("name", v), (attr_iff hnd _ _).2 hv, rfl⟩
          have := h2.2.2 _ this
          simp at this

theorem field_iff {env : Env} {n : Xml} (h : IsScalarField env n) (f : ScalarField) :
    scalarField env n.firstChild = .ok f ↔ FieldOf env n f := by
  obtain ⟨h1, h2⟩ := h
  have hc := oneOf_child_iff h1
  obtain ⟨-, hname⟩ := oneOf_firstChild h1
  unfold scalarField
  by_cases hk : n.firstChild.name = "constant"
  · rw [if_pos hk] at h2 ⊢
    have hn := number_iff h2.1 (a := "c") (by simp) h2.2
    constructor
    · intro e
      cases e
      exact .constant ((hc _ _).2 ⟨rfl, hk⟩) ((hn _).2 rfl)
    · intro e
      cases e with
      | constant e1 e2 =>
        rw [hc] at e1
        obtain ⟨rfl, -⟩ := e1
        rw [hn] at e2
        rw [e2]
      | linear e1 =>
        rw [hc, hk] at e1
        simp at e1
  · have hl : n.firstChild.name = "linear" := by
      simp only [List.mem_cons, List.not_mem_nil, or_false] at hname
      rcases hname with h | h
      · exact absurd h hk
      · exact h
    rw [if_neg hk] at h2 ⊢
    rw [if_pos hl]
    obtain ⟨h3, h4, h5, h6, h7, h8⟩ := h2
    have hu := number_iff h4 (a := "upper") (by simp) (h5 _ (by simp))
    have hlo := number_iff h4 (a := "lower") (by simp) (h5 _ (by simp))
    have hb := number_iff h6 (a := "b") (by simp) h7
    constructor
    · intro e
      cases e
      exact .linear ((hc _ _).2 ⟨rfl, hl⟩) (allOf_child h3 (by simp)) ((hu _).2 rfl) ((hlo _).2 rfl)
        (allOf_child h3 (by simp)) ((point_iff h8 _).2 rfl) (allOf_child h3 (by simp))
        ((hb _).2 rfl)
    · intro e
      cases e with
      | constant e1 =>
        rw [hc] at e1
        exact absurd e1.2 hk
      | linear e1 e2 e3 e4 e5 e6 e7 e8 =>
        rw [hc] at e1
        obtain ⟨rfl, -⟩ := e1
        rw [allOf_child_iff h3 (by simp)] at e2 e5 e7
        subst e2 e5 e7
        rw [hu] at e3
        rw [hlo] at e4
        rw [point_iff h8] at e6
        rw [hb] at e8
        rw [e3, e4, e6, e8]

theorem field_ok {env : Env} {n : Xml} (h : IsScalarField env n) :
    ∃ f, scalarField env n.firstChild = .ok f := by
  have := (oneOf_firstChild h.1).2
  unfold scalarField
  simp only [List.mem_cons, List.not_mem_nil, or_false] at this
  rcases this with h | h <;> rw [h] <;> simp

/-! ### Multigroup data -/

theorem groupXS_real {env : Env} {s : String} (h : GroupXS env s) :
    ∀ w ∈ Text.words s, ∃ x, env.real w = some x := fun w hw => (h w hw).imp fun _ h => h.1

theorem mgNode_iff {env : Env} {n : Xml} (h0 : n.name ∈ ["capture", "scatter", "fission"])
    (h : if n.name = "fission" then GroupFission env n else GroupXS env n.text) (m : MgNode) :
    mgNode env n = .ok m ↔ MgNodeOf env n m := by
  simp only [List.mem_cons, List.not_mem_nil, or_false] at h0
  unfold mgNode toReaction
  rcases h0 with h0 | h0 | h0
  · rw [h0, if_neg (by simp)] at h
    have hx := Text.numbers_iff (groupXS_real h)
    rw [h0]
    simp only [if_true, bind, Except.bind]
    constructor
    · intro e
      cases e
      exact .capture h0 ((hx _).2 rfl)
    · intro e
      cases e with
      | capture _ e2 => rw [hx] at e2; rw [e2]
      | scatter e1 => rw [h0] at e1; simp at e1
      | fission e1 => rw [h0] at e1; simp at e1
  · rw [h0, if_neg (by simp)] at h
    have hx := Text.numbers_iff (groupXS_real h)
    rw [h0, if_neg (by simp), if_pos rfl]
    simp only [bind, Except.bind]
    constructor
    · intro e
      cases e
      exact .scatter h0 ((hx _).2 rfl)
    · intro e
      cases e with
      | capture e1 => rw [h0] at e1; simp at e1
      | scatter _ e2 => rw [hx] at e2; rw [e2]
      | fission e1 => rw [h0] at e1; simp at e1
  · rw [h0, if_pos rfl] at h
    obtain ⟨h1, h2⟩ := h
    have hc : ∀ s ∈ ["xs", "nubar", "chi"], (n.child s).isNull = false ∧
        ∀ xs, Numbers env (n.child s).text xs ↔ reals env (n.child s).text = xs := by
      intro s hs
      have hch := allOf_child h1 hs
      refine ⟨?_, Text.numbers_iff (groupXS_real (h2 _ hch.1))⟩
      rcases hb : (n.child s).isNull with _ | _
      · rfl
      · have hne : s ≠ "" := by
          simp only [List.mem_cons, List.not_mem_nil, or_false] at hs
          rcases hs with rfl | rfl | rfl <;> simp
        exact absurd ⟨_, hch⟩ ((isNull_iff hne).1 hb)
    have hxs := hc "xs" (by simp)
    have hnu := hc "nubar" (by simp)
    have hchi := hc "chi" (by simp)
    rw [h0, if_neg (by simp), if_neg (by simp), if_pos rfl]
    simp only [bind, Except.bind, optionalReals, hnu.1, hchi.1, Bool.false_eq_true, if_false]
    constructor
    · intro e
      cases e
      exact .fission h0 (allOf_child h1 (by simp)) ((hnu.2 _).2 rfl) (allOf_child h1 (by simp))
        ((hchi.2 _).2 rfl) (allOf_child h1 (by simp)) ((hxs.2 _).2 rfl)
    · intro e
      cases e with
      | capture e1 => rw [h0] at e1; simp at e1
      | scatter e1 => rw [h0] at e1; simp at e1
      | fission _ e2 e3 e4 e5 e6 e7 =>
        rw [allOf_child_iff h1 (by simp)] at e2 e4 e6
        subst e2 e4 e6
        rw [hnu.2] at e3
        rw [hchi.2] at e5
        rw [hxs.2] at e7
        rw [e3, e5, e7]

/-- The numbers of a node that the schema accepts are not negative. -/
theorem mgNode_nonneg {env : Env} {n : Xml} {m : MgNode}
    (h : if n.name = "fission" then GroupFission env n else GroupXS env n.text)
    (hm : MgNodeOf env n m) : NonnegNode m := by
  have key : ∀ {s : String} {xs : List ℝ}, GroupXS env s → Numbers env s xs → ∀ x ∈ xs, 0 ≤ x := by
    intro s xs hg hx
    rw [Text.numbers_iff (groupXS_real hg)] at hx
    subst hx
    exact Text.reals_nonneg hg
  cases hm with
  | capture e1 e2 =>
    rw [e1, if_neg (by simp)] at h
    exact key h e2
  | scatter e1 e2 =>
    rw [e1, if_neg (by simp)] at h
    exact key h e2
  | fission e1 e2 e3 e4 e5 e6 e7 =>
    rw [e1, if_pos rfl] at h
    refine ⟨key (h.2 _ e6.1) e7, ?_, ?_⟩
    · rintro l hl
      cases hl
      exact key (h.2 _ e2.1) e3
    · rintro l hl
      cases hl
      exact key (h.2 _ e4.1) e5

end Input
end Minimc
