import Verif.Lemmas.Text

/-! # Lemmas about elements, attributes and children -/

namespace Minimc

open Spec Schema

namespace Xml

/-! ### Children -/

theorem child_iff {n : Xml} (hn : (n.children.map Xml.name).Nodup) (s : String) (c : Xml) :
    Child n s c ↔ n.children.find? (fun c => c.name == s) = some c := by
  constructor
  · rintro ⟨hc, rfl⟩
    obtain ⟨l, r, e⟩ := List.append_of_mem hc
    rw [e, List.find?_append]
    have : l.find? (fun d => d.name == c.name) = none := by
      rw [List.find?_eq_none]
      intro d hd hdn
      rw [e, List.map_append, List.nodup_append] at hn
      exact hn.2.2 d.name (List.mem_map_of_mem hd) c.name (by simp) (by simpa using hdn)
    rw [this]
    simp
  · intro h
    exact ⟨List.mem_of_find?_eq_some h, by simpa using List.find?_some h⟩

theorem child_of {n : Xml} (hn : (n.children.map Xml.name).Nodup) {s : String} {c : Xml}
    (h : Child n s c) : n.child s = c := by
  rw [child, (child_iff hn s c).1 h]
  rfl

theorem child_mem {n : Xml} {s : String} (h : ∃ c ∈ n.children, c.name = s) :
    Child n s (n.child s) := by
  obtain ⟨c, hc, rfl⟩ := h
  rcases hf : n.children.find? (fun d => d.name == c.name) with _ | d
  · rw [List.find?_eq_none] at hf
    exact absurd (hf c hc) (by simp)
  · rw [child, hf]
    exact ⟨List.mem_of_find?_eq_some hf, by simpa using List.find?_some hf⟩

theorem child_none {n : Xml} {s : String} (h : ¬ ∃ c, Child n s c) : n.child s = null := by
  rw [child, List.find?_eq_none.2]
  · rfl
  · intro c hc hcn
    exact h ⟨c, hc, by simpa using hcn⟩

theorem allOf_child {n : Xml} {req opt : List String} (h : AllOf n req opt) {s : String}
    (hs : s ∈ req) : Child n s (n.child s) := child_mem (h.1 s hs)

theorem allOf_child_iff {n : Xml} {req opt : List String} (h : AllOf n req opt) {s : String}
    (hs : s ∈ req) (c : Xml) : Child n s c ↔ n.child s = c :=
  ⟨child_of h.2.1, fun e => e ▸ allOf_child h hs⟩

/-- A child whose name is not empty is there exactly when looking it up gives a node. -/
theorem isNull_iff {n : Xml} {s : String} (hs : s ≠ "") :
    (n.child s).isNull = true ↔ ¬ ∃ c, Child n s c := by
  constructor
  · rintro h ⟨c, hc⟩
    have := (child_mem ⟨c, hc.1, hc.2⟩).2
    rw [isNull, this] at h
    exact hs (by simpa using h)
  · intro h
    rw [child_none h]
    rfl

theorem child_cases {n : Xml} (hn : (n.children.map Xml.name).Nodup) {s : String} (hs : s ≠ "") :
    (Child n s (n.child s) ∧ (n.child s).isNull = false ∧ ∀ c, Child n s c → n.child s = c) ∨
      ((¬ ∃ c, Child n s c) ∧ n.child s = null) := by
  by_cases h : ∃ c, Child n s c
  · left
    obtain ⟨c, hc⟩ := h
    refine ⟨child_mem ⟨c, hc.1, hc.2⟩, ?_, fun c hc => child_of hn hc⟩
    rcases hb : (n.child s).isNull with _ | _
    · rfl
    · exact absurd ⟨c, hc⟩ ((isNull_iff hs).1 hb)
  · exact .inr ⟨h, child_none h⟩

theorem grandchildren {n : Xml} (hn : (n.children.map Xml.name).Nodup) (s : String) (cs : List Xml) :
    Grandchildren n s cs ↔ (n.child s).children = cs := by
  by_cases h : ∃ c, Child n s c
  · obtain ⟨c, hc⟩ := h
    constructor
    · rintro (⟨d, hd, rfl⟩ | ⟨h, -⟩)
      · rw [child_of hn hd]
      · exact absurd ⟨c, hc⟩ h
    · rintro rfl
      exact .inl ⟨_, child_mem ⟨c, hc.1, hc.2⟩, rfl⟩
  · rw [child_none h]
    constructor
    · rintro (⟨d, hd, rfl⟩ | ⟨-, rfl⟩)
      · exact absurd ⟨d, hd⟩ h
      · rfl
    · rintro rfl
      exact .inr ⟨h, rfl⟩

theorem oneOf_firstChild {n : Xml} {names : List String} (h : OneOf n names) :
    n.children = [n.firstChild] ∧ n.firstChild.name ∈ names := by
  obtain ⟨c, hc, hn⟩ := h
  rw [firstChild, hc]
  exact ⟨rfl, hn⟩

theorem oneOf_child_iff {n : Xml} {names : List String} (h : OneOf n names) (s : String) (c : Xml) :
    Child n s c ↔ n.firstChild = c ∧ n.firstChild.name = s := by
  rw [Child, (oneOf_firstChild h).1, List.mem_singleton]
  constructor
  · rintro ⟨rfl, h⟩; exact ⟨rfl, h⟩
  · rintro ⟨rfl, h⟩; exact ⟨rfl, h⟩

theorem oneOf_nodup {n : Xml} {names : List String} (h : OneOf n names) :
    (n.children.map Xml.name).Nodup := by
  rw [(oneOf_firstChild h).1]
  simp

/-! ### Attributes -/

theorem attr_iff {n : Xml} (hn : (n.attrs.map Prod.fst).Nodup) (a v : String) :
    HasAttr n a v ↔ n.attr a = some v := by
  unfold HasAttr attr
  constructor
  · intro h
    obtain ⟨l, r, e⟩ := List.append_of_mem h
    rw [e, List.find?_append]
    have : l.find? (fun d => d.1 == a) = none := by
      rw [List.find?_eq_none]
      intro d hd hdn
      rw [e, List.map_append, List.nodup_append] at hn
      exact hn.2.2 d.1 (List.mem_map_of_mem hd) a (by simp) (by simpa using hdn)
    rw [this]
    simp
  · intro h
    rw [Option.map_eq_some_iff] at h
    obtain ⟨⟨b, w⟩, h1, rfl⟩ := h
    have h2 : b = a := by simpa using List.find?_some h1
    subst h2
    exact List.mem_of_find?_eq_some h1

theorem attrs_value {n : Xml} {req opt : List String} (h : Attrs n req opt) {a : String}
    (ha : a ∈ req) : HasAttr n a (n.attrString a) := by
  obtain ⟨v, hv⟩ := h.1 a ha
  rw [attr_iff h.2.1, attrString, hv]
  rfl

theorem attrs_value_iff {n : Xml} {req opt : List String} (h : Attrs n req opt) {a : String}
    (ha : a ∈ req) (v : String) : HasAttr n a v ↔ n.attrString a = v := by
  constructor
  · intro hv
    rw [attr_iff h.2.1] at hv
    rw [attrString, hv]
    rfl
  · rintro rfl
    exact attrs_value h ha

theorem attrString_orEmpty {n : Xml} (hn : (n.attrs.map Prod.fst).Nodup) (a : String) :
    HasAttrOrEmpty n a (n.attrString a) := by
  rcases hv : n.attr a with _ | v
  · right
    refine ⟨?_, by rw [attrString, hv]; rfl⟩
    rintro ⟨u, hu⟩
    rw [attr_iff hn, hv] at hu
    cases hu
  · left
    rw [attr_iff hn, attrString, hv]
    rfl

theorem attrString_orEmpty_iff {n : Xml} (hn : (n.attrs.map Prod.fst).Nodup) (a v : String) :
    HasAttrOrEmpty n a v ↔ n.attrString a = v := by
  constructor
  · rintro (h | ⟨h, rfl⟩)
    · rw [attr_iff hn] at h
      rw [attrString, h]
      rfl
    · rcases hv : n.attr a with _ | v
      · rw [attrString, hv]; rfl
      · exact absurd ⟨v, (attr_iff hn _ _).2 hv⟩ h
  · rintro rfl
    exact attrString_orEmpty hn a

end Xml

open Xml

theorem number_iff {env : Env} {n : Xml} {req opt : List String} (h : Attrs n req opt) {a : String}
    (ha : a ∈ req) (hd : Val n a (Double env)) (x : ℝ) :
    Number env n a x ↔ Input.attrReal env n a = x := by
  obtain ⟨v, hv⟩ := h.1 a ha
  obtain ⟨y, hy⟩ := hd v hv
  unfold Number Input.attrReal
  rw [hv]
  simp only [hy, Option.getD_some]
  constructor
  · rintro ⟨u, hu, hx⟩
    rw [attr_iff h.2.1, hv] at hu
    cases hu
    rw [hy] at hx
    cases hx
    rfl
  · rintro rfl
    exact ⟨v, (attr_iff h.2.1 _ _).2 hv, hy⟩

theorem number_self {env : Env} {n : Xml} {req opt : List String} (h : Attrs n req opt) {a : String}
    (ha : a ∈ req) (hd : Val n a (Double env)) : Number env n a (Input.attrReal env n a) :=
  (number_iff h ha hd _).2 rfl

theorem double_of_positive {env : Env} {n : Xml} {a : String} (h : Val n a (Positive env)) :
    Val n a (Double env) := fun v hv => (h v hv).imp fun _ h => h.1

theorem double_of_nonneg {env : Env} {n : Xml} {a : String} (h : Val n a (NonNegative env)) :
    Val n a (Double env) := fun v hv => (h v hv).imp fun _ h => h.1

theorem attrReal_pos {env : Env} {n : Xml} {req opt : List String} (h : Attrs n req opt)
    {a : String} (ha : a ∈ req) (hd : Val n a (Positive env)) : 0 < Input.attrReal env n a := by
  obtain ⟨v, hv⟩ := h.1 a ha
  obtain ⟨y, hy, hpos⟩ := hd v hv
  unfold Input.attrReal
  rw [hv]
  simpa only [hy, Option.getD_some] using hpos

theorem point_iff {env : Env} {n : Xml} (h : IsPoint env n) (p : Point) :
    PointOf env n p ↔ Input.point env n = p := by
  obtain ⟨h1, -, h2⟩ := h
  have hx := number_iff h1 (a := "x") (by simp) (h2 _ (by simp))
  have hy := number_iff h1 (a := "y") (by simp) (h2 _ (by simp))
  have hz := number_iff h1 (a := "z") (by simp) (h2 _ (by simp))
  constructor
  · rintro ⟨a, b, c⟩
    rw [hx] at a
    rw [hy] at b
    rw [hz] at c
    unfold Input.point
    rw [a, b, c]
  · rintro rfl
    exact ⟨(hx _).2 rfl, (hy _).2 rfl, (hz _).2 rfl⟩

theorem count_iff {n : Xml} {req opt : List String} (h : Attrs n req opt) {a : String}
    (ha : a ∈ req) (hd : Val n a PositiveInteger) :
    ∃ v, Count n a v ∧ 0 < v ∧ (∀ w, Count n a w → w = v) ∧
      ∀ bits, Text.asUnsigned bits (n.attrString a) = min v (2 ^ bits - 1) := by
  have h1 := attrs_value h ha
  obtain ⟨v, hv, hpos⟩ := Text.positiveInteger_denotes (hd _ ((attr_iff h.2.1 _ _).1 h1))
  refine ⟨v, ⟨_, h1, hv⟩, hpos, ?_, fun bits => Text.asUnsigned_denotes hv bits⟩
  rintro w ⟨s, hs, hw⟩
  rw [attrs_value_iff h ha] at hs
  subst hs
  exact Text.denotes_unique hw hv

end Minimc
