import Verif.Lemmas.InputExampleRun

/-!
# Creation of the driver from a document (C58, C64)

Properties of `Driver::Create` (Driver.cpp:18-35) as a whole: which documents give a driver, and
what that driver consists of.
-/

namespace Minimc.Props

open Spec Schema Xml Input

theorem problemtype_child {env : Env} {root : Xml} (hv : Valid env root) (s : String) (n : Xml) :
    Reaches root ["problemtype", s] n ↔ (root.child "problemtype").firstChild = n ∧
      (root.child "problemtype").firstChild.name = s := by
  have h := oneOf_child_iff hv.problemType.1
  constructor
  · rintro ⟨a, ha, b, hb, rfl⟩
    rw [allOf_child_iff hv.elements (by simp)] at ha
    subst ha
    exact (h _ _).1 hb
  · intro e
    exact ⟨_, allOf_child hv.elements (by simp), _, (h _ _).2 e, rfl⟩

/-- The outcome, for the parts that the program reads. -/
theorem created_iff {env : Env} (hu : Unsigned env) {root : Xml} (hv : Valid env root)
    {addr : Addresses} (hs : Function.Injective addr.surface)
    (hn : Function.Injective addr.nuclide) {parts : Parts env root} (hr : Reads parts) :
    ((∃ d, loadDriver env addr root = .ok d) ↔ Buildable parts) ∧
      ∀ d, loadDriver env addr root = .ok d → DriverOf parts d := by
  unfold loadDriver
  rw [if_pos hv]
  unfold createDriver
  obtain ⟨hone, hpt⟩ := hv.problemType
  have hname := (oneOf_firstChild hone).2
  simp only [List.mem_cons, List.not_mem_nil, or_false] at hname
  have hpath := problemtype_child hv
  have hchild := oneOf_child_iff hone
  rcases hname with hk | hk
  · rw [if_pos hk] at hpt
    have hc : (root.child "problemtype").child "fixedsource" =
        (root.child "problemtype").firstChild :=
      child_of (oneOf_nodup hone) ((hchild _ _).2 ⟨rfl, hk⟩)
    have hsrc : SourceElement root False (root.child "problemtype").firstChild :=
      .inl ⟨not_false, (hpath _ _).2 ⟨rfl, hk⟩⟩
    obtain ⟨h1, h2⟩ := driver_iff hu hv hs hn hpt hsrc (by
      rintro e n (⟨-, h⟩ | ⟨-, a, ha, b, hb, -⟩)
      · exact ((hpath _ _).1 h).1.symm
      · have := ((hpath _ _).1 ⟨a, ha, b, hb, rfl⟩).2
        rw [hk] at this
        simp at this) hr
    refine ⟨?_, ?_⟩
    · rw [if_pos hk, ← h1]
      unfold fixedSource
      rw [hc]
      simp only [res_bind_ok]
      constructor
      · rintro ⟨d, P, hP, -⟩
        exact ⟨P, hP⟩
      · rintro ⟨P, hP⟩
        exact ⟨_, P, hP, rfl⟩
    · intro d hd
      rw [if_pos hk] at hd
      unfold fixedSource at hd
      rw [hc] at hd
      simp only [res_bind_ok] at hd
      obtain ⟨P, hP, e⟩ := hd
      cases e
      exact .fixedSource ((hpath _ _).2 ⟨rfl, hk⟩) (h2 P hP)
  · rw [if_neg (by rw [hk]; simp)] at hpt
    obtain ⟨hall, hst, hat, hval⟩ := hpt
    have hc : (root.child "problemtype").child "keigenvalue" =
        (root.child "problemtype").firstChild :=
      child_of (oneOf_nodup hone) ((hchild _ _).2 ⟨rfl, hk⟩)
    have hin := allOf_child_iff hall (s := "initialsource") (by simp)
    have hsrc : SourceElement root True
        ((root.child "problemtype").firstChild.child "initialsource") := by
      refine .inr ⟨trivial, ?_⟩
      obtain ⟨a, ha, b, hb, e⟩ := (hpath "keigenvalue" _).2 ⟨rfl, hk⟩
      refine ⟨a, ha, b, hb, _, ?_, rfl⟩
      rw [← e]
      exact allOf_child hall (by simp)
    obtain ⟨h1, h2⟩ := driver_iff hu hv hs hn hst hsrc (by
      rintro e n (⟨-, h⟩ | ⟨-, a, ha, b, hb, c, hcc, rfl⟩)
      · have := ((hpath _ _).1 h).2
        rw [hk] at this
        simp at this
      · obtain ⟨e1, -⟩ := (hpath _ _).1 ⟨a, ha, b, hb, rfl⟩
        rw [← e1] at hcc
        exact ((hin _).1 hcc).symm) hr
    obtain ⟨ni, hni, -, -, hai⟩ := count_iff hat (a := "inactive") (by simp) (hval _ (by simp))
    obtain ⟨na, hna, -, -, haa⟩ := count_iff hat (a := "active") (by simp) (hval _ (by simp))
    rw [if_neg (by rw [hk]; simp), if_pos hk]
    refine ⟨?_, ?_⟩
    · rw [← h1]
      unfold keigenvalue
      simp only [hc, res_bind_ok]
      constructor
      · rintro ⟨d, P, hP, -⟩
        exact ⟨P, hP⟩
      · rintro ⟨P, hP⟩
        obtain ⟨eigen, n, -, hsr⟩ := (h2 P hP).source
        obtain ⟨c, -, hdir⟩ := hsr.direction
        obtain ⟨b, hb⟩ := sourceBank_ok (configured_of hdir) P.batchsize
        exact ⟨_, P, hP, b, hb, rfl⟩
    · intro d hd
      unfold keigenvalue at hd
      simp only [hc, res_bind_ok] at hd
      obtain ⟨P, hP, b, hb, e⟩ := hd
      rw [hai, haa] at e
      cases e
      exact .keigenvalue ((hpath _ _).2 ⟨rfl, hk⟩) (h2 P hP) hni hna hb

/-- **C58** A document that the schema accepts gives a driver if and only if everything it uses is
defined and readable, its numbers fit and its bins, directions and tracking are allowed; the driver
then consists of what the document says. -/
theorem C58_created_iff {env : Env} (hu : Unsigned env) {root : Xml} (hv : Valid env root)
    {addr : Addresses} (hs : Function.Injective addr.surface)
    (hn : Function.Injective addr.nuclide) :
    ∃ parts : Parts env root,
      ((∃ d, loadDriver env addr root = .ok d) ↔ Buildable parts) ∧
      ∀ d, loadDriver env addr root = .ok d → DriverOf parts d := by
  obtain ⟨parts, hr⟩ := parts_exist hv
  exact ⟨parts, created_iff hu hv hs hn hr⟩

/-- **C58** A document that the schema does not accept raises `std::runtime_error`. -/
theorem C58_rejected {env : Env} {root : Xml} (hv : ¬ Valid env root) (addr : Addresses) :
    loadDriver env addr root = .error .runtimeError := by
  unfold loadDriver
  rw [if_neg hv]

/-- **C58** How an accepted document that gives no driver ends the program, by cause. -/
theorem C58_failures {env : Env} (hu : Unsigned env) {root : Xml} (hv : Valid env root)
    (addr : Addresses) :
    ∃ parts : Parts env root,
      (∀ e, loadDriver env addr root = .error e → Fails parts e) ∧
      ((∃ k, Reaches root ["nuclides", "multigroup"] k) →
        ∀ e, Unreadable parts.doc e → e = .runtimeError) := by
  obtain ⟨parts, hr⟩ := parts_exist hv
  refine ⟨parts, ?_⟩
  unfold loadDriver
  rw [if_pos hv]
  unfold createDriver
  obtain ⟨hone, hpt⟩ := hv.problemType
  have hname := (oneOf_firstChild hone).2
  simp only [List.mem_cons, List.not_mem_nil, or_false] at hname
  have hpath := problemtype_child hv
  have hchild := oneOf_child_iff hone
  rcases hname with hk | hk
  · rw [if_pos hk] at hpt
    have hc : (root.child "problemtype").child "fixedsource" =
        (root.child "problemtype").firstChild :=
      child_of (oneOf_nodup hone) ((hchild _ _).2 ⟨rfl, hk⟩)
    have hsrc : SourceElement root False (root.child "problemtype").firstChild :=
      .inl ⟨not_false, (hpath _ _).2 ⟨rfl, hk⟩⟩
    obtain ⟨h1, h2⟩ := driver_fails hu hv (addr := addr) hpt hsrc hr
    refine ⟨?_, h2⟩
    intro e h
    rw [if_pos hk] at h
    unfold fixedSource at h
    rw [hc, res_bind_error] at h
    rcases h with h | ⟨_, _, h⟩
    · exact h1 e h
    · cases h
  · rw [if_neg (by rw [hk]; simp)] at hpt
    obtain ⟨hall, hst, hat, hval⟩ := hpt
    have hc : (root.child "problemtype").child "keigenvalue" =
        (root.child "problemtype").firstChild :=
      child_of (oneOf_nodup hone) ((hchild _ _).2 ⟨rfl, hk⟩)
    have hsrc : SourceElement root True
        ((root.child "problemtype").firstChild.child "initialsource") := by
      refine .inr ⟨trivial, ?_⟩
      obtain ⟨a, ha, b, hb, e⟩ := (hpath "keigenvalue" _).2 ⟨rfl, hk⟩
      refine ⟨a, ha, b, hb, _, ?_, rfl⟩
      rw [← e]
      exact allOf_child hall (by simp)
    obtain ⟨h1, h2⟩ := driver_fails hu hv (addr := addr) hst hsrc hr
    refine ⟨?_, h2⟩
    intro e h
    rw [if_neg (by rw [hk]; simp), if_pos hk] at h
    unfold keigenvalue at h
    simp only [hc, res_bind_error] at h
    rcases h with h | ⟨P, hP, h | ⟨_, _, h⟩⟩
    · exact h1 e h
    · have hsr : source env root
          ((root.child "problemtype").firstChild.child "initialsource") = .ok P.source := by
        unfold driver at hP
        simp only [res_bind_ok] at hP
        obtain ⟨_, _, _, _, _, _, _, _, _, _, _, _, _, _, _, _, _, _, s, hs, e⟩ := hP
        rw [← Except.ok.inj e]
        exact hs
      obtain ⟨c, -, hdir⟩ := ((source_iff hu hv hst _).1 hsr).direction
      obtain ⟨b, hb⟩ := sourceBank_ok (configured_of hdir) P.batchsize
      rw [hb] at h
      cases h
    · cases h

/-- **C58** With multigroup data the creation of the driver is always defined: it gives a driver,
raises an exception, or ends the program through `terminate`, through an impossible direction or
through the assertion on the type of the source particle. -/
theorem C58_multigroup_outcomes {env : Env} (hu : Unsigned env) {root : Xml} (hv : Valid env root)
    (hm : ∃ k, Reaches root ["nuclides", "multigroup"] k) (addr : Addresses) {e : Err}
    (h : loadDriver env addr root = .error e) :
    e = .runtimeError ∨ e = .outOfRange ∨ e = .terminate ∨ e = .nan ∨
      (e = .assertFail ∧ ∃ eigen n c, SourceElement root eigen n ∧
        Reaches n ["particletype", "constant"] c ∧ ¬ ∃ v, HasAttr c "type" v) := by
  obtain ⟨parts, h1, h2⟩ := C58_failures hu hv addr
  have hf := h1 e h
  cases hf with
  | undefined => simp
  | unreadable h' => exact .inl (h2 hm _ h')
  | nuclide => simp
  | histories => simp
  | seed => simp
  | threads => simp
  | surface => simp
  | sensitivity => simp
  | bins => simp
  | axis => simp
  | tracking => simp
  | direction => simp
  | group => simp
  | groupRange => simp
  | type h1 h2 h3 => exact .inr (.inr (.inr (.inr ⟨rfl, _, _, _, h1, h2, h3⟩)))

/-! ### Examples -/

open InputExample (Choice env addr)

theorem example_valid (c : Choice) (h1 : c.threads = "2" ∨ c.threads = "1") (h2 : c.x = "1" ∨ c.x = "0")
    (h3 : c.energy = "1" ∨ c.energy = "0.5") (h4 : c.type = [] ∨ c.type = [("type", "neutron")])
    (h5 : c.lo = "0" ∨ c.lo = "2") : Valid env (InputExample.root c) := by
  refine InputExample.valid c ?_ ?_ ?_ h4 ?_
  · rcases h1 with h1 | h1 <;> rw [h1]
    · exact InputExample.positive2
    · exact InputExample.positive1
  · rcases h2 with h2 | h2 <;> rw [h2]
    · exact ⟨_, InputExample.real1⟩
    · exact ⟨_, InputExample.real0⟩
  · rcases h3 with h3 | h3 <;> rw [h3]
    · exact ⟨_, InputExample.real1, by norm_num⟩
    · exact ⟨_, InputExample.realHalf, by norm_num⟩
  · rcases h5 with h5 | h5 <;> rw [h5]
    · exact ⟨_, InputExample.real0⟩
    · exact ⟨_, InputExample.real2⟩

theorem stoull2 : Text.stoull "2" = .ok 2 := by decide

theorem stoull1 : Text.stoull "1" = .ok 1 := by decide

/-- The driver of a document whose source alone varies. -/
theorem example_load (c : Choice) (hv : Valid env (InputExample.root c)) (h1 : c.first = "a")
    (h2 : c.nuclide = "a") (h3 : c.surface = "s") (h4 : c.lo = "0") (h5 : c.sensitivity = "q")
    {t : ℕ} (h6 : Text.stoull c.threads = .ok t) (x : ℝ) (hx : env.real c.x = some x) :
    ∃ f : Source → Problem, (∀ s, (f s).source = s) ∧
      loadDriver env addr (InputExample.root c) = (do
        let d ← Point.normalize ⟨x, 0, 0⟩
        let e ← Text.stoull c.energy
        let t ← toType ((InputExample.el "constant" c.type []).attrString "type")
        .ok (.fixedSource (f ⟨⟨0, 0, 0⟩, .constant d, .group e, t⟩))) := by
  obtain ⟨f, hf, hd⟩ := InputExample.driver_eq c h1 h2 h3 h4 h5 h6
    (Input.source env (InputExample.root c)
      (InputExample.el "fixedsource" [] (InputExample.source c.x c.energy c.type)))
  refine ⟨f, hf, ?_⟩
  rw [InputExample.load_eq c hv, hd, InputExample.source_eq c x hx]
  rcases Point.normalize ⟨x, 0, 0⟩ with e | d
  · rfl
  · simp only [bind, Except.bind]
    rcases Text.stoull c.energy with e | v
    · rfl
    · simp only
      rcases toType ((InputExample.el "constant" c.type []).attrString "type") with e | t <;> rfl

theorem normalize1 : Point.normalize ⟨1, 0, 0⟩ = .ok ⟨1, 0, 0⟩ :=
  (normalize_iff _ _).2 InputExample.along1

theorem example_created_of (c : Choice) (hv : Valid env (InputExample.root c)) (h1 : c.first = "a")
    (h2 : c.nuclide = "a") (h3 : c.surface = "s") (h4 : c.lo = "0") (h5 : c.sensitivity = "q")
    {t : ℕ} (h6 : Text.stoull c.threads = .ok t) (h7 : c.x = "1") (h8 : c.energy = "1")
    (h9 : c.type = [("type", "neutron")]) : ∃ P : Problem,
    loadDriver env addr (InputExample.root c) = .ok (.fixedSource P) ∧
      P.source = ⟨⟨0, 0, 0⟩, .constant ⟨1, 0, 0⟩, .group 1, .neutron⟩ := by
  obtain ⟨f, hf, h⟩ := example_load c hv h1 h2 h3 h4 h5 h6 1 (by rw [h7]; exact InputExample.real1)
  refine ⟨_, ?_, hf ⟨⟨0, 0, 0⟩, .constant ⟨1, 0, 0⟩, .group 1, .neutron⟩⟩
  rw [h, normalize1, h8, h9]
  have h1 : Text.stoull "1" = .ok 1 := by decide
  have h2 : toType ((InputExample.el "constant" [("type", "neutron")] []).attrString "type") =
      .ok .neutron := by decide
  simp only [bind, Except.bind, h1, h2]

/-- A document that the schema accepts and that gives a driver. -/
theorem example_created (second : String) : ∃ P : Problem,
    loadDriver env addr (InputExample.root { second := second }) = .ok (.fixedSource P) ∧
      P.source = ⟨⟨0, 0, 0⟩, .constant ⟨1, 0, 0⟩, .group 1, .neutron⟩ :=
  example_created_of _ (example_valid _ (.inl rfl) (.inl rfl) (.inl rfl) (.inr rfl) (.inl rfl))
    rfl rfl rfl rfl rfl stoull2 rfl rfl rfl

/-- The hypotheses of C58 hold for a document, and its conclusion is not void. -/
example : ∃ parts : Parts env (InputExample.root {}), Buildable parts ∧
    ∃ P : Problem, loadDriver env addr (InputExample.root {}) = .ok (.fixedSource P) ∧
      ProblemOf parts P ∧ P.threads = 2 := by
  have hv : Valid env (InputExample.root {}) :=
    example_valid _ (.inl rfl) (.inl rfl) (.inl rfl) (.inr rfl) (.inl rfl)
  obtain ⟨parts, h1, h2⟩ := C58_created_iff InputExample.unsigned hv (addr := addr)
    Function.injective_id Function.injective_id
  obtain ⟨P, hP, -⟩ := example_created "b"
  refine ⟨parts, h1.1 ⟨_, hP⟩, P, hP, ?_⟩
  cases h2 _ hP with
  | fixedSource hn hp =>
    refine ⟨hp, ?_⟩
    rw [hp.threads]
    obtain ⟨n, hn, hd⟩ := parts.areThreads
    rw [general_child hv (by simp)] at hn
    subst hn
    rw [InputExample.threads_eq] at hd
    refine Text.denotes_unique hd ⟨[], [], ['2'], [], rfl, by simp, by simp, .inl rfl, by simp, ?_, ?_⟩
    · intro c hc
      simp only [List.mem_singleton] at hc
      subst hc
      decide
    · simp [digit]

/-- A document without content is not accepted. -/
example (addr : Addresses) : loadDriver env addr (.node "minimc" [] "" []) = .error .runtimeError :=
  C58_rejected (fun h => by
    obtain ⟨c, hc, -⟩ := h.elements.1 "general" (by simp)
    cases hc) addr

/-- **C58** That an accepted document gives a driver or raises an exception is false: the program
ends through `terminate` for bins in the wrong order, for a sensitivity to an unknown perturbation
and for a perturbation of a nuclide that no cell contains; through a direction of length zero; and
through an assertion if the source particle has no type. -/
theorem C58_reported_violated :
    (Valid env (InputExample.root { lo := "2" }) ∧
      loadDriver env addr (InputExample.root { lo := "2" }) = .error .terminate) ∧
    (Valid env (InputExample.root { sensitivity := "r" }) ∧
      loadDriver env addr (InputExample.root { sensitivity := "r" }) = .error .terminate) ∧
    (Valid env (InputExample.root { nuclide := "b" }) ∧
      loadDriver env addr (InputExample.root { nuclide := "b" }) = .error .terminate) ∧
    (Valid env (InputExample.root { x := "0" }) ∧
      loadDriver env addr (InputExample.root { x := "0" }) = .error .nan) ∧
    (Valid env (InputExample.root { type := [] }) ∧
      loadDriver env addr (InputExample.root { type := [] }) = .error .assertFail) := by
  refine ⟨⟨example_valid _ (.inl rfl) (.inl rfl) (.inl rfl) (.inr rfl) (.inr rfl), ?_⟩,
    ⟨example_valid _ (.inl rfl) (.inl rfl) (.inl rfl) (.inr rfl) (.inl rfl), ?_⟩,
    ⟨example_valid _ (.inl rfl) (.inl rfl) (.inl rfl) (.inr rfl) (.inl rfl), ?_⟩,
    ⟨example_valid _ (.inl rfl) (.inr rfl) (.inl rfl) (.inr rfl) (.inl rfl), ?_⟩,
    ⟨example_valid _ (.inl rfl) (.inl rfl) (.inl rfl) (.inl rfl) (.inl rfl), ?_⟩⟩
  · rw [InputExample.load_eq _ (example_valid _ (.inl rfl) (.inl rfl) (.inl rfl) (.inr rfl) (.inr rfl)),
      InputExample.driver_bins _ rfl rfl rfl stoull2]
    rfl
  · rw [InputExample.load_eq _ (example_valid _ (.inl rfl) (.inl rfl) (.inl rfl) (.inr rfl) (.inl rfl)),
      InputExample.driver_sensitivity _ rfl rfl rfl rfl stoull2]
    rfl
  · rw [InputExample.load_eq _ (example_valid _ (.inl rfl) (.inl rfl) (.inl rfl) (.inr rfl) (.inl rfl)),
      InputExample.driver_nuclide _ rfl rfl stoull2]
    rfl
  · obtain ⟨f, -, h⟩ := example_load { x := "0" }
      (example_valid _ (.inl rfl) (.inr rfl) (.inl rfl) (.inr rfl) (.inl rfl)) rfl rfl rfl rfl rfl stoull2 0
      InputExample.real0
    rw [h]
    have : Point.normalize ⟨0, 0, 0⟩ = .error .nan := by
      unfold Point.normalize
      rw [if_pos (by simp [Point.dot])]
    rw [this]
    rfl
  · obtain ⟨f, -, h⟩ := example_load { type := [] }
      (example_valid _ (.inl rfl) (.inl rfl) (.inl rfl) (.inl rfl) (.inl rfl)) rfl rfl rfl rfl rfl stoull2 1
      InputExample.real1
    rw [h, normalize1]
    have h1 : Text.stoull "1" = .ok 1 := by decide
    simp only [bind, Except.bind, h1]
    rfl

/-- **C58** That the source of an accepted multigroup document is in one of the groups, which are
counted from one, is false: the schema accepts any positive number, of which the fraction is cut
off. -/
theorem C58_source_group_violated :
    Valid env (InputExample.root { energy := "0.5" }) ∧ ∃ P : Problem,
      loadDriver env addr (InputExample.root { energy := "0.5" }) = .ok (.fixedSource P) ∧
        P.source = ⟨⟨0, 0, 0⟩, .constant ⟨1, 0, 0⟩, .group 0, .neutron⟩ := by
  have hv : Valid env (InputExample.root { energy := "0.5" }) :=
    example_valid _ (.inl rfl) (.inl rfl) (.inr rfl) (.inr rfl) (.inl rfl)
  refine ⟨hv, ?_⟩
  obtain ⟨f, hf, h⟩ := example_load { energy := "0.5" } hv rfl rfl rfl rfl rfl stoull2 1
    InputExample.real1
  refine ⟨f ⟨⟨0, 0, 0⟩, .constant ⟨1, 0, 0⟩, .group 0, .neutron⟩, ?_, hf _⟩
  rw [h, normalize1]
  have h1 : Text.stoull "0.5" = .ok 0 := by decide
  have h2 : toType ((InputExample.el "constant" [("type", "neutron")] []).attrString "type") =
      .ok .neutron := by decide
  simp only [bind, Except.bind, h1, h2]

end Minimc.Props
