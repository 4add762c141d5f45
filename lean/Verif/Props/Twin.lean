import Verif.Proofs.Twin
import Verif.Proofs.ParseSound
import Verif.Props.Rename
/-
C72: prefixes, namespace declarations and the order of attributes carry no information.
-/

set_option autoImplicit false
set_option maxRecDepth 100000

namespace Yaserde

/-- C72.  For a program without flattened fields: two documents (conforming or not, complete or cut off) that differ only in
the prefixes of names, in the namespace declarations and in the order of attributes with different local names are read alike — the same value, the same
panic, an error in both cases, or no result in both cases.  Without tagged enums the error messages are the same, too. -/
theorem C72_prefixes_and_attribute_order (L : Lib) (env : Env) (henv : NoFlatten env) (p : Path) (s t : Str)
    (hev : List.Forall₂ SameEv (content (L.parse s).evs) (content (L.parse t).evs))
    (hfin : (L.parse s).fin = (L.parse t).fin)
    (hs : TagsMatch [] (content (L.parse s).evs)) (ht : TagsMatch [] (content (L.parse t).evs)) :
    (∀ v, Returns L env p s (.ok v) ↔ Returns L env p t (.ok v)) ∧
    (∀ m, Returns L env p s (.panic m) ↔ Returns L env p t (.panic m)) ∧
    ((∃ m, Returns L env p s (.err m)) ↔ ∃ m, Returns L env p t (.err m)) ∧
    (Untagged env → ∀ m, Returns L env p s (.err m) ↔ Returns L env p t (.err m)) ∧
    (NeverReturns L env p (L.parse s) ↔ NeverReturns L env p (L.parse t)) := by
  have h := same_run L env henv p s t hev hfin hs ht
  refine ⟨fun v => ?_, fun m => ?_, ?_, fun hu m => ?_, forall_congr' fun k => ?_⟩
  · refine and_congr (by simp) (exists_congr fun k => ?_)
    have := h k
    constructor <;> intro hk <;> rw [hk] at this <;> revert this
    · cases deFromStr L env k p t <;> simp [Res.Like]
      exact fun h => h.symm
    · cases deFromStr L env k p s <;> simp [Res.Like]
  · refine and_congr (by simp) (exists_congr fun k => ?_)
    have := h k
    constructor <;> intro hk <;> rw [hk] at this <;> revert this
    · cases deFromStr L env k p t <;> simp [Res.Like]
      exact fun h => h.symm
    · cases deFromStr L env k p s <;> simp [Res.Like]
  · constructor
    · rintro ⟨m, -, k, hk⟩
      have := h k
      rw [hk] at this
      cases ht : deFromStr L env k p t with
      | err m' => exact ⟨m', by simp, k, ht⟩
      | _ => rw [ht] at this; exact this.elim
    · rintro ⟨m, -, k, hk⟩
      have := h k
      rw [hk] at this
      cases ht : deFromStr L env k p s with
      | err m' => exact ⟨m', by simp, k, ht⟩
      | _ => rw [ht] at this; exact this.elim
  · refine and_congr (by simp) (exists_congr fun k => ?_)
    have := h k
    constructor <;> intro hk <;> rw [hk] at this <;> revert this
    · cases deFromStr L env k p t <;> simp [Res.Like]
      exact fun h => (h hu).symm
    · cases deFromStr L env k p s <;> simp [Res.Like]
      exact fun h => h hu
  · have := h k
    unfold deFromStr fromStr at this
    constructor <;> intro hk <;> rw [hk] at this <;> revert this
    · cases (deser L env k p (Rd.new (L.parse t))).1 <;> simp [Res.Like]
    · cases (deser L env k p (Rd.new (L.parse s))).1 <;> simp [Res.Like]

theorem tagsMatch_content : ∀ (es : List REv) (st : List Name), TagsMatch st es → TagsMatch st (content es) := by
  intro es
  induction es with
  | nil => intro st h; simpa [content] using h
  | cons e es ih =>
    intro st h
    cases e with
    | start n as m => exact ih (n :: st) h
    | endE n =>
      cases st with
      | nil => exact h.elim
      | cons n' st => exact ⟨h.1, ih st h.2⟩
    | _ =>
      have h' : TagsMatch st es := by cases st <;> exact h
      have := ih st h'
      first
        | exact this
        | (cases st <;> exact this)

mutual
theorem tagsMatch_node (st : List Name) (rest : List REv) : ∀ x : Node, TagsMatch st rest → TagsMatch st (x.events ++ rest)
  | .text s, h => by
    simp only [Node.events, List.singleton_append]
    cases st <;> exact h
  | .elem n as m ks, h => by
    simp only [Node.events, List.cons_append, List.append_assoc, List.nil_append]
    exact tagsMatch_nodes (n :: st) _ ks ⟨rfl, h⟩

theorem tagsMatch_nodes (st : List Name) (rest : List REv) : ∀ xs : List Node, TagsMatch st rest → TagsMatch st (Node.eventsL xs ++ rest)
  | [], h => h
  | x :: xs, h => by
    simp only [Node.eventsL, List.append_assoc]
    exact tagsMatch_node st _ x (tagsMatch_nodes st rest xs h)
end

theorem tagsMatch_opened {E : List REv} {St : List (Str × NsMap)} (h : XmlText.Opened E St) :
    ∃ st, ∀ rest, TagsMatch st rest → TagsMatch [] (E ++ rest) := by
  induction h with
  | nil xs _ => exact ⟨[], fun rest h => tagsMatch_nodes [] rest xs h⟩
  | cons nm scope n as ks _ _ ih =>
    obtain ⟨st, ih⟩ := ih
    refine ⟨n :: st, fun rest h => ?_⟩
    rw [List.append_assoc]
    exact ih _ (tagsMatch_nodes (n :: st) rest ks h)

/-- The hypothesis on tags holds of every text, accepted or not, read by the character-level parser. -/
theorem tagsMatch_parse (s : Str) : TagsMatch [] (content (XmlText.parse s).evs) := by
  refine tagsMatch_content _ _ ?_
  obtain ⟨st, h⟩ := tagsMatch_opened (XmlText.Sound.run s).opened
  rw [show XmlText.parse s = (XmlText.run s {}).finish from rfl, XmlText.finish_evs]
  have : TagsMatch [] ((XmlText.run s {}).evs ++ []) := h [] (by simp [TagsMatch])
  simpa [TagsMatch] using this

open Tests

namespace TwinSample

def nsU : Attrs := { pfx := some c!"u", namespaces := [(c!"u", c!"urn:u")] }

/-- A struct in a namespace with two attributes, a scalar and a list of itself. -/
def prog : List (Path × TypeDef) :=
  [mkS c!"Log" [F c!"id" (O Tests.S) attr, F c!"lang" (O Tests.S) attr, F c!"n" (O (I .i32)) { pfx := some c!"u" },
     F c!"sub" (V (T c!"Log")) { pfx := some c!"u" }] nsU]

def env : Env := envOf prog

theorem noFlatten : NoFlatten env := by
  intro p d h f hf
  simp only [env, envOf, prog, List.find?] at h
  split at h
  · simp only [mkS, Option.map_some, Option.some.injEq, TypeDef.struct.injEq] at h
    subst h
    revert f
    decide
  · cases h

def one : Str :=
  c!"<u:Log xmlns:u='urn:u' id='1' lang='en'><u:n>1</u:n><u:sub id='2'><u:n>2<u:x/></u:n></u:sub>rest</u:Log>"

def two : Str :=
  c!"<Log lang='en' xmlns='urn:u' id='1'><n>1</n><v:sub xmlns:v='urn:u' v:id='2'><n>2<v:x/></n></v:sub>rest</Log>"

end TwinSample

/-- A test for `SameAttrs`. -/
def sameAttrsB (as as' : List Attr) : Bool :=
  (as ++ as').all fun x => (as.filter fun a => a.name.loc = x.name.loc).map (·.value)
    == (as'.filter fun a => a.name.loc = x.name.loc).map (·.value)

theorem sameAttrs_of_check {as as' : List Attr} (h : sameAttrsB as as' = true) : SameAttrs as as' := by
  intro l
  by_cases hl : ∃ x ∈ as ++ as', x.name.loc = l
  · obtain ⟨x, hx, rfl⟩ := hl
    exact eq_of_beq (List.all_eq_true.mp h x hx)
  · have key : ∀ bs : List Attr, (∀ x ∈ bs, x ∈ as ++ as') → (bs.filter fun a => a.name.loc = l) = [] := by
      intro bs hbs
      rw [List.filter_eq_nil_iff]
      intro x hx he
      exact hl ⟨x, hbs x hx, by simpa using he⟩
    rw [key as (by simp +contextual), key as' (by simp +contextual)]

/-- A test for `SameEv`. -/
def sameEvB : REv → REv → Bool
  | .start n as _, .start n' as' _ => decide (n.loc = n'.loc ∧ n.ns = n'.ns) && sameAttrsB as as'
  | .endE n, .endE n' => decide (n.loc = n'.loc ∧ n.ns = n'.ns)
  | .start _ _ _, _ => false
  | .endE _, _ => false
  | e, e' => e == e'

theorem sameEv_of_check {e e' : REv} (h : sameEvB e e' = true) : SameEv e e' := by
  cases e with
  | start n as m =>
    cases e' with
    | start n' as' m' =>
      simp only [sameEvB, Bool.and_eq_true, decide_eq_true_eq] at h
      exact .start m m' h.1 (sameAttrs_of_check h.2)
    | _ => cases h
  | endE n =>
    cases e' with
    | endE n' =>
      simp only [sameEvB, decide_eq_true_eq] at h
      exact .endE h
    | _ => cases h
  | _ =>
    have h' := eq_of_beq h
    subst h'
    exact .other (by simp) (by simp)

def sameEvsB : List REv → List REv → Bool
  | [], [] => true
  | e :: es, e' :: es' => sameEvB e e' && sameEvsB es es'
  | _, _ => false

theorem sameEvs_of_check : ∀ {es es' : List REv}, sameEvsB es es' = true → List.Forall₂ SameEv es es'
  | [], [], _ => .nil
  | e :: es, e' :: es', h => by
    simp only [sameEvsB, Bool.and_eq_true] at h
    exact .cons (sameEv_of_check h.1) (sameEvs_of_check h.2)
  | [], _ :: _, h => by cases h
  | _ :: _, [], h => by cases h

open TwinSample in
/-- A document that does not conform (an element inside of a scalar), written with other prefixes, other declarations and another
order of attributes. -/
example (r : Res Val) :
    Returns lib env [c!"Log"] one r ↔ Returns lib env [c!"Log"] two r := by
  have h := C72_prefixes_and_attribute_order lib env noFlatten [c!"Log"] one two
    (sameEvs_of_check (by decide +kernel)) (by decide +kernel) (tagsMatch_parse _) (tagsMatch_parse _)
  have hu : Untagged env := by
    intro p d h
    simp only [env, envOf, prog, List.find?] at h
    split at h
    · simp [mkS] at h
    · cases h
  cases r with
  | ok v => exact h.1 v
  | err m => exact h.2.2.2.1 hu m
  | panic m => exact h.2.1 m
  | diverge => exact ⟨fun h => (h.1 rfl).elim, fun h => (h.1 rfl).elim⟩

open TwinSample in
/-- The boundary: attributes are matched by their local names alone.  Of two attributes with the same local name in different
namespaces the last one wins, so their order does matter — and neither is in the namespace of the type. -/
theorem C72_attributes_with_equal_local_names : ∃ (L : Lib) (env : Env) (p : Path) (s t : Str) (n : Name) (m : NsMap) (a b : Attr)
    (es : List REv) (v w : Val), XmlLaw L ∧ NoFlatten env ∧
    content (L.parse s).evs = .start n [a, b] m :: es ∧ content (L.parse t).evs = .start n [b, a] m :: es ∧
    (L.parse s).fin = none ∧ (L.parse t).fin = none ∧ a.name.loc = b.name.loc ∧ a.name.ns ≠ b.name.ns ∧
    Returns L env p s (.ok v) ∧ Returns L env p t (.ok w) ∧ v ≠ w :=
  ⟨lib, env, [c!"Log"], c!"<Log xmlns='urn:u' xmlns:a='urn:a' xmlns:b='urn:b' a:id='1' b:id='2'></Log>",
    c!"<Log xmlns='urn:u' xmlns:a='urn:a' xmlns:b='urn:b' b:id='2' a:id='1'></Log>",
    ⟨c!"Log", some c!"urn:u", none⟩, [([], c!"urn:u"), (c!"a", c!"urn:a"), (c!"b", c!"urn:b")],
    ⟨⟨c!"id", some c!"urn:a", some c!"a"⟩, c!"1"⟩, ⟨⟨c!"id", some c!"urn:b", some c!"b"⟩, c!"2"⟩,
    [.endE ⟨c!"Log", some c!"urn:u", none⟩],
    .struct [.some (.str c!"2"), .none, .none, .vec []], .struct [.some (.str c!"1"), .none, .none, .vec []],
    xml, noFlatten, by decide +kernel, by decide +kernel, by decide +kernel, by decide +kernel, rfl, by decide,
    returns_of_deOk (by decide +kernel), returns_of_deOk (by decide +kernel), by simp⟩

end Yaserde
