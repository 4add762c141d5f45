import Verif.Props.Size
import Verif.Props.OutSize
import Verif.Proofs.SpellOut
/-
C86 with attributes of derived types: exponential, if two fields take the same attribute.
-/

set_option autoImplicit false
set_option maxRecDepth 100000

namespace Yaserde

open XmlText

namespace Twice
open Tests

def defA : StructDef :=
  { name := c!"A", attrs := { rename := some c!"a" }
    fields := [F c!"l" (.opt (.struct [c!"B"])) { isAttr := true, rename := some c!"b" },
      F c!"r" (.opt (.struct [c!"C"])) { isAttr := true, rename := some c!"b" }] }

def defB (name : Str) : StructDef := { name := name, fields := [F c!"a" (.vec (.struct [c!"A"]))] }

/-- `#[yaserde(rename = "a")] struct A { #[yaserde(attribute, rename = "b")] l: Option<B>, #[yaserde(attribute, rename = "b")] r: Option<C> }`,
`struct B { a: Vec<A> }` and `struct C { a: Vec<A> }`. -/
def env : Env := envOf [([c!"A"], .struct defA), ([c!"B"], .struct (defB c!"B")), ([c!"C"], .struct (defB c!"C"))]

theorem env_A : env [c!"A"] = some (.struct defA) := by simp [env, envOf]
theorem env_B : env [c!"B"] = some (.struct (defB c!"B")) := by simp [env, envOf]
theorem env_C : env [c!"C"] = some (.struct (defB c!"C")) := by simp [env, envOf]

/-- `n` attributes, one inside the other. -/
def text : Nat → Str
  | 0 => c!"<a/>"
  | n + 1 => c!"<a b=\"" ++ escAttr (text n) ++ c!"\"/>"

def tree : Nat → Node
  | 0 => .elem ⟨c!"a", none, none⟩ [] [] []
  | n + 1 => .elem ⟨c!"a", none, none⟩ [⟨⟨c!"b", none, none⟩, text n⟩] [] []

/-- The attribute as a document. -/
def doc (q : Str) (n : Nat) : Node := .elem ⟨q, none, none⟩ [] [] [tree n]

/-- What is read from it: both fields get what is inside. -/
def value : Nat → Val
  | 0 => .struct [.none, .none]
  | n + 1 => .struct [.some (.struct [.vec [value n]]), .some (.struct [.vec [value n]])]

theorem value_size (n : Nat) : 2 ^ n ≤ (value n).size := by
  induction n with
  | zero => decide
  | succ n ih => simp only [value, Val.size, Val.sizeL, Nat.pow_succ]; omega

theorem specials_text (n : Nat) : specials (text n) = 4 * n + 2 := by
  induction n with
  | zero => decide
  | succ n ih =>
    have h1 : specials c!"<a b=\"" = 2 := by decide
    have h2 : specials c!"\"/>" = 2 := by decide
    unfold text
    have h3 : specials (escAttr (text n)) = 4 * n + 2 := by rw [specials_escAttr, ih]
    unfold specials at *
    rw [wt_append, wt_append]
    omega

/-- The text is short. -/
theorem text_length (n : Nat) : (text n).length ≤ 10 * (n * n) + 10 * n + 4 := by
  induction n with
  | zero => decide
  | succ n ih =>
    have h1 := length_escAttr (text n)
    rw [specials_text] at h1
    have h2 : (n + 1) * (n + 1) = n * n + n + n + 1 := by rw [Nat.add_mul, Nat.mul_add]; omega
    simp only [text, List.length_append, List.length_cons, List.length_nil]
    omega

theorem attrText (n : Nat) : isAttrText (text n) = true := by
  induction n with
  | zero => decide
  | succ n ih =>
    have := attrText_escAttr ih
    unfold isAttrText at this ⊢
    simp only [text, List.all_append, Bool.and_eq_true]
    exact ⟨⟨by decide, this⟩, by decide⟩

theorem elem_text (n : Nat) : Spell.Elem [] (tree n) (text n) := by
  cases n with
  | zero =>
    exact .empty (raw := c!"a") (sa := []) (w := []) .nil (by simp [Spell.Blank])
      ⟨by decide, by simp, by decide, .bare (by decide), .nil⟩
  | succ n =>
    have h := Spell.Attrs.cons (w := c!" ") (n := c!"b") (w1 := []) (w2 := []) (rest := []) (as := []) (q := '"')
      (by simp [Spell.Blank, isXmlSpace]) (by decide) (by decide) (by simp [Spell.Blank]) (by simp [Spell.Blank]) (.inl rfl) (value_esc _ (attrText n)) .nil
    have := Spell.Elem.empty (outer := []) (sc := []) (raw := c!"a") (w := []) (n := ⟨c!"a", none, none⟩) (bs := [⟨⟨c!"b", none, none⟩, text n⟩])
      h (by simp [Spell.Blank])
      ⟨by decide, by simp, by simp [Spell.declOf, Spell.inner, show splitColon c!"b" = none by decide], .bare (by decide),
        .attr (by simp [Spell.declOf, show splitColon c!"b" = none by decide]) (.bare (show splitColon c!"b" = none by decide)) .nil⟩
    simpa [text, tree] using this

theorem doc_text (n : Nat) : Spell.Doc (tree n) (text n) := by
  simpa using Spell.Doc.mk (a := []) (b := []) .nil (elem_text n) .nil

theorem doc_attr (q : Str) (hq : q = c!"B" ∨ q = c!"C") (n : Nat) : Spell.Doc (doc q n) (attrDoc [q] (text n)) := by
  have ht : Spell.Tag [] [] q [] ⟨q, none, none⟩ [] := by
    rcases hq with rfl | rfl <;> exact ⟨by decide, by simp, by decide, .bare (by decide), .nil⟩
  have := Spell.Elem.full (raw := q) (sa := []) (w := []) (w' := []) (s := text n) .nil (by simp [Spell.Blank]) ht
      (by simpa using Spell.Content.elem (run := []) (s' := []) (elem_text n) .nil) (by simp [Spell.Blank])
  have := Spell.Doc.mk (a := []) (b := []) .nil this .nil
  simpa [attrDoc, doc, show textRun [] = [] from rfl] using this

theorem isDoc {L : Lib} (hL : L.parse = XmlText.parse) {x : Node} {s : Str} (h : Spell.Doc x s) : IsDoc (L.parse s) x :=
  ⟨[], by rw [hL, C74_parse h, List.append_nil]; exact content_node x⟩

theorem plain_A : defA.Plain := by
  refine ⟨fun f hf => ?_, fun f hf h => ?_, fun f hf h1 h2 => ?_⟩ <;>
    simp only [defA, List.mem_cons, List.not_mem_nil, or_false] at hf <;> rcases hf with rfl | rfl
  · exact .inr ⟨_, rfl⟩
  · exact .inr ⟨_, rfl⟩
  · cases h
  · cases h
  · cases h2
  · cases h2

theorem plain_B (q : Str) : (defB q).Plain := by
  refine ⟨fun f hf => ?_, fun f hf h => ?_, fun f hf h1 h2 => ?_⟩ <;>
    simp only [defB, List.mem_cons, List.not_mem_nil, or_false] at hf <;> rcases hf with rfl
  · exact .inr ⟨_, rfl⟩
  · cases h
  · cases h2

theorem fieldFor_B (q : Str) : (defB q).fieldFor ⟨c!"a", none, none⟩ = some 0 := rfl

theorem env_q {q : Str} (hq : q = c!"B" ∨ q = c!"C") : env [q] = some (.struct (defB q)) := by
  rcases hq with rfl | rfl
  · exact env_B
  · exact env_C

theorem confWith_struct {L : Lib} {fc : Node → Path → Prop} {n : Name} {as : List Attr} {m : NsMap} {ks : List Node} {p : Path}
    {d : StructDef} (hp : env p = some (.struct d)) (h : d.Plain ∧
        ((n.loc = d.attrs.rename.getD d.name ∧
            n.ns.getD [] = (d.attrs.namespaces.find d.attrs.pfx).getD []) ∨ d.fieldFor n = none) ∧
        ConfKids L env fc d ks ∧
        (∀ f ∈ d.fields, f.attrs.isAttr = false → f.attrs.flatten = true →
          ∀ q, f.ty.core = .struct q → fc (d.residue n as m ks) q) ∧
        (∀ f ∈ d.fields, f.attrs.isAttr = true → ∀ q, f.ty.core = .struct q →
          ∀ a ∈ as, a.name.loc = f.label → ∀ s ∈ f.ty.attrTexts a.value, fc (.text s) q)) :
    ConfWith L env fc (.elem n as m ks) p := by
  rw [ConfWith, hp]
  exact h

theorem conf_doc {L : Lib} {q : Str} (hq : q = c!"B" ∨ q = c!"C") (n k : Nat) (h : ConfN L env k (tree n) [c!"A"]) :
    ConfN L env k (doc q n) [q] := by
  rw [confN_eq] at h ⊢
  refine confWith_struct (env_q hq) ⟨plain_B q, .inl ⟨rfl, rfl⟩, ?_, fun f hf _ h => ?_, fun f hf h => ?_⟩
  · have : ∃ as, tree n = .elem ⟨c!"a", none, none⟩ as [] [] := by cases n <;> exact ⟨_, rfl⟩
    obtain ⟨as, e⟩ := this
    rw [e] at h ⊢
    rw [ConfKids, ConfKid, ConfKids]
    refine ⟨⟨by simp, fun i f hi hf => ?_⟩, trivial⟩
    rw [fieldFor_B] at hi
    cases hi
    cases hf
    refine ⟨fun t ht => (by cases ht), fun p hp => ⟨?_, ?_⟩⟩
    · cases hp; exact h
    · rintro ⟨f, hf, h1, h2⟩
      simp only [defB, List.mem_cons, List.not_mem_nil, or_false] at hf
      rcases hf with rfl
      cases h2
  all_goals
    simp only [defB, List.mem_cons, List.not_mem_nil, or_false] at hf
    rcases hf with rfl
    cases h

/-- The documents conform to the type. -/
theorem conf {L : Lib} (hL : L.parse = XmlText.parse) (n : Nat) : ∀ k, n < k → ConfN L env k (tree n) [c!"A"] := by
  induction n with
  | zero =>
    intro k hk
    rw [confN_eq]
    refine confWith_struct env_A ⟨plain_A, .inl ⟨rfl, rfl⟩, by rw [ConfKids]; trivial, fun f hf _ h => ?_, fun f hf h q hq a ha => ?_⟩
    · simp only [defA, List.mem_cons, List.not_mem_nil, or_false] at hf
      rcases hf with rfl | rfl <;> cases h
    · cases ha
  | succ n ih =>
    intro k hk
    obtain ⟨k, rfl⟩ : ∃ j, k = j + 1 := ⟨k - 1, by omega⟩
    rw [confN_eq]
    refine confWith_struct env_A ⟨plain_A, .inl ⟨rfl, rfl⟩, by rw [ConfKids]; trivial, fun f hf _ h => ?_, fun f hf h q hq a ha hn s hs => ?_⟩
    · simp only [defA, List.mem_cons, List.not_mem_nil, or_false] at hf
      rcases hf with rfl | rfl <;> cases h
    · simp only [List.mem_cons, List.not_mem_nil, or_false] at ha
      subst ha
      have hq' : ∃ q', q = [q'] ∧ (q' = c!"B" ∨ q' = c!"C") ∧ s = text n := by
        simp only [defA, List.mem_cons, List.not_mem_nil, or_false] at hf
        rcases hf with rfl | rfl
        · simp only [F, FTy.attrTexts, List.mem_cons, List.not_mem_nil, or_false] at hs
          exact ⟨_, (FTy.struct.inj hq).symm, .inl rfl, hs⟩
        · simp only [F, FTy.attrTexts, List.mem_cons, List.not_mem_nil, or_false] at hs
          exact ⟨_, (FTy.struct.inj hq).symm, .inr rfl, hs⟩
      obtain ⟨q', rfl, hq', rfl⟩ := hq'
      refine ⟨doc q' n, isDoc hL (doc_attr q' hq' n), ?_, conf_doc hq' n k (ih k (by omega))⟩
      have : (doc q' n).events.length = 4 := by cases n <;> rfl
      omega

theorem decode_doc (L : Lib) {q : Str} (hq : q = c!"B" ∨ q = c!"C") (n k : Nat) {v : Val} (h : decodeN L env k (tree n) [c!"A"] = .ok v) :
    decodeN L env k (doc q n) [q] = .ok (.struct [.vec [v]]) := by
  rw [decodeN_eq] at h ⊢
  rw [doc, decodeWith, env_q hq]
  have hk : kidContribs L (defB q) [tree n] (decodeL L env (flatN L env k) [tree n]) = .ok [(0, v)] := by
    have : kidContrib L (defB q) (decodeWith L env (flatN L env k) (tree n)) (tree n) = .ok [(0, v)] := by
      have : ∃ as, tree n = .elem ⟨c!"a", none, none⟩ as [] [] := by cases n <;> exact ⟨_, rfl⟩
      obtain ⟨as, e⟩ := this
      rw [e] at h ⊢
      simp only [kidContrib, fieldFor_B, show (defB q).fields[0]? = some (F c!"a" (.vec (.struct [c!"A"]))) from rfl,
        show (F c!"a" (.vec (.struct [c!"A"]))).ty.core = .struct [c!"A"] from rfl, h, Res.bind]
    simp [kidContribs, decodeL, this, Res.collect, Res.bind]
  have ha : attrContribs L (userAttr (flatN L env k)) (defB q) [] = .ok [] := rfl
  simp only [decodeStruct, ha, hk, Res.bind]
  rfl

theorem decode_tree {L : Lib} (hL : L.parse = XmlText.parse) (n : Nat) : ∀ k, n < k → decodeN L env k (tree n) [c!"A"] = .ok (value n) := by
  induction n with
  | zero =>
    intro k hk
    rw [decodeN_eq, tree, decodeWith, env_A]
    rfl
  | succ n ih =>
    intro k hk
    obtain ⟨k, rfl⟩ : ∃ j, k = j + 1 := ⟨k - 1, by omega⟩
    have hi := ih k (by omega)
    have hu : ∀ q, q = c!"B" ∨ q = c!"C" → userAttr (flatN L env (k + 1)) [q] (text n) = .ok (.struct [.vec [value n]]) := by
      intro q hq
      have := flatN_text (env := env) (k := k) (isDoc hL (doc_attr q hq n))
      unfold userAttr
      rw [this, decodeDocWith, env_q hq]
      dsimp only
      rw [if_pos (by intro u hu; cases hu)]
      exact decode_doc L hq n k hi
    rw [decodeN_eq, tree, decodeWith, env_A]
    have ha : attrContribs L (userAttr (flatN L env (k + 1))) defA [⟨⟨c!"b", none, none⟩, text n⟩] =
        .ok [(0, .struct [.vec [value n]]), (1, .struct [.vec [value n]])] := by
      have h1 := hu _ (.inl rfl)
      have h2 := hu _ (.inr rfl)
      simp [attrContribs, defA, attrContrib, F, attrValues, h1, h2, Res.collect, Res.bind, FieldDef.label]
    have hk : kidContribs L defA [] (decodeL L env (flatN L env (k + 1)) []) = .ok [] := rfl
    dsimp only
    unfold decodeStruct
    rw [ha, hk]
    rfl

end Twice

open Twice in
/-- **C86 is false of the code** also without flattened fields: if two attribute fields of derived types have the same name, a text of
at most `10 * n * n + 10 * n + 4` characters is read as a value of size at least `2 ^ n`. -/
theorem C86_false_attr (L : Lib) (hp : L.parse = XmlText.parse) (n : Nat) :
    ∃ v, Returns L env [c!"A"] (text n) (.ok v) ∧ (text n).length ≤ 10 * (n * n) + 10 * n + 4 ∧ 2 ^ n ≤ v.size := by
  refine ⟨value n, ?_, text_length n, value_size n⟩
  rw [C74_reads_partial L hp env (n + 1) _ (doc_text n) (conf hp n (n + 1) (Nat.lt_succ_self n)) _]
  rw [decodeDocN, decodeDocWith, env_A]
  dsimp only
  rw [if_pos]
  · exact (decode_tree hp n (n + 1) (Nat.lt_succ_self n)).symm
  · cases n <;> (intro u hu; cases hu)

end Yaserde
