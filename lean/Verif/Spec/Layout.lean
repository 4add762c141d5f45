import Verif.Spec.Encode
/-
Programs whose names do not look like the beginnings of tags.
-/

set_option autoImplicit false

namespace Yaserde

/-- The name of an element: after `<` it is neither the end of the file nor a comment, a document type or a CDATA section. -/
def TagName (s : Str) : Prop := '<' ∉ s ∧ ∃ c cs, s = c :: cs ∧ c ≠ '!'

instance (s : Str) : Decidable (TagName s) :=
  match s with
  | [] => .isFalse fun h => by obtain ⟨_, _, _, h, _⟩ := h; cases h
  | c :: cs =>
    if h : '<' ∉ c :: cs ∧ c ≠ '!' then .isTrue ⟨h.1, c, cs, rfl, h.2⟩
    else .isFalse fun g => by
      obtain ⟨g1, _, _, g2, g3⟩ := g
      cases g2
      exact h ⟨g1, g3⟩

/-- The namespaces that a type declares; the emitter writes them as they are. -/
def Attrs.PlainNs (a : Attrs) : Prop := ∀ e ∈ a.namespaces, '<' ∉ e.1 ∧ '<' ∉ e.2

instance (a : Attrs) : Decidable a.PlainNs := inferInstanceAs (Decidable (∀ e ∈ a.namespaces, '<' ∉ e.1 ∧ '<' ∉ e.2))

/-- The names that a type is written with. -/
def TypeDef.PlainNames : TypeDef → Prop
  | .struct d => TagName (d.attrs.written d.name) ∧ d.attrs.PlainNs ∧ ∀ f ∈ d.fields, TagName (f.written d.attrs)
  | .enum d =>
    TagName (d.attrs.written d.name) ∧ d.attrs.PlainNs ∧ (∀ t, d.attrs.tag = some t → '<' ∉ t) ∧
      ∀ v ∈ d.variants, TagName (v.written d.attrs) ∧ ∀ fds, v.shape = .named fds → ∀ f ∈ fds, TagName (f.written d.attrs)
  | .prim d => TagName d.name

def PlainNames (env : Env) : Prop := ∀ p t, env p = some t → t.PlainNames

end Yaserde
