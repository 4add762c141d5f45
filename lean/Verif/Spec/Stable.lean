import Verif.Spec.RoundTrip
import Verif.Spec.Sound
import Verif.Model.XmlText
import Verif.Spec.Rename
/-
Documents and programs for which reading and writing settles after one round.
-/

set_option autoImplicit false

namespace Yaserde

/-- If the text is a floating-point number, then that number is written as a text that parses back to it. -/
def FloatsOk (L : Lib) (s : Str) : Prop :=
  (∀ b, L.parseF32 s = .ok b → (Val.f32 b).Tame L) ∧ ∀ b, L.parseF64 s = .ok b → (Val.f64 b).Tame L

/-- Texts are non-empty and trimmed and contain no carriage return; attribute values contain neither
carriage returns nor tabs.
A parser delivers such events unless the document contains references to these characters (`&#13;`): `Proofs/PlainDoc.lean`. -/
def REv.PlainText (L : Lib) : REv → Prop
  | .chars s => CleanText s ∧ FloatsOk L s
  | .start _ as _ => ∀ a ∈ as, isAttrText a.value = true ∧ FloatsOk L a.value
  | _ => True

/-- The document does not contain references to white space. -/
structure PlainDoc (L : Lib) (s : Str) : Prop where
  events : ∀ e ∈ (L.parse s).evs, e.PlainText L
  empty : FloatsOk L []

/-- The text contains no reference to a tab or carriage return (`&#9;`, `&#13;`, `&#xD;`, …). -/
def NoBlankRefs (s : Str) : Prop :=
  ∀ name, ('&' :: (name ++ c!";")) <:+: s → XmlText.resolveRef name ≠ some '\t' ∧ XmlText.resolveRef name ≠ some '\r'

/-- A class of plain events. -/
structure PlainEvs (L : Lib) (P : REv → Prop) : Prop where
  plain : ∀ e, P e → e.PlainText L
  eod : P .endDocument

/-- Documents made of events of this class consist of such events: what is kept for flattened fields. -/
def Relays (L : Lib) (P : REv → Prop) : Prop :=
  ∀ out : List WEv, (∀ w ∈ out, ∃ e, P e ∧ e.asWriterEvent = some w) → ∀ e ∈ (L.parse (L.emit unusedCfg out)).evs, P e

/-- No number sign in names, texts, attribute values and namespaces; no line feed in attribute values. -/
def REv.NoHash : REv → Prop
  | .start n as nss => '#' ∉ n.raw ∧ (∀ a ∈ as, '#' ∉ a.name.raw ∧ '#' ∉ a.value ∧ '\n' ∉ a.value) ∧
      ∀ d ∈ nss, '#' ∉ d.1 ∧ '#' ∉ d.2
  | .chars s | .ws s | .cdata s => '#' ∉ s
  | _ => True

/-- The default values of the program survive a round trip: a field's default value equals itself (it is not a NaN), so
that it is left out; that of a text field is empty or trimmed; that of an enum is canonical. -/
structure SettledDefaults (L : Lib) (env : Env) : Prop where
  fields : ∀ p d, env p = some (.struct d) → ∀ f ∈ d.fields, ∀ dv, f.dflt = some dv →
    (f.attrs.text = false → dv.ne dv.val = false) ∧
    (f.attrs.text = true → f.ty = .simple .string → ∃ s, dv.val = .str s ∧ (s = [] ∨ CleanText s))
  enums : ∀ p d, env p = some (.enum d) → Canon L env (.struct p) d.dflt

end Yaserde
