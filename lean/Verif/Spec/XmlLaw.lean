import Verif.Spec.Encode
import Verif.Spec.Decode
/-
What writing an XML tree as text and reading the text again gives.  The law is a hypothesis about the XML library
(`XmlLaw`); `Proofs/XmlLaw.lean` shows that the library of `Model/XmlText.lean` satisfies it.
-/

set_option autoImplicit false

namespace Yaserde

/-! ### Characters and names (XML 1.0) -/

/-- White space. -/
def isXmlSpace (c : Char) : Bool := c == ' ' || c == '\t' || c == '\n' || c == '\r'

/-- Characters allowed in a document. -/
def isDocChar (c : Char) : Bool :=
  let n := c.toNat
  n == 9 || n == 10 || n == 13 || (0x20 ≤ n && n ≤ 0xD7FF) || (0xE000 ≤ n && n ≤ 0xFFFD) || 0x10000 ≤ n

/-- `NameStartChar`, without the colon. -/
def isNameStart (c : Char) : Bool :=
  let n := c.toNat
  (65 ≤ n && n ≤ 90) || n == 95 || (97 ≤ n && n ≤ 122) || (0xC0 ≤ n && n ≤ 0xD6) || (0xD8 ≤ n && n ≤ 0xF6) ||
  (0xF8 ≤ n && n ≤ 0x2FF) || (0x370 ≤ n && n ≤ 0x37D) || (0x37F ≤ n && n ≤ 0x1FFF) || (0x200C ≤ n && n ≤ 0x200D) ||
  (0x2070 ≤ n && n ≤ 0x218F) || (0x2C00 ≤ n && n ≤ 0x2FEF) || (0x3001 ≤ n && n ≤ 0xD7FF) ||
  (0xF900 ≤ n && n ≤ 0xFDCF) || (0xFDF0 ≤ n && n ≤ 0xFFFD) || (0x10000 ≤ n && n ≤ 0xEFFFF)

/-- `NameChar`, without the colon. -/
def isNamePart (c : Char) : Bool :=
  let n := c.toNat
  isNameStart c || n == 45 || n == 46 || (48 ≤ n && n ≤ 57) || n == 0xB7 || (0x300 ≤ n && n ≤ 0x36F) ||
  (0x203F ≤ n && n ≤ 0x2040)

/-- A name without colon. -/
def isNCName : Str → Bool
  | [] => false
  | c :: cs => isNameStart c && cs.all isNamePart

/-- A name, with or without prefix. -/
def isQName (s : Str) : Bool :=
  match splitColon s with
  | none => isNCName s
  | some (p, l) => isNCName p && isNCName l

/-- Text that is read back character by character: no carriage return. -/
def isText (s : Str) : Bool := s.all fun c => isDocChar c && c != '\r'

/-- Attribute values that are read back character by character: neither tab nor carriage return. -/
def isAttrText (s : Str) : Bool := s.all fun c => isDocChar c && c != '\r' && c != '\t'

/-- The content of a CDATA section cannot contain its end. -/
def isCdata (s : Str) : Prop := isText s = true ∧ ¬ c!"]]>" <:+: s

/-- Namespace names that can be written as they are. -/
def isUri (s : Str) : Bool :=
  !s.isEmpty && s.all fun c => isDocChar c && !isXmlSpace c && c != '<' && c != '&' && c != '"'

/-- Remove leading and trailing white space. -/
def trimSpace (s : Str) : Str := ((s.dropWhile isXmlSpace).reverse.dropWhile isXmlSpace).reverse

/-- A name as it is written. -/
def Name.raw (n : Name) : Str :=
  match n.pfx with
  | some p => p ++ c!":" ++ n.loc
  | none => n.loc

/-! ### Namespaces -/

/-- The namespace bound to a prefix (the default namespace: the empty prefix), innermost first. -/
def scopeUri (sc : NsMap) (p : Str) : Option Str := (List.find? (fun e => e.1 == p) sc).map Prod.snd

/-- An element name as it is read. -/
def readElemName (sc : NsMap) (raw : Str) : Name :=
  match splitColon raw with
  | none => { loc := raw, ns := scopeUri sc [] }
  | some (p, l) => { loc := l, ns := scopeUri sc p, pfx := some p }

/-- An attribute name as it is read: the default namespace does not apply. -/
def readAttrName (sc : NsMap) (raw : Str) : Name :=
  match splitColon raw with
  | none => { loc := raw }
  | some (p, l) =>
    { loc := l, pfx := some p
      ns := if p = c!"xml" then some c!"http://www.w3.org/XML/1998/namespace" else scopeUri sc p }

/-- The prefix, if any, is declared. -/
def Bound (sc : NsMap) (raw : Str) : Prop :=
  match splitColon raw with
  | none => True
  | some (p, _) => (scopeUri sc p).isSome = true

/-- Namespace declarations in a scope: one per prefix, and none that gives a prefix another meaning. -/
structure DeclsOk (sc nss : NsMap) : Prop where
  pfx : ∀ d ∈ nss, d.1 = [] ∨ (isNCName d.1 = true ∧ d.1 ≠ c!"xml" ∧ d.1 ≠ c!"xmlns")
  uri : ∀ d ∈ nss, isUri d.2 = true
  nodup : (nss.map Prod.fst).Nodup
  agree : ∀ d ∈ nss, ∀ e ∈ sc, d.1 = e.1 → d.2 = e.2

/-- An attribute name: not a namespace declaration, and its prefix is declared. -/
def AttrNameOk (sc : NsMap) (raw : Str) : Prop :=
  isQName raw = true ∧ raw ≠ c!"xmlns" ∧
    match splitColon raw with
    | none => True
    | some (p, _) => p ≠ c!"xmlns" ∧ (p = c!"xml" ∨ (scopeUri sc p).isSome = true)

/-- The attributes of an element. -/
structure AttrsOk (sc : NsMap) (as : List Attr) : Prop where
  name : ∀ a ∈ as, AttrNameOk sc a.name.raw
  value : ∀ a ∈ as, isAttrText a.value = true
  nodup : (as.map fun a => a.name.raw).Nodup

/-! ### Trees -/

mutual
  /-- The tree can be written as XML text without loss, inside the declarations `sc`. -/
  def WNode.Ok (sc : NsMap) : WNode → Prop
    | .elem n as nss ks =>
      isQName n = true ∧ Bound (nss ++ sc) n ∧ DeclsOk sc nss ∧ AttrsOk (nss ++ sc) as ∧ WNode.OkL (nss ++ sc) ks
    | .text s => isText s = true
    | .cdata s => isCdata s
  def WNode.OkL (sc : NsMap) : List WNode → Prop
    | [] => True
    | k :: ks => k.Ok sc ∧ WNode.OkL sc ks
end

/-- A run of text: trimmed, and left out if nothing remains. -/
def textRun (s : Str) : List Node := if trimSpace s = [] then [] else [.text (trimSpace s)]

mutual
  /-- The tree that is read back. -/
  def WNode.back (sc : NsMap) : WNode → Node
    | .elem n as nss ks =>
      .elem (readElemName (nss ++ sc) n) (as.map fun a => ⟨readAttrName (nss ++ sc) a.name.raw, a.value⟩) (nss ++ sc)
        (WNode.backL (nss ++ sc) [] ks)
    | .text s => .text s
    | .cdata s => .text s
  /-- Adjacent texts become one. -/
  def WNode.backL (sc : NsMap) (run : Str) : List WNode → List Node
    | [] => textRun run
    | k :: ks =>
      match k with
      | .text s => WNode.backL sc (run ++ s) ks
      | .cdata s => WNode.backL sc (run ++ s) ks
      | .elem n as nss kk => textRun run ++ WNode.back sc (.elem n as nss kk) :: WNode.backL sc [] ks
end

mutual
  /-- The same tree; the first one's namespace tables have one entry per prefix, and the same entries as the second
  one's. -/
  def Node.Like : Node → Node → Prop
    | .text s, .text t => s = t
    | .elem n as m ks, .elem n' as' m' ks' =>
      n = n' ∧ as = as' ∧ (m.map Prod.fst).Nodup ∧ (∀ e, e ∈ m ↔ e ∈ m') ∧ Node.LikeL ks ks'
    | _, _ => False
  def Node.LikeL : List Node → List Node → Prop
    | [], [] => True
    | k :: ks, k' :: ks' => k.Like k' ∧ Node.LikeL ks ks'
    | _, _ => False
end

/-- What of a writer event is visible in the text. -/
def WEv.face : WEv → WEv
  | .start n as nss => .start ⟨n.raw, none, none⟩ (as.map fun a => ⟨⟨a.name.raw, none, none⟩, a.value⟩) nss
  | .endE _ => .endE none
  | e => e

/-- Indentation consists of white space. -/
def EmitCfg.Blank (cfg : EmitCfg) : Prop := ∀ ind, cfg.indent = some ind → ind.all isXmlSpace = true

mutual
  /-- No text contains a tab or a carriage return. -/
  def WNode.TabFree : WNode → Prop
    | .elem _ _ _ ks => WNode.TabFreeL ks
    | .text s => isAttrText s = true
    | .cdata s => isAttrText s = true
  def WNode.TabFreeL : List WNode → Prop
    | [] => True
    | k :: ks => k.TabFree ∧ WNode.TabFreeL ks
end

/-- The assumption about the XML library. -/
structure XmlLaw (L : Lib) : Prop where
  /-- A tree written with any configuration is read back, up to white space around texts and merging of adjacent
  texts. -/
  doc : ∀ (n : Str) (as : List Attr) (nss : NsMap) (ks : List WNode) (es : List WEv),
    (WNode.elem n as nss ks).Ok [] →
    es.map WEv.face = ((WNode.elem n as nss ks).events).map WEv.face →
    ∃ y : Node, y.Like ((WNode.elem n as nss ks).back []) ∧
      ∀ cfg : EmitCfg, cfg.Blank → L.parse (L.emit cfg es) = ⟨.startDocument :: y.events, none⟩
  /-- The content of an element written on its own, without XML declaration, and put between the tags afterwards. -/
  frag : ∀ (n : Str) (ks : List WNode) (es : List WEv), isNCName n = true → WNode.OkL [] ks →
    es.map WEv.face = (WNode.eventsL ks).map WEv.face →
    ∃ y : Node, y.Like ((WNode.elem n [] [] ks).back []) ∧
      L.parse (c!"<" ++ n ++ c!">" ++ L.emit { decl := false } es ++ c!"</" ++ n ++ c!">")
        = ⟨.startDocument :: y.events, none⟩
  /-- … consists of characters that can occur in an attribute value, if the texts do. -/
  chars : ∀ (ks : List WNode) (es : List WEv), WNode.OkL [] ks → WNode.TabFreeL ks →
    es.map WEv.face = (WNode.eventsL ks).map WEv.face → isAttrText (L.emit { decl := false } es) = true

end Yaserde
