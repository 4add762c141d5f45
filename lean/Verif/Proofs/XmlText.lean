import Verif.Model.XmlText
import Verif.Spec.XmlLaw
/-
The character-level parser on the text the emitter writes: single tags and texts.
-/

set_option autoImplicit false

namespace Yaserde
namespace XmlText

/-- Run the parser over some text. -/
abbrev run (s : Str) (p : PS) : PS := s.foldl PS.step p

theorem run_append (s t : Str) (p : PS) : run (s ++ t) p = run t (run s p) := List.foldl_append
theorem run_cons (c : Char) (t : Str) (p : PS) : run (c :: t) p = run t (p.step c) := rfl
theorem run_nil (p : PS) : run [] p = p := rfl

theorem isWs_eq (c : Char) : isWs c = isXmlSpace c := rfl
theorem trim_eq (s : Str) : trim s = trimSpace s := rfl
theorem isXmlChar_eq (c : Char) : isXmlChar c = isDocChar c := rfl
theorem qname_eq (n : Name) : qname n = n.raw := rfl

/-! ### Names -/

theorem isNameStartChar_eq (c : Char) : isNameStartChar c = isNameStart c := by
  unfold isNameStartChar isNameStart
  have beq : ∀ d : Char, (c == d) = (c.toNat == d.toNat) := by
    intro d
    rw [Bool.eq_iff_iff, beq_iff_eq, beq_iff_eq]
    exact ⟨fun h => by rw [h], fun h => Char.ext (UInt32.toNat_inj.mp h)⟩
  simp only [beq]
  rfl

theorem isNameChar_eq (c : Char) : isNameChar c = isNamePart c := by
  unfold isNameChar isNamePart
  have beq : ∀ d : Char, (c == d) = (c.toNat == d.toNat) := by
    intro d
    rw [Bool.eq_iff_iff, beq_iff_eq, beq_iff_eq]
    exact ⟨fun h => by rw [h], fun h => Char.ext (UInt32.toNat_inj.mp h)⟩
  rw [isNameStartChar_eq]
  simp only [beq]
  rfl

/-- The parser goes on with a name that begins with `acc`. -/
def Grows : Str → Str → Prop
  | _, [] => True
  | acc, c :: cs => nameStep acc c = true ∧ Grows (acc ++ [c]) cs

/-- A non-empty string that the parser takes for a name. -/
def NameLike (s : Str) : Prop := s ≠ [] ∧ Grows [] s

theorem Grows.append {acc a b : Str} (ha : Grows acc a) (hb : Grows (acc ++ a) b) : Grows acc (a ++ b) := by
  induction a generalizing acc with
  | nil => simpa using hb
  | cons c cs ih => exact ⟨ha.1, ih ha.2 (by simpa using hb)⟩

theorem grows_parts {s : Str} (h : ∀ c ∈ s, isNamePart c = true) {acc : Str} (ha : acc ≠ []) : Grows acc s := by
  induction s generalizing acc with
  | nil => trivial
  | cons c cs ih =>
    refine ⟨?_, ih (fun d hd => h d (by simp [hd])) (by simp)⟩
    have hc : isNamePart c = true := h c (by simp)
    have : c ≠ ':' := by rintro rfl; revert hc; decide
    unfold nameStep
    rw [if_neg this, if_neg (by simpa using ha), isNameChar_eq]
    exact hc

theorem nameStart_part {c : Char} (h : isNameStart c = true) : isNamePart c = true := by
  unfold isNamePart
  simp [h]

theorem ncName_parts {s : Str} (h : isNCName s = true) : ∀ c ∈ s, isNamePart c = true := by
  cases s with
  | nil => cases h
  | cons c cs =>
    simp only [isNCName, Bool.and_eq_true, List.all_eq_true] at h
    intro d hd
    rcases List.mem_cons.mp hd with rfl | hd
    · exact nameStart_part h.1
    · exact h.2 d hd

theorem ncName_like {s : Str} (h : isNCName s = true) : NameLike s := by
  cases s with
  | nil => cases h
  | cons c cs =>
    simp only [isNCName, Bool.and_eq_true, List.all_eq_true] at h
    refine ⟨by simp, ?_, grows_parts h.2 (by simp)⟩
    have : c ≠ ':' := by rintro rfl; exact absurd h.1 (by decide)
    unfold nameStep
    rw [if_neg this, if_pos (by rfl), isNameStartChar_eq]
    exact h.1

theorem splitColon_some {s p l : Str} (h : splitColon s = some (p, l)) : s = p ++ c!":" ++ l := by
  induction s generalizing p with
  | nil => cases h
  | cons c cs ih =>
    rw [splitColon] at h
    split at h
    · rename_i hc; cases h; subst hc; rfl
    · cases hcs : splitColon cs with
      | none => rw [hcs] at h; cases h
      | some q =>
        rw [hcs] at h
        obtain ⟨a, b⟩ := q
        cases h
        rw [ih hcs]; rfl

theorem splitColon_colon {p l : Str} (h : ':' ∉ p) : splitColon (p ++ c!":" ++ l) = some (p, l) := by
  induction p with
  | nil => rfl
  | cons c cs ih =>
    simp only [List.mem_cons, not_or] at h
    have := ih h.2
    simp only [List.append_assoc, List.cons_append, List.nil_append] at this ⊢
    rw [splitColon, if_neg (Ne.symm h.1), this]; rfl

theorem ncName_noColon {s : Str} (h : isNCName s = true) : ':' ∉ s := by
  cases s with
  | nil => cases h
  | cons c cs =>
    simp only [isNCName, Bool.and_eq_true, List.all_eq_true] at h
    intro hm
    rcases List.mem_cons.mp hm with h1 | h1
    · subst h1; exact absurd h.1 (by decide)
    · exact absurd (h.2 _ h1) (by decide)

theorem splitColon_none {s : Str} (h : ':' ∉ s) : splitColon s = none := by
  induction s with
  | nil => rfl
  | cons c cs ih =>
    simp only [List.mem_cons, not_or] at h
    rw [splitColon, if_neg (Ne.symm h.1), ih h.2]; rfl

theorem prefixed_like {p l : Str} (hp : isNCName p = true) (hl : isNCName l = true) : NameLike (p ++ c!":" ++ l) := by
  have h1 := ncName_like hp
  have h2 : p ++ c!":" ++ l = p ++ (':' :: l) := by simp
  rw [h2]
  refine ⟨by simp, h1.2.append ⟨?_, grows_parts (ncName_parts hl) (by simp)⟩⟩
  have h3 : p ≠ [] := h1.1
  have h4 := ncName_noColon hp
  simp [nameStep, h3, h4]

theorem qName_like {s : Str} (h : isQName s = true) : NameLike s := by
  rw [isQName] at h
  cases hs : splitColon s with
  | none => rw [hs] at h; exact ncName_like h
  | some q =>
    obtain ⟨p, l⟩ := q
    rw [hs] at h
    simp only [Bool.and_eq_true] at h
    rw [splitColon_some hs]
    exact prefixed_like h.1 h.2

/-- A character that does not occur in names ends a name. -/
theorem nameStep_stop (acc : Str) {c : Char} (hc : c ≠ ':') (h : isNameChar c = false) : ¬nameStep acc c = true := by
  unfold nameStep
  rw [if_neg hc]
  split
  · intro h'
    unfold isNameChar at h
    rw [h'] at h
    simp at h
  · simp [h]

/-- What is known about the first character of a name. -/
theorem nameChar_ne {c : Char} (h : nameStep [] c = true) :
    c ≠ '/' ∧ c ≠ '!' ∧ c ≠ '?' ∧ c ≠ '>' ∧ c ≠ '<' ∧ c ≠ '=' ∧ isWs c = false := by
  have hne : ∀ d : Char, nameStep [] d = false → c ≠ d := by
    rintro d hd rfl; rw [h] at hd; cases hd
  refine ⟨hne _ (by decide), hne _ (by decide), hne _ (by decide), hne _ (by decide), hne _ (by decide), hne _ (by decide), ?_⟩
  simp only [isWs, Bool.or_eq_false_iff, beq_eq_false_iff_ne]
  exact ⟨⟨⟨hne _ (by decide), hne _ (by decide)⟩, hne _ (by decide)⟩, hne _ (by decide)⟩

/-! ### Runs of characters -/

theorem run_openName (s : Str) (p : PS) (acc : Str) (h : Grows acc s) :
    run s { p with st := .openName acc } = { p with st := .openName (acc ++ s) } := by
  induction s generalizing acc with
  | nil => simp [run]
  | cons c cs ih =>
    rw [run_cons]
    have hc : PS.step { p with st := .openName acc } c = { p with st := .openName (acc ++ [c]) } := by
      simp only [PS.step]; rw [if_pos h.1]
    rw [hc, ih _ h.2]
    simp

theorem run_attrName (s : Str) (p : PS) (nm : Str) (as : List (Str × Str)) (acc : Str) (h : Grows acc s) :
    run s { p with st := .attrName nm as acc } = { p with st := .attrName nm as (acc ++ s) } := by
  induction s generalizing acc with
  | nil => simp [run]
  | cons c cs ih =>
    rw [run_cons]
    have hc : PS.step { p with st := .attrName nm as acc } c = { p with st := .attrName nm as (acc ++ [c]) } := by
      simp only [PS.step]; rw [if_pos h.1]
    rw [hc, ih _ h.2]
    simp

theorem run_closeName (s : Str) (p : PS) (acc : Str) (h : Grows acc s) :
    run s { p with st := .closeName acc } = { p with st := .closeName (acc ++ s) } := by
  induction s generalizing acc with
  | nil => simp [run]
  | cons c cs ih =>
    rw [run_cons]
    have hc : PS.step { p with st := .closeName acc } c = { p with st := .closeName (acc ++ [c]) } := by
      simp only [PS.step]; rw [if_pos h.1]
    rw [hc, ih _ h.2]
    simp

/-- Inside a tag: right after its name, or after an attribute. -/
inductive TagSt (nm : Str) : List (Str × Str) → PSt → Prop
  | name : TagSt nm [] (.openName nm)
  | val (as : List (Str × Str)) : TagSt nm as (.afterVal nm as)

theorem step_name_space (p : PS) (nm : Str) :
    PS.step { p with st := .openName nm } ' ' = { p with st := .inTag nm [] } := by
  simp only [PS.step]
  rw [if_neg (nameStep_stop _ (by decide) (by decide)), if_pos (by decide)]

theorem step_val_space (p : PS) (nm : Str) (as : List (Str × Str)) :
    PS.step { p with st := .afterVal nm as } ' ' = { p with st := .inTag nm as } := by
  simp only [PS.step]
  rw [if_pos (by decide)]

theorem TagSt.space {nm : Str} {as : List (Str × Str)} {st : PSt} (h : TagSt nm as st) (p : PS) :
    PS.step { p with st := st } ' ' = { p with st := .inTag nm as } := by
  cases h with
  | name => exact step_name_space p nm
  | val => exact step_val_space p nm as

theorem TagSt.close {nm : Str} {as : List (Str × Str)} {st : PSt} (h : TagSt nm as st) (p : PS) :
    PS.step { p with st := st } '>' = PS.openElem { p with st := st } nm as false := by
  cases h with
  | name =>
    simp only [PS.step]
    rw [if_neg (nameStep_stop _ (by decide) (by decide)), if_neg (by decide), if_pos (by decide)]
  | val =>
    simp only [PS.step]
    rw [if_neg (by decide), if_pos (by decide)]

theorem TagSt.selfClose {nm : Str} {as : List (Str × Str)} {st : PSt} (h : TagSt nm as st) (p : PS) :
    run c!" />" { p with st := st } = PS.openElem { p with st := .slash nm as } nm as true := by
  rw [run_cons, h.space]
  rfl

theorem run_attrStart {nm an : Str} {as : List (Str × Str)} {st : PSt} (h : TagSt nm as st) (p : PS) (hn : NameLike an) :
    run (c!" " ++ an ++ c!"=\"") { p with st := st } = { p with st := .attrVal nm as an '"' [] } := by
  obtain ⟨hne, hall⟩ := hn
  cases an with
  | nil => exact absurd rfl hne
  | cons c cs =>
    obtain ⟨h1, -, -, h4, -, -, h7⟩ := nameChar_ne hall.1
    rw [run_append, run_append]
    have e1 : run c!" " { p with st := st } = { p with st := .inTag nm as } := h.space p
    have e2 : PS.step { p with st := .inTag nm as } c = { p with st := .attrName nm as [c] } := by
      simp only [PS.step]
      rw [h7, if_neg (by simp), if_neg h4, if_neg h1, if_pos hall.1]
    rw [e1, run_cons c, e2, run_attrName cs _ _ _ [c] hall.2, run_cons]
    simp only [PS.step]
    rw [if_neg (nameStep_stop _ (by decide) (by decide)), if_pos (by decide)]
    rfl

/-- The characters of a namespace name are copied. -/
theorem run_attrPlain (s : Str) (p : PS) (nm an : Str) (as : List (Str × Str)) (acc : Str)
    (h : ∀ c ∈ s, (isDocChar c && !isXmlSpace c && c != '<' && c != '&' && c != '"') = true) :
    run s { p with st := .attrVal nm as an '"' acc } = { p with st := .attrVal nm as an '"' (acc ++ s) } := by
  induction s generalizing acc with
  | nil => simp [run]
  | cons c cs ih =>
    have hc := h c (by simp)
    simp only [Bool.and_eq_true, Bool.not_eq_true', bne_iff_ne] at hc
    obtain ⟨⟨⟨⟨h1, h2⟩, h3⟩, h4⟩, h5⟩ := hc
    have e : PS.step { p with st := .attrVal nm as an '"' acc } c = { p with st := .attrVal nm as an '"' (acc ++ [c]) } := by
      simp only [PS.step]
      rw [if_neg h5, if_neg h4, if_neg h3, isXmlChar_eq, if_pos h1, isWs_eq, h2]
      rfl
    rw [run_cons, e, ih _ (fun d hd => h d (by simp [hd]))]
    simp

/-- Escaped characters are read back. -/
theorem run_attrChar (c : Char) (p : PS) (nm an : Str) (as : List (Str × Str)) (acc : Str)
    (h : (isDocChar c && c != '\r' && c != '\t') = true) :
    run (escAttrChar c) { p with st := .attrVal nm as an '"' acc } = { p with st := .attrVal nm as an '"' (acc ++ [c]) } := by
  simp only [Bool.and_eq_true, bne_iff_ne] at h
  obtain ⟨⟨h1, h2⟩, h3⟩ := h
  unfold escAttrChar
  by_cases a1 : c = '<'
  · subst a1; rfl
  by_cases a2 : c = '>'
  · subst a2; rfl
  by_cases a3 : c = '&'
  · subst a3; rfl
  by_cases a4 : c = '"'
  · subst a4; rfl
  by_cases a5 : c = '\''
  · subst a5; rfl
  by_cases a6 : c = '\n'
  · subst a6; rfl
  rw [if_neg a1, if_neg a2, if_neg a3, if_neg a4, if_neg a5, if_neg a6, if_neg h2]
  by_cases a7 : c = ' '
  · subst a7; rfl
  have hw : isWs c = false := by simp [isWs, a7, h3, a6, h2]
  rw [run_cons, run_nil]
  simp only [PS.step]
  rw [if_neg a4, if_neg a3, if_neg a1, isXmlChar_eq, if_pos h1, hw]
  rfl

theorem run_attrText (s : Str) (p : PS) (nm an : Str) (as : List (Str × Str)) (acc : Str) (h : isAttrText s = true) :
    run (escAttr s) { p with st := .attrVal nm as an '"' acc } = { p with st := .attrVal nm as an '"' (acc ++ s) } := by
  induction s generalizing acc with
  | nil => simp [run, escAttr]
  | cons c cs ih =>
    simp only [isAttrText, List.all_cons, Bool.and_eq_true] at h
    have : escAttr (c :: cs) = escAttrChar c ++ escAttr cs := by simp [escAttr]
    rw [this, run_append, run_attrChar c p nm an as acc (by simp only [Bool.and_eq_true]; exact h.1), ih]
    · simp
    · simp only [isAttrText, List.all_eq_true, Bool.and_eq_true] at h ⊢
      exact h.2

/-- One attribute. -/
theorem run_attr {nm : Str} {as : List (Str × Str)} {st : PSt} (h : TagSt nm as st) (p : PS) (a : Attr)
    (hn : NameLike a.name.raw) (hv : isAttrText a.value = true) :
    run (emitAttr a) { p with st := st } = { p with st := .afterVal nm (as ++ [(a.name.raw, a.value)]) } := by
  have e : emitAttr a = (c!" " ++ a.name.raw ++ c!"=\"") ++ (escAttr a.value ++ c!"\"") := by
    simp [emitAttr, qname_eq, List.append_assoc]
  rw [e, run_append, run_attrStart h p hn, run_append, run_attrText _ _ _ _ _ _ hv]
  rfl

/-- One namespace declaration, as an attribute. -/
def declAttr (d : Str × Str) : Str × Str :=
  if d.1 = [] then (c!"xmlns", d.2) else (c!"xmlns:" ++ d.1, d.2)

theorem run_decl {nm : Str} {as : List (Str × Str)} {st : PSt} (h : TagSt nm as st) (p : PS) (d : Str × Str)
    (hp : d.1 = [] ∨ isNCName d.1 = true) (hu : isUri d.2 = true) :
    run (emitDecl d) { p with st := st } = { p with st := .afterVal nm (as ++ [declAttr d]) } := by
  obtain ⟨q, u⟩ := d
  dsimp only at hp hu
  simp only [isUri, Bool.and_eq_true, Bool.not_eq_true', List.isEmpty_eq_false_iff, List.all_eq_true] at hu
  have fin : ∀ an : Str, NameLike an → run ((c!" " ++ an ++ c!"=\"") ++ (u ++ c!"\"")) { p with st := st }
      = { p with st := .afterVal nm (as ++ [(an, u)]) } := by
    intro an hn
    rw [run_append, run_attrStart h p hn, run_append, run_attrPlain _ _ _ _ _ _ (fun c hc => by
      have := hu.2 c hc; simp only [Bool.and_eq_true, Bool.not_eq_true'] at this ⊢; exact this)]
    rfl
  by_cases hq : q = []
  · subst hq
    have e : emitDecl ([], u) = (c!" " ++ c!"xmlns" ++ c!"=\"") ++ (u ++ c!"\"") := by
      simp [emitDecl, hu.1]
    rw [e, fin _ (ncName_like (by decide))]; rfl
  · have hn : isNCName q = true := by rcases hp with h | h; exact absurd h hq; exact h
    have e : emitDecl (q, u) = (c!" " ++ (c!"xmlns:" ++ q) ++ c!"=\"") ++ (u ++ c!"\"") := by
      simp [emitDecl, hq]
    rw [e, fin (c!"xmlns:" ++ q) (prefixed_like (p := c!"xmlns") (by decide) hn)]
    simp [declAttr, hq]

/-! ### Text -/

theorem run_textChar (c : Char) (p : PS) (hs : p.stack ≠ []) (h : (isDocChar c && c != '\r') = true) :
    run (escChar c) { p with st := .text } = { p with st := .text, buf := p.buf ++ [c] } := by
  simp only [Bool.and_eq_true, bne_iff_ne] at h
  have hst : p.stack.isEmpty = false := by simpa using hs
  have push : ∀ (c : Char), PS.pushText { p with st := .text } c = { p with st := .text, buf := p.buf ++ [c] } := by
    intro c; simp [PS.pushText, hst]
  unfold escChar
  by_cases a1 : c = '<'
  · subst a1; exact push '<'
  by_cases a2 : c = '>'
  · subst a2; exact push '>'
  by_cases a3 : c = '&'
  · subst a3; exact push '&'
  rw [if_neg a1, if_neg a2, if_neg a3]
  rw [run_cons, run_nil]
  simp only [PS.step]
  rw [if_neg a1, if_neg a3, isXmlChar_eq, if_pos h.1, if_neg h.2]
  exact push c

theorem run_text (s : Str) (p : PS) (hs : p.stack ≠ []) (h : isText s = true) :
    run (escText s) { p with st := .text } = { p with st := .text, buf := p.buf ++ s } := by
  induction s generalizing p with
  | nil => simp [run, escText]
  | cons c cs ih =>
    simp only [isText, List.all_cons, Bool.and_eq_true] at h
    have : escText (c :: cs) = escChar c ++ escText cs := by simp [escText]
    rw [this, run_append, run_textChar c p hs (by simp only [Bool.and_eq_true]; exact h.1)]
    have := ih { p with buf := p.buf ++ [c] } hs (by simp only [isText, List.all_eq_true, Bool.and_eq_true] at h ⊢; exact h.2)
    rw [this]
    simp

/-- White space between tags. -/
theorem run_space (s : Str) (p : PS) (h : ∀ c ∈ s, isXmlSpace c = true) :
    ∃ w, (∀ c ∈ w, isXmlSpace c = true) ∧ run s { p with st := .text } = { p with st := .text, buf := p.buf ++ w } := by
  induction s generalizing p with
  | nil => exact ⟨[], by simp, by simp [run]⟩
  | cons c cs ih =>
    have hc := h c (by simp)
    have hnc : ∀ d : Char, isXmlSpace d = false → c ≠ d := by
      rintro d hd rfl; rw [hc] at hd; cases hd
    have hx : isXmlChar c = true := by
      simp only [isXmlSpace, Bool.or_eq_true, beq_iff_eq] at hc
      rcases hc with ((rfl | rfl) | rfl) | rfl <;> decide
    have hw : isXmlSpace (if c = '\r' then '\n' else c) = true := by
      split
      · decide
      · exact hc
    have e : PS.step { p with st := .text } c = { p with st := .text, buf := p.buf ++ [if c = '\r' then '\n' else c] } := by
      simp only [PS.step]
      rw [if_neg (hnc _ (by decide)), if_neg (hnc _ (by decide)), if_pos hx, PS.pushText, isWs_eq, hw]
      simp
    obtain ⟨w, h1, h2⟩ := ih { p with buf := p.buf ++ [if c = '\r' then '\n' else c] } (fun d hd => h d (by simp [hd]))
    refine ⟨(if c = '\r' then '\n' else c) :: w, ?_, ?_⟩
    · intro d hd
      rcases List.mem_cons.mp hd with rfl | hd
      · exact hw
      · exact h1 d hd
    · rw [run_cons, e]
      have := h2
      dsimp only at this
      rw [this]
      simp

theorem dropWhile_all {w : Str} (h : ∀ c ∈ w, isXmlSpace c = true) : w.dropWhile isXmlSpace = [] := by
  induction w with
  | nil => rfl
  | cons c cs ih =>
    rw [List.dropWhile_cons, if_pos (h c (by simp))]
    exact ih fun d hd => h d (by simp [hd])

theorem trim_append_space (s w : Str) (h : ∀ c ∈ w, isXmlSpace c = true) : trimSpace (s ++ w) = trimSpace s := by
  have hw : ∀ t : Str, (w.reverse ++ t).dropWhile isXmlSpace = t.dropWhile isXmlSpace := by
    intro t
    rw [List.dropWhile_append]
    have : w.reverse.dropWhile isXmlSpace = [] := dropWhile_all fun x hx => h x (by simpa using hx)
    simp [this]
  unfold trimSpace
  rw [List.dropWhile_append]
  split
  · rename_i he
    have he' : s.dropWhile isXmlSpace = [] := by simpa using he
    have : w.dropWhile isXmlSpace = [] := dropWhile_all h
    rw [he', this]
  · rw [List.reverse_append, hw]

/-! ### CDATA -/

/-- Number of `]` at the end. -/
def brackets (s : Str) : Nat := (s.reverse.takeWhile (· == ']')).length

theorem brackets_snoc (s : Str) : brackets (s ++ [']']) = brackets s + 1 := by
  simp [brackets]

theorem brackets_other (s : Str) {c : Char} (h : c ≠ ']') : brackets (s ++ [c]) = 0 := by
  simp [brackets, h]

theorem two_brackets {s : Str} (h : 2 ≤ brackets s) : ∃ t, s = t ++ c!"]]" := by
  rcases List.eq_nil_or_concat s with rfl | ⟨s, a, rfl⟩
  · simp [brackets] at h
  · rw [List.concat_eq_append] at h ⊢
    by_cases ha : a = ']'
    · subst ha
      rw [brackets_snoc] at h
      rcases List.eq_nil_or_concat s with rfl | ⟨s, a, rfl⟩
      · simp [brackets] at h
      · rw [List.concat_eq_append] at h ⊢
        by_cases ha : a = ']'
        · subst ha; exact ⟨s, by simp⟩
        · rw [brackets_other _ ha] at h; omega
    · rw [brackets_other _ ha] at h; omega

theorem run_cdataText (s : Str) (p : PS) (done : Str) (h : isText s = true) (hc : ¬ c!"]]>" <:+: done ++ s) :
    run s { p with st := .cdata (brackets done), buf := p.buf ++ done }
      = { p with st := .cdata (brackets (done ++ s)), buf := p.buf ++ (done ++ s) } := by
  induction s generalizing done with
  | nil => simp [run]
  | cons c cs ih =>
    simp only [isText, List.all_cons, Bool.and_eq_true, bne_iff_ne] at h
    obtain ⟨⟨h1, h2⟩, h3⟩ := h
    have e : PS.step { p with st := .cdata (brackets done), buf := p.buf ++ done } c
        = { p with st := .cdata (brackets (done ++ [c])), buf := p.buf ++ (done ++ [c]) } := by
      simp only [PS.step]
      by_cases a : c = ']'
      · subst a
        rw [if_pos rfl, brackets_snoc]
        simp
      · rw [if_neg a, brackets_other _ a]
        have : (c = '>' && decide (2 ≤ brackets done)) = false := by
          by_cases hg : c = '>'
          · subst hg
            by_cases hb : 2 ≤ brackets done
            · obtain ⟨t, rfl⟩ := two_brackets hb
              exact absurd ⟨t, cs, by simp⟩ hc
            · simp [hb]
          · simp [hg]
        rw [this, isXmlChar_eq, if_neg (by simp), if_pos h1, if_neg h2]
        simp
    rw [run_cons, e, ih (done ++ [c]) h3 (by simpa using hc)]
    simp

theorem step_bang (p : PS) (acc : Str) (c : Char) (h1 : acc ++ [c] ≠ c!"--") (h2 : acc ++ [c] ≠ c!"[CDATA[")
    (h3 : (acc ++ [c]).isPrefixOf c!"[CDATA[" = true) :
    PS.step { p with st := .bang acc } c = { p with st := .bang (acc ++ [c]) } := by
  simp only [PS.step]
  rw [if_neg h1, if_neg h2, h3]
  simp

theorem run_cdataStart (p : PS) (hs : p.stack ≠ []) :
    run c!"<![CDATA[" { p with st := .text } = { p with st := .cdata 0 } := by
  have hst : p.stack.isEmpty = false := by simpa using hs
  have e1 : PS.step { p with st := .text } '<' = { p with st := .lt } := rfl
  have e2 : PS.step { p with st := .lt } '!' = { p with st := .bang [] } := by
    simp only [PS.step]; rw [if_neg (by decide), if_pos (by decide)]
  have e3 := step_bang p [] '[' (by decide) (by decide) (by decide)
  have e4 := step_bang p c!"[" 'C' (by decide) (by decide) (by decide)
  have e5 := step_bang p c!"[C" 'D' (by decide) (by decide) (by decide)
  have e6 := step_bang p c!"[CD" 'A' (by decide) (by decide) (by decide)
  have e7 := step_bang p c!"[CDA" 'T' (by decide) (by decide) (by decide)
  have e8 := step_bang p c!"[CDAT" 'A' (by decide) (by decide) (by decide)
  have e9 : PS.step { p with st := .bang c!"[CDATA" } '[' = { p with st := .cdata 0 } := by
    simp only [PS.step]
    rw [if_neg (by decide), if_pos (by decide), hst, if_neg (by decide)]
  simp only [List.nil_append, List.cons_append] at e3 e4 e5 e6 e7 e8
  rw [run_cons, e1, run_cons, e2, run_cons, e3, run_cons, e4, run_cons, e5, run_cons, e6, run_cons, e7, run_cons, e8,
    run_cons, e9, run_nil]

theorem run_cdata (s : Str) (p : PS) (hs : p.stack ≠ []) (h : isCdata s) :
    run (c!"<![CDATA[" ++ s ++ c!"]]>") { p with st := .text } = { p with st := .text, buf := p.buf ++ s } := by
  rw [List.append_assoc, run_append, run_append, run_cdataStart p hs]
  have e2 := run_cdataText s p [] h.1 (by simpa using h.2)
  simp only [List.nil_append, List.append_nil] at e2
  have hb : brackets [] = 0 := rfl
  rw [hb] at e2
  rw [e2]
  have e3 : ∀ (b : Str) (n : Nat), PS.step { p with st := .cdata n, buf := b } ']'
      = { p with st := .cdata (n + 1), buf := b ++ [']'] } := by
    intro b n; simp only [PS.step]; rw [if_pos (by decide)]
  have e4 : ∀ (b : Str) (n : Nat), PS.step { p with st := .cdata (n + 1 + 1), buf := b ++ [']'] ++ [']'] } '>'
      = { p with st := .text, buf := b } := by
    intro b n
    simp only [PS.step]
    rw [if_neg (by decide), if_pos (by simp)]
    simp
  rw [run_cons, e3, run_cons, e3, run_cons, e4, run_nil]

end XmlText
end Yaserde
