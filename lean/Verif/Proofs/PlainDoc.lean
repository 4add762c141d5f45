import Verif.Spec.Stable
import Verif.Proofs.XmlText
/-
Lemmas: the parser of `Model/XmlText.lean` delivers trimmed texts, and attribute values without carriage returns and tabs,
for documents without numeric character references.
-/

set_option autoImplicit false

namespace Yaserde
namespace XmlText

/-- `REv.PlainText` without the condition about numbers. -/
def EvPlain : REv → Prop
  | .chars s => CleanText s
  | .start _ as _ => ∀ a ∈ as, isAttrText a.value = true
  | _ => True

/-- The reference that is being read does not stand for a tab or carriage return. -/
def RefPlain (acc rest : Str) : Prop :=
  ∀ more post, rest = more ++ ';' :: post → resolveRef (acc ++ more) ≠ some '\t' ∧ resolveRef (acc ++ more) ≠ some '\r'

def ValsOk (as : List (Str × Str)) : Prop := ∀ a ∈ as, isAttrText a.2 = true

def StPlain (rest : Str) : PSt → Prop
  | .ref acc => RefPlain acc rest
  | .inTag _ as => ValsOk as
  | .attrName _ as _ => ValsOk as
  | .attrEq _ as _ => ValsOk as
  | .attrQuote _ as _ => ValsOk as
  | .attrVal _ as _ _ acc => ValsOk as ∧ isAttrText acc = true
  | .attrRef _ as _ _ acc racc => ValsOk as ∧ isAttrText acc = true ∧ RefPlain racc rest
  | .afterVal _ as => ValsOk as
  | .slash _ as => ValsOk as
  | _ => True

structure Plain (p : PS) (rest : Str) : Prop where
  evs : ∀ e ∈ p.evs, EvPlain e
  buf : isText p.buf = true
  st : StPlain rest p.st

theorem isText_snoc (s : Str) (c : Char) : isText (s ++ [c]) = (isText s && (isDocChar c && c != '\r')) := by
  simp [isText, List.all_append]

theorem isAttrText_snoc (s : Str) (c : Char) :
    isAttrText (s ++ [c]) = (isAttrText s && (isDocChar c && c != '\r' && c != '\t')) := by
  simp [isAttrText, List.all_append]

theorem numRef_doc {n : Option Nat} {r : Char} (h : numRef n = some r) : isDocChar r = true := by
  unfold numRef at h
  split at h
  · split at h
    · split at h
      · rename_i hx
        cases h
        rwa [isXmlChar_eq] at hx
      · cases h
    · cases h
  · cases h

theorem resolve_doc {acc : Str} {r : Char} (hr : resolveRef acc = some r) : isDocChar r = true := by
  unfold resolveRef at hr
  split at hr
  · cases hr; decide
  split at hr
  · cases hr; decide
  split at hr
  · cases hr; decide
  split at hr
  · cases hr; decide
  split at hr
  · cases hr; decide
  split at hr
  · split at hr
    · cases hr
    · exact numRef_doc hr
  · split at hr
    · cases hr
    · exact numRef_doc hr
  · cases hr

theorem resolve_plain {acc : Str} {r : Char} {rest : Str} (h : RefPlain acc (';' :: rest)) (hr : resolveRef acc = some r) :
    (isDocChar r && r != '\r' && r != '\t') = true := by
  have := h [] rest rfl
  rw [List.append_nil, hr] at this
  simp only [ne_eq, Option.some.injEq] at this
  simp [resolve_doc hr, this.1, this.2]

theorem resolve_text {acc : Str} {r : Char} {rest : Str} (h : RefPlain acc (';' :: rest)) (hr : resolveRef acc = some r) :
    (isDocChar r && r != '\r') = true := by
  have := resolve_plain h hr
  simp only [Bool.and_eq_true] at this ⊢
  exact this.1

theorem mem_trim {s : Str} {c : Char} (h : c ∈ trimSpace s) : c ∈ s := by
  unfold trimSpace at h
  rw [List.mem_reverse] at h
  have h1 := (List.dropWhile_sublist isXmlSpace).subset h
  rw [List.mem_reverse] at h1
  exact (List.dropWhile_sublist isXmlSpace).subset h1

theorem isText_trim {s : Str} (h : isText s = true) : isText (trimSpace s) = true := by
  unfold isText at *
  rw [List.all_eq_true] at *
  exact fun c hc => h c (mem_trim hc)

theorem dropWhile_head {p : Char → Bool} : ∀ {s : Str} {c : Char}, (s.dropWhile p).head? = some c → p c = false
  | [], c, h => by simp at h
  | a :: s, c, h => by
    rw [List.dropWhile_cons] at h
    split at h
    · exact dropWhile_head h
    · rename_i hp
      simp only [List.head?_cons, Option.some.injEq] at h
      subst h
      simpa using hp

theorem dropWhile_id {p : Char → Bool} {s : Str} (h : ∀ c, s.head? = some c → p c = false) : s.dropWhile p = s := by
  cases s with
  | nil => rfl
  | cons a s =>
    rw [List.dropWhile_cons, h a rfl]
    rfl

/-- Trimming leaves a text that does not begin with white space. -/
theorem trim_head {s : Str} {c : Char} (h : (trimSpace s).head? = some c) : isXmlSpace c = false := by
  -- the part dropped at the end does not contain the first character, unless nothing is left
  unfold trimSpace at h
  cases hs : s.dropWhile isXmlSpace with
  | nil => rw [hs] at h; simp at h
  | cons a t =>
    have ha : isXmlSpace a = false := dropWhile_head (by rw [hs]; rfl)
    rw [hs] at h
    have key : ∀ (u : Str), ((u ++ [a]).dropWhile isXmlSpace).reverse.head? = some a := by
      intro u
      induction u with
      | nil => simp [ha]
      | cons b u ih =>
        rw [List.cons_append, List.dropWhile_cons]
        split
        · exact ih
        · simp
    rw [List.reverse_cons, key] at h
    cases h
    exact ha

theorem trim_trim (s : Str) : trimSpace (trimSpace s) = trimSpace s := by
  have h1 : (trimSpace s).dropWhile isXmlSpace = trimSpace s := dropWhile_id fun c hc => trim_head hc
  rw [show trimSpace (trimSpace s) = (((trimSpace s).dropWhile isXmlSpace).reverse.dropWhile isXmlSpace).reverse from rfl, h1]
  have h2 : (trimSpace s).reverse.dropWhile isXmlSpace = (trimSpace s).reverse := by
    refine dropWhile_id fun c hc => ?_
    unfold trimSpace at hc
    rw [List.reverse_reverse] at hc
    exact dropWhile_head hc
  rw [h2, List.reverse_reverse]

theorem Plain.flush {p : PS} {rest : Str} (h : Plain p rest) : Plain p.flush rest := by
  refine ⟨?_, rfl, h.st⟩
  unfold PS.flush
  dsimp only
  split
  · exact h.evs
  · rename_i hne
    intro e he
    rcases List.mem_append.mp he with he | he
    · exact h.evs e he
    · simp only [List.mem_singleton] at he
      subst he
      exact ⟨isText_trim h.buf, trim_trim _, by simpa using hne⟩

theorem Plain.st' {p : PS} {rest rest' : Str} (h : Plain p rest) (st : PSt) (hs : StPlain rest' st) :
    Plain { p with st := st } rest' := ⟨h.evs, h.buf, hs⟩

theorem Plain.fail {p : PS} {rest : Str} (rest' : Str) (h : Plain p rest) (m : Str) : Plain (p.fail m) rest' :=
  ⟨h.evs, h.buf, trivial⟩

theorem resolveAttrs_vals {scope : NsMap} : ∀ {as : List (Str × Str)} {bs : List Attr}, ValsOk as →
    resolveAttrs scope as = some bs → ∀ b ∈ bs, isAttrText b.value = true
  | [], bs, _, h => by
    simp only [resolveAttrs, Option.some.injEq] at h
    subst h
    simp
  | a :: as, bs, hv, h => by
    simp only [resolveAttrs] at h
    split at h
    · rename_i n rest _ hr
      simp only [Option.some.injEq] at h
      subst h
      intro b hb
      rcases List.mem_cons.mp hb with rfl | hb
      · exact hv a (by simp)
      · exact resolveAttrs_vals (fun x hx => hv x (by simp [hx])) hr b hb
    · cases h

theorem Plain.openElem {p : PS} {rest : Str} (rest' : Str) (h : Plain p rest) (nm : Str) {as : List (Str × Str)}
    (hv : ValsOk as) (b : Bool) : Plain (p.openElem nm as b) rest' := by
  unfold PS.openElem
  split
  · exact h.fail rest' _
  · dsimp only
    split
    · rename_i n bs _ hb
      have hbs := resolveAttrs_vals (fun x hx => hv x (List.mem_filter.mp hx).1) hb
      have hev : ∀ e ∈ p.evs ++ [REv.start n bs (newScope (match p.stack with | (_, s) :: _ => s | [] => [])
          (as.filterMap declOf))], EvPlain e := by
        intro e he
        rcases List.mem_append.mp he with he | he
        · exact h.evs e he
        · simp only [List.mem_singleton] at he
          subst he
          exact hbs
      split
      · refine ⟨?_, h.buf, trivial⟩
        intro e he
        rcases List.mem_append.mp he with he | he
        · exact hev e he
        · simp only [List.mem_singleton] at he
          subst he
          trivial
      · exact ⟨hev, h.buf, trivial⟩
    · exact h.fail rest' _
    · exact h.fail rest' _

theorem Plain.closeElem {p : PS} {rest : Str} (rest' : Str) (h : Plain p rest) (nm : Str) :
    Plain (p.closeElem nm) rest' := by
  unfold PS.closeElem
  split
  · split
    · split
      · refine ⟨?_, h.buf, trivial⟩
        intro e he
        rcases List.mem_append.mp he with he | he
        · exact h.evs e he
        · simp only [List.mem_singleton] at he
          subst he
          trivial
      · exact h.fail rest' _
    · exact h.fail rest' _
  · exact h.fail rest' _

theorem Plain.pushText {p : PS} {rest : Str} (h : Plain p rest) {c : Char} (hc : (isDocChar c && c != '\r') = true) :
    Plain (p.pushText c) rest := by
  unfold PS.pushText
  split
  · exact h.fail rest _
  · refine ⟨h.evs, ?_, h.st⟩
    dsimp only
    rw [isText_snoc, h.buf, hc]
    rfl

theorem norm_text {c : Char} (h : isXmlChar c = true) :
    (isDocChar (if c = '\r' then '\n' else c) && (if c = '\r' then '\n' else c) != '\r') = true := by
  split
  · decide
  · rename_i hc
    rw [isXmlChar_eq] at h
    simp [h, hc]

theorem norm_attr {c : Char} (h : isXmlChar c = true) :
    (isDocChar (if isWs c then ' ' else c) && (if isWs c then ' ' else c) != '\r' && (if isWs c then ' ' else c) != '\t') =
      true := by
  split
  · decide
  · rename_i hc
    rw [isXmlChar_eq] at h
    simp only [isWs, Bool.or_eq_true, not_or, beq_iff_eq] at hc
    simp [h, hc.2, hc.1.1.2]

theorem refPlain_snoc {acc : Str} {c : Char} {rest : Str} (h : RefPlain acc (c :: rest)) : RefPlain (acc ++ [c]) rest := by
  intro more post e
  have := h (c :: more) post (by rw [e]; rfl)
  simpa using this

theorem refPlain_nil {rest : Str} (hno : NoBlankRefs ('&' :: rest)) : RefPlain [] rest := by
  intro more post e
  refine hno more ⟨[], post, ?_⟩
  rw [e]
  simp

theorem valsOk_snoc {as : List (Str × Str)} {an acc : Str} (h : ValsOk as) (ha : isAttrText acc = true) :
    ValsOk (as ++ [(an, acc)]) := by
  intro a hmem
  rcases List.mem_append.mp hmem with hm | hm
  · exact h a hm
  · simp only [List.mem_singleton] at hm
    subst hm
    exact ha

theorem isText_take {s : Str} (n : Nat) (h : isText s = true) : isText (s.take n) = true := by
  unfold isText at *
  rw [List.all_eq_true] at *
  exact fun c hc => h c (List.mem_of_mem_take hc)

theorem Plain.step {p : PS} {c : Char} {rest : Str} (h : Plain p (c :: rest)) (hno : NoBlankRefs (c :: rest)) :
    Plain (p.step c) rest := by
  have hst := h.st
  have hp : ∀ st, StPlain rest st → Plain { p with st := st } rest := fun st hs => h.st' st hs
  have hfl : ∀ st, StPlain rest st → Plain { p.flush with st := st } rest := fun st hs => h.flush.st' st hs
  have hf : ∀ m, Plain (p.fail m) rest := fun m => h.fail rest m
  unfold PS.step
  split <;> rename_i hs <;> rw [hs] at hst
  · exact ⟨h.evs, h.buf, by rw [hs]; trivial⟩
  · -- text
    have hp0 : Plain p rest := ⟨h.evs, h.buf, by rw [hs]; trivial⟩
    split
    · exact hp _ trivial
    · split
      · rename_i hc
        subst hc
        exact hp _ (refPlain_nil hno)
      · split
        · rename_i hx
          exact hp0.pushText (norm_text hx)
        · exact hf _
  · -- ref
    rename_i acc
    split
    · rename_i hc
      subst hc
      split
      · rename_i r hr
        exact (hp .text trivial).pushText (resolve_text hst hr)
      · exact hf _
    · exact hp _ (refPlain_snoc hst)
  · -- lt
    split
    · exact hfl _ trivial
    · split
      · exact hp _ trivial
      · split
        · exact hfl _ trivial
        · split
          · exact hfl _ trivial
          · exact hf _
  · -- openName
    split
    · exact hp _ trivial
    · split
      · exact hp _ (by intro a ha; simp at ha)
      · split
        · exact h.openElem rest _ (by intro a ha; simp at ha) _
        · split
          · exact hp _ (by intro a ha; simp at ha)
          · exact hf _
  · -- inTag
    split
    · exact ⟨h.evs, h.buf, by rw [hs]; exact hst⟩
    · split
      · exact h.openElem rest _ hst _
      · split
        · exact hp _ hst
        · split
          · exact hp _ hst
          · exact hf _
  · -- attrName
    split
    · exact hp _ hst
    · split
      · exact hp _ hst
      · split
        · exact hp _ hst
        · exact hf _
  · -- attrEq
    split
    · exact ⟨h.evs, h.buf, by rw [hs]; exact hst⟩
    · split
      · exact hp _ hst
      · exact hf _
  · -- attrQuote
    split
    · exact ⟨h.evs, h.buf, by rw [hs]; exact hst⟩
    · split
      · exact hp _ ⟨hst, rfl⟩
      · exact hf _
  · -- attrVal
    split
    · exact hp _ (valsOk_snoc hst.1 hst.2)
    · split
      · rename_i hc
        subst hc
        exact hp _ ⟨hst.1, hst.2, refPlain_nil hno⟩
      · split
        · exact hf _
        · split
          · rename_i hx
            refine hp _ ⟨hst.1, ?_⟩
            rw [isAttrText_snoc, hst.2, norm_attr hx]
            rfl
          · exact hf _
  · -- attrRef
    split
    · rename_i hc
      subst hc
      split
      · rename_i r hr
        refine hp _ ⟨hst.1, ?_⟩
        rw [isAttrText_snoc, hst.2.1, resolve_plain hst.2.2 hr]
        rfl
      · exact hf _
    · exact hp _ ⟨hst.1, hst.2.1, refPlain_snoc hst.2.2⟩
  · -- afterVal
    split
    · exact hp _ hst
    · split
      · exact h.openElem rest _ hst _
      · split
        · exact hp _ hst
        · exact hf _
  · -- slash
    split
    · exact h.openElem rest _ hst _
    · exact hf _
  · -- closeName
    split
    · exact hp _ trivial
    · split
      · exact h.closeElem rest _
      · split
        · exact hp _ trivial
        · exact hf _
  · -- closeWs
    split
    · exact ⟨h.evs, h.buf, by rw [hs]; trivial⟩
    · split
      · exact h.closeElem rest _
      · exact hf _
  · -- bang
    dsimp only
    split
    · exact hp _ trivial
    · split
      · split
        · exact hf _
        · exact hp _ trivial
      · split
        · exact hp _ trivial
        · exact hf _
  · -- comment
    split
    · exact hp _ trivial
    · split
      · exact hp _ trivial
      · exact hp _ trivial
  · -- cdata
    split
    · rename_i hc
      subst hc
      refine ⟨h.evs, ?_, trivial⟩
      dsimp only
      rw [isText_snoc, h.buf]
      decide
    · split
      · exact ⟨h.evs, isText_take _ h.buf, trivial⟩
      · split
        · rename_i hx
          refine ⟨h.evs, ?_, trivial⟩
          dsimp only
          rw [isText_snoc, h.buf, norm_text hx]
          rfl
        · exact hf _
  · -- pi
    split
    · exact hp _ trivial
    · exact hp _ trivial

theorem Plain.run : ∀ (s : Str) (p : PS), Plain p s → NoBlankRefs s → Plain (s.foldl PS.step p) []
  | [], _, h, _ => h
  | c :: s, p, h, hno => Plain.run s (p.step c) (h.step hno) fun n hi => hno n (hi.trans (List.suffix_cons c s).isInfix)

theorem parse_evPlain {s : Str} (hno : NoBlankRefs s) : ∀ e ∈ (parse s).evs, EvPlain e := by
  have h := Plain.run s {} ⟨by simp, rfl, trivial⟩ hno
  unfold parse
  have key : ∀ (x : Option Str), ∀ e ∈ (Src.mk (.startDocument :: (s.foldl PS.step {}).evs) x).evs, EvPlain e := by
    intro x e he
    rcases List.mem_cons.mp he with rfl | he
    · trivial
    · exact h.evs e he
  unfold PS.finish
  split
  · exact key _
  · split
    · exact key _
    · split
      · exact key _
      · exact key _
  · exact key _

end XmlText

/-- … in particular if there are no numeric references. -/
theorem noBlankRefs_of_none {s : Str} (h : ¬ c!"&#" <:+: s) : NoBlankRefs s := by
  intro name hi
  have key : ∀ c, XmlText.resolveRef name = some c → (c = '\t' ∨ c = '\r') → False := by
    intro c hc hor
    unfold XmlText.resolveRef at hc
    split at hc
    · cases hc; simp at hor
    split at hc
    · cases hc; simp at hor
    split at hc
    · cases hc; simp at hor
    split at hc
    · cases hc; simp at hor
    split at hc
    · cases hc; simp at hor
    split at hc
    · rename_i ds _ _ _ _ _
      exact h (.trans ⟨[], 'x' :: ds ++ c!";", by simp⟩ hi)
    · rename_i ds _ _ _ _ _ _
      exact h (.trans ⟨[], ds ++ c!";", by simp⟩ hi)
    · cases hc
  exact ⟨fun e => key _ e (.inl rfl), fun e => key _ e (.inr rfl)⟩

theorem plainDoc_of_parse {L : Lib} (hL : L.parse = XmlText.parse) (hf : ∀ t, FloatsOk L t) {s : Str}
    (hno : NoBlankRefs s) : PlainDoc L s := by
  refine ⟨fun e he => ?_, hf []⟩
  rw [hL] at he
  have h := XmlText.parse_evPlain hno e he
  cases e with
  | chars t => exact ⟨h, hf t⟩
  | start n as nss => exact fun a ha => ⟨h a ha, hf a.value⟩
  | startDocument => trivial
  | endDocument => trivial
  | endE n => trivial
  | pi a b => trivial
  | comment c => trivial
  | _ => trivial

end Yaserde
