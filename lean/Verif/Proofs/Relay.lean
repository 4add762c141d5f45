import Verif.Proofs.PlainDoc
/-
Lemmas: documents without number signs, and those made of their events.
-/

set_option autoImplicit false

namespace Yaserde
namespace XmlText

/-! ### Emitter -/

/-- No number sign. -/
def Nh (s : Str) : Prop := '#' ∉ s

instance (s : Str) : Decidable (Nh s) := inferInstanceAs (Decidable (¬ _))

theorem nh_append {s t : Str} : Nh (s ++ t) ↔ Nh s ∧ Nh t := by simp [Nh]
theorem nh_cons {c : Char} {s : Str} : Nh (c :: s) ↔ c ≠ '#' ∧ Nh s := by
  simp only [Nh, List.mem_cons, not_or, ne_eq]
  constructor <;> rintro ⟨h1, h2⟩ <;> exact ⟨fun e => h1 e.symm, h2⟩
theorem nh_nil : Nh [] := by simp [Nh]

theorem nh_flatMap {α : Type} {f : α → Str} {l : List α} (h : ∀ a ∈ l, Nh (f a)) : Nh (l.flatMap f) := by
  intro hc
  obtain ⟨a, ha, hc⟩ := List.mem_flatMap.mp hc
  exact h a ha hc

theorem nh_escText {s : Str} (h : Nh s) : Nh (escText s) := by
  refine nh_flatMap fun c hc => ?_
  unfold escChar
  split
  · decide
  split
  · decide
  split
  · decide
  · exact nh_cons.mpr ⟨fun e => h (e ▸ hc), nh_nil⟩

theorem nh_escAttr {s : Str} (h : Nh s) (hn : '\n' ∉ s) (hr : '\r' ∉ s) : Nh (escAttr s) := by
  refine nh_flatMap fun c hc => ?_
  unfold escAttrChar
  split
  · decide
  split
  · decide
  split
  · decide
  split
  · decide
  split
  · decide
  split
  · rename_i e; exact absurd (e ▸ hc) hn
  split
  · rename_i e; exact absurd (e ▸ hc) hr
  · exact nh_cons.mpr ⟨fun e => h (e ▸ hc), nh_nil⟩

theorem nh_decl {d : Str × Str} (h : '#' ∉ d.1 ∧ '#' ∉ d.2) : Nh (emitDecl d) := by
  have h0 : Nh c!" xmlns=\"" := by decide
  have h1 : Nh c!" xmlns:" := by decide
  have h2 : Nh c!"=\"" := by decide
  have h3 : Nh c!"\"" := by decide
  unfold emitDecl
  split
  · split
    · exact nh_nil
    · exact nh_append.mpr ⟨nh_append.mpr ⟨h0, h.2⟩, h3⟩
  · exact nh_append.mpr ⟨nh_append.mpr ⟨nh_append.mpr ⟨nh_append.mpr ⟨h1, h.1⟩, h2⟩, h.2⟩, h3⟩

/-- A written event. -/
def WEvOk (w : WEv) : Prop := ∃ e : REv, (∀ n as nss, e = .start n as nss → ∀ a ∈ as, '\r' ∉ a.value) ∧ e.NoHash ∧
  e.asWriterEvent = some w

structure EmOk (e : Em) : Prop where
  out : Nh e.out
  opened : ∀ n ∈ e.opened, Nh n

theorem EmOk.add {e : Em} (h : EmOk e) {s : Str} (hs : Nh s) : EmOk (e.add s) := ⟨nh_append.mpr ⟨h.out, hs⟩, h.opened⟩

theorem EmOk.setFlag {e : Em} (h : EmOk e) (f : Flag) : EmOk (e.setFlag f) := by
  unfold Em.setFlag
  split
  · exact ⟨h.out, h.opened⟩
  · exact h

theorem EmOk.checkStarted {e : Em} (h : EmOk e) : EmOk (e.checkStarted unusedCfg) := by
  unfold Em.checkStarted
  split
  · exact h
  · exact (EmOk.add (e := { e with started := true }) ⟨h.out, h.opened⟩ (by decide)).setFlag _

theorem EmOk.fix {e : Em} (h : EmOk e) : EmOk e.fix := by
  unfold Em.fix
  split
  · have := h.add (s := c!">") (by decide)
    exact ⟨this.out, this.opened⟩
  · exact h

theorem EmOk.step {e : Em} (h : EmOk e) {w : WEv} (hw : WEvOk w) : EmOk (e.step unusedCfg w) := by
  obtain ⟨r, hcr, hr, hw⟩ := hw
  have h1 : Nh c!"<" := by decide
  cases r with
  | start n as nss =>
    simp only [REv.asWriterEvent, Option.some.injEq] at hw
    subst hw
    obtain ⟨a1, a2, a3⟩ := hr
    have h2 := h.checkStarted.fix
    have hq : Nh (qname n) := by rw [qname_eq]; exact a1
    refine ⟨?_, ?_⟩
    · unfold Em.step Em.beforeMarkup
      dsimp only [unusedCfg]
      refine nh_append.mpr ⟨h2.out, nh_append.mpr ⟨nh_append.mpr ⟨nh_append.mpr ⟨h1, hq⟩, ?_⟩, ?_⟩⟩
      · exact nh_flatMap fun d hd => nh_decl (a3 d (List.mem_filter.mp hd).1)
      · refine nh_flatMap fun a ha => ?_
        have ha' := a2 a ha
        unfold emitAttr
        have hn : Nh (qname a.name) := by rw [qname_eq]; exact ha'.1
        have he := nh_escAttr ha'.2.1 ha'.2.2 (hcr n as nss rfl a ha)
        have s0 : Nh c!" " := by decide
        have s1 : Nh c!"=\"" := by decide
        have s2 : Nh c!"\"" := by decide
        exact nh_append.mpr ⟨nh_append.mpr ⟨nh_append.mpr ⟨nh_append.mpr ⟨s0, hn⟩, s1⟩, he⟩, s2⟩
    · unfold Em.step Em.beforeMarkup
      dsimp only [unusedCfg]
      intro m hm
      rcases List.mem_cons.mp hm with rfl | hm
      · exact hq
      · exact h2.opened m hm
  | endE n =>
    simp only [REv.asWriterEvent, Option.some.injEq] at hw
    subst hw
    unfold Em.step
    dsimp only [unusedCfg]
    split
    · refine EmOk.setFlag ⟨nh_append.mpr ⟨h.out, by decide⟩, fun m hm => h.opened m (List.mem_of_mem_tail hm)⟩ _
    · refine EmOk.setFlag ⟨?_, fun m hm => h.opened m (List.mem_of_mem_tail hm)⟩ _
      have h3 : Nh (e.opened.headD []) := by
        cases ho : e.opened with
        | nil => exact nh_nil
        | cons a l => exact h.opened a (by rw [ho]; simp)
      have s1 : Nh c!"</" := by decide
      have s2 : Nh c!">" := by decide
      exact nh_append.mpr ⟨h.out, nh_append.mpr ⟨nh_append.mpr ⟨s1, h3⟩, s2⟩⟩
  | chars s =>
    simp only [REv.asWriterEvent, Option.some.injEq] at hw
    subst hw
    exact ((h.checkStarted.fix).add (nh_escText hr)).setFlag _
  | ws s =>
    simp only [REv.asWriterEvent, Option.some.injEq] at hw
    subst hw
    exact ((h.checkStarted.fix).add (nh_escText hr)).setFlag _
  | cdata s =>
    simp only [REv.asWriterEvent, Option.some.injEq] at hw
    subst hw
    have s1 : Nh c!"<![CDATA[" := by decide
    have s2 : Nh c!"]]>" := by decide
    exact ((h.fix).add (nh_append.mpr ⟨nh_append.mpr ⟨s1, hr⟩, s2⟩)).setFlag _
  | startDocument | comment _ | pi _ _ =>
    simp only [REv.asWriterEvent, Option.some.injEq] at hw
    subst hw
    exact h
  | endDocument => simp [REv.asWriterEvent] at hw

theorem nh_emit {out : List WEv} (h : ∀ w ∈ out, WEvOk w) : Nh (emit unusedCfg out) := by
  have key : ∀ (l : List WEv) (e : Em), EmOk e → (∀ w ∈ l, WEvOk w) → EmOk (l.foldl (Em.step unusedCfg) e) := by
    intro l
    induction l with
    | nil => exact fun e he _ => he
    | cons w l ih => exact fun e he hl => ih _ (he.step (hl w (by simp))) fun x hx => hl x (by simp [hx])
  exact (key out {} ⟨nh_nil, by simp⟩ h).out

/-! ### Parser -/

def AttrsNh (as : List (Str × Str)) : Prop := ∀ a ∈ as, Nh a.1 ∧ Nh a.2 ∧ '\n' ∉ a.2

def MapNh (m : NsMap) : Prop := ∀ d ∈ m, '#' ∉ d.1 ∧ '#' ∉ d.2

def StNh : PSt → Prop
  | .ref acc => Nh acc
  | .openName acc => Nh acc
  | .inTag nm as => Nh nm ∧ AttrsNh as
  | .attrName nm as an => Nh nm ∧ AttrsNh as ∧ Nh an
  | .attrEq nm as an => Nh nm ∧ AttrsNh as ∧ Nh an
  | .attrQuote nm as an => Nh nm ∧ AttrsNh as ∧ Nh an
  | .attrVal nm as an _ acc => Nh nm ∧ AttrsNh as ∧ Nh an ∧ Nh acc ∧ '\n' ∉ acc
  | .attrRef nm as an _ acc racc => Nh nm ∧ AttrsNh as ∧ Nh an ∧ Nh acc ∧ '\n' ∉ acc ∧ Nh racc
  | .afterVal nm as => Nh nm ∧ AttrsNh as
  | .slash nm as => Nh nm ∧ AttrsNh as
  | .closeName acc => Nh acc
  | .closeWs acc => Nh acc
  | _ => True

structure PNh (p : PS) : Prop where
  evs : ∀ e ∈ p.evs, e.NoHash
  stack : ∀ x ∈ p.stack, Nh x.1 ∧ MapNh x.2
  buf : Nh p.buf
  st : StNh p.st

theorem nh_snoc {s : Str} {c : Char} (h : Nh s) (hc : c ≠ '#') : Nh (s ++ [c]) :=
  nh_append.mpr ⟨h, nh_cons.mpr ⟨hc, nh_nil⟩⟩

theorem resolve_nh {acc : Str} {r : Char} (h : Nh acc) (hr : resolveRef acc = some r) : r ≠ '#' ∧ r ≠ '\n' := by
  unfold resolveRef at hr
  split at hr
  · cases hr; decide
  split at hr
  · cases hr; decide
  split at hr
  · cases hr; decide
  split at hr
  · cases hr; decide
  split at hr
  · cases hr; decide
  split at hr
  · exact absurd (List.mem_cons_self) h
  · exact absurd (List.mem_cons_self) h
  · cases hr

theorem nh_trim {s : Str} (h : Nh s) : Nh (trim s) := fun hc => h (mem_trim hc)

theorem nh_split {s a b : Str} (h : Nh s) (e : splitColon s = some (a, b)) : Nh a ∧ Nh b := by
  have hs := splitColon_some e
  rw [hs] at h
  exact ⟨(nh_append.mp (nh_append.mp h).1).1, (nh_append.mp h).2⟩

theorem PNh.flush {p : PS} (h : PNh p) : PNh p.flush := by
  refine ⟨?_, h.stack, nh_nil, h.st⟩
  unfold PS.flush
  dsimp only
  split
  · exact h.evs
  · intro e he
    rcases List.mem_append.mp he with he | he
    · exact h.evs e he
    · simp only [List.mem_singleton] at he
      subst he
      exact nh_trim h.buf

theorem PNh.fail {p : PS} (h : PNh p) (m : Str) : PNh (p.fail m) := ⟨h.evs, h.stack, h.buf, trivial⟩

theorem PNh.st' {p : PS} (h : PNh p) (st : PSt) (hs : StNh st) : PNh { p with st := st } := ⟨h.evs, h.stack, h.buf, hs⟩

theorem declOf_nh {a d : Str × Str} (h : Nh a.1 ∧ Nh a.2 ∧ '\n' ∉ a.2) (e : declOf a = some d) : '#' ∉ d.1 ∧ '#' ∉ d.2 := by
  unfold declOf at e
  split at e
  · cases e; exact ⟨nh_nil, h.2.1⟩
  · split at e
    · rename_i p l hs
      split at e
      · cases e; exact ⟨(nh_split h.1 hs).2, h.2.1⟩
      · cases e
    · cases e

theorem newScope_nh {outer ds : NsMap} (h1 : MapNh outer) (h2 : MapNh ds) : MapNh (newScope outer ds) := by
  intro d hd
  rcases List.mem_append.mp hd with hd | hd
  · exact h2 d hd
  · exact h1 d (List.mem_filter.mp hd).1

theorem resolveElem_nh {scope : NsMap} {raw : Str} {n : Name} (h : Nh raw) (e : resolveElem scope raw = some n) : '#' ∉ n.raw := by
  unfold resolveElem at e
  split at e
  · cases e
    exact h
  · rename_i p l hs
    split at e
    · cases e
      have := nh_split h hs
      have s1 : Nh c!":" := by decide
      rw [← qname_eq]
      exact nh_append.mpr ⟨nh_append.mpr ⟨this.1, s1⟩, this.2⟩
    · cases e

theorem resolveAttrName_nh {scope : NsMap} {raw : Str} {n : Name} (h : Nh raw) (e : resolveAttrName scope raw = some n) :
    '#' ∉ n.raw := by
  unfold resolveAttrName at e
  split at e
  · cases e
    exact h
  · rename_i p l hs
    have := nh_split h hs
    have s1 : Nh c!":" := by decide
    split at e
    · cases e
      rw [← qname_eq]
      exact nh_append.mpr ⟨nh_append.mpr ⟨this.1, s1⟩, this.2⟩
    · split at e
      · cases e
        rw [← qname_eq]
        exact nh_append.mpr ⟨nh_append.mpr ⟨this.1, s1⟩, this.2⟩
      · cases e

theorem resolveAttrs_nh {scope : NsMap} : ∀ {as : List (Str × Str)} {bs : List Attr}, AttrsNh as →
    resolveAttrs scope as = some bs → ∀ b ∈ bs, '#' ∉ b.name.raw ∧ '#' ∉ b.value ∧ '\n' ∉ b.value
  | [], bs, _, h => by
    simp only [resolveAttrs, Option.some.injEq] at h
    subst h
    simp
  | a :: as, bs, hv, h => by
    simp only [resolveAttrs] at h
    split at h
    · rename_i n rest hn hr
      simp only [Option.some.injEq] at h
      subst h
      intro b hb
      rcases List.mem_cons.mp hb with rfl | hb
      · have := hv a (by simp)
        exact ⟨resolveAttrName_nh this.1 hn, this.2⟩
      · exact resolveAttrs_nh (fun x hx => hv x (by simp [hx])) hr b hb
    · cases h

theorem PNh.openElem {p : PS} (h : PNh p) {nm : Str} (hnm : Nh nm) {as : List (Str × Str)} (hv : AttrsNh as) (b : Bool) :
    PNh (p.openElem nm as b) := by
  unfold PS.openElem
  split
  · exact h.fail _
  · dsimp only
    have houter : MapNh (match p.stack with | (_, s) :: _ => s | [] => []) := by
      split
      · rename_i s l hs
        exact (h.stack _ (by rw [hs]; exact List.mem_cons_self)).2
      · intro d hd; simp at hd
    have hsc := newScope_nh houter (ds := as.filterMap declOf) (by
      intro d hd
      obtain ⟨a, ha, e⟩ := List.mem_filterMap.mp hd
      exact declOf_nh (hv a ha) e)
    split
    · rename_i n bs hn hb
      have hbs := resolveAttrs_nh (fun x hx => hv x (List.mem_filter.mp hx).1) hb
      have hev : ∀ e ∈ p.evs ++ [REv.start n bs (newScope (match p.stack with | (_, s) :: _ => s | [] => [])
          (as.filterMap declOf))], e.NoHash := by
        intro e he
        rcases List.mem_append.mp he with he | he
        · exact h.evs e he
        · simp only [List.mem_singleton] at he
          subst he
          exact ⟨resolveElem_nh hnm hn, hbs, hsc⟩
      split
      · refine ⟨?_, h.stack, h.buf, trivial⟩
        intro e he
        rcases List.mem_append.mp he with he | he
        · exact hev e he
        · simp only [List.mem_singleton] at he
          subst he
          trivial
      · refine ⟨hev, ?_, h.buf, trivial⟩
        intro x hx
        rcases List.mem_cons.mp hx with rfl | hx
        · exact ⟨hnm, hsc⟩
        · exact h.stack x hx
    · exact h.fail _
    · exact h.fail _

theorem PNh.closeElem {p : PS} (h : PNh p) (nm : Str) : PNh (p.closeElem nm) := by
  unfold PS.closeElem
  split
  · rename_i n scope rest hs
    split
    · split
      · refine ⟨?_, fun x hx => h.stack x (by rw [hs]; exact List.mem_cons_of_mem _ hx), h.buf, trivial⟩
        intro e he
        rcases List.mem_append.mp he with he | he
        · exact h.evs e he
        · simp only [List.mem_singleton] at he
          subst he
          trivial
      · exact h.fail _
    · exact h.fail _
  · exact h.fail _

theorem PNh.pushText {p : PS} (h : PNh p) {c : Char} (hc : c ≠ '#') : PNh (p.pushText c) := by
  unfold PS.pushText
  split
  · exact h.fail _
  · exact ⟨h.evs, h.stack, nh_snoc h.buf hc, h.st⟩

theorem norm_nh {c : Char} (hc : c ≠ '#') : (if c = '\r' then '\n' else c) ≠ '#' := by
  split
  · decide
  · exact hc

theorem norm_attr_nh {c : Char} (hc : c ≠ '#') : (if isWs c then ' ' else c) ≠ '#' ∧ (if isWs c then ' ' else c) ≠ '\n' := by
  split
  · decide
  · rename_i h
    refine ⟨hc, ?_⟩
    rintro rfl
    exact h rfl

theorem notNl_snoc {s : Str} {c : Char} (h : '\n' ∉ s) (hc : c ≠ '\n') : '\n' ∉ s ++ [c] := by
  simp only [List.mem_append, List.mem_singleton, not_or]
  exact ⟨h, fun e => hc e.symm⟩

theorem attrsNh_snoc {as : List (Str × Str)} {an acc : Str} (h : AttrsNh as) (h1 : Nh an) (h2 : Nh acc) (h3 : '\n' ∉ acc) :
    AttrsNh (as ++ [(an, acc)]) := by
  intro a hm
  rcases List.mem_append.mp hm with hm | hm
  · exact h a hm
  · simp only [List.mem_singleton] at hm
    subst hm
    exact ⟨h1, h2, h3⟩

theorem attrsNh_nil : AttrsNh [] := by intro a ha; simp at ha

theorem PNh.step {p : PS} {c : Char} (h : PNh p) (hc : c ≠ '#') : PNh (p.step c) := by
  have hst := h.st
  have hp : ∀ st, StNh st → PNh { p with st := st } := fun st hs => h.st' st hs
  have hfl : ∀ st, StNh st → PNh { p.flush with st := st } := fun st hs => h.flush.st' st hs
  have hf : ∀ m, PNh (p.fail m) := fun m => h.fail m
  have hc1 : Nh [c] := nh_cons.mpr ⟨hc, nh_nil⟩
  unfold PS.step
  split <;> rename_i hs <;> rw [hs] at hst
  · exact h
  · -- text
    split
    · exact hp _ trivial
    · split
      · exact hp _ nh_nil
      · split
        · exact h.pushText (norm_nh hc)
        · exact hf _
  · -- ref
    split
    · split
      · rename_i r hr
        exact (hp .text trivial).pushText (resolve_nh hst hr).1
      · exact hf _
    · exact hp _ (nh_snoc hst hc)
  · -- lt
    split
    · exact hfl _ nh_nil
    · split
      · exact hp _ trivial
      · split
        · exact hfl _ trivial
        · split
          · exact hfl _ hc1
          · exact hf _
  · -- openName
    split
    · exact hp _ (nh_snoc hst hc)
    · split
      · exact hp _ ⟨hst, attrsNh_nil⟩
      · split
        · exact h.openElem hst attrsNh_nil _
        · split
          · exact hp _ ⟨hst, attrsNh_nil⟩
          · exact hf _
  · -- inTag
    split
    · exact h
    · split
      · exact h.openElem hst.1 hst.2 _
      · split
        · exact hp _ hst
        · split
          · exact hp _ ⟨hst.1, hst.2, hc1⟩
          · exact hf _
  · -- attrName
    split
    · exact hp _ ⟨hst.1, hst.2.1, nh_snoc hst.2.2 hc⟩
    · split
      · exact hp _ hst
      · split
        · exact hp _ hst
        · exact hf _
  · -- attrEq
    split
    · exact h
    · split
      · exact hp _ hst
      · exact hf _
  · -- attrQuote
    split
    · exact h
    · split
      · exact hp _ ⟨hst.1, hst.2.1, hst.2.2, nh_nil, by simp⟩
      · exact hf _
  · -- attrVal
    split
    · exact hp _ ⟨hst.1, attrsNh_snoc hst.2.1 hst.2.2.1 hst.2.2.2.1 hst.2.2.2.2⟩
    · split
      · exact hp _ ⟨hst.1, hst.2.1, hst.2.2.1, hst.2.2.2.1, hst.2.2.2.2, nh_nil⟩
      · split
        · exact hf _
        · split
          · have := norm_attr_nh hc
            exact hp _ ⟨hst.1, hst.2.1, hst.2.2.1, nh_snoc hst.2.2.2.1 this.1, notNl_snoc hst.2.2.2.2 this.2⟩
          · exact hf _
  · -- attrRef
    split
    · split
      · rename_i r hr
        have := resolve_nh hst.2.2.2.2.2 hr
        exact hp _ ⟨hst.1, hst.2.1, hst.2.2.1, nh_snoc hst.2.2.2.1 this.1, notNl_snoc hst.2.2.2.2.1 this.2⟩
      · exact hf _
    · exact hp _ ⟨hst.1, hst.2.1, hst.2.2.1, hst.2.2.2.1, hst.2.2.2.2.1, nh_snoc hst.2.2.2.2.2 hc⟩
  · -- afterVal
    split
    · exact hp _ hst
    · split
      · exact h.openElem hst.1 hst.2 _
      · split
        · exact hp _ hst
        · exact hf _
  · -- slash
    split
    · exact h.openElem hst.1 hst.2 _
    · exact hf _
  · -- closeName
    split
    · exact hp _ (nh_snoc hst hc)
    · split
      · exact h.closeElem _
      · split
        · exact hp _ hst
        · exact hf _
  · -- closeWs
    split
    · exact h
    · split
      · exact h.closeElem _
      · exact hf _
  · -- bang
    dsimp only
    split
    · exact hp _ trivial
    · split
      · split
        · exact hf _
        · exact hp _ trivial
      · split
        · exact hp _ trivial
        · exact hf _
  · -- comment
    split
    · exact hp _ trivial
    · split
      · exact hp _ trivial
      · exact hp _ trivial
  · -- cdata
    split
    · exact ⟨h.evs, h.stack, nh_snoc h.buf hc, trivial⟩
    · split
      · exact ⟨h.evs, h.stack, fun hm => h.buf (List.mem_of_mem_take hm), trivial⟩
      · split
        · exact ⟨h.evs, h.stack, nh_snoc h.buf (norm_nh hc), trivial⟩
        · exact hf _
  · -- pi
    split
    · exact hp _ trivial
    · exact hp _ trivial

theorem PNh.run : ∀ (s : Str) (p : PS), PNh p → Nh s → PNh (s.foldl PS.step p)
  | [], _, h, _ => h
  | c :: s, p, h, hn => PNh.run s (p.step c) (h.step (nh_cons.mp hn).1) (nh_cons.mp hn).2

theorem parse_noHash {s : Str} (h : '#' ∉ s) : ∀ e ∈ (parse s).evs, e.NoHash := by
  have h := PNh.run s {} ⟨by simp, by simp, nh_nil, trivial⟩ h
  unfold parse
  have key : ∀ (x : Option Str), ∀ e ∈ (Src.mk (.startDocument :: (s.foldl PS.step {}).evs) x).evs, e.NoHash := by
    intro x e he
    rcases List.mem_cons.mp he with rfl | he
    · trivial
    · exact h.evs e he
  unfold PS.finish
  split
  · exact key _
  · split
    · exact key _
    · split
      · exact key _
      · exact key _
  · exact key _

end XmlText

/-- What is kept of a document without number signs is a document without number signs. -/
theorem relays_noHash {L : Lib} (hL : L.parse = XmlText.parse) (hE : L.emit = XmlText.emit) (hf : ∀ t, FloatsOk L t) :
    Relays L fun e => e.PlainText L ∧ e.NoHash := by
  intro out ho e he
  have hno : '#' ∉ L.emit unusedCfg out := by
    rw [hE]
    refine XmlText.nh_emit fun w hw => ?_
    obtain ⟨r, hr, hrw⟩ := ho w hw
    refine ⟨r, ?_, hr.2, hrw⟩
    rintro n as nss rfl a ha hc
    have := (hr.1 a ha).1
    have := List.all_eq_true.mp this _ hc
    simp at this
  rw [hL] at he
  refine ⟨?_, XmlText.parse_noHash hno e he⟩
  refine (plainDoc_of_parse hL hf (noBlankRefs_of_none fun hi => hno ?_)).events e (by rw [hL]; exact he)
  exact hi.subset (by simp)

end Yaserde
