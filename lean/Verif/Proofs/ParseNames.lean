import Verif.Proofs.XmlText
/-
The parser of `Model/XmlText.lean` delivers only names that consist of name characters, whatever the text.
-/

set_option autoImplicit false

namespace Yaserde
namespace XmlText

def NameChars (s : Str) : Prop := ∀ c ∈ s, isNameChar c = true ∨ c = ':'

def KeysNamed (as : List (Str × Str)) : Prop := ∀ a ∈ as, NameChars a.1

def EvNamed : REv → Prop
  | .start n as _ => NameChars n.loc ∧ ∀ a ∈ as, NameChars a.name.loc
  | _ => True

def StNamed : PSt → Prop
  | .openName acc => NameChars acc
  | .inTag nm as => NameChars nm ∧ KeysNamed as
  | .attrName nm as acc => NameChars nm ∧ KeysNamed as ∧ NameChars acc
  | .attrEq nm as an => NameChars nm ∧ KeysNamed as ∧ NameChars an
  | .attrQuote nm as an => NameChars nm ∧ KeysNamed as ∧ NameChars an
  | .attrVal nm as an _ _ => NameChars nm ∧ KeysNamed as ∧ NameChars an
  | .attrRef nm as an _ _ _ => NameChars nm ∧ KeysNamed as ∧ NameChars an
  | .afterVal nm as => NameChars nm ∧ KeysNamed as
  | .slash nm as => NameChars nm ∧ KeysNamed as
  | _ => True

structure Named (p : PS) : Prop where
  evs : ∀ e ∈ p.evs, EvNamed e
  st : StNamed p.st

theorem nameChars_nil : NameChars [] := by intro c hc; cases hc

theorem keysNamed_nil : KeysNamed [] := by intro a ha; cases ha

theorem nameChars_snoc {acc : Str} {c : Char} (h : NameChars acc) (hc : nameStep acc c = true) : NameChars (acc ++ [c]) := by
  intro d hd
  rcases List.mem_append.mp hd with hd | hd
  · exact h d hd
  · rw [List.mem_singleton.mp hd]
    unfold nameStep at hc
    split at hc
    · exact .inr ‹_›
    · split at hc
      · exact .inl (by unfold isNameChar; rw [hc]; rfl)
      · exact .inl hc

theorem nameChars_one {c : Char} (hc : nameStep [] c = true) : NameChars [c] := nameChars_snoc nameChars_nil hc

theorem keysNamed_snoc {as : List (Str × Str)} {an v : Str} (h : KeysNamed as) (ha : NameChars an) : KeysNamed (as ++ [(an, v)]) := by
  intro b hb
  rcases List.mem_append.mp hb with hb | hb
  · exact h b hb
  · rw [List.mem_singleton.mp hb]; exact ha

theorem nameChars_local {raw p l : Str} (h : NameChars raw) (hs : splitColon raw = some (p, l)) : NameChars l := by
  intro c hc
  exact h c (by rw [splitColon_some hs]; simp [hc])

theorem resolveElem_named {scope : NsMap} {raw : Str} {n : Name} (h : NameChars raw) (hr : resolveElem scope raw = some n) : NameChars n.loc := by
  unfold resolveElem at hr
  split at hr
  · cases hr; exact h
  · rename_i hs
    split at hr
    · cases hr; exact nameChars_local h hs
    · cases hr

theorem resolveAttrName_named {scope : NsMap} {raw : Str} {n : Name} (h : NameChars raw) (hr : resolveAttrName scope raw = some n) : NameChars n.loc := by
  unfold resolveAttrName at hr
  split at hr
  · cases hr; exact h
  · rename_i hs
    split at hr
    · cases hr; exact nameChars_local h hs
    · split at hr
      · cases hr; exact nameChars_local h hs
      · cases hr

theorem resolveAttrs_named {scope : NsMap} : ∀ {as : List (Str × Str)} {bs : List Attr}, KeysNamed as → resolveAttrs scope as = some bs →
    ∀ b ∈ bs, NameChars b.name.loc
  | [], bs, _, h => by cases h; intro b hb; cases hb
  | a :: as, bs, hk, h => by
    rw [resolveAttrs] at h
    split at h
    · rename_i h1 h2
      cases h
      intro b hb
      rcases List.mem_cons.mp hb with rfl | hb
      · exact resolveAttrName_named (hk a (by simp)) h1
      · exact resolveAttrs_named (fun c hc => hk c (by simp [hc])) h2 b hb
    · cases h

theorem Named.set {p : PS} (h : Named p) (st : PSt) (hs : StNamed st) : Named { p with st := st } := ⟨h.evs, hs⟩

theorem Named.fail {p : PS} (h : Named p) (m : Str) : Named (p.fail m) := ⟨h.evs, trivial⟩

theorem Named.flush {p : PS} (h : Named p) (st : PSt) (hs : StNamed st) : Named { p.flush with st := st } := by
  refine ⟨?_, hs⟩
  unfold PS.flush
  dsimp only
  split
  · exact h.evs
  · intro e he
    rcases List.mem_append.mp he with he | he
    · exact h.evs e he
    · rw [List.mem_singleton.mp he]; trivial

theorem Named.pushText {p : PS} (h : Named p) (c : Char) : Named (p.pushText c) := by
  unfold PS.pushText
  split
  · exact h.fail _
  · exact ⟨h.evs, h.st⟩

theorem Named.openElem {p : PS} (h : Named p) {nm : Str} {as : List (Str × Str)} (hn : NameChars nm) (ha : KeysNamed as) (b : Bool) :
    Named (p.openElem nm as b) := by
  unfold PS.openElem
  split
  · exact h.fail _
  dsimp only
  generalize newScope _ _ = scope
  split
  · rename_i n bs h1 h2
    have hev : EvNamed (.start n bs scope) :=
      ⟨resolveElem_named hn h1, resolveAttrs_named (fun a hm => ha a (List.mem_filter.mp hm).1) h2⟩
    split
    · refine ⟨fun e he => ?_, trivial⟩
      simp only [List.mem_append, List.mem_singleton] at he
      rcases he with (he | rfl) | rfl
      · exact h.evs e he
      · exact hev
      · trivial
    · refine ⟨fun e he => ?_, trivial⟩
      simp only [List.mem_append, List.mem_singleton] at he
      rcases he with he | rfl
      · exact h.evs e he
      · exact hev
  · exact h.fail _
  · exact h.fail _

theorem Named.closeElem {p : PS} (h : Named p) (nm : Str) : Named (p.closeElem nm) := by
  unfold PS.closeElem
  split
  · split
    · split
      · refine ⟨fun e he => ?_, trivial⟩
        simp only [List.mem_append, List.mem_singleton] at he
        rcases he with he | rfl
        · exact h.evs e he
        · trivial
      · exact h.fail _
    · exact h.fail _
  · exact h.fail _

theorem Named.step {p : PS} (h : Named p) (c : Char) : Named (p.step c) := by
  have hst := h.st
  unfold PS.step
  split
  · exact h
  · repeat' split
    all_goals first | exact h.set _ trivial | exact h.pushText _ | exact h.fail _
  · repeat' split
    all_goals first | exact Named.pushText (p := { p with st := .text }) (h.set _ trivial) _ | exact h.set _ trivial | exact h.fail _
  · split
    · exact h.flush _ trivial
    split
    · exact h.set _ trivial
    split
    · exact h.flush _ trivial
    split
    · exact h.flush _ (nameChars_one ‹_›)
    · exact h.fail _
  · rename_i acc e
    rw [e] at hst
    repeat' split
    · exact h.set _ (nameChars_snoc hst ‹_›)
    · exact h.set _ ⟨hst, keysNamed_nil⟩
    · exact h.openElem hst keysNamed_nil _
    · exact h.set _ ⟨hst, keysNamed_nil⟩
    · exact h.fail _
  · rename_i nm as e
    rw [e] at hst
    repeat' split
    · exact h
    · exact h.openElem hst.1 hst.2 _
    · exact h.set _ hst
    · exact h.set _ ⟨hst.1, hst.2, nameChars_one ‹_›⟩
    · exact h.fail _
  · rename_i nm as acc e
    rw [e] at hst
    repeat' split
    · exact h.set _ ⟨hst.1, hst.2.1, nameChars_snoc hst.2.2 ‹_›⟩
    · exact h.set _ hst
    · exact h.set _ hst
    · exact h.fail _
  · rename_i nm as an e
    rw [e] at hst
    repeat' split
    · exact h
    · exact h.set _ hst
    · exact h.fail _
  · rename_i nm as an e
    rw [e] at hst
    repeat' split
    · exact h
    · exact h.set _ hst
    · exact h.fail _
  · rename_i nm as an q acc e
    rw [e] at hst
    repeat' split
    all_goals first | exact h.set _ ⟨hst.1, keysNamed_snoc hst.2.1 hst.2.2⟩ | exact h.set _ hst | exact h.fail _
  · rename_i nm as an q acc racc e
    rw [e] at hst
    repeat' split
    all_goals first | exact h.set _ hst | exact h.fail _
  · rename_i nm as e
    rw [e] at hst
    repeat' split
    all_goals first | exact h.set _ hst | exact h.openElem hst.1 hst.2 _ | exact h.fail _
  · rename_i nm as e
    rw [e] at hst
    split
    · exact h.openElem hst.1 hst.2 _
    · exact h.fail _
  · repeat' split
    all_goals first | exact h.set _ trivial | exact h.closeElem _ | exact h.fail _
  · repeat' split
    all_goals first | exact h | exact h.closeElem _ | exact h.fail _
  · dsimp only
    repeat' split
    all_goals first | exact h.set _ trivial | exact h.fail _
  · repeat' split
    all_goals exact h.set _ trivial
  · repeat' split
    all_goals first | exact ⟨h.evs, trivial⟩ | exact h.fail _
  · split
    all_goals exact h.set _ trivial

/-- Whatever the text. -/
theorem parse_named (s : Str) : ∀ e ∈ (parse s).evs, EvNamed e := by
  have key : ∀ (s : Str) (p : PS), Named p → Named (s.foldl PS.step p) := by
    intro s
    induction s with
    | nil => exact fun p h => h
    | cons c s ih => exact fun p h => ih _ (h.step c)
  have h := key s {} ⟨(fun e he => (nomatch he)), trivial⟩
  intro e he
  have : e ∈ REv.startDocument :: (s.foldl PS.step {}).evs := by
    unfold parse PS.finish at he
    repeat' split at he
    all_goals exact he
  rcases List.mem_cons.mp this with rfl | hm
  · trivial
  · exact h.evs e hm

theorem not_hash {s : Str} (h : NameChars s) (x : Str) : s ≠ 'r' :: '#' :: x := by
  rintro rfl
  rcases h '#' (by simp) with h | h
  · exact absurd h (by decide)
  · exact absurd h (by decide)

end XmlText
end Yaserde
