import Verif.Spec.Spell
import Verif.Proofs.XmlLaw
/-
The character-level parser reads every spelling of a document.
-/

set_option autoImplicit false

namespace Yaserde
namespace XmlText
open Spell

/-! ### References -/

theorem char_le (a b : Char) : a ≤ b ↔ a.toNat ≤ b.toNat := by
  rw [Char.le_def, UInt32.le_iff_toNat_le]; rfl

theorem digit_ten {c : Char} {d : Nat} (h : Digit 10 c d) : digitVal c = some d := by
  cases h with
  | dec hd hc =>
    unfold digitVal
    have h0 : '0'.toNat = 48 := rfl
    have h9 : '9'.toNat = 57 := rfl
    simp only [char_le, h0, h9]
    rw [if_pos ⟨by omega, by omega⟩, hc]
    congr 1; omega

theorem digit_hex {c : Char} {d : Nat} (h : Digit 16 c d) : hexVal c = some d := by
  unfold hexVal
  have h0 : '0'.toNat = 48 := rfl
  have h9 : '9'.toNat = 57 := rfl
  have ha : 'a'.toNat = 97 := rfl
  have hf : 'f'.toNat = 102 := rfl
  have hA : 'A'.toNat = 65 := rfl
  have hF : 'F'.toNat = 70 := rfl
  simp only [char_le, h0, h9, ha, hf, hA, hF]
  cases h with
  | dec hd hc => rw [if_pos ⟨by omega, by omega⟩, hc]; congr 1; omega
  | lower hd hc => rw [if_neg (by omega), if_pos ⟨by omega, by omega⟩, hc]; congr 1; omega
  | upper hd hc => rw [if_neg (by omega), if_neg (by omega), if_pos ⟨by omega, by omega⟩, hc]; congr 1; omega

theorem digit_char {base : Nat} {c : Char} {d : Nat} (h : Digit base c d) : c ≠ ';' ∧ c ≠ 'x' := by
  constructor
  · rintro rfl
    have e : ';'.toNat = 59 := rfl
    cases h <;> omega
  · rintro rfl
    have e : 'x'.toNat = 120 := rfl
    cases h <;> omega

theorem numVal_snoc (base : Nat) (dig : Char → Option Nat) (s : Str) (c : Char) (acc : Nat) :
    numVal base dig acc (s ++ [c]) = (numVal base dig acc s).bind fun n => (dig c).map fun d => n * base + d := by
  induction s generalizing acc with
  | nil => simp only [List.nil_append, numVal]; cases dig c <;> rfl
  | cons a s ih =>
    simp only [List.cons_append, numVal]
    cases dig a with
    | none => rfl
    | some d => exact ih _

theorem numeral_val {base : Nat} {dig : Char → Option Nat} (hd : ∀ c d, Digit base c d → dig c = some d) {s : Str} {n : Nat}
    (h : Numeral base s n) : numVal base dig 0 s = some n := by
  induction h with
  | one h => simp [numVal, hd _ _ h]
  | more _ h ih => rw [numVal_snoc, ih, hd _ _ h]; rfl

theorem numeral_chars {base : Nat} {s : Str} {n : Nat} (h : Numeral base s n) : s ≠ [] ∧ ∀ c ∈ s, c ≠ ';' ∧ c ≠ 'x' := by
  induction h with
  | one h => exact ⟨by simp, fun c hc => by rw [List.mem_singleton.mp hc]; exact digit_char h⟩
  | more _ h ih =>
    refine ⟨by simp, fun c hc => ?_⟩
    rcases List.mem_append.mp hc with hc | hc
    · exact ih.2 c hc
    · rw [List.mem_singleton.mp hc]; exact digit_char h

theorem numRef_char {c : Char} (h : isDocChar c = true) : numRef (some c.toNat) = some c := by
  have hv : c.toNat.isValidChar := c.valid
  have he : Char.ofNat c.toNat = c := Char.ofNat_toNat c
  simp only [numRef]
  rw [if_pos hv, he, isXmlChar_eq, if_pos h]

theorem refTo {r : Str} {c : Char} (h : RefTo r c) : resolveRef r = some c ∧ ';' ∉ r := by
  cases h with
  | lt | gt | amp | quot | apos => exact ⟨by decide, by decide⟩
  | @dec ds _ hn hc =>
    obtain ⟨hne, hch⟩ := numeral_chars hn
    refine ⟨?_, ?_⟩
    · cases ds with
      | nil => exact absurd rfl hne
      | cons a ds =>
        have hx := (hch a (by simp)).2
        unfold resolveRef
        rw [if_neg (by simp), if_neg (by simp), if_neg (by simp), if_neg (by simp), if_neg (by simp)]
        show (match ('#' :: a :: ds : Str) with
          | '#' :: 'x' :: ds => if ds.isEmpty then none else numRef (numVal 16 hexVal 0 ds)
          | '#' :: ds => if ds.isEmpty then none else numRef (numVal 10 digitVal 0 ds)
          | _ => none) = _
        split
        · rename_i heq
          simp only [List.cons.injEq, true_and] at heq
          exact absurd heq.1 hx
        · rename_i heq
          simp only [List.cons.injEq, true_and] at heq
          subst heq
          rw [if_neg (by simp), numeral_val (fun c d => digit_ten) hn]
          exact numRef_char hc
        · rename_i h1 h2
          exact absurd rfl (h2 _)
    · intro hm
      rcases List.mem_append.mp hm with hm | hm
      · exact absurd hm (by decide)
      · exact (hch _ hm).1 rfl
  | @hex ds _ hn hc =>
    obtain ⟨hne, hch⟩ := numeral_chars hn
    refine ⟨?_, ?_⟩
    · unfold resolveRef
      rw [if_neg (by simp), if_neg (by simp), if_neg (by simp), if_neg (by simp), if_neg (by simp)]
      show (if ds.isEmpty then none else numRef (numVal 16 hexVal 0 ds)) = _
      rw [if_neg (by simpa using hne), numeral_val (fun c d => digit_hex) hn]
      exact numRef_char hc
    · intro hm
      rcases List.mem_append.mp hm with hm | hm
      · exact absurd hm (by decide)
      · exact (hch _ hm).1 rfl

theorem run_ref (r : Str) (p : PS) (acc : Str) (h : ';' ∉ r) :
    run r { p with st := .ref acc } = { p with st := .ref (acc ++ r) } := by
  induction r generalizing acc with
  | nil => simp [run]
  | cons c cs ih =>
    have e : PS.step { p with st := .ref acc } c = { p with st := .ref (acc ++ [c]) } := by
      simp only [PS.step]; rw [if_neg (by rintro rfl; simp at h)]
    rw [run_cons, e, ih _ (by simp at h; simp [h])]
    simp

theorem run_attrRef (r : Str) (p : PS) (nm : Str) (as : List (Str × Str)) (an : Str) (q : Char) (v acc : Str) (h : ';' ∉ r) :
    run r { p with st := .attrRef nm as an q v acc } = { p with st := .attrRef nm as an q v (acc ++ r) } := by
  induction r generalizing acc with
  | nil => simp [run]
  | cons c cs ih =>
    have e : PS.step { p with st := .attrRef nm as an q v acc } c = { p with st := .attrRef nm as an q v (acc ++ [c]) } := by
      simp only [PS.step]; rw [if_neg (by rintro rfl; simp at h)]
    rw [run_cons, e, ih _ (by simp at h; simp [h])]
    simp

/-! ### Attributes -/

theorem run_value {q : Char} (hq : q = '"' ∨ q = '\'') {s v : Str} (h : Value q s v) (p : PS) (nm : Str) (as : List (Str × Str)) (an : Str) (acc : Str) :
    run s { p with st := .attrVal nm as an q acc } = { p with st := .attrVal nm as an q (acc ++ v) } := by
  induction h generalizing acc with
  | nil => simp [run]
  | @char c s v h1 h2 h3 h4 _ ih =>
    have e : PS.step { p with st := .attrVal nm as an q acc } c
        = { p with st := .attrVal nm as an q (acc ++ [if isXmlSpace c then ' ' else c]) } := by
      simp only [PS.step]; rw [if_neg h2, if_neg h4, if_neg h3, isXmlChar_eq, if_pos h1, isWs_eq]
    rw [run_cons, e, ih]
    simp
  | @ref r c s v h _ ih =>
    obtain ⟨hr, hs⟩ := refTo h
    have e1 : run c!"&" { p with st := .attrVal nm as an q acc } = { p with st := .attrRef nm as an q acc [] } := by
      rw [run_cons, run_nil]
      simp only [PS.step]
      rw [if_neg (by rcases hq with rfl | rfl <;> decide), if_pos trivial]
    have e2 : run c!";" { p with st := .attrRef nm as an q acc r } = { p with st := .attrVal nm as an q (acc ++ [c]) } := by
      rw [run_cons, run_nil]
      simp only [PS.step]
      rw [if_pos trivial, hr]
    rw [run_append, run_append, run_append, e1, run_attrRef r p nm as an q acc [] hs, List.nil_append, e2, ih]
    simp

theorem space_stop {c : Char} (h : isXmlSpace c = true) (acc : Str) : ¬nameStep acc c = true := by
  simp only [isXmlSpace, Bool.or_eq_true, beq_iff_eq] at h
  rcases h with ((rfl | rfl) | rfl) | rfl <;> exact nameStep_stop _ (by decide) (by decide)

theorem space_ne {c d : Char} (h : isXmlSpace c = true) (hd : isXmlSpace d = false) : c ≠ d := by
  rintro rfl; rw [h] at hd; cases hd

theorem run_inTag {w : Str} (h : Blank w) (p : PS) (nm : Str) (as : List (Str × Str)) :
    run w { p with st := .inTag nm as } = { p with st := .inTag nm as } := by
  induction w with
  | nil => rfl
  | cons c cs ih =>
    have e : PS.step { p with st := .inTag nm as } c = { p with st := .inTag nm as } := by
      simp only [PS.step]; rw [isWs_eq, if_pos (h c (by simp))]
    rw [run_cons, e, ih fun d hd => h d (by simp [hd])]

theorem TagSt.blank {nm : Str} {as : List (Str × Str)} {st : PSt} (ht : TagSt nm as st) {w : Str} (h : Blank w) (hw : w ≠ []) (p : PS) :
    run w { p with st := st } = { p with st := .inTag nm as } := by
  cases w with
  | nil => exact absurd rfl hw
  | cons c cs =>
    have hc := h c (by simp)
    have e : PS.step { p with st := st } c = { p with st := .inTag nm as } := by
      cases ht with
      | name =>
        simp only [PS.step]
        rw [if_neg (space_stop hc _), isWs_eq, if_pos hc]
      | val =>
        simp only [PS.step]
        rw [isWs_eq, if_pos hc]
    rw [run_cons, e, run_inTag fun d hd => h d (by simp [hd])]

theorem run_attrEq {w : Str} (h : Blank w) (p : PS) (nm : Str) (as : List (Str × Str)) (an : Str) :
    run w { p with st := .attrEq nm as an } = { p with st := .attrEq nm as an } := by
  induction w with
  | nil => rfl
  | cons c cs ih =>
    have e : PS.step { p with st := .attrEq nm as an } c = { p with st := .attrEq nm as an } := by
      simp only [PS.step]; rw [isWs_eq, if_pos (h c (by simp))]
    rw [run_cons, e, ih fun d hd => h d (by simp [hd])]

theorem run_attrQuote {w : Str} (h : Blank w) (p : PS) (nm : Str) (as : List (Str × Str)) (an : Str) :
    run w { p with st := .attrQuote nm as an } = { p with st := .attrQuote nm as an } := by
  induction w with
  | nil => rfl
  | cons c cs ih =>
    have e : PS.step { p with st := .attrQuote nm as an } c = { p with st := .attrQuote nm as an } := by
      simp only [PS.step]; rw [isWs_eq, if_pos (h c (by simp))]
    rw [run_cons, e, ih fun d hd => h d (by simp [hd])]

/-- White space and the equals sign after the name of an attribute. -/
theorem run_equals {w : Str} (h : Blank w) (p : PS) (nm : Str) (as : List (Str × Str)) (an : Str) :
    run (w ++ c!"=") { p with st := .attrName nm as an } = { p with st := .attrQuote nm as an } := by
  cases w with
  | nil =>
    rw [List.nil_append, run_cons, run_nil]
    simp only [PS.step]
    rw [if_neg (nameStep_stop _ (by decide) (by decide)), if_pos trivial]
  | cons c cs =>
    have hc := h c (by simp)
    have e : PS.step { p with st := .attrName nm as an } c = { p with st := .attrEq nm as an } := by
      simp only [PS.step]
      rw [if_neg (space_stop hc _), if_neg (space_ne hc (by decide)), isWs_eq, if_pos hc]
    rw [List.cons_append, run_cons, e, run_append, run_attrEq fun d hd => h d (by simp [hd]), run_cons, run_nil]
    simp only [PS.step]
    rw [if_neg (by decide), if_pos trivial]

theorem run_attrsSp {s : Str} {as' : List (Str × Str)} (h : Spell.Attrs s as') {nm : Str} {as : List (Str × Str)} {st : PSt} (ht : TagSt nm as st)
    (p : PS) : ∃ st', TagSt nm (as ++ as') st' ∧ run s { p with st := st } = { p with st := st' } := by
  induction h generalizing as st with
  | nil => exact ⟨st, by simpa using ht, rfl⟩
  | @cons w n w1 w2 s v rest q as' hw hwn hn hw1 hw2 hq hv _ ih =>
    obtain ⟨st', h1, h2⟩ := ih (.val (as ++ [(n, v)]))
    refine ⟨st', by simpa using h1, ?_⟩
    obtain ⟨hne, hall⟩ := qName_like hn
    cases n with
    | nil => exact absurd rfl hne
    | cons c cs =>
      obtain ⟨g1, -, -, g4, -, -, g7⟩ := nameChar_ne hall.1
      have e2 : PS.step { p with st := .inTag nm as } c = { p with st := .attrName nm as [c] } := by
        simp only [PS.step]
        rw [g7, if_neg (by simp), if_neg g4, if_neg g1, if_pos hall.1]
      have e3 : run [q] { p with st := .attrQuote nm as (c :: cs) } = { p with st := .attrVal nm as (c :: cs) q [] } := by
        rw [run_cons, run_nil]
        rcases hq with rfl | rfl <;> rfl
      have e4 : run [q] { p with st := .attrVal nm as (c :: cs) q v } = { p with st := .afterVal nm (as ++ [(c :: cs, v)]) } := by
        rw [run_cons, run_nil]
        simp only [PS.step]
        rw [if_pos trivial]
      have e : w ++ c :: cs ++ w1 ++ c!"=" ++ w2 ++ [q] ++ s ++ [q] ++ rest
          = w ++ (c :: (cs ++ ((w1 ++ c!"=") ++ (w2 ++ ([q] ++ (s ++ ([q] ++ rest))))))) := by simp
      rw [e, run_append, ht.blank hw hwn, run_cons, e2, run_append, run_attrName cs _ _ _ [c] hall.2, show [c] ++ cs = c :: cs from rfl, run_append, run_equals hw1, run_append,
        run_attrQuote hw2, run_append, e3, run_append, run_value hq hv, run_append, List.nil_append, e4, h2]

/-! ### Comments and processing instructions -/

theorem run_commentText (t : Str) (p : PS) (k : Nat) (hk : k ≤ 1) (h : ¬ c!"--" <:+: List.replicate k '-' ++ t ++ c!"-") :
    run t { p with st := .comment k } = { p with st := .comment 0 } := by
  induction t generalizing k with
  | nil =>
    have : k = 0 := by
      rcases Nat.lt_or_ge k 1 with hk' | hk'
      · omega
      · have : k = 1 := by omega
        subst this
        exact absurd (List.infix_refl _) h
    subst this
    rfl
  | cons c cs ih =>
    by_cases hc : c = '-'
    · subst hc
      have hk0 : k = 0 := by
        rcases Nat.lt_or_ge k 1 with hk' | hk'
        · omega
        · have : k = 1 := by omega
          subst this
          exact absurd ⟨[], cs ++ c!"-", by simp⟩ h
      subst hk0
      have e : PS.step { p with st := .comment 0 } '-' = { p with st := .comment 1 } := rfl
      rw [run_cons, e]
      exact ih 1 (by omega) (by simpa using h)
    · have e : PS.step { p with st := .comment k } c = { p with st := .comment 0 } := by
        simp only [PS.step]
        rw [if_neg hc, if_neg (by simp; omega)]
      rw [run_cons, e]
      refine ih 0 (by omega) fun hi => h ?_
      exact hi.trans ⟨List.replicate k '-' ++ [c], [], by simp⟩

theorem run_commentOpen (p : PS) : run c!"<!--" { p with st := .text } = { p with st := .comment 0 } := by
  have e1 : PS.step { p with st := .text } '<' = { p with st := .lt } := rfl
  have e2 : PS.step { p with st := .lt } '!' = { p with st := .bang [] } := by
    simp only [PS.step]; rw [if_neg (by decide), if_pos (by decide)]
  have e3 : PS.step { p with st := .bang [] } '-' = { p with st := .bang c!"-" } := by
    simp only [PS.step]; rw [if_neg (by decide), if_neg (by decide), if_pos (by decide)]; rfl
  have e4 : PS.step { p with st := .bang c!"-" } '-' = { p with st := .comment 0 } := by
    simp only [PS.step]; rw [if_pos (by decide)]
  rw [run_cons, e1, run_cons, e2, run_cons, e3, run_cons, e4, run_nil]

theorem run_comment {s : Str} (h : Comment s) (p : PS) : run s { p with st := .text } = { p with st := .text } := by
  cases h with
  | @mk t _ h =>
    rw [List.append_assoc, run_append, run_commentOpen, run_append, run_commentText t p 0 (by omega) (by simpa using h)]
    rfl

theorem run_piText (t : Str) (p : PS) (q : Bool) (h : ¬ c!"?>" <:+: (if q then c!"?" else []) ++ t) :
    ∃ q', run t { p with st := .pi q } = { p with st := .pi q' } := by
  induction t generalizing q with
  | nil => exact ⟨q, rfl⟩
  | cons c cs ih =>
    have e : PS.step { p with st := .pi q } c = { p with st := .pi (c = '?') } := by
      simp only [PS.step]
      rw [if_neg]
      intro hc
      simp only [Bool.and_eq_true, decide_eq_true_eq] at hc
      obtain ⟨rfl, rfl⟩ := hc
      exact h ⟨[], cs, by simp⟩
    rw [run_cons, e]
    refine ih _ fun hi => h ?_
    by_cases hc : c = '?'
    · subst hc
      simp only [decide_true, if_true] at hi
      exact hi.trans ⟨if q then c!"?" else [], [], by simp⟩
    · simp only [hc, decide_false, Bool.false_eq_true, if_false, List.nil_append] at hi
      exact hi.trans ⟨(if q then c!"?" else []) ++ [c], [], by simp⟩

theorem run_pi {s : Str} (h : Pi s) (p : PS) : run s { p with st := .text } = { p.flush with st := .text } := by
  cases h with
  | @mk target t hn ht _ h =>
    have hi : ¬ c!"?>" <:+: target ++ t := by
      rintro ⟨a, b, hab⟩
      rw [List.append_assoc, List.append_eq_append_iff] at hab
      rcases hab with ⟨u, rfl, hu⟩ | ⟨u, rfl, hu⟩
      · cases u with
        | nil =>
          exact h ⟨[], b, by simpa using hu⟩
        | cons d u =>
          simp only [List.cons_append, List.cons.injEq] at hu
          have := ncName_parts hn d (by simp)
          rw [← hu.1] at this
          exact absurd this (by decide)
      · exact h ⟨u, b, by rw [hu]; simp⟩
    have e1 : run c!"<?" { p with st := .text } = { p.flush with st := .pi false } := rfl
    obtain ⟨q, e2⟩ := run_piText (target ++ t) p.flush false (by simpa using hi)
    have e : c!"<?" ++ target ++ t ++ c!"?>" = c!"<?" ++ ((target ++ t) ++ c!"?>") := by simp
    rw [e, run_append, e1, run_append, e2, run_cons, run_cons, run_nil]
    have e3 : PS.step { p.flush with st := .pi q } '?' = { p.flush with st := .pi true } := by
      cases q <;> rfl
    rw [e3]
    rfl

/-! ### Text -/

theorem run_cdataAny (s : Str) (p : PS) (done : Str) (h : ∀ c ∈ s, isDocChar c = true) (hc : ¬ c!"]]>" <:+: done ++ s) :
    run s { p with st := .cdata (brackets done), buf := p.buf ++ done.map lineEnd }
      = { p with st := .cdata (brackets (done ++ s)), buf := p.buf ++ (done ++ s).map lineEnd } := by
  induction s generalizing done with
  | nil => simp [run]
  | cons c cs ih =>
    have e : PS.step { p with st := .cdata (brackets done), buf := p.buf ++ done.map lineEnd } c
        = { p with st := .cdata (brackets (done ++ [c])), buf := p.buf ++ (done ++ [c]).map lineEnd } := by
      simp only [PS.step]
      by_cases a : c = ']'
      · subst a
        rw [if_pos rfl, brackets_snoc]
        simp [lineEnd]
      · rw [if_neg a, brackets_other _ a]
        have : (c = '>' && decide (2 ≤ brackets done)) = false := by
          by_cases hg : c = '>'
          · subst hg
            by_cases hb : 2 ≤ brackets done
            · obtain ⟨t, rfl⟩ := two_brackets hb
              exact absurd ⟨t, cs, by simp⟩ hc
            · simp [hb]
          · simp [hg]
        rw [this, isXmlChar_eq, if_neg (by simp), if_pos (h c (by simp))]
        simp [lineEnd]
    rw [run_cons, e, ih (done ++ [c]) (fun d hd => h d (by simp [hd])) (by simpa using hc)]
    simp

theorem run_piece {s d : Str} (h : Piece s d) (p : PS) (hs : p.stack ≠ []) :
    run s { p with st := .text } = { p with st := .text, buf := p.buf ++ d } := by
  have hst : p.stack.isEmpty = false := by simpa using hs
  have push : ∀ (c : Char), PS.pushText { p with st := .text } c = { p with st := .text, buf := p.buf ++ [c] } := by
    intro c; simp [PS.pushText, hst]
  cases h with
  | @char c h1 h2 h3 =>
    rw [run_cons, run_nil]
    simp only [PS.step]
    rw [if_neg h2, if_neg h3, isXmlChar_eq, if_pos h1]
    exact push _
  | @ref r c h =>
    obtain ⟨hr, hsc⟩ := refTo h
    have e1 : run c!"&" { p with st := .text } = { p with st := .ref [] } := rfl
    rw [run_append, run_append, e1, run_ref r p [] hsc, run_cons, run_nil, List.nil_append]
    simp only [PS.step]
    rw [if_pos trivial, hr]
    exact push _
  | @cdata t h1 h2 =>
    rw [List.append_assoc, run_append, run_append, run_cdataStart p hs]
    have e2 := run_cdataAny t p [] h1 (by simpa using h2)
    simp only [List.map_nil, List.nil_append, List.append_nil] at e2
    have hb : brackets [] = 0 := rfl
    rw [hb] at e2
    rw [e2]
    have e3 : ∀ (b : Str) (n : Nat), PS.step { p with st := .cdata n, buf := b } ']'
        = { p with st := .cdata (n + 1), buf := b ++ [']'] } := by
      intro b n; simp only [PS.step]; rw [if_pos (by decide)]
    have e4 : ∀ (b : Str) (n : Nat), PS.step { p with st := .cdata (n + 1 + 1), buf := b ++ [']'] ++ [']'] } '>'
        = { p with st := .text, buf := b } := by
      intro b n
      simp only [PS.step]
      rw [if_neg (by decide), if_pos (by simp)]
      simp
    rw [run_cons, e3, run_cons, e3, run_cons, e4, run_nil]
  | comment h => rw [run_comment h]; simp

/-! ### Tags -/

theorem nsOf_eq (sc : NsMap) (p : Str) : nsOf sc p = (lookupNs sc p).bind fun u => if u.isEmpty then none else some u := by
  unfold nsOf
  rw [show scopeUri sc p = lookupNs sc p from rfl]
  cases lookupNs sc p with
  | none => rfl
  | some u => cases u <;> rfl

theorem elemName_eq {sc : NsMap} {raw : Str} {n : Name} (h : ElemName sc raw n) : resolveElem sc raw = some n := by
  cases h with
  | bare h => unfold resolveElem; rw [h, nsOf_eq]
  | @prefixed p l h hb =>
    unfold resolveElem
    rw [h, nsOf_eq]
    dsimp only
    cases hl : lookupNs sc p with
    | none => rw [show scopeUri sc p = lookupNs sc p from rfl, hl] at hb; cases hb
    | some u => rfl

theorem attrName_eq {sc : NsMap} {raw : Str} {n : Name} (h : AttrName sc raw n) : resolveAttrName sc raw = some n := by
  cases h with
  | bare h => unfold resolveAttrName; rw [h]
  | xml h => unfold resolveAttrName; rw [h]; rfl
  | @prefixed p l h hx hb =>
    unfold resolveAttrName
    rw [h, nsOf_eq]
    dsimp only
    rw [if_neg hx]
    cases hl : lookupNs sc p with
    | none => rw [show scopeUri sc p = lookupNs sc p from rfl, hl] at hb; cases hb
    | some u => rfl

theorem declOf_eq : Spell.declOf = XmlText.declOf := rfl

theorem attrList_eq {sc : NsMap} {as : List (Str × Str)} {bs : List Attr} (h : AttrList sc as bs) :
    resolveAttrs sc (as.filter fun a => (XmlText.declOf a).isNone) = some bs := by
  induction h with
  | nil => rfl
  | @decl a as bs h _ ih =>
    rw [declOf_eq] at h
    rw [List.filter_cons_of_neg (by rw [Option.isNone_iff_eq_none]; intro e; rw [e] at h; cases h)]
    exact ih
  | @attr a n as bs h hn _ ih =>
    rw [declOf_eq] at h
    rw [List.filter_cons_of_pos (by simp [h]), resolveAttrs, attrName_eq hn, ih]

/-- The namespaces in scope. -/
def outerScope (st : List (Str × NsMap)) : NsMap := match st with | (_, s) :: _ => s | [] => []

theorem openElem_sp {outer sc : NsMap} {raw : Str} {as : List (Str × Str)} {n : Name} {bs : List Attr} (h : Tag outer sc raw as n bs)
    (p : PS) (hp : outerScope p.stack = outer) (b : Bool) :
    p.openElem raw as b =
      if b then { p with evs := p.evs ++ [.start n bs sc] ++ [.endE n], seenRoot := true, st := .text }
      else { p with evs := p.evs ++ [.start n bs sc], seenRoot := true, stack := (raw, sc) :: p.stack, st := .text } := by
  obtain ⟨evs, stack, buf, seen, st⟩ := p
  have key : ∀ o, o = outer → newScope o (as.filterMap XmlText.declOf) = sc := by rintro o rfl; rw [h.scope]; rfl
  unfold PS.openElem
  rw [hasDup_false h.nodup, if_neg (by simp)]
  cases stack with
  | nil => dsimp only; rw [key [] hp, elemName_eq h.elem, attrList_eq h.attrs]
  | cons a l => dsimp only; rw [key a.2 hp, elemName_eq h.elem, attrList_eq h.attrs]

theorem TagSt.gt {nm : Str} {as : List (Str × Str)} {st : PSt} (ht : TagSt nm as st) {w : Str} (hw : Blank w) (p : PS) :
    ∃ st', run (w ++ c!">") { p with st := st } = PS.openElem { p with st := st' } nm as false := by
  by_cases h : w = []
  · subst h; exact ⟨st, ht.close p⟩
  · refine ⟨.inTag nm as, ?_⟩
    rw [run_append, ht.blank hw h]
    rfl

theorem TagSt.slash {nm : Str} {as : List (Str × Str)} {st : PSt} (ht : TagSt nm as st) {w : Str} (hw : Blank w) (p : PS) :
    ∃ st', run (w ++ c!"/>") { p with st := st } = PS.openElem { p with st := st' } nm as true := by
  refine ⟨.slash nm as, ?_⟩
  by_cases h : w = []
  · subst h
    cases ht with
    | name =>
      rw [List.nil_append, run_cons]
      have : PS.step { p with st := .openName nm } '/' = { p with st := .slash nm [] } := by
        simp only [PS.step]
        rw [if_neg (nameStep_stop _ (by decide) (by decide)), if_neg (by decide), if_neg (by decide), if_pos trivial]
      rw [this]; rfl
    | val => rfl
  · rw [run_append, ht.blank hw h]
    rfl

theorem run_open {raw : Str} (hn : isQName raw = true) (p : PS) :
    run (c!"<" ++ raw) { p with st := .text } = { p.flush with st := .openName raw } := by
  obtain ⟨hne, hall⟩ := qName_like hn
  cases raw with
  | nil => exact absurd rfl hne
  | cons c cs =>
    obtain ⟨g1, g2, g3, -, -, -, -⟩ := nameChar_ne hall.1
    have e1 : run c!"<" { p with st := .text } = { p with st := .lt } := rfl
    have e2 : PS.step { p with st := .lt } c = { p.flush with st := .openName [c] } := by
      simp only [PS.step]
      rw [if_neg g1, if_neg g2, if_neg g3, if_pos hall.1]
      rfl
    rw [run_append, e1, run_cons, e2, run_openName cs p.flush [c] hall.2]
    rfl

theorem run_closeWs {w : Str} (h : Blank w) (p : PS) (nm : Str) :
    run w { p with st := .closeWs nm } = { p with st := .closeWs nm } := by
  induction w with
  | nil => rfl
  | cons c cs ih =>
    have e : PS.step { p with st := .closeWs nm } c = { p with st := .closeWs nm } := by
      simp only [PS.step]; rw [isWs_eq, if_pos (h c (by simp))]
    rw [run_cons, e, ih fun d hd => h d (by simp [hd])]

theorem run_close {raw : Str} (hn : isQName raw = true) {w : Str} (hw : Blank w) (p : PS) :
    ∃ st', run (c!"</" ++ raw ++ w ++ c!">") { p with st := .text } = PS.closeElem { p.flush with st := st' } raw := by
  have e1 : run c!"</" { p with st := .text } = { p.flush with st := .closeName [] } := rfl
  rw [List.append_assoc, List.append_assoc, run_append, e1, run_append, run_closeName raw p.flush [] (qName_like hn).2, List.nil_append]
  cases w with
  | nil =>
    refine ⟨.closeName raw, ?_⟩
    rw [List.nil_append, run_cons, run_nil]
    simp only [PS.step]
    rw [if_neg (nameStep_stop _ (by decide) (by decide)), if_pos trivial]
  | cons c cs =>
    refine ⟨.closeWs raw, ?_⟩
    have hc := hw c (by simp)
    have e : PS.step { p.flush with st := .closeName raw } c = { p.flush with st := .closeWs raw } := by
      simp only [PS.step]
      rw [if_neg (space_stop hc _), if_neg (space_ne hc (by decide)), isWs_eq, if_pos hc]
    rw [List.cons_append, run_cons, e, run_append, run_closeWs fun d hd => hw d (by simp [hd])]
    rfl

theorem flush_sp (p : PS) : p.flush = { p with buf := [], evs := p.evs ++ Node.eventsL (textRun p.buf) } := by
  unfold PS.flush textRun
  rw [trim_eq]
  by_cases h : trimSpace p.buf = []
  · simp [h, Node.eventsL]
  · have : (trimSpace p.buf).isEmpty = false := by simpa using h
    simp [this, h, Node.eventsL, Node.events]

/-! ### Elements -/

/-- The text is read as the element. -/
def ReadElem (outer : NsMap) (x : Node) (s : Str) : Prop :=
  ∀ p : PS, outerScope p.stack = outer →
    run s { p with st := .text } = { p.flush with st := .text, seenRoot := true, evs := p.flush.evs ++ x.events }

/-- The text is read as the content, after the text `r`. -/
def ReadContent (sc : NsMap) (r : Str) (ks : List Node) (s : Str) : Prop :=
  ∀ (p : PS) (raw : Str) (rest : List (Str × NsMap)), p.stack = (raw, sc) :: rest → p.buf = r → p.seenRoot = true →
    ∃ E B, run s { p with st := .text } = { p with st := .text, evs := p.evs ++ E, buf := B } ∧ E ++ Node.eventsL (textRun B) = Node.eventsL ks

theorem read_empty {outer sc : NsMap} {raw sa w : Str} {as : List (Str × Str)} {n : Name} {bs : List Attr} (ha : Spell.Attrs sa as) (hw : Blank w)
    (ht : Tag outer sc raw as n bs) : ReadElem outer (.elem n bs sc []) (c!"<" ++ raw ++ sa ++ w ++ c!"/>") := by
  intro p hp
  have e : c!"<" ++ raw ++ sa ++ w ++ c!"/>" = (c!"<" ++ raw) ++ (sa ++ (w ++ c!"/>")) := by simp
  rw [e, run_append, run_open ht.name]
  obtain ⟨st, h1, h2⟩ := run_attrsSp ha (TagSt.name (nm := raw)) p.flush
  rw [run_append, h2]
  obtain ⟨st', h3⟩ := h1.slash hw p.flush
  rw [h3, List.nil_append, openElem_sp ht _ (by rw [← hp]; rfl), if_pos rfl]
  simp [Node.events, Node.eventsL]

theorem read_full {outer sc : NsMap} {raw sa w w' s : Str} {as : List (Str × Str)} {n : Name} {bs : List Attr} {ks : List Node}
    (ha : Spell.Attrs sa as) (hw : Blank w) (ht : Tag outer sc raw as n bs) (hk : ReadContent sc [] ks s) (hw' : Blank w') :
    ReadElem outer (.elem n bs sc ks) (c!"<" ++ raw ++ sa ++ w ++ c!">" ++ s ++ c!"</" ++ raw ++ w' ++ c!">") := by
  intro p hp
  have e : c!"<" ++ raw ++ sa ++ w ++ c!">" ++ s ++ c!"</" ++ raw ++ w' ++ c!">"
      = (c!"<" ++ raw) ++ (sa ++ ((w ++ c!">") ++ (s ++ (c!"</" ++ raw ++ w' ++ c!">")))) := by simp
  rw [e, run_append, run_open ht.name]
  obtain ⟨st, h1, h2⟩ := run_attrsSp ha (TagSt.name (nm := raw)) p.flush
  rw [run_append, h2]
  obtain ⟨st', h3⟩ := h1.gt hw p.flush
  rw [run_append, h3, List.nil_append, openElem_sp ht _ (by rw [← hp]; rfl), if_neg (by simp)]
  obtain ⟨E, B, h4, h5⟩ := hk { p.flush with evs := p.flush.evs ++ [.start n bs sc], seenRoot := true, stack := (raw, sc) :: p.stack } raw
    p.stack rfl rfl rfl
  rw [run_append]
  have h4' : run s { p.flush with st := .text, evs := p.flush.evs ++ [.start n bs sc], seenRoot := true, stack := (raw, sc) :: p.flush.stack }
      = { p.flush with st := .text, evs := p.flush.evs ++ [.start n bs sc] ++ E, buf := B, seenRoot := true, stack := (raw, sc) :: p.stack } := h4
  rw [h4']
  obtain ⟨st'', h6⟩ := run_close ht.name hw'
    { p.flush with evs := p.flush.evs ++ [.start n bs sc] ++ E, buf := B, seenRoot := true, stack := (raw, sc) :: p.stack }
  dsimp only at h6
  rw [h6, flush_sp]
  unfold PS.closeElem
  dsimp only
  rw [if_pos rfl, elemName_eq ht.elem]
  simp only [Node.events, ← h5]
  simp [PS.flush]

theorem read_nil {sc : NsMap} {r : Str} : ReadContent sc r (textRun r) [] := by
  intro p raw rest _ hb _
  exact ⟨[], r, by rw [← hb]; simp [run], by simp⟩

theorem read_piece {sc : NsMap} {r d s s' : Str} {ks : List Node} (hpc : Piece s d) (hk : ReadContent sc (r ++ d) ks s') :
    ReadContent sc r ks (s ++ s') := by
  intro p raw rest hp hb hs
  obtain ⟨E, B, h1, h2⟩ := hk { p with buf := p.buf ++ d } raw rest hp (by rw [← hb]) hs
  exact ⟨E, B, by rw [run_append, run_piece hpc p (by rw [hp]; simp)]; exact h1, h2⟩

theorem read_pi {sc : NsMap} {r s s' : Str} {ks : List Node} (hpi : Pi s) (hk : ReadContent sc [] ks s') :
    ReadContent sc r (textRun r ++ ks) (s ++ s') := by
  intro p raw rest hp hb hs
  obtain ⟨E, B, h1, h2⟩ := hk p.flush raw rest hp rfl hs
  refine ⟨Node.eventsL (textRun r) ++ E, B, ?_, by rw [eventsL_append, ← h2]; simp⟩
  rw [run_append, run_pi hpi, h1, flush_sp, hb]
  simp

theorem read_elem {sc : NsMap} {r s s' : Str} {x : Node} {ks : List Node} (he : ReadElem sc x s) (hk : ReadContent sc [] ks s') :
    ReadContent sc r (textRun r ++ x :: ks) (s ++ s') := by
  intro p raw rest hp hb hs
  obtain ⟨E, B, h1, h2⟩ := hk { p.flush with seenRoot := true, evs := p.flush.evs ++ x.events } raw rest hp rfl rfl
  refine ⟨Node.eventsL (textRun r) ++ x.events ++ E, B, ?_, by rw [eventsL_append, Node.eventsL, ← h2]; simp⟩
  rw [run_append, he p (by rw [hp]; rfl)]
  dsimp only at h1
  rw [h1, flush_sp, hb, hs]
  simp

theorem run_elemSp {outer : NsMap} {x : Node} {s : Str} (h : Elem outer x s) : ReadElem outer x s :=
  Elem.rec (motive_1 := fun outer x s _ => ReadElem outer x s) (motive_2 := fun sc r ks s _ => ReadContent sc r ks s)
    (fun ha hw ht => read_empty ha hw ht) (fun ha hw ht _ hw' hk => read_full ha hw ht hk hw') read_nil (fun hp _ hk => read_piece hp hk)
    (fun hp _ hk => read_pi hp hk) (fun _ _ he hk => read_elem he hk) h

/-! ### Documents -/

theorem run_misc {s : Str} (h : Misc s) (p : PS) (hb : Blank p.buf) :
    ∃ B, Blank B ∧ run s { p with st := .text } = { p with st := .text, buf := B } := by
  induction h generalizing p with
  | nil => exact ⟨p.buf, hb, rfl⟩
  | @space c s hc _ ih =>
    obtain ⟨w, hw, e⟩ := run_space [c] p (by simpa using hc)
    obtain ⟨B, h1, h2⟩ := ih { p with buf := p.buf ++ w } (fun d hd => by
      rcases List.mem_append.mp hd with hd | hd
      · exact hb d hd
      · exact hw d hd)
    refine ⟨B, h1, ?_⟩
    rw [← List.singleton_append, run_append, e]
    exact h2
  | comment hc _ ih =>
    obtain ⟨B, h1, h2⟩ := ih p hb
    exact ⟨B, h1, by rw [run_append, run_comment hc, h2]⟩
  | pi hc _ ih =>
    have ht : textRun p.buf = [] := by
      unfold textRun
      have := trim_append_space [] p.buf hb
      rw [List.nil_append] at this
      rw [this]; rfl
    obtain ⟨B, h1, h2⟩ := ih p.flush (by intro c hc; cases hc)
    refine ⟨B, h1, ?_⟩
    rw [run_append, run_pi hc, h2, flush_sp, ht]
    simp [Node.eventsL]

/-- Every spelling of a document is read as the document. -/
theorem parse_spelling {x : Node} {s : Str} (h : Doc x s) : parse s = ⟨.startDocument :: x.events, none⟩ := by
  cases h with
  | @mk a s b ha hs hb =>
    obtain ⟨B, h1, h2⟩ := run_misc ha {} (by intro c hc; cases hc)
    have ht : textRun B = [] := by
      unfold textRun
      have := trim_append_space [] B h1
      rw [List.nil_append] at this
      rw [this]; rfl
    have h3 := run_elemSp hs { buf := B } rfl
    obtain ⟨C, -, h4⟩ := run_misc hb { evs := x.events, seenRoot := true } (by intro c hc; cases hc)
    unfold parse
    show (run (a ++ s ++ b) {}).finish = _
    rw [run_append, run_append]
    have e1 : run a {} = { ({ buf := B } : PS) with st := .text } := h2
    rw [e1, h3, flush_sp, ht]
    have e2 : ∀ e : List REv, e = x.events → run b { evs := e, buf := [], stack := [], seenRoot := true, st := .text }
        = { evs := x.events, seenRoot := true, st := .text, buf := C } := by
      rintro e rfl; exact h4
    rw [e2 _ (by simp [Node.eventsL])]
    rfl

end XmlText
end Yaserde
