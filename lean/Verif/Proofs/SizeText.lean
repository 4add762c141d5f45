import Verif.Spec.Size
import Verif.Proofs.XmlText
import Verif.Spec.Decode
import Verif.Spec.Words
/-
The character-level parser: the events are not larger than the text.
-/

set_option autoImplicit false

namespace Yaserde
namespace XmlText

/-- The attributes read so far. -/
def rawSize (as : List (Str × Str)) : Nat := (as.map fun a => 5 + a.2.length).sum

/-- What the parser has read and not yet delivered, except for text. -/
def heldBy : PSt → Nat
  | .lt => 1
  | .openName _ => 1
  | .inTag _ as => 2 + rawSize as
  | .attrName _ as _ => 3 + rawSize as
  | .attrEq _ as _ => 3 + rawSize as
  | .attrQuote _ as _ => 4 + rawSize as
  | .attrVal _ as _ _ acc => 5 + rawSize as + acc.length
  | .attrRef _ as _ _ acc _ => 5 + rawSize as + acc.length
  | .afterVal _ as => 1 + rawSize as
  | .slash _ as => 2 + rawSize as
  | _ => 0

def PS.held (p : PS) : Nat := docSize p.evs + p.buf.length + heldBy p.st

theorem docSize_append (a b : List REv) : docSize (a ++ b) = docSize a + docSize b := by simp [docSize]

theorem docSize_one (e : REv) : docSize [e] = e.size := by simp [docSize]

theorem length_dropWhile_le (p : Char → Bool) (s : Str) : (s.dropWhile p).length ≤ s.length := by
  induction s with
  | nil => simp
  | cons c cs ih => rw [List.dropWhile_cons]; split <;> simp <;> omega

theorem trim_length (s : Str) : (trim s).length ≤ s.length := by
  unfold trim
  rw [List.length_reverse]
  refine Nat.le_trans (length_dropWhile_le ..) ?_
  rw [List.length_reverse]
  exact length_dropWhile_le ..

theorem flush_held (p : PS) : docSize p.flush.evs + p.flush.buf.length ≤ docSize p.evs + p.buf.length + 1 := by
  have := trim_length p.buf
  unfold PS.flush
  dsimp only
  split
  · simp only [List.length_nil]; omega
  · simp only [docSize_append, docSize_one, REv.size, List.length_nil]
    omega

theorem rawSize_filter (q : Str × Str → Bool) (as : List (Str × Str)) : rawSize (as.filter q) ≤ rawSize as := by
  induction as with
  | nil => simp [rawSize]
  | cons a as ih =>
    rw [List.filter_cons]
    split <;> simp only [rawSize, List.map_cons, List.sum_cons] at ih ⊢ <;> omega

theorem resolveAttrs_size (scope : NsMap) : ∀ (as : List (Str × Str)) (out : List Attr), resolveAttrs scope as = some out →
    attrsSize out = rawSize as
  | [], out, h => by cases h; rfl
  | a :: as, out, h => by
    unfold resolveAttrs at h
    split at h
    · rename_i n rest hn hr
      cases h
      have := resolveAttrs_size scope as rest hr
      simp only [attrsSize, rawSize, List.map_cons, List.sum_cons] at this ⊢
      omega
    · cases h

theorem openElem_held (p : PS) (nm : Str) (as : List (Str × Str)) (b : Bool) (n : Nat)
    (h : docSize p.evs + p.buf.length + (1 + rawSize as) + (if b then 1 else 0) ≤ n) : (p.openElem nm as b).held ≤ n := by
  unfold PS.openElem
  split
  · simp only [PS.held, PS.fail, heldBy]; omega
  · dsimp only
    split
    · rename_i n as' hn hr
      have h1 := resolveAttrs_size _ _ _ hr
      have h2 := rawSize_filter (fun a => (declOf a).isNone) as
      split
      · rename_i hb
        subst hb
        simp only [PS.held, heldBy, docSize_append, docSize_one, REv.size, if_true] at h ⊢
        omega
      · simp only [PS.held, heldBy, docSize_append, docSize_one, REv.size] at h ⊢
        omega
    · simp only [PS.held, PS.fail, heldBy]; omega
    · simp only [PS.held, PS.fail, heldBy]; omega

theorem closeElem_held (p : PS) (nm : Str) (n : Nat) (h : docSize p.evs + p.buf.length + 1 ≤ n) : (p.closeElem nm).held ≤ n := by
  unfold PS.closeElem
  split
  · split
    · split
      · simp only [PS.held, heldBy, docSize_append, docSize_one, REv.size] at h ⊢
        omega
      · simp only [PS.held, PS.fail, heldBy]; omega
    · simp only [PS.held, PS.fail, heldBy]; omega
  · simp only [PS.held, PS.fail, heldBy]; omega

theorem pushText_held (p : PS) (c : Char) (n : Nat) (hs : heldBy p.st = 0) (h : docSize p.evs + p.buf.length + 1 ≤ n) :
    (p.pushText c).held ≤ n := by
  unfold PS.pushText
  split
  · simp only [PS.held, PS.fail, heldBy]; omega
  · simp only [PS.held, hs, List.length_append, List.length_cons, List.length_nil]; omega

set_option maxHeartbeats 1000000 in
/-- Every character of the text adds at most one. -/
theorem step_held (p : PS) (c : Char) : (p.step c).held ≤ p.held + 1 := by
  have hf := flush_held p
  have hsum : ∀ as (a : Str × Str), rawSize (as ++ [a]) = rawSize as + (5 + a.2.length) := by
    intro as a; simp [rawSize]
  have hnil : rawSize [] = 0 := rfl
  have hfail : ∀ (m : Str), (p.fail m).held ≤ p.held + 1 := by
    intro m; simp only [PS.held, PS.fail, heldBy]; omega
  have hst' : ∀ (st : PSt), heldBy st ≤ heldBy p.st + 1 → PS.held { p with st := st } ≤ p.held + 1 := by
    intro st h; simp only [PS.held]; omega
  have hfl : ∀ (st : PSt), heldBy p.st = 1 → heldBy st ≤ 1 → PS.held { p.flush with st := st } ≤ p.held + 1 := by
    intro st h1 h2; simp only [PS.held]; omega
  unfold PS.step
  cases hst : p.st <;> dsimp only
  all_goals
    repeat' split
    all_goals first
      | exact hfail _
      | exact Nat.le_succ _
      | (refine hfl _ ?_ ?_ <;> simp only [hst, heldBy] <;> omega)
      | (refine hst' _ ?_; simp only [hst, heldBy, hsum, hnil, List.length_append, List.length_cons, List.length_nil]; omega)
      | (refine openElem_held _ _ _ _ _ ?_; simp only [PS.held, hst, heldBy, hnil, if_true, Bool.false_eq_true, if_false]; omega)
      | (refine closeElem_held _ _ _ ?_; simp only [PS.held, hst, heldBy]; omega)
      | (refine pushText_held _ _ _ (by simp only [hst, heldBy]) ?_; simp only [PS.held]; omega)
      | (simp only [PS.held, hst, heldBy, List.length_append, List.length_cons, List.length_nil, List.length_take]; omega)

theorem held_parse (s : Str) : (s.foldl PS.step {}).held ≤ s.length := by
  have : ∀ p : PS, (s.foldl PS.step p).held ≤ p.held + s.length := by
    induction s with
    | nil => intro p; simp
    | cons c s ih =>
      intro p
      have h1 := step_held p c
      have h2 := ih (p.step c)
      simp only [List.foldl_cons, List.length_cons]
      omega
  have h0 : PS.held {} = 0 := rfl
  have := this {}
  omega

/-- The events delivered are, together, not larger than the text. -/
theorem parse_size (s : Str) : docSize (parse s).evs ≤ s.length := by
  have h := held_parse s
  unfold parse
  generalize s.foldl PS.step {} = p at h
  have h1 : docSize (.startDocument :: p.evs) ≤ s.length := by
    unfold PS.held at h
    simp only [docSize, List.map_cons, List.sum_cons, REv.size] at h ⊢
    omega
  unfold PS.finish
  repeat' split
  all_goals exact h1

/-! ### The document in which an attribute of a derived type is read -/

/-- States in which a character other than `;` and `>` leads to no event. -/
def PSt.quiet : PSt → Bool
  | .ref _ => true
  | .attrRef .. => true
  | .comment _ => true
  | .cdata _ => true
  | .pi _ => true
  | .failed _ => true
  | _ => false

theorem quiet_step {p : PS} {c : Char} (h : p.st.quiet = true) (hc : c ≠ ';') :
    (p.step c).evs = p.evs ∧ (c ≠ '>' → (p.step c).st.quiet = true) := by
  unfold PS.step
  cases hst : p.st <;> rw [hst] at h <;> first | (exfalso; revert h; decide) | skip
  all_goals
    dsimp only
    repeat' split
    all_goals first
      | contradiction
      | (refine ⟨rfl, fun _ => ?_⟩; first | rfl | (rw [hst]; rfl))
      | (refine ⟨rfl, fun hg => ?_⟩; rename_i hh; simp only [Bool.and_eq_true, decide_eq_true_eq] at hh; exact absurd hh.1 hg)

theorem quiet_run (s : Str) : ∀ (p : PS), p.st.quiet = true → (∀ c ∈ s, c ≠ ';' ∧ c ≠ '>') →
    (run s p).evs = p.evs ∧ (run s p).st.quiet = true := by
  induction s with
  | nil => intro p h _; exact ⟨rfl, h⟩
  | cons c s ih =>
    intro p h hs
    have h1 := hs c (List.mem_cons_self ..)
    obtain ⟨h2, h3⟩ := quiet_step h h1.1
    obtain ⟨h4, h5⟩ := ih (p.step c) (h3 h1.2) fun c hc => hs c (List.mem_cons_of_mem _ hc)
    rw [run_cons]
    exact ⟨h4.trans h2, h5⟩

/-- Inside markup, the beginning of an end tag leads to no event. -/
theorem markup_close {p : PS} (h : p.st ≠ .text) {c : Char} (hc : isNameStart c = true) :
    (run ['<', '/', c] p).evs = p.evs ∧ (run ['<', '/', c] p).st.quiet = true := by
  have hc1 : c ≠ ';' ∧ c ≠ '>' := by
    constructor <;> (rintro rfl; revert hc; decide)
  by_cases hq : p.st.quiet = true
  · refine quiet_run _ p hq ?_
    intro d hd
    simp only [List.mem_cons, List.not_mem_nil, or_false] at hd
    rcases hd with rfl | rfl | rfl
    · decide
    · decide
    · exact hc1
  · have hstop : ∀ acc, ¬nameStep acc '<' = true := fun acc => nameStep_stop acc (by decide) (by decide)
    have hws : isWs '<' = false := by decide
    have fin : ∀ m, p.step '<' = p.fail m →
        (run ['<', '/', c] p).evs = p.evs ∧ (run ['<', '/', c] p).st.quiet = true := by
      intro m hm
      rw [run_cons, hm]
      refine quiet_run ['/', c] (p.fail m) rfl ?_
      intro d hd
      simp only [List.mem_cons, List.not_mem_nil, or_false] at hd
      rcases hd with rfl | rfl
      · decide
      · exact hc1
    cases hst : p.st with
    | text => exact absurd hst h
    | ref => rw [hst] at hq; exact absurd rfl hq
    | attrRef => rw [hst] at hq; exact absurd rfl hq
    | comment => rw [hst] at hq; exact absurd rfl hq
    | cdata => rw [hst] at hq; exact absurd rfl hq
    | pi => rw [hst] at hq; exact absurd rfl hq
    | failed => rw [hst] at hq; exact absurd rfl hq
    | attrVal nm as an q acc =>
      by_cases hqc : '<' = q
      · have h1 : p.step '<' = { p with st := .afterVal nm (as ++ [(an, acc)]) } := by
          unfold PS.step; rw [hst]; dsimp only; rw [if_pos hqc]
        have h2 : PS.step { p with st := .afterVal nm (as ++ [(an, acc)]) } '/' = { p with st := .slash nm (as ++ [(an, acc)]) } := by
          unfold PS.step; dsimp only; rfl
        have h3 : PS.step { p with st := .slash nm (as ++ [(an, acc)]) } c =
            PS.fail { p with st := .slash nm (as ++ [(an, acc)]) } c!"Unexpected token inside tag" := by
          unfold PS.step; dsimp only; rw [if_neg hc1.2]
        rw [run_cons, h1, run_cons, h2, run_cons, h3]
        exact ⟨rfl, rfl⟩
      · refine fin c!"Unexpected token in attribute value" ?_
        unfold PS.step; rw [hst]; dsimp only; rw [if_neg hqc]; rfl
    | bang acc =>
      refine fin c!"Unexpected token" ?_
      have hb : ∀ t : Str, '<' ∉ t → acc ++ ['<'] ≠ t := by
        intro t ht he; exact ht (he ▸ by simp)
      have hb' : (acc ++ ['<']).isPrefixOf c!"[CDATA[" = false := by
        rw [Bool.eq_false_iff]
        intro hp
        have := List.isPrefixOf_iff_prefix.mp hp
        have := this.subset (show '<' ∈ acc ++ ['<'] by simp)
        revert this; decide
      unfold PS.step; rw [hst]; dsimp only
      rw [if_neg (hb _ (by decide)), if_neg (hb _ (by decide)), if_neg]
      simp only [hb', Bool.false_or, decide_eq_true_eq]
      exact hb _ (by decide)
    | lt =>
      refine fin c!"Unexpected token" ?_
      unfold PS.step; rw [hst]; dsimp only
      rw [if_neg (by decide), if_neg (by decide), if_neg (by decide), if_neg (hstop _)]
    | openName acc =>
      refine fin c!"Unexpected token inside tag" ?_
      unfold PS.step; rw [hst]; dsimp only
      rw [if_neg (hstop _), if_neg (by decide), if_neg (by decide), if_neg (by decide)]
    | inTag nm as =>
      refine fin c!"Unexpected token inside tag" ?_
      unfold PS.step; rw [hst]; dsimp only
      rw [if_neg (by decide), if_neg (by decide), if_neg (by decide), if_neg (hstop _)]
    | attrName nm as acc =>
      refine fin c!"Unexpected token in attribute" ?_
      unfold PS.step; rw [hst]; dsimp only
      rw [if_neg (hstop _), if_neg (by decide), if_neg (by decide)]
    | attrEq nm as an =>
      refine fin c!"Unexpected token in attribute" ?_
      unfold PS.step; rw [hst]; rfl
    | attrQuote nm as an =>
      refine fin c!"Unexpected token in attribute" ?_
      unfold PS.step; rw [hst]; rfl
    | afterVal nm as =>
      refine fin c!"Unexpected token inside tag" ?_
      unfold PS.step; rw [hst]; rfl
    | slash nm as =>
      refine fin c!"Unexpected token inside tag" ?_
      unfold PS.step; rw [hst]; rfl
    | closeName acc =>
      refine fin c!"Unexpected token inside closing tag" ?_
      unfold PS.step; rw [hst]; dsimp only
      rw [if_neg (hstop _), if_neg (by decide), if_neg (by decide)]
    | closeWs acc =>
      refine fin c!"Unexpected token inside closing tag" ?_
      unfold PS.step; rw [hst]; rfl

theorem parse_evs (s : Str) : (parse s).evs = .startDocument :: (run s {}).evs := by
  show ((s.foldl PS.step {}).finish).evs = _
  show _ = .startDocument :: (s.foldl PS.step {}).evs
  unfold PS.finish
  repeat' split
  all_goals rfl

theorem run_held (s : Str) : ∀ p : PS, (run s p).held ≤ p.held + s.length := by
  induction s with
  | nil => intro p; simp [run]
  | cons c s ih =>
    intro p
    have h1 := step_held p c
    have h2 := ih (p.step c)
    rw [run_cons]
    simp only [List.length_cons]
    omega

/-- The end tag of the element around the value: the text before it, and itself. -/
theorem close_size {q : Str} (hq : isNCName q = true) (p : PS) : docSize (run (c!"</" ++ q ++ c!">") p).evs ≤ p.held + 2 := by
  have hp : docSize p.evs ≤ p.held := by unfold PS.held; omega
  by_cases ht : p.st = .text
  · have h1 : p.step '<' = { p with st := .lt } := by unfold PS.step; rw [ht]; rfl
    have h2 : PS.step { p with st := .lt } '/' = { p.flush with st := .closeName [] } := by unfold PS.step; rfl
    have e : run (c!"</" ++ q ++ c!">") p = run c!">" (run q { p.flush with st := .closeName [] }) := by
      rw [run_append, run_append]
      show run _ (run q (run [] ((p.step '<').step '/'))) = _
      rw [h1, h2]; rfl
    have hl := ncName_like hq
    rw [e, run_closeName q _ _ hl.2]
    have h3 : PS.step { p.flush with st := .closeName ([] ++ q) } '>' =
        PS.closeElem { p.flush with st := .closeName ([] ++ q) } ([] ++ q) := by
      unfold PS.step; dsimp only
      rw [if_neg (nameStep_stop _ (by decide) (by decide)), if_pos rfl]
    show docSize (PS.step { p.flush with st := .closeName ([] ++ q) } '>').evs ≤ _
    rw [h3]
    have hf := flush_held p
    have := closeElem_held { p.flush with st := .closeName ([] ++ q) } ([] ++ q) (p.held + 2) (by
      show docSize p.flush.evs + p.flush.buf.length + 1 ≤ _
      unfold PS.held
      omega)
    unfold PS.held at this ⊢
    omega
  · cases q with
    | nil => cases hq
    | cons c cs =>
      have hparts := ncName_parts hq
      have hc : isNameStart c = true := by
        unfold isNCName at hq; simp only [Bool.and_eq_true] at hq; exact hq.1
      obtain ⟨h1, h2⟩ := markup_close ht hc
      have e : c!"</" ++ (c :: cs) ++ c!">" = ['<', '/', c] ++ (cs ++ ['>']) := rfl
      rw [e, run_append, run_append]
      obtain ⟨h3, h4⟩ := quiet_run cs _ h2 fun d hd => by
        have := hparts d (List.mem_cons_of_mem _ hd)
        constructor <;> (rintro rfl; revert this; decide)
      have h5 := (quiet_step (c := '>') h4 (by decide)).1
      show docSize (PS.step _ '>').evs ≤ _
      rw [h5, h3, h1]
      omega

/-- The document for an attribute is larger than the value by at most 3. -/
theorem attrDoc_size {q : Path} (hq : isNCName q.flatten = true) (s : Str) : docSize (parse (attrDoc q s)).evs ≤ s.length + 3 := by
  rw [parse_evs]
  have e0 : ∀ es, docSize (.startDocument :: es) = docSize es := by
    intro es; simp [docSize, REv.size]
  rw [e0]
  unfold attrDoc
  have e : c!"<" ++ q.flatten ++ c!">" ++ s ++ c!"</" ++ q.flatten ++ c!">" =
      (c!"<" ++ q.flatten ++ c!">") ++ (s ++ (c!"</" ++ q.flatten ++ c!">")) := by simp only [List.append_assoc]
  rw [e, run_append, run_append]
  have h1 : (run (c!"<" ++ q.flatten ++ c!">") {}).held ≤ 1 := by
    have hl := ncName_like hq
    revert hl
    cases hqf : q.flatten with
    | nil => rintro ⟨h, _⟩; exact absurd rfl h
    | cons c cs =>
      rintro ⟨_, h⟩
      have hh := nameChar_ne h.1
      have hs : PS.step { st := .lt } c = { st := .openName [c] } := by
        unfold PS.step; dsimp only
        rw [if_neg hh.1, if_neg hh.2.1, if_neg hh.2.2.1, if_pos h.1]; rfl
      have e : run (c!"<" ++ (c :: cs) ++ c!">") {} = run c!">" (run cs { ({} : PS) with st := .openName [c] }) := by
        rw [run_append]
        show run _ (run cs (PS.step { st := .lt } c)) = _
        rw [hs]
      have hr := run_openName cs ({} : PS) [c] h.2
      rw [e, hr]
      show (PS.step { ({} : PS) with st := .openName ([c] ++ cs) } '>').held ≤ 1
      have h3 : PS.step { ({} : PS) with st := .openName ([c] ++ cs) } '>' =
          PS.openElem { ({} : PS) with st := .openName ([c] ++ cs) } ([c] ++ cs) [] false := by
        unfold PS.step; dsimp only
        rw [if_neg (nameStep_stop _ (by decide) (by decide)), if_neg (by decide), if_pos rfl]
      rw [h3]
      exact openElem_held _ _ _ _ _ (Nat.le_refl _)
  have h2 := run_held s (run (c!"<" ++ q.flatten ++ c!">") {})
  have h3 := close_size hq (run s (run (c!"<" ++ q.flatten ++ c!">") {}))
  omega

/-! ### Texts without white space have no attributes -/

/-- States reached without white space. -/
def PSt.bare : PSt → Bool
  | .inTag .. => false
  | .attrName .. => false
  | .attrEq .. => false
  | .attrQuote .. => false
  | .attrVal .. => false
  | .attrRef .. => false
  | .afterVal .. => false
  | .slash _ as => as.isEmpty
  | _ => true

theorem bare_flush {p : PS} (h : p.evs.all bareEv = true) : p.flush.evs.all bareEv = true := by
  unfold PS.flush
  dsimp only
  split
  · exact h
  · rw [List.all_append, h]; rfl

theorem bare_open {p : PS} (nm : Str) (b : Bool) (h : p.evs.all bareEv = true) :
    (p.openElem nm [] b).evs.all bareEv = true ∧ (p.openElem nm [] b).st.bare = true := by
  unfold PS.openElem
  split
  · exact ⟨h, rfl⟩
  · dsimp only
    split
    · rename_i n as hn hr
      cases hr
      split
      · refine ⟨?_, rfl⟩
        rw [List.all_append, List.all_append, h]; rfl
      · refine ⟨?_, rfl⟩
        rw [List.all_append, h]; rfl
    · exact ⟨h, rfl⟩
    · exact ⟨h, rfl⟩

theorem bare_close {p : PS} (nm : Str) (h : p.evs.all bareEv = true) :
    (p.closeElem nm).evs.all bareEv = true ∧ (p.closeElem nm).st.bare = true := by
  unfold PS.closeElem
  split
  · split
    · split
      · refine ⟨?_, rfl⟩
        rw [List.all_append, h]; rfl
      · exact ⟨h, rfl⟩
    · exact ⟨h, rfl⟩
  · exact ⟨h, rfl⟩

theorem bare_push {p : PS} (c : Char) (h : p.evs.all bareEv = true) (hs : p.st.bare = true) :
    (p.pushText c).evs.all bareEv = true ∧ (p.pushText c).st.bare = true := by
  unfold PS.pushText
  split
  · exact ⟨h, rfl⟩
  · exact ⟨h, hs⟩

theorem bare_step {p : PS} {c : Char} (hc : isWs c = false) (h : p.evs.all bareEv = true) (hs : p.st.bare = true) :
    (p.step c).evs.all bareEv = true ∧ (p.step c).st.bare = true := by
  have hf := bare_flush h
  unfold PS.step
  cases hst : p.st <;> rw [hst] at hs <;> first | (exfalso; revert hs; simp only [PSt.bare]; decide) | skip
  all_goals
    dsimp only
    repeat' split
    all_goals first
      | exact ⟨h, rfl⟩
      | exact ⟨hf, rfl⟩
      | exact ⟨h, by rw [hst]; rfl⟩
      | exact bare_open _ _ h
      | exact bare_close _ h
      | exact bare_push _ h (by first | rfl | (rw [hst]; rfl))
      | (exfalso; rename_i hw; rw [hc] at hw; cases hw)
      | (rename_i as _; cases as with
          | nil => exact bare_open _ _ h
          | cons a as => cases hs)

theorem bare_run (s : Str) : ∀ (p : PS), (∀ c ∈ s, isWs c = false) → p.evs.all bareEv = true → p.st.bare = true →
    (run s p).evs.all bareEv = true := by
  induction s with
  | nil => intro p _ h _; exact h
  | cons c s ih =>
    intro p hc h hs
    obtain ⟨h1, h2⟩ := bare_step (hc c (List.mem_cons_self ..)) h hs
    rw [run_cons]
    exact ih _ (fun d hd => hc d (List.mem_cons_of_mem _ hd)) h1 h2

theorem bare_attrDoc {q : Path} (hq : isNCName q.flatten = true) {w : Str} (hw : ∀ c ∈ w, c.toNat ∉ blanks) :
    (parse (attrDoc q w)).evs.all bareEv = true := by
  rw [parse_evs, List.all_cons]
  have hn : ∀ c ∈ q.flatten, isWs c = false := by
    intro c hc
    have := ncName_parts hq c hc
    simp only [isWs, Bool.or_eq_false_iff, beq_eq_false_iff_ne]
    refine ⟨⟨⟨?_, ?_⟩, ?_⟩, ?_⟩ <;> (rintro rfl; revert this; decide)
  have hw' : ∀ c ∈ w, isWs c = false := by
    intro c hc
    have := hw c hc
    simp only [isWs, Bool.or_eq_false_iff, beq_eq_false_iff_ne]
    refine ⟨⟨⟨?_, ?_⟩, ?_⟩, ?_⟩ <;> (rintro rfl; revert this; decide)
  have h1 : ∀ d ∈ ['<', '>', '/'], isWs d = false := by decide
  rw [bare_run _ {} ?_ rfl rfl]
  · rfl
  · intro c hc
    unfold attrDoc at hc
    simp only [List.mem_append, List.mem_cons, List.not_mem_nil, or_false] at hc
    rcases hc with (((((rfl | hc) | rfl) | hc) | (rfl | rfl)) | hc) | rfl
    · decide
    · exact hn c hc
    · decide
    · exact hw' c hc
    · decide
    · decide
    · exact hn c hc
    · decide

end XmlText
end Yaserde
