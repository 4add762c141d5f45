import Verif.Proofs.Term
import Verif.Proofs.ParseWf
import Verif.Props.Decode
/-
Properties C07 (termination), C22 (panics), C28 (content after the document element).
-/

set_option autoImplicit false
set_option maxRecDepth 100000

namespace Yaserde

/-! ### C22: panics -/

/-- C22, the part that holds.  With an XML parser that delivers well-formed event sequences, no
document whatsoever makes `from_str` panic, provided the enums of the program carry no numbers or
Booleans as payload of one-field variants.
(Missing: enum payloads that are numbers — they do panic, see `C22_false`.) -/
theorem C22_no_panic_partial (L : Lib) (hL : ∀ s, WellFormed (L.parse s)) (env : Env) (he : PanicFree env)
    (p : Path) (hp : env p ≠ none) (s : Str) (m : Str) : ¬ Returns L env p s (.panic m) := by
  rintro ⟨-, n, hn⟩
  have h := NP.deser L hL env he n p hp _ (Good.new (hL s))
  unfold NPat at h
  unfold deFromStr fromStr at hn
  split at h <;> rename_i heq <;> rw [heq] at hn <;> cases hn
  exact h

namespace Sample
open Tests

def color2 : EnumDef :=
  { name := c!"Color"
    variants := [vU c!"White", vU c!"Red" (rn c!"red"), vN c!"Mix" (T c!"Author"), vN c!"Rgb" (V Tests.S)]
    dflt := .enum 0 [] }

/-- The sample program without numeric enum payloads. -/
def env2 : Env := envOf [([c!"Author"], .struct author), ([c!"Color"], .enum color2), ([c!"Book"], .struct book)]

theorem env2_cases {p : Path} {t : TypeDef} (h : env2 p = some t) :
    (p = [c!"Author"] ∧ t = .struct author) ∨ (p = [c!"Color"] ∧ t = .enum color2) ∨ (p = [c!"Book"] ∧ t = .struct book) := by
  simp only [env2, envOf, List.find?] at h
  split at h
  · rename_i hp; exact .inl ⟨(beq_iff_eq.mp hp).symm, by simpa using h.symm⟩
  · split at h
    · rename_i hp; exact .inr (.inl ⟨(beq_iff_eq.mp hp).symm, by simpa using h.symm⟩)
    · split at h
      · rename_i hp; exact .inr (.inr ⟨(beq_iff_eq.mp hp).symm, by simpa using h.symm⟩)
      · simp at h

theorem panicFree2 : PanicFree env2 := by
  have hA : env2 [c!"Author"] ≠ none := by decide +kernel
  have hC : env2 [c!"Color"] ≠ none := by decide +kernel
  refine ⟨fun p d h => ?_, fun p d h => ?_, fun p d h => ?_⟩
  · rcases env2_cases h with ⟨-, h⟩ | ⟨-, h⟩ | ⟨-, h⟩ <;> cases h
    · intro f hf
      simp only [author, List.mem_cons, List.not_mem_nil, or_false] at hf
      rcases hf with rfl | rfl <;> exact .inl ⟨_, rfl⟩
    · intro f hf
      simp only [book, List.mem_cons, List.not_mem_nil, or_false] at hf
      rcases hf with rfl | rfl | rfl | rfl | rfl | rfl | rfl | rfl | rfl
      all_goals first
        | exact .inl ⟨_, rfl⟩
        | exact .inr ⟨_, rfl, hA⟩
        | exact .inr ⟨_, rfl, hC⟩
  · rcases env2_cases h with ⟨-, h⟩ | ⟨-, h⟩ | ⟨-, h⟩ <;> cases h
    · exact author_plain.flatTy
    · exact book_plain.flatTy
  · rcases env2_cases h with ⟨-, h⟩ | ⟨-, h⟩ | ⟨-, h⟩ <;> cases h
    intro v hv t ht
    simp only [color2, List.mem_cons, List.not_mem_nil, or_false] at hv
    rcases hv with rfl | rfl | rfl | rfl <;> cases ht
    · exact .inr ⟨_, rfl, hA⟩
    · exact .inl rfl

/-- All texts, character-level parser. -/
example (s m : Str) : ¬ Returns lib env2 [c!"Book"] s (.panic m) :=
  C22_no_panic_partial lib XmlText.parse_wellFormed env2 panicFree2 _ (by decide +kernel) s m

end Sample

/-- C22 is false of the code: a malformed number as the payload of an enum variant panics. -/
theorem C22_false : ∃ m, Returns Tests.lib Sample.env [c!"Book"]
    c!"<book id=\"7\"><title>T</title><color><Grey>x</Grey></color></book>" (.panic m) := by
  have h : (match deFromStr Tests.lib Sample.env 60 [c!"Book"]
    c!"<book id=\"7\"><title>T</title><color><Grey>x</Grey></color></book>" with | .panic _ => true | _ => false) = true := by
    decide +kernel
  split at h
  · rename_i m hm; exact ⟨m, by simp, 60, hm⟩
  · cases h

/-! ### C07: termination -/

/-- C07, the part about well-formed input: every conforming document is read to an end.
(Missing: well-formed documents that do not conform; some of them are never finished, see
`C07_false`.) -/
theorem C07_conforming_partial (L : Lib) (env : Env) (k : Nat) (p : Path) (s : Str) (x : Node)
    (hdoc : IsDoc (L.parse s) x) (hconf : ConfN L env k x p) : ∃ r, Returns L env p s r :=
  ⟨_, (returns_iff L env k p s x hdoc hconf _).mpr rfl⟩

open Sample in
example : ∃ r, Returns Tests.lib env [c!"Book"] text1 r := C07_conforming_partial _ _ 0 _ _ _ isDoc1 conf1

/-- C07, the part about broken input: on every text that the XML parser finds malformed or
truncated, `from_str` comes to an end, for every program without flattened fields whose enums do not contain
themselves as payload.
(Missing: see `C07_false`, `C07_false_enum`.) -/
theorem C07_broken_partial (L : Lib) (env : Env) (rank : Path → Nat) (bound : Nat) (he : Ranked env rank bound)
    (p : Path) (s : Str) (hend : REv.endDocument ∉ (L.parse s).evs) (hfin : (L.parse s).fin ≠ none) :
    ∃ r, Returns L env p s r := by
  have hb : Broken (Rd.new (L.parse s)) := by
    refine ⟨hfin, ?_⟩
    rw [(at_new (L.parse s)).vis]
    intro h
    exact hend (List.mem_filter.mp h).1
  have h := TM.deser L env rank bound he _ (Rd.new (L.parse s)).len p (Nat.le_refl _) _ hb (Nat.le_refl _)
  refine ⟨deFromStr L env ((Rd.len (Rd.new (L.parse s)) + 1) * (bound + 3) + rank p) p s, ?_, _, rfl⟩
  unfold TM at h
  unfold deFromStr fromStr
  intro hd
  split at h <;> rename_i heq <;> rw [heq] at hd <;> cases hd
  exact h

/-- C06, C07 and C22 together: a text that breaks before its document element is closed is
rejected with an error, for every program to which `C07_broken_partial` and `C22_no_panic_partial` apply. -/
theorem C07_truncated_rejected (L : Lib) (hL : ∀ s, WellFormed (L.parse s)) (env : Env) (hpf : PanicFree env)
    (rank : Path → Nat) (bound : Nat) (he : Ranked env rank bound)
    (p : Path) (d : StructDef) (hp : env p = some (.struct d)) (hflat : d.attrs.flatten = false) (s : Str)
    (hfin : (L.parse s).fin ≠ none)
    (hopen : ∀ pre name post, (L.parse s).evs = pre ++ .endE name :: post → opens pre ≠ closes pre + 1) :
    ∃ m, Returns L env p s (.err m) := by
  obtain ⟨r, hr⟩ := C07_broken_partial L env rank bound he p s (hL s).noEnd hfin
  cases r with
  | ok v =>
    obtain ⟨h0, n, hn⟩ := hr
    obtain ⟨pre, name, post, h1, h2⟩ := C06_ok_needs_closed_root L env p d hp hflat (L.parse s) v ⟨by simp, n, hn⟩
    exact (hopen pre name post h1 h2).elim
  | err m => exact ⟨m, hr⟩
  | panic m => exact (C22_no_panic_partial L hL env hpf p (by rw [hp]; simp) s m hr).elim
  | diverge => exact (hr.1 rfl).elim

namespace Sample
open Tests

def rank2 (p : Path) : Nat := if p = [c!"Color"] then 1 else 0

theorem ranked2 : Ranked env2 rank2 1 := by
  refine ⟨fun p => by unfold rank2; split <;> omega, fun p d h => ?_, fun p d h => ?_, fun p d h => ?_⟩
  · rcases env2_cases h with ⟨-, h⟩ | ⟨-, h⟩ | ⟨-, h⟩ <;> cases h
    · exact not_hasFlat author (by decide)
    · exact not_hasFlat book (by decide)
  · rcases env2_cases h with ⟨-, h⟩ | ⟨-, h⟩ | ⟨-, h⟩ <;> cases h
    · intro f hf ha
      simp only [author, List.mem_cons, List.not_mem_nil, or_false] at hf
      rcases hf with rfl | rfl <;> cases ha
    · intro f hf ha
      simp only [book, List.mem_cons, List.not_mem_nil, or_false] at hf
      rcases hf with rfl | rfl | rfl | rfl | rfl | rfl | rfl | rfl | rfl <;>
        first | exact ⟨.string, rfl⟩ | exact ⟨.int .u32, rfl⟩ | cases ha
  · rcases env2_cases h with ⟨hp, h⟩ | ⟨hp, h⟩ | ⟨hp, h⟩ <;> cases h
    intro v hv t q ht hq
    subst hp
    simp only [color2, List.mem_cons, List.not_mem_nil, or_false] at hv
    rcases hv with rfl | rfl | rfl | rfl <;> cases ht <;> cases hq
    decide

/-- A text cut off inside an element, and a text with a wrong end tag. -/
example : ∃ r, Returns lib env2 [c!"Book"] c!"<book><title>T</title><color><Mix><na" r :=
  C07_broken_partial _ _ _ _ ranked2 _ _ (by decide +kernel) (by decide +kernel)
example : ∃ m, Returns lib env2 [c!"Book"] c!"<book><title>T</author></book>" (.err m) := by
  refine C07_truncated_rejected _ XmlText.parse_wellFormed _ panicFree2 _ _ ranked2 _ book rfl rfl _ (by decide +kernel) ?_
  intro pre name post h h'
  have hev : (lib.parse c!"<book><title>T</author></book>").evs
    = [.startDocument, .start ⟨c!"book", none, none⟩ [] [], .start ⟨c!"title", none, none⟩ [] [], .chars c!"T"] := by
    decide +kernel
  rw [hev] at h
  have := congrArg closes h
  simp [closes] at this

end Sample

/-- C07 is false of the code: the document `<author>x</author>`, read as
`struct Book { author: String }`, is never finished. -/
theorem C07_false :
    ¬ ∃ r, Returns Tests.lib (Tests.envOf [Tests.mkS c!"Book" [Tests.F c!"author" Tests.S]]) [c!"Book"]
      c!"<author>x</author>" r := by
  rintro ⟨r, hr, n, hn⟩
  apply hr
  have hsrc : Tests.lib.parse c!"<author>x</author>" = ⟨[.startDocument, .start ⟨c!"author", none, none⟩ [] [],
      .chars c!"x", .endE ⟨c!"author", none, none⟩], none⟩ := by decide +kernel
  rw [← hn]
  unfold deFromStr fromStr
  rw [hsrc]
  match n with
  | 0 => rfl
  | 1 => rfl
  | n + 2 =>
    let d : StructDef := { name := c!"Book", fields := [Tests.F c!"author" Tests.S] }
    show (structDeser Tests.lib _ (n + 1) d _).1 = .diverge
    have h := structLoop_stuck Tests.lib (deser Tests.lib (Tests.envOf [Tests.mkS c!"Book" [Tests.F c!"author" Tests.S]]) (n + 1))
      (n + 1) d rfl c!"author" 0 n 0 ⟨1, [.one (some (.str c!"x"))], some {}⟩ ⟨0, ⟨[], none⟩, none⟩ (.inl ⟨rfl, rfl, rfl⟩)
    generalize deser Tests.lib (Tests.envOf [Tests.mkS c!"Book" [Tests.F c!"author" Tests.S]]) (n + 1) = rec at h
    show (structBody Tests.lib rec (n + 1) d (c!"author", none) 0
      ⟨0, ⟨[.chars c!"x", .endE ⟨c!"author", none, none⟩], none⟩, some (.start ⟨c!"author", none, none⟩ [] [])⟩).1 = .diverge
    unfold structBody
    rw [if_pos rfl]
    cases hl : structLoop Tests.lib rec (n + 1) d c!"author" 0 n ⟨1, [.one (some (.str c!"x"))], some {}⟩ ⟨0, ⟨[], none⟩, none⟩ with
    | mk r' rd' =>
      rw [hl] at h
      simp only at h
      subst h
      have h1 : structLoop Tests.lib rec (n + 1) d c!"author" 0 (n + 1)
          { depth := 0, slots := d.fields.map (fun f => Slot.init f.ty), writer := some {} }
          ⟨0, ⟨[.chars c!"x", .endE ⟨c!"author", none, none⟩], none⟩, some (.start ⟨c!"author", none, none⟩ [] [])⟩
          = (.diverge, rd') := by
        unfold structLoop
        rw [bind_ok (a := (⟨1, [.one (some (.str c!"x"))], some {}⟩, true)) (s' := ⟨0, ⟨[], none⟩, none⟩)]
        · exact hl
        · rfl
      rw [bind_ok (a := ()) (s' := ⟨0, ⟨[.chars c!"x", .endE ⟨c!"author", none, none⟩], none⟩, some (.start ⟨c!"author", none, none⟩ [] [])⟩)]
      · rw [bind_diverge h1]
      · rfl

/-- … nor is any element named like a variant of an enum that contains itself as the payload of this
variant: the generated code calls itself without having consumed anything. -/
theorem C07_false_enum (L : Lib) (env : Env) (p : Path) (d : EnumDef) (hp : env p = some (.enum d))
    (v : VariantDef) (t : FTy) (hd : d.variants = [v]) (hv : v.shape = .newtype t) (ht : t.core = .struct p)
    (htag : d.attrs.tag = none)
    (s : Str) (as : List Attr) (m : NsMap) (es : List REv)
    (hs : content (L.parse s).evs = .start ⟨v.attrs.rename.getD v.ident, none, none⟩ as m :: es) (r : Res Val) :
    ¬ Returns L env p s r := by
  rintro ⟨hr, n, hn⟩
  apply hr
  rw [← hn]
  have key : ∀ n rd, At 0 (.start ⟨v.attrs.rename.getD v.ident, none, none⟩ as m :: es) (L.parse s).fin rd →
      (deser L env n p rd).1 = .diverge := by
    intro n
    induction n with
    | zero => intro rd _; rfl
    | succ n ih =>
      intro rd hat
      unfold deser
      rw [hp]
      show (enumDeser L (deser L env n) n d rd).1 = .diverge
      obtain ⟨rd1, h1, h2⟩ := peek_at hat
      unfold enumDeser
      rw [bind_ok h1, bind_get]
      unfold enumBody
      rw [bind_ok (a := ()) (s' := rd1) (by rfl)]
      cases n with
      | zero => rfl
      | succ n =>
        obtain ⟨rd2, h3, h4⟩ := peek_at h2
        have hrec := ih rd2 h4
        cases hx : deser L env (n + 1) p rd2 with
        | mk r' rd' =>
          rw [hx] at hrec
          simp only at hrec
          subst hrec
          have harm : enumMatch L (deser L env (n + 1)) d (v.attrs.rename.getD v.ident) none
              (M.attempt nextEvent >>= fun _ => M.pure (none, true)) rd2 = (.diverge, rd') := by
            unfold enumMatch
            have hfv : findVariant (v.attrs.rename.getD v.ident) d.variants = some 0 := by
              rw [hd]
              unfold findVariant
              rw [List.findIdx?_cons]
              simp [hv, Attrs.xmlElementName]
            rw [hfv, hd]
            dsimp only
            unfold variantArm
            rw [List.getElem?_cons_zero]
            dsimp only
            rw [hv]
            dsimp only
            rw [ht]
            dsimp only
            rw [bind_diverge hx]
          have hstep : ∀ named sd, enumStep L (deser L env (n + 1)) d named sd none rd1 = (.diverge, rd') := by
            intro named sd
            unfold enumStep
            rw [bind_ok h3]
            dsimp only
            unfold enumKey
            rw [htag]
            dsimp only
            rw [bind_ok (a := v.attrs.rename.getD v.ident) (s' := rd2) (by rfl), bind_diverge harm]
          unfold enumLoop
          rw [bind_diverge (bind_diverge (hstep _ _))]
  have hat := at_new' (L.parse s)
  rw [hs] at hat
  exact key n _ hat

/-- `enum Tree { Node(Vec<Tree>) }`. -/
example (r : Res Val) : ¬ Returns Tests.lib (Tests.envOf [Tests.mkE c!"Tree" [Tests.vN c!"Node" (Tests.V (Tests.T c!"Tree"))] (.enum 0 [.vec []])])
    [c!"Tree"] c!"<Node><Node/></Node>" r :=
  C07_false_enum _ _ _ _ rfl (Tests.vN c!"Node" (Tests.V (Tests.T c!"Tree"))) _ rfl rfl rfl rfl _ [] []
    [.start ⟨c!"Node", none, none⟩ [] [], .endE ⟨c!"Node", none, none⟩, .endE ⟨c!"Node", none, none⟩] (by decide +kernel) r

/-! ### C28: after the document element -/

/-- C28, the part that holds for every document: if `from_str` of a struct accepts a text, it
accepts with the same value every text with the same document element, whatever follows it.
(Missing: a text that is *not* accepted may be rejected or never finished depending on what
follows its document element: `C28_false`.) -/
theorem C28_trailing_partial (L : Lib) (env : Env) (p : Path) (d : StructDef) (hp : env p = some (.struct d))
    (hflat : d.attrs.flatten = false) (s t : Str) (n : Name) (as : List Attr) (m : NsMap) (ks : List Node) (post post' : List REv)
    (hs : content (L.parse s).evs = (Node.elem n as m ks).events ++ post) (hpost : closes post = 0)
    (ht : content (L.parse t).evs = (Node.elem n as m ks).events ++ post')
    (v : Val) (h : Returns L env p s (.ok v)) : Returns L env p t (.ok v) := by
  obtain ⟨-, k, hk⟩ := h
  refine ⟨by simp, k, ?_⟩
  unfold deFromStr fromStr at hk ⊢
  cases k with
  | zero => cases hk
  | succ k =>
    obtain ⟨l, hl⟩ := (Loc.deser L env (k + 1) p).from_ (Rd.new (L.parse s))
    have hadv := (hl _ (Agree.refl _ _)).2
    cases hd : deser L env (k + 1) p (Rd.new (L.parse s)) with
    | mk r rd' =>
      rw [hd] at hk hadv
      simp only at hk
      subst hk
      have hadv := hadv trivial
      have hd' : structDeser L (deser L env k) k d (Rd.new (L.parse s)) = (.ok v, rd') := by
        rw [← hd]; simp only [deser, hp]
      rcases structDeser_ok hd' with ⟨name, h1, h2⟩ | ⟨-, h2⟩
      · rw [hadv.1, (at_new' _).stream, Nat.zero_add] at h1
        -- the end tag in front of which the run stops is inside the document element
        have hlt : l < (Node.elem n as m ks).events.length := by
          rcases Nat.lt_or_ge l (Node.elem n as m ks).events.length with hlt | hge
          · exact hlt
          · exfalso
            rw [hs] at h1
            unfold strm at h1
            rw [List.getElem?_append_right hge] at h1
            cases hg : post[l - (Node.elem n as m ks).events.length]? with
            | some e =>
              rw [hg] at h1
              cases h1
              have := List.mem_of_getElem? hg
              unfold closes at hpost
              rw [List.countP_eq_zero] at hpost
              exact hpost _ this rfl
            | none =>
              rw [hg] at h1
              cases hf : (L.parse s).fin <;> simp [finRes, hf] at h1
        have hag : Agree l (Rd.new (L.parse s)) (Rd.new (L.parse t)) := by
          refine ⟨rfl, fun j hj => ?_⟩
          rw [(at_new' _).stream, (at_new' _).stream, hs, ht]
          unfold strm
          rw [List.getElem?_append_left (by omega), List.getElem?_append_left (by omega),
            List.getElem?_eq_getElem (by omega)]
        rw [(hl _ hag).1, hd]
      · rw [hflat] at h2; cases h2

open Sample in
/-- Garbage after the document element of the sample document. -/
example : Returns Tests.lib env [c!"Book"] (text1 ++ c!"<book id=\"8\">&!!") (.ok (.struct val1)) := by
  refine C28_trailing_partial _ _ _ book env_book rfl text1 _ ⟨c!"book", none, none⟩
    [⟨⟨c!"tags", none, none⟩, c!"a b"⟩, ⟨⟨c!"id", none, none⟩, c!"7"⟩] [] kids1 [] ?_ ?_ rfl ?_ _ returns1
  · exact [.start ⟨c!"book", none, none⟩ [⟨⟨c!"id", none, none⟩, c!"8"⟩] []]
  · decide +kernel
  · decide +kernel

/-- C28, all outcomes: for conforming documents. -/
theorem C28_trailing_conforming (L : Lib) (env : Env) (k : Nat) (p : Path) (s t : Str) (x : Node)
    (hs : IsDoc (L.parse s) x) (ht : IsDoc (L.parse t) x) (hconf : ConfN L env k x p) (r : Res Val) :
    Returns L env p s r ↔ Returns L env p t r := by
  rw [returns_iff L env k p s x hs hconf, returns_iff L env k p t x ht hconf]

/-- C28 is false of the code for texts that are not accepted: `<author>x</author>` is never finished,
with `<` after it it is rejected. -/
theorem C28_false :
    (¬ ∃ r, Returns Tests.lib (Tests.envOf [Tests.mkS c!"Book" [Tests.F c!"author" Tests.S]]) [c!"Book"]
      c!"<author>x</author>" r) ∧
    ∃ m, Returns Tests.lib (Tests.envOf [Tests.mkS c!"Book" [Tests.F c!"author" Tests.S]]) [c!"Book"]
      c!"<author>x</author><" (.err m) :=
  ⟨C07_false, _, Tests.returns_of_deErr (m := c!"Unexpected end of stream") (by decide +kernel)⟩

end Yaserde
