import Verif.Proofs.NewField
import Verif.Spec.Stream
import Verif.Props.Sample
import Verif.Props.Options
/-
C98: fields added to structs, on every text.
-/

set_option autoImplicit false
set_option maxRecDepth 100000

namespace Yaserde

/-- **C98, step by step**: a text without the names of the new fields (complete or not, well formed or not, conforming or not) is read by
the newer program with the same outcome as by the older one; a value gets what missing fields are in place of the new ones. -/
theorem C98_reading (L : Lib) {K : Str → Prop} {env env' : Env} (h : env.Widened K env') (hnf : NoFlatten env) (hat : ScalarAttrs env)
    (p : Path) {s : Str} (hs : ∀ e ∈ (L.parse s).evs, e.Unnamed K) (n : Nat) :
    Res.Rel (Widens env env' (.struct p)) (deFromStr L env n p s) (deFromStr L env' n p s) :=
  (Side.deser L h hnf hat n p (Rd.new (L.parse s)) ⟨hs, fun _ e => by cases e⟩).2.2

/-- **C98**: the newer program reads what the older one reads and nothing else, the values being related, and fails, panics or does not
return where the older one does. -/
theorem C98_outcomes (L : Lib) {K : Str → Prop} {env env' : Env} (h : env.Widened K env') (hnf : NoFlatten env) (hat : ScalarAttrs env)
    (p : Path) {s : Str} (hs : ∀ e ∈ (L.parse s).evs, e.Unnamed K) :
    (∀ v, Returns L env p s (.ok v) → ∃ v', Returns L env' p s (.ok v') ∧ Widens env env' (.struct p) v v') ∧
    (∀ v', Returns L env' p s (.ok v') → ∃ v, Returns L env p s (.ok v) ∧ Widens env env' (.struct p) v v') ∧
    (∀ m, Returns L env p s (.err m) ↔ Returns L env' p s (.err m)) ∧
    (∀ m, Returns L env p s (.panic m) ↔ Returns L env' p s (.panic m)) ∧
    ∀ n, deFromStr L env n p s = .diverge ↔ deFromStr L env' n p s = .diverge := by
  have hr := C98_reading L h hnf hat p hs
  refine ⟨?_, ?_, fun m => ⟨?_, ?_⟩, fun m => ⟨?_, ?_⟩, fun n => ⟨?_, ?_⟩⟩
  · rintro v ⟨-, n, hn⟩
    have := hr n
    rw [hn] at this
    rcases hn' : deFromStr L env' n p s with v' | m | m | _ <;> rw [hn'] at this <;> cases this
    rename_i hw
    exact ⟨v', ⟨by rintro ⟨⟩, n, hn'⟩, hw⟩
  · rintro v' ⟨-, n, hn⟩
    have := hr n
    rw [hn] at this
    rcases hn' : deFromStr L env n p s with v | m | m | _ <;> rw [hn'] at this <;> cases this
    rename_i hw
    exact ⟨v, ⟨by rintro ⟨⟩, n, hn'⟩, hw⟩
  · rintro ⟨-, n, hn⟩
    have := hr n
    rw [hn] at this
    rcases hn' : deFromStr L env' n p s with v | m | m | _ <;> rw [hn'] at this <;> cases this
    exact ⟨by rintro ⟨⟩, n, hn'⟩
  · rintro ⟨-, n, hn⟩
    have := hr n
    rw [hn] at this
    rcases hn' : deFromStr L env n p s with v | m | m | _ <;> rw [hn'] at this <;> cases this
    exact ⟨by rintro ⟨⟩, n, hn'⟩
  · rintro ⟨-, n, hn⟩
    have := hr n
    rw [hn] at this
    rcases hn' : deFromStr L env' n p s with v | m | m | _ <;> rw [hn'] at this <;> cases this
    exact ⟨by rintro ⟨⟩, n, hn'⟩
  · rintro ⟨-, n, hn⟩
    have := hr n
    rw [hn] at this
    rcases hn' : deFromStr L env n p s with v | m | m | _ <;> rw [hn'] at this <;> cases this
    exact ⟨by rintro ⟨⟩, n, hn'⟩
  · intro hn
    have := hr n
    rw [hn] at this
    rcases hn' : deFromStr L env' n p s with v | m | m | _ <;> rw [hn'] at this <;> cases this
  · intro hn
    have := hr n
    rw [hn] at this
    rcases hn' : deFromStr L env n p s with v | m | m | _ <;> rw [hn'] at this <;> cases this

/-- **C98**: the value of the newer program is determined by that of the older one. -/
theorem C98_determined {env env' : Env} {t : FTy} {v v1 v2 : Val} (h1 : Widens env env' t v v1) (h2 : Widens env env' t v v2) : v1 = v2 :=
  widens_fun h1 h2

/-! #### An example -/

namespace NewFieldSample
open Tests

def oldBook : List FieldDef := [F c!"title" Tests.S, F c!"kind" (T c!"Kind")]

/-- Books, at least one of them; `ws` are further fields of books, `a` attributes of the field with the books. -/
def books (ws : List FieldDef) (a : Attrs := {}) : Env := envOf [
  mkS c!"Shelf" [F c!"book" (T c!"Book") a, F c!"more" (V (T c!"Book"))],
  mkS c!"Book" (oldBook ++ ws),
  mkE c!"Kind" [vU c!"Novel", vU c!"Poem"] (.enum 0 [])]

/-- A year, tags, and a language with a default, an attribute. -/
def extra : List FieldDef := [F c!"year" (O (I .u16)), F c!"tag" (V Tests.S), dfl c!"lang" Tests.S (s c!"en") attr]

def names : Str → Prop := fun x => x ∈ [c!"year", c!"tag", c!"lang"]

theorem extras : ∀ w ∈ extra, w.Extra names := by
  intro w hw
  simp only [extra, List.mem_cons, List.not_mem_nil, or_false] at hw
  rcases hw with rfl | rfl | rfl
  · exact ⟨by simp [names, F], fun _ => rfl, rfl, .inl ⟨_, rfl⟩⟩
  · exact ⟨by simp [names, F], fun _ => rfl, rfl, .inr (.inl ⟨_, rfl⟩)⟩
  · exact ⟨by simp [names, dfl, attr], fun _ => rfl, rfl, .inr (.inr (by rintro ⟨⟩))⟩

/-- The types. -/
inductive Step (K : Str → Prop) : TypeDef → TypeDef → Prop
  | struct (d : StructDef) (ws : List FieldDef) (h : ∀ w ∈ ws, w.Extra K) : Step K (.struct d) (.struct { d with fields := d.fields ++ ws })
  | enum (d : EnumDef) : Step K (.enum d) (.enum d)

theorem books_cases {ws : List FieldDef} {a : Attrs} {p : Path} {d : TypeDef} (h : books ws a p = some d) :
    d = (mkS c!"Shelf" [F c!"book" (T c!"Book") a, F c!"more" (V (T c!"Book"))]).2 ∨ d = (mkS c!"Book" (oldBook ++ ws)).2 ∨
    d = (mkE c!"Kind" [vU c!"Novel", vU c!"Poem"] (.enum 0 [])).2 := by
  unfold books envOf at h
  rw [List.find?_cons] at h
  split at h
  · cases h
    exact .inl rfl
  rw [List.find?_cons] at h
  split at h
  · cases h
    exact .inr (.inl rfl)
  rw [List.find?_cons] at h
  split at h
  · cases h
    exact .inr (.inr rfl)
  · cases h

theorem fields_cases {a : Attrs} {p : Path} {d : StructDef} (h : books [] a p = some (.struct d)) {f : FieldDef} (hf : f ∈ d.fields) :
    f = F c!"book" (T c!"Book") a ∨ f = F c!"more" (V (T c!"Book")) ∨ f = F c!"title" Tests.S ∨ f = F c!"kind" (T c!"Kind") := by
  rcases books_cases h with h | h | h
  · cases h
    simp only [List.mem_cons, List.not_mem_nil, or_false] at hf
    rcases hf with rfl | rfl
    · exact .inl rfl
    · exact .inr (.inl rfl)
  · cases h
    simp only [oldBook, List.append_nil, List.mem_cons, List.not_mem_nil, or_false] at hf
    rcases hf with rfl | rfl
    · exact .inr (.inr (.inl rfl))
    · exact .inr (.inr (.inr rfl))
  · cases h

theorem widened (a : Attrs) : (books [] a).Widened names (books extra a) := by
  have hb : Step names (mkS c!"Book" (oldBook ++ [])).2 (mkS c!"Book" (oldBook ++ extra)).2 := by
    rw [List.append_nil]
    exact .struct { name := c!"Book", attrs := {}, fields := oldBook } extra extras
  have h := OptionsSample.envOf_alike (R := Step names) (l := [
    mkS c!"Shelf" [F c!"book" (T c!"Book") a, F c!"more" (V (T c!"Book"))], mkS c!"Book" (oldBook ++ []),
    mkE c!"Kind" [vU c!"Novel", vU c!"Poem"] (.enum 0 [])]) (l' := [
    mkS c!"Shelf" [F c!"book" (T c!"Book") a, F c!"more" (V (T c!"Book"))], mkS c!"Book" (oldBook ++ extra),
    mkE c!"Kind" [vU c!"Novel", vU c!"Poem"] (.enum 0 [])])
    (.cons ⟨rfl, .struct { name := c!"Shelf", attrs := {}, fields := [F c!"book" (T c!"Book") a, F c!"more" (V (T c!"Book"))] } [] (by simp)⟩
      (.cons ⟨rfl, hb⟩ (.cons ⟨rfl, .enum _⟩ .nil)))
  refine ⟨fun p => ?_, fun p d hp f hf dv hd => ?_, fun p d hp => ?_⟩
  · rcases h p with h | ⟨b, b', h1, h2, h3⟩
    · exact .inl h
    · cases h3 with
      | struct d ws hw => exact .inr (.inl ⟨d, ws, h1, h2, hw⟩)
      | enum d => exact .inr (.inr (.inl ⟨d, h1, h2⟩))
  · rcases fields_cases hp hf with rfl | rfl | rfl | rfl <;> cases hd
  · rcases books_cases hp with h | h | h
    · cases h
    · cases h
    · cases h
      exact .unit p _ 0 hp

theorem noFlatten : NoFlatten (books []) := by
  intro p d hp f hf _
  rcases fields_cases hp hf with rfl | rfl | rfl | rfl <;> rfl

theorem scalarAttrs : ScalarAttrs (books []) := by
  intro p d hp f hf ha
  rcases fields_cases hp hf with rfl | rfl | rfl | rfl <;> cases ha

/-- A test for `Unnamed`. -/
def unnamedB : REv → Bool
  | .start n as _ => !([c!"year", c!"tag", c!"lang"].contains n.loc) && as.all fun a => !([c!"year", c!"tag", c!"lang"].contains a.name.loc)
  | _ => true

theorem unnamed_of_check {s : Str} (h : (lib.parse s).evs.all unnamedB = true) : ∀ e ∈ (lib.parse s).evs, e.Unnamed names := by
  intro e he
  have := List.all_eq_true.1 h e he
  cases e with
  | start n as ns =>
    rw [unnamedB, Bool.and_eq_true, Bool.not_eq_true', List.all_eq_true] at this
    refine ⟨fun hk => ?_, fun a ha hk => ?_⟩
    · rw [List.contains_iff_mem.2 hk] at this
      exact absurd this.1 (by decide)
    · have h2 := this.2 a ha
      rw [List.contains_iff_mem.2 hk] at h2
      exact absurd h2 (by decide)
  | _ => trivial

/-- Unknown elements, a repeated field, text between elements. -/
def text : Str := c!"<Shelf><book><title>A</title><kind>Poem</kind></book>x<who><y/></who><more><title>B</title><title>C</title><kind>?</kind></more></Shelf>"

theorem text_old : Returns lib (books []) [c!"Shelf"] text (.ok (.struct [.struct [s c!"A", .enum 1 []], .vec [.struct [s c!"C", .enum 0 []]]])) :=
  returns_of_deOk (by decide +kernel)

/-- The value of the newer program, from that of the older one alone. -/
example : Returns lib (books extra) [c!"Shelf"] text (.ok (.struct [.struct [s c!"A", .enum 1 [], .none, .vec [], s c!"en"],
    .vec [.struct [s c!"C", .enum 0 [], .none, .vec [], s c!"en"]]])) := by
  obtain ⟨v', h1, h2⟩ := (C98_outcomes lib (widened {}) noFlatten scalarAttrs [c!"Shelf"] (unnamed_of_check (by decide +kernel))).1 _ text_old
  have hb : ∀ (x : Str) (j : Nat), Widens (books []) (books extra) (T c!"Book") (.struct [s x, .enum j []])
      (.struct ([s x, .enum j []] ++ extra.map FieldDef.unfilled)) := fun x j =>
    .struct [c!"Book"] { name := c!"Book", attrs := {}, fields := oldBook } extra _ _ rfl rfl
      (.cons _ _ _ _ _ _ (.simple _ _) (.cons _ _ _ _ _ _ (.unit [c!"Kind"] _ j rfl) .nil))
  have h3 : Widens (books []) (books extra) (.struct [c!"Shelf"]) (.struct [.struct [s c!"A", .enum 1 []], .vec [.struct [s c!"C", .enum 0 []]]])
      (.struct ([.struct ([s c!"A", .enum 1 []] ++ extra.map FieldDef.unfilled), .vec [.struct ([s c!"C", .enum 0 []] ++ extra.map FieldDef.unfilled)]] ++
        List.map FieldDef.unfilled [])) :=
    .struct [c!"Shelf"] { name := c!"Shelf", attrs := {}, fields := [F c!"book" (T c!"Book"), F c!"more" (V (T c!"Book"))] } [] _ _ rfl rfl
      (.cons _ _ _ _ _ _ (hb _ _) (.cons _ _ _ _ _ _ (.vec _ _ _ (.cons _ _ _ _ _ (hb _ _) (.nil _))) .nil))
  rw [C98_determined h2 h3] at h1
  exact h1

/-- A text that is cut off: the same error. -/
example (m : Str) : Returns lib (books []) [c!"Shelf"] c!"<Shelf><book><title>A" (.err m) ↔
    Returns lib (books extra) [c!"Shelf"] c!"<Shelf><book><title>A" (.err m) :=
  (C98_outcomes lib (widened {}) noFlatten scalarAttrs [c!"Shelf"] (unnamed_of_check (by decide +kernel))).2.2.1 m

end NewFieldSample

open Tests NewFieldSample in
/-- **C98**, the conditions are needed: (1) a text with the name of a new field, (2) a new field that must not be missing, (3) a new field
for text, and (4) a name inside the value of an attribute of a derived type, which is parsed as XML. -/
theorem C98_conditions_needed :
    (Returns lib (books []) [c!"Book"] c!"<Book lang='de'><title>A</title><kind/><year>5</year></Book>" (.ok (.struct [s c!"A", .enum 0 []])) ∧
      Returns lib (books extra) [c!"Book"] c!"<Book lang='de'><title>A</title><kind/><year>5</year></Book>"
        (.ok (.struct [s c!"A", .enum 0 [], .some (i 5), .vec [], s c!"de"]))) ∧
    ((∀ e ∈ (lib.parse c!"<Book><title>A</title><kind/>x</Book>").evs, e.Unnamed names) ∧
      Returns lib (books []) [c!"Book"] c!"<Book><title>A</title><kind/>x</Book>" (.ok (.struct [s c!"A", .enum 0 []])) ∧
      Returns lib (books [F c!"year" (I .u16)]) [c!"Book"] c!"<Book><title>A</title><kind/>x</Book>"
        (.err c!"year is a required field of Book") ∧
      Returns lib (books [F c!"lang" (O Tests.S) { text := true }]) [c!"Book"] c!"<Book><title>A</title><kind/>x</Book>"
        (.ok (.struct [s c!"A", .enum 0 [], .some (s c!"x")]))) ∧
    (∀ e ∈ (lib.parse c!"<Shelf book='&lt;title>A&lt;/title>&lt;kind/>&lt;year>5&lt;/year>'/>").evs, e.Unnamed names) ∧
    (books [] attr).Widened names (books extra attr) ∧
    Returns lib (books [] attr) [c!"Shelf"] c!"<Shelf book='&lt;title>A&lt;/title>&lt;kind/>&lt;year>5&lt;/year>'/>"
      (.ok (.struct [.struct [s c!"A", .enum 0 []], .vec []])) ∧
    Returns lib (books extra attr) [c!"Shelf"] c!"<Shelf book='&lt;title>A&lt;/title>&lt;kind/>&lt;year>5&lt;/year>'/>"
      (.ok (.struct [.struct [s c!"A", .enum 0 [], .some (i 5), .vec [], s c!"en"], .vec []])) :=
  ⟨⟨returns_of_deOk (by decide +kernel), returns_of_deOk (by decide +kernel)⟩,
    ⟨unnamed_of_check (by decide +kernel), returns_of_deOk (by decide +kernel), returns_of_deErr (by decide +kernel),
      returns_of_deOk (by decide +kernel)⟩,
    unnamed_of_check (by decide +kernel), widened attr, returns_of_deOk (by decide +kernel), returns_of_deOk (by decide +kernel)⟩

end Yaserde
