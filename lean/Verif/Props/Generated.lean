import Verif.Proofs.GenKnot
import Verif.Proofs.GenMono
import Verif.Props.Macro
import Verif.Props.Total
/-
C76: the code that the macros print does what the interpreter of schemas does.
-/

set_option autoImplicit false
set_option maxRecDepth 100000

namespace Yaserde

/-- `yaserde::de::from_str::<p>`, where the implementations of `YaDeserialize` are the printed programs. -/
def genFromStr (L : Lib) (env : Env) (fuel : Nat) (p : Path) (s : Str) : Res Val := fromStr L (Rs.deserGen L env fuel) p s

/-- … returns `r`. -/
def GenReturns (L : Lib) (env : Env) (p : Path) (s : Str) (r : Res Val) : Prop := r ≠ .diverge ∧ ∃ n, genFromStr L env n p s = r

/-- rustc accepts the names of the fields: no two are the same, `r#x` being another spelling of `x` (E0124). -/
def DeriveInput.NamesDiffer (i : DeriveInput) : Prop :=
  ∀ fs, i.data = .struct fs → (fs.list.map fun f => f.ident.map Rs.unraw).Nodup

/-- The program consists of items for which `YaDeserialize` can be derived (and primitive types). -/
def DerivedDe (env : Env) : Prop :=
  ∀ p td, env p = some td → (∃ d, td = .prim d) ∨ ∃ fn i, deAccepts i = .ok () ∧ i.NamesDiffer ∧ i.toDef fn = .ok td

theorem elem_of_oneLevel {t : FTy} (h : OneLevel t) : Rs.Elem t.core := by
  cases h
  · exact .inr ⟨_, rfl⟩
  · exact .inl ⟨_, rfl⟩
  · exact .inr ⟨_, rfl⟩
  · exact .inl ⟨_, rfl⟩
  · exact .inr ⟨_, rfl⟩
  · exact .inl ⟨_, rfl⟩

theorem deField_ok {fn : UserFns} {s : SynField} {f : FieldDef} (h : DeField s) (hf : FieldOf fn s f) : Rs.FieldOk f := by
  obtain ⟨y, t, x, h1, h2, -, h4, h5, h6, -⟩ := h
  obtain ⟨-, h7, y', h8, h9, -⟩ := hf
  have ht : t = f.ty := h2.unique h7
  have hy : y = y' := by
    rw [← attrFrom_iff] at h1 h8
    rw [h1] at h8
    injection h8
  subst ht hy
  rw [← h9] at h5 h6
  exact ⟨fun _ => elem_of_oneLevel h4, h5, h6⟩

theorem names_differ {fn : UserFns} {l : List SynField} {fds : List FieldDef} (h : List.Forall₂ (FieldOf fn) l fds) :
    (l.map fun f => f.ident.map Rs.unraw) = (fds.map fun f => Rs.unraw f.ident).map some := by
  induction h with
  | nil => rfl
  | cons h _ ih => rw [List.map_cons, ih, h.ident]; rfl

/-- What the macro accepts is what the printed code is correct for. -/
theorem DerivedDe.ok {env : Env} (h : DerivedDe env) : Rs.EnvOk env where
  structs p d hd := by
    rcases h p _ hd with ⟨_, hp⟩ | ⟨fn, i, h1, h2, h3⟩
    · cases hp
    · obtain ⟨-, -, fs, h4, h5⟩ := C66_struct fn i d h3
      obtain ⟨-, h6⟩ := (deAccepts_iff i).mp h1
      rw [h4] at h6
      refine ⟨?_, fun f hf => ?_⟩
      · have := h2 fs h4
        rw [names_differ h5] at this
        exact this.of_map _
      · obtain ⟨s, h7, h8⟩ := forall₂_mem_right h5 hf
        exact deField_ok (h6 s h7) h8
  enums p d hd v hv t ht := by
    rcases h p _ hd with ⟨_, hp⟩ | ⟨fn, i, h1, h2, h3⟩
    · cases hp
    · obtain ⟨s, y, vs, h4, h5, h6⟩ := C66_serOk.enumOf h3 hv
      obtain ⟨-, h7⟩ := (deAccepts_iff i).mp h1
      rw [h4] at h7
      obtain ⟨-, h8⟩ := h7 s h5
      rcases variant_toDef h6 with ⟨-, h⟩ | ⟨_, _, -, h, -⟩ | ⟨-, h⟩ | ⟨f, t', h9, h, h10⟩ <;> rw [ht] at h
      · cases h
      · cases h
      · cases h
      · injection h with h
        subst h
        rcases h8 _ h9 with h11 | ⟨f', _, t', h11, -, h12, h13⟩
        · cases h11
        · injection h11 with h11 _
          subst h11
          have := h12.unique h10
          subst this
          exact elem_of_oneLevel h13

theorem proper_new {src : Src} (h : WellFormed src) : Rs.Proper (Rd.new src) := Good.new h

/-- **C76.** With the same budget, the printed program returns the same value or the same error as the interpreter, panics alike, or
has not come to an end either. -/
theorem C76_same (L : Lib) (hL : ∀ s, WellFormed (L.parse s)) {env : Env} (h : DerivedDe env) (n : Nat) (p : Path) (s : Str) :
    genFromStr L env n p s = deFromStr L env n p s := by
  have := Rs.same_deser L h.ok (fun x => proper_new (hL x)) n p _ (proper_new (hL s))
  unfold genFromStr deFromStr fromStr
  rcases hr : deser L env n p (Rd.new (L.parse s)) with ⟨r, rd'⟩
  rw [hr] at this
  cases r with
  | ok v => rw [this.2]
  | err e => rw [this.2]
  | panic e => rw [show Rs.deserGen L env n p (Rd.new (L.parse s)) = _ from this]
  | diverge =>
    simp only at this
    rw [this]

/-- More budget does not change what the printed program does. -/
theorem C76_budget (L : Lib) (env : Env) (p : Path) (s : Str) {n m : Nat} (h : n ≤ m) (hn : genFromStr L env n p s ≠ .diverge) :
    genFromStr L env m p s = genFromStr L env n p s :=
  congrArg Prod.fst (Rs.deserGen_mono L env h p _ hn)

/-- **C76.** What `from_str` returns in the interpreter of schemas, it returns in the printed program, and nothing else: the same
values, the same errors, the same panics; and one runs forever if and only if the other does. -/
theorem C76_returns (L : Lib) (hL : ∀ s, WellFormed (L.parse s)) {env : Env} (h : DerivedDe env) (p : Path) (s : Str) (r : Res Val) :
    GenReturns L env p s r ↔ Returns L env p s r := by
  unfold GenReturns Returns
  simp only [C76_same L hL h]

namespace MacroSample
open Tests

theorem derivedDe : DerivedDe (envOf prog) := by
  intro p td h
  have := mem_envOf h
  simp only [prog, List.mem_cons, List.not_mem_nil, or_false, Prod.mk.injEq] at this
  rcases this with ⟨-, rfl⟩ | ⟨-, rfl⟩ | ⟨-, rfl⟩
  · exact .inr ⟨fns, book, book_de, (by rintro fs ⟨rfl⟩; decide), book_toDef⟩
  · exact .inr ⟨fns, kind, kind_de, (by rintro fs h; cases h), kind_toDef⟩
  · exact .inl ⟨_, rfl⟩

theorem wf (s : Str) : WellFormed (lib.parse s) := XmlText.parse_wellFormed s

def bookText : Str :=
  c!"<b:book xmlns:b=\"urn:b\" id=\"3\"><b:titles>x</b:titles><money>5</money><price>7</price><b:titles>y</b:titles></b:book>"

theorem book_reads : Returns lib (envOf prog) [c!"Book"] bookText (.ok (.struct [.int 3, .vec [.str c!"x", .str c!"y"], .some (.int 7)])) :=
  returns_of_deOk (by decide +kernel)

/-- The printed program reads a book … -/
example : GenReturns lib (envOf prog) [c!"Book"] bookText (.ok (.struct [.int 3, .vec [.str c!"x", .str c!"y"], .some (.int 7)])) :=
  (C76_returns lib wf derivedDe _ _ _).mpr book_reads

/-- … and a kind of book, and rejects others. -/
example : GenReturns lib (envOf prog) [c!"Kind"] c!"<Kind><one id=\"3\"><b:titles xmlns:b=\"urn:b\">x</b:titles></one></Kind>"
    (.ok (.enum 1 [.struct [.int 3, .vec [.str c!"x"], .none]])) :=
  (C76_returns lib wf derivedDe _ _ _).mpr (returns_of_deOk (by decide +kernel))

example : GenReturns lib (envOf prog) [c!"Book"] c!"<b:book xmlns:b=\"urn:b\" id=\"3\"><price>x</price></b:book>"
    (.err c!"Unable to convert x: invalid digit found in string") ↔
    Returns lib (envOf prog) [c!"Book"] c!"<b:book xmlns:b=\"urn:b\" id=\"3\"><price>x</price></b:book>"
    (.err c!"Unable to convert x: invalid digit found in string") :=
  C76_returns lib wf derivedDe _ _ _

/-- The printed program itself, run. -/
example : (match genFromStr lib (envOf prog) 60 [c!"Book"] bookText with
    | .ok v => v.beq (.struct [.int 3, .vec [.str c!"x", .str c!"y"], .some (.int 7)])
    | _ => false) = true := by decide +kernel

end MacroSample

end Yaserde
