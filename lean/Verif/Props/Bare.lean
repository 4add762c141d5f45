import Verif.Props.Encode
import Verif.Props.WellFormed
/-
**C78**: which values have an element of their own.
-/

set_option autoImplicit false

namespace Yaserde

section
variable {L : Lib} {env : Env}

theorem wrap_one {a : Attrs} (hf : a.flatten = false) {n nm : Str} {as : List Attr} {m : NsMap} {ks : List WNode} :
    ∃ as' m' ks', wrap a ⟨some n, false⟩ nm as m ks = [.elem n as' m' ks'] :=
  ⟨as, m, ks, by simp only [wrap, hf, Bool.or_self, Bool.false_eq_true, if_false, Option.getD_some]⟩

/-- A value of a type with an element of its own is one element with the name it is given. -/
theorem encTy_one {q : Path} {v : Val} (hq : OwnElement env q) (hv : HasTy env (.struct q) v) (n : Str) :
    ∃ as m ks, encTy L env ⟨some n, false⟩ q v = [.elem n as m ks] := by
  rw [encTy.eq_def]
  obtain ⟨r, hr⟩ := hq
  cases hr with
  | struct d hp hf =>
    cases hv with
    | struct _ d' fs hp' =>
      rw [hp]
      exact wrap_one hf
    | unit _ _ _ _ hp' | newtype _ _ _ _ _ _ hp' | named _ _ _ _ _ _ hp' | prim _ _ _ hp' => rw [hp] at hp'; cases hp'
  | enum d hp hf =>
    cases hv with
    | struct _ _ _ hp' | prim _ _ _ hp' => rw [hp] at hp'; cases hp'
    | unit _ d' i vd hp' hi hs =>
      rw [hp] at hp'; cases hp'
      rw [hp]; simp only [hi]
      exact wrap_one hf
    | newtype _ d' i vd _ _ hp' hi hs =>
      rw [hp] at hp'; cases hp'
      rw [hp]; simp only [hi]
      exact wrap_one hf
    | named _ d' i vd _ _ hp' hi hs =>
      rw [hp] at hp'; cases hp'
      rw [hp]; simp only [hi]
      exact wrap_one hf
  | prim d hp hf =>
    rw [hp]
    exact wrap_one hf

/-- **C78.** Fields of scalar types, of derived types and of types with `Display` and `FromStr` are written as one element each,
with the field's name; fields of type `usize`, `isize` or `char`, and of a type that is another name for a scalar type, are written as
text only, without an element. -/
theorem C78_element_partial (hok : SerOk env) {p : Path} {d : StructDef} {fs : List Val} (hp : env p = some (.struct d))
    (hfl : d.attrs.flatten = false) (hv : HasTy env (.struct p) (.struct fs)) :
    ∃ as nss bs, serializeWithWriter L env p (.struct fs)
        = (.ok (), (WNode.elem (d.attrs.written d.name) as nss (List.flatten bs)).events) ∧ bs.length = d.fields.length ∧
      ∀ (i : Nat) (f : FieldDef) (v : Val) (b : List WNode), d.fields[i]? = some f → fs[i]? = some v → bs[i]? = some b →
        f.Written (.struct fs) v → f.attrs.flatten = false → f.attrs.cdata = false →
        (∀ t, f.ty = .simple t → b = [.elem (f.written d.attrs) [] [] [.text (showS L v)]]) ∧
        (∀ q, f.ty = .struct q → OwnElement env q → ∃ as m ks, b = [.elem (f.written d.attrs) as m ks]) ∧
        (∀ q e, f.ty = .struct q → env q = some (.prim e) → e.bare = true → b = [.text (e.toStr v)]) := by
  obtain ⟨own, inh, ns, bs, h, e⟩ := struct_alone (L := L) hok hp hfl hv
  refine ⟨_, _, bs, e, h.kids.1, fun i f v b hf hx hb hw hnf hnc => ?_⟩
  have hbl := h.kids.2 i f v b hf hx hb
  have hty : HasTy env f.ty v := by
    cases hv with
    | struct _ d' _ hp' hl hall =>
      rw [hp] at hp'; cases hp'
      exact hall i f v hf hx
    | prim _ _ _ hp' => rw [hp] at hp'; cases hp'
  have hpl : f.place d.attrs = ⟨some (f.written d.attrs), false⟩ := by
    unfold FieldDef.place; rw [hnf]; rfl
  refine ⟨fun t ht => ?_, fun q hq ho => ?_, fun q e hq he hbare => ?_⟩
  · cases hbl with
    | attr _ h => rw [hw.notAttr] at h; cases h
    | text _ _ h | textSome _ _ h | textNone _ h => rw [hw.notText] at h; cases h
    | omitted _ _ _ h => exact absurd h hw.notOmitted
    | cdata _ _ h => rw [hnc] at h; cases h
    | scalar => rfl
    | none _ h | some _ _ h | items _ _ h | someItems _ _ h | struct _ _ h | someStruct _ _ h | structs _ _ h
    | optItems _ _ h | optStructs _ _ h => rw [ht] at h; cases h
  · have : b = encTy L env (f.place d.attrs) q v := by
      cases hbl with
      | attr _ h => rw [hw.notAttr] at h; cases h
      | text _ _ h | textSome _ _ h | textNone _ h => rw [hw.notText] at h; cases h
      | omitted _ _ _ h => exact absurd h hw.notOmitted
      | cdata _ _ h => rw [hnc] at h; cases h
      | struct _ _ h => rw [hq] at h; cases h; rfl
      | none _ h | some _ _ h | items _ _ h | someItems _ _ h | scalar _ _ h | someStruct _ _ h | structs _ _ h
      | optItems _ _ h | optStructs _ _ h => rw [hq] at h; cases h
    rw [this, hpl]
    rw [hq] at hty
    exact encTy_one ho hty _
  · have : b = encTy L env (f.place d.attrs) q v := by
      cases hbl with
      | attr _ h => rw [hw.notAttr] at h; cases h
      | text _ _ h | textSome _ _ h | textNone _ h => rw [hw.notText] at h; cases h
      | omitted _ _ _ h => exact absurd h hw.notOmitted
      | cdata _ _ h => rw [hnc] at h; cases h
      | struct _ _ h => rw [hq] at h; cases h; rfl
      | none _ h | some _ _ h | items _ _ h | someItems _ _ h | scalar _ _ h | someStruct _ _ h | structs _ _ h
      | optItems _ _ h | optStructs _ _ h => rw [hq] at h; cases h
    rw [this, encTy.eq_def, he]
    simp [wrap, hbare]

end

namespace BareSample
open Tests

/-- `usize`, as `serialize_type!` treats it. -/
def usizeDef (L : Lib) : PrimDef where
  name := c!"usize"
  toStr := showS L
  fromStr := parseS L (.int .u64)
  dom v := STy.holds (.int .u64) v
  bare := true

/-- `struct Point { label: String, x: usize, y: usize }` -/
def prog : List (Path × TypeDef) :=
  [mkS c!"Point" [F c!"label" Tests.S, F c!"x" (T c!"usize"), F c!"y" (T c!"usize")], ([c!"usize"], .prim (usizeDef lib))]

def env : Env := envOf prog

def point (x y : Int) : Val := .struct [.str c!"a", .int x, .int y]

theorem serOk : SerOk env := serOk_of_all _ (by decide)
theorem hasTy : HasTy env (T c!"Point") (point 1 23) := hasTy_of_check _ _ _ rfl
theorem hasTy' : HasTy env (T c!"Point") (point 12 3) := hasTy_of_check _ _ _ rfl

example := C78_element_partial (L := lib) serOk (p := [c!"Point"]) rfl rfl hasTy

theorem written : toString lib env [c!"Point"] (point 1 23) =
    .ok c!"<?xml version=\"1.0\" encoding=\"utf-8\"?><Point><label>a</label>123</Point>" := by decide +kernel

theorem written' : toString lib env [c!"Point"] (point 12 3) =
    .ok c!"<?xml version=\"1.0\" encoding=\"utf-8\"?><Point><label>a</label>123</Point>" := by decide +kernel

end BareSample

open BareSample in
/-- **C78 is false** for `usize`: the fields `x` and `y` of `struct Point { label: String, x: usize, y: usize }` have no element, their
digits run together, and different points are written alike. -/
theorem C78_false : ∃ (L : Lib) (env : Env) (p : Path) (a b : Val) (s : Str), XmlLaw L ∧ SerOk env ∧ HasTy env (.struct p) a ∧
    HasTy env (.struct p) b ∧ a ≠ b ∧ toString L env p a = .ok s ∧ toString L env p b = .ok s ∧
    s = c!"<?xml version=\"1.0\" encoding=\"utf-8\"?><Point><label>a</label>123</Point>" :=
  ⟨Tests.lib, env, [c!"Point"], point 1 23, point 12 3, _, Tests.xml, serOk, hasTy, hasTy', Val.ne_of_beq (by decide), written, written', rfl⟩

end Yaserde
