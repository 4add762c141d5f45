import Verif.Proofs.Unwritten
import Verif.Props.Encode
/-
C96: what the output does not depend on; C32 for flattened fields.
-/

set_option autoImplicit false
set_option maxRecDepth 100000

namespace Yaserde

/-- **C96.** Values that differ only in fields that are not written are written alike: the same events, the same text under any
configuration, and the same content without the root element.  At any depth, for suppressed attributes and elements, `skip_serializing`, attributes of `Vec` types, `Option` fields of
variants, and fields of flattened structs that are not written because the flattened struct is not. -/
theorem C96_output {L : Lib} {env : Env} (hok : SerOk env) {p : Path} {a b : Val} (ha : HasTy env (.struct p) a)
    (hb : HasTy env (.struct p) b) (h : SameOut env False (.struct p) a b) :
    serializeWithWriter L env p a = serializeWithWriter L env p b ∧
    (∀ c, toStringWithConfig L env c p a = toStringWithConfig L env c p b) ∧
    toStringContent L env p a = toStringContent L env p b := by
  have key : ∀ pl, encTy L env pl p a = encTy L env pl p b := by
    intro pl
    have := ((h.alike (L := L) hok).2 id).1 pl
    rwa [WNode.mapTextL_id, WNode.mapTextL_id] at this
  have h1 : serializeWithWriter L env p a = serializeWithWriter L env p b := by
    rw [serialize_eq hok ha, serialize_eq hok hb, key]
  refine ⟨h1, fun c => ?_, ?_⟩
  · unfold toStringWithConfig
    rw [h1]
  · rw [show toStringContent L env p a = _ from (encOk hok ha).content, show toStringContent L env p b = _ from (encOk hok hb).content, key]

/-- **C96, failing outputs.** In programs without scalars that are written through their own implementation (`NoBuiltin`) such values are
written alike to every output, whichever writes fail there: the same is written up to the failure, and the result is `Ok` for both or for
neither. -/
theorem C96_errors {L : Lib} {env : Env} (hok : SerOk env) (hnb : NoBuiltin env) {p : Path} {a b : Val} (ha : HasTy env (.struct p) a)
    (hb : HasTy env (.struct p) b) (h : SameOut env False (.struct p) a b) (io : Nat → Option Str) :
    (serializeWithWriter L env p a io).2 = (serializeWithWriter L env p b io).2 ∧
    ((serializeWithWriter L env p a io).1 = .ok () ↔ (serializeWithWriter L env p b io).1 = .ok ()) := by
  obtain ⟨ps, f1, e1, w1⟩ := C38_every_program (L := L) hok ha
  obtain ⟨qs, f2, e2, w2⟩ := C38_every_program (L := L) hok hb
  have h1 := (C96_output (L := L) hok ha hb h).1
  rw [e1, e2] at h1
  have key : ∀ rs : List (WEv × Bool), (∀ w ∈ rs, w.2 = true → ¬ NoBuiltin env ∧ ∃ t, w.1 = .chars t) →
      rs = (rs.map (·.1)).map fun e => (e, false) := by
    intro rs hrs
    rw [List.map_map]
    refine (List.map_id rs).symm.trans (List.map_congr_left fun w hw => ?_)
    rcases w with ⟨e, _ | _⟩
    · rfl
    · exact absurd hnb (hrs _ hw rfl).1
  have he : ps = qs := by
    rw [key ps f1, key qs f2, (Prod.mk.inj h1).2]
  subst he
  rcases hc : (performWrites io 0 ps).1 with _ | _
  · obtain ⟨m, hm⟩ := (w1 io).2 hc
    obtain ⟨m', hm'⟩ := (w2 io).2 hc
    rw [hm, hm']
    exact ⟨rfl, fun h => (by cases h), fun h => (by cases h)⟩
  · rw [(w1 io).1 hc, (w2 io).1 hc]
    exact ⟨rfl, Iff.rfl⟩

/-- **C96, start tags.** The start tag of a struct - its name, attributes and declarations - depends only on its attributes and on those of
the structs flattened into it: not on its elements and texts. -/
theorem C96_head {L : Lib} {env : Env} (hok : SerOk env) {p : Path} {d : StructDef} (hp : env p = some (.struct d))
    (hfl : d.attrs.flatten = false) {as bs : List Val} (ha : HasTy env (.struct p) (.struct as)) (hb : HasTy env (.struct p) (.struct bs))
    (h : SameOut env True (.struct p) (.struct as) (.struct bs)) :
    ∃ attrs nss ca cb, serializeWithWriter L env p (.struct as) = (.ok (), (WNode.elem (d.attrs.written d.name) attrs nss ca).events) ∧
      serializeWithWriter L env p (.struct bs) = (.ok (), (WNode.elem (d.attrs.written d.name) attrs nss cb).events) := by
  obtain ⟨h1, h2⟩ := (h.alike (L := L) hok).1 p rfl
  rw [encTyAttrs.eq_def, encTyAttrs.eq_def L env p (.struct bs), hp] at h1
  rw [encTyDecls.eq_def, encTyDecls.eq_def env p (.struct bs), hp] at h2
  dsimp only at h1 h2
  have key : ∀ vs, HasTy env (.struct p) (.struct vs) → serializeWithWriter L env p (.struct vs) = (.ok (), (WNode.elem (d.attrs.written d.name)
      (encOwn L env d.attrs (.struct vs) d.fields vs ++ encInherited L env d.fields vs)
      (firstDecls (d.attrs.decls ++ encInheritedDecls env d.fields vs)) (encFields L env d.attrs (.struct vs) d.fields vs)).events) := by
    intro vs hvs
    rw [serialize_eq hok hvs, encTy.eq_def, hp]
    dsimp only
    unfold wrap
    rw [if_neg (by simp [hfl, Place.root]), WNode.eventsL_single]
    rfl
  refine ⟨_, _, _, encFields L env d.attrs (.struct bs) d.fields bs, key as ha, ?_⟩
  rw [key bs hb, h1, h2]

/-- **C32**, for one field, flattened or not: if the value of an element field with `skip_serializing` is replaced, and no other field's
`skip_serializing_if` looks at it, the output is the same, provided that the new value has the attributes of the old one in case the field is a
flattened struct. -/
theorem C32_field_partial {L : Lib} {env : Env} (hok : SerOk env) {p : Path} {d : StructDef} (hp : env p = some (.struct d))
    {vs : List Val} {i : Nat} {f : FieldDef} {v w : Val} (hf : d.fields[i]? = some f) (hv : vs[i]? = some v)
    (hs : f.attrs.skipSer = true) (ha : f.attrs.isAttr = false) (ht : f.attrs.text = false)
    (hflat : f.attrs.flatten = true → ∀ q, f.ty = .struct q → SameOut env True (.struct q) v w)
    (hsel : ∀ (j : Nat) (g : FieldDef) (x : Val), d.fields[j]? = some g → vs[j]? = some x → j ≠ i →
      (g.selected (.struct vs) x ↔ g.selected (.struct (vs.set i w)) x))
    (h1 : HasTy env (.struct p) (.struct vs)) (h2 : HasTy env (.struct p) (.struct (vs.set i w))) :
    serializeWithWriter L env p (.struct (vs.set i w)) = serializeWithWriter L env p (.struct vs) := by
  have hset : ∀ (j : Nat) (x y : Val), vs[j]? = some x → (vs.set i w)[j]? = some y → (j = i → x = v ∧ y = w) ∧ (j ≠ i → x = y) := by
    intro j x y hx hy
    refine ⟨?_, fun hn => ?_⟩
    · rintro rfl
      rw [hv] at hx
      rw [List.getElem?_set_self (List.getElem?_eq_some_iff.1 hv).1] at hy
      cases hx; cases hy
      exact ⟨rfl, rfl⟩
    · rw [List.getElem?_set_ne (Ne.symm hn), hx] at hy
      cases hy
      rfl
  refine (C96_output hok h1 h2 (.struct _ p d _ _ hp (by simp) (fun j => j = i) ?_ ?_ ?_ ?_)).1.symm
  · rintro j g x y hg hx hy rfl
    rw [hf] at hg; cases hg
    unfold FieldDef.Unwritten
    rw [if_neg (by simp [ha])]
    exact .inr ⟨ht, .inl hs⟩
  · rintro j g x y hg hx hy rfl _ hfl q hq
    rw [hf] at hg; cases hg
    obtain ⟨rfl, rfl⟩ := (hset j x y hx hy).1 rfl
    exact hflat hfl q hq
  · intro j g x y hg hx hy hj
    obtain rfl := (hset j x y hx hy).2 hj
    exact hsel j g x hg hx hj
  · intro j g x y hg hx hy hj
    obtain rfl := (hset j x y hx hy).2 hj
    exact .refl _ _ _

/-! ### Example -/

namespace Unwritten

open Tests

/-- A document with a count that is left out if 0, a flattened part that is not written except for its attribute, and a variant with an
`Option` field. -/
def env : Env := envOf [
  mkS c!"Doc" [
    { ident := c!"count", ty := I .u8, attrs := attr, skipIf := some fun _ v => match v with | .int n => decide (n < 10) | _ => false },
    F c!"tags" (V Tests.S) attr,
    F c!"part" (T c!"Part") { flatten := true, skipSer := true },
    F c!"kind" (T c!"Kind"),
    F c!"title" Tests.S],
  mkS c!"Part" [F c!"id" Tests.S attr, F c!"body" Tests.S],
  mkE c!"Kind" [{ ident := c!"A", shape := .named [F c!"x" (I .u8), F c!"y" (O (I .u8))] }] (.enum 0 [i 0, .none])]

def value (n : Int) (tags : List Val) (id body : Str) (y : Val) (title : Str) : Val :=
  .struct [i n, .vec tags, .struct [s id, s body], .enum 0 [i 5, y], s title]

theorem serOk : SerOk env := serOk_of_all _ (by decide +kernel)
theorem noBuiltin : NoBuiltin env := noBuiltin_of_all _ (by decide +kernel)

theorem sameOut (title : Str) :
    SameOut env False (T c!"Doc") (value 3 [s c!"t"] c!"7" c!"b" (.some (i 1)) title) (value 8 [] c!"7" c!"other" .none title) := by
  refine .struct _ _ _ _ _ rfl rfl (fun j => j < 3) ?_ ?_ ?_ ?_
  · intro j f x y hf hx hy hj
    match j with
    | 0 => cases hf; cases hx; cases hy
           exact .inr ⟨fun h => absurd (h.1 _ rfl) (by decide), fun h => absurd (h.1 _ rfl) (by decide)⟩
    | 1 => cases hf; exact .inl ⟨_, rfl⟩
    | 2 => cases hf; exact .inr ⟨rfl, .inl rfl⟩
    | n + 3 => omega
  · intro j f x y hf hx hy hj h1 h2 q hq
    match j with
    | 0 | 1 => cases hf; cases h1
    | 2 =>
      cases hf; cases hx; cases hy; cases hq
      refine .struct _ _ _ _ _ rfl rfl (fun j => j = 1) ?_ ?_ ?_ ?_
      · rintro _ f x y hf hx hy rfl
        cases hf
        exact .inl trivial
      · rintro _ f x y hf hx hy rfl _ h
        cases hf; cases h
      · intro j f x y hf hx hy hj
        match j with
        | 0 => cases hf; exact ⟨fun _ => ⟨fun _ h => (by cases h), fun _ h => (by cases h)⟩, fun _ => ⟨fun _ h => (by cases h), fun _ h => (by cases h)⟩⟩
        | 1 => exact (hj rfl).elim
        | n + 2 => cases hf
      · intro j f x y hf hx hy hj
        match j with
        | 0 => cases hf; cases hx; cases hy; exact .refl _ _ _
        | 1 => exact (hj rfl).elim
        | n + 2 => cases hf
    | n + 3 => omega
  · intro j f x y hf hx hy hj
    match j with
    | 0 | 1 | 2 => exact (hj (by decide)).elim
    | 3 | 4 => cases hf; exact ⟨fun _ => ⟨fun _ h => (by cases h), fun _ h => (by cases h)⟩, fun _ => ⟨fun _ h => (by cases h), fun _ h => (by cases h)⟩⟩
    | n + 5 => cases hf
  · intro j f x y hf hx hy hj
    match j with
    | 0 | 1 | 2 => exact (hj (by decide)).elim
    | 3 =>
      cases hf; cases hx; cases hy
      refine .named _ _ _ _ _ _ _ rfl rfl rfl rfl ?_
      intro j f x y hf hx hy hn
      match j with
      | 0 => cases hf; cases hx; cases hy; exact .refl _ _ _
      | 1 => cases hf; exact (hn _ rfl).elim
      | n + 2 => cases hf
    | 4 => cases hf; cases hx; cases hy; exact .refl _ _ _
    | n + 5 => cases hf

/-- The two values are written alike. -/
example : serializeWithWriter lib env [c!"Doc"] (value 3 [s c!"t"] c!"7" c!"b" (.some (i 1)) c!"T") =
    serializeWithWriter lib env [c!"Doc"] (value 8 [] c!"7" c!"other" .none c!"T") :=
  (C96_output serOk (hasTy_of_check _ _ _ (by decide +kernel)) (hasTy_of_check _ _ _ (by decide +kernel)) (sameOut _)).1

/-- Also where the output fails, at any point. -/
example (io : Nat → Option Str) : (serializeWithWriter lib env [c!"Doc"] (value 3 [s c!"t"] c!"7" c!"b" (.some (i 1)) c!"T") io).2 =
    (serializeWithWriter lib env [c!"Doc"] (value 8 [] c!"7" c!"other" .none c!"T") io).2 :=
  (C96_errors serOk noBuiltin (hasTy_of_check _ _ _ (by decide +kernel)) (hasTy_of_check _ _ _ (by decide +kernel)) (sameOut _) io).1

/-- Namely so. -/
example : toString lib env [c!"Doc"] (value 8 [] c!"7" c!"other" .none c!"T") =
    .ok c!"<?xml version=\"1.0\" encoding=\"utf-8\"?><Doc id=\"7\"><kind><x>5</x></kind><title>T</title></Doc>" := by
  decide +kernel

/-- The attribute of the flattened part does matter, and the count where it is not suppressed. -/
example : toString lib env [c!"Doc"] (value 12 [] c!"9" c!"other" .none c!"T") =
    .ok c!"<?xml version=\"1.0\" encoding=\"utf-8\"?><Doc count=\"12\" id=\"9\"><kind><x>5</x></kind><title>T</title></Doc>" := by
  decide +kernel

/-- Values with the same attributes have the same start tag. -/
example (c c' : Str) : ∃ attrs nss ca cb,
    serializeWithWriter lib env [c!"Part"] (.struct [s c!"7", s c]) = (.ok (), (WNode.elem c!"Part" attrs nss ca).events) ∧
      serializeWithWriter lib env [c!"Part"] (.struct [s c!"7", s c']) = (.ok (), (WNode.elem c!"Part" attrs nss cb).events) := by
  have ht : ∀ c, HasTy env (T c!"Part") (.struct [s c!"7", s c]) := fun c => hasTy_of_check _ _ _ rfl
  refine C96_head (p := [c!"Part"]) serOk rfl rfl (ht c) (ht c') (.struct _ _ _ _ _ rfl rfl (fun j => j = 1) ?_ ?_ ?_ ?_)
  · rintro _ f x y hf hx hy rfl
    cases hf
    exact .inl trivial
  · rintro _ f x y hf hx hy rfl _ h
    cases hf; cases h
  · intro j f x y hf hx hy hj
    match j with
    | 0 => cases hf; exact ⟨fun _ => ⟨fun _ h => (by cases h), fun _ h => (by cases h)⟩, fun _ => ⟨fun _ h => (by cases h), fun _ h => (by cases h)⟩⟩
    | 1 => exact (hj rfl).elim
    | n + 2 => cases hf
  · intro j f x y hf hx hy hj
    match j with
    | 0 => cases hf; cases hx; cases hy; exact .refl _ _ _
    | 1 => exact (hj rfl).elim
    | n + 2 => cases hf

/-- The text in the flattened part, which has `skip_serializing`, may be replaced by any other. -/
example (c c' : Str) : serializeWithWriter lib env [c!"Doc"] (value 12 [] c!"9" c' .none c!"T") =
    serializeWithWriter lib env [c!"Doc"] (value 12 [] c!"9" c .none c!"T") := by
  have ht : ∀ c, HasTy env (T c!"Doc") (value 12 [] c!"9" c .none c!"T") := fun c => hasTy_of_check _ _ _ rfl
  refine C32_field_partial (p := [c!"Doc"]) (i := 2) (vs := [i 12, .vec [], .struct [s c!"9", s c], .enum 0 [i 5, .none], s c!"T"])
    (v := .struct [s c!"9", s c]) (w := .struct [s c!"9", s c'])
    (f := F c!"part" (T c!"Part") { flatten := true, skipSer := true }) serOk (by rfl) (by rfl) (by rfl) rfl rfl rfl ?_ ?_ (ht c) (ht c')
  · rintro _ q ⟨rfl⟩
    refine .struct _ _ _ _ _ rfl rfl (fun j => j = 1) ?_ ?_ ?_ ?_
    · rintro _ f x y hf hx hy rfl
      cases hf
      exact .inl trivial
    · rintro _ f x y hf hx hy rfl _ h
      cases hf; cases h
    · intro j f x y hf hx hy hj
      match j with
      | 0 => cases hf; exact ⟨fun _ => ⟨fun _ h => (by cases h), fun _ h => (by cases h)⟩, fun _ => ⟨fun _ h => (by cases h), fun _ h => (by cases h)⟩⟩
      | 1 => exact (hj rfl).elim
      | n + 2 => cases hf
    · intro j f x y hf hx hy hj
      match j with
      | 0 => cases hf; cases hx; cases hy; exact .refl _ _ _
      | 1 => exact (hj rfl).elim
      | n + 2 => cases hf
  · intro j g x hg hx hj
    match j with
    | 0 =>
      cases hg; cases hx
      exact ⟨fun _ => ⟨fun _ h => (by cases h; rfl), fun _ h => (by cases h)⟩, fun _ => ⟨fun _ h => (by cases h; rfl), fun _ h => (by cases h)⟩⟩
    | 1 | 3 | 4 =>
      cases hg
      exact ⟨fun _ => ⟨fun _ h => (by cases h), fun _ h => (by cases h)⟩, fun _ => ⟨fun _ h => (by cases h), fun _ h => (by cases h)⟩⟩
    | 2 => exact (hj rfl).elim
    | n + 5 => cases hg

end Unwritten

end Yaserde
