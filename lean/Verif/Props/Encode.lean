import Verif.Proofs.Blocks
import Verif.Props.Sample
import Verif.Tests.Check
/-
Properties of serialization: C30-C42.
-/

set_option autoImplicit false
set_option maxRecDepth 100000

namespace Yaserde

/-- The name of the element a type is written as, if it has an element of its own. -/
inductive RootName (env : Env) : Path → Str → Prop
  | struct (p : Path) (d : StructDef) (hp : env p = some (.struct d)) (hf : d.attrs.flatten = false) :
      RootName env p (d.attrs.written d.name)
  | enum (p : Path) (d : EnumDef) (hp : env p = some (.enum d)) (hf : d.attrs.flatten = false) :
      RootName env p (d.attrs.written d.name)
  | prim (p : Path) (d : PrimDef) (hp : env p = some (.prim d)) (hf : d.bare = false) : RootName env p d.name

section
variable {L : Lib} {env : Env}

/-- The events written for a value by itself are those of its encoding. -/
theorem serialize_eq (hok : SerOk env) {p : Path} {v : Val} (hv : HasTy env (.struct p) v) :
    serializeWithWriter L env p v = (.ok (), WNode.eventsL (encTy L env .root p v)) := by
  unfold serializeWithWriter
  rcases ((encOk (L := L) hok hv).1 .root).run (Sr.new {}) ⟨rfl, rfl⟩ (.inr fun _ => rfl) with
    ⟨s', e, o, -⟩ | ⟨j, m, s', e, hj, o, ⟨e', he⟩, -⟩
  · show (match serTy L env p v (Sr.new {}) with | (r, s) => (r, s.writer.out)) = _
    rw [e]
    dsimp only
    rw [o]
    rfl
  · cases he

/-- **C30.** What is written for a value is one element, with the type's name. -/
theorem C30_one_element (hok : SerOk env) {p : Path} {n : Str} {v : Val} (hn : RootName env p n)
    (hv : HasTy env (.struct p) v) :
    ∃ as nss kids, serializeWithWriter L env p v = (.ok (), (WNode.elem n as nss kids).events) := by
  rw [serialize_eq hok hv]
  cases hn with
  | struct d hp hf =>
    cases hv with
    | struct _ d' fs hp' _ _ =>
      rw [hp] at hp'; cases hp'
      rw [encTy.eq_def, hp]
      dsimp only
      unfold wrap
      rw [hf]
      exact ⟨_, _, _, by rw [if_neg (by decide), WNode.eventsL_single]; rfl⟩
    | unit _ _ _ _ hp' | newtype _ _ _ _ _ _ hp' | named _ _ _ _ _ _ hp' | prim _ _ _ hp' => rw [hp] at hp'; cases hp'
  | enum d hp hf =>
    cases hv with
    | struct _ _ _ hp' | prim _ _ _ hp' => rw [hp] at hp'; cases hp'
    | unit _ _ _ _ hp' hi | newtype _ _ _ _ _ _ hp' hi | named _ _ _ _ _ _ hp' hi =>
      rw [hp] at hp'; cases hp'
      rw [encTy.eq_def, hp]
      dsimp only
      rw [hi]
      dsimp only
      unfold wrap
      rw [hf]
      exact ⟨_, _, _, by rw [if_neg (by decide), WNode.eventsL_single]; rfl⟩
  | prim d hp hf =>
    rw [encTy.eq_def, hp]
    dsimp only
    unfold wrap
    rw [hf]
    exact ⟨_, _, _, by rw [if_neg (by decide), WNode.eventsL_single]; rfl⟩

/-- The attributes of the value of a flattened field. -/
def inheritedAttrs (L : Lib) (env : Env) (f : FieldDef) (v : Val) : List Attr :=
  if !f.attrs.isAttr && f.attrs.flatten then
    match f.ty with
    | .struct p => encTyAttrs L env p v
    | _ => []
  else []

/-- The namespace declarations of the value of a flattened field. -/
def inheritedDecls (env : Env) (f : FieldDef) (v : Val) : NsMap :=
  if !f.attrs.isAttr && f.attrs.flatten then
    match f.ty with
    | .struct p => encTyDecls env p v
    | _ => []
  else []

/-- What is written for a struct value: `own` and `inh` are the attributes contributed by each field itself and
by each flattened field's value, `ns` the declarations of flattened values, `bs` the children of each field. -/
structure StructOut (L : Lib) (env : Env) (d : StructDef) (fs : List Val) (own inh : List (List Attr)) (ns : List NsMap)
    (bs : List (List WNode)) : Prop where
  own : Blocks (AttrBlock L env d.attrs (.struct fs)) d.fields fs own
  kids : Blocks (Block L env d.attrs (.struct fs)) d.fields fs bs
  inh : Blocks (fun f v b => b = inheritedAttrs L env f v) d.fields fs inh
  ns : Blocks (fun f v b => b = inheritedDecls env f v) d.fields fs ns

theorem encInherited_blocks (fds : List FieldDef) (vs : List Val) (hlen : vs.length = fds.length) :
    ∃ bs, encInherited L env fds vs = bs.flatten ∧ Blocks (fun f v b => b = inheritedAttrs L env f v) fds vs bs := by
  induction fds generalizing vs with
  | nil => exact ⟨[], by rw [encInherited.eq_def]; rfl, rfl, by simp⟩
  | cons f fds ih =>
    cases vs with
    | nil => simp at hlen
    | cons v vs =>
      obtain ⟨bs, e, hb⟩ := ih vs (by simpa using hlen)
      refine ⟨inheritedAttrs L env f v :: bs, ?_, .cons rfl hb⟩
      rw [encInherited.eq_def]
      dsimp only
      rw [e, List.flatten_cons]
      congr 1
      unfold inheritedAttrs
      cases f.ty <;> rfl

theorem encInheritedDecls_blocks (fds : List FieldDef) (vs : List Val) (hlen : vs.length = fds.length) :
    ∃ bs : List NsMap, encInheritedDecls env fds vs = bs.flatten ∧
      Blocks (fun f v b => b = inheritedDecls env f v) fds vs bs := by
  induction fds generalizing vs with
  | nil => exact ⟨[], by rw [encInheritedDecls.eq_def]; rfl, rfl, by simp⟩
  | cons f fds ih =>
    cases vs with
    | nil => simp at hlen
    | cons v vs =>
      obtain ⟨bs, e, hb⟩ := ih vs (by simpa using hlen)
      refine ⟨inheritedDecls env f v :: bs, ?_, .cons rfl hb⟩
      rw [encInheritedDecls.eq_def]
      dsimp only
      rw [e, List.flatten_cons]
      congr 1
      unfold inheritedDecls
      cases f.ty <;> rfl

/-- The struct part of the refinement, field by field. -/
theorem struct_out (hok : SerOk env) {p : Path} {d : StructDef} {fs : List Val} (hp : env p = some (.struct d))
    (hv : HasTy env (.struct p) (.struct fs)) :
    ∃ own inh ns bs, StructOut L env d fs own inh ns bs ∧
      ∀ pl, encTy L env pl p (.struct fs) = wrap d.attrs pl (d.attrs.written d.name) (own.flatten ++ inh.flatten)
        (firstDecls (d.attrs.decls ++ ns.flatten)) bs.flatten := by
  cases hv with
  | prim _ _ _ hp' => rw [hp] at hp'; cases hp'
  | struct _ d' _ hp' hlen h =>
    rw [hp] at hp'; cases hp'
    have hf : ∀ (i : Nat) (f : FieldDef) (v : Val), d.fields[i]? = some f → fs[i]? = some v → f.SerOk ∧ HasTy env f.ty v :=
      fun i f v hf hv => ⟨hok.fields p d hp f (List.mem_of_getElem? hf), h i f v hf hv⟩
    obtain ⟨own, e1, h1⟩ := encOwn_blocks (L := L) hok d.attrs (.struct fs) d.fields fs hlen hf
    obtain ⟨bs, e2, h2⟩ := encFields_blocks (L := L) d.attrs (.struct fs) d.fields fs hlen hf
    obtain ⟨inh, e3, h3⟩ := encInherited_blocks (L := L) (env := env) d.fields fs hlen
    obtain ⟨ns, e4, h4⟩ := encInheritedDecls_blocks (env := env) d.fields fs hlen
    refine ⟨own, inh, ns, bs, ⟨h1, h2, h3, h4⟩, fun pl => ?_⟩
    rw [encTy.eq_def, hp]
    dsimp only
    rw [e1, e2, e3, e4]

/-- By itself. -/
theorem struct_alone (hok : SerOk env) {p : Path} {d : StructDef} {fs : List Val} (hp : env p = some (.struct d))
    (hfl : d.attrs.flatten = false) (hv : HasTy env (.struct p) (.struct fs)) :
    ∃ own inh ns bs, StructOut L env d fs own inh ns bs ∧
      serializeWithWriter L env p (.struct fs) = (.ok (), (WNode.elem (d.attrs.written d.name) (own.flatten ++ inh.flatten)
        (firstDecls (d.attrs.decls ++ ns.flatten)) bs.flatten).events) := by
  obtain ⟨own, inh, ns, bs, h, e⟩ := struct_out (L := L) hok hp hv
  refine ⟨own, inh, ns, bs, h, ?_⟩
  rw [serialize_eq hok hv, e .root]
  unfold wrap
  rw [if_neg (by simp [hfl, Place.root]), WNode.eventsL_single]
  rfl

/-- **C31.** The children of a struct's element are those of its fields, in declaration order, each as its kind of
field prescribes (`Block`). -/
theorem C31_children (hok : SerOk env) {p : Path} {d : StructDef} {fs : List Val} (hp : env p = some (.struct d))
    (hfl : d.attrs.flatten = false) (hv : HasTy env (.struct p) (.struct fs)) :
    ∃ as nss bs, Blocks (Block L env d.attrs (.struct fs)) d.fields fs bs ∧
      serializeWithWriter L env p (.struct fs)
        = (.ok (), (WNode.elem (d.attrs.written d.name) as nss bs.flatten).events) := by
  obtain ⟨own, inh, ns, bs, h, e⟩ := struct_alone (L := L) hok hp hfl hv
  exact ⟨_, _, bs, h.kids, e⟩

/-- **C31**, nested values: a field of struct type is one element with the field's name, and the attributes,
declarations and children the value has by itself. -/
theorem C31_nested (hok : SerOk env) {p : Path} {d : StructDef} {fs : List Val} (hp : env p = some (.struct d))
    (hfl : d.attrs.flatten = false) (hv : HasTy env (.struct p) (.struct fs)) :
    ∃ as nss kids, serializeWithWriter L env p (.struct fs) = (.ok (), (WNode.elem (d.attrs.written d.name) as nss kids).events) ∧
      ∀ (root : Attrs) (f : FieldDef),
        (f.attrs.flatten = false → encTy L env (f.place root) p (.struct fs) = [.elem (f.written root) as nss kids]) ∧
        (f.attrs.flatten = true → encTy L env (f.place root) p (.struct fs) = kids) := by
  obtain ⟨own, inh, ns, bs, h, e⟩ := struct_out (L := L) hok hp hv
  refine ⟨own.flatten ++ inh.flatten, firstDecls (d.attrs.decls ++ ns.flatten), bs.flatten, ?_, fun root f => ⟨fun hf => ?_, fun hf => ?_⟩⟩
  · rw [serialize_eq hok hv, e .root]
    unfold wrap
    rw [if_neg (by simp [hfl, Place.root]), WNode.eventsL_single]
    rfl
  · rw [e]
    unfold wrap FieldDef.place
    simp [hf, hfl]
  · rw [e]
    unfold wrap FieldDef.place
    simp [hf, Place.inner]

/-! ### C32 -/

/-- **C32**, the part that holds: the events written for a value do not depend on its hidden fields (at any depth). -/
theorem C32_skip_partial (hok : SerOk env) {p : Path} {a b : Val} (ha : HasTy env (.struct p) a)
    (hb : HasTy env (.struct p) b) (h : SameVisible env (.struct p) a b) :
    serializeWithWriter L env p a = serializeWithWriter L env p b := by
  rw [serialize_eq hok ha, serialize_eq hok hb]
  have := (h.alike (L := L) hok).1 .root
  rw [WNode.mapTextL_id, WNode.mapTextL_id] at this
  rw [this]

/-! ### C33 -/

/-- The field without `skip_serializing_if` and `default`. -/
def FieldDef.always (f : FieldDef) : FieldDef := { f with skipIf := none, dflt := none }

theorem always_selected (f : FieldDef) (self v : Val) : f.always.selected self v :=
  ⟨fun _ h => (by cases h), fun _ h => (by cases h)⟩

theorem always_written {f : FieldDef} {self v : Val} (h : f.Written self v) : f.always.Written self v :=
  ⟨h.1, h.2, fun ho => ho.elim (fun hs => h.3 (.inl hs)) fun hn => hn (always_selected f self v)⟩

theorem block_always {root : Attrs} {self v : Val} {f : FieldDef} {b : List WNode} (h : Block L env root self f v b)
    (ha : f.attrs.isAttr = false) (ht : f.attrs.text = false) (hs : f.attrs.skipSer = false) :
    if f.selected self v then Block L env root self f.always v b else b = [] := by
  have hw : ∀ {w}, f.Written self w → f.selected self w :=
    fun h => Classical.byContradiction fun hn => h.3 (.inr hn)
  cases h with
  | attr _ h => rw [ha] at h; cases h
  | text _ h h' | textSome _ h h' | textNone h h' => rw [ht] at h'; cases h'
  | omitted _ h h' ho =>
    rcases ho with ho | ho
    · rw [hs] at ho; cases ho
    · rw [if_neg ho]
  | cdata s h hc => rw [if_pos (hw h)]; exact .cdata f.always s (always_written h) hc
  | scalar t _ hty h hc => rw [if_pos (hw h)]; exact .scalar f.always t _ hty (always_written h) hc
  | none t hty h hc => rw [if_pos (hw h)]; exact .none f.always t hty (always_written h) hc
  | some t x hty h hc => rw [if_pos (hw h)]; exact .some f.always t x hty (always_written h) hc
  | items t x hty h hc => rw [if_pos (hw h)]; exact .items f.always t x hty (always_written h) hc
  | someItems t x hty h hc => rw [if_pos (hw h)]; exact .someItems f.always t x hty (always_written h) hc
  | struct p x hty h hc => rw [if_pos (hw h)]; exact .struct f.always p _ hty (always_written h) hc
  | someStruct p x hty h hc => rw [if_pos (hw h)]; exact .someStruct f.always p x hty (always_written h) hc
  | structs p x hty h hc => rw [if_pos (hw h)]; exact .structs f.always p x hty (always_written h) hc
  | optItems t x hty h hc => rw [if_pos (hw h)]; exact .optItems f.always t x hty (always_written h) hc
  | optStructs p x hty h hc => rw [if_pos (hw h)]; exact .optStructs f.always p x hty (always_written h) hc

theorem attrBlock_always {root : Attrs} {self v : Val} {f : FieldDef} {b : List Attr} (h : AttrBlock L env root self f v b)
    (ha : f.attrs.isAttr = true) :
    if f.selected self v then AttrBlock L env root self f.always v b else b = [] := by
  by_cases hs : f.selected self v
  · rw [if_pos hs]
    cases h with
    | element _ h => rw [ha] at h; cases h
    | suppressed _ h hn => exact (hn hs).elim
    | plain t _ h hty _ => exact .plain f.always t _ h hty (always_selected ..)
    | some t _ h hty _ => exact .some f.always t _ h hty (always_selected ..)
    | none t h hty => exact .none f.always t h hty
    | struct p _ s h hty _ hc => exact .struct f.always p _ s h hty (always_selected ..) hc
    | someStruct p _ s h hty _ hc => exact .someStruct f.always p _ s h hty (always_selected ..) hc
    | vec t _ h hty => exact .vec f.always t _ h hty
  · rw [if_neg hs]
    cases h with
    | element | suppressed | none | vec => rfl
    | plain _ _ _ _ h | some _ _ _ _ h => exact (hs h).elim
    | struct _ _ _ _ _ h | someStruct _ _ _ _ _ h => exact (hs h).elim

/-- **C33.** An element or attribute field is written exactly if its value is not suppressed by
`skip_serializing_if` or `default`, and then as if neither were given. -/
theorem C33_suppress (hok : SerOk env) {p : Path} {d : StructDef} {fs : List Val} (hp : env p = some (.struct d))
    (hfl : d.attrs.flatten = false) (hv : HasTy env (.struct p) (.struct fs)) :
    ∃ own inh nss bs, serializeWithWriter L env p (.struct fs)
        = (.ok (), (WNode.elem (d.attrs.written d.name) (List.flatten own ++ inh) nss (List.flatten bs)).events) ∧
      own.length = d.fields.length ∧ bs.length = d.fields.length ∧
      ∀ (i : Nat) (f : FieldDef) (v : Val), d.fields[i]? = some f → fs[i]? = some v →
        (f.attrs.isAttr = false → f.attrs.text = false → f.attrs.skipSer = false → ∀ b, bs[i]? = some b →
          if f.selected (.struct fs) v then Block L env d.attrs (.struct fs) f.always v b else b = []) ∧
        (f.attrs.isAttr = true → ∀ b, own[i]? = some b →
          if f.selected (.struct fs) v then AttrBlock L env d.attrs (.struct fs) f.always v b else b = []) := by
  obtain ⟨own, inh, ns, bs, h, e⟩ := struct_alone (L := L) hok hp hfl hv
  refine ⟨own, inh.flatten, _, bs, e, h.own.1, h.kids.1, fun i f v hf hv => ⟨fun ha ht hs b hb => ?_, fun ha b hb => ?_⟩⟩
  · exact block_always (h.kids.2 i f v b hf hv hb) ha ht hs
  · exact attrBlock_always (h.own.2 i f v b hf hv hb) ha

/-! ### C34 -/

/-- **C34**, the part about what is written: the tags of the output - names of elements and attributes, their
nesting, namespace declarations - are the same for all values of the same shape, whatever their strings. -/
theorem C34_shape_partial (hok : SerOk env) {p : Path} {a b : Val} (ha : HasTy env (.struct p) a) (hb : HasTy env (.struct p) b)
    (h : SameShape env (.struct p) a b) :
    ∃ ta tb, serializeWithWriter L env p a = (.ok (), WNode.eventsL ta) ∧
      serializeWithWriter L env p b = (.ok (), WNode.eventsL tb) ∧ WNode.skelL ta = WNode.skelL tb := by
  refine ⟨_, _, serialize_eq hok ha, serialize_eq hok hb, ?_⟩
  have := (h.alike (L := L) hok).1 .root
  rw [← WNode.skelL_mapText (fun _ => []), this, WNode.skelL_mapText]

/-! ### C35 -/

/-- The type has an element of its own (no `flatten` on the type). -/
def OwnElement (env : Env) (p : Path) : Prop := ∃ n, RootName env p n

theorem encTy_named {p : Path} {v : Val} (hn : OwnElement env p) (n : Str) :
    ∀ x ∈ encTy L env ⟨some n, false⟩ p v, ∃ as m ks, x = .elem n as m ks := by
  intro x hx
  rw [encTy.eq_def] at hx
  obtain ⟨r, hr⟩ := hn
  cases hr with
  | struct d hp hf =>
    rw [hp] at hx
    cases v <;> simp [wrap, hf] at hx
    exact ⟨_, _, _, hx⟩
  | enum d hp hf =>
    rw [hp] at hx
    cases v <;> simp only [List.not_mem_nil] at hx
    rename_i i pay
    cases hi : d.variants[i]? with
    | none => rw [hi] at hx; simp at hx
    | some vd => rw [hi] at hx; simp [wrap, hf] at hx; exact ⟨_, _, _, hx⟩
  | prim d hp hf =>
    rw [hp] at hx
    simp only [wrap] at hx
    rw [hf, if_neg (by decide)] at hx
    simp at hx
    exact ⟨_, _, _, hx⟩

theorem block_names {root : Attrs} {self v : Val} {f : FieldDef} {b : List WNode} (h : Block L env root self f v b)
    (hfl : f.attrs.flatten = false)
    (hty : ∀ p, f.ty = .struct p ∨ f.ty = .opt (.struct p) ∨ f.ty = .vec (.struct p) → OwnElement env p)
    (hvo : ∀ t, f.ty ≠ .vec (.opt t)) (n : Str) (as : List Attr) (m : NsMap) (ks : List WNode) (hx : .elem n as m ks ∈ b) :
    n = f.written root := by
  have hpl : f.place root = ⟨some (f.written root), false⟩ := by
    unfold FieldDef.place; rw [hfl]; rfl
  cases h with
  | attr | omitted | none => cases hx
  | text | textSome | textNone => simp at hx
  | cdata => simp at hx; exact hx.1
  | scalar => simp at hx; exact hx.1
  | some => simp at hx; exact hx.1
  | items => simp at hx; obtain ⟨_, _, e, _⟩ := hx; exact e.symm
  | someItems => simp at hx; obtain ⟨_, _, e, _⟩ := hx; exact e.symm
  | struct p x ht =>
    rw [hpl] at hx
    obtain ⟨_, _, _, e⟩ := encTy_named (hty p (.inl ht)) _ _ hx
    cases e; rfl
  | someStruct p x ht =>
    rw [hpl] at hx
    obtain ⟨_, _, _, e⟩ := encTy_named (hty p (.inr (.inl ht))) _ _ hx
    cases e; rfl
  | structs p xs ht =>
    rw [hpl] at hx
    obtain ⟨x, -, hx⟩ := List.mem_flatMap.1 hx
    obtain ⟨_, _, _, e⟩ := encTy_named (hty p (.inr (.inr ht))) _ _ hx
    cases e; rfl
  | optItems t xs ht => exact (hvo _ ht).elim
  | optStructs t xs ht => exact (hvo _ ht).elim

theorem attrBlock_names {root : Attrs} {self v : Val} {f : FieldDef} {b : List Attr} (h : AttrBlock L env root self f v b) :
    ∀ a ∈ b, a.name = Name.ofStr (f.written root) := by
  intro a ha
  cases h with
  | element | suppressed | none | vec => cases ha
  | plain | some | struct | someStruct => simp at ha; rw [ha]

/-- The name rule: the `rename` (or the identifier), preceded by the prefix unless there is none or it is that of the
default namespace. -/
def NameRule (dflt pfx rename : Option Str) (ident n : Str) : Prop :=
  (pfx = none ∨ pfx = dflt → n = rename.getD ident) ∧
  (∀ q, pfx = some q → dflt ≠ some q → n = q ++ c!":" ++ rename.getD ident)

theorem qualify_rule (dflt pfx rename : Option Str) (ident : Str) :
    NameRule dflt pfx rename ident (qualify dflt pfx (rename.getD ident)) := by
  constructor
  · rintro (h | h)
    · rw [h]; rfl
    · cases pfx with
      | none => rfl
      | some q => simp only [qualify]; rw [if_pos h.symm]
  · intro q h hn
    subst h
    simp only [qualify]
    rw [if_neg hn]

/-- How a name is spelled in the text. -/
def Name.spelled (n : Name) : Str :=
  match n.pfx with
  | some p => p ++ c!":" ++ n.loc
  | none => n.loc

theorem splitColon_spec (s : Str) : match splitColon s with
    | some (p, l) => p ++ c!":" ++ l = s ∧ ':' ∉ p
    | none => ':' ∉ s := by
  induction s with
  | nil => exact List.not_mem_nil
  | cons c cs ih =>
    unfold splitColon
    by_cases hc : c = ':'
    · rw [if_pos hc]
      subst hc
      exact ⟨rfl, List.not_mem_nil⟩
    · rw [if_neg hc]
      cases h : splitColon cs with
      | none =>
        rw [h] at ih
        simp only [Option.map_none, List.mem_cons, not_or]
        exact ⟨Ne.symm hc, ih⟩
      | some x =>
        rw [h] at ih
        simp only [Option.map_some, List.mem_cons, not_or, List.cons_append, List.cons.injEq, true_and]
        exact ⟨ih.1, Ne.symm hc, ih.2⟩

/-- The name handed to the writer for a tag or attribute is spelled as the string it is made from, and its prefix is what
precedes the first colon. -/
theorem C35_spelling (s : Str) : (Name.ofStr s).spelled = s ∧ (Name.ofStr s).ns = none ∧
    (∀ p, (Name.ofStr s).pfx = some p → ':' ∉ p) ∧ ((Name.ofStr s).pfx = none ↔ ':' ∉ s) := by
  have h := splitColon_spec s
  unfold Name.ofStr
  cases hs : splitColon s with
  | none =>
    rw [hs] at h
    exact ⟨rfl, rfl, by simp, by simpa using h⟩
  | some x =>
    rw [hs] at h
    refine ⟨h.1, rfl, by intro p hp; cases hp; exact h.2, ?_⟩
    simp only [reduceCtorEq, false_iff, Decidable.not_not]
    rw [← h.1]
    simp

/-- **C35.** The elements and attributes written for the fields of a struct, and its own element, are named by the
name rule. -/
theorem C35_names (hok : SerOk env) {p : Path} {d : StructDef} {fs : List Val} (hp : env p = some (.struct d))
    (hfl : d.attrs.flatten = false) (hv : HasTy env (.struct p) (.struct fs)) :
    ∃ root own inh nss bs, serializeWithWriter L env p (.struct fs)
        = (.ok (), (WNode.elem root (List.flatten own ++ inh) nss (List.flatten bs)).events) ∧
      NameRule d.attrs.defaultNs d.attrs.pfx d.attrs.rename d.name root ∧
      own.length = d.fields.length ∧ bs.length = d.fields.length ∧
      ∀ (i : Nat) (f : FieldDef) (v : Val), d.fields[i]? = some f → fs[i]? = some v →
        (∀ b, own[i]? = some b → ∀ a ∈ b, NameRule d.attrs.defaultNs f.attrs.pfx f.attrs.rename f.ident a.name.spelled) ∧
        (f.attrs.flatten = false →
          (∀ p, f.ty = .struct p ∨ f.ty = .opt (.struct p) ∨ f.ty = .vec (.struct p) → OwnElement env p) →
          (∀ t, f.ty ≠ .vec (.opt t)) →
          ∀ b, bs[i]? = some b → ∀ n as m ks, .elem n as m ks ∈ b →
            NameRule d.attrs.defaultNs f.attrs.pfx f.attrs.rename f.ident n) := by
  obtain ⟨own, inh, ns, bs, h, e⟩ := struct_alone (L := L) hok hp hfl hv
  refine ⟨_, own, inh.flatten, _, bs, e, qualify_rule _ _ _ _, h.own.1, h.kids.1, fun i f v hf hv =>
    ⟨fun b hb a ha => ?_, fun h1 h2 h3 b hb n as m ks hx => ?_⟩⟩
  · rw [attrBlock_names (h.own.2 i f v b hf hv hb) a ha, (C35_spelling _).1]
    exact qualify_rule _ _ _ _
  · rw [block_names (h.kids.2 i f v b hf hv hb) h1 h2 h3 n as m ks hx]
    exact qualify_rule _ _ _ _

/-! ### C36, C37, C40 -/

/-- **C36.** A flattened struct field contributes the children its value has by itself, in place and without an
element around them, and the attributes of its value to the start tag, after those of the struct itself. -/
theorem C36_flatten (hok : SerOk env) {p : Path} {d : StructDef} {fs : List Val} (hp : env p = some (.struct d))
    (hfl : d.attrs.flatten = false) (hv : HasTy env (.struct p) (.struct fs)) :
    ∃ own inh nss bs, serializeWithWriter L env p (.struct fs)
        = (.ok (), (WNode.elem (d.attrs.written d.name) (own ++ List.flatten inh) nss (List.flatten bs)).events) ∧
      inh.length = d.fields.length ∧ bs.length = d.fields.length ∧
      ∀ (i : Nat) (f : FieldDef) (q : Path) (c : StructDef) (cs : List Val), d.fields[i]? = some f →
        fs[i]? = some (.struct cs) → f.ty = .struct q → env q = some (.struct c) → c.attrs.flatten = false →
        f.attrs.flatten = true → f.attrs.cdata = false → f.Written (.struct fs) (.struct cs) →
        ∃ as m ks, serializeWithWriter L env q (.struct cs)
            = (.ok (), (WNode.elem (c.attrs.written c.name) as m ks).events) ∧
          inh[i]? = some as ∧ bs[i]? = some ks := by
  obtain ⟨own, inh, ns, bs, h, e⟩ := struct_alone (L := L) hok hp hfl hv
  refine ⟨own.flatten, inh, _, bs, e, h.inh.1, h.kids.1, fun i f q c cs hf hw hty hq hcf hff hcd hwr => ?_⟩
  have hi : i < d.fields.length := (List.getElem?_eq_some_iff.1 hf).1
  obtain ⟨a, ha⟩ : ∃ a, inh[i]? = some a := ⟨_, List.getElem?_eq_getElem (by rw [h.inh.1]; exact hi)⟩
  obtain ⟨b, hb⟩ : ∃ b, bs[i]? = some b := ⟨_, List.getElem?_eq_getElem (by rw [h.kids.1]; exact hi)⟩
  have hvc : HasTy env (.struct q) (.struct cs) := by
    cases hv with
    | prim _ _ _ hp' => rw [hp] at hp'; cases hp'
    | struct _ d' _ hp' _ hh =>
      rw [hp] at hp'; cases hp'
      have := hh i f _ hf hw
      rwa [hty] at this
  have hinh := h.inh.2 i f _ a hf hw ha
  have hkid := h.kids.2 i f _ b hf hw hb
  refine ⟨a, firstDecls (encTyDecls env q (.struct cs)), b, ?_, ha, hb⟩
  have ea : a = encTyAttrs L env q (.struct cs) := by
    rw [hinh]
    unfold inheritedAttrs
    rw [hwr.notAttr, hff, hty]
    rfl
  have eb : b = encTy L env .inner q (.struct cs) := by
    have hpl : f.place d.attrs = .inner := by unfold FieldDef.place; rw [if_pos hff]
    cases hkid with
    | attr _ h => rw [hwr.notAttr] at h; cases h
    | omitted _ _ _ ho => exact (hwr.notOmitted ho).elim
    | scalar t _ ht => rw [hty] at ht; cases ht
    | struct p' _ ht => rw [hty] at ht; cases ht; rw [hpl]
  rw [serialize_eq hok hvc, ea, eb]
  rw [encTy.eq_def, encTyAttrs.eq_def, encTyDecls.eq_def, encTy.eq_def L env .inner, hq]
  dsimp only
  unfold wrap
  rw [if_neg (by simp [hcf, Place.root]), WNode.eventsL_single]
  simp only [Place.root, Place.inner, Option.getD_none, Bool.or_true, if_true]

theorem NsMap.put_keys (m : NsMap) (p u : Str) (h : (m.map Prod.fst).Nodup) : ((m.put p u).map Prod.fst).Nodup := by
  unfold NsMap.put
  split
  · exact h
  · rename_i hn
    rw [((NsMap.insert_perm p u m).map Prod.fst).nodup_iff, List.map_cons, List.nodup_cons]
    refine ⟨fun ha => hn ?_, h⟩
    obtain ⟨x, hx, rfl⟩ := List.mem_map.1 ha
    exact List.any_eq_true.2 ⟨x, hx, by simp⟩

theorem NsMap.extend_keys (m o : NsMap) (h : (m.map Prod.fst).Nodup) : ((m.extend o).map Prod.fst).Nodup := by
  induction o generalizing m with
  | nil => exact h
  | cons e o ih => exact ih _ (NsMap.put_keys _ _ _ h)

theorem NsMap.put_find (m : NsMap) (p u q : Str) :
    List.find? (fun e => e.1 == q) (m.put p u) = (List.find? (fun e => e.1 == q) m).or (List.find? (fun e => e.1 == q) [(p, u)]) := by
  unfold NsMap.put
  split
  · rename_i h
    by_cases hq : p = q
    · subst hq
      obtain ⟨x, hx, e⟩ := List.any_eq_true.1 h
      cases hf : List.find? (fun e => e.1 == p) m with
      | some y => rfl
      | none => rw [List.find?_eq_none] at hf; exact absurd e (hf x hx)
    · simp [hq]
  · rename_i h
    induction m with
    | nil => rfl
    | cons e m ih =>
      rw [List.any_cons, Bool.or_eq_true, beq_iff_eq, not_or] at h
      unfold NsMap.insert; split
      · by_cases hq : p = q
        · subst hq
          have hm : List.find? (fun e => e.1 == p) m = none := by
            rw [List.find?_eq_none]
            intro x hx hxe
            exact h.2 (List.any_eq_true.mpr ⟨x, hx, hxe⟩)
          rw [List.find?_cons_of_pos (by simp), List.find?_cons_of_neg (by simpa using h.1), hm]
          simp
        · rw [List.find?_cons_of_neg (by simpa using hq), List.find?_cons_of_neg (l := []) (by simpa using hq), List.find?_nil,
            Option.or_none]
      · rw [List.find?_cons, List.find?_cons]
        split
        · rfl
        · exact ih h.2

/-- `put` keeps the prefixes in order. -/
theorem NsMap.put_sorted (m : NsMap) (p u : Str) (h : m.Pairwise fun a b => strLt a.1 b.1 = true) :
    (m.put p u).Pairwise fun a b => strLt a.1 b.1 = true := by
  unfold NsMap.put
  split
  · exact h
  · rename_i hn
    induction m with
    | nil => simp [NsMap.insert]
    | cons e m ih =>
      rw [List.any_cons, Bool.or_eq_true, beq_iff_eq, not_or] at hn
      rw [List.pairwise_cons] at h
      unfold NsMap.insert; split
      · rename_i hlt
        rw [List.pairwise_cons, List.pairwise_cons]
        refine ⟨?_, h⟩
        intro x hx
        rcases List.mem_cons.1 hx with rfl | hx
        · exact hlt
        · exact strLt_trans _ _ _ hlt (h.1 x hx)
      · rename_i hlt
        rw [List.pairwise_cons]
        refine ⟨?_, ih h.2 hn.2⟩
        intro x hx
        rcases NsMap.mem_insert.1 hx with rfl | hx
        · exact strLt_total _ _ (Ne.symm hn.1) (by simpa using hlt)
        · exact h.1 x hx

theorem NsMap.extend_sorted (m o : NsMap) (h : m.Pairwise fun a b => strLt a.1 b.1 = true) :
    (m.extend o).Pairwise fun a b => strLt a.1 b.1 = true := by
  induction o generalizing m with
  | nil => exact h
  | cons e o ih => exact ih _ (NsMap.put_sorted _ _ _ h)

theorem NsMap.extend_find (m o : NsMap) (q : Str) :
    List.find? (fun e => e.1 == q) (m.extend o) = (List.find? (fun e => e.1 == q) m).or (List.find? (fun e => e.1 == q) o) := by
  induction o generalizing m with
  | nil => simp [NsMap.extend]
  | cons e o ih =>
    show List.find? _ (NsMap.extend (m.put e.1 e.2) o) = _
    rw [ih, NsMap.put_find, Option.or_assoc, ← List.find?_append]
    rfl

/-- The first declaration of a prefix. -/
def firstOf (ds : NsMap) (q : Str) : Option Str := (List.find? (fun e => e.1 == q) ds).map Prod.snd

theorem firstDecls_firstOf (ds : NsMap) (q : Str) : firstOf (firstDecls ds) q = firstOf ds q := by
  unfold firstOf firstDecls
  rw [NsMap.extend_find]; rfl

/-- **C37.** The start tag declares each prefix at most once, in the order of the prefixes: with the URI the struct's own `namespaces` give it (the
default namespace's prefix is declared as `xmlns`), and else with that of the first flattened field that declares it. -/
theorem C37_namespaces (hok : SerOk env) {p : Path} {d : StructDef} {fs : List Val} (hp : env p = some (.struct d))
    (hfl : d.attrs.flatten = false) (hv : HasTy env (.struct p) (.struct fs)) :
    ∃ as nss ks ns, serializeWithWriter L env p (.struct fs)
        = (.ok (), (WNode.elem (d.attrs.written d.name) as nss ks).events) ∧
      (nss.map Prod.fst).Nodup ∧ (nss.Pairwise fun a b => strLt a.1 b.1 = true) ∧
      (∀ q u, d.attrs.namespaces.find (some q) = some u → d.attrs.defaultNs ≠ some q → q ≠ [] ∨ d.attrs.defaultNs = none →
        firstOf nss q = some u) ∧
      (∀ q u, d.attrs.namespaces.find (some q) = some u → d.attrs.defaultNs = some q →
        d.attrs.namespaces.find (some []) = none ∨ q = [] → firstOf nss [] = some u) ∧
      (∀ q, firstOf nss q = (firstOf d.attrs.decls q).or (firstOf (List.flatten ns) q)) ∧
      ns.length = d.fields.length ∧
      ∀ (i : Nat) (f : FieldDef) (q : Path) (c : StructDef) (cs : List Val), d.fields[i]? = some f →
        fs[i]? = some (.struct cs) → f.ty = .struct q → env q = some (.struct c) → c.attrs.flatten = false →
        f.attrs.flatten = true → f.attrs.isAttr = false →
        ∃ m as' ks', ns[i]? = some m ∧ serializeWithWriter L env q (.struct cs)
            = (.ok (), (WNode.elem (c.attrs.written c.name) as' (firstDecls m) ks').events) := by
  obtain ⟨own, inh, ns, bs, h, e⟩ := struct_alone (L := L) hok hp hfl hv
  have hdecl : ∀ q, firstOf (firstDecls (d.attrs.decls ++ ns.flatten)) q
      = (firstOf d.attrs.decls q).or (firstOf ns.flatten q) := by
    intro q
    rw [firstDecls_firstOf]
    unfold firstOf
    rw [List.find?_append]
    cases List.find? (fun e => e.1 == q) d.attrs.decls <;> rfl
  refine ⟨_, _, _, ns, e, NsMap.extend_keys _ _ List.nodup_nil, NsMap.extend_sorted _ _ .nil, ?_, ?_, hdecl, h.ns.1, fun i f q c cs hf hw hty hq hcf hff hna => ?_⟩
  · intro q u hfi hnd hq
    rw [hdecl]
    have : firstOf d.attrs.decls q = some u := by
      unfold firstOf Attrs.decls
      unfold NsMap.find at hfi
      rw [List.find?_map]
      revert hfi
      induction d.attrs.namespaces with
      | nil => simp
      | cons x xs ih =>
        intro hfi
        rw [List.find?_cons] at hfi ⊢
        by_cases hx : x.1 = q
        · subst hx
          simp only [beq_self_eq_true] at hfi
          simp only [Function.comp, if_neg hnd, beq_self_eq_true, Option.map_some]
          exact hfi
        · have h1 : (some q == some x.1) = false := by simp [Ne.symm hx]
          rw [h1] at hfi
          have h2 : ((fun e : Str × Str => e.1 == q) ∘ fun e => if d.attrs.defaultNs = some e.1 then ([], e.2) else e) x = false := by
            simp only [Function.comp]
            split
            · rename_i hd
              rcases hq with hq | hq
              · simpa using hq
              · rw [hq] at hd; cases hd
            · simp [hx]
          rw [h2]
          exact ih hfi
    rw [this]; rfl
  · intro q u hfi hd hq
    rw [hdecl]
    have : firstOf d.attrs.decls [] = some u := by
      unfold firstOf Attrs.decls
      unfold NsMap.find at hfi hq
      rw [List.find?_map]
      revert hfi hq
      induction d.attrs.namespaces with
      | nil => simp
      | cons x xs ih =>
        intro hfi hq
        rw [List.find?_cons] at hfi ⊢
        by_cases hx : x.1 = q
        · subst hx
          simp only [beq_self_eq_true] at hfi
          simp only [Function.comp, if_pos hd, beq_self_eq_true, Option.map_some]
          exact hfi
        · have h1 : (some q == some x.1) = false := by simp [Ne.symm hx]
          rw [h1] at hfi
          have hx' : ¬ d.attrs.defaultNs = some x.1 := by
            rw [hd]; simp [Ne.symm hx]
          have hx0 : x.1 ≠ [] := by
            rcases hq with hq | hq
            · intro h0
              rw [List.find?_cons, h0] at hq
              simp at hq
            · rw [← hq]; exact hx
          have h2 : ((fun e : Str × Str => e.1 == []) ∘ fun e => if d.attrs.defaultNs = some e.1 then ([], e.2) else e) x = false := by
            simp only [Function.comp, if_neg hx']
            simpa using hx0
          rw [h2]
          refine ih hfi ?_
          rcases hq with hq | hq
          · left
            rw [List.find?_cons] at hq
            have h3 : (some ([] : Str) == some x.1) = false :=
              beq_eq_false_iff_ne.2 fun h => hx0 (Option.some.inj h).symm
            rw [h3] at hq
            exact hq
          · exact .inr hq
    rw [this]; rfl
  · have hi : i < d.fields.length := (List.getElem?_eq_some_iff.1 hf).1
    obtain ⟨m, hm⟩ : ∃ a, ns[i]? = some a := ⟨_, List.getElem?_eq_getElem (by rw [h.ns.1]; exact hi)⟩
    have hvc : HasTy env (.struct q) (.struct cs) := by
      cases hv with
      | prim _ _ _ hp' => rw [hp] at hp'; cases hp'
      | struct _ d' _ hp' _ hh =>
        rw [hp] at hp'; cases hp'
        have := hh i f _ hf hw
        rwa [hty] at this
    have em : m = encTyDecls env q (.struct cs) := by
      rw [h.ns.2 i f _ m hf hw hm]
      unfold inheritedDecls
      rw [hna, hff, hty]
      rfl
    rw [serialize_eq hok hvc, encTy.eq_def, hq]
    dsimp only
    unfold wrap
    rw [if_neg (by simp [hcf, Place.root]), WNode.eventsL_single]
    have em : m = c.attrs.decls ++ encInheritedDecls env c.fields cs := by
      rw [em, encTyDecls.eq_def, hq]
    exact ⟨m, _, _, hm, by rw [em]; rfl⟩

/-- **C40.** The start tag carries the attributes of the struct's own fields in declaration order, each as its kind of
field prescribes (`AttrBlock`), followed by those of the flattened fields' values (see C36), in declaration order. -/
theorem C40_attributes (hok : SerOk env) {p : Path} {d : StructDef} {fs : List Val} (hp : env p = some (.struct d))
    (hfl : d.attrs.flatten = false) (hv : HasTy env (.struct p) (.struct fs)) :
    ∃ own inh nss kids, Blocks (AttrBlock L env d.attrs (.struct fs)) d.fields fs own ∧
      Blocks (fun f v b => b = inheritedAttrs L env f v) d.fields fs inh ∧
      serializeWithWriter L env p (.struct fs)
        = (.ok (), (WNode.elem (d.attrs.written d.name) (own.flatten ++ inh.flatten) nss kids).events) := by
  obtain ⟨own, inh, ns, bs, h, e⟩ := struct_alone (L := L) hok hp hfl hv
  exact ⟨own, inh, _, _, h.own, h.inh, e⟩

/-! ### C38, C41, C42, C39 -/

/-- **C41.** Serializing a value to a writer that does not fail succeeds. -/
theorem C41_ok (hok : SerOk env) {p : Path} {v : Val} (hv : HasTy env (.struct p) v) :
    (∃ es, serializeWithWriter L env p v = (.ok (), es)) ∧ (∀ c, ∃ s, toStringWithConfig L env c p v = .ok s) ∧
      (∃ s, toString L env p v = .ok s) ∧ ∃ s, toStringContent L env p v = .ok s := by
  have h := serialize_eq (L := L) hok hv
  have h2 : ∀ c, ∃ s, toStringWithConfig L env c p v = .ok s := by
    intro c
    unfold toStringWithConfig
    rw [h]
    exact ⟨_, rfl⟩
  exact ⟨⟨_, h⟩, h2, h2 {}, _, (encOk hok hv).content⟩

/-- **C38**, for programs in which no scalar is written through its own `YaSerialize` implementation: if the `j`-th
write fails then serialization fails, having written exactly the events before it; if no write fails then it succeeds
and has written all events. -/
theorem C38_write_errors_partial (hok : SerOk env) (hnb : NoBuiltin env) {p : Path} {v : Val}
    (hv : HasTy env (.struct p) v) (io : Nat → Option Str) :
    ∃ es, serializeWithWriter L env p v = (.ok (), es) ∧
      ((∀ j, j < es.length → io j = none) → serializeWithWriter L env p v io = (.ok (), es)) ∧
      (∀ j e, j < es.length → io j = some e → (∀ i, i < j → io i = none) →
        ∃ m, serializeWithWriter L env p v io = (.err m, es.take j)) := by
  refine ⟨_, serialize_eq hok hv, ?_⟩
  have hr := ((encOk (L := L) hok hv).1 .root).run (Sr.new { io := io }) ⟨rfl, rfl⟩ (.inl ⟨hnb, trivial⟩)
  unfold serializeWithWriter
  rcases hr with ⟨s', e, o, -, -, -, hn⟩ | ⟨j, m, s', e, hj, o, ⟨e', he⟩, hn⟩
  · have hn : ∀ j, j < (WNode.eventsL (encTy L env .root p v)).length → io j = none := by
      intro j hj; have := hn j hj; simpa [Sr.new] using this
    refine ⟨fun _ => ?_, fun j m hj hm => ?_⟩
    · show (match serTy L env p v (Sr.new { io := io }) with | (r, s) => (r, s.writer.out)) = _
      rw [e]; dsimp only; rw [o]; rfl
    · rw [hn j hj] at hm; cases hm
  · have hn : ∀ i, i < j → io i = none := by
      intro i hi; have := hn i hi; simpa [Sr.new] using this
    have he : io j = some e' := by simpa [Sr.new] using he
    refine ⟨fun hall => ?_, fun k ek hk hek hbk => ?_⟩
    · rw [hall j hj] at he; cases he
    · have : j = k := by
        rcases Nat.lt_trichotomy j k with h | h | h
        · rw [hbk j h] at he; cases he
        · exact h
        · rw [hn k h] at hek; cases hek
      subst this
      refine ⟨m, ?_⟩
      show (match serTy L env p v (Sr.new { io := io }) with | (r, s) => (r, s.writer.out)) = _
      rw [e]; dsimp only; rw [o]; rfl

/-- **C38**, for every program: what each writer gets, and whether the result is `Ok`, is determined by a list of writes, performed in order
up to the first error that is noticed.  Errors that go unnoticed are of writes of text, in programs with scalars that are written through
their own implementation (`NoBuiltin`). -/
theorem C38_every_program (hok : SerOk env) {p : Path} {v : Val} (hv : HasTy env (.struct p) v) :
    ∃ ps : List (WEv × Bool), (∀ w ∈ ps, w.2 = true → ¬ NoBuiltin env ∧ ∃ t, w.1 = .chars t) ∧
      serializeWithWriter L env p v = (.ok (), ps.map (·.1)) ∧ ∀ io,
      ((performWrites io 0 ps).1 = true → serializeWithWriter L env p v io = (.ok (), (performWrites io 0 ps).2)) ∧
      ((performWrites io 0 ps).1 = false → ∃ m, serializeWithWriter L env p v io = (.err m, (performWrites io 0 ps).2)) := by
  obtain ⟨ps, h1, h2, h3⟩ := (encOk (L := L) hok hv).1 .root
  refine ⟨ps, h2, by rw [serialize_eq hok hv, h1], fun io => ?_⟩
  obtain ⟨h4, h5⟩ := h3 (Sr.new { io := io }) ⟨rfl, rfl⟩ (.inl trivial)
  refine ⟨fun hc => ?_, fun hc => ?_⟩
  · obtain ⟨s', e, o, -⟩ := h4 hc
    show (match serTy L env p v (Sr.new { io := io }) with | (r, s) => (r, s.writer.out)) = _
    rw [e]; dsimp only; rw [o]; rfl
  · obtain ⟨m, s', e, o⟩ := h5 hc
    refine ⟨m, ?_⟩
    show (match serTy L env p v (Sr.new { io := io }) with | (r, s) => (r, s.writer.out)) = _
    rw [e]; dsimp only; rw [o]; rfl

/-- An event other than text. -/
def WEv.isMarkup : WEv → Bool
  | .chars _ => false
  | _ => true

/-- **C38**, for every program and writer: serialization does not panic; what it writes is part of what it would write without errors, in
the same order; and if it returns `Ok`, only text is missing. -/
theorem C38_ok_markup (hok : SerOk env) {p : Path} {v : Val} (hv : HasTy env (.struct p) v) (io : Nat → Option Str) :
    ∃ es r es', serializeWithWriter L env p v = (.ok (), es) ∧ serializeWithWriter L env p v io = (r, es') ∧ es'.Sublist es ∧
      ((r = .ok () ∧ es'.filter WEv.isMarkup = es.filter WEv.isMarkup) ∨ ∃ m, r = .err m) := by
  obtain ⟨ps, h1, h2, h3⟩ := C38_every_program (L := L) hok hv
  obtain ⟨h4, h5⟩ := h3 io
  obtain ⟨h6, h7⟩ := performWrites_sublist io ps 0
  cases hc : (performWrites io 0 ps).1 with
  | true =>
    refine ⟨_, _, _, h2, h4 hc, h6, .inl ⟨rfl, h7 hc _ fun w hw hq => ?_⟩⟩
    obtain ⟨-, t, ht⟩ := h1 w hw hq
    rw [ht]; rfl
  | false =>
    obtain ⟨m, hm⟩ := h5 hc
    exact ⟨_, _, _, h2, hm, h6, .inr ⟨m, rfl⟩⟩

/-- **C42.** A value nested in another one - the value of the field `f` of a struct with attributes `root` - is written
as determined by itself, its type and the field: whatever the serializer wrote before (`s`), it appends the same events. -/
theorem C42_history (hok : SerOk env) {p : Path} {v : Val} (hv : HasTy env (.struct p) v) (root : Attrs) (f : FieldDef) :
    ∃ es, ∀ s : Sr, (∀ n, s.writer.io n = none) → ∃ s',
      (setFlags (if f.attrs.flatten then none else some (f.renamedLabel root)) f.attrs.flatten >>= fun _ =>
        serTy L env p v) s = (.ok (), s') ∧ s'.writer.out = s.writer.out ++ es ∧
        s'.writer.opened = s.writer.opened ∧ s'.writer.io = s.writer.io := by
  refine ⟨WNode.eventsL (encTy L env (f.place root) p v), fun s hio => ?_⟩
  rw [placeFlags]
  rcases (((encOk (L := L) hok hv).1 (f.place root)).flags (F := AnyFlags) (f.place root)).run s trivial (.inr hio) with
    ⟨s', e, o, p, -, i, -⟩ | ⟨j, m, s', e, hj, o, ⟨e', he⟩, -⟩
  · exact ⟨s', e, o, p, i⟩
  · rw [hio] at he; cases he

/-- No flattened variants. -/
def TypeDef.NoFlattenVariant : TypeDef → Prop
  | .enum d => ∀ v ∈ d.variants, v.attrs.flatten = false
  | _ => True

/-- The value is one of a flattened variant with a value of a derived type in it. -/
def TypeDef.Flattens (td : TypeDef) (v : Val) : Prop :=
  ∃ d i pay vd q, td = .enum d ∧ v = .enum i pay ∧ d.variants[i]? = some vd ∧ vd.shape = .newtype (.struct q) ∧ vd.attrs.flatten = true

/-- **C39**, for all values but those of flattened variants: `to_string_content` emits exactly the events `to_string`
emits between the start and end tag of the root element. -/
theorem C39_value_partial (hok : SerOk env) {p : Path} {n : Str} {v : Val} {td : TypeDef} (hn : RootName env p n)
    (hp : env p = some td) (htd : ¬ td.Flattens v) (hv : HasTy env (.struct p) v) :
    ∃ as nss kids,
      toString L env p v = .ok (L.emit {} (.start (Name.ofStr n) as nss :: (WNode.eventsL kids ++ [.endE none]))) ∧
      toStringContent L env p v = .ok (L.emit { decl := false } (WNode.eventsL kids)) := by
  suffices H : ∃ as nss kids, encTy L env .root p v = [.elem n as nss kids] ∧ encTy L env .inner p v = kids by
    obtain ⟨as, nss, kids, h1, h2⟩ := H
    refine ⟨as, nss, kids, ?_, ?_⟩
    · unfold toString toStringWithConfig
      rw [serialize_eq hok hv, h1, WNode.eventsL_single, WNode.events]
      rfl
    · rw [← h2]
      exact (encOk hok hv).content
  rw [encTy.eq_def, encTy.eq_def L env .inner, hp]
  cases hn with
  | struct d hp' hf =>
    rw [hp'] at hp; cases hp
    cases hv with
    | struct _ d' fs hp _ _ =>
      dsimp only
      unfold wrap
      rw [if_neg (by simp [hf, Place.root]), if_pos (by simp [Place.inner])]
      exact ⟨_, _, _, rfl, rfl⟩
    | unit _ _ _ _ hp | newtype _ _ _ _ _ _ hp | named _ _ _ _ _ _ hp | prim _ _ _ hp => rw [hp'] at hp; cases hp
  | enum d hp' hf =>
    rw [hp'] at hp; cases hp
    cases hv with
    | struct _ _ _ hp | prim _ _ _ hp => rw [hp'] at hp; cases hp
    | unit _ _ _ vd hp hi hs | newtype _ _ _ vd _ _ hp hi hs | named _ _ _ vd _ _ hp hi hs =>
      rw [hp'] at hp; cases hp
      have hvd : ∀ q, vd.shape = .newtype (.struct q) → vd.attrs.flatten = false := by
        intro q hq
        by_contra hf
        exact htd ⟨_, _, _, vd, q, rfl, rfl, hi, hq, by simpa using hf⟩
      dsimp only
      rw [hi]
      dsimp only
      rw [hs]
      dsimp only
      unfold wrap
      rw [if_neg (by simp [hf, Place.root]), if_pos (by simp [Place.inner])]
      refine ⟨_, _, _, rfl, ?_⟩
      try rw [encVariant.eq_def, encVariant.eq_def L env .root, hs]
      try rfl
      try
        rename_i t x _
        rcases t with t | t | t | q
        · rfl
        · rcases t with t | t | t | q <;> cases x <;> rfl
        · cases x <;> rfl
        · rw [hvd q hs]
          rfl
  | prim d hp' hf =>
    rw [hp'] at hp; cases hp
    dsimp only
    unfold wrap
    rw [hf, if_neg (by decide), if_pos (by decide)]
    exact ⟨_, _, _, rfl, rfl⟩

/-- **C39**, for types other than enums with flattened variants. -/
theorem C39_content_partial (hok : SerOk env) {p : Path} {n : Str} {v : Val} {td : TypeDef} (hn : RootName env p n)
    (hp : env p = some td) (htd : td.NoFlattenVariant) (hv : HasTy env (.struct p) v) :
    ∃ as nss kids,
      toString L env p v = .ok (L.emit {} (.start (Name.ofStr n) as nss :: (WNode.eventsL kids ++ [.endE none]))) ∧
      toStringContent L env p v = .ok (L.emit { decl := false } (WNode.eventsL kids)) := by
  refine C39_value_partial hok hn hp ?_ hv
  rintro ⟨d, i, pay, vd, q, rfl, rfl, hi, _, hf⟩
  rw [htd vd (List.mem_of_getElem? hi)] at hf
  cases hf

/-- **C39**, for the values of flattened variants: the content is the content of the value in it, but what is written between the
tags of the root element is all that is written for that value, its own tags included. -/
theorem C39_flattened (hok : SerOk env) {p q : Path} {d : EnumDef} {i : Nat} {vd : VariantDef} {x : Val} (hp : env p = some (.enum d))
    (hf : d.attrs.flatten = false) (hi : d.variants[i]? = some vd) (hs : vd.shape = .newtype (.struct q)) (hvf : vd.attrs.flatten = true)
    (hv : HasTy env (.struct p) (.enum i [x])) :
    toStringContent L env p (.enum i [x]) = toStringContent L env q x ∧
    ∃ as nss evs, serializeWithWriter L env q x = (.ok (), evs) ∧
      serializeWithWriter L env p (.enum i [x]) =
        (.ok (), .start (Name.ofStr (d.attrs.written d.name)) as nss :: (evs ++ [.endE none])) := by
  have hx : HasTy env (.struct q) x := by
    cases hv with
    | newtype _ d' _ vd' _ _ hp' hi' hs' hx =>
      rw [hp] at hp'; cases hp'
      rw [hi] at hi'; cases hi'
      rw [hs] at hs'; cases hs'
      exact hx
    | named _ d' _ vd' _ _ hp' hi' hs' =>
      rw [hp] at hp'; cases hp'
      rw [hi] at hi'; cases hi'
      rw [hs] at hs'; cases hs'
    | prim _ _ _ hp' => rw [hp] at hp'; cases hp'
  have hin : ∀ pl, encTy L env pl p (.enum i [x]) =
      wrap d.attrs pl (d.attrs.written d.name) (tagAttrs d vd) (firstDecls d.attrs.decls) (encTy L env pl q x) := by
    intro pl
    rw [encTy.eq_def, hp]
    dsimp only
    rw [hi]
    dsimp only
    rw [hs]
    dsimp only
    rw [encVariant.eq_def, hs, hvf]
    rfl
  constructor
  · rw [show toStringContent L env p (.enum i [x]) = _ from (encOk hok hv).content,
      show toStringContent L env q x = _ from (encOk hok hx).content, hin]
    unfold wrap
    rw [if_pos (by simp [Place.inner])]
  · refine ⟨tagAttrs d vd, firstDecls d.attrs.decls, _, serialize_eq hok hx, ?_⟩
    rw [serialize_eq hok hv, hin]
    unfold wrap
    rw [if_neg (by simp [hf, Place.root]), WNode.eventsL_single, WNode.events]
    rfl

end

/-! ### A sample program, and the cases where the properties fail -/

namespace SerSample
open Tests

/-- `struct Meta { #[yaserde(attribute)] lang: String, pages: Option<u16> }`, with a namespace of its own -/
def meta_ : StructDef :=
  { name := c!"Meta"
    attrs := { namespaces := [(c!"m", c!"urn:m"), (c!"d", c!"urn:other")] }
    fields := [F c!"lang" Tests.S attr, F c!"pages" (O (I .u16))] }

def tone : EnumDef :=
  { name := c!"Tone"
    variants := [vU c!"Dark", vN c!"Level" (I .i8), vN c!"Of" (T c!"Meta")]
    dflt := .enum 0 [] }

/-- Attributes, a prefix, a rename, scalars, options, a `Vec`, nested values, a flattened struct, text, a skipped
field, a conditionally skipped field and one with a default. -/
def page : StructDef :=
  { name := c!"Page"
    attrs := { rename := some c!"page", pfx := some c!"d", namespaces := [(c!"d", c!"urn:d"), (c!"e", c!"urn:e")], defaultNs := some c!"e" }
    fields := [
      F c!"id" (I .u32) attr,
      F c!"kind" (O Tests.S) { isAttr := true, pfx := some c!"d" },
      F c!"title" Tests.S { pfx := some c!"d", rename := some c!"Title" },
      F c!"sub" (O Tests.S) { pfx := some c!"e" },
      F c!"nums" (V (I .i32)),
      F c!"tone" (T c!"Tone"),
      F c!"info" (T c!"Meta"),
      F c!"more" (T c!"Meta") flat,
      F c!"body" (O Tests.S) { text := true },
      F c!"secret" Tests.S { skipSer := true },
      { ident := c!"size", ty := I .u8, skipIf := some fun _ v => match v with | .int 0 => true | _ => false },
      { ident := c!"rank", ty := I .u8, dflt := some ⟨.int 7, fun v => match v with | .int 7 => false | _ => true⟩ }] }

def env : Env := envOf [([c!"Meta"], .struct meta_), ([c!"Tone"], .enum tone), ([c!"Page"], .struct page)]

def value (secret title : Str) : Val :=
  .struct [i 3, .some (s c!"k"), s title, .none, .vec [i (-1), i 2], .enum 2 [.struct [s c!"en", .none]],
    .struct [s c!"de", .some (i 9)], .struct [s c!"fr", .some (i 4)], .some (s c!"text"), s secret, i 0, i 8]

theorem serOk : SerOk env := serOk_of_all _ (by decide +kernel)
theorem noBuiltin : NoBuiltin env := noBuiltin_of_all _ (by decide +kernel)

theorem hasTy (secret title : Str) : HasTy env (T c!"Page") (value secret title) :=
  hasTy_of_check _ _ _ rfl

theorem isPage : env [c!"Page"] = some (.struct page) := rfl
theorem ownName : RootName env [c!"Page"] c!"d:page" := .struct _ page rfl rfl

/-- What the sample value is written as. -/
example : toString lib env [c!"Page"] (value c!"x" c!"a<b") = .ok c!"<?xml version=\"1.0\" encoding=\"utf-8\"?><d:page xmlns=\"urn:e\" xmlns:d=\"urn:d\" xmlns:m=\"urn:m\" id=\"3\" d:kind=\"k\" lang=\"fr\"><d:Title>a&lt;b</d:Title><nums>-1</nums><nums>2</nums><tone><Of /></tone><info xmlns:d=\"urn:other\" lang=\"de\"><pages>9</pages></info><pages>4</pages>text<rank>8</rank></d:page>" := by
  decide +kernel

example : ∃ as nss kids, serializeWithWriter lib env [c!"Page"] (value c!"x" c!"t")
    = (.ok (), (WNode.elem c!"d:page" as nss kids).events) := C30_one_element serOk ownName (hasTy _ _)

example :=
  C31_children (L := lib) serOk isPage rfl (hasTy c!"x" c!"t")

theorem sameVisible (a b t : Str) : SameVisible env (.struct [c!"Page"]) (value a t) (value b t) := by
  refine .struct _ page _ _ rfl rfl ?_ ?_
  all_goals
    intro i f x y hf hx hy hh
    match i with
    | 0 | 1 | 2 | 3 | 4 | 5 | 6 | 7 | 8 | 10 | 11 =>
      cases hf; cases hx; cases hy
      first
        | exact .refl _ _
        | exact ⟨fun h => ⟨fun g hg => (by cases hg <;> first | rfl | exact h.1 _ rfl), fun d hd => (by cases hd <;> first | rfl | exact h.2 _ rfl)⟩,
            fun h => ⟨fun g hg => (by cases hg <;> first | rfl | exact h.1 _ rfl), fun d hd => (by cases hd <;> first | rfl | exact h.2 _ rfl)⟩⟩
        | exact ⟨fun h => absurd (h.1 _ rfl) (by decide), fun h => absurd (h.1 _ rfl) (by decide)⟩
    | 9 => cases hf; exact (hh ⟨rfl, rfl, rfl, fun h => (by cases h)⟩).elim
    | n + 12 => cases hf

example (a b : Str) : serializeWithWriter lib env [c!"Page"] (value a c!"t") = serializeWithWriter lib env [c!"Page"] (value b c!"t") :=
  C32_skip_partial serOk (hasTy _ _) (hasTy _ _) (sameVisible a b _)

example :=
  C33_suppress (L := lib) serOk isPage rfl (hasTy c!"x" c!"t")

/-- In the sample value, `size` is suppressed by its `skip_serializing_if`, `rank` is not by its `default`. -/
example (a t : Str) : ¬ FieldDef.selected { ident := c!"size", ty := I .u8, skipIf := some fun _ v => match v with | .int 0 => true | _ => false } (value a t) (i 0) :=
  fun h => absurd (h.1 _ rfl) (by decide)

theorem sameShape (a b t t' : Str) : SameShape env (.struct [c!"Page"]) (value a t) (value b t') := by
  refine .struct _ page _ _ rfl rfl ?_ ?_
  · intro i f x y hf hx hy
    match i with
    | 0 | 1 | 2 | 3 | 4 | 5 | 6 | 7 | 8 | 9 | 10 | 11 =>
      cases hf; cases hx; cases hy
      first
        | exact ⟨fun h => ⟨fun g hg => (by cases hg <;> first | rfl | exact h.1 _ rfl), fun d hd => (by cases hd <;> first | rfl | exact h.2 _ rfl)⟩,
            fun h => ⟨fun g hg => (by cases hg <;> first | rfl | exact h.1 _ rfl), fun d hd => (by cases hd <;> first | rfl | exact h.2 _ rfl)⟩⟩
        | exact ⟨fun h => absurd (h.1 _ rfl) (by decide), fun h => absurd (h.1 _ rfl) (by decide)⟩
    | n + 12 => cases hf
  · have hm : ∀ l o, SameShape env (O (I .u16)) o o → SameShape env (T c!"Meta") (.struct [.str l, o]) (.struct [.str l, o]) := by
      intro l o ho
      refine .struct _ meta_ _ _ rfl rfl ?_ ?_
      · intro i f x y hf hx hy
        rw [hx] at hy; cases hy
        match i with
        | 0 | 1 =>
          cases hf; cases hx
          exact ⟨fun h => ⟨fun g hg => (by cases hg <;> first | rfl | exact h.1 _ rfl), fun d hd => (by cases hd <;> first | rfl | exact h.2 _ rfl)⟩,
            fun h => ⟨fun g hg => (by cases hg <;> first | rfl | exact h.1 _ rfl), fun d hd => (by cases hd <;> first | rfl | exact h.2 _ rfl)⟩⟩
        | n + 2 => cases hf
      · intro i f x y hf hx hy
        match i with
        | 0 => cases hf; cases hx; cases hy; exact .scalar _ _ _ (.str _) (.str _)
        | 1 => cases hf; cases hx; cases hy; exact ho
        | n + 2 => cases hf
    have hi : ∀ (t : IntTy) (a : Int), t.Fits a → SameShape env (I t) (.int a) (.int a) :=
      fun t a h => .scalar _ _ _ (.int _ _ h) (.int _ _ h)
    have hs : ∀ a b, SameShape env Tests.S (.str a) (.str b) := fun a b => .scalar _ _ _ (.str _) (.str _)
    intro i f x y hf hx hy
    match i with
    | 0 => cases hf; cases hx; cases hy; exact hi _ _ (by decide)
    | 1 => cases hf; cases hx; cases hy; exact .some _ _ _ (hs _ _)
    | 2 => cases hf; cases hx; cases hy; exact hs _ _
    | 3 => cases hf; cases hx; cases hy; exact .none _
    | 4 =>
      cases hf; cases hx; cases hy
      refine .vec _ _ _ rfl ?_
      intro i x y hx hy
      rw [hx] at hy; cases hy
      match i with
      | 0 | 1 => cases hx; exact hi _ _ (by decide)
      | n + 2 => cases hx
    | 5 => cases hf; cases hx; cases hy; exact .newtype _ tone 2 _ _ _ _ rfl rfl rfl (hm _ _ (.none _))
    | 6 => cases hf; cases hx; cases hy; exact hm _ _ (.some _ _ _ (hi _ _ (by decide)))
    | 7 => cases hf; cases hx; cases hy; exact hm _ _ (.some _ _ _ (hi _ _ (by decide)))
    | 8 => cases hf; cases hx; cases hy; exact .some _ _ _ (hs _ _)
    | 9 => cases hf; cases hx; cases hy; exact hs _ _
    | 10 => cases hf; cases hx; cases hy; exact hi _ _ (by decide)
    | 11 => cases hf; cases hx; cases hy; exact hi _ _ (by decide)
    | n + 12 => cases hf

/-- A title that looks like markup does not change the tags. -/
example : ∃ ta tb, serializeWithWriter lib env [c!"Page"] (value c!"x" c!"t") = (.ok (), WNode.eventsL ta) ∧
    serializeWithWriter lib env [c!"Page"] (value c!"x" c!"</d:Title><evil/>") = (.ok (), WNode.eventsL tb) ∧
    WNode.skelL ta = WNode.skelL tb := C34_shape_partial serOk (hasTy _ _) (hasTy _ _) (sameShape _ _ _ _)

example :=
  C35_names (L := lib) serOk isPage rfl (hasTy c!"x" c!"t")

/-- The names of the sample program. -/
example : NameRule (some c!"e") (some c!"d") (some c!"Title") c!"title" c!"d:Title" ∧
    NameRule (some c!"e") (some c!"e") none c!"sub" c!"sub" :=
  ⟨qualify_rule (some c!"e") (some c!"d") (some c!"Title") c!"title", qualify_rule (some c!"e") (some c!"e") none c!"sub"⟩

example :=
  C36_flatten (L := lib) serOk isPage rfl (hasTy c!"x" c!"t")

example :=
  C37_namespaces (L := lib) serOk isPage rfl (hasTy c!"x" c!"t")

example (io : Nat → Option Str) :=
  C38_write_errors_partial (L := lib) serOk noBuiltin (hasTy c!"x" c!"t") io

example :=
  C39_content_partial (L := lib) serOk ownName isPage trivial (hasTy c!"x" c!"t")

example :=
  C40_attributes (L := lib) serOk isPage rfl (hasTy c!"x" c!"t")

example : ∃ s, toString lib env [c!"Page"] (value c!"x" c!"t") = .ok s := (C41_ok serOk (hasTy _ _)).2.2.1

example (f : FieldDef) :=
  C42_history (L := lib) serOk (hasTy c!"x" c!"t") {} f

end SerSample

/-! #### Where C34 fails -/

open Tests in
/-- **C34 is false** for `cdata` fields: the text is copied between `<![CDATA[` and `]]>` as it is, so a string that
contains `]]>` injects markup. -/
theorem C34_false_cdata :
    toString lib (envOf [mkS c!"S" [F c!"a" Tests.S { cdata := true }]]) [c!"S"] (.struct [s c!"]]><evil/><![CDATA["]) =
      .ok c!"<?xml version=\"1.0\" encoding=\"utf-8\"?><S><a><![CDATA[]]><evil/><![CDATA[]]></a></S>" := by
  decide +kernel

/-! #### Where C32 fails -/

/-- Two struct values that differ only in fields marked `skip_serializing`. -/
def DifferInSkipped (d : StructDef) (a b : List Val) : Prop :=
  a.length = b.length ∧ ∀ (i : Nat) (f : FieldDef) (x y : Val), d.fields[i]? = some f → a[i]? = some x → b[i]? = some y →
    f.attrs.skipSer = false → x = y

/-- The claim of C32 for one program, at the top level only. -/
def C32Claim (L : Lib) (env : Env) (p : Path) (d : StructDef) : Prop :=
  ∀ a b, HasTy env (.struct p) (.struct a) → HasTy env (.struct p) (.struct b) → DifferInSkipped d a b →
    serializeWithWriter L env p (.struct a) = serializeWithWriter L env p (.struct b)

open Tests in
/-- **C32 is false** for attributes, for text fields, and for flattened structs that have attributes:
`skip_serializing` has no effect on them. -/
theorem C32_false :
    (∃ env d, SerOk env ∧ env [c!"S"] = some (.struct d) ∧ d.fields.all (fun f => f.attrs.isAttr) = true ∧
      ¬ C32Claim lib env [c!"S"] d) ∧
    (∃ env d, SerOk env ∧ env [c!"S"] = some (.struct d) ∧ d.fields.all (fun f => f.attrs.text) = true ∧
      ¬ C32Claim lib env [c!"S"] d) ∧
    (∃ env d, SerOk env ∧ env [c!"S"] = some (.struct d) ∧ d.fields.all (fun f => f.attrs.flatten) = true ∧
      ¬ C32Claim lib env [c!"S"] d) := by
  refine ⟨?_, ?_, ?_⟩
  · refine ⟨envOf [mkS c!"S" [F c!"a" Tests.S { isAttr := true, skipSer := true }]], _, serOk_of_all _ (by decide +kernel), rfl, rfl, fun h => ?_⟩
    have := h [s c!"1"] [s c!"2"] (hasTy_of_check _ _ _ (by decide +kernel)) (hasTy_of_check _ _ _ (by decide +kernel))
      ⟨rfl, fun i f x y hf _ _ hs => by match i with | 0 => cases hf; cases hs | n + 1 => cases hf⟩
    exact absurd this (by decide +kernel)
  · refine ⟨envOf [mkS c!"S" [F c!"a" Tests.S { text := true, skipSer := true }]], _, serOk_of_all _ (by decide +kernel), rfl, rfl, fun h => ?_⟩
    have := h [s c!"1"] [s c!"2"] (hasTy_of_check _ _ _ (by decide +kernel)) (hasTy_of_check _ _ _ (by decide +kernel))
      ⟨rfl, fun i f x y hf _ _ hs => by match i with | 0 => cases hf; cases hs | n + 1 => cases hf⟩
    exact absurd this (by decide +kernel)
  · refine ⟨envOf [mkS c!"S" [F c!"a" (T c!"C") { flatten := true, skipSer := true }], mkS c!"C" [F c!"x" Tests.S attr]], _,
      serOk_of_all _ (by decide +kernel), rfl, rfl, fun h => ?_⟩
    have := h [.struct [s c!"1"]] [.struct [s c!"2"]] (hasTy_of_check _ _ _ (by decide +kernel)) (hasTy_of_check _ _ _ (by decide +kernel))
      ⟨rfl, fun i f x y hf _ _ hs => by match i with | 0 => cases hf; cases hs | n + 1 => cases hf⟩
    exact absurd this (by decide +kernel)

open Tests in
/-- Likewise `default` and `skip_serializing_if` have no effect on text fields, and attributes of a flattened field are
written although the field is suppressed. -/
theorem C33_false_text :
    serializeWithWriter lib (envOf [mkS c!"S" [{ ident := c!"a", ty := Tests.S, attrs := { text := true }, skipIf := some fun _ _ => true }]])
      [c!"S"] (.struct [s c!"1"]) = (.ok (), [.start ⟨c!"S", none, none⟩ [] [], .chars c!"1", .endE none]) ∧
    serializeWithWriter lib (envOf [mkS c!"S" [{ ident := c!"a", ty := T c!"C", attrs := flat, skipIf := some fun _ _ => true }],
        mkS c!"C" [F c!"x" Tests.S attr]])
      [c!"S"] (.struct [.struct [s c!"1"]]) = (.ok (), [.start ⟨c!"S", none, none⟩ [⟨⟨c!"x", none, none⟩, c!"1"⟩] [], .endE none]) := by
  constructor <;> decide +kernel

open Tests in
/-- **C38 is false** in general: scalars in a `Vec<Option<_>>` field, and scalar payloads of variants, are written by
`serialize_type!`, which drops the error of the write. Serialization returns `Ok` with an event missing. -/
theorem C38_false :
    (∃ env es, SerOk env ∧ HasTy env (T c!"S") (.struct [.vec [.some (i 1)]]) ∧
      serializeWithWriter lib env [c!"S"] (.struct [.vec [.some (i 1)]]) = (.ok (), es) ∧
      serializeWithWriter lib env [c!"S"] (.struct [.vec [.some (i 1)]]) (fun n => if n = 1 then some c!"disk full" else none)
        = (.ok (), es.eraseIdx 1) ∧ es.eraseIdx 1 ≠ es) ∧
    (∃ env es, SerOk env ∧ HasTy env (T c!"E") (.enum 0 [.some (i 1)]) ∧
      serializeWithWriter lib env [c!"E"] (.enum 0 [.some (i 1)]) = (.ok (), es) ∧
      serializeWithWriter lib env [c!"E"] (.enum 0 [.some (i 1)]) (fun n => if n = 2 then some c!"disk full" else none)
        = (.ok (), es.eraseIdx 2) ∧ es.eraseIdx 2 ≠ es) := by
  constructor
  · exact ⟨envOf [mkS c!"S" [F c!"a" (V (O (I .i32)))]], _, serOk_of_all _ (by decide +kernel), hasTy_of_check _ _ _ (by decide +kernel),
      rfl, rfl, by decide⟩
  · exact ⟨envOf [mkE c!"E" [vN c!"A" (O (I .i32))] (.enum 0 [.none])], _, serOk_of_all _ (by decide +kernel), hasTy_of_check _ _ _ (by decide +kernel),
      rfl, rfl, by decide⟩

open Tests in
/-- … but only of texts: a failing write of any other event is reported, in the same program, and nothing is written after it. -/
example : ∃ env, SerOk env ∧ ¬ NoBuiltin env ∧ HasTy env (T c!"S") (.struct [.vec [.some (i 1), .some (i 2)], .str c!"x"]) ∧
    (∀ io, ∃ es r es', serializeWithWriter lib env [c!"S"] (.struct [.vec [.some (i 1), .some (i 2)], .str c!"x"]) = (.ok (), es) ∧
      serializeWithWriter lib env [c!"S"] (.struct [.vec [.some (i 1), .some (i 2)], .str c!"x"]) io = (r, es') ∧ es'.Sublist es ∧
      ((r = .ok () ∧ es'.filter WEv.isMarkup = es.filter WEv.isMarkup) ∨ ∃ m, r = .err m)) ∧
    (serializeWithWriter lib env [c!"S"] (.struct [.vec [.some (i 1), .some (i 2)], .str c!"x"])
      (fun n => if n = 1 ∨ n = 3 then some c!"disk full" else none)).1 = .err c!"disk full" := by
  refine ⟨envOf [mkS c!"S" [F c!"a" (V (O (I .i32))), F c!"b" Tests.S]], serOk_of_all _ (by decide +kernel), fun h => ?_,
    hasTy_of_check _ _ _ (by decide +kernel), fun io => ?_, rfl⟩
  · exact h.fields [c!"S"] _ rfl (F c!"a" (V (O (I .i32)))) (by simp) _ rfl
  · exact C38_ok_markup (serOk_of_all _ (by decide +kernel)) (hasTy_of_check _ _ _ (by decide +kernel)) io

open Tests in
/-- **C39 is false** for a flattened variant: `to_string` writes an element for the payload inside the root element,
`to_string_content` does not. -/
theorem C39_false :
    ∃ env v, SerOk env ∧ HasTy env (T c!"E") v ∧ RootName env [c!"E"] c!"E" ∧
      toString lib env [c!"E"] v = .ok c!"<?xml version=\"1.0\" encoding=\"utf-8\"?><E><S><a>1</a></S></E>" ∧
      toStringContent lib env [c!"E"] v = .ok c!"<a>1</a>" := by
  refine ⟨envOf [mkE c!"E" [vN c!"A" (T c!"S") flat] (.enum 0 []), mkS c!"S" [F c!"a" (I .i32)]], .enum 0 [.struct [i 1]],
    serOk_of_all _ (by decide +kernel), hasTy_of_check _ _ _ (by decide +kernel), RootName.enum _ { name := c!"E", attrs := {}, variants := [vN c!"A" (T c!"S") flat], dflt := .enum 0 [] } rfl rfl, ?_, ?_⟩ <;> decide +kernel

open Tests in
/-- The program of `C39_false`: `C39_flattened` applies, and `C39_value_partial` to the other variant of the same type. -/
example : ∃ env : Env, SerOk env ∧
    toStringContent lib env [c!"E"] (.enum 0 [.struct [i 1]]) = toStringContent lib env [c!"S"] (.struct [i 1]) ∧
    ∃ as nss kids,
      toString lib env [c!"E"] (.enum 1 []) =
        .ok (lib.emit {} (.start (Name.ofStr c!"E") as nss :: (WNode.eventsL kids ++ [.endE none]))) ∧
      toStringContent lib env [c!"E"] (.enum 1 []) = .ok (lib.emit { decl := false } (WNode.eventsL kids)) := by
  let env := envOf [mkE c!"E" [vN c!"A" (T c!"S") flat, vU c!"B"] (.enum 0 []), mkS c!"S" [F c!"a" (I .i32)]]
  have hok : SerOk env := serOk_of_all _ (by decide +kernel)
  have hE : env [c!"E"] = some (.enum { name := c!"E", attrs := {}, variants := [vN c!"A" (T c!"S") flat, vU c!"B"], dflt := .enum 0 [] }) := rfl
  refine ⟨env, hok, (C39_flattened hok hE rfl rfl rfl rfl (hasTy_of_check _ _ _ (by decide +kernel))).1, ?_⟩
  refine C39_value_partial hok (RootName.enum _ _ hE rfl) hE ?_ (hasTy_of_check _ _ _ (by decide +kernel))
  rintro ⟨d, j, pay, vd, q, hd, hv, hi, hs, _⟩
  cases hd
  cases hv
  cases hi
  cases hs

end Yaserde
