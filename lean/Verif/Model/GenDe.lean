import Verif.Model.Rust
import Verif.Model.DeEnum
/-
The `deserialize` functions that `#[derive(YaDeserialize)]` prints
(`/repo/yaserde_derive/src/de/expand_struct.rs`, `…/de/expand_enum.rs`), as programs of the fragment of Rust of
`Model/Rust.lean`: template by template, with the names that the templates use.

A visitor (`struct __Visitor_…; impl Visitor for …`) is called where it is used: its body stands in the place of the call, with
the argument bound to `v`.  Which names the visitors get, and when these clash, is `Model/Visitor.lean`.
-/

set_option autoImplicit false

namespace Yaserde.Rs

/-- `ident.unraw()` — `/repo/yaserde_derive/src/common/field.rs:50-56`. -/
def unraw : Str → Str
  | 'r' :: '#' :: s => s
  | s => s

end Yaserde.Rs

namespace Yaserde

/-- `get_value_label` — `/repo/yaserde_derive/src/common/field.rs:50-56`. -/
def FieldDef.slotVar (f : FieldDef) : Rs.Var := .value (Rs.unraw f.ident)

end Yaserde

namespace Yaserde.Rs

def blk (es : List Ex) : Ex := .block (.ofList es)
def fn (f : Fn) (es : List Ex) : Ex := .app f (.ofList es)
def meth (o : Op) (es : List Ex := []) : Ex := .op o (.ofList es)
def mtch (e : Ex) (as : List (Pat × Ex)) : Ex := .matchE e (.ofList as)
def skipE : Ex := .lit .unit
def strE (s : Str) : Ex := .lit (.str s)
def intE (z : Int) : Ex := .lit (.int z)
/-- `a && b` -/
def andE (a b : Ex) : Ex := .ite a b (.lit (.bool false))
/-- `if let p = e { a } else { b }` -/
def ifLet (p : Pat) (e a b : Ex) : Ex := mtch e [(p, a), (.wild, b)]

/-! ### Functions of the run-time library that are called with a closure -/

/-- `Deserializer::expect_end_element` — `/repo/yaserde/src/de/mod.rs:119-132`. -/
def expectEnd : Ex :=
  .call (ifLet (.endE (.bind .rt_name)) (.try_ (meth .next))
    (.ite (fn .eq [.var .rt_name, .var .rt_start_name])
      (fn .ok [skipE])
      (fn .err [fn .cat [strE c!"End tag </", fn .locName [.var .rt_name], strE c!"> didn't match the start tag <",
        fn .locName [.var .rt_start_name], strE c!">"]]))
    (fn .err [fn .cat [strE c!"Unexpected token </", fn .locName [.var .rt_start_name], strE c!">"]]))

/-- `Deserializer::read_inner_value` — `/repo/yaserde/src/de/mod.rs:106-117`; `f` is the body of the closure. -/
def readInner (f : Ex) : Ex :=
  .call (ifLet (.ok (.start (.bind .rt_start_name) .wild)) (meth .next)
    (blk [.letE .rt_result (.try_ (.call f)), .try_ expectEnd, fn .ok [.var .rt_result]])
    (fn .err [strE c!"Internal error: Bad Event"]))

/-- `Deserializer::skip_element` — `/repo/yaserde/src/de/mod.rs:92-100`; `cb` is the body of the closure, which calls its
argument `event`. -/
def skipElementE (cb : List Ex) : Ex :=
  .call (blk [.letE .rt_depth (meth .depth),
    .loop (.ite (fn .ge [meth .depth, .var .rt_depth])
      (blk [.letE .event (.try_ (meth .next)), blk cb])
      .brk),
    fn .ok [skipE]])

/-! ### Structs -/

/-- `get_namespace_matching` — `/repo/yaserde_derive/src/common/attribute.rs:105-142`. -/
def genNsMatching (namespaces : NsMap) (configured : Option Str) (elemNs elemName : Ex) : Ex :=
  ifLet (.some (.bind .namespace)) elemNs
    (mtch (.var .namespace)
      (namespaces.filterMap (fun e => if configured == some e.1 then some (Pat.str e.2, skipE) else none)
        ++ [(.bind .bad_namespace, blk [
          .letE .msg (fn .cat [strE c!"bad namespace for ", elemName, strE c!", found ", .var .bad_namespace]),
          .ret (fn .err [.var .msg])])]))
    skipE

/-- `#variables` — `/repo/yaserde_derive/src/de/expand_struct.rs:22-48`, `…/de/build_default_value.rs`. -/
def genVariables (fs : List FieldDef) : List Ex :=
  fs.map fun f => .letE f.slotVar (match f.ty with | .vec _ => .lit (.vec []) | _ => .lit .none)

/-- The body of the visitor of a user type — `/repo/yaserde_derive/src/de/expand_struct.rs:66-93`. -/
def structVisitor (p : Path) : Ex :=
  blk [.letE .content (fn .cat [strE (c!"<" ++ structId p ++ c!">"), .var .v, strE (c!"</" ++ structId p ++ c!">")]),
    meth (.fromStr p) [.var .content]]

/-- The body of the visitor of a scalar type — `/repo/yaserde_derive/src/de/expand_struct.rs:95-124`. -/
def simpleVisitor (t : STy) : Ex :=
  fn (.parse t) [if t = .bool then
      mtch (.var .v) [(.str c!"1", strE c!"true"), (.str c!"0", strE c!"false"), (.wild, .var .v)]
    else .var .v]

/-- The visitor of a field's element type — `/repo/yaserde_derive/src/de/expand_struct.rs:126-139`. -/
def visitorOf : FTy → Ex
  | .struct p => structVisitor p
  | .simple t => simpleVisitor t
  | _ => .app .unwrap .nil

/-- `visitor.visit_…(arg)` -/
def callVisit (body arg : Ex) : Ex := .call (blk [.letE .v arg, body])

/-- `= Some(value)` or `.push(value)` — `/repo/yaserde_derive/src/de/expand_struct.rs:190-199`. -/
def genAction (f : FieldDef) : Ex :=
  match f.ty with
  | .vec _ => .mutate f.slotVar [] .push (.var .value_)
  | _ => .assign f.slotVar (fn .some [.var .value_])

/-- `visit_struct` — `/repo/yaserde_derive/src/de/expand_struct.rs:154-170`. -/
def genVisitStruct (f : FieldDef) (p : Path) : Ex :=
  blk [.ite (fn .eq [.var .depth, intE 0]) (blk [meth .next]) skipE,
    ifLet (.ok (.start .wild .wild)) (meth .peek)
      (blk [.letE .value_ (.try_ (meth (.deserialize p))), genAction f, .try_ (meth .next)])
      skipE]

/-- `build_call_visitor` — `/repo/yaserde_derive/src/de/expand_struct.rs:484-524`. -/
def genVisitSimple (root : Attrs) (f : FieldDef) (t : STy) : Ex :=
  blk [genNsMatching root.namespaces f.attrs.pfx (fn .nsOf [.var .name]) (fn .locName [.var .name]),
    .letE .result (readInner (ifLet (.ok (.chars (.bind .s))) (meth .peek)
      (blk [.letE .val (callVisit (simpleVisitor t) (.var .s)), .try_ (meth .next), .var .val])
      (fn .err [fn .cat [strE c!"unable to parse content for ", strE f.label]]))),
    ifLet (.ok (.bind .value_)) (.var .result) (genAction f) skipE]

/-- `#call_visitors` — `/repo/yaserde_derive/src/de/expand_struct.rs:143-201`. -/
def genCallVisitors (root : Attrs) (fs : List FieldDef) : List (Pat × Ex) :=
  (fs.filter fun f => !f.attrs.isAttr && !f.attrs.flatten).map fun f =>
    (.pair (.str (f.prefixNs root)) (.str f.label),
      match f.ty.core with
      | .struct p => genVisitStruct f p
      | .simple t => genVisitSimple root f t
      | _ => .app .unwrap .nil)

/-- `#call_flatten_visitors` — `/repo/yaserde_derive/src/de/expand_struct.rs:203-224`. -/
def genFlattenVisitors (fs : List FieldDef) : List Ex :=
  (fs.filter fun f => !f.attrs.isAttr && f.attrs.flatten).map fun f =>
    match f.ty with
    | .struct p => .assign f.slotVar (fn .some [.try_ (meth (.fromStr p) [.var .unused_xml_elements])])
    | .opt (.struct p) => .assign f.slotVar (fn .toOption [meth (.fromStr p) [.var .unused_xml_elements]])
    | _ => .app .unwrap .nil

/-- The condition and the body around the action of an attribute field —
`/repo/yaserde_derive/src/de/expand_struct.rs:236-276`. -/
def forAttr (f : FieldDef) (body : List Ex) : Ex :=
  .forE .attr (.var .attributes) (.ite (fn .eq [fn .locName [fn .attrName [.var .attr]], strE f.label]) (blk body) skipE)

/-- `#attributes_loading` for one field — `/repo/yaserde_derive/src/de/expand_struct.rs:226-316`. -/
def genLoadAttr (f : FieldDef) : Ex :=
  match f.ty with
  | .simple .string => forAttr f [.assign f.slotVar (fn .some [fn .owned [fn .attrValue [.var .attr]]])]
  | .vec t =>
    forAttr f [.forE .value_ (fn .splitWhitespace [fn .attrValue [.var .attr]])
      (blk [.letE .value_ (.try_ (callVisit (visitorOf t) (.var .value_))), genAction f])]
  | t => forAttr f [.letE .value_ (.try_ (callVisit (visitorOf t.core) (fn .attrValue [.var .attr]))), genAction f]

/-- `#attributes_loading` — `/repo/yaserde_derive/src/de/expand_struct.rs:226-316`. -/
def genLoadAttrs (fs : List FieldDef) : List Ex := (fs.filter fun f => f.attrs.isAttr).map genLoadAttr

/-- `#set_text` — `/repo/yaserde_derive/src/de/expand_struct.rs:318-346`. -/
def genSetText (fs : List FieldDef) : List Ex :=
  (fs.filter fun f => f.attrs.text).filterMap fun f =>
    match f.ty with
    | .simple .string => some (.assign f.slotVar (fn .some [fn .owned [.var .text_content]]))
    | .opt (.simple .string) =>
      some (.assign f.slotVar
        (.ite (fn .isEmpty [.var .text_content]) (.lit .none) (fn .some [fn .owned [.var .text_content]])))
    | .simple t => some (.assign f.slotVar (fn .unwrap [fn (.parse t) [.var .text_content]]))
    | _ => none

/-- `#struct_builder` — `/repo/yaserde_derive/src/de/expand_struct.rs:348-378`. -/
def genBuilder (name : Str) (fs : List FieldDef) : List Ex :=
  fs.map fun f =>
    match f.ty with
    | .opt _ | .vec _ => .var f.slotVar
    | _ =>
      match f.dflt with
      | some d => .unwrapOrElse (.var f.slotVar) (.lit (.val d.val))
      | none => .try_ (.okOrElse (.var f.slotVar) (strE (f.ident ++ c!" is a required field of " ++ name)))

/-- `#init_unused` — `/repo/yaserde_derive/src/de/expand_struct.rs:534-537`: `buf` is inside the writer. -/
def genInitUnused (hasFlat : Bool) : List Ex :=
  if hasFlat then [.letE .writer (.lit (.some (.writer {})))] else []

/-- `#write_unused` — `/repo/yaserde_derive/src/de/expand_struct.rs:538-544`. -/
def genWriteUnused (hasFlat : Bool) : List Ex :=
  if hasFlat then
    [ifLet (.some .wild) (.var .writer)
      (.ite (fn .isErr [.mutate .writer [.some] .write (fn .unwrap [fn .asWriterEvent [.var .event]])])
        (.assign .writer (.lit .none)) skipE)
      skipE]
  else []

/-- `#visit_unused` — `/repo/yaserde_derive/src/de/expand_struct.rs:545-550`. -/
def genVisitUnused (d : StructDef) : List Ex :=
  if d.hasFlat then
    [.ite (fn .isSome [.var .writer])
      (blk (.letE .unused_xml_elements (fn .written [.var .writer]) :: genFlattenVisitors d.fields))
      skipE]
  else []

/-- `(named_element, …_namespace)` — `/repo/yaserde_derive/src/de/expand_struct.rs:396-402`, `…/de/expand_enum.rs:49-54`. -/
def genStartInfo (ns : Var) (root : Str) : Ex :=
  .letPair .named_element ns (ifLet (.start (.bind .name) .wild) (.try_ (meth .peek))
    (fn .pair [fn .locName [.var .name], fn .nsOf [.var .name]])
    (fn .pair [strE root, .lit .none]))

/-- The `StartElement` arm — `/repo/yaserde_derive/src/de/expand_struct.rs:422-449`. -/
def genStartArm (d : StructDef) : Ex :=
  blk [
    .letE .namespace (fn .unwrapOrDefault [fn .nsOf [.var .name]]),
    .ite (andE (andE (fn .eq [.var .depth, intE 0])
        (fn .eq [fn .locName [.var .name], strE (d.attrs.xmlElementName d.name)]))
        (fn .eq [.var .namespace, strE d.attrs.rootNamespace]))
      (blk (.letE .event (.try_ (meth .next)) :: genWriteUnused d.hasFlat))
      (mtch (fn .pair [.var .namespace, fn .locName [.var .name]])
        (genCallVisitors d.attrs d.fields ++
          [(.wild, blk (.letE .event (.try_ (meth .next)) :: (genWriteUnused d.hasFlat ++
            [.ite (fn .gt [.var .depth, intE 0]) (.try_ (skipElementE (genWriteUnused d.hasFlat))) skipE])))])),
    .ite (fn .eq [.var .depth, intE 0]) (blk (genLoadAttrs d.fields)) skipE,
    .incr .depth 1]

/-- The `EndElement` arm — `/repo/yaserde_derive/src/de/expand_struct.rs:450-458`. -/
def genEndArm (d : StructDef) : Ex :=
  blk (.ite (andE (fn .eq [fn .locName [.var .name], .var .named_element])
        (fn .eq [meth .depth, fn .add [.var .start_depth, intE 1]]))
      (blk (genWriteUnused d.hasFlat ++ [.brk])) skipE
    :: .letE .event (.try_ (meth .next)) :: (genWriteUnused d.hasFlat ++ [.incr .depth (-1)]))

/-- The body of the loop — `/repo/yaserde_derive/src/de/expand_struct.rs:415-473`. -/
def genStructStep (d : StructDef) : Ex :=
  blk [.letE .event (.try_ (meth .peek)),
    mtch (.var .event) [
      (.start (.bind .name) (.bind .attributes), genStartArm d),
      (.endE (.bind .name), genEndArm d),
      (.endDocument, .ite (.lit (.bool d.attrs.flatten)) .brk skipE),
      (.chars (.bind .text_content), blk (genSetText d.fields ++
        .letE .event (.try_ (meth .next)) :: genWriteUnused d.hasFlat)),
      (.bind .event, .ret (fn .err [fn .cat [strE c!"unknown event ", fn .debug [.var .event]]]))]]

/-- `deserialize` of a struct — `/repo/yaserde_derive/src/de/expand_struct.rs:389-481`. -/
def genStruct (d : StructDef) : Ex :=
  blk (genStartInfo .struct_namespace (d.attrs.xmlElementName d.name)
    :: .letE .start_depth (meth .depth)
    :: .ite (fn .eq [meth .depth, intE 0])
        (genNsMatching d.attrs.namespaces d.attrs.pfx (.var .struct_namespace) (.var .named_element)) skipE
    :: (genVariables d.fields ++ (genInitUnused d.hasFlat ++
      (.letE .depth (intE 0) :: .loop (genStructStep d) :: (genVisitUnused d ++
        [fn .ok [fn .structV (genBuilder d.name d.fields)]])))))

/-! ### Enums -/

/-- `set_val`, `set_opt`, `set_vec` — `/repo/yaserde_derive/src/de/expand_enum.rs:280-300`. -/
def genSet (i : Nat) : FTy → Ex
  | .opt _ => .assign .enum_value (fn .some [fn (.variantV i) [fn .some [.var .value_]]])
  | .vec _ =>
    mtch (.var .enum_value) [
      (.some (.bind .v), mtch (.var .v) [
        (.variant i, .mutate .enum_value [.some, .payload i] .push (.var .value_)),
        (.wild, .ret (fn .err [strE c!"Got sequence of different types"]))]),
      (.none, .assign .enum_value (fn .some [fn (.variantV i) [fn .vec1 [.var .value_]]]))]
  | _ => .assign .enum_value (fn .some [fn (.variantV i) [.var .value_]])

/-- The body of the visitor of a scalar payload — `/repo/yaserde_derive/src/de/expand_enum.rs:183-192`. -/
def variantVisitor (t : STy) : Ex := fn .ok [fn .unwrap [fn (.parse t) [.var .v]]]

/-- `call_simple_type_visitor` — `/repo/yaserde_derive/src/de/expand_enum.rs:235-265`. -/
def genVariantSimple (i : Nat) (ty : FTy) (t : STy) : Ex :=
  blk [
    .letE .result (readInner (blk [
      ifLet (.endE .wild) (.try_ (meth .peek)) (.ret (callVisit (variantVisitor t) (strE []))) skipE,
      ifLet (.ok (.chars (.bind .s))) (meth .next)
        (callVisit (variantVisitor t) (.var .s))
        (fn .err [fn .cat [strE c!"unable to parse content for ", strE c!"field_0"]])])),
    ifLet (.ok (.bind .value_)) (.var .result) (genSet i ty) skipE]

/-- `call_struct_visitor` — `/repo/yaserde_derive/src/de/expand_enum.rs:267-279`. -/
def genVariantStruct (i : Nat) (ty : FTy) (p : Path) : Ex :=
  mtch (meth (.deserialize p)) [
    (.ok (.bind .value_), blk [genSet i ty, meth .next]),
    (.err (.bind .msg), .ret (fn .err [.var .msg]))]

/-- `parse_variant` — `/repo/yaserde_derive/src/de/expand_enum.rs:114-155`. -/
def genVariant (i : Nat) (v : VariantDef) : Option (Pat × Ex) :=
  match v.shape with
  | .unit => some (.str (v.attrs.xmlElementName v.ident),
      blk [.assign .enum_value (fn .some [fn (.variantV i) []]), .brk])
  | .newtype t => some (.str (v.attrs.xmlElementName v.ident),
      match t.core with
      | .struct p => genVariantStruct i t p
      | .simple s => genVariantSimple i t s
      | _ => .app .unwrap .nil)
  | .named _ => none

/-- `#match_to_enum`; `i` is the number of the first variant. -/
def genMatchFrom : Nat → List VariantDef → List (Pat × Ex)
  | _, [] => []
  | i, v :: vs => (genVariant i v).toList ++ genMatchFrom (i + 1) vs

/-- `#element_name` — `/repo/yaserde_derive/src/de/expand_enum.rs:29-41`. -/
def genElementName (d : EnumDef) : Ex :=
  match d.attrs.tag with
  | some tag =>
    fn .attrValue [.try_ (.okOrElse (fn (.findAttr tag) [.var .attributes])
      (fn .cat [strE c!"Expected enum tagged with ", strE tag, strE c!", found ", fn .debug [.var .event]]))]
  | none => fn .locName [.var .name]

/-- The body of the loop — `/repo/yaserde_derive/src/de/expand_enum.rs:64-105`. -/
def genEnumStep (d : EnumDef) : Ex :=
  blk [.letE .event (.try_ (meth .peek)),
    mtch (.var .event) [
      (.start (.bind .name) (.bind .attributes), blk [
        mtch (genElementName d) (genMatchFrom 0 d.variants ++ [(.wild, blk [meth .next])]),
        ifLet (.chars (.bind .content)) (.try_ (meth .peek))
          (mtch (.var .content) (genMatchFrom 0 d.variants ++ [(.wild, skipE)])) skipE]),
      (.endE (.bind .name), blk [
        .ite (andE (fn .eq [fn .locName [.var .name], .var .named_element])
            (fn .eq [meth .depth, fn .add [.var .start_depth, intE 1]])) .brk skipE,
        meth .next]),
      (.chars (.bind .text_content), blk [meth .next]),
      (.endDocument, blk [.ite (.lit (.bool d.attrs.flatten)) .brk skipE,
        .ret (fn .err [strE c!"End of document, missing some content ?"])]),
      (.bind .event, .ret (fn .err [fn .cat [strE c!"unknown event ", fn .debug [.var .event]]]))]]

/-- `deserialize` of an enum — `/repo/yaserde_derive/src/de/expand_enum.rs:43-111`. -/
def genEnum (d : EnumDef) : Ex :=
  blk [genStartInfo .enum_namespace (d.attrs.xmlElementName d.name),
    .letE .start_depth (meth .depth),
    genNsMatching d.attrs.namespaces d.attrs.pfx (.var .enum_namespace) (.var .named_element),
    .letE .enum_value (.lit .none),
    .loop (genEnumStep d),
    fn .ok [.unwrapOrElse (.var .enum_value) (.lit (.val d.dflt))]]

/-! ### Running -/

/-- A call that returns `Result<α, String>`. -/
def liftD {α : Type} (m : D α) (inj : α → RV) (rd : Rd) : Out × Rd :=
  match m rd with
  | (.ok a, rd') => (.val (.ok (inj a)), rd')
  | (.err e, rd') => (.val (.err (.str e)), rd')
  | (.panic e, rd') => (.panic e, rd')
  | (.diverge, rd') => (.diverge, rd')

/-- The methods of the reader; `rec p` is `<p as YaDeserialize>::deserialize`. -/
def deOps (L : Lib) (rec : Path → D Val) : Op → List RV → Rd → Out × Rd
  | .peek, [], rd => liftD peek .ev rd
  | .next, [], rd => liftD nextEvent .ev rd
  | .depth, [], rd => (.val (.int rd.depth), rd)
  | .deserialize p, [], rd => liftD (rec p) .val rd
  | .fromStr p, [.str s], rd => ((liftD (rec p) .val (Rd.new (L.parse s))).1, rd)
  | _, _, rd => (.stuck, rd)

/-- Run the body of a `deserialize` function. -/
def runDe (L : Lib) (rec : Path → D Val) (fuel : Nat) (b : Ex) : D Val := fun rd =>
  match eval L (deOps L rec) fuel b (rd, fun _ => .unit) with
  | (o, s) =>
    (match o.result with
      | .ok (.val v) => .ok v
      | .ok _ => .panic c!"stuck"
      | .err m => .err m
      | .panic m => .panic m
      | .diverge => .diverge, s.1)

/-- `<p as YaDeserialize>::deserialize`, where the derived implementations are the printed programs.  `fuel` bounds the nesting
of calls and the iterations of each loop. -/
def deserGen (L : Lib) (env : Env) : Nat → Path → D Val
  | 0, _ => M.diverge
  | n + 1, p =>
    match env p with
    | some (.struct d) => runDe L (deserGen L env n) n (genStruct d)
    | some (.enum d) => runDe L (deserGen L env n) n (genEnum d)
    | some (.prim d) => primDeser d
    | none => M.panic c!"no such type"

end Yaserde.Rs
