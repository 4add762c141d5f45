import Verif.Model.GenDe
import Verif.Model.Visitor
/-
Visitors: the items `struct __Visitor_…; impl Visitor for __Visitor_… { fn visit_…(self, v: &str) … }` that
`YaDeserialize` prints inside of `deserialize`, and the calls `__Visitor_…{}.visit_…(…)`, by name.  The trait
(`/repo/yaserde/src/lib.rs:121-172`) has a default for each of its methods, which answers with an error.

`Model/GenDe.lean` has the body of the visitor in the place of the call; here the printed code is as it is in the macro, and a
call means what rustc makes of it: the method of that name in the item of that name, or else the default of the trait.
-/

set_option autoImplicit false

namespace Yaserde

/-- `impl From<&Field> for String` — `/repo/yaserde_derive/src/common/field.rs:322-341`. -/
def STy.visitWord : STy → Str
  | .string => c!"str"
  | .bool => c!"bool"
  | .int .i8 => c!"i8"
  | .int .u8 => c!"u8"
  | .int .i16 => c!"i16"
  | .int .u16 => c!"u16"
  | .int .i32 => c!"i32"
  | .int .u32 => c!"u32"
  | .int .i64 => c!"i64"
  | .int .u64 => c!"u64"
  | .f32 => c!"f32"
  | .f64 => c!"f64"

/-- `get_simple_type_visitor` — `/repo/yaserde_derive/src/common/field.rs:229-232`. -/
def STy.visitMethod (t : STy) : Str := c!"visit_" ++ t.visitWord

namespace Rs

/-- A visitor: its name and the method that its `impl` has. -/
structure VisitorItem where
  name : Str
  method : Str
  body : Ex

/-- The default of a method of `Visitor`: `Err(format!("Unexpected … {:?}", v))`. -/
def unexpected (what : Str) : Ex := fn .err [fn .cat [strE (c!"Unexpected " ++ what ++ c!" "), fn .debugStr [.var .v]]]

/-- `trait Visitor` — `/repo/yaserde/src/lib.rs:121-172`: its methods, with their defaults. -/
def visitorTrait : List (Str × Ex) := [
  (c!"visit_bool", unexpected c!"bool"),
  (c!"visit_i8", unexpected c!"i8"),
  (c!"visit_u8", unexpected c!"u8"),
  (c!"visit_i16", unexpected c!"i16"),
  (c!"visit_u16", unexpected c!"u16"),
  (c!"visit_i32", unexpected c!"i32"),
  (c!"visit_u32", unexpected c!"u32"),
  (c!"visit_i64", unexpected c!"i64"),
  (c!"visit_u64", unexpected c!"u64"),
  (c!"visit_f32", unexpected c!"f32"),
  (c!"visit_f64", unexpected c!"f64"),
  (c!"visit_str", unexpected c!"str")]

/-- What rustc demands of the visitors of one scope: names differ (E0428), and the methods are methods of the trait (E0407). -/
def visitorsCompile (items : List VisitorItem) : Bool :=
  decide (items.map VisitorItem.name).Nodup && items.all fun i => (visitorTrait.map Prod.fst).contains i.method

/-- The body that `name{}.method(…)` runs: the one in the `impl`, or else the default.  `none`: there is no such item (E0422), or no
such method (E0599). -/
def resolveVisit (items : List VisitorItem) (name method : Str) : Option Ex :=
  match items.find? fun i => i.name == name with
  | none => none
  | some i => if i.method = method then some i.body else (visitorTrait.find? fun m => m.1 == method).map Prod.snd

/-- `name{}.method(arg)` -/
def callNamed (items : List VisitorItem) (name method : Str) (arg : Ex) : Option Ex :=
  (resolveVisit items name method).map fun body => callVisit body arg

/-! ### Structs -/

/-- `struct_visitor` — `/repo/yaserde_derive/src/de/expand_struct.rs:66-93`. -/
def structVisitorItem (f : FieldDef) (p : Path) : VisitorItem := ⟨f.visitorIdent (structId p), c!"visit_str", structVisitor p⟩

/-- `simple_type_visitor` — `/repo/yaserde_derive/src/de/expand_struct.rs:95-124`. -/
def simpleVisitorItem (f : FieldDef) (t : STy) : VisitorItem := ⟨f.visitorIdent [], t.visitMethod, simpleVisitor t⟩

/-- `field_visitors`, for one field — `/repo/yaserde_derive/src/de/expand_struct.rs:50-141`. -/
def fieldVisitor (f : FieldDef) : Option VisitorItem :=
  if f.attrs.isAttr || (match f.ty with
      | .vec (.struct _) => false
      | .opt (.struct _) => false
      | .struct _ => false
      | _ => true) then
    match f.ty with
    | .struct p => some (structVisitorItem f p)
    | .opt (.struct p) => some (structVisitorItem f p)
    | .opt (.simple t) => some (simpleVisitorItem f t)
    | .opt _ => none
    | .vec (.struct p) => some (structVisitorItem f p)
    | .vec (.simple t) => some (simpleVisitorItem f t)
    | .vec _ => none
    | .simple t => some (simpleVisitorItem f t)
  else none

/-- `build_call_visitor` — `/repo/yaserde_derive/src/de/expand_struct.rs:484-524`. -/
def printVisitSimple (items : List VisitorItem) (root : Attrs) (f : FieldDef) (t : STy) : Option Ex :=
  (callNamed items (f.visitorIdent []) t.visitMethod (.var .s)).map fun call =>
    blk [genNsMatching root.namespaces f.attrs.pfx (fn .nsOf [.var .name]) (fn .locName [.var .name]),
      .letE .result (readInner (ifLet (.ok (.chars (.bind .s))) (meth .peek)
        (blk [.letE .val call, .try_ (meth .next), .var .val])
        (fn .err [fn .cat [strE c!"unable to parse content for ", strE f.label]]))),
      ifLet (.ok (.bind .value_)) (.var .result) (genAction f) skipE]

/-- `#call_visitors` — `/repo/yaserde_derive/src/de/expand_struct.rs:143-201`. -/
def printCallVisitors (items : List VisitorItem) (root : Attrs) (fs : List FieldDef) : Option (List (Pat × Ex)) :=
  (fs.filter fun f => !f.attrs.isAttr && !f.attrs.flatten).mapM fun f =>
    (match f.ty.core with
      | .struct p => some (genVisitStruct f p)
      | .simple t => printVisitSimple items root f t
      | _ => none).map fun e => (.pair (.str (f.prefixNs root)) (.str f.label), e)

/-- The visitor called for an attribute — `/repo/yaserde_derive/src/de/expand_struct.rs:269-292, 299-309`. -/
def printAttrCall (items : List VisitorItem) (f : FieldDef) (t : FTy) (arg : Ex) : Option Ex :=
  match t with
  | .struct p => callNamed items (f.visitorIdent (structId p)) c!"visit_str" arg
  | .simple t => callNamed items (f.visitorIdent []) t.visitMethod arg
  | _ => none

/-- `#attributes_loading` for one field — `/repo/yaserde_derive/src/de/expand_struct.rs:226-316`. -/
def printLoadAttr (items : List VisitorItem) (f : FieldDef) : Option Ex :=
  match f.ty with
  | .simple .string => some (forAttr f [.assign f.slotVar (fn .some [fn .owned [fn .attrValue [.var .attr]]])])
  | .vec t =>
    (printAttrCall items f t (.var .value_)).map fun call =>
      forAttr f [.forE .value_ (fn .splitWhitespace [fn .attrValue [.var .attr]])
        (blk [.letE .value_ (.try_ call), genAction f])]
  | t =>
    (printAttrCall items f t.core (fn .attrValue [.var .attr])).map fun call =>
      forAttr f [.letE .value_ (.try_ call), genAction f]

/-- `#attributes_loading` — `/repo/yaserde_derive/src/de/expand_struct.rs:226-316`. -/
def printLoadAttrs (items : List VisitorItem) (fs : List FieldDef) : Option (List Ex) :=
  (fs.filter fun f => f.attrs.isAttr).mapM (printLoadAttr items)

/-- The `StartElement` arm around the calls of visitors — `/repo/yaserde_derive/src/de/expand_struct.rs:422-449`. -/
def startArmWith (d : StructDef) (calls : List (Pat × Ex)) (loads : List Ex) : Ex :=
  blk [
    .letE .namespace (fn .unwrapOrDefault [fn .nsOf [.var .name]]),
    .ite (andE (andE (fn .eq [.var .depth, intE 0])
        (fn .eq [fn .locName [.var .name], strE (d.attrs.xmlElementName d.name)]))
        (fn .eq [.var .namespace, strE d.attrs.rootNamespace]))
      (blk (.letE .event (.try_ (meth .next)) :: genWriteUnused d.hasFlat))
      (mtch (fn .pair [.var .namespace, fn .locName [.var .name]])
        (calls ++
          [(.wild, blk (.letE .event (.try_ (meth .next)) :: (genWriteUnused d.hasFlat ++
            [.ite (fn .gt [.var .depth, intE 0]) (.try_ (skipElementE (genWriteUnused d.hasFlat))) skipE])))])),
    .ite (fn .eq [.var .depth, intE 0]) (blk loads) skipE,
    .incr .depth 1]

/-- `deserialize` of a struct around its `StartElement` arm — `/repo/yaserde_derive/src/de/expand_struct.rs:389-481`. -/
def structWith (d : StructDef) (start : Ex) : Ex :=
  blk (genStartInfo .struct_namespace (d.attrs.xmlElementName d.name)
    :: .letE .start_depth (meth .depth)
    :: .ite (fn .eq [meth .depth, intE 0])
        (genNsMatching d.attrs.namespaces d.attrs.pfx (.var .struct_namespace) (.var .named_element)) skipE
    :: (genVariables d.fields ++ (genInitUnused d.hasFlat ++
      (.letE .depth (intE 0) :: .loop (blk [.letE .event (.try_ (meth .peek)),
        mtch (.var .event) [
          (.start (.bind .name) (.bind .attributes), start),
          (.endE (.bind .name), genEndArm d),
          (.endDocument, .ite (.lit (.bool d.attrs.flatten)) .brk skipE),
          (.chars (.bind .text_content), blk (genSetText d.fields ++
            .letE .event (.try_ (meth .next)) :: genWriteUnused d.hasFlat)),
          (.bind .event, .ret (fn .err [fn .cat [strE c!"unknown event ", fn .debug [.var .event]]]))]]) :: (genVisitUnused d ++
        [fn .ok [fn .structV (genBuilder d.name d.fields)]])))))

/-- `deserialize` of a struct, with its visitors — `/repo/yaserde_derive/src/de/expand_struct.rs:389-481`; `none` if rustc rejects it. -/
def printStruct (d : StructDef) : Option Ex :=
  let items := d.fields.filterMap fieldVisitor
  if visitorsCompile items then
    (printCallVisitors items d.attrs d.fields).bind fun calls =>
      (printLoadAttrs items d.fields).map fun loads => structWith d (startArmWith d calls loads)
  else none

/-! ### Enums -/

/-- `build_unnamed_field_visitors` — `/repo/yaserde_derive/src/de/expand_enum.rs:157-221`, for the one field of the variant.  The
visitor of a user type is printed but not called. -/
def payloadVisitor (t : FTy) : Option VisitorItem :=
  match t with
  | .struct p => some ⟨c!"__Visitor_0", c!"visit_str", structVisitor p⟩
  | .opt (.struct _) => none
  | .vec (.struct _) => none
  | .opt (.simple s) => some ⟨c!"__Visitor_0", s.visitMethod, variantVisitor s⟩
  | .vec (.simple s) => some ⟨c!"__Visitor_0", s.visitMethod, variantVisitor s⟩
  | .simple s => some ⟨c!"__Visitor_0", s.visitMethod, variantVisitor s⟩
  | _ => none

/-- `call_simple_type_visitor` — `/repo/yaserde_derive/src/de/expand_enum.rs:235-265`. -/
def printVariantSimple (items : List VisitorItem) (i : Nat) (ty : FTy) (t : STy) : Option Ex :=
  (callNamed items c!"__Visitor_0" t.visitMethod (strE [])).bind fun onEnd =>
    (callNamed items c!"__Visitor_0" t.visitMethod (.var .s)).map fun onText =>
      blk [
        .letE .result (readInner (blk [
          ifLet (.endE .wild) (.try_ (meth .peek)) (.ret onEnd) skipE,
          ifLet (.ok (.chars (.bind .s))) (meth .next) onText
            (fn .err [fn .cat [strE c!"unable to parse content for ", strE c!"field_0"]])])),
        ifLet (.ok (.bind .value_)) (.var .result) (genSet i ty) skipE]

/-- `parse_variant` — `/repo/yaserde_derive/src/de/expand_enum.rs:114-155`: the arm of a variant, whose visitors are items of the arm;
`some none` if there is no arm. -/
def printVariant (i : Nat) (v : VariantDef) : Option (Option (Pat × Ex)) :=
  match v.shape with
  | .unit => some (some (.str (v.attrs.xmlElementName v.ident),
      blk [.assign .enum_value (fn .some [fn (.variantV i) []]), .brk]))
  | .newtype t =>
    let items := (payloadVisitor t).toList
    if visitorsCompile items then
      (match t.core with
        | .struct p => some (genVariantStruct i t p)
        | .simple s => printVariantSimple items i t s
        | _ => none).map fun e => some (.str (v.attrs.xmlElementName v.ident), e)
    else none
  | .named _ => some none

/-- `#match_to_enum`; `i` is the number of the first variant. -/
def printMatchFrom : Nat → List VariantDef → Option (List (Pat × Ex))
  | _, [] => some []
  | i, v :: vs => (printVariant i v).bind fun a => (printMatchFrom (i + 1) vs).map fun as => a.toList ++ as

/-- `deserialize` of an enum around the arms of its variants, which are printed twice — `/repo/yaserde_derive/src/de/expand_enum.rs:43-111`. -/
def enumWith (d : EnumDef) (arms : List (Pat × Ex)) : Ex :=
  blk [genStartInfo .enum_namespace (d.attrs.xmlElementName d.name),
    .letE .start_depth (meth .depth),
    genNsMatching d.attrs.namespaces d.attrs.pfx (.var .enum_namespace) (.var .named_element),
    .letE .enum_value (.lit .none),
    .loop (blk [.letE .event (.try_ (meth .peek)),
      mtch (.var .event) [
        (.start (.bind .name) (.bind .attributes), blk [
          mtch (genElementName d) (arms ++ [(.wild, blk [meth .next])]),
          ifLet (.chars (.bind .content)) (.try_ (meth .peek))
            (mtch (.var .content) (arms ++ [(.wild, skipE)])) skipE]),
        (.endE (.bind .name), blk [
          .ite (andE (fn .eq [fn .locName [.var .name], .var .named_element])
              (fn .eq [meth .depth, fn .add [.var .start_depth, intE 1]])) .brk skipE,
          meth .next]),
        (.chars (.bind .text_content), blk [meth .next]),
        (.endDocument, blk [.ite (.lit (.bool d.attrs.flatten)) .brk skipE,
          .ret (fn .err [strE c!"End of document, missing some content ?"])]),
        (.bind .event, .ret (fn .err [fn .cat [strE c!"unknown event ", fn .debug [.var .event]]]))]]),
    fn .ok [.unwrapOrElse (.var .enum_value) (.lit (.val d.dflt))]]

/-- `deserialize` of an enum, with its visitors. -/
def printEnum (d : EnumDef) : Option Ex := (printMatchFrom 0 d.variants).map (enumWith d)

/-! ### Running -/

/-- `<p as YaDeserialize>::deserialize`, where the derived implementations are the printed programs with their visitors. -/
def deserPrint (L : Lib) (env : Env) : Nat → Path → D Val
  | 0, _ => M.diverge
  | n + 1, p =>
    match env p with
    | some (.struct d) => (match printStruct d with | some b => runDe L (deserPrint L env n) n b | none => M.panic c!"does not compile")
    | some (.enum d) => (match printEnum d with | some b => runDe L (deserPrint L env n) n b | none => M.panic c!"does not compile")
    | some (.prim d) => primDeser d
    | none => M.panic c!"no such type"

end Rs

end Yaserde
