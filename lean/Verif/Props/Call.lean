import Verif.Model.Call
import Verif.Props.Generated
import Verif.Props.Visitor
/-
C92: the calls of visitors reach the visitors that were printed for them.
-/

set_option autoImplicit false
set_option maxRecDepth 100000

namespace Yaserde

open Rs

theorem find_named {items : List VisitorItem} (h : (items.map VisitorItem.name).Nodup) {i : VisitorItem} (hi : i ∈ items) :
    (items.find? fun j => j.name == i.name) = some i := by
  induction items with
  | nil => cases hi
  | cons j js ih =>
    rw [List.map_cons, List.nodup_cons] at h
    rw [List.find?_cons]
    rcases List.mem_cons.1 hi with rfl | hi
    · rw [show (i.name == i.name) = true from beq_self_eq_true _]
    · have hne : j.name ≠ i.name := fun he => h.1 (he ▸ List.mem_map_of_mem hi)
      rw [show (j.name == i.name) = false from beq_false_of_ne hne]
      exact ih h.2 hi

theorem resolve_item {items : List VisitorItem} (h : (items.map VisitorItem.name).Nodup) {i : VisitorItem} (hi : i ∈ items) :
    resolveVisit items i.name i.method = some i.body := by
  unfold resolveVisit
  rw [find_named h hi]
  exact if_pos rfl

theorem mapM_all {α β : Type} {f : α → Option β} {g : α → β} {l : List α} (h : ∀ a ∈ l, f a = some (g a)) : l.mapM f = some (l.map g) := by
  induction l with
  | nil => rfl
  | cons a l ih =>
    rw [List.mapM_cons, h a (List.mem_cons_self ..), ih fun b hb => h b (List.mem_cons_of_mem _ hb)]
    rfl

/-- The visitors printed for a struct have the names of `StructDef.visitors` (C75). -/
theorem fieldVisitor_name (f : FieldDef) : (fieldVisitor f).map VisitorItem.name = f.visitor := by
  obtain ⟨x, ty, a, df, sk⟩ := f
  unfold fieldVisitor FieldDef.visitor
  cases ty with
  | simple t => simp [FTy.core, simpleVisitorItem]
  | struct p => cases h : a.isAttr <;> simp [FTy.core, structVisitorItem, h]
  | opt t => cases t <;> cases h : a.isAttr <;> simp [FTy.core, structVisitorItem, simpleVisitorItem, h]
  | vec t => cases t <;> cases h : a.isAttr <;> simp [FTy.core, structVisitorItem, simpleVisitorItem, h]

theorem visitors_names (fs : List FieldDef) : (fs.filterMap fieldVisitor).map VisitorItem.name = fs.filterMap FieldDef.visitor := by
  rw [List.map_filterMap]
  congr 1
  funext f
  exact fieldVisitor_name f

theorem visitMethod_trait (t : STy) : t.visitMethod ∈ visitorTrait.map Prod.fst := by
  cases t with
  | int i => cases i <;> decide
  | _ => decide

theorem fieldVisitor_trait {f : FieldDef} {i : VisitorItem} (h : fieldVisitor f = some i) : i.method ∈ visitorTrait.map Prod.fst := by
  have hs : c!"visit_str" ∈ visitorTrait.map Prod.fst := by decide
  obtain ⟨x, ty, a, df, sk⟩ := f
  unfold fieldVisitor at h
  dsimp only at h
  obtain ⟨-, h⟩ := Option.ite_none_right_eq_some.1 h
  cases ty with
  | simple t => cases h; exact visitMethod_trait _
  | struct p => cases h; exact hs
  | opt t => cases t <;> cases h <;> first | exact hs | exact visitMethod_trait _
  | vec t => cases t <;> cases h <;> first | exact hs | exact visitMethod_trait _

theorem visitors_compile_iff (fs : List FieldDef) :
    visitorsCompile (fs.filterMap fieldVisitor) = true ↔ (fs.filterMap FieldDef.visitor).Nodup := by
  unfold visitorsCompile
  rw [Bool.and_eq_true, decide_eq_true_iff, visitors_names]
  refine ⟨And.left, fun h => ⟨h, ?_⟩⟩
  rw [List.all_eq_true]
  intro i hi
  obtain ⟨f, -, hf⟩ := List.mem_filterMap.1 hi
  exact List.contains_iff_mem.2 (fieldVisitor_trait hf)

/-- The visitor of a scalar field. -/
theorem fieldVisitor_simple {f : FieldDef} {t : STy} (h : f.ty.core = .simple t) : fieldVisitor f = some (simpleVisitorItem f t) := by
  unfold fieldVisitor
  cases hty : f.ty with
  | simple s => rw [hty] at h; cases h; simp
  | struct p => rw [hty] at h; cases h
  | opt s => rw [hty] at h; cases h; simp
  | vec s => rw [hty] at h; cases h; simp

/-- The visitor of an attribute of a user type. -/
theorem fieldVisitor_struct {f : FieldDef} {p : Path} (ha : f.attrs.isAttr = true) (h : f.ty.core = .struct p) :
    fieldVisitor f = some (structVisitorItem f p) := by
  unfold fieldVisitor
  cases hty : f.ty with
  | simple s => rw [hty] at h; cases h
  | struct p => rw [hty] at h; cases h; simp [ha]
  | opt s => rw [hty] at h; cases h; simp [ha]
  | vec s => rw [hty] at h; cases h; simp [ha]

/-- **C92**, call by call: if the visitors of a struct compile, then the call printed for an element or attribute of a scalar type runs the visitor
of that type, and the call printed for an attribute of a user type the visitor of that type — never the visitor of another field, and never a
default of the trait. -/
theorem C92_resolved (d : StructDef) (h : d.visitors.Nodup) (f : FieldDef) (hf : f ∈ d.fields) :
    (∀ t, f.ty.core = .simple t →
      resolveVisit (d.fields.filterMap fieldVisitor) (f.visitorIdent []) t.visitMethod = some (simpleVisitor t)) ∧
    ∀ p, f.attrs.isAttr = true → f.ty.core = .struct p →
      resolveVisit (d.fields.filterMap fieldVisitor) (f.visitorIdent (structId p)) c!"visit_str" = some (structVisitor p) := by
  have hn : ((d.fields.filterMap fieldVisitor).map VisitorItem.name).Nodup := by rw [visitors_names]; exact h
  exact ⟨fun t ht => resolve_item hn (List.mem_filterMap.2 ⟨f, hf, fieldVisitor_simple ht⟩),
    fun p ha hp => resolve_item hn (List.mem_filterMap.2 ⟨f, hf, fieldVisitor_struct ha hp⟩)⟩

theorem printStruct_ok {d : StructDef} (hd : ∀ f ∈ d.fields, Rs.FieldOk f) (h : d.visitors.Nodup) : printStruct d = some (genStruct d) := by
  have hr := C92_resolved d h
  unfold printStruct
  rw [if_pos ((visitors_compile_iff d.fields).2 h)]
  generalize d.fields.filterMap fieldVisitor = items at hr ⊢
  have h1 : printCallVisitors items d.attrs d.fields = some (genCallVisitors d.attrs d.fields) := by
    refine mapM_all fun f hf => ?_
    obtain ⟨hf, he⟩ := List.mem_filter.1 hf
    simp only [Bool.and_eq_true, Bool.not_eq_true'] at he
    rcases (hd f hf).elem (.inl he.2) with ⟨p, hp⟩ | ⟨t, ht⟩
    · rw [hp]
      rfl
    · rw [ht]
      simp only [printVisitSimple, callNamed, (hr f hf).1 t ht]
      rfl
  have h2 : printLoadAttrs items d.fields = some (genLoadAttrs d.fields) := by
    refine mapM_all fun f hf => ?_
    obtain ⟨hf, he⟩ := List.mem_filter.1 hf
    have hc := (hd f hf).elem (.inr he)
    have hcall : ∀ t arg, f.ty.core = t → printAttrCall items f t arg = some (callVisit (visitorOf t) arg) := by
      rintro t arg rfl
      rcases hc with ⟨p, hp⟩ | ⟨t, ht⟩
      · rw [hp]
        simp only [printAttrCall, callNamed, (hr f hf).2 p he hp]
        rfl
      · rw [ht]
        simp only [printAttrCall, callNamed, (hr f hf).1 t ht]
        rfl
    unfold printLoadAttr genLoadAttr
    cases hty : f.ty with
    | simple t =>
      have := hcall (.simple t) (fn .attrValue [.var .attr]) (by rw [hty]; rfl)
      cases t with
      | string => rfl
      | _ => simp only [FTy.core, this]; rfl
    | struct p =>
      have := hcall (.struct p) (fn .attrValue [.var .attr]) (by rw [hty]; rfl)
      simp only [FTy.core, this]
      rfl
    | opt t =>
      have := hcall t (fn .attrValue [.var .attr]) (by rw [hty]; rfl)
      simp only [FTy.core, this]
      rfl
    | vec t =>
      have := hcall t (.var .value_) (by rw [hty]; rfl)
      simp only [this]
      rfl
  rw [h1, h2]
  rfl

/-- **C92** for structs: what is printed, with visitors called by name, is the program of C76, in which the bodies of the visitors stand in the
place of their calls, if the names of the visitors differ (C75); otherwise it does not compile. -/
theorem C92_struct (d : StructDef) (hd : ∀ f ∈ d.fields, Rs.FieldOk f) :
    printStruct d = if d.visitors.Nodup then some (genStruct d) else none := by
  split
  · rename_i h
    exact printStruct_ok hd h
  · rename_i h
    unfold printStruct
    exact if_neg fun hc => h ((visitors_compile_iff d.fields).1 hc)

/-- **C92** for enums: the visitors of a variant are items of its arm, so they never clash. -/
theorem C92_enum (d : EnumDef) (hd : EnumOk d) : printEnum d = some (genEnum d) := by
  have hv : ∀ i v, VariantOk v → printVariant i v = some (genVariant i v) := by
    intro i v hv
    obtain ⟨x, a, s⟩ := v
    cases s with
    | unit => rfl
    | named fs => rfl
    | newtype t =>
      unfold printVariant genVariant
      dsimp only
      have hs : ∀ s, t.core = .simple s → payloadVisitor t = some ⟨c!"__Visitor_0", s.visitMethod, variantVisitor s⟩ := by
        intro s h
        cases t with
        | simple s => cases h; rfl
        | struct p => cases h
        | opt s => cases h; rfl
        | vec s => cases h; rfl
      have hm : ∀ i, payloadVisitor t = some i → i.method ∈ visitorTrait.map Prod.fst := by
        intro i h
        unfold payloadVisitor at h
        split at h <;> cases h <;> first | exact visitMethod_trait _ | exact List.contains_iff_mem.1 rfl
      have hc : visitorsCompile (payloadVisitor t).toList = true := by
        unfold visitorsCompile
        cases hp : payloadVisitor t with
        | none => rfl
        | some i =>
          simp only [Option.toList_some, List.map_cons, List.map_nil, List.all_cons, List.all_nil, Bool.and_true]
          rw [List.contains_iff_mem.2 (hm i hp)]
          simp
      rw [if_pos hc]
      rcases hv t rfl with ⟨p, ht⟩ | ⟨s, ht⟩
      · rw [ht]
        rfl
      · rw [ht, hs s ht]
        have : ∀ arg, callNamed (Option.toList (some (⟨c!"__Visitor_0", s.visitMethod, variantVisitor s⟩ : VisitorItem))) c!"__Visitor_0" s.visitMethod arg =
            some (callVisit (variantVisitor s) arg) := by
          intro arg
          unfold callNamed
          rw [show resolveVisit _ c!"__Visitor_0" s.visitMethod = some (variantVisitor s) from
            resolve_item (i := ⟨c!"__Visitor_0", s.visitMethod, variantVisitor s⟩) (by simp) (by simp)]
          rfl
        simp only [printVariantSimple, this]
        rfl
  have hall : ∀ (vs : List VariantDef) (i : Nat), (∀ v ∈ vs, VariantOk v) → printMatchFrom i vs = some (genMatchFrom i vs) := by
    intro vs
    induction vs with
    | nil => intro i _; rfl
    | cons v vs ih =>
      intro i h
      unfold printMatchFrom genMatchFrom
      rw [hv i v (h v (List.mem_cons_self ..)), ih (i + 1) fun w hw => h w (List.mem_cons_of_mem _ hw)]
      rfl
  unfold printEnum
  rw [hall d.variants 0 hd]
  rfl

/-- `yaserde::de::from_str::<p>`, where the implementations of `YaDeserialize` are the printed programs with their visitors. -/
def printFromStr (L : Lib) (env : Env) (fuel : Nat) (p : Path) (s : Str) : Res Val := fromStr L (Rs.deserPrint L env fuel) p s

/-- … returns `r`. -/
def PrintReturns (L : Lib) (env : Env) (p : Path) (s : Str) (r : Res Val) : Prop := r ≠ .diverge ∧ ∃ n, printFromStr L env n p s = r

/-- The names of visitors do not clash in any struct (C75), so the printed code compiles. -/
def VisitorsDiffer (env : Env) : Prop := ∀ p d, env p = some (.struct d) → d.visitors.Nodup

theorem deserPrint_eq (L : Lib) {env : Env} (h : EnvOk env) (hv : VisitorsDiffer env) : ∀ (n : Nat) (p : Path), deserPrint L env n p = deserGen L env n p
  | 0, _ => rfl
  | n + 1, p => by
    have ih : deserPrint L env n = deserGen L env n := funext (deserPrint_eq L h hv n)
    unfold deserPrint deserGen
    cases he : env p with
    | none => rfl
    | some td =>
      cases td with
      | struct d =>
        dsimp only
        rw [printStruct_ok (h.structs p d he).fields (hv p d he), ih]
      | enum d =>
        dsimp only
        rw [C92_enum d (h.enums p d he), ih]
      | prim d => rfl

/-- **C92**, and C76 for the printed program with its visitors: if the visitors of no struct clash, then `from_str` returns in it what it
returns in the interpreter of type definitions, and nothing else. -/
theorem C92_returns (L : Lib) (hL : ∀ s, WellFormed (L.parse s)) {env : Env} (h : DerivedDe env) (hv : VisitorsDiffer env) (p : Path) (s : Str)
    (r : Res Val) : PrintReturns L env p s r ↔ Returns L env p s r := by
  rw [← C76_returns L hL h]
  unfold PrintReturns GenReturns printFromStr genFromStr fromStr
  simp only [deserPrint_eq L h.ok hv]

namespace MacroSample
open Tests

theorem visitorsDiffer : VisitorsDiffer (envOf prog) := by
  intro p d h
  have := mem_envOf h
  simp only [prog, List.mem_cons, List.not_mem_nil, or_false, Prod.mk.injEq] at this
  rcases this with ⟨-, h⟩ | ⟨-, h⟩ | ⟨-, h⟩
  · cases h; decide
  · cases h
  · cases h

/-- The program of the macro's samples, with its visitors, reads a book … -/
example : PrintReturns lib (envOf prog) [c!"Book"] bookText (.ok (.struct [.int 3, .vec [.str c!"x", .str c!"y"], .some (.int 7)])) :=
  (C92_returns lib wf derivedDe visitorsDiffer _ _ _).mpr book_reads

/-- … run, from the printed code. -/
example : (match printFromStr lib (envOf prog) 60 [c!"Book"] bookText with
    | .ok v => v.beq (.struct [.int 3, .vec [.str c!"x", .str c!"y"], .some (.int 7)])
    | _ => false) = true := by decide +kernel

end MacroSample

open VisitorSample in
/-- Two fields whose names are the same in camel case: the printed code does not compile (C75). -/
example : printStruct pointDef = none := by
  rw [C92_struct pointDef fun f hf => ⟨fun _ => ?_, fun _ h => ?_, fun h => ?_⟩, if_neg (by decide)]
  · simp only [pointDef, List.mem_cons, List.not_mem_nil, or_false] at hf
    rcases hf with rfl | rfl <;> exact .inr ⟨_, rfl⟩
  · simp only [pointDef, List.mem_cons, List.not_mem_nil, or_false] at hf
    rcases hf with rfl | rfl <;> cases h
  · simp only [pointDef, List.mem_cons, List.not_mem_nil, or_false] at hf
    rcases hf with rfl | rfl <;> cases h

/-- What a call of another method of the trait would run. -/
example (f : FieldDef) : resolveVisit [simpleVisitorItem f .bool] (f.visitorIdent []) c!"visit_i8" = some (unexpected c!"i8") ∧
    resolveVisit [simpleVisitorItem f .bool] (f.visitorIdent []) c!"visit_char" = none := by
  have h : ([simpleVisitorItem f .bool].find? fun i => i.name == f.visitorIdent []) = some (simpleVisitorItem f .bool) :=
    find_named (i := simpleVisitorItem f .bool) (by simp) (by simp)
  unfold resolveVisit
  rw [h]
  exact ⟨rfl, rfl⟩

end Yaserde
