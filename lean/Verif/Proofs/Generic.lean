import Mathlib.Data.Countable.Basic
import Mathlib.Logic.Equiv.List
import Verif.Model.Generic
import Verif.Spec.Generic
import Verif.Proofs.Frames
import Verif.Proofs.Levels
/-
The generated code with other paths for the types of the fields.
-/

set_option autoImplicit false

namespace Yaserde

theorem FTy.core_mapPaths (ρ : Path → Path) (t : FTy) : (t.mapPaths ρ).core = t.core.mapPaths ρ := by cases t <;> rfl

theorem Slot.init_mapPaths (ρ : Path → Path) (t : FTy) : Slot.init (t.mapPaths ρ) = Slot.init t := by cases t <;> rfl

section
variable (L : Lib) (rec : Path → D Val) (ρ : Path → Path)

theorem findArm_mapPaths (root : Attrs) (ns loc : Str) (fs : List FieldDef) :
    findArm root ns loc (fs.map (FieldDef.mapPaths ρ)) = findArm root ns loc fs := by
  unfold findArm
  rw [List.findIdx?_map]
  rfl

theorem setText_mapPaths (fs : List FieldDef) (t : Str) (ss : List Slot) :
    setText (fs.map (FieldDef.mapPaths ρ)) t ss = setText fs t ss := by
  induction fs generalizing ss with
  | nil => rfl
  | cons f fs ih =>
    cases ss with
    | nil => rfl
    | cons s ss =>
      rw [List.map_cons, setText, setText, ih]
      congr 1
      show (if f.attrs.text = true then _ else _) = _
      congr 1
      show (match f.ty.mapPaths ρ with
        | .simple .string => Slot.one (some (.str t))
        | .opt (.simple .string) => if t.isEmpty then .one none else .one (some (.str t))
        | _ => s) = _
      rcases f.ty with s | t | t | p
      · rfl
      · cases t <;> rfl
      all_goals rfl

theorem visitAttr_mapPaths (t : FTy) (v : Str) (h : ∀ q, t = .struct q → structId (ρ q) = structId q) :
    visitAttr L rec (t.mapPaths ρ) v = visitAttr L (fun q => rec (ρ q)) t v := by
  rcases t with s | t | t | p
  · rfl
  · rfl
  · rfl
  · show visitStructStr L rec (ρ p) v = visitStructStr L (fun q => rec (ρ q)) p v
    rw [visitStructStr, visitStructStr, h p rfl]
    rfl

theorem loadAttrField_mapPaths (f : FieldDef) (attrs : List Attr) (s : Slot) (h : ∀ q, f.ty.core = .struct q → structId (ρ q) = structId q) :
    loadAttrField L rec (f.mapPaths ρ) attrs s = loadAttrField L (fun q => rec (ρ q)) f attrs s := by
  unfold loadAttrField
  congr 1
  funext slot a
  show (if a.name.loc = f.label then _ else _) = _
  congr 1
  show (match f.ty.mapPaths ρ with
      | .vec t => foldRes (fun (slot : Slot) w => (visitAttr L rec t w).bind fun v => .ok (slot.put v)) slot (splitWhitespace a.value)
      | t => (visitAttr L rec t.core a.value).bind fun v => .ok (slot.put v)) = _
  rcases hf : f.ty with s | t | t | p
  · rfl
  · dsimp only [FTy.mapPaths, FTy.core]
    rw [visitAttr_mapPaths]
    rintro q rfl
    exact h q (by rw [hf]; rfl)
  · dsimp only [FTy.mapPaths]
    congr 1
    funext slot w
    rw [visitAttr_mapPaths]
    rintro q rfl
    exact h q (by rw [hf]; rfl)
  · have := visitAttr_mapPaths L rec ρ (.struct p) a.value (by rintro q ⟨rfl⟩; exact h _ (by rw [hf]; rfl))
    dsimp only [FTy.mapPaths, FTy.core] at this ⊢
    rw [this]

theorem loadAttrs_mapPaths (fs : List FieldDef) (attrs : List Attr) (ss : List Slot)
    (h : ∀ f ∈ fs, f.attrs.isAttr = true → ∀ q, f.ty.core = .struct q → structId (ρ q) = structId q) :
    loadAttrs L rec (fs.map (FieldDef.mapPaths ρ)) attrs ss = loadAttrs L (fun q => rec (ρ q)) fs attrs ss := by
  induction fs generalizing ss with
  | nil => rfl
  | cons f fs ih =>
    cases ss with
    | nil => rfl
    | cons s ss =>
      rw [List.map_cons, loadAttrs, loadAttrs, ih ss (fun g hg => h g (List.mem_cons_of_mem _ hg))]
      congr 1
      show (if f.attrs.isAttr = true then _ else _) = _
      by_cases ha : f.attrs.isAttr = true
      · rw [if_pos ha, if_pos ha, loadAttrField_mapPaths L rec ρ f attrs s (h f (List.mem_cons_self ..) ha)]
      · rw [if_neg ha, if_neg ha]

theorem callVisitor_mapPaths (root : Attrs) (f : FieldDef) (i : Nat) (name : Name) (st : LoopSt) :
    callVisitor L rec root (f.mapPaths ρ) i name st = callVisitor L (fun q => rec (ρ q)) root f i name st := by
  unfold callVisitor
  rw [show (f.mapPaths ρ).ty.core = f.ty.core.mapPaths ρ from FTy.core_mapPaths ρ f.ty]
  rcases f.ty.core with s | t | t | p <;> rfl

/-- The struct with other paths for the types of its fields. -/
def StructDef.mapPaths (d : StructDef) : StructDef := { d with fields := d.fields.map (FieldDef.mapPaths ρ) }

theorem hasFlat_mapPaths (d : StructDef) : (d.mapPaths ρ).hasFlat = d.hasFlat := by
  unfold StructDef.hasFlat StructDef.mapPaths
  rw [List.any_map]
  rfl

section
variable {d : StructDef} (hd : ∀ f ∈ d.fields, f.attrs.isAttr = true → ∀ q, f.ty.core = .struct q → structId (ρ q) = structId q)
include hd

theorem structStart_mapPaths (fuel : Nat) (st : LoopSt) (name : Name) (attrs : List Attr) :
    structStart L rec fuel (d.mapPaths ρ) st name attrs = structStart L (fun q => rec (ρ q)) fuel d st name attrs := by
  unfold structStart
  rw [hasFlat_mapPaths]
  have ha : ∀ ss, loadAttrs L rec (d.mapPaths ρ).fields attrs ss = loadAttrs L (fun q => rec (ρ q)) d.fields attrs ss :=
    fun ss => loadAttrs_mapPaths L rec ρ d.fields attrs ss hd
  simp only [ha]
  congr 1
  show (if st.depth = 0 ∧ name.loc = d.attrs.xmlElementName d.name ∧ name.ns.getD [] = d.attrs.rootNamespace then _ else _) = _
  congr 1
  show (match findArm d.attrs (name.ns.getD []) name.loc (d.fields.map (FieldDef.mapPaths ρ)) with
    | some i =>
      match (d.fields.map (FieldDef.mapPaths ρ))[i]? with
      | some f => callVisitor L rec d.attrs f i name st
      | none => M.pure st
    | none => _) = _
  rw [findArm_mapPaths]
  rcases findArm d.attrs (name.ns.getD []) name.loc d.fields with _ | i
  · rfl
  · dsimp only
    rw [List.getElem?_map]
    rcases d.fields[i]? with _ | f
    · rfl
    · exact callVisitor_mapPaths L rec ρ d.attrs f i name st

theorem structStep_mapPaths (fuel : Nat) (named : Str) (startDepth : Nat) (st : LoopSt) :
    structStep L rec fuel (d.mapPaths ρ) named startDepth st = structStep L (fun q => rec (ρ q)) fuel d named startDepth st := by
  unfold structStep
  rw [hasFlat_mapPaths]
  congr 1
  funext e
  cases e
  case start name attrs ns => dsimp only; rw [structStart_mapPaths L rec ρ hd]
  case chars t =>
    dsimp only
    have : ∀ ss, setText (d.mapPaths ρ).fields t ss = setText d.fields t ss := setText_mapPaths ρ d.fields t
    rw [this]
  all_goals rfl

theorem structLoop_mapPaths (skipFuel : Nat) (named : Str) (startDepth n : Nat) (st : LoopSt) :
    structLoop L rec skipFuel (d.mapPaths ρ) named startDepth n st =
      structLoop L (fun q => rec (ρ q)) skipFuel d named startDepth n st := by
  induction n generalizing st with
  | zero => rfl
  | succ n ih =>
    rw [structLoop, structLoop, structStep_mapPaths L rec ρ hd]
    congr 1
    funext ⟨st', b⟩
    dsimp only
    rw [ih st']

omit hd in
theorem flattenFields_mapPaths (unused : Str) (fs : List FieldDef) (ss : List Slot) :
    flattenFields L rec unused (fs.map (FieldDef.mapPaths ρ)) ss = flattenFields L (fun q => rec (ρ q)) unused fs ss := by
  induction fs generalizing ss with
  | nil => rfl
  | cons f fs ih =>
    cases ss with
    | nil => rfl
    | cons s ss =>
      rw [List.map_cons, flattenFields, flattenFields, ih]
      congr 1
      unfold flattenField
      show (if (!f.attrs.isAttr && f.attrs.flatten) = true then _ else _) = _
      congr 1
      show (match f.ty.mapPaths ρ with
        | .struct p => (fromStr L rec p unused).bind fun v => .ok (Slot.one (some v))
        | .opt (.struct p) =>
          match fromStr L rec p unused with
          | .ok v => .ok (Slot.one (some v))
          | .err _ => .ok (Slot.one none)
          | .panic m => .panic m
          | .diverge => .diverge
        | _ => .panic c!"not implemented") = _
      rcases f.ty with s | t | t | p
      · rfl
      · cases t <;> rfl
      all_goals rfl

omit hd in
theorem buildFields_mapPaths (name : Str) (fs : List FieldDef) (ss : List Slot) :
    buildFields name (fs.map (FieldDef.mapPaths ρ)) ss = buildFields name fs ss := by
  induction fs generalizing ss with
  | nil => rfl
  | cons f fs ih =>
    cases ss with
    | nil => rfl
    | cons s ss =>
      rw [List.map_cons, buildFields, buildFields, ih]
      congr 1
      rcases f with ⟨i, ty, a, df, si⟩
      show buildField name ⟨i, ty.mapPaths ρ, a, df, si⟩ s = _
      rcases ty with t | t | t | p <;> rcases s with (_ | v) | vs <;> rfl

theorem structDeser_mapPaths (fuel : Nat) :
    structDeser L rec fuel (d.mapPaths ρ) = structDeser L (fun q => rec (ρ q)) fuel d := by
  unfold structDeser structBody
  simp only [structLoop_mapPaths L rec ρ hd, hasFlat_mapPaths]
  have h1 : (d.mapPaths ρ).fields.map (fun f => Slot.init f.ty) = d.fields.map (fun f => Slot.init f.ty) := by
    show (d.fields.map (FieldDef.mapPaths ρ)).map _ = _
    rw [List.map_map]
    exact List.map_congr_left fun f _ => Slot.init_mapPaths ρ f.ty
  have h2 : ∀ u ss, flattenFields L rec u (d.mapPaths ρ).fields ss = flattenFields L (fun q => rec (ρ q)) u d.fields ss :=
    fun u ss => flattenFields_mapPaths L rec ρ u d.fields ss
  have h3 : ∀ m ss, buildFields m (d.mapPaths ρ).fields ss = buildFields m d.fields ss :=
    fun m ss => buildFields_mapPaths ρ m d.fields ss
  rw [h1]
  simp only [h2, h3]
  rfl

end

/-- The enum with other paths for the types of its payloads. -/
def EnumDef.mapPaths (d : EnumDef) : EnumDef := { d with variants := d.variants.map (VariantDef.mapPaths ρ) }

theorem findVariant_mapPaths (key : Str) (vs : List VariantDef) :
    findVariant key (vs.map (VariantDef.mapPaths ρ)) = findVariant key vs := by
  unfold findVariant
  rw [List.findIdx?_map]
  congr 1
  funext v
  show ((match v.shape.mapPaths ρ with | .named _ => false | _ => true) && _) = _
  rcases hs : v.shape with _ | t | fs <;> rfl

theorem variantArm_mapPaths (i : Nat) (v : VariantDef) (cur : Option Val) :
    variantArm L rec i (v.mapPaths ρ) cur = variantArm L (fun q => rec (ρ q)) i v cur := by
  rcases v with ⟨x, a, sh⟩
  rcases sh with _ | t | fs
  · rfl
  · rcases t with s | t | t | p
    · rfl
    · rcases t with s | t | t | p <;> rfl
    · rcases t with s | t | t | p <;> rfl
    · rfl
  · rfl

theorem enumMatch_mapPaths (d : EnumDef) (key : Str) (cur : Option Val) (dflt : D (Option Val × Bool)) :
    enumMatch L rec (d.mapPaths ρ) key cur dflt = enumMatch L (fun q => rec (ρ q)) d key cur dflt := by
  unfold enumMatch EnumDef.mapPaths
  dsimp only
  rw [findVariant_mapPaths]
  rcases findVariant key d.variants with _ | i
  · rfl
  · dsimp only
    rw [List.getElem?_map]
    rcases d.variants[i]? with _ | v
    · rfl
    · exact variantArm_mapPaths L rec ρ i v cur

theorem enumLoop_mapPaths (d : EnumDef) (named : Str) (startDepth n : Nat) (cur : Option Val) :
    enumLoop L rec (d.mapPaths ρ) named startDepth n cur = enumLoop L (fun q => rec (ρ q)) d named startDepth n cur := by
  induction n generalizing cur with
  | zero => rfl
  | succ n ih =>
    rw [enumLoop, enumLoop]
    have : enumStep L rec (d.mapPaths ρ) named startDepth cur = enumStep L (fun q => rec (ρ q)) d named startDepth cur := by
      unfold enumStep
      simp only [enumMatch_mapPaths]
      rfl
    rw [this]
    congr 1
    funext ⟨cur', b⟩
    dsimp only
    rw [ih cur']

theorem enumDeser_mapPaths (fuel : Nat) (d : EnumDef) :
    enumDeser L rec fuel (d.mapPaths ρ) = enumDeser L (fun q => rec (ρ q)) fuel d := by
  unfold enumDeser enumBody
  simp only [enumLoop_mapPaths]
  rfl

end

/-! #### Serialization -/

section
variable (L : Lib) (R : SerRec) (ρ : Path → Path)

/-- The implementations that the paths stand for. -/
def SerRec.at : SerRec := ⟨fun q => R.ser (ρ q), fun q => R.attrs (ρ q)⟩

theorem structAttrsBy_mapPaths (root : Attrs) (self : Val) (fds : List FieldDef) (vs : List Val) :
    structAttrsBy L R root self (fds.map (FieldDef.mapPaths ρ)) vs = structAttrsBy L (R.at ρ) root self fds vs := by
  induction fds generalizing vs with
  | nil => rw [structAttrsBy.eq_def, structAttrsBy.eq_def]; rfl
  | cons f fds ih =>
  cases vs with
  | nil => rw [structAttrsBy.eq_def, structAttrsBy.eq_def]; rfl
  | cons v vs =>
  rw [List.map_cons, structAttrsBy.eq_def, structAttrsBy.eq_def]
  dsimp only
  rw [ih vs]
  rcases f with ⟨i, ty, a, df, si⟩
  dsimp only [FieldDef.mapPaths]
  rcases ty with s | t | t | p
  · rfl
  · rcases t with s | t | t | p <;> cases v <;> rfl
  · cases v <;> rfl
  · rfl

theorem serItemsBy_mapPaths (p : Path) (flags : S Unit) (xs : List Val) :
    serItemsBy L R (ρ p) flags xs = serItemsBy L (R.at ρ) p flags xs := by
  induction xs with
  | nil => rfl
  | cons x xs ih => rw [serItemsBy, serItemsBy, ih]; rfl

theorem serOptItemsBy_mapPaths (t : FTy) (xs : List Val) :
    serOptItemsBy L R (t.mapPaths ρ) xs = serOptItemsBy L (R.at ρ) t xs := by
  induction xs with
  | nil => rw [serOptItemsBy, serOptItemsBy]
  | cons x xs ih =>
    rw [serOptItemsBy.eq_def, serOptItemsBy.eq_def]
    cases x
    case some x => dsimp only; rw [ih]; cases t <;> rfl
    all_goals exact ih

theorem serFieldsBy_mapPaths (root : Attrs) (self : Val) (fds : List FieldDef) (vs : List Val) :
    serFieldsBy L R root self (fds.map (FieldDef.mapPaths ρ)) vs = serFieldsBy L (R.at ρ) root self fds vs := by
  induction fds generalizing vs with
  | nil => rw [serFieldsBy.eq_def, serFieldsBy.eq_def]; rfl
  | cons f fds ih =>
  cases vs with
  | nil => rw [serFieldsBy.eq_def, serFieldsBy.eq_def]; rfl
  | cons v vs =>
  rw [List.map_cons, serFieldsBy.eq_def, serFieldsBy.eq_def]
  dsimp only
  rw [ih vs]
  congr 1
  rcases f with ⟨i, ty, a, df, si⟩
  dsimp only [FieldDef.mapPaths]
  rcases ty with s | t | t | p
  · rfl
  · rcases t with s | t | t | p
    · cases v <;> rfl
    · cases v <;> rfl
    · rcases t with s | t | t | p
      · cases v
        case some x => cases x <;> rfl
        all_goals rfl
      · cases v <;> rfl
      · cases v <;> rfl
      · cases v <;> rfl
    · cases v <;> rfl
  · rcases t with s | t | t | p
    · cases v <;> rfl
    · cases v
      case vec xs => dsimp only [FTy.mapPaths]; rw [serOptItemsBy_mapPaths]; rfl
      all_goals rfl
    · cases v <;> rfl
    · cases v
      case vec xs => dsimp only [FTy.mapPaths]; rw [serItemsBy_mapPaths]; rfl
      all_goals rfl
  · rfl

theorem serVariantItemsBy_mapPaths (label : Str) (t : FTy) (xs : List Val) :
    serVariantItemsBy L R label (t.mapPaths ρ) xs = serVariantItemsBy L (R.at ρ) label t xs := by
  induction xs with
  | nil => rw [serVariantItemsBy, serVariantItemsBy]
  | cons x xs ih =>
    rw [serVariantItemsBy.eq_def, serVariantItemsBy.eq_def]
    dsimp only
    rw [ih]
    rcases t with s | t | t | p
    · cases s <;> rfl
    all_goals rfl

theorem serVariantBy_mapPaths (root : Attrs) (vd : VariantDef) (pl : List Val) :
    serVariantBy L R root (vd.mapPaths ρ) pl = serVariantBy L (R.at ρ) root vd pl := by
  rcases vd with ⟨x, a, sh⟩
  rw [serVariantBy.eq_def, serVariantBy.eq_def]
  dsimp only [VariantDef.mapPaths]
  rcases sh with _ | t | fs
  · rfl
  · rcases pl with _ | ⟨v, pl⟩
    · rcases t with s | t | t | p
      · rfl
      · rcases t with s | t | t | p
        · cases s <;> rfl
        all_goals rfl
      · rfl
      · rfl
    · rcases t with s | t | t | p
      · rfl
      · rcases t with s | t | t | p
        · cases s <;> cases v <;> rfl
        all_goals cases v <;> rfl
      · cases v
        case vec xs => dsimp only [VShape.mapPaths, FTy.mapPaths]; rw [serVariantItemsBy_mapPaths]
        all_goals rfl
      · rfl
  · rfl

theorem serNamedBy_mapPaths (root : Attrs) (fds : List FieldDef) (vs : List Val) :
    serNamedBy L R root (fds.map (FieldDef.mapPaths ρ)) vs = serNamedBy L (R.at ρ) root fds vs := by
  induction fds generalizing vs with
  | nil => rw [serNamedBy.eq_def, serNamedBy.eq_def]; rfl
  | cons f fds ih =>
  cases vs with
  | nil => rw [serNamedBy.eq_def, serNamedBy.eq_def]; rfl
  | cons v vs =>
  rw [List.map_cons, serNamedBy.eq_def, serNamedBy.eq_def]
  dsimp only
  rw [ih vs]
  congr 1
  rcases f with ⟨i, ty, a, df, si⟩
  dsimp only [FieldDef.mapPaths]
  rcases ty with s | t | t | p
  · rfl
  · cases v <;> rfl
  · rcases t with s | t | t | p
    · cases v <;> rfl
    · cases v <;> rfl
    · cases v <;> rfl
    · cases v
      case vec xs => dsimp only [FTy.mapPaths]; rw [serItemsBy_mapPaths]; rfl
      all_goals rfl
  · rfl

theorem serTyBy_mapPaths (env env' : Env) (p p' : Path) (b : TypeDef) (h : env p = some (b.mapPaths ρ)) (h' : env' p' = some b) (v : Val) :
    serTyBy L env R p v = serTyBy L env' (R.at ρ) p' v ∧ attrsOfBy L env R p v = attrsOfBy L env' (R.at ρ) p' v := by
  unfold serTyBy attrsOfBy
  rw [h, h']
  rcases b with d | d | d
  · dsimp only [TypeDef.mapPaths]
    cases v
    case struct fs =>
      dsimp only
      rw [structAttrsBy_mapPaths, serFieldsBy_mapPaths]
      exact ⟨rfl, rfl⟩
    all_goals exact ⟨rfl, rfl⟩
  · dsimp only [TypeDef.mapPaths]
    cases v
    case enum i pl =>
      dsimp only
      rw [List.getElem?_map]
      rcases d.variants[i]? with _ | vd
      · exact ⟨rfl, rfl⟩
      · rcases vd with ⟨x, a, sh⟩
        have hv := serVariantBy_mapPaths L R ρ d.attrs ⟨x, a, sh⟩ pl
        rcases sh with _ | t | fs
        · exact ⟨rfl, rfl⟩
        · refine ⟨?_, rfl⟩
          dsimp only [Option.map, VariantDef.mapPaths, VShape.mapPaths] at hv ⊢
          rw [hv]
          rfl
        · refine ⟨?_, rfl⟩
          dsimp only [Option.map, VariantDef.mapPaths, VShape.mapPaths]
          rw [serNamedBy_mapPaths]
          rfl
    all_goals exact ⟨rfl, rfl⟩
  · exact ⟨rfl, rfl⟩

end

/-! #### One definition, two programs -/

theorem FTy.leads_of_core {t : FTy} {q : Path} (h : t.core = .struct q) : t.Leads q := by
  rcases t with s | t | t | p
  · cases h
  · cases (h : t = .struct q); exact .opt .here
  · cases (h : t = .struct q); exact .vec .here
  · cases h; exact .here

theorem TypeDef.Mentions.contains {t : TypeDef} {q : Path} (h : t.Mentions q) : t.Contains q := by
  cases t with
  | struct d => obtain ⟨f, hf, hc⟩ := h; exact ⟨f, hf, FTy.leads_of_core hc⟩
  | enum d => obtain ⟨v, hv, t, ht, hc⟩ := h; exact ⟨v, hv, .inl ⟨t, ht, FTy.leads_of_core hc⟩⟩
  | prim d => exact h

/-- The deserializer of a definition. -/
def deserDef (L : Lib) (rec : Path → D Val) (n : Nat) : TypeDef → D Val
  | .struct d => structDeser L rec n d
  | .enum d => enumDeser L rec n d
  | .prim d => primDeser d

theorem deserDef_congr (L : Lib) {rec rec' : Path → D Val} (n : Nat) (b : TypeDef) (h : ∀ q, b.Contains q → rec q = rec' q) :
    deserDef L rec n b = deserDef L rec' n b := by
  have hrel : ∀ q, b.Mentions q → Rel (fun _ => True) (fun _ => True) (rec q) (rec' q) := by
    intro q hq rd _
    rw [h q hq.contains]
    exact ⟨rfl, fun _ _ _ => trivial⟩
  cases b with
  | struct d =>
    have hs : StrSame L rec rec' d := by
      intro f hf _ q hc s
      unfold fromStr
      rw [h q ⟨f, hf, FTy.leads_of_core hc⟩]
    funext rd
    exact (structDeser_rel Steady.all n d hs (fun named sd st _ => structLoop_rel Steady.all n d
      (fun f hf _ _ q hc => hrel q ⟨f, hf, hc⟩) hs named sd n st) rd trivial).1
  | enum d =>
    funext rd
    exact (enumDeser_rel Steady.all n d (fun v hv t ht q hc => hrel q ⟨v, hv, t, ht, hc⟩) rd trivial).1
  | prim d => rfl

theorem deserDef_mapPaths (L : Lib) {rec rec' : Path → D Val} (ρ : Path → Path) (n : Nat) (b : TypeDef)
    (h : ∀ q, b.Contains q → rec q = rec' (ρ q)) (ha : ∀ q, b.AttrType q → structId (ρ q) = structId q) :
    deserDef L rec n b = deserDef L rec' n (b.mapPaths ρ) := by
  rw [deserDef_congr L n b h]
  cases b with
  | struct d => exact (structDeser_mapPaths L rec' ρ (d := d) (fun f hf hfa q hq => ha q ⟨f, hf, hfa, hq⟩) n).symm
  | enum d => exact (enumDeser_mapPaths L rec' ρ n d).symm
  | prim d => rfl

theorem deser_def {L : Lib} {env : Env} {n : Nat} {p : Path} {b : TypeDef} (h : env p = some b) :
    deser L env (n + 1) p = deserDef L (deser L env n) n b := by
  rw [deser, h]
  cases b <;> rfl

theorem deserG_def {L : Lib} {P : GProg} {n : Nat} {t : GTy} {b : TypeDef} {arg : Path → GTy} (h : P.inst t = some (b, arg)) :
    deserG L P (n + 1) t = deserDef L (fun q => deserG L P n (arg q)) n b := by
  rw [deserG, h]
  cases b <;> rfl

/-- One definition under two names, in terms of implementations that agree on what it contains. -/
theorem serDef_mapPaths (L : Lib) (R R' : SerRec) (ρ : Path → Path) (env env' : Env) (p p' : Path) (b : TypeDef)
    (h : env p = some b) (h' : env' p' = some (b.mapPaths ρ))
    (hs : ∀ q x, b.Contains q → R.ser q x = R'.ser (ρ q) x) (ha : ∀ q x, b.Contains q → R.attrs q x = R'.attrs (ρ q) x) (v : Val) :
    serTyBy L env R p v = serTyBy L env' R' p' v ∧ attrsOfBy L env R p v = attrsOfBy L env' R' p' v := by
  have h1 := serTyBy_congr (P := fun q _ => b.Contains q) (R := R) (R' := R'.at ρ) L env p v ⟨hs, ha⟩ (by
    intro t q x ht hb
    rw [h] at ht
    cases ht
    exact below_contains hb)
  have h2 := serTyBy_mapPaths L R' ρ env' env p' p b h' h v
  exact ⟨h1.1.trans h2.1.symm, h1.2.trans h2.2.symm⟩

/-! #### Types without parameters -/

mutual
  theorem GTy.subst_of_not_has {s : Str → Option GTy} (t : GTy) (h : ∀ x, t.has x = true → s x = none) : t.subst s = t := by
    cases t with
    | app segs args =>
    rw [GTy.subst.eq_def]
    split
    · rename_i x heq
      cases heq
      rw [h x (by simp [GTy.has])]
      rfl
    · rename_i segs' args' _ heq
      cases heq
      rw [GTy.substL_of_not_has args fun x hx => h x (by rw [GTy.has, hx, Bool.or_true])]
  theorem GTy.substL_of_not_has {s : Str → Option GTy} (ts : List GTy) (h : ∀ x, GTy.hasL x ts = true → s x = none) :
      GTy.substL s ts = ts := by
    cases ts with
    | nil => rw [GTy.substL]
    | cons t ts =>
      rw [GTy.substL, GTy.subst_of_not_has t fun x hx => h x (by rw [GTy.hasL, hx, Bool.true_or]),
        GTy.substL_of_not_has ts fun x hx => h x (by rw [GTy.hasL, hx, Bool.or_true])]
end

theorem GDef.arg_none {g : GDef} {args : List GTy} {x : Str} (h : x ∉ g.params) : g.arg args x = none := by
  unfold GDef.arg
  rw [List.find?_eq_none.2]
  · rfl
  · rintro ⟨y, t⟩ hy he
    exact h (eq_of_beq he ▸ (List.of_mem_zip hy).1)

theorem TypeDef.AttrType.visitor {t : TypeDef} {q : Path} (h : t.AttrType q) : t.VisitorType q := by
  cases t <;> first | exact h | exact h.elim

theorem TypeDef.AttrType.contains {t : TypeDef} {q : Path} (h : t.AttrType q) : t.Contains q := by
  cases t with
  | struct d => obtain ⟨f, hf, _, hc⟩ := h; exact ⟨f, hf, FTy.leads_of_core hc⟩
  | enum d => exact h.elim
  | prim d => exact h.elim

/-! #### Arguments for parameters -/

theorem zip_find {ps : List Str} {as : List GTy} {i : Nat} {x : Str} {t : GTy} (hx : ps[i]? = some x)
    (hfirst : ∀ j, j < i → ps[j]? ≠ some x) (ht : as[i]? = some t) :
    ((ps.zip as).find? fun e => e.1 == x).map Prod.snd = some t := by
  induction ps generalizing as i with
  | nil => cases hx
  | cons p ps ih =>
    cases as with
    | nil => cases ht
    | cons a as =>
      cases i with
      | zero =>
        simp only [List.getElem?_cons_zero, Option.some.injEq] at hx ht
        subst hx ht
        simp
      | succ i =>
        simp only [List.getElem?_cons_succ] at hx ht
        have h0 := hfirst 0 (Nat.succ_pos i)
        simp only [List.getElem?_cons_zero, ne_eq, Option.some.injEq] at h0
        rw [List.zip_cons_cons, List.find?_cons_of_neg (by simpa using h0)]
        refine ih hx (fun j hj => ?_) ht
        have := hfirst (j + 1) (by omega)
        rwa [List.getElem?_cons_succ] at this

theorem exists_first {ps : List Str} {x : Str} (h : x ∈ ps) : ∃ i : Nat, ps[i]? = some x ∧ ∀ j : Nat, j < i → ps[j]? ≠ some x := by
  induction ps with
  | nil => cases h
  | cons p ps ih =>
    by_cases hp : p = x
    · exact ⟨0, by rw [hp]; rfl, fun j hj => absurd hj (by omega)⟩
    · have hm : x ∈ ps := by
        rcases List.mem_cons.1 h with h | h
        · exact absurd h.symm hp
        · exact h
      obtain ⟨i, hi, hf⟩ := ih hm
      refine ⟨i + 1, by rwa [List.getElem?_cons_succ], fun j hj => ?_⟩
      cases j with
      | zero => simpa using hp
      | succ j => rw [List.getElem?_cons_succ]; exact hf j (by omega)

mutual
  theorem GTy.Put.subst {g : GDef} {as : List GTy} : ∀ {t u : GTy}, GTy.Put g.params as t u → t.subst (g.arg as) = u
    | _, _, .param (x := x) (t := t) hx hf ht => by
      rw [GTy.subst, GDef.arg, zip_find hx hf ht]
      rfl
    | _, _, .other hx => by
      rw [GTy.subst, GDef.arg_none hx]
      rfl
    | .app segs ts, _, .app (us := us) hs h => by
      rw [GTy.subst.eq_2 _ _ _ (by rintro x rfl rfl; exact hs.elim (fun h => h rfl) fun h => h rfl), GTy.PutL.subst h]
  theorem GTy.PutL.subst {g : GDef} {as : List GTy} : ∀ {ts us : List GTy}, GTy.PutL g.params as ts us → GTy.substL (g.arg as) ts = us
    | _, _, .nil => by rw [GTy.substL]
    | _, _, .cons h hs => by rw [GTy.substL, GTy.Put.subst h, GTy.PutL.subst hs]
end

mutual
  theorem GTy.put_subst {g : GDef} {as : List GTy} (hl : g.params.length = as.length) (t : GTy) : GTy.Put g.params as t (t.subst (g.arg as)) := by
    cases t with
    | app segs ts =>
    rw [GTy.subst.eq_def]
    split
    · rename_i x heq
      cases heq
      by_cases hx : x ∈ g.params
      · obtain ⟨i, hi, hf⟩ := exists_first hx
        obtain ⟨hlt, _⟩ := List.getElem?_eq_some_iff.1 hi
        have ht : as[i]? = some (as[i]'(hl ▸ hlt)) := List.getElem?_eq_getElem _
        have he : g.arg as x = some (as[i]'(hl ▸ hlt)) := zip_find hi hf ht
        rw [he]
        exact .param hi hf ht
      · rw [GDef.arg_none hx]
        exact .other hx
    · rename_i segs' ts' hne heq
      cases heq
      refine .app ?_ (GTy.putL_subst hl ts)
      by_cases h1 : segs.length = 1
      · obtain ⟨x, rfl⟩ := List.length_eq_one_iff.1 h1
        exact .inr fun h => hne x rfl h
      · exact .inl h1
  theorem GTy.putL_subst {g : GDef} {as : List GTy} (hl : g.params.length = as.length) (ts : List GTy) :
      GTy.PutL g.params as ts (GTy.substL (g.arg as) ts) := by
    cases ts with
    | nil => rw [GTy.substL]; exact .nil
    | cons t ts => rw [GTy.substL]; exact .cons (GTy.put_subst hl t) (GTy.putL_subst hl ts)
end

theorem inst_some {P : GProg} {segs : Path} {as : List GTy} {g : GDef} (hg : P segs = some g) (hl : g.params.length = as.length) :
    P.inst (.app segs as) = some (g.body as, fun q => (g.written q).subst (g.arg as)) := by
  rw [GProg.inst, hg]
  dsimp only
  rw [if_pos hl]

theorem of_inst {P : GProg} {segs : Path} {as : List GTy} {b : TypeDef} {arg : Path → GTy} (h : P.inst (.app segs as) = some (b, arg)) :
    ∃ g, P segs = some g ∧ g.params.length = as.length ∧ b = g.body as ∧ arg = fun q => (g.written q).subst (g.arg as) := by
  rw [GProg.inst] at h
  cases hg : P segs with
  | none => rw [hg] at h; cases h
  | some g =>
    rw [hg] at h
    dsimp only at h
    split at h
    · rename_i hl
      cases h
      exact ⟨g, rfl, hl, rfl, rfl⟩
    · cases h

/-- Where the code compiles, the types of attributes are the same in all instances. -/
theorem attr_same {g : GDef} (hg : g.DeCompiles) {as : List GTy} {q : Path} (hq : (g.body as).AttrType q) :
    (g.written q).subst (g.arg as) = g.written q :=
  GTy.subst_of_not_has _ fun x hx => GDef.arg_none fun hp => by
    rw [hg as q x hq.visitor hp] at hx
    cases hx

/-! #### Numbers for types -/

mutual
  /-- The type as a list of tokens. -/
  def GTy.toks : GTy → List (Nat × Str)
    | .app segs args => (1, []) :: (segs.map (Prod.mk 0) ++ (GTy.toksL args ++ [(2, [])]))
  def GTy.toksL : List GTy → List (Nat × Str)
    | [] => []
    | t :: ts => t.toks ++ GTy.toksL ts
end

theorem GTy.toks_head (t : GTy) : ∃ r, t.toks = (1, []) :: r := by cases t; exact ⟨_, by rw [GTy.toks]⟩

theorem GTy.toksL_head (ts : List GTy) (r : List (Nat × Str)) : ∃ k x r', GTy.toksL ts ++ (2, []) :: r = (k, x) :: r' ∧ k ≠ 0 := by
  cases ts with
  | nil => exact ⟨2, [], r, by rw [GTy.toksL]; rfl, by decide⟩
  | cons t ts =>
    obtain ⟨u, hu⟩ := t.toks_head
    exact ⟨1, [], u ++ GTy.toksL ts ++ (2, []) :: r, by rw [GTy.toksL, hu]; simp, by decide⟩

theorem segs_inj (a b : Path) (k k' : Nat) (x x' : Str) (r r' : List (Nat × Str)) (hk : k ≠ 0) (hk' : k' ≠ 0)
    (h : a.map (Prod.mk 0) ++ (k, x) :: r = b.map (Prod.mk 0) ++ (k', x') :: r') : a = b ∧ (k, x) :: r = (k', x') :: r' := by
  induction a generalizing b with
  | nil =>
    cases b with
    | nil => exact ⟨rfl, h⟩
    | cons y b => simp at h; exact absurd h.1.1 hk
  | cons y a ih =>
    cases b with
    | nil => simp at h; exact absurd h.1.1.symm hk'
    | cons z b =>
      simp only [List.map_cons, List.cons_append, List.cons.injEq, Prod.mk.injEq, true_and] at h
      obtain ⟨rfl, h⟩ := h
      obtain ⟨rfl, h2⟩ := ih b h
      exact ⟨rfl, h2⟩

mutual
  theorem GTy.toks_inj (t t' : GTy) (r r' : List (Nat × Str)) (h : t.toks ++ r = t'.toks ++ r') : t = t' ∧ r = r' := by
    cases t with
    | app segs args =>
    cases t' with
    | app segs' args' =>
    rw [GTy.toks, GTy.toks] at h
    simp only [List.cons_append, List.append_assoc, List.nil_append, List.cons.injEq, true_and] at h
    obtain ⟨k, x, u, hu, hk⟩ := GTy.toksL_head args r
    obtain ⟨k', x', u', hu', hk'⟩ := GTy.toksL_head args' r'
    rw [hu, hu'] at h
    obtain ⟨rfl, h2⟩ := segs_inj _ _ _ _ _ _ _ _ hk hk' h
    rw [← hu, ← hu'] at h2
    obtain ⟨rfl, rfl⟩ := GTy.toksL_inj args args' r r' h2
    exact ⟨rfl, rfl⟩
  theorem GTy.toksL_inj (ts ts' : List GTy) (r r' : List (Nat × Str))
      (h : GTy.toksL ts ++ (2, []) :: r = GTy.toksL ts' ++ (2, []) :: r') : ts = ts' ∧ r = r' := by
    cases ts with
    | nil =>
      cases ts' with
      | nil => rw [GTy.toksL] at h; simp at h; exact ⟨rfl, h⟩
      | cons t' ts' =>
        obtain ⟨u, hu⟩ := t'.toks_head
        rw [GTy.toksL, GTy.toksL, hu] at h
        simp at h
    | cons t ts =>
      cases ts' with
      | nil =>
        obtain ⟨u, hu⟩ := t.toks_head
        rw [GTy.toksL, GTy.toksL, hu] at h
        simp at h
      | cons t' ts' =>
        rw [GTy.toksL, GTy.toksL, List.append_assoc, List.append_assoc] at h
        obtain ⟨rfl, h2⟩ := GTy.toks_inj t t' _ _ h
        obtain ⟨rfl, h3⟩ := GTy.toksL_inj ts ts' r r' h2
        exact ⟨rfl, h3⟩
end

instance : Countable GTy := by
  have : Countable Char := Function.Injective.countable (f := Char.toNat) fun _ _ h => Char.ext (UInt32.ext h)
  have : Countable Str := inferInstanceAs (Countable (List Char))
  exact Function.Injective.countable (f := GTy.toks) fun t t' h => (GTy.toks_inj t t' [] [] (by rw [h])).1

end Yaserde
