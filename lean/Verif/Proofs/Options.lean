import Verif.Spec.Options
import Verif.Proofs.Twin
import Verif.Proofs.Levels
import Verif.Proofs.VecSlots
/-
The generated code of definitions that are read alike, or written alike.
-/

set_option autoImplicit false

namespace Yaserde

theorem forall₂_findIdx? {α β : Type} {R : α → β → Prop} {p : α → Bool} {q : β → Bool} (hpq : ∀ a b, R a b → p a = q b)
    {as : List α} {bs : List β} (h : List.Forall₂ R as bs) : as.findIdx? p = bs.findIdx? q := by
  induction h with
  | nil => rfl
  | cons hab _ ih => rw [List.findIdx?_cons, List.findIdx?_cons, hpq _ _ hab, ih]

theorem forall₂_any {α β : Type} {R : α → β → Prop} {p : α → Bool} {q : β → Bool} (hpq : ∀ a b, R a b → p a = q b)
    {as : List α} {bs : List β} (h : List.Forall₂ R as bs) : as.any p = bs.any q := by
  induction h with
  | nil => rfl
  | cons hab _ ih => rw [List.any_cons, List.any_cons, hpq _ _ hab, ih]

theorem forall₂_map_eq {α β γ : Type} {R : α → β → Prop} {p : α → γ} {q : β → γ} (hpq : ∀ a b, R a b → p a = q b)
    {as : List α} {bs : List β} (h : List.Forall₂ R as bs) : as.map p = bs.map q := by
  induction h with
  | nil => rfl
  | cons hab _ ih => rw [List.map_cons, List.map_cons, hpq _ _ hab, ih]

section
variable (L : Lib) (rec : Path → D Val)

namespace FieldDef.ReadAlike
variable {f g : FieldDef} (h : f.ReadAlike g)
include h

theorem arm (a b : Attrs) (hn : a.namespaces = b.namespaces) (ns loc : Str) :
    (!f.attrs.isAttr && !f.attrs.flatten && f.prefixNs a == ns && f.label == loc) =
      (!g.attrs.isAttr && !g.attrs.flatten && g.prefixNs b == ns && g.label == loc) := by
  rw [← h.isAttr]
  rcases ha : f.attrs.isAttr with _ | _
  · rw [← h.flatten ha]
    rcases hf : f.attrs.flatten with _ | _
    · unfold FieldDef.prefixNs FieldDef.label
      rw [h.pfx ha hf, h.label (.inr hf), hn]
    · rfl
  · rfl

theorem text_eq (t : Str) (s : Slot) :
    (if f.attrs.text then
      match f.ty with
      | .simple .string => .one (some (.str t))
      | .opt (.simple .string) => if t.isEmpty then .one none else .one (some (.str t))
      | _ => s
     else s : Slot) =
    (if g.attrs.text then
      match g.ty with
      | .simple .string => .one (some (.str t))
      | .opt (.simple .string) => if t.isEmpty then .one none else .one (some (.str t))
      | _ => s
     else s : Slot) := by
  rw [h.text, h.ty]

theorem load (attrs : List Attr) (s : Slot) :
    (if f.attrs.isAttr then loadAttrField L rec f attrs s else .ok s) =
      (if g.attrs.isAttr then loadAttrField L rec g attrs s else .ok s) := by
  rw [← h.isAttr]
  rcases ha : f.attrs.isAttr with _ | _
  · rfl
  · rw [if_pos rfl, if_pos rfl]
    unfold loadAttrField FieldDef.label
    rw [h.label (.inl ha), h.ty]

theorem visitor {a b : Attrs} (hn : a.namespaces = b.namespaces) (ha : f.attrs.isAttr = false) (hf : f.attrs.flatten = false)
    (i : Nat) (name : Name) (st : LoopSt) : callVisitor L rec a f i name st = callVisitor L rec b g i name st := by
  unfold callVisitor callSimple simpleInner FieldDef.label
  rw [h.ty, h.label (.inr hf), h.pfx ha hf, hn]

theorem flat (unused : Str) (s : Slot) : flattenField L rec unused f s = flattenField L rec unused g s := by
  unfold flattenField
  rw [← h.isAttr, ← h.ty]
  rcases ha : f.attrs.isAttr with _ | _
  · rw [h.flatten ha]
  · rfl

theorem build (name : Str) {s : Slot} (hs : SlotVec f.ty s) : buildField name f s = buildField name g s := by
  have h1 := h.ty
  have h2 := h.absent
  clear h
  rcases f with ⟨i, ty, a, df, si⟩
  rcases g with ⟨i', ty', a', df', si'⟩
  dsimp only at h1 h2 hs
  subst h1
  by_cases hm : ty.neverMissing = true
  · rcases ty with t | t | t | p
    · cases hm
    · rcases s with (_ | v) | vs <;> rfl
    · obtain ⟨vs, rfl⟩ := hs _ rfl
      rfl
    · cases hm
  · obtain ⟨hd, hi⟩ := h2 (by simpa using hm)
    clear h2
    rcases df with _ | d <;> rcases df' with _ | d' <;> simp only [Option.map_none, Option.map_some, reduceCtorEq, Option.some.injEq] at hd
    · cases hi rfl
      rcases ty with t | t | t | p <;> rcases s with (_ | v) | vs <;> rfl
    · rcases ty with t | t | t | p <;> rcases s with (_ | v) | vs <;> first | rfl | exact congrArg Res.ok hd

end FieldDef.ReadAlike

section
variable {fs gs : List FieldDef} (h : List.Forall₂ FieldDef.ReadAlike fs gs)
include h

theorem setText_alike (t : Str) (ss : List Slot) : setText fs t ss = setText gs t ss := by
  induction h generalizing ss with
  | nil => rfl
  | cons hfg _ ih =>
    cases ss with
    | nil => rfl
    | cons s ss =>
      rw [setText, setText, ih]
      congr 1
      exact hfg.text_eq t s

theorem loadAttrs_alike (attrs : List Attr) (ss : List Slot) : loadAttrs L rec fs attrs ss = loadAttrs L rec gs attrs ss := by
  induction h generalizing ss with
  | nil => rfl
  | cons hfg _ ih =>
    cases ss with
    | nil => rfl
    | cons s ss => rw [loadAttrs, loadAttrs, hfg.load, ih]

theorem flattenFields_alike (unused : Str) (ss : List Slot) :
    flattenFields L rec unused fs ss = flattenFields L rec unused gs ss := by
  induction h generalizing ss with
  | nil => rfl
  | cons hfg _ ih =>
    cases ss with
    | nil => rfl
    | cons s ss => rw [flattenFields, flattenFields, hfg.flat, ih]

theorem buildFields_alike (name : Str) (ss : List Slot) (hs : SlotsVec fs ss) : buildFields name fs ss = buildFields name gs ss := by
  induction h generalizing ss with
  | nil => rfl
  | cons hfg _ ih =>
    cases ss with
    | nil => rfl
    | cons s ss => rw [buildFields, buildFields, hfg.build name hs.1, ih ss hs.2]

end

section
variable {d d' : StructDef} (ha : d.attrs.ReadAlike d'.attrs) (hn : d.name = d'.name) (hr : d.attrs.rename = d'.attrs.rename)
  (hf : List.Forall₂ FieldDef.ReadAlike d.fields d'.fields)

include hf in
theorem hasFlat_alike : d.hasFlat = d'.hasFlat := by
  unfold StructDef.hasFlat
  refine forall₂_any (fun f g h => ?_) hf
  rw [← h.isAttr]
  rcases hi : f.attrs.isAttr with _ | _
  · rw [h.flatten hi]
  · rfl

include ha hn hr hf

theorem structStart_alike (fuel : Nat) (st : LoopSt) (name : Name) (attrs : List Attr) :
    structStart L rec fuel d st name attrs = structStart L rec fuel d' st name attrs := by
  unfold structStart
  have hx : d.attrs.xmlElementName d.name = d'.attrs.xmlElementName d'.name := by unfold Attrs.xmlElementName; rw [hr, hn]
  have hns : d.attrs.rootNamespace = d'.attrs.rootNamespace := by unfold Attrs.rootNamespace; rw [ha.namespaces, ha.pfx]
  simp only [hasFlat_alike hf, loadAttrs_alike L rec hf, hx, hns]
  congr 1
  congr 1
  have hfind : findArm d.attrs (name.ns.getD []) name.loc d.fields = findArm d'.attrs (name.ns.getD []) name.loc d'.fields := by
    unfold findArm
    exact forall₂_findIdx? (fun f g h => h.arm _ _ ha.namespaces _ _) hf
  rw [← hfind]
  rcases hi : findArm d.attrs (name.ns.getD []) name.loc d.fields with _ | i
  · rfl
  · dsimp only
    rcases forall₂_getElem? hf i with ⟨h1, h2⟩ | ⟨f, g, h1, h2, h3⟩
    · rw [h1, h2]
    · rw [h1, h2]
      dsimp only
      obtain ⟨hlt, hp, _⟩ := List.findIdx?_eq_some_iff_getElem.1 hi
      have hfi : d.fields[i] = f := by
        rw [List.getElem?_eq_getElem hlt] at h1
        exact Option.some.inj h1
      rw [hfi] at hp
      simp only [Bool.and_eq_true, Bool.not_eq_true'] at hp
      exact h3.visitor L rec ha.namespaces hp.1.1.1 hp.1.1.2 i name st

theorem structLoop_alike (skipFuel : Nat) (named : Str) (startDepth n : Nat) (st : LoopSt) :
    structLoop L rec skipFuel d named startDepth n st = structLoop L rec skipFuel d' named startDepth n st := by
  have hstep : ∀ st, structStep L rec skipFuel d named startDepth st = structStep L rec skipFuel d' named startDepth st := by
    intro st
    unfold structStep
    simp only [structStart_alike L rec ha hn hr hf, hasFlat_alike hf, setText_alike hf, ha.flatten]
  induction n generalizing st with
  | zero => rfl
  | succ n ih =>
    rw [structLoop, structLoop, hstep]
    congr 1
    funext ⟨st', b⟩
    dsimp only
    rw [ih st']

theorem structDeser_alike (fuel : Nat) : structDeser L rec fuel d = structDeser L rec fuel d' := by
  unfold structDeser structBody
  have hx : d.attrs.xmlElementName d.name = d'.attrs.xmlElementName d'.name := by unfold Attrs.xmlElementName; rw [hr, hn]
  have hs : d.fields.map (fun f => Slot.init f.ty) = d'.fields.map (fun f => Slot.init f.ty) :=
    forall₂_map_eq (fun f g h => by rw [h.ty]) hf
  simp only [← structLoop_alike L rec ha hn hr hf, ← hasFlat_alike hf, ← flattenFields_alike L rec hf, ← hx, ← hs,
    ← ha.namespaces, ← ha.pfx]
  congr 1
  funext e
  congr 1
  funext rd
  congr 1
  funext _
  refine Yields.congr (structLoop_vec L rec fuel d _ _ fuel (slotsVec_init d.fields)) fun st hst => ?_
  refine Yields.congr (Q := SlotsVec d.fields) ?_ fun ss hss => ?_
  · split
    · exact Yields.lift (flattenFields_vec L rec _ hst)
    · exact Yields.pure hst
  · rw [buildFields_alike hf d.name ss hss, hn]

end

section
variable {d d' : EnumDef} (ha : d.attrs.ReadAlike d'.attrs) (ht : d.attrs.tag = d'.attrs.tag)
  (hn : d.attrs.rename.getD d.name = d'.attrs.rename.getD d'.name) (hd : d.dflt = d'.dflt)
  (hv : List.Forall₂ VariantDef.ReadAlike d.variants d'.variants)

include hv in
theorem enumMatch_alike (key : Str) (cur : Option Val) (dflt : D (Option Val × Bool)) :
    enumMatch L rec d key cur dflt = enumMatch L rec d' key cur dflt := by
  unfold enumMatch
  have hfind : findVariant key d.variants = findVariant key d'.variants := by
    unfold findVariant
    refine forall₂_findIdx? (fun v w h => ?_) hv
    unfold Attrs.xmlElementName
    rw [h.label]
    rcases v with ⟨x, a, sh⟩
    rcases w with ⟨y, b, sh'⟩
    obtain ⟨_, hs⟩ := h
    cases hs <;> rfl
  rw [← hfind]
  rcases findVariant key d.variants with _ | i
  · rfl
  · dsimp only
    rcases forall₂_getElem? hv i with ⟨h1, h2⟩ | ⟨v, w, h1, h2, h3⟩
    · rw [h1, h2]
    · rw [h1, h2]
      dsimp only
      rcases v with ⟨x, a, sh⟩
      rcases w with ⟨y, b, sh'⟩
      obtain ⟨_, hs⟩ := h3
      cases hs <;> rfl

include ha ht hn hd hv

theorem enumDeser_alike (fuel : Nat) : enumDeser L rec fuel d = enumDeser L rec fuel d' := by
  have hstep : ∀ named startDepth cur, enumStep L rec d named startDepth cur = enumStep L rec d' named startDepth cur := by
    intro named startDepth cur
    unfold enumStep enumKey
    simp only [enumMatch_alike L rec hv, ha.flatten, ht]
  have hloop : ∀ named startDepth n cur, enumLoop L rec d named startDepth n cur = enumLoop L rec d' named startDepth n cur := by
    intro named startDepth n
    induction n with
    | zero => intro cur; rfl
    | succ n ih =>
      intro cur
      rw [enumLoop, enumLoop, hstep]
      congr 1
      funext ⟨cur', b⟩
      dsimp only
      rw [ih cur']
  unfold enumDeser enumBody Attrs.xmlElementName
  simp only [hloop, hn, hd, ha.namespaces, ha.pfx]

end

end

theorem deser_alike (L : Lib) {env env' : Env} (h : env.ReadAlike env') (n : Nat) (p : Path) : deser L env n p = deser L env' n p := by
  induction n generalizing p with
  | zero => rfl
  | succ n ih =>
    have ih' : deser L env n = deser L env' n := funext ih
    rw [deser, deser, ih']
    rcases h p with ⟨h1, h2⟩ | ⟨b, b', h1, h2, h3⟩
    · rw [h1, h2]
    · rw [h1, h2]
      cases h3 with
      | struct ha hn hr hf => exact structDeser_alike L _ ha hn hr hf n
      | enum ha ht hn hd hv => exact enumDeser_alike L _ ha ht hn hd hv n
      | prim hp =>
        dsimp only
        unfold primDeser
        rw [hp]

/-! #### Writing -/

namespace FieldDef.WriteAlike
variable {root root' : Attrs} {f g : FieldDef} (h : f.WriteAlike root root' g)
include h

theorem attrCondition_eq (ha : f.attrs.isAttr = true) (self v : Val) : attrCondition f self v = attrCondition g self v := by
  have h1 := h.dflt (.inl ha)
  unfold attrCondition
  rw [h.skipIf (.inl ha)]
  congr 1
  rcases hf : f.dflt with _ | d <;> rcases hg : g.dflt with _ | d' <;>
    simp only [hf, hg, Option.map_none, Option.map_some, reduceCtorEq, Option.some.injEq] at h1
  · rfl
  · dsimp only; rw [h1]

theorem serCondition_eq (ha : f.attrs.isAttr = false) (ht : f.attrs.text = false) (self v : Val) :
    serCondition f self v = serCondition g self v := by
  unfold serCondition
  rw [← h.skipSer ha ht]
  rcases hs : f.attrs.skipSer with _ | _
  · have h1 := h.dflt (.inr ⟨ht, hs⟩)
    rw [h.skipIf (.inr ⟨ht, hs⟩)]
    congr 1
    rcases hf : f.dflt with _ | d <;> rcases hg : g.dflt with _ | d' <;>
      simp only [hf, hg, Option.map_none, Option.map_some, reduceCtorEq, Option.some.injEq] at h1
    · rfl
    · dsimp only; rw [h1]
  · rfl

end FieldDef.WriteAlike

section
variable (L : Lib) (R : SerRec)

theorem structAttrsBy_alike {root root' : Attrs} {fs gs : List FieldDef} (h : List.Forall₂ (FieldDef.WriteAlike root root') fs gs)
    (self : Val) (vs : List Val) : structAttrsBy L R root self fs vs = structAttrsBy L R root' self gs vs := by
  induction h generalizing vs with
  | nil => rw [structAttrsBy.eq_def, structAttrsBy.eq_def]
  | @cons f g fs gs hfg _ ih =>
    cases vs with
    | nil => rw [structAttrsBy.eq_def, structAttrsBy.eq_def]
    | cons v vs =>
      rw [structAttrsBy.eq_def, structAttrsBy.eq_def L R root']
      dsimp only
      rw [ih vs, ← hfg.isAttr, ← hfg.ty]
      rcases ha : f.attrs.isAttr with _ | _
      · rw [hfg.flatten ha]
        rfl
      · have h1 : ∀ c s r, addOwn root f c s r = addOwn root' g c s r := by
          intro c s r
          unfold addOwn
          rw [hfg.label (.inl ha)]
        simp only [h1, hfg.attrCondition_eq ha]
        rfl

theorem serFieldsBy_alike {root root' : Attrs} {fs gs : List FieldDef} (h : List.Forall₂ (FieldDef.WriteAlike root root') fs gs)
    (self : Val) (vs : List Val) : serFieldsBy L R root self fs vs = serFieldsBy L R root' self gs vs := by
  induction h generalizing vs with
  | nil => rw [serFieldsBy.eq_def, serFieldsBy.eq_def]
  | @cons f g fs gs hfg _ ih =>
    cases vs with
    | nil => rw [serFieldsBy.eq_def, serFieldsBy.eq_def]
    | cons v vs =>
      rw [serFieldsBy.eq_def, serFieldsBy.eq_def L R root']
      dsimp only
      rw [ih vs]
      congr 1
      rw [← hfg.isAttr]
      rcases ha : f.attrs.isAttr with _ | _
      · simp only [Bool.false_eq_true, if_false]
        rw [← hfg.text ha]
        rcases ht : f.attrs.text with _ | _
        · simp only [Bool.false_eq_true, if_false]
          rw [← hfg.serCondition_eq ha ht]
          rcases hs : f.attrs.skipSer with _ | _
          · rw [← hfg.cdata ha ht hs, ← hfg.label (.inr ⟨ht, hs⟩), ← hfg.flatten ha, ← hfg.ty]
          · have hc : serCondition f self v = false := by unfold serCondition; rw [hs]; rfl
            rw [hc]
            rfl
        · rfl
      · rfl

theorem serNamedBy_alike {root root' : Attrs} {fs gs : List FieldDef}
    (h : List.Forall₂ (fun f g : FieldDef => f.ty = g.ty ∧ f.renamedLabel root = g.renamedLabel root') fs gs) (vs : List Val) :
    serNamedBy L R root fs vs = serNamedBy L R root' gs vs := by
  induction h generalizing vs with
  | nil => rw [serNamedBy.eq_def, serNamedBy.eq_def]
  | @cons f g fs gs hfg _ ih =>
    cases vs with
    | nil => rw [serNamedBy.eq_def, serNamedBy.eq_def]
    | cons v vs =>
      rw [serNamedBy.eq_def, serNamedBy.eq_def L R root']
      dsimp only
      rw [ih vs, hfg.1, hfg.2]

theorem implSerializer_alike {a b : Attrs} (h : a.WriteAlike b) (x : Str) (acc : Res AttrAcc) (inner : S Unit) :
    implSerializer a x acc inner = implSerializer b x acc inner := by
  unfold implSerializer namespacesDef
  rw [h.flatten, h.namespaces, h.defaultNs]

theorem serializeAttributes_alike {a b : Attrs} (h : a.WriteAlike b) (acc : Res AttrAcc) :
    serializeAttributes a acc = serializeAttributes b acc := by
  unfold serializeAttributes namespacesDef
  rw [h.namespaces, h.defaultNs]

theorem enumAttrs_alike {d d' : EnumDef} (ht : d.attrs.tag = d'.attrs.tag) {v w : VariantDef} (h : v.WriteAlike d.attrs d'.attrs w) :
    enumAttrs d v = enumAttrs d' w := by
  unfold enumAttrs Attrs.xmlElementName
  rw [← ht]
  rcases hd : d.attrs.tag with _ | t
  · rfl
  · dsimp only
    rw [h.tagged (by rw [hd]; simp)]

theorem serVariantBy_alike {root root' : Attrs} (ht : root.tag = root'.tag) {v w : VariantDef} (h : v.WriteAlike root root' w)
    (pl : List Val) :
    (match v.shape with
      | .named fds => serNamedBy L R root fds pl
      | _ => serVariantBy L R root v pl) =
    (match w.shape with
      | .named fds => serNamedBy L R root' fds pl
      | _ => serVariantBy L R root' w pl) := by
  have h1 := h.label
  have h2 := h.flatten
  have h3 := h.shape
  rcases v with ⟨x, a, sh⟩
  rcases w with ⟨y, b, sh'⟩
  dsimp only at h1 h2 h3
  cases h3 with
  | unit =>
    rw [serVariantBy.eq_def, serVariantBy.eq_def]
    dsimp only
    rw [h1, ht]
  | newtype =>
    rw [serVariantBy.eq_def, serVariantBy.eq_def]
    dsimp only
    rw [h1, h2, ht]
  | named hf => exact serNamedBy_alike L R hf pl

theorem serTyBy_alike {env env' : Env} (h : env.WriteAlike env') (p : Path) (v : Val) :
    serTyBy L env R p v = serTyBy L env' R p v := by
  unfold serTyBy
  rcases h p with ⟨h1, h2⟩ | ⟨b, b', h1, h2, h3⟩
  · rw [h1, h2]
  · rw [h1, h2]
    cases h3 with
    | struct ha hn hf =>
      cases v
      case struct fs => dsimp only; rw [structAttrsBy_alike L R hf, serFieldsBy_alike L R hf, hn, implSerializer_alike ha]
      all_goals rfl
    | enum ha hn ht hv =>
      cases v
      case enum i pl =>
        dsimp only
        rcases forall₂_getElem? hv i with ⟨h1, h2⟩ | ⟨x, y, h1, h2, h3⟩
        · rw [h1, h2]
        · rw [h1, h2]
          dsimp only
          have h4 := serVariantBy_alike L R ht h3 pl
          rw [enumAttrs_alike ht h3, hn, implSerializer_alike ha]
          exact congrArg _ h4
      all_goals rfl
    | prim hn ht hb =>
      dsimp only
      unfold serPrim
      rw [hn, ht, hb]

theorem attrsOfBy_alike {env env' : Env} (h : env.WriteAlike env') (p : Path) (v : Val) :
    attrsOfBy L env R p v = attrsOfBy L env' R p v := by
  unfold attrsOfBy
  rcases h p with ⟨h1, h2⟩ | ⟨b, b', h1, h2, h3⟩
  · rw [h1, h2]
  · rw [h1, h2]
    cases h3 with
    | struct ha hn hf =>
      cases v
      case struct fs => dsimp only; rw [structAttrsBy_alike L R hf, serializeAttributes_alike ha]
      all_goals rfl
    | enum ha hn ht hv =>
      cases v
      case enum i pl =>
        dsimp only
        rcases forall₂_getElem? hv i with ⟨h1, h2⟩ | ⟨x, y, h1, h2, h3⟩
        · rw [h1, h2]
        · rw [h1, h2]
          dsimp only
          rw [enumAttrs_alike ht h3, serializeAttributes_alike ha]
      all_goals rfl
    | prim hn ht hb => rfl

end

theorem serB_alike (L : Lib) {env env' : Env} (h : env.WriteAlike env') (user : SerImpls) (base : SerRec) (n : Nat) :
    serB L env user base n = serB L env' user base n := by
  induction n with
  | zero => rfl
  | succ n ih =>
    rw [serB, serB, ih]
    congr 1
    · funext p v
      rw [serTyBy_alike L _ h]
    · funext p v
      rw [attrsOfBy_alike L _ h]

theorem serTy_alike (L : Lib) {env env' : Env} (h : env.WriteAlike env') (p : Path) (v : Val) : serTy L env p v = serTy L env' p v := by
  have h1 := (serB_nests L env .diverge (v.levels + 1)).ser p v (nests_levels env _ p v (Nat.lt_succ_self _))
  have h2 := (serB_nests L env' .diverge (v.levels + 1)).ser p v (nests_levels env' _ p v (Nat.lt_succ_self _))
  rw [serB_alike L h] at h1
  exact h1.symm.trans h2

/-! #### Programs that differ in the fields of structs only -/

theorem readAlike_refl (b : TypeDef) : b.ReadAlike b := by
  have hsame : ∀ {α : Type} {R : α → α → Prop}, (∀ x, R x x) → ∀ l : List α, List.Forall₂ R l l := by
    intro α R hR l
    induction l with
    | nil => exact .nil
    | cons x l ih => exact .cons (hR x) ih
  rcases b with d | d | d
  · exact .struct ⟨rfl, rfl, rfl⟩ rfl rfl
      (hsame (fun f => ⟨rfl, rfl, rfl, fun _ => rfl, fun _ => rfl, fun _ _ => rfl, fun _ => ⟨rfl, fun _ => rfl⟩⟩) _)
  · refine .enum ⟨rfl, rfl, rfl⟩ rfl rfl rfl (hsame (fun v => ⟨rfl, ?_⟩) _)
    rcases v.shape with _ | t | fs <;> constructor
  · exact .prim rfl

theorem writeAlike_refl (b : TypeDef) : b.WriteAlike b := by
  have hsame : ∀ {α : Type} {R : α → α → Prop}, (∀ x, R x x) → ∀ l : List α, List.Forall₂ R l l := by
    intro α R hR l
    induction l with
    | nil => exact .nil
    | cons x l ih => exact .cons (hR x) ih
  rcases b with d | d | d
  · exact .struct ⟨rfl, rfl, rfl⟩ rfl
      (hsame (fun f => ⟨rfl, rfl, fun _ => rfl, fun _ => rfl, fun _ _ => rfl, fun _ _ _ => rfl, fun _ => rfl, fun _ => rfl, fun _ => rfl⟩) _)
  · refine .enum ⟨rfl, rfl, rfl⟩ rfl rfl (hsame (fun v => ⟨rfl, fun _ => rfl, rfl, ?_⟩) _)
    rcases v.shape with _ | t | fs
    · exact .unit
    · exact .newtype
    · exact .named (hsame (fun f => ⟨rfl, rfl⟩) _)
  · exact .prim rfl rfl rfl

theorem forall₂_map {α : Type} {R : α → α → Prop} {g : α → α} (h : ∀ x, R (g x) x) (l : List α) : List.Forall₂ R (l.map g) l := by
  induction l with
  | nil => exact .nil
  | cons x l ih => exact .cons (h x) ih

theorem mapFields_read {g : FieldDef → FieldDef} (h : ∀ f, (g f).ReadAlike f) (env : Env) : (env.mapFields g).ReadAlike env := by
  intro p
  unfold Env.mapFields
  rcases env p with _ | b
  · exact .inl ⟨rfl, rfl⟩
  · refine .inr ⟨_, b, rfl, rfl, ?_⟩
    rcases b with d | d | d
    · exact .struct ⟨rfl, rfl, rfl⟩ rfl rfl (forall₂_map h _)
    · exact readAlike_refl _
    · exact readAlike_refl _

theorem mapFields_write {g : FieldDef → FieldDef} (h : ∀ root f, (g f).WriteAlike root root f) (env : Env) :
    (env.mapFields g).WriteAlike env := by
  intro p
  unfold Env.mapFields
  rcases env p with _ | b
  · exact .inl ⟨rfl, rfl⟩
  · refine .inr ⟨_, b, rfl, rfl, ?_⟩
    rcases b with d | d | d
    · exact .struct ⟨rfl, rfl, rfl⟩ rfl (forall₂_map (h _) _)
    · exact writeAlike_refl _
    · exact writeAlike_refl _

end Yaserde
