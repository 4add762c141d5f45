import Verif.Proofs.EncOk
/-
The encoding of a struct that survives a round trip, field by field.
-/

set_option autoImplicit false

namespace Yaserde

open Classical

/-- The values inside an `Option` or `Vec`. -/
def itemsOf : FTy → Val → List Val
  | .opt _, .some x => [x]
  | .opt _, _ => []
  | .vec _, .vec xs => xs
  | .vec _, _ => []
  | _, v => [v]

/-- What is known of a single item. -/
structure ItemCanon (L : Lib) (env : Env) (G : NsMap) (t : FTy) (v : Val) : Prop where
  scalar : ∀ s, t = .simple s → ScalarOk L s v
  enc : ∀ q, t = .struct q → Enc L env G q v

structure ItemsCanon (L : Lib) (env : Env) (G : NsMap) (t : FTy) (v : Val) : Prop where
  items : ∀ x ∈ itemsOf t v, ItemCanon L env G t.core x
  value : ∀ (nm : Str) (f : FieldDef), f.ty = t → fieldValue nm f (itemsOf t v) = .ok v

theorem ItemsCanon.item {L : Lib} {env : Env} {G : NsMap} {t : FTy} {v : Val} (h : ItemsCanon L env G t v) :
    ItemCanon L env G t v := by
  cases t with
  | simple s => exact h.items v (by simp [itemsOf])
  | struct q => exact h.items v (by simp [itemsOf])
  | opt t => exact ⟨(fun _ h => nomatch h), (fun _ h => nomatch h)⟩
  | vec t => exact ⟨(fun _ h => nomatch h), (fun _ h => nomatch h)⟩

theorem itemsCanon_one {L : Lib} {env : Env} {G : NsMap} {t : FTy} {v : Val} (ht : (∃ s, t = .simple s) ∨ ∃ q, t = .struct q)
    (h : ItemCanon L env G t v) : ItemsCanon L env G t v := by
  rcases ht with ⟨s, rfl⟩ | ⟨q, rfl⟩
  · refine ⟨?_, ?_⟩
    · intro x hx
      simp only [itemsOf, List.mem_singleton] at hx
      subst hx; exact h
    · intro nm f hf
      unfold fieldValue; rw [hf]; rfl
  · refine ⟨?_, ?_⟩
    · intro x hx
      simp only [itemsOf, List.mem_singleton] at hx
      subst hx; exact h
    · intro nm f hf
      unfold fieldValue; rw [hf]; rfl

/-- Conditions of one field of a struct. -/
structure FieldCanon (L : Lib) (env : Env) (G : NsMap) (sv : Val) (f : FieldDef) (v : Val) : Prop where
  attr : f.attrs.isAttr = true → AttrCanon L env f sv v
  user : f.attrs.isAttr = true → ∀ q x, (f.ty = .struct q ∧ v = x) ∨ (f.ty = .opt (.struct q) ∧ v = .some x) →
    f.selected sv v → Enc L env G q x
  text : f.attrs.isAttr = false → f.attrs.text = true → TextCanon f v
  left : f.attrs.isAttr = false → f.attrs.text = false → f.omitted sv v → f.attrs.flatten = false ∧ f.absent = some v
  cdata : f.attrs.isAttr = false → f.attrs.text = false → ¬ f.omitted sv v → f.attrs.cdata = true →
    f.ty = .simple .string ∧ ∃ s, v = .str s ∧ CleanText s ∧ isCdata s
  items : f.attrs.isAttr = false → f.attrs.text = false → ¬ f.omitted sv v → f.attrs.cdata = false →
    ItemsCanon L env G f.ty v

/-- The documents in which attributes of a derived type are read. -/
def AttrDocs (L : Lib) (env : Env) (f : FieldDef) (as : List Attr) (ya : Str → Node) (wa : Str → Val) : Prop :=
  ∀ q, f.ty.core = .struct q → ∀ a ∈ as, ∀ s ∈ f.ty.attrTexts a.value,
    (∃ y, IsDoc (L.parse (attrDoc q s)) y ∧ y.strip = (ya s).strip ∧ (∃ G, NsTable G ∧ y.Clean G) ∧
      ∀ d', env q = some (.struct d') → nsOk d'.attrs y.name) ∧ View L env q (wa s) (ya s)

/-- What one field contributes to the element of its struct. -/
structure FieldOk (L : Lib) (env : Env) (G sc : NsMap) (d : StructDef) (sv : Val) (f : FieldDef) (v : Val) : Prop where
  excl : encOwn L env d.attrs sv [f] [v] = [] ∨ encInherited L env [f] [v] = []
  attrs : ∀ a ∈ encOwn L env d.attrs sv [f] [v] ++ encInherited L env [f] [v],
    AttrNameOk sc a.name.raw ∧ isAttrText a.value = true ∧ FieldTakes env d f (.attr (attrLoc sc a))
  locs : ((encOwn L env d.attrs sv [f] [v] ++ encInherited L env [f] [v]).map (attrLoc sc)).Nodup
  ok : WNode.OkL sc (encFields L env d.attrs sv [f] [v])
  tidy : WNode.TidyL G (encFields L env d.attrs sv [f] [v])
  one : (wtexts (encFields L env d.attrs sv [f] [v])).length ≤ 1
  takesKid : ∀ k ∈ backs sc (encFields L env d.attrs sv [f] [v]), FieldTakes env d f k.item
  takesText : wtexts (encFields L env d.attrs sv [f] [v]) ≠ [] → FieldTakes env d f .text
  reads : ∃ (ws : List Val) (ya : Str → Node) (wa : Str → Val), fieldValue d.name f ws = .ok v ∧
    (f.attrs.isAttr = true → encFields L env d.attrs sv [f] [v] = [] ∧
      ((encOwn L env d.attrs sv [f] [v] ++ encInherited L env [f] [v]).flatMap fun a =>
        attrWords L (fun _ s => .ok (wa s)) f.ty a.value) = ws.map .ok ∧
      AttrDocs L env f (encOwn L env d.attrs sv [f] [v] ++ encInherited L env [f] [v]) ya wa) ∧
    (f.attrs.text = true → (ntexts (backs sc (encFields L env d.attrs sv [f] [v]))).map Val.str = ws ∧
      ∀ k ∈ backs sc (encFields L env d.attrs sv [f] [v]), k.item = .text) ∧
    (f.isElem = true → f.attrs.text = false →
      List.Forall₂ (KidOf L env d f) (backs sc (encFields L env d.attrs sv [f] [v])) ws) ∧
    (f.isFlat → ws = [v] ∧ ∀ q, f.ty = .struct q →
      encOwn L env d.attrs sv [f] [v] ++ encInherited L env [f] [v] = encTyAttrs L env q v ∧
      encFields L env d.attrs sv [f] [v] = encTy L env .inner q v ∧ EncIn L env G sc q v)

/-! ### The parts of one field -/

theorem own_one (L : Lib) (env : Env) (root : Attrs) (self : Val) (f : FieldDef) (v : Val) (h : f.attrs.isAttr = false) :
    encOwn L env root self [f] [v] = [] := by
  rw [encOwn.eq_def]; dsimp only
  rw [encOwn.eq_def L env root self [] []]
  simp [h]

theorem inh_one (L : Lib) (env : Env) (f : FieldDef) (v : Val) (h : ¬ f.isFlat) : encInherited L env [f] [v] = [] := by
  rw [encInherited.eq_def]; dsimp only
  rw [encInherited.eq_def L env [] []]
  have : (!f.attrs.isAttr && f.attrs.flatten) = false := by
    by_contra hc
    simp only [Bool.not_eq_false, Bool.and_eq_true, Bool.not_eq_true'] at hc
    exact h hc
  simp [this]

theorem inh_flat (L : Lib) (env : Env) (f : FieldDef) (v : Val) (q : Path) (h : f.isFlat) (ht : f.ty = .struct q) :
    encInherited L env [f] [v] = encTyAttrs L env q v := by
  rw [encInherited.eq_def]; dsimp only
  rw [encInherited.eq_def L env [] []]
  simp [h.1, h.2, ht]

theorem decls_flat (env : Env) (f : FieldDef) (v : Val) (q : Path) (h : f.isFlat) (ht : f.ty = .struct q) :
    encInheritedDecls env [f] [v] = encTyDecls env q v := by
  rw [encInheritedDecls.eq_def]; dsimp only
  rw [encInheritedDecls.eq_def env [] []]
  simp [h.1, h.2, ht]

theorem decls_one (env : Env) (f : FieldDef) (v : Val) (h : ¬ f.isFlat) : encInheritedDecls env [f] [v] = [] := by
  rw [encInheritedDecls.eq_def]; dsimp only
  rw [encInheritedDecls.eq_def env [] []]
  have : (!f.attrs.isAttr && f.attrs.flatten) = false := by
    by_contra hc
    simp only [Bool.not_eq_false, Bool.and_eq_true, Bool.not_eq_true'] at hc
    exact h hc
  simp [this]

theorem blk_attr (L : Lib) (env : Env) (root : Attrs) (self : Val) (f : FieldDef) (v : Val) (h : f.attrs.isAttr = true) :
    encFields L env root self [f] [v] = [] := by
  rw [encFields.eq_def]; dsimp only
  rw [encFields.eq_def L env root self [] []]
  simp [h]

theorem blk_text (L : Lib) (env : Env) (root : Attrs) (self : Val) (f : FieldDef) (v : Val) (h : f.attrs.isAttr = false)
    (ht : f.attrs.text = true) : encFields L env root self [f] [v] = [.text (fieldText v)] := by
  rw [encFields.eq_def]; dsimp only
  rw [encFields.eq_def L env root self [] []]
  simp [h, ht]

theorem blk_omitted (L : Lib) (env : Env) (root : Attrs) (self : Val) (f : FieldDef) (v : Val) (h : f.attrs.isAttr = false)
    (ht : f.attrs.text = false) (ho : f.omitted self v) : encFields L env root self [f] [v] = [] := by
  rw [encFields.eq_def]; dsimp only
  rw [encFields.eq_def L env root self [] []]
  have : (f.attrs.skipSer || !decide (f.selected self v)) = true := by
    rcases ho with h1 | h1 <;> simp [h1]
  simp [h, ht, this]

theorem omit_false {f : FieldDef} {self v : Val} (ho : ¬ f.omitted self v) :
    (f.attrs.skipSer || !decide (f.selected self v)) = false := by
  by_contra hc
  simp only [Bool.not_eq_false, Bool.or_eq_true, Bool.not_eq_true', decide_eq_false_iff_not] at hc
  exact ho hc

theorem blk_cdata (L : Lib) (env : Env) (root : Attrs) (self : Val) (f : FieldDef) (s : Str) (h : f.attrs.isAttr = false)
    (ht : f.attrs.text = false) (ho : ¬ f.omitted self (.str s)) (hc : f.attrs.cdata = true) :
    encFields L env root self [f] [.str s] = [.elem (f.written root) [] [] [.cdata s]] := by
  rw [encFields.eq_def]; dsimp only
  rw [encFields.eq_def L env root self [] []]
  simp [h, ht, omit_false ho, hc]

/-- The nodes for one item of an element field. -/
def itemNodes (L : Lib) (env : Env) (root : Attrs) (f : FieldDef) (x : Val) : List WNode :=
  match f.ty.core with
  | .simple _ => [leaf (f.written root) (showS L x)]
  | .struct q => encTy L env (f.place root) q x
  | _ => []

theorem encItems_flatMap (L : Lib) (env : Env) (pl : Place) (q : Path) (xs : List Val) :
    encItems L env pl q xs = xs.flatMap fun x => encTy L env pl q x := by
  induction xs with
  | nil => rw [encItems.eq_def]; rfl
  | cons x xs ih => rw [encItems.eq_def]; dsimp only; rw [ih]; rfl

theorem blk_items (L : Lib) (env : Env) (root : Attrs) (self : Val) (f : FieldDef) (v : Val) (h : f.attrs.isAttr = false)
    (ht : f.attrs.text = false) (ho : ¬ f.omitted self v) (hc : f.attrs.cdata = false)
    (hcore : (∃ t, f.ty.core = .simple t) ∨ ∃ q, f.ty.core = .struct q) :
    encFields L env root self [f] [v] = (itemsOf f.ty v).flatMap (itemNodes L env root f) := by
  rw [encFields.eq_def]; dsimp only
  rw [encFields.eq_def L env root self [] []]
  rw [h, ht, omit_false ho, hc]
  unfold itemNodes
  rcases hcore with ⟨t, hcore⟩ | ⟨q, hcore⟩
  · rw [hcore]
    cases hty : f.ty with
    | simple s => simp [itemsOf]
    | struct q => rw [hty] at hcore; cases hcore
    | opt t' =>
      rw [hty] at hcore; simp only [FTy.core] at hcore; subst hcore
      cases v <;> simp [itemsOf]
    | vec t' =>
      rw [hty] at hcore; simp only [FTy.core] at hcore; subst hcore
      cases v <;> simp [itemsOf]
      rw [← List.flatMap_pure_eq_map]; rfl
  · rw [hcore]
    cases hty : f.ty with
    | simple s => rw [hty] at hcore; cases hcore
    | struct q' => rw [hty] at hcore; cases hcore; simp [itemsOf]
    | opt t' =>
      rw [hty] at hcore; simp only [FTy.core] at hcore; subst hcore
      cases v <;> simp [itemsOf]
    | vec t' =>
      rw [hty] at hcore; simp only [FTy.core] at hcore; subst hcore
      cases v <;> simp [itemsOf, encItems_flatMap]

theorem fieldValue_absent {f : FieldDef} {v : Val} (nm : Str) (h : f.absent = some v) : fieldValue nm f [] = .ok v := by
  unfold FieldDef.absent at h
  unfold fieldValue
  cases ht : f.ty with
  | opt t => rw [ht] at h; cases h; rfl
  | vec t => rw [ht] at h; cases h; rfl
  | simple t =>
    rw [ht] at h
    simp only at h ⊢
    cases hd : f.dflt with
    | none => rw [hd] at h; cases h
    | some dv => rw [hd] at h; cases h; rfl
  | struct t =>
    rw [ht] at h
    simp only at h ⊢
    cases hd : f.dflt with
    | none => rw [hd] at h; cases h
    | some dv => rw [hd] at h; cases h; rfl

theorem itemOk_of_canon {L : Lib} {env : Env} {G sc : NsMap} (hG : NsTable G) {d : StructDef} (hrt : StructRt env G d)
    {f : FieldDef} (hf : f ∈ d.fields) (he : f.isElem = true) (hd : ∀ e ∈ d.attrs.decls, e ∈ sc) (hs : ∀ e ∈ sc, e ∈ G)
    {x : Val} (hx : ItemCanon L env G f.ty.core x) : ItemOk L env G sc d f x (itemNodes L env d.attrs f x) := by
  have hfl : f.attrs.flatten = false := by
    simp only [FieldDef.isElem, Bool.and_eq_true, Bool.not_eq_true'] at he; exact he.2
  have hl := (hrt.label f hf).1
  have hp := hrt.elemPfx f hf he
  obtain ⟨n1, n2, n3⟩ := elemName_ok (root := d.attrs) hG hd hs hp hl
  have e : f.written d.attrs = qualify d.attrs.defaultNs f.attrs.pfx f.label := rfl
  rw [← e] at n1 n2 n3
  rcases hrt.plain.elemTy f hf with ⟨t, ht⟩ | ⟨q, ht⟩
  · have hsc := hx.scalar t ht
    have e2 : itemNodes L env d.attrs f x = [.elem (f.written d.attrs) [] [] [.text (showS L x)]] := by
      unfold itemNodes; rw [ht]; rfl
    rw [e2]
    exact itemOk_leaf ht _ _ hsc.clean.chars (wtexts_text _) rfl trivial hsc.clean hsc.parses n1 n2
      (claims_of_isNameOf he n3)
  · have e2 : itemNodes L env d.attrs f x = encTy L env ⟨some (f.written d.attrs), false⟩ q x := by
      unfold itemNodes; rw [ht]; simp [FieldDef.place, hfl]
    rw [e2]
    exact itemOk_struct hG ht (hx.enc q ht) hd hs he hp hl (hrt.fits f hf he q ht)

theorem elemOk_of_canon {L : Lib} {env : Env} {G sc : NsMap} (hG : NsTable G) {d : StructDef} (hrt : StructRt env G d)
    {f : FieldDef} (hf : f ∈ d.fields) (he : f.isElem = true) (ht : f.attrs.text = false)
    (hd : ∀ e ∈ d.attrs.decls, e ∈ sc) (hs : ∀ e ∈ sc, e ∈ G) {self v : Val} (hc : FieldCanon L env G self f v) :
    ∃ ws, fieldValue d.name f ws = .ok v ∧ ElemOk L env G sc d f ws (encFields L env d.attrs self [f] [v]) := by
  have hat : f.attrs.isAttr = false := by
    simp only [FieldDef.isElem, Bool.and_eq_true, Bool.not_eq_true'] at he; exact he.1
  by_cases ho : f.omitted self v
  · rw [blk_omitted L env d.attrs self f v hat ht ho]
    exact ⟨[], fieldValue_absent _ (hc.left hat ht ho).2, ⟨trivial, trivial, rfl, .nil⟩⟩
  · by_cases hcd : f.attrs.cdata = true
    · obtain ⟨hty, s, rfl, hcl, hcs⟩ := hc.cdata hat ht ho hcd
      rw [blk_cdata L env d.attrs self f s hat ht ho hcd]
      obtain ⟨n1, n2, n3⟩ := elemName_ok (root := d.attrs) hG hd hs (hrt.elemPfx f hf he) (hrt.label f hf).1
      have h1 : ItemOk L env G sc d f (.str s) [.elem (f.written d.attrs) [] [] [.cdata s]] :=
        itemOk_leaf (t := .string) (by rw [hty]; rfl) _ s hcs (wtexts_cdata _) rfl trivial hcl rfl n1 n2 (claims_of_isNameOf he n3)
      refine ⟨[.str s], by unfold fieldValue; rw [hty]; rfl, ⟨h1.ok, h1.tidy, h1.noText, ?_⟩⟩
      obtain ⟨kid, hk, hk2⟩ := h1.kid
      rw [hk]
      exact .cons hk2 .nil
    · have hcd' : f.attrs.cdata = false := by simpa using hcd
      have hi := hc.items hat ht ho hcd'
      rw [blk_items L env d.attrs self f v hat ht ho hcd' (hrt.plain.elemTy f hf)]
      exact ⟨_, hi.value d.name f rfl, elemOk_flatMap _ _ fun x hx => itemOk_of_canon hG hrt hf he hd hs (hi.items x hx)⟩

theorem attrOf_ok {env : Env} {G sc : NsMap} (hG : NsTable G) {d : StructDef} (hrt : StructRt env G d)
    {f : FieldDef} (hf : f ∈ d.fields) (ha : f.attrs.isAttr = true)
    (hd : ∀ e ∈ d.attrs.decls, e ∈ sc) (hs : ∀ e ∈ sc, e ∈ G) (val : Str) (hv : isAttrText val = true) :
    AttrNameOk sc (Name.ofStr (f.written d.attrs)).raw ∧ isAttrText val = true ∧
      FieldTakes env d f (.attr (attrLoc sc ⟨Name.ofStr (f.written d.attrs), val⟩)) := by
  have hl := hrt.label f hf
  obtain ⟨n1, n2⟩ := attrName_ok (root := d.attrs) (pfx := f.attrs.pfx) (label := f.label) hG hd hs
    (hrt.attrPfx f hf ha) hl.1 (hl.2 ha)
  have e : f.written d.attrs = qualify d.attrs.defaultNs f.attrs.pfx f.label := rfl
  refine ⟨by rw [raw_ofStr, e]; exact n1, hv, .inl ⟨ha, ?_⟩⟩
  unfold attrLoc
  simp only
  rw [raw_ofStr, e, n2]

mutual
  theorem content_node (x : Node) : content x.events = x.events := by
    match x with
    | .text s => rfl
    | .elem n as m ks =>
      simp only [Node.events]
      unfold content
      rw [List.filter_cons_of_pos (by rfl), List.filter_append]
      have := content_nodes ks
      unfold content at this
      rw [this]
      rfl
  theorem content_nodes (ks : List Node) : content (Node.eventsL ks) = Node.eventsL ks := by
    match ks with
    | [] => rfl
    | k :: ks =>
      have h1 := content_node k
      have h2 := content_nodes ks
      simp only [Node.eventsL]
      unfold content at *
      rw [List.filter_append, h1, h2]
end

theorem content_doc (x : Node) : content (.startDocument :: x.events) = x.events := content_node x

/-- The content of an element as attribute value, read in an element named after the type. -/
theorem attrDoc_ok {L : Lib} (hL : XmlLaw L) {env : Env} {G : NsMap} (hG : NsTable G) {q : Path} {x : Val}
    (henc : Enc L env G q x) (hok : AttrUserOk L env q x) (hid : isNCName q.flatten = true)
    (hfit : Fits env q ⟨q.flatten, none, none⟩) :
    let s := L.emit { decl := false } (WNode.eventsL (encTy L env .inner q x))
    ∃ y0, (∃ y, IsDoc (L.parse (attrDoc q s)) y ∧ y.strip = y0.strip ∧ (∃ G, NsTable G ∧ y.Clean G) ∧
      ∀ d', env q = some (.struct d') → nsOk d'.attrs y.name) ∧ View L env q x y0 := by
  intro s
  have hE := henc.content [] (by rw [hok.decls]; simp) (by simp)
  obtain ⟨y, hy, hp⟩ := hL.frag q.flatten (encTy L env .inner q x) _ hid hE.ok rfl
  have hsp := XmlText.splitColon_none (XmlText.ncName_noColon hid)
  have hW : (WNode.elem q.flatten [] [] (encTy L env .inner q x)).Ok [] := by
    refine ⟨?_, ?_, declsOk_nil _, attrsOk_nil _, by simpa using hE.ok⟩
    · unfold isQName; rw [hsp]; exact hid
    · unfold Bound; rw [hsp]; trivial
  have hT : (WNode.elem q.flatten [] [] (encTy L env .inner q x)).Tidy G := ⟨by simp, hE.one, hE.tidy⟩
  have hclean := (clean_of_like hG _ [] (by simp) hW hT y _ _ _ _ rfl hy).1
  have hst := like_strip _ _ hy
  have hname : readElemName ([] : NsMap) q.flatten = ⟨q.flatten, none, none⟩ := by
    unfold readElemName; rw [hsp]; rfl
  refine ⟨(WNode.elem q.flatten [] [] (encTy L env .inner q x)).back [], ⟨y, ⟨[], ?_⟩, hst, ⟨G, hG, hclean⟩, ?_⟩, ?_⟩
  · rw [show attrDoc q s = c!"<" ++ q.flatten ++ c!">" ++ L.emit { decl := false } (WNode.eventsL (encTy L env .inner q x))
      ++ c!"</" ++ q.flatten ++ c!">" from rfl, hp, List.append_nil]
    exact content_doc y
  · intro d' _ u hu
    cases y with
    | text => simp [WNode.back, Node.strip] at hst
    | elem n' as' m' ks' =>
      simp only [WNode.back, Node.strip, Node.elem.injEq, List.append_nil] at hst
      rw [hname] at hst
      rw [Node.name, hst.1] at hu
      cases hu
  · have := hE.view ⟨q.flatten, none, none⟩ [] hfit
    rw [hok.bare] at this
    simp only [WNode.back, List.append_nil]
    rw [backL_nil_eq _ _ hE.one, hname]
    exact this

theorem fieldOk_attr {L : Lib} (hL : XmlLaw L) {env : Env} {G sc : NsMap} (hG : NsTable G) {d : StructDef} (hrt : StructRt env G d)
    {f : FieldDef} (hf : f ∈ d.fields) (ha : f.attrs.isAttr = true)
    (hd : ∀ e ∈ d.attrs.decls, e ∈ sc) (hs : ∀ e ∈ sc, e ∈ G) {self v : Val} (hc : FieldCanon L env G self f v) :
    FieldOk L env G sc d self f v := by
  have hnf : ¬ f.isFlat := fun h => by have h1 := h.1; rw [ha] at h1; cases h1
  have hne : f.isElem = false := by simp [FieldDef.isElem, ha]
  have hnt : f.attrs.text = true → False := fun h => by
    have := (hrt.text f hf h).1; rw [ha] at this; cases this
  have hb := blk_attr L env d.attrs self f v ha
  have hin := inh_one L env f v hnf
  have key : ∃ (ws : List Val) (ya : Str → Node) (wa : Str → Val), fieldValue d.name f ws = .ok v ∧
      ((encOwn L env d.attrs self [f] [v]).flatMap fun a => attrWords L (fun _ s => .ok (wa s)) f.ty a.value) =
        ws.map .ok ∧ AttrDocs L env f (encOwn L env d.attrs self [f] [v]) ya wa ∧
      ((encOwn L env d.attrs self [f] [v]) = [] ∨ ∃ val, isAttrText val = true ∧
        encOwn L env d.attrs self [f] [v] = [⟨Name.ofStr (f.written d.attrs), val⟩]) := by
    have eown : ∀ w, encOwn L env d.attrs self [f] [w] = (if f.attrs.isAttr && decide (f.selected self w) then
        match f.ty, w with
        | .simple _, v => [⟨Name.ofStr (f.written d.attrs), showS L v⟩]
        | .opt (.simple _), .some x => [⟨Name.ofStr (f.written d.attrs), showS L x⟩]
        | .opt (.struct p), .some x =>
          [⟨Name.ofStr (f.written d.attrs), L.emit { decl := false } (WNode.eventsL (encTy L env .inner p x))⟩]
        | .struct p, x =>
          [⟨Name.ofStr (f.written d.attrs), L.emit { decl := false } (WNode.eventsL (encTy L env .inner p x))⟩]
        | _, _ => []
      else []) := by
      intro w
      rw [encOwn.eq_def]; dsimp only
      rw [encOwn.eq_def L env d.attrs self [] [], List.append_nil]
      rfl
    cases hc.attr ha with
    | plain t _ hty hsel h =>
      rw [eown, ha, hty]
      simp only [hsel, decide_true, Bool.and_self, if_true]
      refine ⟨[v], fun _ => .text [], fun _ => v, by unfold fieldValue; rw [hty]; rfl, ?_, ?_, .inr ⟨_, h.chars, rfl⟩⟩
      · simp [attrWords, scalar, h.parses]
      · intro q hq; rw [hty] at hq; cases hq
    | some t x hty hsel h =>
      rw [eown, ha, hty]
      simp only [hsel, decide_true, Bool.and_self, if_true]
      refine ⟨[x], fun _ => .text [], fun _ => x, by unfold fieldValue; rw [hty]; rfl, ?_, ?_, .inr ⟨_, h.chars, rfl⟩⟩
      · simp [attrWords, scalar, h.parses]
      · intro q hq; rw [hty] at hq; cases hq
    | user q _ hty hsel h =>
      rw [eown, ha, hty]
      simp only [hsel, decide_true, Bool.and_self, if_true]
      obtain ⟨hid, hfit⟩ := hrt.attrFits f hf ha q (by rw [hty]; rfl)
      obtain ⟨y0, h1, h2⟩ := attrDoc_ok hL hG (hc.user ha q v (.inl ⟨hty, rfl⟩) hsel) h hid hfit
      refine ⟨[v], fun _ => y0, fun _ => v, by unfold fieldValue; rw [hty]; rfl, ?_, ?_, .inr ⟨_, h.chars, rfl⟩⟩
      · simp [attrWords]
      · intro q' hq a hm s hs
        rw [hty] at hq hs; cases hq
        rw [List.mem_singleton] at hm; subst hm
        rw [show FTy.attrTexts (.struct q) = fun v => [v] from rfl, List.mem_singleton] at hs; subst hs
        exact ⟨h1, h2⟩
    | userSome q x hty hsel h =>
      rw [eown, ha, hty]
      simp only [hsel, decide_true, Bool.and_self, if_true]
      obtain ⟨hid, hfit⟩ := hrt.attrFits f hf ha q (by rw [hty]; rfl)
      obtain ⟨y0, h1, h2⟩ := attrDoc_ok hL hG (hc.user ha q x (.inr ⟨hty, rfl⟩) hsel) h hid hfit
      refine ⟨[x], fun _ => y0, fun _ => x, by unfold fieldValue; rw [hty]; rfl, ?_, ?_, .inr ⟨_, h.chars, rfl⟩⟩
      · simp [attrWords]
      · intro q' hq a hm s hs
        rw [hty] at hq hs; cases hq
        rw [List.mem_singleton] at hm; subst hm
        rw [show FTy.attrTexts (.opt (.struct q)) = fun v => [v] from rfl, List.mem_singleton] at hs; subst hs
        exact ⟨h1, h2⟩
    | absent _ hn h =>
      refine ⟨[], fun _ => .text [], fun _ => v, fieldValue_absent _ h, ?_⟩
      have : encOwn L env d.attrs self [f] [v] = [] := by
        rw [eown]
        rcases hn with hn | ⟨t, hty, rfl⟩ | ⟨t, hty⟩
        · simp [hn]
        · rw [hty]; split
          · cases t <;> rfl
          · rfl
        · rw [hty]; split
          · rfl
          · rfl
      rw [this]
      exact ⟨rfl, (by intro q _ a hm; cases hm), .inl rfl⟩
  obtain ⟨ws, ya, wa, h1, h2, hdocs, h3⟩ := key
  refine ⟨.inr hin, ?_, ?_, ?_, ?_, ?_, ?_, ?_, ws, ya, wa, h1, ?_, ?_, ?_, ?_⟩
  · rw [hin, List.append_nil]
    rcases h3 with h3 | ⟨val, hv, h3⟩
    · rw [h3]; simp
    · rw [h3]
      intro a hm
      rw [List.mem_singleton] at hm; subst hm
      exact attrOf_ok hG hrt hf ha hd hs val hv
  · rw [hin, List.append_nil]
    rcases h3 with h3 | ⟨val, hv, h3⟩ <;> rw [h3] <;> simp
  · rw [hb]; trivial
  · rw [hb]; trivial
  · rw [hb]; simp [wtexts]
  · rw [hb]; simp [backs]
  · rw [hb]; simp [wtexts]
  · intro _; rw [hb, hin, List.append_nil]; exact ⟨rfl, h2, hdocs⟩
  · intro h; exact (hnt h).elim
  · intro h; rw [hne] at h; cases h
  · intro h; exact (hnf h).elim

theorem fieldOk_text {L : Lib} {env : Env} {G sc : NsMap} {d : StructDef} (hrt : StructRt env G d)
    {f : FieldDef} (hf : f ∈ d.fields) (ht : f.attrs.text = true) {self v : Val} (hc : FieldCanon L env G self f v) :
    FieldOk L env G sc d self f v := by
  obtain ⟨ha, hfl⟩ := hrt.text f hf ht
  have hnf : ¬ f.isFlat := fun h => by have h1 := h.2; rw [hfl] at h1; cases h1
  have hb := blk_text L env d.attrs self f v ha ht
  have hin := inh_one L env f v hnf
  have how := own_one L env d.attrs self f v ha
  have key : ∃ ws, fieldValue d.name f ws = .ok v ∧ isText (fieldText v) = true ∧
      ((fieldText v = [] ∧ ws = []) ∨ (CleanText (fieldText v) ∧ ws = [.str (fieldText v)])) := by
    cases hc.text ha ht with
    | str s hty h => exact ⟨[.str s], by unfold fieldValue; rw [hty]; rfl, h.chars, .inr ⟨h, rfl⟩⟩
    | some s hty h => exact ⟨[.str s], by unfold fieldValue; rw [hty]; rfl, h.chars, .inr ⟨h, rfl⟩⟩
    | absent _ he h => exact ⟨[], fieldValue_absent _ h, by rw [he]; rfl, .inl ⟨he, rfl⟩⟩
  obtain ⟨ws, h1, h2, h3⟩ := key
  have htk : FieldTakes env d f .text := .inl ht
  have hbk : backs sc [WNode.text (fieldText v)] = textRun (fieldText v) := by simp [backs, back1]
  refine ⟨.inl how, ?_, ?_, ?_, ?_, ?_, ?_, ?_, ws, fun _ => .text [], fun _ => v, h1, ?_, ?_, ?_, ?_⟩
  · rw [how, hin]; simp
  · rw [how, hin]; simp
  · rw [hb]; exact ⟨h2, trivial⟩
  · rw [hb]; exact ⟨trivial, trivial⟩
  · rw [hb, wtexts_text]; split <;> simp
  · rw [hb, hbk]
    intro k hk
    unfold textRun at hk
    split at hk
    · cases hk
    · rw [List.mem_singleton] at hk; subst hk; exact htk
  · intro _; exact htk
  · intro h; rw [ha] at h; cases h
  · intro _
    rw [hb, hbk]
    rcases h3 with ⟨h3, rfl⟩ | ⟨h3, rfl⟩
    · rw [h3]; exact ⟨rfl, by intro k hk; cases hk⟩
    · rw [textRun_clean h3]
      refine ⟨rfl, ?_⟩
      intro k hk
      rw [List.mem_singleton] at hk; subst hk; rfl
  · intro _ h; rw [ht] at h; cases h
  · intro h; exact (hnf h).elim

theorem fieldOk_elem {L : Lib} {env : Env} {G sc : NsMap} (hG : NsTable G) {d : StructDef} (hrt : StructRt env G d)
    {f : FieldDef} (hf : f ∈ d.fields) (he : f.isElem = true) (ht : f.attrs.text = false)
    (hd : ∀ e ∈ d.attrs.decls, e ∈ sc) (hs : ∀ e ∈ sc, e ∈ G) {self v : Val} (hc : FieldCanon L env G self f v) :
    FieldOk L env G sc d self f v := by
  have he' := he
  simp only [FieldDef.isElem, Bool.and_eq_true, Bool.not_eq_true'] at he'
  obtain ⟨ha, hfl⟩ := he'
  have hnf : ¬ f.isFlat := fun h => by have h1 := h.2; rw [hfl] at h1; cases h1
  have hin := inh_one L env f v hnf
  have how := own_one L env d.attrs self f v ha
  obtain ⟨ws, h1, h2⟩ := elemOk_of_canon hG hrt hf he ht hd hs hc
  refine ⟨.inl how, ?_, ?_, h2.ok, h2.tidy, ?_, ?_, ?_, ws, fun _ => .text [], fun _ => v, h1, ?_, ?_, ?_, ?_⟩
  · rw [how, hin]; simp
  · rw [how, hin]; simp
  · rw [h2.noText]; simp
  · intro k hk
    obtain ⟨i, hi⟩ := List.getElem?_of_mem hk
    have hlt : i < ws.length := by
      rw [← h2.kids.length_eq]
      exact (List.getElem?_eq_some_iff.mp hi).1
    have := List.Forall₂.get h2.kids (List.getElem?_eq_some_iff.mp hi).1 hlt
    obtain ⟨n, as, m, kk, e, hcl⟩ := this.claimed
    have e2 : k = .elem n as m kk := by
      rw [← e]; obtain ⟨hi', e3⟩ := List.getElem?_eq_some_iff.mp hi
      exact e3.symm
    subst e2
    exact .inl hcl
  · intro h; exact absurd h2.noText h
  · intro h; rw [ha] at h; cases h
  · intro h; rw [ht] at h; cases h
  · intro _ _; exact h2.kids
  · intro h; exact (hnf h).elim

theorem fieldOk_flat {L : Lib} {env : Env} {G sc : NsMap} {d : StructDef} (hrt : StructRt env G d)
    {f : FieldDef} (hf : f ∈ d.fields) (hfl : f.isFlat) (hs : ∀ e ∈ sc, e ∈ G) {self v : Val}
    (hin : ∀ e ∈ encInheritedDecls env [f] [v], e ∈ sc) (hc : FieldCanon L env G self f v) :
    FieldOk L env G sc d self f v := by
  obtain ⟨q, d', hty, hq⟩ := hrt.flat f hf hfl
  have ha := hfl.1
  have ht : f.attrs.text = false := by
    by_contra h
    have := (hrt.text f hf (by simpa using h)).2
    rw [hfl.2] at this; cases this
  have ho : ¬ f.omitted self v := fun h => by
    have := (hc.left ha ht h).1; rw [hfl.2] at this; cases this
  have hcd : f.attrs.cdata = false := by
    by_contra h
    have := (hc.cdata ha ht ho (by simpa using h)).1
    rw [hty] at this; cases this
  have henc : Enc L env G q v := by
    have := hc.items ha ht ho hcd
    rw [hty] at this
    exact this.item.enc q rfl
  rw [decls_flat env f v q hfl hty] at hin
  have hE := henc.content sc hin hs
  have hb : encFields L env d.attrs self [f] [v] = encTy L env .inner q v := by
    rw [blk_items L env d.attrs self f v ha ht ho hcd (.inr ⟨q, by rw [hty]; rfl⟩)]
    unfold itemNodes
    rw [hty]
    simp [itemsOf, FTy.core, FieldDef.place, hfl.2]
  have how := own_one L env d.attrs self f v ha
  have hinh := inh_flat L env f v q hfl hty
  have hne : f.isElem = false := by simp [FieldDef.isElem, hfl.2]
  have tk : ∀ it, Takes env q it → FieldTakes env d f it := fun it h => .inr ⟨hfl, q, hty, h⟩
  refine ⟨.inl how, ?_, ?_, ?_, ?_, ?_, ?_, ?_, [v], fun _ => .text [], fun _ => v, ?_, ?_, ?_, ?_, ?_⟩
  · rw [how, hinh, List.nil_append]
    intro a hm
    exact ⟨hE.attrs.name a hm, hE.attrs.value a hm, tk _ (hE.takesAttr d' hq a hm)⟩
  · rw [how, hinh, List.nil_append]; exact hE.locs
  · rw [hb]; exact hE.ok
  · rw [hb]; exact hE.tidy
  · rw [hb]; exact hE.one
  · rw [hb]; intro k hk; exact tk _ (hE.takesKid d' hq k hk)
  · rw [hb]; intro h; exact tk _ (hE.takesText d' hq h)
  · unfold fieldValue; rw [hty]; rfl
  · intro h; rw [ha] at h; cases h
  · intro h; rw [ht] at h; cases h
  · intro h; rw [hne] at h; cases h
  · intro _
    refine ⟨rfl, ?_⟩
    intro q' hq'
    rw [hty] at hq'; cases hq'
    exact ⟨by rw [how, hinh]; rfl, hb, hE⟩

theorem fieldOk {L : Lib} (hL : XmlLaw L) {env : Env} {G sc : NsMap} (hG : NsTable G) {d : StructDef} (hrt : StructRt env G d)
    {f : FieldDef} (hf : f ∈ d.fields) (hd : ∀ e ∈ d.attrs.decls, e ∈ sc) (hs : ∀ e ∈ sc, e ∈ G) {self v : Val}
    (hin : ∀ e ∈ encInheritedDecls env [f] [v], e ∈ sc) (hc : FieldCanon L env G self f v) :
    FieldOk L env G sc d self f v := by
  by_cases ha : f.attrs.isAttr = true
  · exact fieldOk_attr hL hG hrt hf ha hd hs hc
  · by_cases ht : f.attrs.text = true
    · exact fieldOk_text hrt hf ht hc
    · by_cases hfl : f.attrs.flatten = true
      · exact fieldOk_flat hrt hf ⟨by simpa using ha, hfl⟩ hs hin hc
      · exact fieldOk_elem hG hrt hf (by simp [FieldDef.isElem, ha, hfl]) (by simpa using ht) hd hs hc

end Yaserde
