import Verif.Spec.Mixed
import Verif.Proofs.EncStruct
import Verif.Props.User
/-
The element of a derived struct around hand-written implementations is read back, field by field.
-/

set_option autoImplicit false

namespace Yaserde

open XmlText (splitColon_none ncName_noColon)

namespace Mixed

/-! ### Outcomes are unique -/

/-- A reader in front of these events. -/
def rdAt (es : List REv) : Rd := { Rd.new ⟨es, none⟩ with depth := 1 }

theorem obeys_unique {F : Nat → D Val} {x : Node} {v w : Val} (h1 : Obeys F x (.ok v)) (h2 : Obeys F x (.ok w)) : v = w := by
  obtain ⟨l1, -, N1, h1⟩ := h1
  obtain ⟨l2, -, N2, h2⟩ := h2
  have hat : At 1 (x.events ++ []) none (rdAt (x.events ++ [])) := by
    refine ⟨rfl, ?_, rfl⟩
    have := (at_new' ⟨x.events ++ [], none⟩).vis
    simp only [List.append_nil] at this ⊢
    rw [content_node] at this
    exact this
  obtain ⟨rd1, e1, -⟩ := h1 (max N1 N2) (by omega) 1 [] none _ (Nat.le_refl _) hat
  obtain ⟨rd2, e2, -⟩ := h2 (max N1 N2) (by omega) 1 [] none _ (Nat.le_refl _) hat
  rw [e1] at e2
  cases e2
  rfl

theorem readsDoc_unique {L : Lib} {F : Nat → D Val} {s : Str} {r r' : Res Val} (h1 : ReadsDoc L F s r) (h2 : ReadsDoc L F s r') :
    r = r' := by
  obtain ⟨-, N1, h1⟩ := h1
  obtain ⟨-, N2, h2⟩ := h2
  rw [← h1 (max N1 N2) (by omega), ← h2 (max N1 N2) (by omega)]

open Classical in
/-- What the implementation of the type reads, if the contract says it. -/
noncomputable def decOf (L : Lib) (env : Env) (de : Impls) (x : Node) (q : Path) : Res Val :=
  if h : ∃ v, Obeys (fun b => deserU L env de b q) x (.ok v) then .ok h.choose else .err []

theorem decOf_eq {L : Lib} {env : Env} {de : Impls} {x : Node} {q : Path} {v : Val}
    (h : Obeys (fun b => deserU L env de b q) x (.ok v)) : decOf L env de x q = .ok v := by
  have hex : ∃ v, Obeys (fun b => deserU L env de b q) x (.ok v) := ⟨v, h⟩
  unfold decOf
  rw [dif_pos hex, obeys_unique hex.choose_spec h]

open Classical in
noncomputable def wordOf (L : Lib) (env : Env) (de : Impls) (q : Path) (s : Str) : Res Val :=
  if h : ∃ v, ReadsDoc L (fun b => deserU L env de b q) (attrDoc q s) (.ok v) then .ok h.choose else .err []

theorem wordOf_eq {L : Lib} {env : Env} {de : Impls} {s : Str} {q : Path} {v : Val}
    (h : ReadsDoc L (fun b => deserU L env de b q) (attrDoc q s) (.ok v)) : wordOf L env de q s = .ok v := by
  have hex : ∃ v, ReadsDoc L (fun b => deserU L env de b q) (attrDoc q s) (.ok v) := ⟨v, h⟩
  unfold wordOf
  rw [dif_pos hex]
  exact readsDoc_unique hex.choose_spec h

/-! ### Names -/

/-- The name without a namespace. -/
def nm (l : Str) : Name := ⟨l, none, none⟩

theorem readElem_nc {l : Str} (h : isNCName l = true) : readElemName [] l = nm l := by
  unfold readElemName
  rw [splitColon_none (ncName_noColon h)]
  rfl

theorem readAttr_nc {l : Str} (h : isNCName l = true) : readAttrName [] l = nm l := by
  unfold readAttrName
  rw [splitColon_none (ncName_noColon h)]
  rfl

theorem qname_nc {l : Str} (h : isNCName l = true) : isQName l = true := by
  unfold isQName
  rw [splitColon_none (ncName_noColon h)]
  exact h

theorem bound_nc {l : Str} (h : isNCName l = true) : Bound [] l := by
  unfold Bound
  rw [splitColon_none (ncName_noColon h)]
  trivial

theorem attrName_nc {l : Str} (h : isNCName l = true) (hx : l ≠ c!"xmlns") : AttrNameOk [] l := by
  refine ⟨qname_nc h, hx, ?_⟩
  rw [splitColon_none (ncName_noColon h)]
  trivial

section

variable {L : Lib} {env : Env} {de : Impls} {W : Encoding} {d : StructDef}

theorem written_label (hd : PlainStruct d) {f : FieldDef} (hf : f ∈ d.fields) : f.written d.attrs = f.label := by
  unfold FieldDef.written qualify
  rw [(hd.fields f hf).1]
  rfl

theorem place_label (hd : PlainStruct d) {f : FieldDef} (hf : f ∈ d.fields) : f.place d.attrs = ⟨some f.label, false⟩ := by
  unfold FieldDef.place
  rw [(hd.fields f hf).2.1, written_label hd hf]
  rfl

theorem find_nil (p : Option Str) : NsMap.find [] p = none := rfl

theorem claims_nm (hd : PlainStruct d) {f : FieldDef} (hf : f ∈ d.fields) (l : Str) :
    f.claims d.attrs (nm l) ↔ f.attrs.isAttr = false ∧ f.label = l := by
  unfold FieldDef.claims FieldDef.isElem
  rw [hd.noNs.1, find_nil, (hd.fields f hf).2.1]
  simp [nm, FieldDef.label]

theorem fieldFor_nm (hd : PlainStruct d) {i : Nat} {f : FieldDef} (hf : d.fields[i]? = some f) (ha : f.attrs.isAttr = false) :
    d.fieldFor (nm f.label) = some i := by
  have hc := (claims_nm hd (List.mem_of_getElem? hf) f.label).mpr ⟨ha, rfl⟩
  cases h : d.fieldFor (nm f.label) with
  | none =>
    unfold StructDef.fieldFor at h
    rw [List.findIdx?_eq_none_iff] at h
    have := h f (List.mem_of_getElem? hf)
    simp [hc] at this
  | some j =>
    obtain ⟨g, hg, hgm, hgc⟩ := fieldFor_some h
    obtain ⟨h1, h2⟩ := (claims_nm hd hgm _).mp hgc
    rw [hd.distinct i j f g hf hg (.inl ⟨by rw [ha, h1], h2.symm⟩)]

theorem fieldFor_none (hd : PlainStruct d) {l : Str} (h : ∀ f ∈ d.fields, f.attrs.isAttr = false → f.label ≠ l) :
    d.fieldFor (nm l) = none := by
  cases h' : d.fieldFor (nm l) with
  | none => rfl
  | some j =>
    obtain ⟨g, hg, hgm, hgc⟩ := fieldFor_some h'
    obtain ⟨h1, h2⟩ := (claims_nm hd hgm _).mp hgc
    exact (h g hgm h1 h2).elim

/-! ### What one field writes -/

/-- The attributes of one field. -/
abbrev own (L : Lib) (W : Encoding) (d : StructDef) (sv : Val) (f : FieldDef) (v : Val) : List Attr :=
  encOwnBy L W d.attrs sv [f] [v]

/-- The children of one field. -/
abbrev blk (L : Lib) (W : Encoding) (d : StructDef) (sv : Val) (f : FieldDef) (v : Val) : List WNode :=
  encFieldsBy L W d.attrs sv [f] [v]

theorem own_zip (sv : Val) : ∀ (fds : List FieldDef) (vs : List Val),
    encOwnBy L W d.attrs sv fds vs = (List.zipWith (own L W d sv) fds vs).flatten := by
  intro fds
  induction fds with
  | nil => intro vs; cases vs <;> simp [encOwnBy]
  | cons f fds ih =>
    intro vs
    cases vs with
    | nil => simp [encOwnBy]
    | cons v vs =>
      rw [List.zipWith_cons_cons, List.flatten_cons, ← ih vs]
      simp only [own, encOwnBy, List.append_nil]

theorem blk_zip (sv : Val) : ∀ (fds : List FieldDef) (vs : List Val),
    encFieldsBy L W d.attrs sv fds vs = (List.zipWith (blk L W d sv) fds vs).flatten := by
  intro fds
  induction fds with
  | nil => intro vs; cases vs <;> simp [encFieldsBy]
  | cons f fds ih =>
    intro vs
    cases vs with
    | nil => simp [encFieldsBy]
    | cons v vs =>
      rw [List.zipWith_cons_cons, List.flatten_cons, ← ih vs]
      simp only [blk, encFieldsBy, List.append_nil]

theorem own_elem {sv : Val} {f : FieldDef} (v : Val) (h : f.attrs.isAttr = false) : own L W d sv f v = [] := by
  simp [own, encOwnBy, h]

theorem blk_attr {sv : Val} {f : FieldDef} (v : Val) (h : f.attrs.isAttr = true) : blk L W d sv f v = [] := by
  simp [blk, encFieldsBy, h]

theorem blk_text {sv : Val} {f : FieldDef} (v : Val) (h : f.attrs.isAttr = false) (ht : f.attrs.text = true) :
    blk L W d sv f v = [.text (fieldText v)] := by
  simp [blk, encFieldsBy, h, ht]

theorem blk_omitted {sv : Val} {f : FieldDef} (v : Val) (h : f.attrs.isAttr = false) (ht : f.attrs.text = false)
    (ho : f.omitted sv v) : blk L W d sv f v = [] := by
  have : (f.attrs.skipSer || !decide (f.selected sv v)) = true := by
    rcases ho with h1 | h1 <;> simp [h1]
  simp only [blk, encFieldsBy, h, ht, this]
  simp

theorem blk_cdata {sv : Val} {f : FieldDef} (s : Str) (h : f.attrs.isAttr = false)
    (ht : f.attrs.text = false) (ho : ¬ f.omitted sv (.str s)) (hc : f.attrs.cdata = true) :
    blk L W d sv f (.str s) = [.elem (f.written d.attrs) [] [] [.cdata s]] := by
  simp only [blk, encFieldsBy, h, ht, omit_false ho, hc]
  simp

/-- The nodes of one item. -/
def itemNodes (L : Lib) (W : Encoding) (l : Str) (t : FTy) (x : Val) : List WNode :=
  match t with
  | .simple _ => [leaf l (showS L x)]
  | .struct q => W.tree ⟨some l, false⟩ q x
  | _ => []

theorem encItems_flatMap (pl : Place) (q : Path) (xs : List Val) :
    encItemsBy L W pl q xs = xs.flatMap fun x => W.tree pl q x := by
  induction xs with
  | nil => rfl
  | cons x xs ih => rw [encItemsBy, ih]; rfl

theorem blk_items (hd : PlainStruct d) {sv : Val} {f : FieldDef} (hf : f ∈ d.fields) (v : Val) (h : f.attrs.isAttr = false)
    (ht : f.attrs.text = false) (ho : ¬ f.omitted sv v) (hc : f.attrs.cdata = false) :
    blk L W d sv f v = (itemsOf f.ty v).flatMap (itemNodes L W f.label f.ty.core) := by
  simp only [blk, encFieldsBy, h, ht, omit_false ho, hc]
  rw [place_label hd hf, written_label hd hf]
  unfold itemNodes
  rcases hd.types.elemTy f hf with ⟨t, hcore⟩ | ⟨q, hcore⟩
  · rw [hcore]
    cases hty : f.ty with
    | simple s => simp [itemsOf]
    | struct q => rw [hty] at hcore; cases hcore
    | opt t' =>
      rw [hty] at hcore; simp only [FTy.core] at hcore; subst hcore
      cases v <;> simp [itemsOf]
    | vec t' =>
      rw [hty] at hcore; simp only [FTy.core] at hcore; subst hcore
      cases v <;> simp [itemsOf]
      rw [← List.flatMap_pure_eq_map]; rfl
  · rw [hcore]
    cases hty : f.ty with
    | simple s => rw [hty] at hcore; cases hcore
    | struct q' => rw [hty] at hcore; cases hcore; simp [itemsOf]
    | opt t' =>
      rw [hty] at hcore; simp only [FTy.core] at hcore; subst hcore
      cases v <;> simp [itemsOf]
    | vec t' =>
      rw [hty] at hcore; simp only [FTy.core] at hcore; subst hcore
      cases v <;> simp [itemsOf, encItems_flatMap]

/-! ### One field -/

/-- One child of an element field. -/
structure Kid (L : Lib) (env : Env) (de : Impls) (f : FieldDef) (kid : Node) (w : Val) : Prop where
  name : ∃ as m kk, kid = .elem (nm f.label) as m kk
  scalar : ∀ t, f.ty.core = .simple t → scalarContent L t kid.content = some w
  user : ∀ q, f.ty.core = .struct q → ∀ y : Node, y.Like kid → Obeys (fun b => deserU L env de b q) y (.ok w)

/-- The nodes of the items of an element field. -/
structure Items (L : Lib) (env : Env) (de : Impls) (f : FieldDef) (ws : List Val) (b : List WNode) : Prop where
  ok : WNode.OkL [] b
  noText : wtexts b = []
  kids : List.Forall₂ (Kid L env de f) (backs [] b) ws

theorem items_flatMap {f : FieldDef} (g : Val → List WNode) (ws : List Val) (h : ∀ w ∈ ws, Items L env de f [w] (g w)) :
    Items L env de f ws (ws.flatMap g) := by
  induction ws with
  | nil => exact ⟨trivial, rfl, .nil⟩
  | cons w ws ih =>
    have h1 := h w List.mem_cons_self
    have h2 := ih (fun x hx => h x (List.mem_cons_of_mem _ hx))
    rw [List.flatMap_cons]
    refine ⟨okL_append.mpr ⟨h1.ok, h2.ok⟩, ?_, ?_⟩
    · rw [wtexts_append, h1.noText, h2.noText]; rfl
    · rw [backs_append]
      exact List.rel_append h1.kids h2.kids

theorem items_leaf {f : FieldDef} {t : STy} {w : Val} (hl : isNCName f.label = true)
    (ht : f.ty.core = .simple t) (k : WNode) (s : Str) (hk : k.Ok []) (hw : wtexts [k] = if s = [] then [] else [s])
    (hbk : back1 [] k = textRun s) (hc : CleanText s) (hv : visitS L t s = .ok w) :
    Items L env de f [w] [.elem f.label [] [] [k]] := by
  have hone : (wtexts [k]).length ≤ 1 := by rw [hw]; split <;> simp
  have e : backs [] [WNode.elem f.label [] [] [k]] = [.elem (nm f.label) [] [] [.text s]] := by
    simp only [backs, List.flatMap_cons, List.flatMap_nil, List.append_nil, back1, WNode.back, List.map_nil]
    rw [backL_nil_eq _ _ hone, readElem_nc hl]
    simp only [backs, List.flatMap_cons, List.flatMap_nil, List.append_nil, hbk, textRun_clean hc]
  refine ⟨⟨⟨qname_nc hl, bound_nc hl, declsOk_nil _, attrsOk_nil _, hk, trivial⟩, trivial⟩, rfl, ?_⟩
  rw [e]
  refine .cons ⟨⟨_, _, _, rfl⟩, ?_, ?_⟩ .nil
  · intro t' ht'
    rw [ht] at ht'; cases ht'
    simp [Node.content, scalarContent, hv]
  · intro q hq; rw [ht] at hq; cases hq

theorem items_one {f : FieldDef} (hl : isNCName f.label = true) {w : Val} (h : ItemKept L env de W f.label f.ty.core w) :
    Items L env de f [w] (itemNodes L W f.label f.ty.core w) := by
  unfold itemNodes
  cases ht : f.ty.core with
  | simple t =>
    rw [ht] at h
    have h : ScalarOk L t w := h
    exact items_leaf hl ht _ _ h.clean.chars (wtexts_text _) rfl h.clean h.parses
  | struct q =>
    rw [ht] at h
    obtain ⟨as, ks, e, hok, hr⟩ : ReadsBack L env de W q w f.label := h
    dsimp only
    rw [e]
    refine ⟨⟨hok, trivial⟩, rfl, .cons ⟨?_, ?_, ?_⟩ .nil⟩
    · rw [← readElem_nc hl]
      exact ⟨_, _, _, rfl⟩
    · intro t ht'; rw [ht] at ht'; cases ht'
    · intro q' hq'; rw [ht] at hq'; cases hq'; exact hr
  | opt t => rw [ht] at h; exact h.elim
  | vec t => rw [ht] at h; exact h.elim

theorem items_kept {f : FieldDef} {v : Val} (h : ItemsKept L env de W f.label f.ty v) :
    (∀ x ∈ itemsOf f.ty v, ItemKept L env de W f.label f.ty.core x) ∧ ∀ nm, fieldValue nm f (itemsOf f.ty v) = .ok v := by
  unfold fieldValue
  generalize f.ty = ty at h
  cases h with
  | one _ _ h =>
    cases ty with
    | simple t => exact ⟨by intro x hx; simp only [itemsOf, List.mem_singleton] at hx; subst hx; exact h, fun _ => rfl⟩
    | struct q => exact ⟨by intro x hx; simp only [itemsOf, List.mem_singleton] at hx; subst hx; exact h, fun _ => rfl⟩
    | opt t => exact h.elim
    | vec t => exact h.elim
  | none t => exact ⟨(by intro x hx; cases hx), fun _ => rfl⟩
  | some t x h => exact ⟨by intro y hy; simp only [itemsOf, List.mem_singleton] at hy; subst hy; exact h, fun _ => rfl⟩
  | vec t vs h => exact ⟨h, fun _ => rfl⟩

/-- What is shown of one field. -/
structure Field (L : Lib) (env : Env) (de : Impls) (W : Encoding) (d : StructDef) (sv : Val) (f : FieldDef) (v : Val) : Prop where
  own : own L W d sv f v = [] ∨ (f.attrs.isAttr = true ∧ ∃ val, isAttrText val = true ∧
    own L W d sv f v = [⟨Name.ofStr f.label, val⟩])
  ok : WNode.OkL [] (blk L W d sv f v)
  one : (wtexts (blk L W d sv f v)).length ≤ 1
  text : wtexts (blk L W d sv f v) ≠ [] → f.attrs.text = true
  kid : ∀ k ∈ backs [] (blk L W d sv f v), (f.attrs.text = true ∧ ∃ s, k = .text s ∧ s ≠ []) ∨
    (f.attrs.isAttr = false ∧ f.attrs.text = false ∧ ∃ as m kk, k = .elem (nm f.label) as m kk)
  reads : ∃ ws, fieldValue d.name f ws = .ok v ∧
    (f.attrs.isAttr = true → ((Mixed.own L W d sv f v).flatMap fun a => attrWords L (wordOf L env de) f.ty a.value) = ws.map .ok ∧
      ∀ q, f.ty.core = .struct q → ∀ a ∈ Mixed.own L W d sv f v, ∀ s ∈ f.ty.attrTexts a.value,
        ∃ w, ReadsDoc L (fun b => deserU L env de b q) (attrDoc q s) (.ok w)) ∧
    (f.attrs.text = true → (ntexts (backs [] (blk L W d sv f v))).map Val.str = ws) ∧
    (f.attrs.isAttr = false → f.attrs.text = false → List.Forall₂ (Kid L env de f) (backs [] (blk L W d sv f v)) ws)

theorem field_attr (hd : PlainStruct d) {sv : Val} {f : FieldDef} (hf : f ∈ d.fields) {v : Val} (ha : f.attrs.isAttr = true)
    (h : FieldKept L env de W sv f v) : Field L env de W d sv f v := by
  have hnt : f.attrs.text = false := (hd.attr f hf ha).1
  have hb : blk L W d sv f v = [] := blk_attr v ha
  have key : ∃ ws, fieldValue d.name f ws = .ok v ∧
      ((own L W d sv f v).flatMap fun a => attrWords L (wordOf L env de) f.ty a.value) = ws.map .ok ∧
      (∀ q, f.ty.core = .struct q → ∀ a ∈ own L W d sv f v, ∀ s ∈ f.ty.attrTexts a.value,
        ∃ w, ReadsDoc L (fun b => deserU L env de b q) (attrDoc q s) (.ok w)) ∧
      (own L W d sv f v = [] ∨ ∃ val, isAttrText val = true ∧ own L W d sv f v = [⟨Name.ofStr f.label, val⟩]) := by
    have hwr := written_label hd hf
    cases h.attr ha with
    | plain t _ hty hsel hs =>
      have e : own L W d sv f v = [⟨Name.ofStr f.label, showS L v⟩] := by simp [own, encOwnBy, ha, hsel, hty, hwr]
      rw [e, hty]
      refine ⟨[v], by unfold fieldValue; rw [hty]; rfl, ?_, ?_, .inr ⟨_, hs.chars, rfl⟩⟩
      · simp [attrWords, scalar, hs.parses]
      · intro q hq; cases hq
    | some t x hty hsel hs =>
      have e : own L W d sv f (.some x) = [⟨Name.ofStr f.label, showS L x⟩] := by simp [own, encOwnBy, ha, hsel, hty, hwr]
      rw [e, hty]
      refine ⟨[x], by unfold fieldValue; rw [hty]; rfl, ?_, ?_, .inr ⟨_, hs.chars, rfl⟩⟩
      · simp [attrWords, scalar, hs.parses]
      · intro q hq; cases hq
    | user q _ hty hsel hs =>
      have e : own L W d sv f v = [⟨Name.ofStr f.label, L.emit { decl := false } (WNode.eventsL (W.tree .inner q v))⟩] := by
        simp [own, encOwnBy, ha, hsel, hty, hwr]
      rw [e, hty]
      refine ⟨[v], by unfold fieldValue; rw [hty]; rfl, ?_, ?_, .inr ⟨_, hs.1, rfl⟩⟩
      · simp [attrWords, wordOf_eq hs.2]
      · intro q' hq a hm s hs'
        cases hq
        rw [List.mem_singleton] at hm; subst hm
        rw [show FTy.attrTexts (.struct q) = fun v => [v] from rfl, List.mem_singleton] at hs'; subst hs'
        exact ⟨v, hs.2⟩
    | userSome q x hty hsel hs =>
      have e : own L W d sv f (.some x) = [⟨Name.ofStr f.label, L.emit { decl := false } (WNode.eventsL (W.tree .inner q x))⟩] := by
        simp [own, encOwnBy, ha, hsel, hty, hwr]
      rw [e, hty]
      refine ⟨[x], by unfold fieldValue; rw [hty]; rfl, ?_, ?_, .inr ⟨_, hs.1, rfl⟩⟩
      · simp [attrWords, wordOf_eq hs.2]
      · intro q' hq a hm s hs'
        cases hq
        rw [List.mem_singleton] at hm; subst hm
        rw [show FTy.attrTexts (.opt (.struct q)) = fun v => [v] from rfl, List.mem_singleton] at hs'; subst hs'
        exact ⟨x, hs.2⟩
    | absent _ hn hs =>
      refine ⟨[], fieldValue_absent _ hs, ?_⟩
      have : own L W d sv f v = [] := by
        rcases hn with hn | ⟨t, hty, rfl⟩ | ⟨t, hty⟩
        · simp [own, encOwnBy, hn]
        · simp [own, encOwnBy, hty]
        · simp [own, encOwnBy, hty]
      rw [this]
      exact ⟨rfl, (by intro q _ a hm; cases hm), .inl rfl⟩
  obtain ⟨ws, h1, h2, h3, h4⟩ := key
  refine ⟨?_, ?_, ?_, ?_, ?_, ws, h1, fun _ => ⟨h2, h3⟩, ?_, ?_⟩
  · exact h4.imp_right fun h => ⟨ha, h⟩
  · rw [hb]; trivial
  · rw [hb]; simp [wtexts]
  · rw [hb]; simp [wtexts]
  · rw [hb]; simp [backs]
  · intro h; rw [hnt] at h; cases h
  · intro h; rw [ha] at h; cases h

theorem field_text (hd : PlainStruct d) {sv : Val} {f : FieldDef} (hf : f ∈ d.fields) {v : Val} (ha : f.attrs.isAttr = false)
    (ht : f.attrs.text = true) (h : FieldKept L env de W sv f v) : Field L env de W d sv f v := by
  have hb : blk L W d sv f v = _ := blk_text v ha ht
  have how : own L W d sv f v = _ := own_elem v ha
  have key : ∃ ws, fieldValue d.name f ws = .ok v ∧ isText (fieldText v) = true ∧
      ((fieldText v = [] ∧ ws = []) ∨ (CleanText (fieldText v) ∧ ws = [.str (fieldText v)])) := by
    cases h.text ha ht with
    | str s hty hc => exact ⟨[.str s], by unfold fieldValue; rw [hty]; rfl, hc.chars, .inr ⟨hc, rfl⟩⟩
    | some s hty hc => exact ⟨[.str s], by unfold fieldValue; rw [hty]; rfl, hc.chars, .inr ⟨hc, rfl⟩⟩
    | absent _ he hc => exact ⟨[], fieldValue_absent _ hc, by rw [he]; rfl, .inl ⟨he, rfl⟩⟩
  obtain ⟨ws, h1, h2, h3⟩ := key
  have hbk : backs [] [WNode.text (fieldText v)] = textRun (fieldText v) := by simp [backs, back1]
  refine ⟨.inl how, ?_, ?_, fun _ => ht, ?_, ws, h1, ?_, ?_, ?_⟩
  · rw [hb]; exact ⟨h2, trivial⟩
  · rw [hb, wtexts_text]; split <;> simp
  · rw [hb, hbk]
    intro k hk
    unfold textRun at hk
    split at hk
    · cases hk
    · rw [List.mem_singleton] at hk; subst hk; exact .inl ⟨ht, _, rfl, by assumption⟩
  · intro h; rw [ha] at h; cases h
  · intro _
    rw [hb, hbk]
    rcases h3 with ⟨h3, rfl⟩ | ⟨h3, rfl⟩
    · rw [h3]; rfl
    · rw [textRun_clean h3]; rfl
  · intro _ h; rw [ht] at h; cases h

theorem field_elem (hd : PlainStruct d) {sv : Val} {f : FieldDef} (hf : f ∈ d.fields) {v : Val} (ha : f.attrs.isAttr = false)
    (ht : f.attrs.text = false) (h : FieldKept L env de W sv f v) : Field L env de W d sv f v := by
  have how : own L W d sv f v = _ := own_elem v ha
  have hl := (hd.fields f hf).2.2
  have key : ∃ ws, fieldValue d.name f ws = .ok v ∧ Items L env de f ws (blk L W d sv f v) := by
    by_cases ho : f.omitted sv v
    · rw [blk_omitted v ha ht ho]
      exact ⟨[], fieldValue_absent _ (h.left ha ht ho), ⟨trivial, rfl, .nil⟩⟩
    · by_cases hcd : f.attrs.cdata = true
      · obtain ⟨hty, s, rfl, hcl, hcs⟩ := h.cdata ha ht ho hcd
        rw [blk_cdata s ha ht ho hcd, written_label hd hf]
        exact ⟨[.str s], by unfold fieldValue; rw [hty]; rfl,
          items_leaf (t := .string) hl (by rw [hty]; rfl) _ s hcs (wtexts_cdata _) rfl hcl rfl⟩
      · have hcd' : f.attrs.cdata = false := by simpa using hcd
        obtain ⟨h1, h2⟩ := items_kept (h.items ha ht ho hcd')
        rw [blk_items hd hf v ha ht ho hcd']
        exact ⟨_, h2 d.name, items_flatMap _ _ fun x hx => items_one hl (h1 x hx)⟩
  obtain ⟨ws, h1, h2⟩ := key
  refine ⟨.inl how, h2.ok, ?_, ?_, ?_, ws, h1, ?_, ?_, fun _ _ => h2.kids⟩
  · rw [h2.noText]; simp
  · intro h; exact absurd h2.noText h
  · intro k hk
    obtain ⟨i, hi⟩ := List.getElem?_of_mem hk
    obtain ⟨hlt, e3⟩ := List.getElem?_eq_some_iff.mp hi
    have hlt2 : i < ws.length := by rw [← h2.kids.length_eq]; exact hlt
    obtain ⟨as, m, kk, e⟩ := (List.Forall₂.get h2.kids hlt hlt2).name
    exact .inr ⟨ha, ht, as, m, kk, by rw [← e, ← e3]; rfl⟩
  · intro h; rw [ha] at h; cases h
  · intro h; rw [ht] at h; cases h

theorem field_kept (hd : PlainStruct d) {sv : Val} {f : FieldDef} (hf : f ∈ d.fields) {v : Val}
    (h : FieldKept L env de W sv f v) : Field L env de W d sv f v := by
  cases ha : f.attrs.isAttr with
  | true => exact field_attr hd hf ha h
  | false =>
    cases ht : f.attrs.text with
    | true => exact field_text hd hf ha ht h
    | false => exact field_elem hd hf ha ht h

/-! ### All fields -/

/-- The children of the struct's element, as they are read. -/
abbrev kidsOf (L : Lib) (W : Encoding) (d : StructDef) (fs : List Val) : List Node :=
  backs [] (encFieldsBy L W d.attrs (.struct fs) d.fields fs)

theorem kids_zip (fs : List Val) :
    kidsOf L W d fs = (List.zipWith (fun f v => backs [] (blk L W d (.struct fs) f v)) d.fields fs).flatten := by
  unfold kidsOf
  rw [blk_zip, backs_flatten, List.map_zipWith]

structure All (L : Lib) (env : Env) (de : Impls) (W : Encoding) (d : StructDef) (fs : List Val) : Prop where
  plain : PlainStruct d
  len : fs.length = d.fields.length
  field : ∀ (i : Nat) (f : FieldDef) (v : Val), d.fields[i]? = some f → fs[i]? = some v → Field L env de W d (.struct fs) f v

variable {fs : List Val}

theorem all_kept (hd : PlainStruct d) (h : FieldsKept L env de W d fs) : All L env de W d fs :=
  ⟨hd, h.1, fun i f v hf hv => field_kept hd (List.mem_of_getElem? hf) (h.2 i f v hf hv)⟩

theorem All.matching (h : All L env de W d fs) {i : Nat} {f : FieldDef} {v : Val} (hf : d.fields[i]? = some f) (hv : fs[i]? = some v) :
    matching d i (kidsOf L W d fs) = if f.attrs.text then [] else backs [] (blk L W d (.struct fs) f v) := by
  unfold Yaserde.matching
  rw [kids_zip, filter_zip_unique _ _ _ _ i f v hf hv]
  · split
    · rename_i ht
      rw [List.filter_eq_nil_iff]
      intro k hk
      rcases (h.field i f v hf hv).kid k hk with ⟨-, s, rfl, -⟩ | ⟨-, h2, -⟩
      · simp
      · rw [ht] at h2; cases h2
    · rename_i ht
      rw [List.filter_eq_self]
      intro k hk
      rcases (h.field i f v hf hv).kid k hk with ⟨h1, -⟩ | ⟨h1, -, as, m, kk, rfl⟩
      · exact (ht h1).elim
      · simp [fieldFor_nm h.plain hf h1]
  · intro j g w k hg hw hk hR
    rcases (h.field j g w hg hw).kid k hk with ⟨-, s, rfl, -⟩ | ⟨h1, -, as, m, kk, rfl⟩
    · simp at hR
    · simp only [fieldFor_nm h.plain hg h1, decide_eq_true_eq, Option.some.injEq] at hR
      exact hR

theorem All.ntexts (h : All L env de W d fs) {i : Nat} {f : FieldDef} {v : Val} (hf : d.fields[i]? = some f) (hv : fs[i]? = some v)
    (ht : f.attrs.text = true) : ntexts (kidsOf L W d fs) = Yaserde.ntexts (backs [] (blk L W d (.struct fs) f v)) := by
  rw [ntexts_filter, kids_zip, filter_zip_unique _ _ _ _ i f v hf hv, ← ntexts_filter]
  intro j g w k hg hw hk hR
  rcases (h.field j g w hg hw).kid k hk with ⟨h1, -⟩ | ⟨-, -, as, m, kk, rfl⟩
  · exact h.plain.distinct j i g f hg hf (.inr ⟨h1, ht⟩)
  · simp at hR

theorem All.one (h : All L env de W d fs) : (wtexts (encFieldsBy L W d.attrs (.struct fs) d.fields fs)).length ≤ 1 := by
  rw [blk_zip, wtexts_flatten, List.map_zipWith]
  refine flatten_le_one _ ?_ ?_
  · intro b hb
    obtain ⟨i, hi⟩ := List.getElem?_of_mem hb
    obtain ⟨f, v, hf, hv, rfl⟩ := zip_get hi
    exact (h.field i f v hf hv).one
  · intro i j b c hi hj hb hc
    obtain ⟨f, v, hf, hv, rfl⟩ := zip_get hi
    obtain ⟨g, w, hg, hw, rfl⟩ := zip_get hj
    exact h.plain.distinct i j f g hf hg (.inr ⟨(h.field i f v hf hv).text hb, (h.field j g w hg hw).text hc⟩)

theorem All.okL (h : All L env de W d fs) : WNode.OkL [] (encFieldsBy L W d.attrs (.struct fs) d.fields fs) := by
  rw [okL_iff, blk_zip]
  intro k hk
  obtain ⟨i, f, v, hf, hv, hm⟩ := mem_zip_flatten hk
  exact okL_iff.mp (h.field i f v hf hv).ok k hm

/-- The attributes of the struct's element, as they are written. -/
abbrev attrsOf (L : Lib) (W : Encoding) (d : StructDef) (fs : List Val) : List Attr :=
  encOwnBy L W d.attrs (.struct fs) d.fields fs

theorem All.own_mem (h : All L env de W d fs) {a : Attr} (ha : a ∈ attrsOf L W d fs) : ∃ (i : Nat) (f : FieldDef) (v : Val),
    d.fields[i]? = some f ∧ fs[i]? = some v ∧ a ∈ own L W d (.struct fs) f v ∧ f.attrs.isAttr = true ∧ isAttrText a.value = true ∧
    a.name = Name.ofStr f.label := by
  unfold attrsOf at ha
  rw [own_zip] at ha
  obtain ⟨i, f, v, hf, hv, hm⟩ := mem_zip_flatten ha
  refine ⟨i, f, v, hf, hv, hm, ?_⟩
  rcases (h.field i f v hf hv).own with h1 | ⟨h1, val, h2, h3⟩
  · rw [h1] at hm; cases hm
  · rw [h3, List.mem_singleton] at hm; subst hm
    exact ⟨h1, h2, rfl⟩

theorem All.own_filter (h : All L env de W d fs) {i : Nat} {f : FieldDef} {v : Val} (hf : d.fields[i]? = some f) (hv : fs[i]? = some v)
    (ha : f.attrs.isAttr = true) :
    (attrsOf L W d fs).filter (fun a => decide (a.name.raw = f.label)) = own L W d (.struct fs) f v := by
  unfold attrsOf
  rw [own_zip, filter_zip_unique _ _ _ _ i f v hf hv]
  · rw [List.filter_eq_self]
    intro a hm
    rcases (h.field i f v hf hv).own with h1 | ⟨h1, val, h2, h3⟩
    · rw [h1] at hm; cases hm
    · rw [h3, List.mem_singleton] at hm; subst hm
      simp [raw_ofStr]
  · intro j g w a hg hw hm hR
    rcases (h.field j g w hg hw).own with h1 | ⟨h1, val, h2, h3⟩
    · rw [h1] at hm; cases hm
    · rw [h3, List.mem_singleton] at hm; subst hm
      simp only [raw_ofStr, decide_eq_true_eq] at hR
      exact h.plain.distinct j i g f hg hf (.inl ⟨by rw [h1, ha], hR⟩)

theorem All.attrsOk (h : All L env de W d fs) : AttrsOk [] (attrsOf L W d fs) := by
  refine ⟨?_, ?_, ?_⟩
  · intro a ha
    obtain ⟨i, f, v, hf, hv, hm, h1, h2, h3⟩ := h.own_mem ha
    rw [h3, raw_ofStr]
    exact attrName_nc (h.plain.fields f (List.mem_of_getElem? hf)).2.2 (h.plain.attr f (List.mem_of_getElem? hf) h1).2
  · intro a ha
    obtain ⟨i, f, v, hf, hv, hm, h1, h2, h3⟩ := h.own_mem ha
    exact h2
  · have key : ∀ l, ((attrsOf L W d fs).filter (fun a => decide (a.name.raw = l))).length ≤ 1 := by
      intro l
      by_cases hex : ∃ a ∈ attrsOf L W d fs, a.name.raw = l
      · obtain ⟨a, ha, rfl⟩ := hex
        obtain ⟨i, f, v, hf, hv, hm, h1, h2, h3⟩ := h.own_mem ha
        rw [h3, raw_ofStr, h.own_filter hf hv h1]
        rcases (h.field i f v hf hv).own with h4 | ⟨-, val, -, h4⟩ <;> rw [h4] <;> simp
      · have : (attrsOf L W d fs).filter (fun a => decide (a.name.raw = l)) = [] := by
          rw [List.filter_eq_nil_iff]
          intro a ha hl
          exact hex ⟨a, ha, by simpa using hl⟩
        rw [this]; simp
    revert key
    generalize attrsOf L W d fs = as
    intro key
    induction as with
    | nil => simp
    | cons a as ih =>
      rw [List.map_cons, List.nodup_cons]
      refine ⟨?_, ih ?_⟩
      · intro hm
        obtain ⟨b, hb, hbl⟩ := List.mem_map.mp hm
        have := key a.name.raw
        rw [List.filter_cons_of_pos (by simp)] at this
        have h2 : b ∈ as.filter (fun x => decide (x.name.raw = a.name.raw)) := List.mem_filter.mpr ⟨hb, by simp [hbl]⟩
        have h3 := List.length_pos_of_mem h2
        simp only [List.length_cons] at this
        omega
      · intro l
        have := key l
        rw [List.filter_cons] at this
        split at this
        · simp only [List.length_cons] at this; omega
        · exact this

/-- The attributes as they are read. -/
theorem All.read_filter (h : All L env de W d fs) {i : Nat} {f : FieldDef} {v : Val} (hf : d.fields[i]? = some f) (hv : fs[i]? = some v)
    (ha : f.attrs.isAttr = true) :
    (readAttrs [] (attrsOf L W d fs)).filter (fun a => decide (a.name.loc = f.label)) = readAttrs [] (own L W d (.struct fs) f v) := by
  rw [← h.own_filter hf hv ha]
  unfold readAttrs
  rw [List.filter_map]
  congr 1
  refine List.filter_congr ?_
  intro a hm
  obtain ⟨j, g, w, hg, -, -, -, -, h3⟩ := h.own_mem hm
  have : (readAttrName [] a.name.raw).loc = a.name.raw := by
    rw [h3, raw_ofStr, readAttr_nc (h.plain.fields g (List.mem_of_getElem? hg)).2.2]
    rfl
  simp [Function.comp, this]

/-! ### Reading it back -/

theorem like_name {x y : Node} (h : x.Like y) : x.name = y.name := by
  cases x <;> cases y <;> simp_all [Node.Like, Node.name]

theorem like_matching (d : StructDef) (i : Nat) {ys zs : List Node} (h : List.Forall₂ Node.Like ys zs) :
    List.Forall₂ Node.Like (matching d i ys) (matching d i zs) := by
  induction h with
  | nil => exact .nil
  | @cons y z ys zs hyz _ ih =>
    unfold matching at *
    rw [List.filter_cons, List.filter_cons]
    cases y with
    | text s =>
      cases z with
      | text t => simpa using ih
      | elem => simp [Node.Like] at hyz
    | elem n as m kk =>
      cases z with
      | text t => simp [Node.Like] at hyz
      | elem n' as' m' kk' =>
        have : n = n' := by simp only [Node.Like] at hyz; exact hyz.1
        subst this
        by_cases hn : d.fieldFor n = some i
        · simp only [hn, decide_true, if_true]
          exact .cons hyz ih
        · simp only [hn, decide_false]
          exact ih

theorem forall₂_get {α β : Type} {R : α → β → Prop} {as : List α} {bs : List β} (h : List.Forall₂ R as bs) {i : Nat} {a : α}
    (ha : as[i]? = some a) : ∃ b, bs[i]? = some b ∧ R a b := by
  induction h generalizing i with
  | nil => cases ha
  | cons h1 h2 ih =>
    cases i with
    | zero => cases ha; exact ⟨_, rfl, h1⟩
    | succ i => exact ih ha

theorem like_content {x y : Node} (h : x.Like y) : Node.stripL x.content = Node.stripL y.content := by
  have := congrArg Node.content (like_strip x y h)
  rwa [content_strip, content_strip] at this

/-- A child of the element that is read belongs to a field, and is what is expected of it. -/
theorem All.child (h : All L env de W d fs) {ys : List Node} (hy : List.Forall₂ Node.Like ys (kidsOf L W d fs)) {k : Node}
    (hk : k ∈ ys) : (∃ s, k = .text s ∧ s ≠ []) ∨ ∃ (i : Nat) (f : FieldDef) (z : Node) (w : Val), d.fields[i]? = some f ∧
      f.attrs.isAttr = false ∧ f.attrs.text = false ∧ k.name = nm f.label ∧ (∃ n as m kk, k = .elem n as m kk) ∧
      k.Like z ∧ Kid L env de f z w := by
  obtain ⟨j, hj⟩ := List.getElem?_of_mem hk
  obtain ⟨z, hz, hl⟩ := forall₂_get hy hj
  have hzm := List.mem_of_getElem? hz
  rw [kids_zip] at hzm
  obtain ⟨i, f, v, hf, hv, hm⟩ := mem_zip_flatten hzm
  rcases (h.field i f v hf hv).kid z hm with ⟨-, s, rfl, hs⟩ | ⟨h1, h2, as, m, kk, rfl⟩
  · cases k with
    | text t => simp only [Node.Like] at hl; subst hl; exact .inl ⟨t, rfl, hs⟩
    | elem => simp [Node.Like] at hl
  · obtain ⟨ws, -, -, -, h5⟩ := (h.field i f v hf hv).reads
    obtain ⟨j', hj'⟩ := List.getElem?_of_mem hm
    obtain ⟨w, -, hw⟩ := forall₂_get (h5 h1 h2) hj'
    refine .inr ⟨i, f, _, w, hf, h1, h2, like_name hl, ?_, hl, hw⟩
    cases k with
    | text => simp [Node.Like] at hl
    | elem n as m kk => exact ⟨n, as, m, kk, rfl⟩

theorem All.over (h : All L env de W d fs) {l : Str} (hl : d.NamedFor l) {ys : List Node}
    (hy : List.Forall₂ Node.Like ys (kidsOf L W d fs)) :
    OverImpls L env de d (nm l) (readAttrs [] (attrsOf L W d fs)) ys (decOf L env de) (wordOf L env de) where
  plain := h.plain.types
  noFlat := by
    rintro ⟨f, hf, -, h1⟩
    rw [(h.plain.fields f hf).2.1] at h1
    cases h1
  name := by
    rcases hl.2 with rfl | h1
    · left
      rw [h.plain.noNs.1, find_nil]
      exact ⟨rfl, rfl⟩
    · exact .inr (fieldFor_none h.plain h1)
  kids := by
    intro k hk
    rcases h.child hy hk with ⟨s, rfl, hs⟩ | ⟨i, f, z, w, hf, h1, h2, h3, ⟨n, as, m, kk, rfl⟩, h5, h6⟩
    · exact hs
    · simp only [Node.name] at h3
      subst h3
      refine ⟨(by intro hn; cases hn), ?_⟩
      intro i' f' t hi' hf' ht
      rw [fieldFor_nm h.plain hf h1] at hi'
      cases hi'
      rw [hf] at hf'; cases hf'
      have hs := h6.scalar t ht
      have : scalarContent L t kk = some w := by
        rw [← scalarContent_strip]
        have := like_content h5
        simp only [Node.content] at this
        rw [this, scalarContent_strip]
        exact hs
      exact textOnly_of_scalarContent this
  obey := by
    intro k hk q hq
    obtain ⟨i', f', hi', hf', ht⟩ := hq
    rcases h.child hy hk with ⟨s, rfl, hs⟩ | ⟨i, f, z, w, hf, h1, h2, h3, -, h5, h6⟩
    · obtain ⟨g, hg, hgm, hgc⟩ := fieldFor_some hi'
      have := ((claims_nm h.plain hgm []).mp hgc).2
      have hnc := (h.plain.fields g hgm).2.2
      rw [this] at hnc
      cases hnc
    · rw [h3, fieldFor_nm h.plain hf h1] at hi'
      cases hi'
      rw [hf] at hf'; cases hf'
      have hob := h6.user q ht k h5
      rw [decOf_eq hob]
      exact hob
  attrs := by
    intro f hf ha q hq a hm hal s hs
    obtain ⟨i, hi⟩ := List.getElem?_of_mem hf
    obtain ⟨v, hv⟩ : ∃ v, fs[i]? = some v :=
      ⟨_, List.getElem?_eq_getElem (by rw [h.len]; exact (List.getElem?_eq_some_iff.mp hi).1)⟩
    have hm' : a ∈ (readAttrs [] (attrsOf L W d fs)).filter (fun a => decide (a.name.loc = f.label)) :=
      List.mem_filter.mpr ⟨hm, by simp [hal]⟩
    rw [h.read_filter hi hv ha] at hm'
    obtain ⟨b, hb, rfl⟩ := List.mem_map.mp hm'
    obtain ⟨ws, -, h2, -⟩ := (h.field i f v hi hv).reads
    obtain ⟨w, hw⟩ := (h2 ha).2 q hq b hb s hs
    rw [wordOf_eq hw]
    exact hw

/-- The value is read from its element. -/
theorem All.decode (h : All L env de W d fs) {l : Str} {m : NsMap} {ys : List Node}
    (hy : List.Forall₂ Node.Like ys (kidsOf L W d fs)) :
    decodeStruct L (attrsBy (wordOf L env de)) d (nm l) (readAttrs [] (attrsOf L W d fs)) m ys (ys.map (decOf L env de)) =
      .ok (.struct fs) := by
  rw [decodeStruct_ok_iff]
  refine ⟨fs, rfl, h.len, ?_⟩
  intro i f v hf hv
  obtain ⟨ws, h1, h2, h3, h4⟩ := (h.field i f v hf hv).reads
  have hfl : f.attrs.flatten = false := (h.plain.fields f (List.mem_of_getElem? hf)).2.1
  have hflat : ∀ g, flatInputs g f = [] := by intro g; unfold flatInputs; simp [hfl]
  have hmat := like_matching d i hy
  refine ⟨ws, ?_, h1⟩
  unfold fieldInputs
  rw [hflat, List.append_nil]
  cases ha : f.attrs.isAttr with
  | true =>
    have ht := (h.plain.attr f (List.mem_of_getElem? hf) ha).1
    have hz : Yaserde.matching d i ys = [] := matching_not_elem hf (not_isElem_of_attr ha) ys
    rw [inputs_text ys hz, ht]
    simp only [Bool.false_eq_true, if_false, List.append_nil]
    unfold attrInputs
    rw [if_pos ha, h.read_filter hf hv ha, ← (h2 ha).1]
    unfold readAttrs
    rw [List.flatMap_map]
    rfl
  | false =>
    have hai : attrInputs L (userAttr (attrsBy (wordOf L env de))) f (readAttrs [] (attrsOf L W d fs)) = [] := by
      unfold attrInputs; rw [ha]; rfl
    rw [hai, List.nil_append]
    cases ht : f.attrs.text with
    | true =>
      have hz : Yaserde.matching d i ys = [] := by
        rw [h.matching hf hv, ht] at hmat
        exact List.forall₂_nil_right_iff.mp hmat
      rw [inputs_text ys hz, ht, if_pos rfl, ← h3 ht, likeL_ntexts (likeL_iff.mpr hy), h.ntexts hf hv ht, List.map_map]
      rfl
    | false =>
      rw [h.matching hf hv, ht] at hmat
      simp only [Bool.false_eq_true, if_false] at hmat
      have hk := h4 ha ht
      rcases h.plain.types.elemTy f (List.mem_of_getElem? hf) with ⟨t, hty⟩ | ⟨q, hty⟩
      · rw [inputs_matching_simple L _ d i f t hty ht]
        congr 1
        clear h1 h2 h3 h4
        revert hmat hk
        generalize backs [] (blk L W d (.struct fs) f v) = zs
        generalize Yaserde.matching d i ys = ms
        intro hmat hk
        induction hmat generalizing ws with
        | nil => cases hk; rfl
        | @cons a b _ _ hab _ ih =>
          cases hk with
          | cons hk1 hk2 =>
            have := hk1.scalar t hty
            rw [← scalarContent_strip, ← like_content hab, scalarContent_strip] at this
            rw [List.filterMap_cons, this]
            dsimp only
            rw [ih _ hk2]
      · rw [inputs_matching_struct L _ d i f q hty ht]
        clear h1 h2 h3 h4
        revert hmat hk
        generalize backs [] (blk L W d (.struct fs) f v) = zs
        generalize Yaserde.matching d i ys = ms
        intro hmat hk
        induction hmat generalizing ws with
        | nil => cases hk; rfl
        | @cons a b _ _ hab _ ih =>
          cases hk with
          | cons hk1 hk2 =>
            rw [List.map_cons, List.map_cons, decOf_eq (hk1.user q hty a hab), ih _ hk2]

theorem inherited_nil : ∀ (fds : List FieldDef) (vs : List Val), (∀ f ∈ fds, f.attrs.flatten = false) →
    encInheritedBy W fds vs = [] ∧ encInheritedDeclsBy W fds vs = [] := by
  intro fds
  induction fds with
  | nil => intro vs _; cases vs <;> exact ⟨by simp [encInheritedBy], by simp [encInheritedDeclsBy]⟩
  | cons f fds ih =>
    intro vs h
    cases vs with
    | nil => exact ⟨by simp [encInheritedBy], by simp [encInheritedDeclsBy]⟩
    | cons v vs =>
      obtain ⟨h1, h2⟩ := ih vs fun g hg => h g (List.mem_cons_of_mem _ hg)
      have hf := h f List.mem_cons_self
      exact ⟨by simp [encInheritedBy, hf, h1], by simp [encInheritedDeclsBy, hf, h2]⟩

/-- The tree of the struct. -/
theorem tree_eq (hd : PlainStruct d) {p : Path} (hp : env p = some (.struct d)) (name : Option Str) :
    encTyBy L env W ⟨name, false⟩ p (.struct fs) = [.elem (name.getD (d.attrs.rename.getD d.name)) (attrsOf L W d fs) []
      (encFieldsBy L W d.attrs (.struct fs) d.fields fs)] := by
  obtain ⟨h1, h2⟩ := inherited_nil (W := W) d.fields fs fun f hf => (hd.fields f hf).2.1
  unfold encTyBy
  rw [hp]
  dsimp only
  rw [h1, h2, List.append_nil, List.append_nil]
  unfold wrap
  rw [hd.noNs.2.2]
  have hdec : d.attrs.decls = [] := by unfold Attrs.decls; rw [hd.noNs.1]; rfl
  have hw : d.attrs.written d.name = d.attrs.rename.getD d.name := by unfold Attrs.written qualify; rw [hd.noNs.2.1]
  rw [hdec, hw]
  rfl

theorem All.elemOk (h : All L env de W d fs) {l : Str} (hl : isNCName l = true) :
    (WNode.elem l (attrsOf L W d fs) [] (encFieldsBy L W d.attrs (.struct fs) d.fields fs)).Ok [] :=
  ⟨qname_nc hl, bound_nc hl, declsOk_nil _, h.attrsOk, h.okL⟩

/-- What is read is such an element. -/
theorem All.back (h : All L env de W d fs) {l : Str} (hl : isNCName l = true) {y : Node}
    (hy : y.Like ((WNode.elem l (attrsOf L W d fs) [] (encFieldsBy L W d.attrs (.struct fs) d.fields fs)).back [])) :
    ∃ m ys, y = .elem (nm l) (readAttrs [] (attrsOf L W d fs)) m ys ∧ List.Forall₂ Node.Like ys (kidsOf L W d fs) := by
  simp only [WNode.back, List.append_nil] at hy
  rw [readElem_nc hl, backL_nil_eq _ _ h.one] at hy
  cases y with
  | text => simp [Node.Like] at hy
  | elem n as m ys =>
    simp only [Node.Like] at hy
    obtain ⟨rfl, rfl, -, -, hk⟩ := hy
    exact ⟨m, ys, rfl, likeL_iff.mp hk⟩

end

end Mixed

end Yaserde
