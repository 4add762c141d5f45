import Verif.Proofs.Forward
import Verif.Props.Decode
import Verif.Props.Sound
import Verif.Spec.Sources
/-
C69: nothing in the result of `from_str` is invented.  No assumption about the document; what follows from it for C14, C19
and C11.
-/

set_option autoImplicit false
set_option maxRecDepth 100000

namespace Yaserde

theorem sources_suffix (d : StructDef) (i : Nat) (f : FieldDef) {R R' : List REv} (h : Later R R') :
    ∃ mid, sources d i f R = mid ++ sources d i f R' := by
  rcases h with ⟨t, rfl⟩ | rfl
  · induction t with
    | nil => exact ⟨[], rfl⟩
    | cons e t ih =>
      obtain ⟨mid, ih⟩ := ih
      exact ⟨sourceHere d i f (e :: (t ++ R')) ++ mid, by rw [List.cons_append, sources, ih, List.append_assoc]⟩
  · exact ⟨sources d i f R, by simp [sources, sourceHere]⟩

theorem MadeFrom.later {L : Lib} {env : Env} {k : Nat} {R R' : List REv} {p : Path} {v : Val} (h : Later R R')
    (hm : MadeFrom L env k R' p v) : MadeFrom L env k R p v := by
  cases k with
  | zero => trivial
  | succ k =>
    unfold MadeFrom at hm ⊢
    split
    · rename_i d hd
      rw [hd] at hm
      obtain ⟨vs, rfl, hlen, hvs⟩ := hm
      refine ⟨vs, rfl, hlen, fun i f h1 h3 => ?_⟩
      obtain ⟨w, hw, us, ss, hss, hus, hv⟩ := hvs i f h1 h3
      obtain ⟨mid, hmid⟩ := sources_suffix d i f h
      exact ⟨w, hw, us, ss, by rw [hmid]; exact hss.trans (List.sublist_append_right ..), hus, hv⟩
    · trivial

/-- What has been put into the variable of a field so far comes from the sources before `R`. -/
def SlotFrom (L : Lib) (env : Env) (k : Nat) (d : StructDef) (i : Nat) (f : FieldDef) (E R : List REv) (s : Slot) : Prop :=
  ∃ us ss pre, s = slotOf f us ∧ sources d i f E = pre ++ sources d i f R ∧ ss.Sublist pre ∧
    List.Forall₂ (Source.Gives L env (MadeFrom L env k) f) us ss

theorem SlotFrom.more {L : Lib} {env : Env} {k : Nat} {d : StructDef} {i : Nat} {f : FieldDef} {E R R' : List REv} {s s' : Slot}
    (h : SlotFrom L env k d i f E R s)
    (hs : ∀ us, s = slotOf f us → ∃ us' ss' mid, s' = slotOf f (us ++ us') ∧ sources d i f R = mid ++ sources d i f R' ∧
      ss'.Sublist mid ∧ List.Forall₂ (Source.Gives L env (MadeFrom L env k) f) us' ss') : SlotFrom L env k d i f E R' s' := by
  obtain ⟨us, ss, pre, h1, h2, h3, h4⟩ := h
  obtain ⟨us', ss', mid, h5, h6, h7, h8⟩ := hs us h1
  exact ⟨us ++ us', ss ++ ss', pre ++ mid, h5, by rw [h2, h6, List.append_assoc], h3.append h7, List.rel_append h4 h8⟩

theorem foldRes_put {α : Type} {Q : Val → α → Prop} (g : α → Res Val) (f : FieldDef) (hg : ∀ a v, g a = .ok v → Q v a) :
    ∀ (l : List α) (us : List Val) (s' : Slot),
      foldRes (fun s a => (g a).bind fun v => .ok (s.put v)) (slotOf f us) l = .ok s' →
      ∃ us', s' = slotOf f (us ++ us') ∧ List.Forall₂ Q us' l
  | [], us, s', h => by
    simp only [foldRes, Res.ok.injEq] at h
    exact ⟨[], by simpa using h.symm, .nil⟩
  | a :: l, us, s', h => by
    simp only [foldRes] at h
    rw [Res.bind_eq_ok] at h
    obtain ⟨s1, h1, h⟩ := h
    rw [Res.bind_eq_ok] at h1
    obtain ⟨v, hv, h1⟩ := h1
    simp only [Res.ok.injEq] at h1
    subst h1
    rw [put_slotOf] at h
    obtain ⟨us', h2, h3⟩ := foldRes_put g f hg l _ s' h
    exact ⟨v :: us', by rw [h2]; simp, .cons (hg a v hv) h3⟩

theorem visitAttr_gives {L : Lib} {env : Env} {n : Nat} {sub : List REv → Path → Val → Prop} {f : FieldDef} {w : Str} {v : Val}
    (h : visitAttr L (deser L env n) f.ty.core w = .ok v) : Source.Gives L env sub f v (.piece w) := by
  unfold visitAttr at h
  unfold Source.Gives
  split at h
  · rename_i t ht
    simp only [ht]
    split at h
    · rename_i x hx
      simp only [Res.ok.injEq] at h
      rw [hx, h]
    · simp at h
  · rename_i q hq
    simp only [hq]
    exact ⟨by simp, n, h⟩
  · simp at h

theorem loadAttrField_sources {L : Lib} {env : Env} {n : Nat} {sub : List REv → Path → Val → Prop} {f : FieldDef} :
    ∀ {as : List Attr} {us : List Val} {s' : Slot}, loadAttrField L (deser L env n) f as (slotOf f us) = .ok s' →
      ∃ us', s' = slotOf f (us ++ us') ∧ List.Forall₂ (Source.Gives L env sub f) us'
        ((as.filter fun a => a.name.loc = f.label).flatMap fun a => (f.ty.attrTexts a.value).map .piece)
  | [], us, s', h => by
    simp only [loadAttrField, foldRes, Res.ok.injEq] at h
    exact ⟨[], by simpa using h.symm, .nil⟩
  | a :: as, us, s', h => by
    unfold loadAttrField at h
    simp only [foldRes] at h
    rw [Res.bind_eq_ok] at h
    obtain ⟨s1, h1, h⟩ := h
    have key : ∃ us1, s1 = slotOf f (us ++ us1) ∧ List.Forall₂ (Source.Gives L env sub f) us1
        (([a].filter fun a => a.name.loc = f.label).flatMap fun a => (f.ty.attrTexts a.value).map .piece) := by
      by_cases hn : a.name.loc = f.label
      · rw [if_pos hn] at h1
        rw [List.filter_cons_of_pos (by simpa using hn), List.filter_nil, List.flatMap_cons, List.flatMap_nil, List.append_nil]
        have one : ∀ {v : Val}, visitAttr L (deser L env n) f.ty.core a.value = .ok v → Source.Gives L env sub f v (.piece a.value) :=
          fun hv => visitAttr_gives hv
        split at h1
        · rename_i t ht
          obtain ⟨us1, h2, h3⟩ := foldRes_put (Q := fun v w => Source.Gives L env sub f v (.piece w)) _ f
            (fun w v hv => visitAttr_gives (n := n) (by rw [ht]; exact hv)) _ us s1 h1
          refine ⟨us1, h2, ?_⟩
          rw [ht]
          exact List.forall₂_map_right_iff.mpr h3
        · rename_i hnv
          rw [Res.bind_eq_ok] at h1
          obtain ⟨v, hv, h1⟩ := h1
          simp only [Res.ok.injEq] at h1
          subst h1
          have : f.ty.attrTexts a.value = [a.value] := by
            unfold FTy.attrTexts
            split
            · rename_i t ht
              exact (hnv t ht).elim
            · rfl
          rw [this]
          exact ⟨[v], put_slotOf .., .cons (one hv) .nil⟩
      · rw [if_neg hn] at h1
        simp only [Res.ok.injEq] at h1
        rw [List.filter_cons_of_neg (by simpa using hn)]
        exact ⟨[], by simpa using h1.symm, .nil⟩
    obtain ⟨us1, rfl, h2⟩ := key
    obtain ⟨us2, h3, h4⟩ := loadAttrField_sources (n := n) (sub := sub) (f := f) (as := as) (us := us ++ us1) (s' := s') h
    refine ⟨us1 ++ us2, by rw [h3, List.append_assoc], ?_⟩
    rw [show a :: as = [a] ++ as from rfl, List.filter_append, List.flatMap_append]
    exact List.rel_append h2 h4

theorem tracks_sources (L : Lib) (env : Env) (k n : Nat) (d : StructDef) (i : Nat) (f : FieldDef) (hf : d.fields[i]? = some f)
    (E : List REv) (ih : ∀ q rd v rd', deser L env n q rd = (.ok v, rd') → MadeFrom L env k rd.visible q v) :
    Tracks L (deser L env n) d i f (SlotFrom L env k d i f E) where
  field := hf
  later R R' s hl h := h.more fun us hus => by
    obtain ⟨mid, hmid⟩ := sources_suffix d i f hl
    exact ⟨[], [], mid, by simpa using hus, hmid, List.nil_sublist _, .nil⟩
  scalar _ n' as m R s t str v hff hty hv h := h.more fun us hus => by
    refine ⟨[v], [.piece str], sourceHere d i f (.start n' as m :: .chars str :: .endE n' :: R) ++
        sourceHere d i f (.chars str :: .endE n' :: R) ++ sourceHere d i f (.endE n' :: R),
      by rw [hus, put_slotOf], ?_, ?_, .cons ?_ .nil⟩
    · simp only [sources, List.append_assoc]
    · rw [List.append_assoc]
      refine List.Sublist.trans ?_ (List.sublist_append_left ..)
      simp only [sourceHere, hff, hty, if_true]
      exact List.sublist_append_right ..
    · simp only [Source.Gives, hty]
      exact hv
  nested n' as m R R' s q v rd1 rd2 hff hty hl hrec hl' h := h.more fun us hus => by
    obtain ⟨mid, hmid⟩ := sources_suffix d i f hl'
    refine ⟨[v], [.elem (.start n' as m :: R)], sourceHere d i f (.start n' as m :: R) ++ mid,
      by rw [hus, put_slotOf], ?_, ?_, .cons ?_ .nil⟩
    · rw [sources, hmid, List.append_assoc]
    · refine List.Sublist.trans ?_ (List.sublist_append_left ..)
      simp only [sourceHere, hff, hty, if_true]
      exact List.sublist_append_right ..
    · simp only [Source.Gives, hty]
      exact (ih q rd1 v rd2 hrec).later hl
  attr ha n' as m R R' s s' hl hload h := h.more fun us hus => by
    subst hus
    obtain ⟨us', h1, h2⟩ := loadAttrField_sources (sub := MadeFrom L env k) hload
    obtain ⟨mid, hmid⟩ := sources_suffix d i f hl
    refine ⟨us', _, sourceHere d i f (.start n' as m :: R) ++ mid, h1, ?_, ?_, h2⟩
    · rw [sources, hmid, List.append_assoc]
    · refine List.Sublist.trans ?_ (List.sublist_append_left ..)
      simp only [sourceHere, ha, if_true]
      exact List.sublist_append_left ..
  text t R s h s' hs := by
    simp only [setText, List.cons.injEq, and_true] at hs
    have keep : SlotFrom L env k d i f E R s := h.more fun us hus =>
      ⟨[], [], sourceHere d i f (.chars t :: R), by simpa using hus, rfl, List.nil_sublist _, .nil⟩
    by_cases ht : f.attrs.text = true
    · rw [if_pos ht] at hs
      have new : f.ty.core = .simple .string → (∀ u, f.ty ≠ .vec u) → SlotFrom L env k d i f E R (.one (some (.str t))) := by
        intro _ hnv
        refine h.more fun us hus => ⟨[.str t], [.text t], sourceHere d i f (.chars t :: R), ?_, rfl, ?_, .cons rfl .nil⟩
        · unfold slotOf
          split
          · rename_i u hu
            exact (hnv u hu).elim
          · simp
        · simp [sourceHere, ht]
      split at hs
      · rename_i hty
        rw [← hs]
        exact new (by rw [hty]; rfl) (by simp [hty])
      · rename_i hty
        split at hs
        · rw [← hs]
          obtain ⟨us, ss, pre, h1, h2, h3, h4⟩ := keep
          exact ⟨[], [], pre, by simp [slotOf, hty], h2, List.nil_sublist _, .nil⟩
        · rw [← hs]
          exact new (by rw [hty]; rfl) (by simp [hty])
      · rw [← hs]
        exact keep
    · rw [if_neg ht] at hs
      rw [← hs]
      exact keep

theorem deser_madeFrom (L : Lib) (env : Env) : ∀ (n k : Nat) (p : Path) (rd : Rd) (v : Val) (rd' : Rd),
    deser L env n p rd = (.ok v, rd') → MadeFrom L env k rd.visible p v
  | 0, k, p, rd, v, rd', h => by simp [deser, M.diverge] at h
  | _ + 1, 0, _, _, _, _, _ => trivial
  | n + 1, k + 1, p, rd, v, rd', h => by
    unfold MadeFrom
    split
    · rename_i d hd
      simp only [deser, hd] at h
      obtain ⟨vs, rfl, hlen⟩ := (Fwd.structDeser L (Fwd.deser L env n) n d rd).2 v (by rw [h])
      refine ⟨vs, rfl, hlen, fun i f hf hfl => ?_⟩
      have hT := tracks_sources L env k n d i f hf rd.visible fun q rd v rd' h => deser_madeFrom L env n k q rd v rd' h
      have hinit : Slot.init f.ty = slotOf f [] := by
        unfold Slot.init slotOf
        cases f.ty <;> rfl
      obtain ⟨vs', hvs', w, hw, s, ⟨us, ss, pre, rfl, h2, h3, h4⟩, hb⟩ :=
        (hT.deser (Fwd.deser L env n) n hfl ⟨[], [], [], hinit, rfl, List.nil_sublist _, .nil⟩).2 (.struct vs) (by rw [h])
      cases hvs'
      rw [buildField_slotOf] at hb
      exact ⟨w, hw, us, ss, by rw [h2]; exact h3.trans (List.sublist_append_left ..), h4, hb⟩
    · trivial

/-- C69.  Whatever the document — conforming or not, even malformed — and whatever the program: if `from_str` succeeds, the
value is made from what is in the document, at every depth.  Each field that is not flattened is what the documented rule
makes of some of the field's occurrences in the document, in document order, each used at most once. -/
theorem C69_made_from_document (L : Lib) (env : Env) (p : Path) (s : Str) (v : Val) (h : Returns L env p s (.ok v)) (k : Nat) :
    MadeFrom L env k (content (L.parse s).evs) p v := by
  obtain ⟨-, n, hn⟩ := h
  have := deser_madeFrom L env n k p (Rd.new (L.parse s)) v (deser L env n p (Rd.new (L.parse s))).2 (Prod.ext hn rfl)
  rw [content_eq]
  exact this

/-- A document with misplaced, malformed and repeated content. -/
example : MadeFrom Tests.lib Trip.env 5 (content (Tests.lib.parse Trip.odd).evs) [c!"Dir"] Trip.oddVal :=
  C69_made_from_document _ _ _ _ _ Trip.reads_odd 5

/-- The event has to do with field number `i`, `f`: it is the start tag of an element that belongs to it, or has an
attribute with its name, or is character data. -/
def REv.Mentions (d : StructDef) (i : Nat) (f : FieldDef) : REv → Prop
  | .start n as _ => d.fieldFor n = some i ∨ (f.attrs.isAttr = true ∧ ∃ a ∈ as, a.name.loc = f.attrs.rename.getD f.ident)
  | .chars _ => f.attrs.text = true
  | _ => False

theorem sources_eq_nil {d : StructDef} {i : Nat} {f : FieldDef} : ∀ {E : List REv}, (∀ e ∈ E, ¬ e.Mentions d i f) →
    sources d i f E = []
  | [], _ => rfl
  | e :: E, h => by
    rw [sources, sources_eq_nil fun e' h' => h e' (List.mem_cons_of_mem _ h'), List.append_nil]
    have he := h e (List.mem_cons_self ..)
    cases e with
    | chars s =>
      have : ¬ f.attrs.text = true := he
      simp [sourceHere, this]
    | start n as m =>
      have h1 : d.fieldFor n ≠ some i := fun h => he (.inl h)
      have h2 : (if f.attrs.isAttr then
          (as.filter fun a => a.name.loc = f.label).flatMap fun a => (f.ty.attrTexts a.value).map Source.piece else []) = [] := by
        split
        · rename_i ha
          rw [List.filter_eq_nil_iff.mpr]
          · rfl
          · intro a haa hn
            exact he (.inr ⟨ha, a, haa, of_decide_eq_true hn⟩)
        · rfl
      simp only [sourceHere, h1, h2, if_false, List.append_nil]
    | _ => rfl

/-- C14, for every document: a field nothing in the document has to do with is empty, `None` or has its default, and there
is no successful result if it is required. -/
theorem C14_absent (L : Lib) (env : Env) (p : Path) (d : StructDef) (hp : env p = some (.struct d)) (s : Str) (v : Val)
    (h : Returns L env p s (.ok v)) (i : Nat) (f : FieldDef) (hf : d.fields[i]? = some f)
    (hfl : f.attrs.isAttr = true ∨ f.attrs.flatten = false) (habs : ∀ e ∈ content (L.parse s).evs, ¬ e.Mentions d i f) :
    ∃ vs, v = .struct vs ∧
      match f.ty, f.dflt with
      | .vec _, _ => vs[i]? = some (.vec [])
      | .opt _, _ => vs[i]? = some .none
      | _, some dv => vs[i]? = some dv.val
      | _, none => False := by
  have hm := C69_made_from_document L env p s v h 1
  unfold MadeFrom at hm
  rw [hp] at hm
  obtain ⟨vs, rfl, -, hvs⟩ := hm
  refine ⟨vs, rfl, ?_⟩
  obtain ⟨w, hw, us, ss, hss, hus, h2⟩ := hvs i f hf hfl
  rw [sources_eq_nil habs, List.sublist_nil] at hss
  subst hss
  cases hus
  unfold fieldValue at h2
  cases hty : f.ty with
  | vec t => simp only [hty, Res.ok.injEq] at h2 ⊢; rw [hw, ← h2]
  | opt t => simp only [hty, List.getLast?_nil, Res.ok.injEq] at h2 ⊢; rw [hw, ← h2]
  | simple t =>
    cases hd : f.dflt with
    | some dv => simp only [hty, hd, List.getLast?_nil, Res.ok.injEq] at h2 ⊢; rw [hw, ← h2]
    | none => simp [hty, hd] at h2
  | struct q =>
    cases hd : f.dflt with
    | some dv => simp only [hty, hd, List.getLast?_nil, Res.ok.injEq] at h2 ⊢; rw [hw, ← h2]
    | none => simp [hty, hd] at h2

instance (d : StructDef) (i : Nat) (f : FieldDef) : DecidablePred (REv.Mentions d i f)
  | .start _ _ _ => inferInstanceAs (Decidable (_ ∨ _))
  | .chars _ => inferInstanceAs (Decidable (_ = _))
  | .endE _ => .isFalse id
  | .startDocument => .isFalse id
  | .endDocument => .isFalse id
  | .pi _ _ => .isFalse id
  | .comment _ => .isFalse id
  | .cdata _ => .isFalse id
  | .ws _ => .isFalse id

open Sample in
/-- `stock` occurs nowhere in this document, which does not conform. -/
example : ∃ vs, Val.struct [.int 7, .vec [], .str c!"T", .vec [], .vec [], .enum 3 [.int 1], .none, .none, .int 5] = .struct vs ∧
    vs[8]? = some (.int 5) :=
  C14_absent Tests.lib env [c!"Book"] book env_book
    c!"<book id=\"7\"><title>T</title><color><x><Grey>1</Grey></x></color></book>" _ (Tests.returns_of_deOk (by decide +kernel)) 8 _ rfl
    (.inr rfl) (by decide +kernel)

/-- C19, for every document: if all elements with the field's name, at whatever depth, are in another namespace than the
one bound to the field's prefix, nothing is stored in the field. -/
theorem C19_child_namespace (L : Lib) (env : Env) (p : Path) (d : StructDef) (hp : env p = some (.struct d)) (s : Str) (v : Val)
    (h : Returns L env p s (.ok v)) (i : Nat) (f : FieldDef) (hf : d.fields[i]? = some f)
    (he : f.attrs.isAttr = false ∧ f.attrs.flatten = false) (htext : f.attrs.text = false)
    (hother : ∀ n as m, .start n as m ∈ (L.parse s).evs → n.loc = f.attrs.rename.getD f.ident →
      n.ns.getD [] ≠ (d.attrs.namespaces.find f.attrs.pfx).getD []) :
    ∃ vs, v = .struct vs ∧
      match f.ty, f.dflt with
      | .vec _, _ => vs[i]? = some (.vec [])
      | .opt _, _ => vs[i]? = some .none
      | _, some dv => vs[i]? = some dv.val
      | _, none => False := by
  refine C14_absent L env p d hp s v h i f hf (.inr he.2) fun e hmem hm => ?_
  cases e with
  | start n as m =>
    rcases hm with hm | hm
    · obtain ⟨g, hg, -, hcl⟩ := fieldFor_some hm
      rw [hf] at hg
      cases hg
      exact hother n as m (List.mem_of_mem_filter hmem) hcl.2.2.symm hcl.2.1.symm
    · rw [he.1] at hm
      cases hm.1
  | chars t => 
    have : f.attrs.text = true := hm
    rw [htext] at this
    cases this
  | _ => exact hm

open Sample in
/-- An author with an age in another namespace. -/
example : ∃ vs, Val.struct [.str c!"A", .none] = .struct vs ∧ vs[1]? = some .none :=
  C19_child_namespace Tests.lib env [c!"Author"] author env_author textX _ (Tests.returns_of_deOk (by decide +kernel)) 1 _ rfl
    ⟨rfl, rfl⟩ rfl (by
      have h : ∀ e ∈ (Tests.lib.parse textX).evs, (match e with
          | .start n _ _ => decide (n.loc = c!"age" → n.ns.getD [] ≠ [])
          | _ => true) = true := by decide +kernel
      intro n as m hm
      exact of_decide_eq_true (h _ hm))

theorem length_sources {d : StructDef} {i : Nat} {f : FieldDef} (ha : f.attrs.isAttr = false) (ht : f.attrs.text = false) :
    ∀ (E : List REv), (sources d i f E).length ≤
      E.countP fun e => match e with | .start n _ _ => decide (d.fieldFor n = some i) | _ => false
  | [] => Nat.le_refl _
  | e :: E => by
    have ih := length_sources (d := d) (i := i) ha ht E
    rw [sources, List.length_append, List.countP_cons, Nat.add_comm]
    refine Nat.add_le_add ih ?_
    cases e with
    | chars s => simp [sourceHere, ht]
    | start n as m =>
      simp only [sourceHere, ha, Bool.false_eq_true, if_false, List.nil_append]
      by_cases hf : d.fieldFor n = some i
      · simp only [hf, if_true, decide_true]
        split
        · simp
        · split <;> simp
        · exact Nat.zero_le _
      · simp [hf]
    | _ => exact Nat.zero_le _

/-- C11, the upper bound, for every document: a `Vec` field never has more items than there are elements in the document
that belong to it. -/
theorem C11_no_more_items (L : Lib) (env : Env) (p : Path) (d : StructDef) (hp : env p = some (.struct d)) (s : Str)
    (vs : List Val) (h : Returns L env p s (.ok (.struct vs))) (i : Nat) (f : FieldDef) (hf : d.fields[i]? = some f) (t : FTy)
    (hty : f.ty = .vec t) (he : f.attrs.isAttr = false ∧ f.attrs.flatten = false) (htext : f.attrs.text = false) :
    ∃ ws, vs[i]? = some (.vec ws) ∧ ws.length ≤
      (content (L.parse s).evs).countP fun e => match e with | .start n _ _ => decide (d.fieldFor n = some i) | _ => false := by
  have hm := C69_made_from_document L env p s _ h 1
  unfold MadeFrom at hm
  rw [hp] at hm
  obtain ⟨vs', hvs', -, hvs⟩ := hm
  cases hvs'
  obtain ⟨w, hw, us, ss, hss, hus, h2⟩ := hvs i f hf (.inr he.2)
  unfold fieldValue at h2
  rw [hty] at h2
  cases h2
  refine ⟨us, hw, ?_⟩
  rw [hus.length_eq]
  exact Nat.le_trans hss.length_le (length_sources he.1 htext _)

open Sample in
/-- The items of the sample document's authors. -/
example : ∃ ws, val1[3]? = some (.vec ws) ∧ ws.length ≤
    (content (Tests.lib.parse text1).evs).countP fun e => match e with | .start n _ _ => decide (book.fieldFor n = some 3) | _ => false :=
  C11_no_more_items Tests.lib env [c!"Book"] book env_book text1 val1 ok1.returns 3 _ rfl _ rfl ⟨rfl, rfl⟩ rfl

end Yaserde
