import Verif.Proofs.Layout
import Verif.Proofs.Encode
import Verif.Proofs.XmlLaw
import Verif.Proofs.Levels
/-
The serializers of a program with plain names write events with plain names, whatever the values are.
-/

set_option autoImplicit false

namespace Yaserde

open XmlText (WEv.Plain qname)

/-- The events written so far have plain names, and so has the next element. -/
structure PlainSr (s : Sr) : Prop where
  out : ∀ w ∈ s.writer.out, WEv.Plain w
  name : ∀ n, s.startName = some n → TagName n

/-- The computation keeps to plain names. -/
def Tidy {α : Type} (x : S α) : Prop := ∀ s, PlainSr s → PlainSr (x s).2

theorem Tidy.bind {α β : Type} {x : S α} {f : α → S β} (h : Tidy x) (hf : ∀ a, Tidy (f a)) : Tidy (x >>= f) := by
  intro s hs
  have h1 := h s hs
  show PlainSr (M.bind x f s).2
  unfold M.bind
  cases hx : x s with
  | mk r s1 =>
    rw [hx] at h1
    cases r with
    | ok a => exact hf a s1 h1
    | err m => exact h1
    | panic m => exact h1
    | diverge => exact h1

theorem Tidy.pure {α : Type} (a : α) : Tidy (M.pure a : S α) := fun _ h => h
theorem Tidy.panic {α : Type} (m : Str) : Tidy (M.panic m : S α) := fun _ h => h
theorem Tidy.diverge {α : Type} : Tidy (M.diverge : S α) := fun _ h => h

theorem Tidy.attempt {α : Type} {x : S α} (h : Tidy x) : Tidy (M.attempt x) := by
  intro s hs
  have h1 := h s hs
  unfold M.attempt
  cases hx : x s with
  | mk r s1 => rw [hx] at h1; cases r <;> exact h1

theorem Tidy.mapErr {m : Str} {x : S Unit} (h : Tidy x) : Tidy (mapErr m x) := by
  intro s hs
  have h1 := h s hs
  unfold Yaserde.mapErr
  cases hx : x s with
  | mk r s1 => rw [hx] at h1; cases r <;> exact h1

theorem Tidy.ite {α : Type} {c : Prop} [Decidable c] {x y : S α} (hx : c → Tidy x) (hy : ¬ c → Tidy y) : Tidy (if c then x else y) := by
  split
  · exact hx ‹_›
  · exact hy ‹_›

theorem tidy_flags {n : Option Str} (hn : ∀ s, n = some s → TagName s) (b : Bool) : Tidy (setFlags n b) :=
  fun _ h => ⟨h.out, hn⟩

theorem tidy_write {e : WEv} (he : WEv.Plain e) : Tidy (swrite e) := by
  intro s hs
  have hout : ∀ w ∈ s.writer.out ++ [e], WEv.Plain w := by
    intro w hw
    rcases List.mem_append.1 hw with hw | hw
    · exact hs.out w hw
    · rw [List.mem_singleton.1 hw]; exact he
  unfold swrite EW.write
  refine ⟨?_, hs.name⟩
  dsimp only
  split
  · exact hs.out
  · split
    · exact hout
    · split
      · exact hs.out
      · split
        · exact hout
        · split
          · exact hout
          · exact hs.out
    · exact hout

theorem tidy_start {n : Str} (h : TagName n) : Tidy (swrite (.start (Name.ofStr n) [] [])) :=
  tidy_write ⟨by rw [XmlText.qname_ofStr]; exact h, fun a ha => absurd ha List.not_mem_nil, fun a ha => absurd ha List.not_mem_nil⟩

theorem tidy_chars (s : Str) : Tidy (swrite (.chars s)) := tidy_write trivial
theorem tidy_end : Tidy (swrite (.endE none)) := tidy_write trivial

theorem tidy_enclose {l : Str} (h : TagName l) (s : Str) : Tidy (encloseChars l s) :=
  (tidy_start h).bind fun _ => (tidy_chars s).bind fun _ => tidy_end

theorem tidy_cdata {l : Str} (h : TagName l) (s : Str) : Tidy (encloseCdata l s) :=
  (tidy_start h).bind fun _ => (tidy_write (e := .cdata s) trivial).bind fun _ => tidy_end

theorem tidy_builtin (L : Lib) (v : Val) : Tidy (serBuiltin L v) := ((tidy_chars _).attempt).bind fun _ => Tidy.pure _

theorem tidy_text (v : Val) : Tidy (serText v) := by
  unfold serText
  split
  · exact tidy_chars _
  · exact tidy_chars _
  · exact tidy_chars _
  · exact Tidy.panic _

/-- Read the state: the next element has a plain name. -/
theorem Tidy.get {α : Type} {f : Sr → S α} (h : ∀ s, PlainSr s → Tidy (f s)) : Tidy (M.get >>= f) := fun s hs => h s hs s hs

theorem tagName_getD {n : Option Str} (h : ∀ s, n = some s → TagName s) {d : Str} (hd : TagName d) : TagName (n.getD d) := by
  cases n with
  | none => exact hd
  | some s => exact h s rfl

theorem tidy_prim (L : Lib) {d : PrimDef} (hd : TagName d.name) (v : Val) : Tidy (serPrim L d v) := by
  unfold serPrim
  refine Tidy.ite (fun _ => ((tidy_chars _).attempt).bind fun _ => Tidy.pure _) fun _ => ?_
  refine Tidy.get fun s hs => ?_
  refine Tidy.bind (Tidy.ite (fun _ => Tidy.pure _) fun _ => (tidy_start (tagName_getD hs.name hd)).mapErr) fun _ => ?_
  exact Tidy.bind (tidy_chars _).mapErr fun _ => Tidy.ite (fun _ => Tidy.pure _) fun _ => tidy_end.mapErr

/-! ### Attributes and namespaces -/

def PlainMap (m : NsMap) : Prop := ∀ d ∈ m, '<' ∉ d.1 ∧ '<' ∉ d.2

def PlainAttrs (as : List Attr) : Prop := ∀ a ∈ as, '<' ∉ qname a.name

theorem plain_put {m : NsMap} (h : PlainMap m) {p u : Str} (hp : '<' ∉ p) (hu : '<' ∉ u) : PlainMap (m.put p u) := by
  unfold NsMap.put
  split
  · exact h
  · intro d hd
    rcases List.mem_cons.1 ((NsMap.insert_perm p u m).mem_iff.1 hd) with rfl | hd
    · exact ⟨hp, hu⟩
    · exact h d hd

theorem plain_extend {m o : NsMap} (h : PlainMap m) (ho : PlainMap o) : PlainMap (m.extend o) := by
  unfold NsMap.extend
  induction o generalizing m with
  | nil => exact h
  | cons e o ih =>
    rw [List.foldl_cons]
    exact ih (plain_put h (ho e List.mem_cons_self).1 (ho e List.mem_cons_self).2) fun d hd => ho d (List.mem_cons_of_mem _ hd)

theorem plain_nil : PlainMap [] := fun _ h => absurd h List.not_mem_nil

theorem plain_nsDef {a : Attrs} (h : a.PlainNs) : PlainMap (namespacesDef a) := by
  unfold namespacesDef
  have g : ∀ (l m : NsMap), (∀ e ∈ l, '<' ∉ e.1 ∧ '<' ∉ e.2) → PlainMap m →
      PlainMap (l.foldl (fun m e => if a.defaultNs = some e.1 then m.put [] e.2 else m.put e.1 e.2) m) := by
    intro l
    induction l with
    | nil => exact fun m _ hm => hm
    | cons e l ih =>
      intro m hl hm
      rw [List.foldl_cons]
      refine ih _ (fun d hd => hl d (List.mem_cons_of_mem _ hd)) ?_
      have he := hl e List.mem_cons_self
      split
      · exact plain_put hm List.not_mem_nil he.2
      · exact plain_put hm he.1 he.2
  exact g _ _ h plain_nil

/-- The attributes of an element have plain names. -/
structure PlainAcc (x : AttrAcc) : Prop where
  own : PlainAttrs x.own
  child : PlainAttrs x.child
  childNs : PlainMap x.childNs

theorem plainAcc_empty : PlainAcc {} :=
  ⟨fun _ h => absurd h List.not_mem_nil, fun _ h => absurd h List.not_mem_nil, plain_nil⟩

def PlainRes (r : Res AttrAcc) : Prop := ∀ x, r = .ok x → PlainAcc x

theorem resBind_inv {α β : Type} {r : Res α} {f : α → Res β} {b : β} (h : r.bind f = .ok b) : ∃ a, r = .ok a ∧ f a = .ok b := by
  cases r with
  | ok a => exact ⟨a, rfl, h⟩
  | err m => cases h
  | panic m => cases h
  | diverge => cases h

theorem plain_addOwn {root : Attrs} {f : FieldDef} (hf : TagName (f.written root)) (c : Bool) (s : Str) {x : AttrAcc} (h : PlainAcc x) :
    PlainAcc (addOwn root f c s x) := by
  unfold addOwn
  split
  · refine ⟨fun a ha => ?_, h.child, h.childNs⟩
    rcases List.mem_cons.1 ha with rfl | ha
    · show '<' ∉ qname (Name.ofStr (f.renamedLabel root))
      rw [XmlText.qname_ofStr, renamedLabel_eq]
      exact hf.1
    · exact h.own a ha
  · exact h

/-- The implementations that the generated code calls keep to plain names. -/
structure SerRec.Plain (R : SerRec) : Prop where
  ser : ∀ p v, Tidy (R.ser p v)
  attrs : ∀ p v as m, R.attrs p v = .ok (as, m) → PlainAttrs as ∧ PlainMap m

section
variable {L : Lib} {R : SerRec} (hR : R.Plain)
include hR

theorem plain_structAttrs {root : Attrs} (self : Val) {fs : List FieldDef} (hfs : ∀ f ∈ fs, TagName (f.written root)) (vs : List Val) :
    PlainRes (structAttrsBy L R root self fs vs) := by
  induction fs generalizing vs with
  | nil =>
    intro x hx
    rw [structAttrsBy.eq_def] at hx
    cases hx
    exact plainAcc_empty
  | cons f fs ih =>
    have hf := hfs f List.mem_cons_self
    cases vs with
    | nil =>
      intro x hx
      rw [structAttrsBy.eq_def] at hx
      cases hx
      exact plainAcc_empty
    | cons v vs =>
      have h1 := ih (fun g hg => hfs g (List.mem_cons_of_mem _ hg)) vs
      have own : ∀ (c : Bool) (s : Str) (x : AttrAcc),
          ((structAttrsBy L R root self fs vs).bind fun rest => .ok (addOwn root f c s rest)) = .ok x → PlainAcc x := by
        intro c s x hx
        obtain ⟨y, hy, e⟩ := resBind_inv hx
        cases e
        exact plain_addOwn hf c s (h1 y hy)
      intro x hx
      rw [structAttrsBy.eq_def] at hx
      dsimp only at hx
      split at hx
      · split at hx
        · exact own _ _ x hx
        · exact own _ _ x hx
        · obtain ⟨y, _, e⟩ := resBind_inv hx
          exact own _ _ x e
        · exact h1 x hx
        · obtain ⟨y, _, e⟩ := resBind_inv hx
          exact own _ _ x e
        · exact h1 x hx
        · cases hx
      · split at hx
        · split at hx
          · obtain ⟨⟨as, m⟩, hy, e⟩ := resBind_inv hx
            obtain ⟨z, hz, e⟩ := resBind_inv e
            cases e
            have hp := hR.attrs _ _ as m hy
            have hz := h1 z hz
            refine ⟨hz.own, fun a ha => ?_, plain_extend (plain_extend plain_nil hp.2) hz.childNs⟩
            rcases List.mem_append.1 ha with ha | ha
            · exact hp.1 a ha
            · exact hz.child a ha
          · exact h1 x hx
        · exact h1 x hx

theorem tidy_items (p : Path) {flags : S Unit} (hfl : Tidy flags) (xs : List Val) : Tidy (serItemsBy L R p flags xs) := by
  induction xs with
  | nil => rw [serItemsBy]; exact Tidy.pure _
  | cons x xs ih => rw [serItemsBy]; exact hfl.bind fun _ => (hR.ser p x).bind fun _ => ih

omit hR in
theorem tidy_noFlags (b : Bool) : Tidy (setFlags none b) := tidy_flags (fun _ h => by cases h) b

theorem tidy_optItems (t : FTy) (xs : List Val) : Tidy (serOptItemsBy L R t xs) := by
  induction xs with
  | nil => rw [serOptItemsBy]; exact Tidy.pure _
  | cons x xs ih =>
    rw [serOptItemsBy.eq_def]
    split
    · exact Tidy.pure _
    · rename_i h
      cases h
      refine (tidy_noFlags _).bind fun _ => Tidy.bind ?_ fun _ => ih
      split
      · exact hR.ser _ _
      · exact tidy_builtin L _
    · rename_i h
      cases h
      exact ih

omit hR in
theorem tidy_foldr {f : Val → S Unit} (hf : ∀ x, Tidy (f x)) (xs : List Val) :
    Tidy (xs.foldr (fun x k => f x >>= fun _ => k) (M.pure ())) := by
  induction xs with
  | nil => exact Tidy.pure _
  | cons x xs ih => exact (hf x).bind fun _ => ih

theorem tidy_fields {root : Attrs} (self : Val) {fs : List FieldDef} (hfs : ∀ f ∈ fs, TagName (f.written root)) (vs : List Val) :
    Tidy (serFieldsBy L R root self fs vs) := by
  induction fs generalizing vs with
  | nil => rw [serFieldsBy.eq_def]; exact Tidy.pure _
  | cons f fs ih =>
    have hf : TagName (f.renamedLabel root) := by rw [renamedLabel_eq]; exact hfs f List.mem_cons_self
    have hfl : Tidy (setFlags (if f.attrs.flatten then none else some (f.renamedLabel root)) f.attrs.flatten) := by
      refine tidy_flags (fun s hs => ?_) _
      split at hs
      · cases hs
      · cases hs; exact hf
    cases vs with
    | nil => rw [serFieldsBy.eq_def]; exact Tidy.pure _
    | cons v vs =>
      rw [serFieldsBy.eq_def]
      dsimp only
      refine Tidy.bind ?_ fun _ => ih (fun g hg => hfs g (List.mem_cons_of_mem _ hg)) vs
      refine Tidy.ite (fun _ => Tidy.pure _) fun _ => Tidy.ite (fun _ => tidy_text v) fun _ => Tidy.ite (fun _ => Tidy.pure _) fun _ =>
        Tidy.ite (fun _ => ?_) fun _ => ?_
      · split
        · exact tidy_cdata hf _
        · exact Tidy.panic _
      · split
        · exact tidy_enclose hf _
        · exact tidy_enclose hf _
        · exact tidy_foldr (fun x => tidy_enclose hf _) _
        · exact hfl.bind fun _ => hR.ser _ _
        · exact Tidy.pure _
        · exact hfl.bind fun _ => hR.ser _ _
        · exact tidy_foldr (fun x => tidy_enclose hf _) _
        · exact tidy_optItems hR _ _
        · exact tidy_items hR _ hfl _
        · exact Tidy.panic _

theorem tidy_variantItems {l : Str} (hl : TagName l) (t : FTy) (xs : List Val) : Tidy (serVariantItemsBy L R l t xs) := by
  induction xs with
  | nil => rw [serVariantItemsBy]; exact Tidy.pure _
  | cons x xs ih =>
    rw [serVariantItemsBy.eq_def]
    dsimp only
    refine (tidy_start hl).bind fun _ => Tidy.bind ?_ fun _ => tidy_end.bind fun _ => ih
    split
    · exact tidy_chars _
    · exact (tidy_noFlags _).bind fun _ => hR.ser _ _
    · exact (tidy_noFlags _).bind fun _ => tidy_builtin L _

theorem tidy_variant {root : Attrs} {vd : VariantDef} (hv : TagName (vd.written root)) (pl : List Val) :
    Tidy (serVariantBy L R root vd pl) := by
  rw [← buildLabelName_eq] at hv
  rw [serVariantBy.eq_def]
  split
  · exact Tidy.ite (fun _ => Tidy.pure _) fun _ => tidy_chars _
  · exact tidy_enclose hv _
  · exact tidy_enclose hv _
  · exact (tidy_start hv).bind fun _ => (tidy_noFlags _).bind fun _ => (hR.ser _ _).bind fun _ => tidy_end
  · exact (tidy_start hv).bind fun _ => (tidy_noFlags _).bind fun _ => (tidy_builtin L _).bind fun _ => tidy_end
  · exact Tidy.pure _
  · exact tidy_variantItems hR hv _ _
  · exact Tidy.ite (fun _ => hR.ser _ _) fun _ =>
      (tidy_start hv).bind fun _ => (tidy_noFlags _).bind fun _ => (hR.ser _ _).bind fun _ => tidy_end
  · exact Tidy.panic _

theorem tidy_named {root : Attrs} {fs : List FieldDef} (hfs : ∀ f ∈ fs, TagName (f.written root)) (vs : List Val) :
    Tidy (serNamedBy L R root fs vs) := by
  induction fs generalizing vs with
  | nil => rw [serNamedBy.eq_def]; exact Tidy.pure _
  | cons f fs ih =>
    have hf : TagName (f.renamedLabel root) := by rw [renamedLabel_eq]; exact hfs f List.mem_cons_self
    have hfl : Tidy (setFlags (some (f.renamedLabel root)) false) := tidy_flags (fun s hs => by cases hs; exact hf) _
    cases vs with
    | nil => rw [serNamedBy.eq_def]; exact Tidy.pure _
    | cons v vs =>
      rw [serNamedBy.eq_def]
      dsimp only
      refine Tidy.bind ?_ fun _ => ih (fun g hg => hfs g (List.mem_cons_of_mem _ hg)) vs
      split
      · exact tidy_enclose hf _
      · exact hfl.bind fun _ => hR.ser _ _
      · exact tidy_items hR _ hfl _
      · rename_i xs _ _
        induction xs with
        | nil => exact Tidy.pure _
        | cons x xs ihx => exact hfl.bind fun _ => (tidy_builtin L x).bind fun _ => ihx
      · exact Tidy.pure _
      · exact Tidy.panic _

omit hR in
theorem tidy_impl {a : Attrs} {root : Str} (hr : TagName root) (hns : a.PlainNs) {acc : Res AttrAcc} (hacc : PlainRes acc)
    {inner : S Unit} (hi : Tidy inner) : Tidy (implSerializer a root acc inner) := by
  unfold implSerializer
  refine Tidy.get fun s hs => ?_
  refine Tidy.bind (Tidy.ite (fun _ => ?_) fun _ => Tidy.pure _) fun _ => hi.bind fun _ =>
    Tidy.ite (fun _ => tidy_end) fun _ => Tidy.pure _
  intro t ht
  show PlainSr (M.bind _ _ t).2
  unfold M.bind M.lift
  cases hacc' : acc with
  | ok x =>
    have hx := hacc x hacc'
    refine tidy_write (e := .start _ _ _) ⟨?_, fun b hb => ?_, plain_extend (plain_nsDef hns) hx.childNs⟩ t ht
    · rw [XmlText.qname_ofStr]
      exact tagName_getD hs.name hr
    · rcases List.mem_append.1 hb with hb | hb
      · exact hx.own b hb
      · exact hx.child b hb
  | err m => exact ht
  | panic m => exact ht
  | diverge => exact ht

omit hR in
theorem plain_enumAttrs {d : EnumDef} (h : ∀ t, d.attrs.tag = some t → '<' ∉ t) (v : VariantDef) : PlainAcc (enumAttrs d v) := by
  unfold enumAttrs
  split
  · rename_i t ht
    refine ⟨fun _ h => absurd h List.not_mem_nil, fun a ha => ?_, plain_nil⟩
    rw [List.mem_singleton.1 ha]
    exact h t ht
  · exact plainAcc_empty

theorem tidy_serTyBy {env : Env} (henv : PlainNames env) (p : Path) (v : Val) : Tidy (serTyBy L env R p v) := by
  unfold serTyBy
  split
  · rename_i d fs hd
    obtain ⟨h1, h2, h3⟩ := henv p _ hd
    rw [← serRootName_eq] at h1
    exact tidy_impl h1 h2 (plain_structAttrs hR _ h3 fs) (tidy_fields hR _ h3 fs)
  · rename_i d i pl hd
    obtain ⟨h1, h2, h3, h4⟩ := henv p _ hd
    rw [← serRootName_eq] at h1
    split
    · rename_i vd hvd
      obtain ⟨h5, h6⟩ := h4 vd (List.mem_of_getElem? hvd)
      refine tidy_impl h1 h2 (fun x hx => by cases hx; exact plain_enumAttrs h3 vd) ?_
      split
      · rename_i fds hs
        exact tidy_named hR (h6 fds hs) pl
      · exact tidy_variant hR h5 pl
    · exact Tidy.panic _
  · rename_i d hd
    exact tidy_prim L (henv p _ hd) _
  · exact Tidy.panic _

omit hR in
theorem plain_serializeAttributes {a : Attrs} (hns : a.PlainNs) {acc : Res AttrAcc} (hacc : PlainRes acc) {as : List Attr} {m : NsMap}
    (h : serializeAttributes a acc = .ok (as, m)) : PlainAttrs as ∧ PlainMap m := by
  unfold serializeAttributes at h
  obtain ⟨x, hx, e⟩ := resBind_inv h
  cases e
  have hx := hacc x hx
  refine ⟨fun b hb => ?_, plain_extend (plain_extend plain_nil (plain_nsDef hns)) hx.childNs⟩
  rcases List.mem_append.1 hb with hb | hb
  · exact hx.own b hb
  · exact hx.child b hb

theorem plain_attrsOfBy {env : Env} (henv : PlainNames env) (p : Path) (v : Val) {as : List Attr} {m : NsMap}
    (h : attrsOfBy L env R p v = .ok (as, m)) : PlainAttrs as ∧ PlainMap m := by
  unfold attrsOfBy at h
  split at h
  · rename_i d fs hd
    obtain ⟨h1, h2, h3⟩ := henv p _ hd
    exact plain_serializeAttributes h2 (plain_structAttrs hR _ h3 fs) h
  · rename_i d i pl hd
    obtain ⟨h1, h2, h3, h4⟩ := henv p _ hd
    split at h
    · exact plain_serializeAttributes h2 (fun x hx => by cases hx; exact plain_enumAttrs h3 _) h
    · cases h
  · cases h
    exact ⟨fun _ h => absurd h List.not_mem_nil, plain_nil⟩
  · cases h

end

theorem plain_serB (L : Lib) {env : Env} (henv : PlainNames env) (n : Nat) : (serB L env (fun _ => none) .diverge n).Plain := by
  induction n with
  | zero => exact ⟨fun _ _ => Tidy.diverge, fun _ _ _ _ h => by cases h⟩
  | succ n ih => exact ⟨fun p v => tidy_serTyBy ih henv p v, fun p v as m h => plain_attrsOfBy ih henv p v h⟩

/-- Whatever the value is, the events that are written have plain names. -/
theorem tidy_serTy (L : Lib) {env : Env} (henv : PlainNames env) (p : Path) (v : Val) : Tidy (serTy L env p v) := by
  have h := (plain_serB L henv (v.levels + 1)).ser p v
  rw [(serB_nests L env .diverge (v.levels + 1)).ser p v (nests_levels env _ p v (Nat.lt_succ_self _))] at h
  exact h

end Yaserde
