import Verif.Spec.Unwritten
import Verif.Proofs.Blocks
/-
The specification of what is written, for values that differ in unwritten fields only.
-/

set_option autoImplicit false

namespace Yaserde

variable {L : Lib} {env : Env}

/-- The same attributes and declarations. -/
def SameHead (L : Lib) (env : Env) (t : FTy) (a b : Val) : Prop :=
  ∀ p, t = .struct p → encTyAttrs L env p a = encTyAttrs L env p b ∧ encTyDecls env p a = encTyDecls env p b

theorem mapAttrs_id (as : List Attr) : mapAttrs id as = as := by
  unfold mapAttrs
  exact List.map_id as

theorem Alike.head {t : FTy} {a b : Val} (h : Alike id L env t a b) : SameHead L env t a b := by
  rintro p rfl
  obtain ⟨_, h2, h3⟩ := h
  rw [mapAttrs_id, mapAttrs_id] at h2
  exact ⟨h2, h3⟩

/-- One field of two values. -/
def FieldOut (L : Lib) (env : Env) (head : Prop) (self self' : Val) (f : FieldDef) (a b : Val) : Prop :=
  f.SerOk ∧
    (f.Unwritten head self self' a b ∧ (f.attrs.isAttr = false → f.attrs.flatten = true → SameHead L env f.ty a b) ∨
    (f.selected self a ↔ f.selected self' b) ∧ Alike id L env f.ty a b)

def FieldsOut (L : Lib) (env : Env) (head : Prop) (self self' : Val) (fds : List FieldDef) (as bs : List Val) : Prop :=
  as.length = bs.length ∧ ∀ (i : Nat) (f : FieldDef) (a b : Val), fds[i]? = some f → as[i]? = some a → bs[i]? = some b →
    FieldOut L env head self self' f a b

section
variable {head : Prop} {self self' : Val} {f : FieldDef} {fds : List FieldDef} {a b : Val} {as bs : List Val}

theorem FieldsOut.tail (h : FieldsOut L env head self self' (f :: fds) (a :: as) (b :: bs)) : FieldsOut L env head self self' fds as bs :=
  ⟨by simpa using h.1, fun i f a b hf ha hb => h.2 (i + 1) f a b hf ha hb⟩

theorem FieldsOut.first (h : FieldsOut L env head self self' (f :: fds) (a :: as) (b :: bs)) : FieldOut L env head self self' f a b :=
  h.2 0 f a b rfl rfl rfl

/-- A field that is written alike, by itself. -/
theorem alone (hok : f.SerOk) (hsel : f.selected self a ↔ f.selected self' b) (h : Alike id L env f.ty a b) :
    FieldsAlike id L env self self' [f] [a] [b] :=
  ⟨rfl, fun i g x y hg hx hy => by
    match i with
    | 0 => cases hg; cases hx; cases hy; exact ⟨hok, .inr ⟨hsel, h⟩⟩
    | n + 1 => cases hg⟩

theorem encFields_split (root : Attrs) :
    encFields L env root self (f :: fds) (a :: as) = encFields L env root self [f] [a] ++ encFields L env root self fds as := by
  rw [encFields.eq_def, encFields.eq_def L env root self [f]]
  dsimp only
  rw [encFields.eq_def L env root self []]
  simp

theorem encOwn_split (root : Attrs) :
    encOwn L env root self (f :: fds) (a :: as) = encOwn L env root self [f] [a] ++ encOwn L env root self fds as := by
  rw [encOwn.eq_def, encOwn.eq_def L env root self [f]]
  dsimp only
  rw [encOwn.eq_def L env root self []]
  simp

theorem unwritten_fields {root : Attrs} (h : f.Unwritten False self self' a b) :
    encFields L env root self [f] [a] = encFields L env root self' [f] [b] := by
  unfold FieldDef.Unwritten at h
  rw [encFields.eq_def, encFields.eq_def L env root self' [f]]
  dsimp only
  rw [encFields.eq_def L env root self [], encFields.eq_def L env root self' []]
  rcases ha : f.attrs.isAttr with _ | _
  · rw [ha, if_neg (by simp)] at h
    obtain ⟨ht, h⟩ := h.resolve_left id
    simp only [ht, Bool.false_eq_true, if_false]
    rcases h with h | ⟨h1, h2⟩
    · simp only [h, Bool.true_or, if_true]
    · simp only [h1, h2, decide_false, Bool.not_false, Bool.or_true, if_true]
  · rfl

theorem unwritten_own {root : Attrs} (h : f.Unwritten head self self' a b) :
    encOwn L env root self [f] [a] = encOwn L env root self' [f] [b] := by
  unfold FieldDef.Unwritten at h
  rw [encOwn.eq_def, encOwn.eq_def L env root self' [f]]
  dsimp only
  rw [encOwn.eq_def L env root self [], encOwn.eq_def L env root self' []]
  rcases ha : f.attrs.isAttr with _ | _
  · rfl
  · rw [ha, if_pos rfl] at h
    rcases h with ⟨t, ht⟩ | ⟨h1, h2⟩
    · rw [ht]
      dsimp only
      simp
    · simp only [h1, h2, decide_false, Bool.and_false, Bool.false_eq_true, if_false]

theorem FieldsOut.fields (root : Attrs) (h : FieldsOut L env False self self' fds as bs) :
    encFields L env root self fds as = encFields L env root self' fds bs := by
  induction fds generalizing as bs with
  | nil => rw [encFields.eq_def, encFields.eq_def L env root self']
  | cons f fds ih =>
  cases as with
  | nil => cases bs with
    | nil => rw [encFields.eq_def, encFields.eq_def L env root self']
    | cons => exact absurd h.1 (by simp)
  | cons a as =>
  cases bs with
  | nil => exact absurd h.1 (by simp)
  | cons b bs =>
  rw [encFields_split, encFields_split (self := self'), ih h.tail]
  congr 1
  obtain ⟨hok, ⟨h, _⟩ | ⟨hsel, h⟩⟩ := h.first
  · exact unwritten_fields h
  · have := (alone hok hsel h).fields root
    rwa [WNode.mapTextL_id, WNode.mapTextL_id] at this

theorem FieldsOut.own (root : Attrs) (h : FieldsOut L env head self self' fds as bs) :
    encOwn L env root self fds as = encOwn L env root self' fds bs := by
  induction fds generalizing as bs with
  | nil => rw [encOwn.eq_def, encOwn.eq_def L env root self']
  | cons f fds ih =>
  cases as with
  | nil => cases bs with
    | nil => rw [encOwn.eq_def, encOwn.eq_def L env root self']
    | cons => exact absurd h.1 (by simp)
  | cons a as =>
  cases bs with
  | nil => exact absurd h.1 (by simp)
  | cons b bs =>
  rw [encOwn_split, encOwn_split (self := self'), ih h.tail]
  congr 1
  obtain ⟨hok, ⟨h, _⟩ | ⟨hsel, h⟩⟩ := h.first
  · exact unwritten_own h
  · have := (alone hok hsel h).own (.inr rfl) root
    rwa [mapAttrs_id, mapAttrs_id] at this

theorem FieldOut.heads (h : FieldOut L env head self self' f a b) (ha : f.attrs.isAttr = false) (hf : f.attrs.flatten = true) :
    SameHead L env f.ty a b := by
  obtain ⟨_, ⟨_, h⟩ | ⟨_, h⟩⟩ := h
  · exact h ha hf
  · exact h.head

theorem FieldsOut.inherited (h : FieldsOut L env head self self' fds as bs) :
    encInherited L env fds as = encInherited L env fds bs ∧ encInheritedDecls env fds as = encInheritedDecls env fds bs := by
  induction fds generalizing as bs with
  | nil =>
    rw [encInherited.eq_def, encInherited.eq_def L env _ bs, encInheritedDecls.eq_def, encInheritedDecls.eq_def env _ bs]
    exact ⟨rfl, rfl⟩
  | cons f fds ih =>
  cases as with
  | nil => cases bs with
    | nil => exact ⟨rfl, rfl⟩
    | cons => exact absurd h.1 (by simp)
  | cons a as =>
  cases bs with
  | nil => exact absurd h.1 (by simp)
  | cons b bs =>
  rw [encInherited.eq_def, encInherited.eq_def L env _ (b :: bs), encInheritedDecls.eq_def, encInheritedDecls.eq_def env _ (b :: bs)]
  dsimp only
  obtain ⟨h1, h2⟩ := ih h.tail
  rw [h1, h2]
  by_cases hc : (!f.attrs.isAttr && f.attrs.flatten) = true
  · simp only [if_pos hc]
    rw [Bool.and_eq_true, Bool.not_eq_true'] at hc
    have hh := FieldOut.heads h.first hc.1 hc.2
    cases hty : f.ty with
    | struct p =>
      obtain ⟨e1, e2⟩ := hh p hty
      dsimp only
      rw [e1, e2]
      exact ⟨rfl, rfl⟩
    | _ => exact ⟨rfl, rfl⟩
  · rw [if_neg hc, if_neg hc, if_neg hc, if_neg hc]
    exact ⟨rfl, rfl⟩

end

theorem SameOut.alike (hok : SerOk env) {head : Prop} {t : FTy} {a b : Val} (h : SameOut env head t a b) :
    SameHead L env t a b ∧ (¬ head → Alike id L env t a b) := by
  induction h with
  | refl head t a => exact ⟨fun _ _ => ⟨rfl, rfl⟩, fun _ => .refl _ _⟩
  | some t a b h ih => exact ⟨fun p hp => (by cases hp), fun _ => .inr ⟨a, b, rfl, rfl, ih.2 id⟩⟩
  | vec t as bs hlen h ih =>
    exact ⟨fun p hp => (by cases hp), fun _ => .inr ⟨as, bs, rfl, rfl, forall₂_of_getElem? hlen fun i a b ha hb => (ih i a b ha hb).2 id⟩⟩
  | struct head p d as bs hp hlen O hO hflat hsel h ihf ih =>
    have hall : FieldsOut L env head (.struct as) (.struct bs) d.fields as bs := by
      refine ⟨hlen, fun i f a b hf ha hb => ⟨hok.fields p d hp f (List.mem_of_getElem? hf), ?_⟩⟩
      by_cases hi : O i
      · exact .inl ⟨hO i f a b hf ha hb hi, fun h1 h2 q hq => (ihf i f a b hf ha hb hi h1 h2 q hq).1 q rfl⟩
      · exact .inr ⟨hsel i f a b hf ha hb hi, (ih i f a b hf ha hb hi).2 id⟩
    obtain ⟨h1, h2⟩ := hall.inherited
    have h3 := hall.own d.attrs
    have hd : encTyDecls env p (.struct as) = encTyDecls env p (.struct bs) := by
      rw [encTyDecls.eq_def, encTyDecls.eq_def env p (.struct bs), hp]
      dsimp only
      rw [h2]
    have hA : encTyAttrs L env p (.struct as) = encTyAttrs L env p (.struct bs) := by
      rw [encTyAttrs.eq_def, encTyAttrs.eq_def L env p (.struct bs), hp]
      dsimp only
      rw [h1, h3]
    refine ⟨fun q hq => (by cases hq; exact ⟨hA, hd⟩), fun hh => ⟨fun pl => ?_, by rw [hA], hd⟩⟩
    have hff : head = False := eq_false hh
    subst hff
    rw [encTy.eq_def, encTy.eq_def L env pl p (.struct bs), hp]
    dsimp only
    rw [h1, h2, h3, hall.fields d.attrs]
  | newtype p d i vd t a b hp hv hs h ih =>
    have := Alike.newtype (L := L) hok hp hv hs (ih.2 id)
    exact ⟨this.head, fun _ => this⟩
  | named p d i vd fds as bs hp hv hs hlen h ih =>
    have hx : Alike id L env (.struct p) (.enum i as) (.enum i bs) :=
      .named_plain hok hp hv hs hlen fun j f a b hf ha hb hn => (ih j f a b hf ha hb hn).2 id
    exact ⟨hx.head, fun _ => hx⟩
  | variant p d i as bs hp =>
    refine ⟨?_, fun hh => (hh trivial).elim⟩
    rintro q ⟨rfl⟩
    rw [encTyAttrs.eq_def, encTyAttrs.eq_def L env p (.enum i bs), encTyDecls.eq_def, encTyDecls.eq_def env p (.enum i bs), hp]
    exact ⟨rfl, rfl⟩
  | untagged p d i j as bs hp ht =>
    refine ⟨?_, fun hh => (hh trivial).elim⟩
    rintro q ⟨rfl⟩
    rw [encTyAttrs.eq_def, encTyAttrs.eq_def L env p (.enum j bs), encTyDecls.eq_def, encTyDecls.eq_def env p (.enum j bs), hp]
    have : ∀ k : Nat, (match d.variants[k]? with | Option.some vd => tagAttrs d vd | none => ([] : List Attr)) = [] := by
      intro k
      unfold tagAttrs
      rw [ht]
      rcases d.variants[k]? with _ | _ <;> rfl
    exact ⟨(this i).trans (this j).symm, rfl⟩

end Yaserde
