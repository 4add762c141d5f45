import Verif.Spec.Evolve
import Verif.Spec.Fields
import Verif.Proofs.Fields
import Mathlib.Data.List.Forall2
/-
The two versions of a program read an element in step.
-/

set_option autoImplicit false

namespace Yaserde

/-- One of the two succeeding, the other does too, with a related value. -/
def Foll {α β : Type} (down : Bool) (R : α → β → Prop) (r : Res α) (r' : Res β) : Prop :=
  match down with
  | true => ∀ b, r' = .ok b → ∃ a, r = .ok a ∧ R a b
  | false => ∀ a, r = .ok a → ∃ b, r' = .ok b ∧ R a b

section
variable {α β γ δ : Type} {down : Bool} {R : α → β → Prop} {S : γ → δ → Prop}

theorem Foll.ok {a : α} {b : β} (h : R a b) : Foll down R (.ok a) (.ok b) := by
  cases down
  · intro x hx; cases hx; exact ⟨b, rfl, h⟩
  · intro x hx; cases hx; exact ⟨a, rfl, h⟩

theorem Foll.fail {r : Res α} {r' : Res β} (h : ∀ a, r ≠ .ok a) (h' : ∀ b, r' ≠ .ok b) : Foll down R r r' := by
  cases down
  · intro x hx; exact absurd hx (h x)
  · intro x hx; exact absurd hx (h' x)

theorem Foll.bind {r : Res α} {r' : Res β} {f : α → Res γ} {g : β → Res δ} (h : Foll down R r r')
    (hf : ∀ a b, R a b → Foll down S (f a) (g b)) : Foll down S (r.bind f) (r'.bind g) := by
  cases down
  · intro x hx
    obtain ⟨a, ha, hx⟩ := Res.bind_eq_ok.mp hx
    obtain ⟨b, hb, hab⟩ := h a ha
    obtain ⟨y, hy, hxy⟩ := hf a b hab x hx
    exact ⟨y, Res.bind_eq_ok.mpr ⟨b, hb, hy⟩, hxy⟩
  · intro x hx
    obtain ⟨a, ha, hx⟩ := Res.bind_eq_ok.mp hx
    obtain ⟨b, hb, hab⟩ := h a ha
    obtain ⟨y, hy, hxy⟩ := hf b a hab x hx
    exact ⟨y, Res.bind_eq_ok.mpr ⟨b, hb, hy⟩, hxy⟩

theorem Foll.refl {R : α → α → Prop} (hR : ∀ a, R a a) (r : Res α) : Foll down R r r := by
  cases down
  · intro x hx; exact ⟨x, hx, hR x⟩
  · intro x hx; exact ⟨x, hx, hR x⟩

theorem Foll.mapL_down {rs : List (Res α)} {rs' : List (Res β)} (h : List.Forall₂ (Foll true R) rs rs')
    {bs : List β} (hb : rs' = bs.map .ok) : ∃ as, rs = as.map .ok ∧ List.Forall₂ R as bs := by
  induction h generalizing bs with
  | nil => cases bs with | nil => exact ⟨[], rfl, .nil⟩ | cons => cases hb
  | cons h1 h2 ih =>
    cases bs with
    | nil => cases hb
    | cons b bs =>
      simp only [List.map_cons, List.cons.injEq] at hb
      obtain ⟨a, ha, hab⟩ := h1 b hb.1
      obtain ⟨as, has, hr⟩ := ih hb.2
      exact ⟨a :: as, by rw [ha, has]; rfl, .cons hab hr⟩

theorem Foll.mapL_up {rs : List (Res α)} {rs' : List (Res β)} (h : List.Forall₂ (Foll false R) rs rs')
    {as : List α} (ha : rs = as.map .ok) : ∃ bs, rs' = bs.map .ok ∧ List.Forall₂ R as bs := by
  induction h generalizing as with
  | nil => cases as with | nil => exact ⟨[], rfl, .nil⟩ | cons => cases ha
  | cons h1 h2 ih =>
    cases as with
    | nil => cases ha
    | cons a as =>
      simp only [List.map_cons, List.cons.injEq] at ha
      obtain ⟨b, hb, hab⟩ := h1 a ha.1
      obtain ⟨bs, hbs, hr⟩ := ih ha.2
      exact ⟨b :: bs, by rw [hb, hbs]; rfl, .cons hab hr⟩

end

section
variable {env env' : Env}

theorem NoFlatten.inputs {env : Env} (hnf : NoFlatten env) {p : Path} {d : StructDef} (hp : env p = some (.struct d))
    {f : FieldDef} (hf : f ∈ d.fields) (flat : Path → Res Val) : flatInputs flat f = [] := by
  unfold flatInputs
  cases h : f.attrs.isAttr with
  | true => simp
  | false => simp [hnf p d hp f hf h]

theorem cut_simple_iff {t : STy} {v v' : Val} (h : Cut env env' (.simple t) v v') : v = v' := by
  cases h; rfl

/-- The same texts, read for an attribute field. -/
theorem attrInputs_foll {down : Bool} {L : Lib} {user user' : Path → Str → Res Val} {f f' : FieldDef}
    (hid : f'.ident = f.ident) (hty : f'.ty = f.ty) (hat : f'.attrs = f.attrs) (as : List Attr)
    (hu : ∀ q, f.ty.core = .struct q → ∀ s, Foll down (Cut env env' (.struct q)) (user q s) (user' q s)) :
    List.Forall₂ (Foll down (Cut env env' f.ty.core)) (attrInputs L user f as) (attrInputs L user' f' as) := by
  have hlab : f'.label = f.label := by unfold FieldDef.label; rw [hid, hat]
  have hscalar : ∀ t s, Foll down (Cut env env' (.simple t)) (scalar L t s) (scalar L t s) :=
    fun t s => Foll.refl (fun a => .simple t a) _
  have hmap : ∀ {α : Type} {R : Val → Val → Prop} (F G : α → Res Val) (l : List α), (∀ a, Foll down R (F a) (G a)) →
      List.Forall₂ (Foll down R) (l.map F) (l.map G) := by
    intro α R F G l h
    induction l with
    | nil => exact .nil
    | cons a l ih => exact .cons (h a) ih
  have hw : ∀ s, List.Forall₂ (Foll down (Cut env env' f.ty.core)) (attrWords L user f.ty s)
      (attrWords L user' f.ty s) := by
    intro s
    generalize f.ty = ty at hu ⊢
    unfold attrWords
    rcases ty with t | t | t | q
    · exact .cons (hscalar _ _) .nil
    · rcases t with t | t | t | q
      · exact .cons (hscalar _ _) .nil
      · exact .nil
      · exact .nil
      · exact .cons (hu q rfl s) .nil
    · rcases t with t | t | t | q
      · exact hmap _ _ _ fun a => hscalar _ _
      · exact .nil
      · exact .nil
      · exact hmap _ _ _ fun a => hu q rfl a
    · exact .cons (hu q rfl s) .nil
  unfold attrInputs
  rw [hat, hlab, hty]
  cases f.attrs.isAttr with
  | false => exact .nil
  | true =>
    simp only [if_true]
    generalize as.filter (fun a => decide (a.name.loc = f.label)) = l
    induction l with
    | nil => exact .nil
    | cons a l ih =>
      rw [List.flatMap_cons, List.flatMap_cons]
      exact List.rel_append (hw a.value) ih

theorem fieldFor_claims {d : StructDef} {n : Name} {i : Nat} (h : d.fieldFor n = some i) :
    ∃ f, d.fields[i]? = some f ∧ f.claims d.attrs n := by
  unfold StructDef.fieldFor at h
  rw [List.findIdx?_eq_some_iff_getElem] at h
  obtain ⟨hi, hc, -⟩ := h
  exact ⟨_, List.getElem?_eq_getElem hi, of_decide_eq_true hc⟩

theorem fieldFor_isSome {d : StructDef} {n : Name} {i : Nat} {f : FieldDef} (hf : d.fields[i]? = some f)
    (hc : f.claims d.attrs n) : ∃ j, d.fieldFor n = some j := by
  cases h : d.fieldFor n with
  | some j => exact ⟨j, rfl⟩
  | none =>
    unfold StructDef.fieldFor at h
    rw [List.findIdx?_eq_none_iff] at h
    have := h f (List.mem_of_getElem? hf)
    simp [hc] at this

theorem claims_kept {d d' : StructDef} {f f' : FieldDef} (hid : f'.ident = f.ident) (hat : f'.attrs = f.attrs)
    (hd : d'.attrs = d.attrs) (n : Name) : f'.claims d'.attrs n ↔ f.claims d.attrs n := by
  unfold FieldDef.claims FieldDef.isElem
  rw [hid, hat, hd]

/-- The element belongs to the field in one version exactly if it does in the other. -/
theorem GrowStruct.fieldFor {d d' : StructDef} (h : GrowStruct env env' d d') {i j : Nat} {f f' : FieldDef}
    (hf : d.fields[i]? = some f) (hf' : d'.fields[j]? = some f') (hk : KeptField env env' f f') (n : Name) :
    d'.fieldFor n = some j ↔ d.fieldFor n = some i := by
  constructor
  · intro h1
    obtain ⟨g', hg', hc⟩ := fieldFor_claims h1
    rw [hf'] at hg'; cases hg'
    obtain ⟨i2, h2⟩ := fieldFor_isSome hf ((claims_kept hk.ident hk.attrs h.attrs n).mp hc)
    obtain ⟨g, hg, hcg⟩ := fieldFor_claims h2
    obtain ⟨g', hg', hkg⟩ := h.kept g (List.mem_of_getElem? hg)
    obtain ⟨j2, hj2⟩ := List.mem_iff_getElem?.mp hg'
    have := h.elems j2 j g' f' n hj2 hf' ((claims_kept hkg.ident hkg.attrs h.attrs n).mpr hcg) hc
    subst this
    rw [hf'] at hj2; cases hj2
    rw [h2, h.idents i2 i g f hg hf (by rw [← hkg.ident, hk.ident])]
  · intro h1
    obtain ⟨g, hg, hc⟩ := fieldFor_claims h1
    rw [hf] at hg; cases hg
    have hc' := (claims_kept hk.ident hk.attrs h.attrs n).mpr hc
    obtain ⟨j2, h2⟩ := fieldFor_isSome hf' hc'
    obtain ⟨g', hg', hcg⟩ := fieldFor_claims h2
    rw [h2, h.elems j2 j g' f' n hg' hf' hcg hc']

theorem kidInputs_foll {down : Bool} {L : Lib} {dec dec' : Node → Path → Res Val} {d d' : StructDef}
    (h : GrowStruct env env' d d') {i j : Nat} {f f' : FieldDef}
    (hf : d.fields[i]? = some f) (hf' : d'.fields[j]? = some f') (hk : KeptField env env' f f') (x : Node)
    (hd : ∀ q, f.ty.core = .struct q → Foll down (Cut env env' (.struct q)) (dec x q) (dec' x q)) :
    List.Forall₂ (Foll down (Cut env env' f.ty.core)) (kidInputs L dec d i f x) (kidInputs L dec' d' j f' x) := by
  cases x with
  | text s =>
    unfold kidInputs
    rw [hk.attrs]
    cases ht : f.attrs.text with
    | false => exact .nil
    | true =>
      have : f.ty.core = .simple .string := by
        rcases h.plain.textTy f' (List.mem_of_getElem? hf') (by rw [hk.attrs, ht]) with h1 | h1
        · rw [← hk.ty, h1]; rfl
        · rw [← hk.ty, h1]; rfl
      rw [this]
      exact .cons (.ok (.simple _ _)) .nil
  | elem n as m ks =>
    unfold kidInputs
    dsimp only
    rw [hk.ty]
    by_cases hm : d.fieldFor n = some i
    · rw [if_pos hm, if_pos ((h.fieldFor hf hf' hk n).mpr hm)]
      generalize f.ty.core = c at hd ⊢
      rcases c with t | t | t | q
      · dsimp only
        cases scalarContent L t ks with
        | none => exact .nil
        | some v => exact .cons (.ok (.simple _ _)) .nil
      · exact .nil
      · exact .nil
      · exact .cons (hd q rfl) .nil
    · rw [if_neg hm, if_neg (fun h1 => hm ((h.fieldFor hf hf' hk n).mp h1))]
      exact .nil

theorem fieldInputs_foll {down : Bool} {L : Lib} {dec dec' flat flat' : Node → Path → Res Val} {d d' : StructDef}
    (h : GrowStruct env env' d d') {i j : Nat} {f f' : FieldDef}
    (hf : d.fields[i]? = some f) (hf' : d'.fields[j]? = some f') (hk : KeptField env env' f f')
    (hnf : ∀ g : Path → Res Val, flatInputs g f = []) (hnf' : ∀ g : Path → Res Val, flatInputs g f' = [])
    (n : Name) (as : List Attr) (m : NsMap) (ks : List Node)
    (hu : ∀ q, f.ty.core = .struct q → ∀ s, Foll down (Cut env env' (.struct q)) (flat (.text s) q) (flat' (.text s) q))
    (hd : ∀ x ∈ ks, ∀ q, f.ty.core = .struct q → Foll down (Cut env env' (.struct q)) (dec x q) (dec' x q)) :
    List.Forall₂ (Foll down (Cut env env' f.ty.core)) (fieldInputs L dec flat d n as m ks i f)
      (fieldInputs L dec' flat' d' n as m ks j f') := by
  unfold fieldInputs
  rw [hnf, hnf', List.append_nil, List.append_nil]
  refine List.rel_append (attrInputs_foll hk.ident hk.ty hk.attrs as hu) ?_
  induction ks with
  | nil => exact .nil
  | cons x ks ih =>
    rw [List.flatMap_cons, List.flatMap_cons]
    exact List.rel_append (kidInputs_foll h hf hf' hk x (hd x (List.mem_cons_self ..)))
      (ih fun y hy => hd y (List.mem_cons_of_mem _ hy))

theorem forall₂_last {R : Val → Val → Prop} {as bs : List Val} (h : List.Forall₂ R as bs) :
    (as.getLast? = none ∧ bs.getLast? = none) ∨ ∃ a b, as.getLast? = some a ∧ bs.getLast? = some b ∧ R a b := by
  induction h with
  | nil => exact .inl ⟨rfl, rfl⟩
  | cons h1 h2 ih =>
    cases h2 with
    | nil => exact .inr ⟨_, _, rfl, rfl, h1⟩
    | cons h3 h4 =>
      rw [List.getLast?_cons_cons, List.getLast?_cons_cons]
      exact ih

theorem cut_vec {t : FTy} {as bs : List Val} (h : List.Forall₂ (Cut env env' t) as bs) :
    Cut env env' (.vec t) (.vec as) (.vec bs) :=
  .vec t as bs h.length_eq fun i v v' hv hv' => by
    induction h generalizing i with
    | nil => simp at hv
    | cons h1 h2 ih =>
      cases i with
      | zero =>
        simp only [List.getElem?_cons_zero, Option.some.injEq] at hv hv'
        subst hv hv'; exact h1
      | succ i => exact ih i (by simpa using hv) (by simpa using hv')

/-- Related inputs make related fields. -/
theorem fieldValue_foll {down : Bool} {d d' : StructDef} (hname : d'.name = d.name) {f f' : FieldDef}
    (hk : KeptField env env' f f') {as bs : List Val} (h : List.Forall₂ (Cut env env' f.ty.core) as bs) :
    Foll down (Cut env env' f.ty) (fieldValue d.name f as) (fieldValue d'.name f' bs) := by
  have hdf := hk.dflt
  have req : f.ty.core = f.ty → Foll down (Cut env env' f.ty)
      (match as.getLast?, f.dflt with
        | some v, _ => Res.ok v
        | none, some dv => .ok dv.val
        | none, none => .err (f.ident ++ c!" is a required field of " ++ d.name))
      (match bs.getLast?, f'.dflt with
        | some v, _ => Res.ok v
        | none, some dv => .ok dv.val
        | none, none => .err (f'.ident ++ c!" is a required field of " ++ d'.name)) := by
    intro hc
    rw [hc] at h
    rcases forall₂_last h with ⟨h1, h2⟩ | ⟨a, b, h1, h2, hab⟩
    · rw [h1, h2]
      unfold DfltCut at hdf
      cases h3 : f.dflt with
      | none =>
        cases h4 : f'.dflt with
        | none => exact .fail (by simp) (by simp)
        | some b => rw [h3, h4] at hdf; exact hdf.elim
      | some a =>
        cases h4 : f'.dflt with
        | none => rw [h3, h4] at hdf; exact hdf.elim
        | some b => rw [h3, h4] at hdf; exact .ok hdf
    · rw [h1, h2]; exact .ok hab
  unfold fieldValue
  rw [hk.ty]
  generalize hty : f.ty = ty at h req ⊢
  rcases ty with t | t | t | q
  · exact req rfl
  · dsimp only
    rcases forall₂_last h with ⟨h1, h2⟩ | ⟨a, b, h1, h2, hab⟩
    · rw [h1, h2]; exact .ok (.none t)
    · rw [h1, h2]; exact .ok (.some t a b hab)
  · exact .ok (cut_vec h)
  · exact req rfl

/-- A field in one version is made from its inputs as it is in the other. -/
theorem field_foll {down : Bool} {d d' : StructDef} (hname : d'.name = d.name) {f f' : FieldDef}
    (hk : KeptField env env' f f') {rs rs' : List (Res Val)}
    (h : List.Forall₂ (Foll down (Cut env env' f.ty.core)) rs rs') :
    match down with
    | true => ∀ v', (∃ ins, rs' = ins.map .ok ∧ fieldValue d'.name f' ins = .ok v') →
        ∃ v, (∃ ins, rs = ins.map .ok ∧ fieldValue d.name f ins = .ok v) ∧ Cut env env' f.ty v v'
    | false => ∀ v, (∃ ins, rs = ins.map .ok ∧ fieldValue d.name f ins = .ok v) →
        ∃ v', (∃ ins, rs' = ins.map .ok ∧ fieldValue d'.name f' ins = .ok v') ∧ Cut env env' f.ty v v' := by
  cases down with
  | true =>
    rintro v' ⟨ins', h1, h2⟩
    obtain ⟨ins, h3, h4⟩ := Foll.mapL_down h h1
    obtain ⟨v, h5, h6⟩ := fieldValue_foll (down := true) hname hk h4 v' h2
    exact ⟨v, ⟨ins, h3, h5⟩, h6⟩
  | false =>
    rintro v ⟨ins, h1, h2⟩
    obtain ⟨ins', h3, h4⟩ := Foll.mapL_up h h1
    obtain ⟨v', h5, h6⟩ := fieldValue_foll (down := false) hname hk h4 v h2
    exact ⟨v', ⟨ins', h3, h5⟩, h6⟩

theorem exists_list {n : Nat} {P : Nat → Val → Prop} (h : ∀ i < n, ∃ v, P i v) :
    ∃ vs : List Val, vs.length = n ∧ ∀ i v, vs[i]? = some v → P i v := by
  induction n with
  | zero => exact ⟨[], rfl, fun i v hv => by simp at hv⟩
  | succ n ih =>
    obtain ⟨vs, hl, hv⟩ := ih fun i hi => h i (by omega)
    obtain ⟨w, hw⟩ := h n (by omega)
    refine ⟨vs ++ [w], by simp [hl], fun i v hiv => ?_⟩
    rw [List.getElem?_append] at hiv
    split at hiv
    · exact hv i v hiv
    · rename_i hge
      have : i = n := by
        have := (List.getElem?_eq_some_iff.mp hiv).1
        simp at this; omega
      subst this
      rw [hl] at hiv
      simp at hiv
      subst hiv
      exact hw

/-- Nothing in the element is for the field. -/
theorem fieldInputs_silent {L : Lib} {dec flat : Node → Path → Res Val} {d : StructDef} {j : Nat} {f : FieldDef}
    (hf : d.fields[j]? = some f) (htext : f.attrs.text = false)
    (hnf : ∀ g : Path → Res Val, flatInputs g f = []) (n : Name) (as : List Attr) (m : NsMap) (ks : List Node)
    (ha : ∀ a ∈ as, a.name.loc ≠ f.label) (hks : ∀ n' as' m' ks', Node.elem n' as' m' ks' ∈ ks → n'.loc ≠ f.label) :
    fieldInputs L dec flat d n as m ks j f = [] := by
  unfold fieldInputs
  rw [hnf, List.append_nil, List.append_eq_nil_iff]
  constructor
  · unfold attrInputs
    split
    · rw [List.filter_eq_nil_iff.mpr fun a h => by simpa using ha a h]; rfl
    · rfl
  · rw [List.flatMap_eq_nil_iff]
    intro x hx
    cases x with
    | text s => simp [kidInputs, htext]
    | elem n' as' m' ks' =>
      unfold kidInputs
      dsimp only
      rw [if_neg]
      intro h1
      obtain ⟨g, hg, hc⟩ := fieldFor_claims h1
      rw [hf] at hg; cases hg
      exact hks _ _ _ _ hx hc.2.2.symm

/-- The two versions of a struct are read alike. -/
theorem decodeStruct_foll {down : Bool} {L : Lib} {dec dec' flat flat' : Node → Path → Res Val} {p : Path}
    {d d' : StructDef} (hp : env p = some (.struct d)) (hp' : env' p = some (.struct d'))
    (h : GrowStruct env env' d d')
    (hnf : ∀ f ∈ d.fields, ∀ g : Path → Res Val, flatInputs g f = [])
    (hnf' : ∀ f ∈ d'.fields, ∀ g : Path → Res Val, flatInputs g f = [])
    (n : Name) (as : List Attr) (m : NsMap) (ks : List Node)
    (hu : ∀ f ∈ d.fields, ∀ q, f.ty.core = .struct q → ∀ s,
      Foll down (Cut env env' (.struct q)) (flat (.text s) q) (flat' (.text s) q))
    (hd : ∀ f ∈ d.fields, ∀ x ∈ ks, ∀ q, f.ty.core = .struct q →
      Foll down (Cut env env' (.struct q)) (dec x q) (dec' x q))
    (hadd : down = false → ∀ f' ∈ d'.fields, (∀ f ∈ d.fields, f.ident ≠ f'.ident) → f'.Optional ∧
      (∀ a ∈ as, a.name.loc ≠ f'.label) ∧ ∀ n' as' m' ks', Node.elem n' as' m' ks' ∈ ks → n'.loc ≠ f'.label) :
    Foll down (Cut env env' (.struct p)) (decodeStruct L flat d n as m ks (ks.map dec))
      (decodeStruct L flat' d' n as m ks (ks.map dec')) := by
  cases down with
  | true =>
    intro r' hr'
    obtain ⟨vs', rfl, hlen', hvs'⟩ := (decodeStruct_ok_iff L dec' flat' d' n as m ks r').mp hr'
    have hex : ∀ i < d.fields.length, ∃ v, ∀ (f : FieldDef) (j : Nat) (f' : FieldDef) (v' : Val), d.fields[i]? = some f → d'.fields[j]? = some f' →
        f.ident = f'.ident → vs'[j]? = some v' →
        (∃ ins, fieldInputs L dec flat d n as m ks i f = ins.map .ok ∧ fieldValue d.name f ins = .ok v) ∧
          Cut env env' f.ty v v' := by
      intro i hi
      have hf := List.getElem?_eq_getElem hi
      generalize d.fields[i] = f at hf
      obtain ⟨f', hf', hk⟩ := h.kept f (List.mem_of_getElem? hf)
      obtain ⟨j, hj⟩ := List.mem_iff_getElem?.mp hf'
      have hjl : j < vs'.length := by
        have := (List.getElem?_eq_some_iff.mp hj).1; omega
      have hv' := List.getElem?_eq_getElem hjl
      generalize vs'[j] = v' at hv'
      obtain ⟨v, h1, h2⟩ := field_foll (down := true) h.name hk
        (fieldInputs_foll (L := L) h hf hj hk (hnf f (List.mem_of_getElem? hf)) (hnf' f' hf') n as m ks
          (hu f (List.mem_of_getElem? hf)) (hd f (List.mem_of_getElem? hf))) v' (hvs' j f' v' hj hv')
      refine ⟨v, fun g j2 g' w' hg hg' hid hw' => ?_⟩
      rw [hf] at hg; cases hg
      have := h.idents' j2 j g' f' hg' hj (by rw [← hid, hk.ident])
      subst this
      rw [hj] at hg'; cases hg'
      rw [hv'] at hw'; cases hw'
      exact ⟨h1, h2⟩
    obtain ⟨vs, hlen, hvs⟩ := exists_list hex
    refine ⟨.struct vs, (decodeStruct_ok_iff L dec flat d n as m ks _).mpr ⟨vs, rfl, hlen, ?_⟩,
      .struct p d d' vs vs' hp hp' hlen hlen' fun i j f f' v v' hf hf' hid hv hv' =>
        (hvs i v hv f j f' v' hf hf' hid hv').2⟩
    intro i f v hf hv
    obtain ⟨f', hf', hk⟩ := h.kept f (List.mem_of_getElem? hf)
    obtain ⟨j, hj⟩ := List.mem_iff_getElem?.mp hf'
    have hjl : j < vs'.length := by
      have := (List.getElem?_eq_some_iff.mp hj).1; omega
    exact (hvs i v hv f j f' _ hf hj hk.ident.symm (List.getElem?_eq_getElem hjl)).1
  | false =>
    intro r hr
    obtain ⟨vs, rfl, hlen, hvs⟩ := (decodeStruct_ok_iff L dec flat d n as m ks r).mp hr
    have hex : ∀ j < d'.fields.length, ∃ v', (∀ f' : FieldDef, d'.fields[j]? = some f' →
        ∃ ins, fieldInputs L dec' flat' d' n as m ks j f' = ins.map .ok ∧ fieldValue d'.name f' ins = .ok v') ∧
        ∀ (f : FieldDef) (i : Nat) (f' : FieldDef) (v : Val), d.fields[i]? = some f → d'.fields[j]? = some f' → f.ident = f'.ident → vs[i]? = some v →
          Cut env env' f.ty v v' := by
      intro j hj
      have hf' := List.getElem?_eq_getElem hj
      generalize d'.fields[j] = f' at hf'
      by_cases hkept : ∃ f ∈ d.fields, f.ident = f'.ident
      · obtain ⟨f, hf, hid⟩ := hkept
        obtain ⟨g', hg', hk⟩ := h.kept f hf
        obtain ⟨j2, hj2⟩ := List.mem_iff_getElem?.mp hg'
        have := h.idents' j2 j g' f' hj2 hf' (by rw [hk.ident, hid])
        subst this
        rw [hf'] at hj2; cases hj2
        obtain ⟨i, hi⟩ := List.mem_iff_getElem?.mp hf
        have hil : i < vs.length := by
          have := (List.getElem?_eq_some_iff.mp hi).1; omega
        have hv := List.getElem?_eq_getElem hil
        generalize vs[i] = v at hv
        obtain ⟨v', h1, h2⟩ := field_foll (down := false) h.name hk
          (fieldInputs_foll (L := L) h hi hf' hk (hnf f hf) (hnf' f' hg') n as m ks (hu f hf) (hd f hf)) v
          (hvs i f v hi hv)
        refine ⟨v', fun g' hg' => ?_, fun g i2 g' w hg hg' hid' hw => ?_⟩
        · rw [hf'] at hg'; cases hg'; exact h1
        · rw [hf'] at hg'; cases hg'
          have := h.idents i2 i g f hg hi (by rw [hid', hid])
          subst this
          rw [hi] at hg; cases hg
          rw [hv] at hw; cases hw
          exact h2
      · have hno : ∀ f ∈ d.fields, f.ident ≠ f'.ident := fun f hf he => hkept ⟨f, hf, he⟩
        obtain ⟨⟨htext, hopt⟩, ha, hks⟩ := hadd rfl f' (List.mem_of_getElem? hf') hno
        have hin := fieldInputs_silent (L := L) (dec := dec') (flat := flat') hf' htext
          (hnf' f' (List.mem_of_getElem? hf')) n as m ks ha hks
        have hval : ∃ v', fieldValue d'.name f' [] = .ok v' := by
          unfold fieldValue
          rcases hopt with ⟨t, ht⟩ | ⟨t, ht⟩ | ⟨v, hv⟩
          · rw [ht]; exact ⟨_, rfl⟩
          · rw [ht]; exact ⟨_, rfl⟩
          · rw [hv]
            cases f'.ty <;> exact ⟨_, rfl⟩
        obtain ⟨v', hv'⟩ := hval
        refine ⟨v', fun g' hg' => ?_, fun g i g' w hg hg' hid hw => ?_⟩
        · rw [hf'] at hg'; cases hg'
          exact ⟨[], hin, hv'⟩
        · rw [hf'] at hg'; cases hg'
          exact absurd hid (hno g (List.mem_of_getElem? hg))
    obtain ⟨vs', hlen', hvs'⟩ := exists_list hex
    exact ⟨.struct vs', (decodeStruct_ok_iff L dec' flat' d' n as m ks _).mpr ⟨vs', rfl, hlen',
        fun j f' v' hf' hv' => (hvs' j v' hv').1 f' hf'⟩,
      .struct p d d' vs vs' hp hp' hlen hlen' fun i j f f' v v' hf hf' hid hv hv' =>
        (hvs' j v' hv').2 f i f' v hf hf' hid hv⟩

/-! ### Enums -/

/-- What a child of an enum's element gives in the two programs. -/
def PickRel (env env' : Env) (d : EnumDef) : Option (Nat × FTy × Val) → Option (Nat × FTy × Val) → Prop
  | none, none => True
  | some (i, t, v), some (i', t', v') => i = i' ∧ t = t' ∧ Cut env env' t.core v v' ∧
    ∃ vd, d.variants[i]? = some vd ∧ vd.shape = .newtype t
  | _, _ => False

theorem variantKid_foll {down : Bool} {L : Lib} {d : EnumDef} {w : Val} {dec dec' : Path → Res Val} (x : Node)
    (hd : ∀ v ∈ d.variants, ∀ t, v.shape = .newtype t → ∀ q, t.core = .struct q →
      Foll down (Cut env env' (.struct q)) (dec q) (dec' q)) :
    Foll down (PickRel env env' d) (variantKid L d dec x) (variantKid L { d with dflt := w } dec' x) := by
  cases x with
  | text s => exact .ok trivial
  | elem n as m ks =>
    unfold variantKid
    dsimp only
    rw [show EnumDef.variantFor { d with dflt := w } n.loc = d.variantFor n.loc from rfl]
    cases hi : d.variantFor n.loc with
    | none => exact .ok trivial
    | some i =>
      dsimp only
      cases hv : d.variants[i]? with
      | none => exact .ok trivial
      | some vd =>
        obtain ⟨id, at', sh⟩ := vd
        cases sh with
        | unit => exact .ok trivial
        | named fs => exact .ok trivial
        | newtype t =>
          dsimp only
          cases hc : t.core with
          | opt => exact .ok trivial
          | vec => exact .ok trivial
          | simple s =>
            dsimp only
            cases parseS L s (textContent ks) with
            | ok v => exact .ok ⟨rfl, rfl, by rw [hc]; exact .simple s v, _, hv, rfl⟩
            | error e => exact .fail (by simp) (by simp)
          | struct q =>
            dsimp only
            refine (hd _ (List.mem_of_getElem? hv) t rfl q hc).bind fun a b hab => .ok ?_
            exact ⟨rfl, rfl, by rw [hc]; exact hab, _, hv, rfl⟩

/-- The variant found so far. -/
def CurRel (env env' : Env) (p : Path) : Option Val → Option Val → Prop
  | none, none => True
  | some v, some v' => Cut env env' (.struct p) v v'
  | _, _ => False

theorem cut_enum_inv {p : Path} {d : EnumDef} (hp : env p = some (.enum d)) {v v' : Val}
    (h : Cut env env' (.struct p) v v') : ∃ i vd ps ps', v = .enum i ps ∧ v' = .enum i ps' ∧
      d.variants[i]? = some vd ∧ ps.length = ps'.length ∧
      ∀ (j : Nat) (t : FTy) (w w' : Val), vd.shape.tys[j]? = some t → ps[j]? = some w → ps'[j]? = some w' →
        Cut env env' t w w' := by
  cases h with
  | struct _ d1 d2 vs vs' h1 => rw [hp] at h1; cases h1
  | prim _ d1 _ h1 => rw [hp] at h1; cases h1
  | enum _ d1 i vd ps ps' h1 hv hl _ h =>
    rw [hp] at h1; cases h1
    exact ⟨i, vd, ps, ps', rfl, rfl, hv, hl, h⟩

theorem cut_newtype {p : Path} {d : EnumDef} (hp : env p = some (.enum d)) {i : Nat} {vd : VariantDef} {t : FTy}
    (hv : d.variants[i]? = some vd) (hs : vd.shape = .newtype t) {v v' : Val} (h : Cut env env' t v v') :
    Cut env env' (.struct p) (.enum i [v]) (.enum i [v']) := by
  refine .enum p d i vd [v] [v'] hp hv rfl (fun j hj => ?_) fun j t' w w' ht hw hw' => ?_
  · rw [hs] at hj
    cases j with
    | zero => cases hj
    | succ j => simp
  rw [hs] at ht
  cases j with
  | zero =>
    simp only [VShape.tys, List.getElem?_cons_zero, Option.some.injEq] at ht hw hw'
    subst ht hw hw'; exact h
  | succ j => simp [VShape.tys] at ht

theorem variantAdd_foll {down : Bool} {p : Path} {d : EnumDef} (hp : env p = some (.enum d))
    {cur cur' : Option Val} (hcur : CurRel env env' p cur cur') {c c' : Option (Nat × FTy × Val)}
    (hc : PickRel env env' d c c') :
    Foll down (CurRel env env' p) (variantAdd cur c) (variantAdd cur' c') := by
  match c, c', hc with
  | none, none, _ => exact .ok hcur
  | some (i, t, v), some (_, _, v'), ⟨rfl, rfl, hcut, vd, hvd, hsh⟩ =>
    rcases t with t | t | t | q
    · exact .ok (cut_newtype hp hvd hsh hcut)
    · exact .ok (cut_newtype hp hvd hsh (.some t v v' hcut))
    · unfold variantAdd
      match cur, cur', hcur with
      | none, none, _ =>
        exact .ok (cut_newtype hp hvd hsh (cut_vec (.cons hcut .nil)))
      | some a, some b, hab =>
        obtain ⟨j, vd2, ps, ps', rfl, rfl, hvd2, hlen, hps⟩ := cut_enum_inv hp hab
        by_cases hji : j = i
        · subst hji
          rw [hvd] at hvd2; cases hvd2
          -- both hold a list, or neither does
          match ps, ps', hlen with
          | [], [], _ => exact .fail (by simp) (by simp)
          | [x], [y], _ =>
            have hxy := hps 0 (.vec t) x y (by rw [hsh]; rfl) rfl rfl
            cases hxy with
            | vec _ xs ys hl he =>
              dsimp only
              rw [if_pos rfl, if_pos rfl]
              refine .ok (cut_newtype hp hvd hsh ?_)
              refine .vec t _ _ (by simp [hl]) fun l w w' hw hw' => ?_
              rw [List.getElem?_append] at hw hw'
              by_cases hlt : l < xs.length
              · rw [if_pos hlt] at hw
                rw [if_pos (by omega)] at hw'
                exact he l w w' hw hw'
              · rw [if_neg hlt] at hw
                rw [if_neg (by omega), ← hl] at hw'
                cases hz : l - xs.length with
                | zero =>
                  rw [hz] at hw hw'
                  simp only [List.getElem?_cons_zero, Option.some.injEq] at hw hw'
                  subst hw hw'; exact hcut
                | succ z => rw [hz] at hw; simp at hw
          | x :: x2 :: xs, y :: y2 :: ys, _ => exact .fail (by simp) (by simp)
        · refine .fail (fun a => ?_) (fun a => ?_)
          · dsimp only
            split
            · cases ‹some (Val.enum j ps) = none›
            · rename_i heq; cases heq; rw [if_neg hji]; simp
            · simp
          · dsimp only
            split
            · cases ‹some (Val.enum j ps') = none›
            · rename_i heq; cases heq; rw [if_neg hji]; simp
            · simp
    · exact .ok (cut_newtype hp hvd hsh hcut)

theorem variantKids_foll {down : Bool} {L : Lib} {p : Path} {d : EnumDef} {w : Val} (hp : env p = some (.enum d))
    {dec dec' : Node → Path → Res Val} (ks : List Node)
    (hd : ∀ x ∈ ks, ∀ v ∈ d.variants, ∀ t, v.shape = .newtype t → ∀ q, t.core = .struct q →
      Foll down (Cut env env' (.struct q)) (dec x q) (dec' x q)) {cur cur' : Option Val}
    (hcur : CurRel env env' p cur cur') :
    Foll down (CurRel env env' p) (variantKids L d (ks.zip (ks.map dec)) cur)
      (variantKids L { d with dflt := w } (ks.zip (ks.map dec')) cur') := by
  induction ks generalizing cur cur' with
  | nil => exact .ok hcur
  | cons k ks ih =>
    simp only [List.map_cons, List.zip_cons_cons, variantKids]
    refine (variantKid_foll k fun v hv t ht q hq => hd k (List.mem_cons_self ..) v hv t ht q hq).bind fun c c' hc => ?_
    refine (variantAdd_foll hp hcur hc).bind fun a b hab => ?_
    exact ih (fun x hx => hd x (List.mem_cons_of_mem _ hx)) hab

theorem decodeEnum_foll {down : Bool} {L : Lib} {p : Path} {d : EnumDef} {w : Val} (hp : env p = some (.enum d))
    (hw : Cut env env' (.struct p) d.dflt w) {dec dec' : Node → Path → Res Val} (n : Name) (as : List Attr)
    (ks : List Node)
    (hd : ∀ x ∈ ks, ∀ v ∈ d.variants, ∀ t, v.shape = .newtype t → ∀ q, t.core = .struct q →
      Foll down (Cut env env' (.struct q)) (dec x q) (dec' x q)) :
    Foll down (Cut env env' (.struct p)) (decodeEnum L d n as ks (ks.map dec))
      (decodeEnum L { d with dflt := w } n as ks (ks.map dec')) := by
  have hunit : ∀ {i : Nat} {vd : VariantDef}, d.variants[i]? = some vd →
      Cut env env' (.struct p) (.enum i []) (.enum i []) :=
    fun hv => .enum p d _ _ [] [] hp hv rfl (fun _ _ => rfl) fun j t v v' _ hv => by simp at hv
  unfold decodeEnum
  rw [show EnumDef.variantOf { d with dflt := w } n as = d.variantOf n as from rfl,
    show unitByText { d with dflt := w } ks = unitByText d ks from by unfold unitByText; rfl]
  cases h1 : d.variantOf n as with
  | some i =>
    unfold EnumDef.variantOf at h1
    rw [Option.bind_eq_some_iff] at h1
    obtain ⟨key, -, hk⟩ := h1
    obtain ⟨vd, hvd⟩ := variantFor_some hk
    exact .ok (hunit hvd.1)
  | none =>
    cases h2 : unitByText d ks with
    | some i =>
      unfold unitByText at h2
      split at h2
      · obtain ⟨vd, hvd⟩ := variantFor_some h2
        exact .ok (hunit hvd.1)
      · cases h2
    | none =>
      dsimp only
      refine (variantKids_foll (w := w) hp ks hd (cur := none) (cur' := none) trivial).bind fun a b hab => .ok ?_
      match a, b, hab with
      | none, none, _ => exact hw
      | some a, some b, hab => exact hab

/-! ### All types -/

/-- What the added fields demand of an element, if older documents are to be read. -/
def Calm (env env' : Env) (down : Bool) (x : Node) : Prop :=
  down = false → (∀ f', AddedField env env' f' → f'.Optional) ∧ x.silent (AddedName env env')

theorem silentL_mem {P : Str → Prop} {ks : List Node} (h : Node.silentL P ks) {x : Node} (hx : x ∈ ks) :
    x.silent P := by
  induction ks with
  | nil => cases hx
  | cons k ks ih =>
    rw [Node.silentL] at h
    cases hx with
    | head => exact h.1
    | tail _ hx => exact ih h.2 hx

theorem Calm.kid {down : Bool} {n : Name} {as : List Attr} {m : NsMap} {ks : List Node}
    (h : Calm env env' down (.elem n as m ks)) {x : Node} (hx : x ∈ ks) : Calm env env' down x := by
  intro hd
  obtain ⟨h1, h2⟩ := h hd
  rw [Node.silent] at h2
  exact ⟨h1, silentL_mem h2.2.2 hx⟩

theorem NoFlatten.older (hg : Grow env env') (hnf : NoFlatten env') : NoFlatten env := by
  intro p d hp f hf hat
  obtain ⟨d', hp', h⟩ := hg.structs p d hp
  obtain ⟨f', hf', hk⟩ := h.kept f hf
  have := hnf p d' hp' f' hf' (by rw [hk.attrs]; exact hat)
  rw [← hk.attrs]; exact this

mutual
  theorem decodeWith_foll {down : Bool} {L : Lib} (hg : Grow env env') (hnf : NoFlatten env')
      {flat flat' : Node → Path → Res Val}
      (hu : ∀ s q, env q ≠ none → Foll down (Cut env env' (.struct q)) (flat (.text s) q) (flat' (.text s) q)) :
      ∀ (x : Node) (p : Path), env p ≠ none → Calm env env' down x →
        Foll down (Cut env env' (.struct p)) (decodeWith L env flat x p) (decodeWith L env' flat' x p)
    | .text _, _, _, _ => by
      rw [decodeWith, decodeWith]
      exact .fail (by simp) (by simp)
    | .elem n as m ks, p, hp, hc => by
      have ih := decodeL_foll (down := down) (L := L) hg hnf hu ks
      rw [decodeWith, decodeWith]
      cases he : env p with
      | none => exact absurd he hp
      | some td =>
        cases td with
        | struct d =>
          obtain ⟨d', hp', h⟩ := hg.structs p d he
          rw [hp']
          dsimp only
          rw [decodeL_map, decodeL_map]
          refine decodeStruct_foll he hp' h (fun f hf g => (hnf.older hg).inputs he hf g)
            (fun f hf g => hnf.inputs hp' hf g) n as m ks
            (fun f hf q hq s => hu s q (hg.fieldTys p d he f hf q hq))
            (fun f hf x hx q hq => ih x hx q (hg.fieldTys p d he f hf q hq) (hc.kid hx)) ?_
          intro hdown f' hf' hno
          obtain ⟨h1, h2⟩ := hc hdown
          rw [Node.silent] at h2
          have hadd : AddedField env env' f' := ⟨p, d, d', he, hp', hf', hno⟩
          refine ⟨h1 f' hadd, fun a ha hl => h2.2.1 a ha ⟨f', hadd, hl.symm⟩, fun n' as' m' ks' hk hl => ?_⟩
          have := silentL_mem h2.2.2 hk
          rw [Node.silent] at this
          exact this.1 ⟨f', hadd, hl.symm⟩
        | enum d =>
          obtain ⟨w, hp', hw⟩ := hg.enums p d he
          rw [hp']
          dsimp only
          rw [decodeL_map, decodeL_map]
          exact decodeEnum_foll he hw n as ks fun x hx v hv t ht q hq =>
            ih x hx q (hg.payloadTys p d he v hv t ht q hq) (hc.kid hx)
        | prim d =>
          rw [hg.prims p d he]
          exact .refl (fun a => .prim p d a he) _
  theorem decodeL_foll {down : Bool} {L : Lib} (hg : Grow env env') (hnf : NoFlatten env')
      {flat flat' : Node → Path → Res Val}
      (hu : ∀ s q, env q ≠ none → Foll down (Cut env env' (.struct q)) (flat (.text s) q) (flat' (.text s) q)) :
      ∀ (ks : List Node), ∀ x ∈ ks, ∀ (q : Path), env q ≠ none → Calm env env' down x →
        Foll down (Cut env env' (.struct q)) (decodeWith L env flat x q) (decodeWith L env' flat' x q)
    | [] => fun x hx => by cases hx
    | k :: ks => fun x hx => by
      have h1 := decodeWith_foll (down := down) (L := L) hg hnf hu k
      have h2 := decodeL_foll (down := down) (L := L) hg hnf hu ks
      rcases List.mem_cons.mp hx with rfl | hx
      · exact h1
      · exact h2 x hx
end

theorem decodeDocWith_foll {down : Bool} (hg : Grow env env') {dec dec' : Node → Path → Res Val} {x : Node}
    {p : Path} (hp : env p ≠ none) (h : Foll down (Cut env env' (.struct p)) (dec x p) (dec' x p)) :
    Foll down (Cut env env' (.struct p)) (decodeDocWith env dec x p) (decodeDocWith env' dec' x p) := by
  unfold decodeDocWith
  cases he : env p with
  | none => exact absurd he hp
  | some td =>
    cases td with
    | struct d =>
      obtain ⟨d', hp', h'⟩ := hg.structs p d he
      rw [hp']
      dsimp only
      rw [h'.attrs]
      split
      · exact h
      · exact .fail (by simp) (by simp)
    | enum d =>
      obtain ⟨w, hp', hw⟩ := hg.enums p d he
      rw [hp']
      exact h
    | prim d => rw [hg.prims p d he]; exact h

/-- The older program reads whatever the newer one reads. -/
theorem decodeN_down {L : Lib} (hg : Grow env env') (hnf : NoFlatten env') (k : Nat) (x : Node) (p : Path)
    (hp : env p ≠ none) :
    Foll true (Cut env env' (.struct p)) (decodeN L env k x p) (decodeN L env' k x p) := by
  have calm : ∀ x, Calm env env' true x := fun x h => by cases h
  induction k generalizing x p with
  | zero =>
    exact decodeWith_foll hg hnf (fun s q _ => .fail (by simp) (by simp)) x p hp (calm x)
  | succ k ih =>
    rw [decodeN_eq, decodeN_eq]
    refine decodeWith_foll hg hnf (fun s q hq => ?_) x p hp (calm x)
    unfold flatN
    dsimp only
    cases firstElem (content (L.parse (attrDoc q s)).evs) [] with
    | none => exact .fail (by simp) (by simp)
    | some y => exact decodeDocWith_foll hg hq (ih y q hq)

/-- The newer program reads documents of the older one. -/
theorem decodeN_up {L : Lib} (hg : Grow env env') (hnf : NoFlatten env') (x : Node) (p : Path)
    (hp : env p ≠ none) (hc : Calm env env' false x) :
    Foll false (Cut env env' (.struct p)) (decodeN L env 0 x p) (decodeN L env' 0 x p) :=
  decodeWith_foll hg hnf (fun s q _ => .fail (by simp) (by simp)) x p hp hc

/-- What is left of a value is determined by it. -/
theorem cut_unique (hg : Grow env env') {t : FTy} {v v' : Val} (h : Cut env env' t v v') :
    ∀ {w : Val}, Cut env env' t w v' → v = w := by
  induction h with
  | simple t v => intro w h2; cases h2; rfl
  | none t => intro w h2; cases h2; rfl
  | some t v v' h ih => intro w h2; cases h2 with | some _ w _ h2 => rw [ih h2]
  | vec t vs vs' hlen h ih =>
    intro w h2
    cases h2 with
    | vec _ ws _ hlen2 h2 =>
      congr 1
      apply List.ext_getElem?
      intro i
      by_cases hi : i < vs.length
      · have e1 := List.getElem?_eq_getElem hi
        have e2 := List.getElem?_eq_getElem (show i < ws.length by omega)
        have e3 := List.getElem?_eq_getElem (show i < vs'.length by omega)
        rw [e1, e2, ih i _ _ e1 e3 (h2 i _ _ e2 e3)]
      · rw [List.getElem?_eq_none (by omega), List.getElem?_eq_none (by omega)]
  | struct p d d' vs vs' hp hp' hlen hlen' h ih =>
    intro w h2
    cases h2 with
    | prim _ _ _ hp2 => rw [hp] at hp2; cases hp2
    | struct _ e e' ws _ hp2 hp2' hlen2 hlen2' h2 =>
      rw [hp] at hp2; cases hp2
      rw [hp'] at hp2'; cases hp2'
      congr 1
      apply List.ext_getElem?
      intro i
      by_cases hi : i < vs.length
      · have e1 := List.getElem?_eq_getElem hi
        have e2 := List.getElem?_eq_getElem (show i < ws.length by omega)
        have ef := List.getElem?_eq_getElem (show i < d.fields.length by omega)
        obtain ⟨d2, hd2, hgs⟩ := hg.structs p d hp
        rw [hp'] at hd2; cases hd2
        obtain ⟨f', hf', hk⟩ := hgs.kept _ (List.mem_of_getElem? ef)
        obtain ⟨j, hj⟩ := List.mem_iff_getElem?.mp hf'
        have hjl := (List.getElem?_eq_some_iff.mp hj).1
        have e3 := List.getElem?_eq_getElem (show j < vs'.length by omega)
        rw [e1, e2, ih i j _ f' _ _ ef hj hk.ident.symm e1 e3 (h2 i j _ f' _ _ ef hj hk.ident.symm e2 e3)]
      · rw [List.getElem?_eq_none (by omega), List.getElem?_eq_none (by omega)]
  | enum p d i vd ps ps' hp hv hlen hrest h ih =>
    intro w h2
    cases h2 with
    | prim _ _ _ hp2 => rw [hp] at hp2; cases hp2
    | enum _ d2 _ vd2 qs _ hp2 hv2 hlen2 hrest2 h2 =>
      rw [hp] at hp2; cases hp2
      rw [hv] at hv2; cases hv2
      congr 1
      apply List.ext_getElem?
      intro j
      cases ht : vd.shape.tys[j]? with
      | none => rw [hrest j ht, hrest2 j ht]
      | some t =>
        by_cases hj : j < ps.length
        · have e1 := List.getElem?_eq_getElem hj
          have e2 := List.getElem?_eq_getElem (show j < qs.length by omega)
          have e3 := List.getElem?_eq_getElem (show j < ps'.length by omega)
          rw [e1, e2, ih j t _ _ ht e1 e3 (h2 j t _ _ ht e2 e3)]
        · rw [List.getElem?_eq_none (by omega), List.getElem?_eq_none (by omega)]
  | prim p d v hp =>
    intro w h2
    cases h2 with
    | struct _ _ _ _ _ hp2 => rw [hp] at hp2; cases hp2
    | enum _ _ _ _ _ _ hp2 => rw [hp] at hp2; cases hp2
    | prim _ _ _ _ => rfl

/-! ### Conformance -/

theorem GrowStruct.plainOld {d d' : StructDef} (h : GrowStruct env env' d d') : d.Plain where
  elemTy f hf := by
    obtain ⟨f', hf', hk⟩ := h.kept f hf
    rw [← hk.ty]; exact h.plain.elemTy f' hf'
  textTy f hf ht := by
    obtain ⟨f', hf', hk⟩ := h.kept f hf
    rw [← hk.ty]; exact h.plain.textTy f' hf' (by rw [hk.attrs]; exact ht)
  flatTy f hf h1 h2 := by
    obtain ⟨f', hf', hk⟩ := h.kept f hf
    rw [← hk.ty]; exact h.plain.flatTy f' hf' (by rw [hk.attrs]; exact h1) (by rw [hk.attrs]; exact h2)

theorem GrowStruct.fieldFor_none {d d' : StructDef} (h : GrowStruct env env' d d') {n : Name}
    (hn : d'.fieldFor n = none) : d.fieldFor n = none := by
  cases he : d.fieldFor n with
  | none => rfl
  | some i =>
    obtain ⟨f, hf, -⟩ := fieldFor_claims he
    obtain ⟨f', hf', hk⟩ := h.kept f (List.mem_of_getElem? hf)
    obtain ⟨j, hj⟩ := List.mem_iff_getElem?.mp hf'
    rw [(h.fieldFor hf hj hk n).mpr he] at hn
    cases hn

theorem NoFlatten.hasFlat {env : Env} (hnf : NoFlatten env) {p : Path} {d : StructDef}
    (hp : env p = some (.struct d)) : ¬ d.HasFlat := by
  rintro ⟨f, hf, h1, h2⟩
  rw [hnf p d hp f hf h1] at h2
  cases h2

mutual
  theorem foreign_dflt (d : EnumDef) (w : Val) : ∀ (x : Node), x.foreign { d with dflt := w } ↔ x.foreign d
    | .text _ => by rw [Node.foreign, Node.foreign]; exact Iff.rfl
    | .elem n as m ks => by
      rw [Node.foreign, Node.foreign, foreignL_dflt d w ks]; exact Iff.rfl
  theorem foreignL_dflt (d : EnumDef) (w : Val) : ∀ (ks : List Node),
      Node.foreignL { d with dflt := w } ks ↔ Node.foreignL d ks
    | [] => by rw [Node.foreignL, Node.foreignL]
    | k :: ks => by rw [Node.foreignL, Node.foreignL, foreign_dflt d w k, foreignL_dflt d w ks]
end

mutual
  /-- What conforms to the newer program conforms to the older one. -/
  theorem confWith_down {L : Lib} (hg : Grow env env') (hnf : NoFlatten env') {fc fc' : Node → Path → Prop}
      (hfc : ∀ s q, env q ≠ none → fc' (.text s) q → fc (.text s) q) :
      ∀ (x : Node) (p : Path), env p ≠ none → ConfWith L env' fc' x p → ConfWith L env fc x p
    | .text _, _, _ => by rw [ConfWith]; exact False.elim
    | .elem n as m ks, p, hp => by
      have ih := confL_down (L := L) hg hnf hfc ks
      cases he : env p with
      | none => exact absurd he hp
      | some td =>
        cases td with
        | struct d =>
          obtain ⟨d', hp', h⟩ := hg.structs p d he
          rw [ConfWith, ConfWith, he, hp']
          dsimp only
          rintro ⟨-, h2, h3, -, h5⟩
          refine ⟨h.plainOld, ?_, ih.1 p d d' he hp' h h3, ?_, ?_⟩
          · rcases h2 with h2 | h2
            · rw [h.attrs, h.name] at h2; exact .inl h2
            · exact .inr (h.fieldFor_none h2)
          · intro f hf h6 h7
            exact ((hnf.older hg).hasFlat he ⟨f, hf, h6, h7⟩).elim
          · intro f hf h6 q hq a ha hl s hs
            obtain ⟨f', hf', hk⟩ := h.kept f hf
            refine hfc s q (hg.fieldTys p d he f hf q hq) ?_
            refine h5 f' hf' (by rw [hk.attrs]; exact h6) q (by rw [hk.ty]; exact hq) a ha ?_ s
              (by rw [hk.ty]; exact hs)
            rw [hl]; unfold FieldDef.label; rw [hk.ident, hk.attrs]
        | enum d =>
          obtain ⟨w, hp', hw⟩ := hg.enums p d he
          rw [ConfWith, ConfWith, he, hp']
          dsimp only
          rintro ⟨h1, h2⟩
          refine ⟨h1, ?_⟩
          rcases h2 with ⟨h3, h4, h5⟩ | h3
          · refine .inl ⟨h3, h4, ?_⟩
            rcases h5 with h5 | h5
            · left; unfold unitByText at h5 ⊢; exact h5
            · exact .inr (ih.2 p d w he h5)
          · exact .inr h3
        | prim d =>
          rw [ConfWith, ConfWith, he, hg.prims p d he]
          exact id
  theorem confL_down {L : Lib} (hg : Grow env env') (hnf : NoFlatten env') {fc fc' : Node → Path → Prop}
      (hfc : ∀ s q, env q ≠ none → fc' (.text s) q → fc (.text s) q) :
      ∀ (ks : List Node),
        (∀ p d d', env p = some (.struct d) → env' p = some (.struct d') → GrowStruct env env' d d' →
          ConfKids L env' fc' d' ks → ConfKids L env fc d ks) ∧
        (∀ p d w, env p = some (.enum d) → ConfVariants L env' fc' { d with dflt := w } ks →
          ConfVariants L env fc d ks)
    | [] => ⟨fun p d d' _ _ _ _ => by rw [ConfKids]; trivial, fun p d w _ _ => by rw [ConfVariants]; trivial⟩
    | .text s :: ks => by
      have ih := confL_down (L := L) hg hnf hfc ks
      refine ⟨fun p d d' hp hp' h => ?_, fun p d w hp => ?_⟩
      · rw [ConfKids, ConfKids, ConfKid, ConfKid]
        exact fun ⟨h1, h2⟩ => ⟨h1, ih.1 p d d' hp hp' h h2⟩
      · rw [ConfVariants, ConfVariants, ConfVariant, ConfVariant]
        exact fun ⟨h1, h2⟩ => ⟨h1, ih.2 p d w hp h2⟩
    | .elem n as m kk :: ks => by
      have ih := confL_down (L := L) hg hnf hfc ks
      have ih1 := confWith_down (L := L) hg hnf hfc (.elem n as m kk)
      refine ⟨fun p d d' hp hp' h => ?_, fun p d w hp => ?_⟩
      · rw [ConfKids, ConfKids, ConfKid, ConfKid]
        rintro ⟨⟨h1, h2⟩, h3⟩
        refine ⟨⟨h1, fun i f hi hf => ?_⟩, ih.1 p d d' hp hp' h h3⟩
        obtain ⟨f', hf', hk⟩ := h.kept f (List.mem_of_getElem? hf)
        obtain ⟨j, hj⟩ := List.mem_iff_getElem?.mp hf'
        have h4 := h2 j f' ((h.fieldFor hf hj hk n).mpr hi) hj
        rw [hk.ty] at h4
        have hno := (hnf.older hg).hasFlat hp
        exact ⟨fun t ht => ⟨(h4.1 t ht).1, fun hfl => absurd hfl hno⟩,
          fun q hq => ⟨ih1 q (hg.fieldTys p d hp f (List.mem_of_getElem? hf) q hq) (h4.2 q hq).1,
            fun hfl => absurd hfl hno⟩⟩
      · rw [ConfVariants, ConfVariants, ConfVariant, ConfVariant]
        rintro ⟨h1, h2⟩
        refine ⟨?_, ih.2 p d w hp h2⟩
        rcases h1 with h1 | ⟨i, v, t, h3, h4, h5, h6⟩
        · exact .inl ((foreign_dflt d w _).mp h1)
        · refine .inr ⟨i, v, t, h3, h4, h5, ?_⟩
          rcases h6 with h6 | ⟨q, hq, h7⟩
          · exact .inl h6
          · exact .inr ⟨q, hq, ih1 q (hg.payloadTys p d hp v (List.mem_of_getElem? h4) t h5 q hq) h7⟩
end

theorem confN_down {L : Lib} (hg : Grow env env') (hnf : NoFlatten env') (k : Nat) (x : Node) (p : Path)
    (hp : env p ≠ none) (h : ConfN L env' k x p) : ConfN L env k x p := by
  induction k generalizing x p with
  | zero => exact confWith_down hg hnf (fun s q _ hf => hf) x p hp h
  | succ k ih =>
    rw [confN_eq] at h ⊢
    refine confWith_down hg hnf (fun s q hq hf => ?_) x p hp h
    obtain ⟨y, h1, h2, h3⟩ := hf
    exact ⟨y, h1, h2, ih y q hq h3⟩

mutual
  /-- What conforms to the older program, and does not use the names of added fields, conforms to the newer one. -/
  theorem confWith_up {L : Lib} (hg : Grow env env') (hnf : NoFlatten env') :
      ∀ (x : Node) (p : Path), x.silent (AddedName env env') → ConfWith L env (fun _ _ => False) x p →
        ConfWith L env' (fun _ _ => False) x p
    | .text _, _, _ => by rw [ConfWith]; exact False.elim
    | .elem n as m ks, p, hs => by
      rw [Node.silent] at hs
      have ih := confL_up (L := L) hg hnf ks hs.2.2
      rw [ConfWith, ConfWith]
      cases he : env p with
      | none => exact False.elim
      | some td =>
        cases td with
        | struct d =>
          obtain ⟨d', hp', h⟩ := hg.structs p d he
          rw [hp']
          dsimp only
          rintro ⟨-, h2, h3, -, h5⟩
          refine ⟨h.plain, ?_, ih.1 p d d' he hp' h h3, ?_, ?_⟩
          · rcases h2 with h2 | h2
            · left; rw [h.attrs, h.name]; exact h2
            · right
              cases hfor : d'.fieldFor n with
              | none => rfl
              | some j =>
                obtain ⟨f', hf', hc⟩ := fieldFor_claims hfor
                exfalso
                by_cases hkept : ∃ f ∈ d.fields, f.ident = f'.ident
                · obtain ⟨f, hf, hid⟩ := hkept
                  obtain ⟨g', hg', hk⟩ := h.kept f hf
                  obtain ⟨j2, hj2⟩ := List.mem_iff_getElem?.mp hg'
                  have := h.idents' j2 j g' f' hj2 hf' (by rw [hk.ident, hid])
                  subst this
                  rw [hf'] at hj2; cases hj2
                  obtain ⟨i, hi⟩ := List.mem_iff_getElem?.mp hf
                  rw [(h.fieldFor hi hf' hk n).mp hfor] at h2
                  cases h2
                · exact hs.1 ⟨f', ⟨p, d, d', he, hp', List.mem_of_getElem? hf', fun f hf he => hkept ⟨f, hf, he⟩⟩,
                    hc.2.2⟩
          · intro f hf h6 h7
            exact (hnf.hasFlat hp' ⟨f, hf, h6, h7⟩).elim
          · intro f' hf' h6 q hq a ha hl s hs'
            by_cases hkept : ∃ f ∈ d.fields, f.ident = f'.ident
            · obtain ⟨f, hf, hid⟩ := hkept
              obtain ⟨g', hg', hk⟩ := h.kept f hf
              obtain ⟨j2, hj2⟩ := List.mem_iff_getElem?.mp hg'
              obtain ⟨j, hj⟩ := List.mem_iff_getElem?.mp hf'
              have := h.idents' j2 j g' f' hj2 hj (by rw [hk.ident, hid])
              subst this
              rw [hj] at hj2; cases hj2
              refine h5 f hf (by rw [← hk.attrs]; exact h6) q (by rw [← hk.ty]; exact hq) a ha ?_ s
                (by rw [← hk.ty]; exact hs')
              rw [hl]; unfold FieldDef.label; rw [hk.ident, hk.attrs]
            · exact hs.2.1 a ha ⟨f', ⟨p, d, d', he, hp', hf', fun f hf he => hkept ⟨f, hf, he⟩⟩, hl.symm⟩
        | enum d =>
          obtain ⟨w, hp', hw⟩ := hg.enums p d he
          rw [hp']
          dsimp only
          rintro ⟨h1, h2⟩
          refine ⟨h1, ?_⟩
          rcases h2 with ⟨h3, h4, h5⟩ | h3
          · refine .inl ⟨h3, h4, ?_⟩
            rcases h5 with h5 | h5
            · left; unfold unitByText at h5 ⊢; exact h5
            · exact .inr (ih.2 p d w he h5)
          · exact .inr h3
        | prim d =>
          rw [hg.prims p d he]
          exact id
  theorem confL_up {L : Lib} (hg : Grow env env') (hnf : NoFlatten env') :
      ∀ (ks : List Node), Node.silentL (AddedName env env') ks →
        (∀ p d d', env p = some (.struct d) → env' p = some (.struct d') → GrowStruct env env' d d' →
          ConfKids L env (fun _ _ => False) d ks → ConfKids L env' (fun _ _ => False) d' ks) ∧
        (∀ p d w, env p = some (.enum d) → ConfVariants L env (fun _ _ => False) d ks →
          ConfVariants L env' (fun _ _ => False) { d with dflt := w } ks)
    | [], _ => ⟨fun p d d' _ _ _ _ => by rw [ConfKids]; trivial, fun p d w _ _ => by rw [ConfVariants]; trivial⟩
    | .text s :: ks, hs => by
      rw [Node.silentL] at hs
      have ih := confL_up (L := L) hg hnf ks hs.2
      refine ⟨fun p d d' hp hp' h => ?_, fun p d w hp => ?_⟩
      · rw [ConfKids, ConfKids, ConfKid, ConfKid]
        exact fun ⟨h1, h2⟩ => ⟨h1, ih.1 p d d' hp hp' h h2⟩
      · rw [ConfVariants, ConfVariants, ConfVariant, ConfVariant]
        exact fun ⟨h1, h2⟩ => ⟨h1, ih.2 p d w hp h2⟩
    | .elem n as m kk :: ks, hs => by
      rw [Node.silentL] at hs
      have ih := confL_up (L := L) hg hnf ks hs.2
      have ih1 := fun q => confWith_up (L := L) hg hnf (.elem n as m kk) q hs.1
      have hn : ¬ AddedName env env' n.loc := by
        have := hs.1
        rw [Node.silent] at this
        exact this.1
      refine ⟨fun p d d' hp hp' h => ?_, fun p d w hp => ?_⟩
      · rw [ConfKids, ConfKids, ConfKid, ConfKid]
        rintro ⟨⟨h1, h2⟩, h3⟩
        refine ⟨⟨h1, fun j f' hj hf' => ?_⟩, ih.1 p d d' hp hp' h h3⟩
        by_cases hkept : ∃ f ∈ d.fields, f.ident = f'.ident
        · obtain ⟨f, hf, hid⟩ := hkept
          obtain ⟨g', hg', hk⟩ := h.kept f hf
          obtain ⟨j2, hj2⟩ := List.mem_iff_getElem?.mp hg'
          have := h.idents' j2 j g' f' hj2 hf' (by rw [hk.ident, hid])
          subst this
          rw [hf'] at hj2; cases hj2
          obtain ⟨i, hi⟩ := List.mem_iff_getElem?.mp hf
          have h4 := h2 i f ((h.fieldFor hi hf' hk n).mp hj) hi
          rw [← hk.ty] at h4
          have hno := hnf.hasFlat hp'
          exact ⟨fun t ht => ⟨(h4.1 t ht).1, fun hfl => absurd hfl hno⟩,
            fun q hq => ⟨ih1 q (h4.2 q hq).1, fun hfl => absurd hfl hno⟩⟩
        · obtain ⟨g, hg', hc⟩ := fieldFor_claims hj
          rw [hf'] at hg'; cases hg'
          exact absurd ⟨f', ⟨p, d, d', hp, hp', List.mem_of_getElem? hf', fun f hf he => hkept ⟨f, hf, he⟩⟩,
            hc.2.2⟩ hn
      · rw [ConfVariants, ConfVariants, ConfVariant, ConfVariant]
        rintro ⟨h1, h2⟩
        refine ⟨?_, ih.2 p d w hp h2⟩
        rcases h1 with h1 | ⟨i, v, t, h3, h4, h5, h6⟩
        · exact .inl ((foreign_dflt d w _).mpr h1)
        · refine .inr ⟨i, v, t, h3, h4, h5, ?_⟩
          rcases h6 with h6 | ⟨q, hq, h7⟩
          · exact .inl h6
          · exact .inr ⟨q, hq, ih1 q h7⟩
end

end

end Yaserde
