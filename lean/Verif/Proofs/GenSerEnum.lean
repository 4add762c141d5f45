import Verif.Proofs.GenSerImpl
/-
The printed `serialize` and `serialize_attributes` of an enum.
-/

set_option autoImplicit false

namespace Yaserde.Rs

/-- Named fields of a variant for which the printed code compiles. -/
structure NamedSer (root : Attrs) (f : FieldDef) : Prop where
  isAttr : f.attrs.isAttr = false
  text : f.attrs.text = false
  ty : f.ty.NamedOk
  flatten : f.attrs.flatten = true → ∀ q, f.ty = .struct q → root.flatten = false
  vec : f.ty ≠ .vec (.simple .string)
  /-- the field is not called `writer` … -/
  writer : (∀ t, f.ty ≠ .opt t) → userVar f.ident ≠ .writer
  /-- … nor `struct_start_event` -/
  start : ∀ t, f.ty = .simple t → userVar f.ident ≠ .struct_start_event

/-- Variants for which the printed code compiles. -/
structure VariantSer (root : Attrs) (v : VariantDef) : Prop where
  newtype : ∀ t, v.shape = .newtype t → t.VariantOk
  named : ∀ fds, v.shape = .named fds → ∀ f ∈ fds, NamedSer root f

theorem userVar_ne_self (x : Str) : userVar x ≠ .self := by
  unfold userVar templateVars
  simp only [List.find?_cons, List.find?_nil]
  repeat' split
  all_goals simp

/-! ### The tag -/

/-- The tag of a variant. -/
def tagAttr (tag : Str) (v : VariantDef) : Attr := { name := { loc := tag }, value := v.attrs.xmlElementName v.ident }

/-- The attribute that `#variant_matches` adds, from variant `j` on, for a value of variant `i`. -/
def tagFrom (root : Attrs) (i : Nat) : Nat → List VariantDef → List Attr
  | _, [] => []
  | j, v :: vs =>
    (if j = i then
      match root.tag with
      | some tag => [tagAttr tag v]
      | none => []
     else []) ++ tagFrom root i (j + 1) vs

theorem tagFrom_lt {root : Attrs} {i : Nat} : ∀ {vs : List VariantDef} {j : Nat}, i < j → tagFrom root i j vs = []
  | [], _, _ => rfl
  | v :: vs, j, h => by
    rw [tagFrom, if_neg (by omega), tagFrom_lt (by omega)]
    rfl

theorem tagFrom_eq {d : EnumDef} {vd : VariantDef} : ∀ {vs : List VariantDef} {k j : Nat}, vs[k]? = some vd →
    tagFrom d.attrs (j + k) j vs = (enumAttrs d vd).child
  | v :: vs, 0, j, h => by
    simp only [List.getElem?_cons_zero, Option.some.injEq] at h
    subst h
    rw [tagFrom, if_pos (by omega), tagFrom_lt (by omega), List.append_nil, enumAttrs]
    cases d.attrs.tag <;> rfl
  | v :: vs, k + 1, j, h => by
    rw [tagFrom, if_neg (by omega), List.nil_append, ← tagFrom_eq (d := d) (vs := vs) (k := k) (j := j + 1) h]
    congr 1
    omega

section tag
variable {σ : Type} {L : Lib} {ops : Op → List RV → σ → Out × σ} {root : Attrs} {i : Nat} {pl : List Val} {n : Name} {nss : NsMap}

theorem genAddAttributes_nil {v : VariantDef} (h : VariantSer root v) :
    (match v.shape with | .named fds => fds.flatMap (genAddAttributes root) | _ => []) = ([] : List Ex) := by
  cases hv : v.shape with
  | named fds =>
    simp only [List.flatMap_eq_nil_iff]
    intro f hf
    have hn := h.named fds hv f hf
    unfold genAddAttributes
    rw [hn.isAttr]
    simp only [Bool.false_eq_true, if_false]
    cases hfl : f.attrs.flatten
    · rfl
    · simp only [if_true]
      split
      · rename_i q hq
        rw [hn.flatten hfl q hq]
        rfl
      · rfl
  | _ => rfl

theorem genVariantMatch_eq {v : VariantDef} (h : VariantSer root v) (j : Nat) :
    genVariantMatch root j v = (match root.tag with
      | some tag =>
        [mtch (.var .self) [
          (.variant j, blk [
            .letE .tag (fn .localName [strE tag]),
            .mutate .child_attributes [] .push (fn .newAttr [.var .tag, strE (v.attrs.xmlElementName v.ident)])]),
          (.wild, skipE)]]
      | none => []) := by
  have h1 := genAddAttributes_nil h
  unfold genVariantMatch
  cases hv : v.shape with
  | named fds => rw [hv] at h1; simp only at h1; simp only [h1, List.nil_append]; rfl
  | _ => rfl

theorem does_variantMatches : ∀ (vs : List VariantDef) (j : Nat) (w : RV) (s : Store) (own child : List Attr) (ns : NsMap),
    s .self = .val (.enum i pl) → (∀ v ∈ vs, VariantSer root v) → App s n nss own child ns →
    Does (evalSeq L ops 0 w (.ofList (genVariantMatches root j vs))) s (M.pure ())
      fun _ _ s' => App s' n nss own (child ++ tagFrom root i j vs) ns ∧ Away appVars s s'
  | [], _, _, s, own, child, ns, _, _, happ => Does.nil ⟨by simpa [tagFrom] using happ, Away.refl _ _⟩
  | v :: vs, j, w, s, own, child, ns, hself, hok, happ => by
    unfold genVariantMatches
    rw [genVariantMatch_eq (hok v List.mem_cons_self)]
    rw [← pure_bind (β := Unit) (σ := σ) () fun _ => M.pure ()]
    refine Does.append (P := fun _ _ s' => App s' n nss own (child ++ (if j = i then
      match root.tag with
      | some tag => [tagAttr tag v]
      | none => []
     else [])) ns ∧ Away appVars s s') ?_ ?_
    · cases htag : root.tag with
      | none =>
        refine Does.nil ⟨?_, Away.refl _ _⟩
        split <;> simpa using happ
      | some tag =>
        refine Does.last ?_
        by_cases hij : j = i
        · subst hij
          simp only [if_true]
          refine Does.armAll (bs := []) (P := fun _ _ s' => App s' n nss own (child ++ [tagAttr tag v]) ns ∧
            Away appVars s s') (PE.var hself) (by simp [Pat.matches]) ?_ ?_
          · refine Does.blkScope (P := fun _ _ s' => s' = (s.set .tag (.name { loc := tag })).set .child_attributes
              (.vec ((child ++ [tagAttr tag v]).map .attr))) ?_ ?_
            · refine Does.letE (PE.fn1 (f := .localName) (PE.lit (.str tag)) rfl) ?_
              refine Does.mutate (PE.fn2 (f := .newAttr) (PE.var set_eq) (PE.lit (.str (v.attrs.xmlElementName v.ident))) rfl)
                (r := .vec ((child ++ [tagAttr tag v]).map .attr)) ?_ (Does.nil rfl)
              rw [set_ne (by decide)]
              simp [Store.setAll, happ.child, Mut.run, tagAttr]
            · rintro _ _ _ rfl
              refine ⟨⟨?_, ?_, ?_⟩, ?_⟩
              · simpa [Store.leave, Exs.ofList, Exs.decls, Store.set] using happ.event
              · simp [Store.leave, Exs.ofList, Exs.decls, Store.set]
              · simpa [Store.leave, Exs.ofList, Exs.decls, Store.set] using happ.childNs
              · intro y hy
                simp only [appVars, List.mem_cons, List.not_mem_nil, or_false, not_or] at hy
                simp only [Store.leave, Exs.ofList, Exs.decls, List.mem_singleton, Store.set]
                split
                · rfl
                · rename_i h; simp [h, hy, Store.setAll]
          · rintro _ _ s' ⟨h1, h2⟩
            have : s'.leave s (Pat.variant j).vars = s' := leave_nil _ _
            rw [this]
            exact ⟨h1, h2⟩
        · simp only [if_neg hij, List.append_nil]
          refine (Does.noArm (PE.var hself) (by simp [Pat.matches, hij]) ?_).conseq (P := fun _ _ s' => s' = s) ?_
          · simp only [Arms.ofList, evalArms, Pat.matches, Pat.vars, Store.setAll]
            refine Does.pure (v := .unit) (fun t => ?_) rfl
            simp only [Exec.inScope, skipE, eval, leave_nil]
            rfl
          · rintro _ _ _ rfl
            exact ⟨happ, Away.refl _ _⟩
    · rintro _ w s' ⟨h1, h2⟩
      have := does_variantMatches vs (j + 1) w s' _ _ _ ((h2 _ (by decide)).trans hself) (fun v hv => hok v (List.mem_cons_of_mem _ hv)) h1
      refine this.conseq ?_
      rintro _ _ s2 ⟨h3, h4⟩
      refine ⟨?_, h2.trans h4⟩
      rw [tagFrom, ← List.append_assoc]
      exact h3

theorem appends_enum {d : EnumDef} {vd : VariantDef} (hok : ∀ v ∈ d.variants, VariantSer d.attrs v) (hv : d.variants[i]? = some vd) :
    Appends L ops (.enum i pl) (genVariantMatches d.attrs 0 d.variants) (.ok (enumAttrs d vd)) := by
  intro n nss w s hself happ
  have := does_variantMatches (L := L) (ops := ops) d.variants 0 w s [] [] [] hself hok happ
  intro t
  obtain ⟨r, s', e, h, ho⟩ := this t
  refine ⟨r, s', e, ?_, ho⟩
  have e1 := tagFrom_eq (d := d) (j := 0) hv
  rw [Nat.zero_add] at e1
  rw [e1] at h
  have e2 : (enumAttrs d vd).own = [] := by unfold enumAttrs; split <;> rfl
  have e3 : (enumAttrs d vd).childNs = [] := by unfold enumAttrs; split <;> rfl
  rw [e2, e3]
  exact h

end tag

/-! ### The content -/

section inner
variable {L : Lib} {env : Env} {ser : Path → Val → S Unit} {attrs : Path → Val → List Attr → NsMap → Res (List Attr × NsMap)}
  {N : Nat} (hs : ∀ p v, HasTy env (.struct p) v → sizeOf v < N → ser p v = serTy L env p v)
  {s : Store} {root : Attrs} {i : Nat} {pl : List Val}

local notation "run" => evalSeq L (serOps L ser attrs) 0
local notation "ev" => eval L (serOps L ser attrs) 0
local notation "pe" => PE L (serOps L ser attrs) 0

/-- The arm of the value's variant. -/
theorem does_innerFrom {β : Type} {m : S β} {Q : β → RV → Store → Prop} {vd : VariantDef} :
    ∀ (vs : List VariantDef) (j k : Nat), vs[k]? = some vd → j + k = i → Does (ev (genInner root i vd).2) s m Q →
    Does (evalArms L (serOps L ser attrs) 0 (.ofList (genInnerFrom root j vs)) (.val (.enum i pl))) s m Q
  | v :: vs, j, 0, h, hj, hd => by
    simp only [List.getElem?_cons_zero, Option.some.injEq] at h
    subst h
    simp only [Nat.add_zero] at hj
    subst hj
    simp only [genInnerFrom, Arms.ofList, evalArms]
    have : (genInner root j v).1 = .variant j := rfl
    simp only [this, Pat.matches, if_true, Pat.vars, Store.setAll]
    intro t
    simp only [Exec.inScope, leave_nil]
    exact hd t
  | v :: vs, j, k + 1, h, hj, hd => by
    simp only [genInnerFrom, Arms.ofList, evalArms]
    have : (genInner root j v).1 = .variant j := rfl
    have hne : j ≠ i := by omega
    simp only [this, Pat.matches, if_neg hne]
    exact does_innerFrom vs (j + 1) k h (by omega) hd

theorem decls_append : ∀ (a b : List Ex), (Exs.ofList (a ++ b)).decls = (Exs.ofList a).decls ++ (Exs.ofList b).decls
  | [], b => rfl
  | e :: a, b => by
    have ih := decls_append a b
    cases e <;> simp [Exs.ofList, Exs.decls, ih]

/-- `write_element` -/
theorem does_writeElement {label : Str} {action : List Ex} {m : S Unit} (hw : s .writer = .ser)
    (h : ∀ w r, Does (run w (.ofList action)) (s.set .struct_start_event r) m fun _ _ s' => Away (Exs.ofList action).decls (s.set .struct_start_event r) s')
    (hd : Var.writer ∉ (Exs.ofList action).decls) (w : RV) :
    Does (run w (.ofList (genWriteElement label action))) s
      (swrite (.start (Name.ofStr label) [] []) >>= fun _ => m >>= fun _ => swrite (.endE none))
      fun _ _ s' => Away (Exs.ofList (genWriteElement label action)).decls s s' := by
  unfold genWriteElement
  refine Does.letE (pe_start (PE.lit _)) ?_
  refine Does.write (by simpa [Store.set] using hw) (PE.var set_eq) fun w => ?_
  refine Does.append (h w _) ?_
  intro _ w s' hoff
  refine Does.letE pe_end ?_
  refine (Does.last (does_write ?_ (PE.var set_eq))).conseq ?_
  · rw [set_ne (by decide), hoff _ hd]; simpa [Store.set] using hw
  · rintro _ _ _ rfl y hy
    simp only [Exs.ofList, Exs.decls, decls_append, writeE, List.mem_cons, List.mem_append, List.not_mem_nil, or_false, not_or] at hy
    rw [set_ne hy.2.2, hoff _ hy.2.1, set_ne hy.1]

theorem does_stringChars {x : Str} (hw : s .writer = .ser) (hi : (s .item).text = some x) (w : RV) :
    Does (run w (.ofList genStringChars)) s (swrite (.chars x)) fun _ _ s' => Away (Exs.ofList genStringChars).decls s s' := by
  unfold genStringChars
  refine Does.letE (pe_chars (PE.var rfl) hi) ?_
  refine (Does.last (does_write (by simpa [Store.set] using hw) (PE.var set_eq))).conseq ?_
  rintro _ _ _ rfl y hy
  simp [Exs.ofList, Exs.decls, writeE] at hy
  simp [Store.set, hy]

/-- The payload. -/
theorem does_payload {x : Val} {m : S Unit} {write : List Ex} (hself : s .self = .val (.enum i [x]))
    (h : Does (run .unit (.ofList write)) (s.set .item (.val x)) m fun _ _ s' => Away (Exs.ofList write).decls (s.set .item (.val x)) s') :
    Does (ev (genMatchField i write)) s m fun _ _ s' => s' = s :=
  Does.arm (PE.var hself) (by simp [Pat.matches]) rfl (Does.blk h)

include hs

theorem does_subType {label : Str} {t : FTy} {x : Val} (ht : (∃ u, t = .simple u) ∨ ∃ p, t = .struct p) (hw : s .writer = .ser)
    (hi : s .item = .val x) (hx : HasTy env t x) (hz : sizeOf x < N) :
    Does (ev (blk (genSubType label t))) s
      (swrite (.start (Name.ofStr label) [] []) >>= fun _ =>
        (match t with
          | .simple .string => swrite (.chars (showS L x))
          | .struct p => setFlags none true >>= fun _ => serTy L env p x
          | _ => setFlags none true >>= fun _ => serBuiltin L x) >>= fun _ => swrite (.endE none)) fun _ _ s' => s' = s := by
  refine Does.blk ?_
  unfold genSubType
  rcases ht with ⟨u, rfl⟩ | ⟨p, rfl⟩
  · by_cases hu : u = .string
    · subst hu
      rcases hx with ⟨x⟩
      refine does_writeElement hw (fun w r => does_stringChars (by simpa [Store.set] using hw) ?_ w) (by decide) _
      simp [Store.set, hi, RV.text]
      rfl
    · have key : Does (run .unit (.ofList (genWriteElement label (flagsE none true ++ [serializeE (.simple u) (.var .item)])))) s
          (swrite (.start (Name.ofStr label) [] []) >>= fun _ => (setFlags none true >>= fun _ => serBuiltin L x) >>= fun _ => swrite (.endE none))
          fun _ _ s' => Away (Exs.ofList (genWriteElement label (flagsE none true ++ [serializeE (.simple u) (.var .item)]))).decls s s' := by
        refine does_writeElement hw (fun w r => off_of_eq ?_) ?_ _
        · refine Does.flags (by simpa [Store.set] using hw) fun _ => ?_
          exact Does.last (does_scalar hu (by simpa [Store.set] using hw) (PE.var (by simpa [Store.set] using hi)))
        · cases u <;> simp [flagsE, Exs.ofList, Exs.decls, meth, serializeE, stuckE]
      cases u <;> first | exact absurd rfl hu | exact key
  · refine does_writeElement hw (fun w r => off_of_eq ?_) ?_ _
    · exact does_flagged hs (by simpa [Store.set] using hw) (PE.var (by simpa [Store.set] using hi)) hx hz
    · simp [flagsE, Exs.ofList, Exs.decls, meth, serializeE]

omit hs in
theorem serVariantItems_eq (label : Str) (t : FTy) (xs : List Val) :
    serVariantItems L env label t xs = xs.foldr (fun x k => (swrite (.start (Name.ofStr label) [] []) >>= fun _ =>
        (match t with
          | .simple .string => swrite (.chars (showS L x))
          | .struct p => setFlags none true >>= fun _ => serTy L env p x
          | _ => setFlags none true >>= fun _ => serBuiltin L x) >>= fun _ => swrite (.endE none)) >>= fun _ => k) (M.pure ()) := by
  induction xs with
  | nil => rw [serVariantItems]; rfl
  | cons x xs ih =>
    rw [serVariantItems.eq_def, List.foldr_cons, ← ih]
    simp only [bind_assoc']
    cases t with
    | simple u => cases u <;> rfl
    | _ => rfl

theorem does_newtype {vd : VariantDef} {t : FTy} {x : Val} (hself : s .self = .val (.enum i [x])) (hw : s .writer = .ser)
    (hsh : vd.shape = .newtype t) (ht : t.VariantOk) (hx : HasTy env t x) (hz : sizeOf x < N) :
    Does (ev (blk (genTupleField (buildLabelName vd.ident vd.attrs root.defaultNs) i vd.attrs.flatten t))) s
      (serVariant L env root vd [x]) fun _ _ s' => s' = s := by
  refine Does.blk ?_
  rw [serVariant.eq_def, hsh]
  unfold genTupleField
  have hit : s.set .item (.val x) .writer = .ser := by simpa [Store.set] using hw
  rcases t with t | t | t | p
  · -- a scalar
    by_cases hstr : t = .string
    · subst hstr
      rcases hx with ⟨x⟩
      refine off_of_eq (Does.last (does_payload hself ?_))
      exact does_writeElement hit (fun w r => does_stringChars (by simpa [Store.set] using hw) (by simp [Store.set, RV.text]; rfl) w) (by decide) _
    · have key : Does (run .unit (.ofList [genMatchField i (genSimpleType (buildLabelName vd.ident vd.attrs root.defaultNs))])) s
          (encloseChars (buildLabelName vd.ident vd.attrs root.defaultNs) (showS L x))
          fun _ _ s' => Away (Exs.ofList [genMatchField i (genSimpleType (buildLabelName vd.ident vd.attrs root.defaultNs))]).decls s s' := by
        refine off_of_eq (Does.last (does_payload hself ?_))
        refine does_writeElement hit (fun w r => ?_) (by decide) _
        refine Does.letE (pe_display (PE.var (v := .val x) (by simp [Store.set])) hx) ?_
        refine Does.letE (pe_chars (PE.var set_eq) rfl) ?_
        refine (Does.last (does_write (by simpa [Store.set] using hw) (PE.var set_eq))).conseq ?_
        rintro _ _ _ rfl y hy
        simp [Exs.ofList, Exs.decls, writeE] at hy
        simp [Store.set, hy]
      cases t <;> first | exact absurd rfl hstr | exact key
  · -- an `Option`
    have ht' : (∃ u, t = .simple u) ∨ ∃ p, t = .struct p := by
      rcases t with t | t | t | p
      · exact .inl ⟨_, rfl⟩
      · exact absurd ht id
      · exact absurd ht id
      · exact .inr ⟨_, rfl⟩
    refine off_of_eq (Does.last (does_payload hself (off_of_eq (Does.last ?_))))
    rcases hx with _ | _ | _ | _ | _ | _ | ⟨_, x, hx⟩
    · have := Does.ifNot (L := L) (ops := serOps L ser attrs) (fuel := 0) (s := s.set .item (.val .none)) (e := .var .item) (p := .some (.bind .item))
        (a := blk (genSubType (buildLabelName vd.ident vd.attrs root.defaultNs) t)) (PE.var set_eq) rfl
      rcases ht' with ⟨u, rfl⟩ | ⟨p, rfl⟩
      · cases u <;> exact this
      · exact this
    · refine Does.arm (PE.var set_eq) rfl rfl ?_
      have := does_subType (attrs := attrs) hs (label := buildLabelName vd.ident vd.attrs root.defaultNs) (t := t) (x := x)
        (s := (s.set .item (.val (.some x))).set .item (.val x)) ht' (by simpa [Store.set] using hw) set_eq hx
        (Nat.lt_trans (sizeOf_some_lt x) hz)
      refine Eq.mp ?_ this
      congr 1
      rcases ht' with ⟨u, rfl⟩ | ⟨p, rfl⟩
      · cases u <;> simp only [encloseChars, bind_assoc']
      · simp only [bind_assoc']
  · -- a `Vec`
    have ht' : (∃ u, t = .simple u) ∨ ∃ p, t = .struct p := by
      rcases t with t | t | t | p
      · exact .inl ⟨_, rfl⟩
      · exact absurd ht id
      · exact absurd ht id
      · exact .inr ⟨_, rfl⟩
    refine off_of_eq (Does.last (does_payload hself (off_of_eq (Does.last ?_))))
    rcases hx with _ | _ | _ | _ | _ | _ | _ | ⟨_, xs, hx⟩
    simp only
    rw [serVariantItems_eq]
    refine Does.forE (PE.var set_eq) (v := .val (.vec xs)) (l := xs) (f := .val) rfl fun a ha => ?_
    exact does_subType hs ht' (by simpa [Store.set] using hw) set_eq (hx a ha) (Nat.lt_trans (sizeOf_vec_lt ha) hz)
  · -- a struct
    simp only
    split
    · refine off_of_eq (Does.last (does_payload hself (off_of_eq ?_)))
      rw [← hs p x hx hz]
      exact Does.last (does_serialize hit (PE.var set_eq))
    · have := does_writeElement (L := L) (attrs := attrs) (ser := ser) (label := buildLabelName vd.ident vd.attrs root.defaultNs)
        (action := [genMatchField i (flagsE none true ++ [serializeE (.struct p) (.var .item)])]) (s := s)
        (m := setFlags none true >>= fun _ => serTy L env p x) hw (fun w r => ?_) (by simp [Exs.ofList, Exs.decls, genMatchField, ifLet, mtch]) .unit
      · simp only [bind_assoc'] at this
        exact this
      · refine off_of_eq (Does.last (does_payload (by simpa [Store.set] using hself) (off_of_eq ?_)))
        exact does_flagged hs (by simpa [Store.set] using hw) (PE.var set_eq) hx hz

/-! ### Named fields -/

/-- What `serNamed` does for one field. -/
def serNamedField (L : Lib) (env : Env) (root : Attrs) (f : FieldDef) (v : Val) : S Unit :=
  match f.ty, v with
  | .simple _, v => encloseChars (f.renamedLabel root) (showS L v)
  | .struct p, x => setFlags (some (f.renamedLabel root)) false >>= fun _ => serTy L env p x
  | .vec (.struct p), .vec xs => serItems L env p (setFlags (some (f.renamedLabel root)) false) xs
  | .vec _, .vec xs =>
    xs.foldr (fun x k => setFlags (some (f.renamedLabel root)) false >>= fun _ => serBuiltin L x >>= fun _ => k) (M.pure ())
  | .opt _, _ => M.pure ()
  | _, _ => M.panic c!"ill-typed"

omit hs in
theorem serNamed_cons (f : FieldDef) (fs : List FieldDef) (v : Val) (vs : List Val) :
    serNamed L env root (f :: fs) (v :: vs) = (serNamedField L env root f v >>= fun _ => serNamed L env root fs vs) := by
  rw [serNamed.eq_def]
  rfl

theorem does_namedField {k : Nat} {f : FieldDef} {v : Val} (hself : s .self = .val (.enum i pl)) (hw : s .writer = .ser)
    (hk : pl[k]? = some v) (hok : NamedSer root f) (hv : HasTy env f.ty v) (hz : sizeOf v < N) (w : RV) :
    Does (run w (.ofList (genNamedField root i k f))) s (serNamedField L env root f v) fun _ _ s' => s' = s := by
  unfold genNamedField serNamedField
  rw [hok.isAttr, hok.text]
  simp only [Bool.false_eq_true, if_false]
  have hm : ∀ u, (Pat.payload i k (.bind u)).matches (.val (.enum i pl)) = some [(u, .val v)] := by
    intro u
    simp [Pat.matches, hk]
  have hwr := hok.writer
  have hty := hok.ty
  have hvec := hok.vec
  have hst := hok.start
  rcases ht : f.ty with t | t | t | p
  all_goals rw [ht] at hv hwr hty hvec
  · have hu := hwr (fun _ h => by cases h)
    have hu2 := hst t ht
    refine Does.last (Does.arm (PE.var hself) (hm _) rfl (Does.blk ?_))
    have hw' : s.set (userVar f.ident) (.val v) .writer = .ser := by rw [set_ne (Ne.symm hu)]; exact hw
    unfold encloseChars
    refine Does.letE (pe_start (PE.lit _)) ?_
    refine Does.write (by rw [set_ne (by decide)]; exact hw') (PE.var set_eq) fun _ => ?_
    refine Does.letE (pe_display (PE.var (v := .val v) (by rw [set_ne hu2, set_eq])) hv) ?_
    refine Does.letE (pe_chars (PE.var set_eq) rfl) ?_
    refine Does.write (by simpa [Store.set] using hw') (PE.var set_eq) fun _ => ?_
    refine Does.letE pe_end ?_
    refine (Does.last (does_write (by simpa [Store.set] using hw') (PE.var set_eq))).conseq ?_
    rintro _ _ _ rfl y hy
    simp [Exs.ofList, Exs.decls, writeE] at hy
    simp [Store.set, hy]
  · exact Does.nil rfl
  · have hu := hwr (fun _ h => by cases h)
    refine Does.last (Does.arm (PE.var hself) (hm _) rfl (Does.blk (off_of_eq (Does.last ?_))))
    have hw' : s.set (userVar f.ident) (.val v) .writer = .ser := by rw [set_ne (Ne.symm hu)]; exact hw
    rcases hv with _ | _ | _ | _ | _ | _ | _ | ⟨_, xs, hx⟩
    rcases t with t | t | t | p
    · have := Does.forE (L := L) (ops := serOps L ser attrs) (fuel := 0) (s := s.set (userVar f.ident) (.val (.vec xs))) (x := .item)
        (e := .var (userVar f.ident)) (b := blk (flagsE (some (f.renamedLabel root)) false ++ [serializeE (.simple t) (.var .item)]))
        (v := .val (.vec xs)) (l := xs) (f := .val)
        (step := fun x => setFlags (some (f.renamedLabel root)) false >>= fun _ => serBuiltin L x)
        (PE.var set_eq) rfl (fun a ha => ?_)
      · simp only [bind_assoc'] at this
        exact this
      · refine Does.blk (off_of_eq ?_)
        refine Does.flags (by simpa [Store.set] using hw') fun _ => ?_
        exact Does.last (does_scalar (by rintro rfl; exact hvec rfl) (by simpa [Store.set] using hw') (PE.var set_eq))
    · exact absurd hty id
    · exact absurd hty id
    · simp only
      rw [serItems_eq]
      refine Does.forE (PE.var set_eq) (v := .val (.vec xs)) (l := xs) (f := .val) rfl fun a ha => ?_
      exact does_blkFlagged hs (by simpa [Store.set] using hw') (PE.var set_eq) (hx a ha) (Nat.lt_trans (sizeOf_vec_lt ha) hz)
  · have hu := hwr (fun _ h => by cases h)
    refine Does.last (Does.arm (PE.var hself) (hm _) rfl ?_)
    exact does_blkFlagged hs (by rw [set_ne (Ne.symm hu)]; exact hw) (PE.var set_eq) hv hz

theorem does_namedFrom : ∀ (fs : List FieldDef) (vs : List Val) (k : Nat) (w : RV),
    s .self = .val (.enum i pl) → s .writer = .ser → fs.length = vs.length →
    (∀ j, vs[j]? = pl[k + j]?) → (∀ f ∈ fs, NamedSer root f) →
    (∀ (j : Nat) (f : FieldDef) (v : Val), fs[j]? = some f → vs[j]? = some v → HasTy env f.ty v) → (∀ v ∈ vs, sizeOf v < N) →
    Does (run w (.ofList (genNamedFrom root i k fs))) s (serNamed L env root fs vs) fun _ _ s' => s' = s
  | [], [], _, _, _, _, _, _, _, _, _ => by
    rw [serNamed.eq_def]
    exact Does.nil rfl
  | f :: fs, v :: vs, k, w, h1, h2, h3, h4, h5, h6, h7 => by
    rw [serNamed_cons]
    refine Does.append (does_namedField hs h1 h2 ?_ (h5 f List.mem_cons_self) (h6 0 f v rfl rfl) (h7 v List.mem_cons_self) w) ?_
    · have := h4 0
      simpa using this.symm
    · intro _ w s' hs'
      rw [hs']
      refine does_namedFrom fs vs (k + 1) w h1 h2 (by simpa using h3) ?_
        (fun f hf => h5 f (List.mem_cons_of_mem _ hf)) (fun k f v hf hv => h6 (k + 1) f v hf hv)
        (fun v hv => h7 v (List.mem_cons_of_mem _ hv))
      intro j
      have := h4 (j + 1)
      rw [show k + 1 + j = k + (j + 1) by omega]
      exact this
  | [], _ :: _, _, _, _, _, h, _, _, _, _ => by cases h
  | _ :: _, [], _, _, _, _, h, _, _, _, _ => by cases h

/-! ### The function -/

theorem run_serEnum {d : EnumDef} {p : Path} (hp : env p = some (.enum d)) (hok : ∀ v ∈ d.variants, VariantSer d.attrs v) {v : Val}
    (hv : HasTy env (.struct p) v) (hz : sizeOf v < N + 1) :
    runSer L ser attrs (genSerEnum d) v = serTy L env p v := by
  have size : ∀ {i : Nat} {pl : List Val}, sizeOf (Val.enum i pl) < N + 1 → ∀ x ∈ pl, sizeOf x < N := by
    intro i pl h x hx
    have := List.sizeOf_lt_of_mem hx
    simp at h
    omega
  rw [serTy.eq_def, hp]
  rcases hv with _ | _ | _ | _ | _ | _ | _ | _ | ⟨_, d', fs, hp', hlen, h⟩ | ⟨_, d', i, vd, hp', hvd, hsh⟩ | ⟨_, d', i, vd, t, x, hp', hvd, hsh, h⟩ |
    ⟨_, d', i, vd, fds, fs, hp', hvd, hsh, hlen, h⟩ | ⟨_, d', _, hp', hd⟩
  all_goals
    rw [hp] at hp'
    first
      | (cases hp'; done)
      | (simp only [Option.some.injEq, TypeDef.enum.injEq] at hp'; subst hp')
  all_goals
    dsimp only
    rw [hvd]
    dsimp only
    rw [hsh]
    refine run_serialize (appends_enum hok hvd) fun w s hself hw => ?_
    refine Does.last (Does.step (PE.var hself) (does_innerFrom d.variants 0 i hvd (by omega) ?_))
    simp only [genInner, hsh]
  · rw [serVariant.eq_def, hsh]
    simp only
    split
    · exact Does.conseq (P := fun _ _ s' => s' = s) (Does.blk (Does.nil fun _ _ => rfl)) fun _ _ _ h => h ▸ Core.refl s
    · refine Does.conseq (P := fun _ _ s' => s' = s) (Does.blk ?_) fun _ _ _ h => h ▸ Core.refl s
      refine Does.letE (pe_chars (PE.lit _) rfl) ?_
      refine (Does.last (does_write (by simpa [Store.set] using hw) (PE.var set_eq))).conseq ?_
      rintro _ _ _ rfl y hy
      simp [Exs.ofList, Exs.decls, writeE] at hy
      simp [Store.set, hy]
  · refine Does.conseq (does_newtype hs hself hw hsh ((hok vd (List.mem_of_getElem? hvd)).newtype t hsh) h (size hz x (by simp)))
      fun _ _ _ h => h ▸ Core.refl s
  · refine Does.conseq (P := fun _ _ s' => s' = s) (Does.blk (off_of_eq ?_)) fun _ _ _ h => h ▸ Core.refl s
    exact does_namedFrom hs fds fs 0 _ hself hw hlen.symm (fun j => by rw [Nat.zero_add])
      ((hok vd (List.mem_of_getElem? hvd)).named fds hsh) h (size hz)

omit hs in
theorem run_attrsEnum {d : EnumDef} {p : Path} (hp : env p = some (.enum d)) (hok : ∀ v ∈ d.variants, VariantSer d.attrs v) {v : Val}
    (hv : HasTy env (.struct p) v) : runAttrs L ser attrs (genAttrsEnum d) v [] [] = attrsOf L env p v := by
  rw [attrsOf.eq_def, hp]
  rcases hv with _ | _ | _ | _ | _ | _ | _ | _ | ⟨_, d', fs, hp', hlen, h⟩ | ⟨_, d', i, vd, hp', hvd, hsh⟩ | ⟨_, d', i, vd, t, x, hp', hvd, hsh, h⟩ |
    ⟨_, d', i, vd, fds, fs, hp', hvd, hsh, hlen, h⟩ | ⟨_, d', _, hp', hd⟩
  all_goals
    rw [hp] at hp'
    first
      | (cases hp'; done)
      | (simp only [Option.some.injEq, TypeDef.enum.injEq] at hp'; subst hp')
  all_goals
    dsimp only
    rw [hvd]
    dsimp only
    exact run_serializeAttributes (appends_enum hok hvd)

end inner

end Yaserde.Rs
