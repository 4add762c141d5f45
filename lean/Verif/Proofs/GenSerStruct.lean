import Verif.Proofs.GenSer
/-
The printed `serialize` of a struct: the templates for its fields.
-/

set_option autoImplicit false

namespace Yaserde.Rs

/-- What `serFields` does for one field. -/
def serField (L : Lib) (env : Env) (root : Attrs) (self : Val) (f : FieldDef) (v : Val) : S Unit :=
  if f.attrs.isAttr then M.pure ()
  else if f.attrs.text then serText v
  else if !serCondition f self v then M.pure ()
  else if f.attrs.cdata then
    match v with
    | .str s => encloseCdata (f.renamedLabel root) s
    | _ => M.panic c!"ill-typed"
  else
    match f.ty, v with
    | .simple _, v => encloseChars (f.renamedLabel root) (showS L v)
    | .opt (.simple _), .some x => encloseChars (f.renamedLabel root) (showS L x)
    | .opt (.vec (.simple _)), .some (.vec xs) =>
      xs.foldr (fun x k => encloseChars (f.renamedLabel root) (showS L x) >>= fun _ => k) (M.pure ())
    | .opt (.struct p), .some x =>
      setFlags (if f.attrs.flatten then none else some (f.renamedLabel root)) f.attrs.flatten
        >>= fun _ => serTy L env p x
    | .opt _, .none => M.pure ()
    | .struct p, x =>
      setFlags (if f.attrs.flatten then none else some (f.renamedLabel root)) f.attrs.flatten
        >>= fun _ => serTy L env p x
    | .vec (.simple _), .vec xs =>
      xs.foldr (fun x k => encloseChars (f.renamedLabel root) (showS L x) >>= fun _ => k) (M.pure ())
    | .vec (.opt t), .vec xs => serOptItems L env t xs
    | .vec (.struct p), .vec xs =>
      serItems L env p
        (setFlags (if f.attrs.flatten then none else some (f.renamedLabel root)) f.attrs.flatten) xs
    | _, _ => M.panic c!"ill-typed"

theorem serFields_cons (L : Lib) (env : Env) (root : Attrs) (self : Val) (f : FieldDef) (fs : List FieldDef) (v : Val) (vs : List Val) :
    serFields L env root self (f :: fs) (v :: vs) = (serField L env root self f v >>= fun _ => serFields L env root self fs vs) := by
  rw [serFields.eq_def]
  rfl

theorem serItems_eq (L : Lib) (env : Env) (p : Path) (flags : S Unit) (xs : List Val) :
    serItems L env p flags xs = xs.foldr (fun x k => (flags >>= fun _ => serTy L env p x) >>= fun _ => k) (M.pure ()) := by
  induction xs with
  | nil => rw [serItems]; rfl
  | cons x xs ih => rw [serItems, ih, List.foldr_cons, bind_assoc']

/-- What `serOptItems` does for one item. -/
def optItem (L : Lib) (env : Env) (t : FTy) : Val → S Unit
  | .some x => setFlags none false >>= fun _ =>
    match t with
    | .struct p => serTy L env p x
    | _ => serBuiltin L x
  | _ => M.pure ()

theorem serOptItems_eq (L : Lib) (env : Env) (t : FTy) (xs : List Val) :
    serOptItems L env t xs = xs.foldr (fun x k => optItem L env t x >>= fun _ => k) (M.pure ()) := by
  induction xs with
  | nil => rw [serOptItems]; rfl
  | cons x xs ih =>
    rw [List.foldr_cons, ← ih]
    cases x <;> rw [serOptItems.eq_def] <;> rfl

/-- The function's own variables have not changed. -/
def Core (s s' : Store) : Prop := s' .self = s .self ∧ s' .writer = s .writer ∧ s' .skip = s .skip

theorem Core.refl (s : Store) : Core s s := ⟨rfl, rfl, rfl⟩

theorem Core.trans {s s1 s2 : Store} (h : Core s s1) (h' : Core s1 s2) : Core s s2 :=
  ⟨h'.1.trans h.1, h'.2.1.trans h.2.1, h'.2.2.trans h.2.2⟩

/-- Fields for which the printed code compiles. -/
def FieldSer (f : FieldDef) : Prop := f.SerOk ∧ (f.attrs.isAttr = false → f.ty ≠ .vec (.opt (.simple .string)))

theorem sizeOf_some_lt (v : Val) : sizeOf v < sizeOf (Val.some v) := by simp

theorem sizeOf_vec_lt {v : Val} {vs : List Val} (h : v ∈ vs) : sizeOf v < sizeOf (Val.vec vs) := by
  have := List.sizeOf_lt_of_mem h
  simp
  omega

theorem display_of_hasTy {L : Lib} {env : Env} {t : STy} {v : Val} (h : HasTy env (.simple t) v) : display L v = some (showS L v) := by
  cases h <;> rfl

section fields
variable {L : Lib} {env : Env} {ser : Path → Val → S Unit} {attrs : Path → Val → List Attr → NsMap → Res (List Attr × NsMap)}
  {N : Nat} (hs : ∀ p v, HasTy env (.struct p) v → sizeOf v < N → ser p v = serTy L env p v)
  {s : Store} {root : Attrs} {all : List Val} {i : Nat} {f : FieldDef} {v : Val}

local notation "run" => evalSeq L (serOps L ser attrs) 0
local notation "ev" => eval L (serOps L ser attrs) 0
local notation "pe" => PE L (serOps L ser attrs) 0

theorem pe_self {σ : Type} {ops : Op → List RV → σ → Out × σ} (hself : s .self = .val (.struct all)) (hi : all[i]? = some v) :
    PE L ops 0 (selfE i) s (.val v) :=
  (PE.var hself).fn1 (by simp [Fn.apply, hi, Out.ofOption])

theorem pe_display {σ : Type} {ops : Op → List RV → σ → Out × σ} {e : Ex} {t : STy} (he : PE L ops 0 e s (.val v))
    (hv : HasTy env (.simple t) v) : PE L ops 0 (fn .display [e]) s (.str (showS L v)) :=
  he.fn1 (by simp [Fn.apply, display_of_hasTy hv, Out.ofOption])

theorem pe_notSkipped {σ : Type} {ops : Op → List RV → σ → Out × σ} (hself : s .self = .val (.struct all)) (hi : all[i]? = some v)
    {g : Val → Val → Bool} : PE L ops 0 (fn .not [fn (.skipIf g) [.var .self, selfE i]]) s (.bool (!g (.struct all) v)) :=
  ((PE.var hself).fn2 (pe_self hself hi) rfl).not

theorem pe_neDefault {σ : Type} {ops : Op → List RV → σ → Out × σ} (hself : s .self = .val (.struct all)) (hi : all[i]? = some v)
    {d : Dflt} : PE L ops 0 (fn (.neDefault d) [selfE i]) s (.bool (d.ne v)) :=
  (pe_self hself hi).fn1 rfl

theorem pe_condition (hself : s .self = .val (.struct all)) (hi : all[i]? = some v) :
    pe (genCondition f i) s (.bool (serCondition f (.struct all) v)) := by
  unfold genCondition genNotSkipped genNeDefault serCondition
  cases f.skipIf with
  | some g =>
    cases f.dflt with
    | some d => exact (((PE.lit _).not.andE (pe_notSkipped hself hi)).andE (pe_neDefault hself hi))
    | none =>
      refine Eq.mp ?_ ((PE.lit (.bool f.attrs.skipSer)).not.andE (pe_notSkipped (L := L) (ops := serOps L ser attrs) (g := g) hself hi))
      simp only [Option.map_some, Option.map_none, Bool.and_true]
  | none =>
    cases f.dflt with
    | some d =>
      refine Eq.mp ?_ ((PE.lit (.bool f.attrs.skipSer)).not.andE (pe_neDefault (L := L) (ops := serOps L ser attrs) (d := d) hself hi))
      simp only [Option.map_some, Option.map_none, Bool.and_true, Bool.not_false]
    | none =>
      have : pe (fn .not [.lit (.bool f.attrs.skipSer)]) s (.bool (!f.attrs.skipSer)) := (PE.lit _).not
      refine Eq.mp ?_ this
      simp only [Option.map_none, Bool.and_true, Bool.not_false]


theorem off_of_eq {β : Type} {es : List Ex} {x : Exec Sr} {m : S β} (h : Does x s m fun _ _ s' => s' = s) :
    Does x s m fun _ _ s' => Away (Exs.ofList es).decls s s' :=
  h.conseq fun _ _ _ h _ _ => by rw [h]

include hs

/-- `YaSerialize::serialize(e, writer)?`, after the two setters. -/
theorem does_flagged {n : Option Str} {b : Bool} {p : Path} {e : Ex} {x : Val} {w : RV} (hw : s .writer = .ser)
    (he : pe e s (.val x)) (hx : HasTy env (.struct p) x) (hz : sizeOf x < N) :
    Does (run w (.ofList (flagsE n b ++ [serializeE (.struct p) e]))) s (setFlags n b >>= fun _ => serTy L env p x)
      fun _ _ s' => s' = s := by
  refine Does.flags hw fun _ => ?_
  rw [← hs p x hx hz]
  exact Does.last (does_serialize hw he)

theorem does_blkFlagged {n : Option Str} {b : Bool} {p : Path} {e : Ex} {x : Val} (hw : s .writer = .ser)
    (he : pe e s (.val x)) (hx : HasTy env (.struct p) x) (hz : sizeOf x < N) :
    Does (ev (blk (flagsE n b ++ [serializeE (.struct p) e]))) s (setFlags n b >>= fun _ => serTy L env p x)
      fun _ _ s' => s' = s :=
  Does.blk (off_of_eq (does_flagged hs hw he hx hz))

theorem does_element (hself : s .self = .val (.struct all)) (hw : s .writer = .ser) (hi : all[i]? = some v)
    (hok : FieldSer f) (h1 : f.attrs.isAttr = false) (h2 : f.attrs.text = false) (h3 : f.attrs.cdata = false)
    (hc : serCondition f (.struct all) v = true) (hv : HasTy env f.ty v) (hz : sizeOf v < N) :
    Does (ev (blk (genElement root i f))) s (serField L env root (.struct all) f v) fun _ _ s' => s' = s := by
  obtain ⟨hok, hno⟩ := hok
  have hno := hno h1
  simp only [FieldDef.SerOk, h1, h2, h3, Bool.false_eq_true, if_false] at hok
  simp only [serField, h1, h2, h3, hc, Bool.false_eq_true, if_false, Bool.not_true]
  unfold genElement
  have hsv := pe_self (L := L) (ops := serOps L ser attrs) hself hi
  rcases hty : f.ty with t | t | t | p
  all_goals rw [hty] at hv hok hno
  · -- a scalar
    exact does_enclose hw fun r => pe_display (pe_self (by simpa [Store.set] using hself) hi) hv
  · rcases t with t | t | t | p
    · -- `Option` of a scalar
      refine Does.blk (off_of_eq (Does.last ?_))
      rcases hv
      · exact Does.ifNot hsv rfl
      · rename_i x hx
        refine Does.arm hsv rfl rfl ?_
        exact does_enclose (by simpa [Store.set] using hw) fun r => pe_display (PE.var (by simp [Store.set])) hx
    · exact absurd hok id
    · rcases t with t | t | t | p
      · -- `Option<Vec>` of scalars
        refine Does.blk (off_of_eq (Does.last ?_))
        rcases hv
        · exact Does.ifNot hsv rfl
        · rename_i x hx
          rcases hx with _ | _ | _ | _ | _ | _ | _ | ⟨_, xs, hx⟩
          refine Does.arm hsv rfl rfl ?_
          refine Does.blk (off_of_eq (Does.last ?_))
          refine Does.forE (PE.var set_eq) (v := .val (.vec xs)) (l := xs) (f := .val) rfl fun a ha => ?_
          exact does_enclose (by simpa [Store.set] using hw) fun r => pe_display (PE.var (by simp [Store.set])) (hx a ha)
      all_goals exact absurd hok id
    · -- `Option` of a struct
      refine Does.blk (off_of_eq (Does.last ?_))
      rcases hv
      · exact Does.ifNot hsv rfl
      · rename_i x hx
        refine Does.arm hsv rfl rfl ?_
        exact does_blkFlagged hs (by simpa [Store.set] using hw) (PE.var (by simp [Store.set])) hx
          (Nat.lt_trans (sizeOf_some_lt x) hz)
  · rcases t with t | t | t | p
    · -- `Vec` of scalars
      refine Does.blk (off_of_eq (Does.last ?_))
      rcases hv with _ | _ | _ | _ | _ | _ | _ | ⟨_, xs, hx⟩
      refine Does.forE hsv (l := xs) (f := .val) rfl fun a ha => ?_
      exact does_enclose (by simpa [Store.set] using hw) fun r => pe_display (PE.var (by simp [Store.set])) (hx a ha)
    · -- `Vec<Option>`
      refine Does.blk (off_of_eq (Does.last ?_))
      rcases hv with _ | _ | _ | _ | _ | _ | _ | ⟨_, xs, hx⟩
      show Does _ _ (serOptItems L env t xs) _
      rw [serOptItems_eq]
      refine Does.forE hsv (l := xs) (f := .val) rfl fun a ha => ?_
      refine Does.blk (off_of_eq (Does.last ?_))
      have hxa := hx a ha
      rcases hxa
      · exact Does.ifNot (PE.var set_eq) rfl
      · rename_i x hx
        refine Does.arm (PE.var set_eq) rfl rfl ?_
        rcases t with t | t | t | p
        · refine Does.blk (off_of_eq ?_)
          refine Does.flags (by simpa [Store.set] using hw) fun _ => ?_
          exact Does.last (does_scalar (by rintro rfl; exact hno rfl) (by simpa [Store.set] using hw) (PE.var (by simp [Store.set])))
        · exact absurd hok id
        · exact absurd hok id
        · exact does_blkFlagged hs (by simpa [Store.set] using hw) (PE.var (by simp [Store.set])) hx
            (Nat.lt_trans (sizeOf_some_lt x) (Nat.lt_trans (sizeOf_vec_lt ha) hz))
    · exact absurd hok id
    · -- `Vec` of structs
      refine Does.blk (off_of_eq (Does.last ?_))
      rcases hv with _ | _ | _ | _ | _ | _ | _ | ⟨_, xs, hx⟩
      show Does _ _ (serItems L env p _ xs) _
      rw [serItems_eq]
      refine Does.forE hsv (l := xs) (f := .val) rfl fun a ha => ?_
      exact does_blkFlagged hs (by simpa [Store.set] using hw) (PE.var (by simp [Store.set])) (hx a ha)
        (Nat.lt_trans (sizeOf_vec_lt ha) hz)
  · -- a struct
    exact does_blkFlagged hs hw hsv hv hz

theorem does_inspect (hself : s .self = .val (.struct all)) (hw : s .writer = .ser) (hi : all[i]? = some v)
    (hok : FieldSer f) (hv : HasTy env f.ty v) (hz : sizeOf v < N) (w : RV) :
    Does (run w (.ofList (genInspectField root i f))) s (serField L env root (.struct all) f v) fun _ _ s' => Core s s' := by
  have hsv := pe_self (L := L) (ops := serOps L ser attrs) hself hi
  unfold genInspectField
  cases h1 : f.attrs.isAttr
  case true => simp only [serField, h1, if_true]; exact Does.nil (Core.refl s)
  cases h2 : f.attrs.text
  case true =>
    simp only [serField, h1, h2, if_true, Bool.false_eq_true, if_false]
    obtain ⟨hok, -⟩ := hok
    simp only [FieldDef.SerOk, h1, h2, Bool.false_eq_true, if_false, if_true] at hok
    rcases hok with hty | hty
    all_goals rw [hty] at hv ⊢
    · rcases hv with ⟨x⟩
      refine Does.letE (pe_chars hsv rfl) ?_
      refine (Does.last (does_write (by simpa [Store.set] using hw) (PE.var set_eq))).conseq ?_
      rintro _ _ _ rfl
      simp [Core, Store.set]
    · have hm : ∃ x, serText v = swrite (.chars x) ∧ ∃ r : RV, r.text = some x ∧
          pe (mtch (selfE i) [(.some (.bind .v), .var .v), (.none, strE [])]) s r := by
        rcases hv with _ | _ | _ | _ | _ | _ | ⟨_, x, hx⟩
        · refine ⟨[], rfl, .str [], rfl, fun t => ?_⟩
          simp [mtch, Arms.ofList, eval, Exec.bind, hsv t, evalArms, Pat.matches, Pat.vars, Exec.inScope, Store.setAll, strE, leave_nil,
            Exec.val, Exec.out]
        · rcases hx with ⟨x⟩
          refine ⟨x, rfl, .val (.str x), rfl, fun t => ?_⟩
          simp only [mtch, Arms.ofList, eval, Exec.bind, hsv t, evalArms, Pat.matches, Pat.vars, Exec.inScope, Store.setAll]
          rw [leave_eq (s := s)]
          · simp [Store.set]
          · intro y hy
            simp only [List.mem_singleton] at hy
            simp [Store.set, hy]
      obtain ⟨x, hm, r, hr, hp⟩ := hm
      rw [hm]
      refine Does.letE hp ?_
      refine Does.letE (pe_chars (PE.var set_eq) hr) ?_
      refine (Does.last (does_write (by simpa [Store.set] using hw) (PE.var set_eq))).conseq ?_
      rintro _ _ _ rfl
      simp [Core, Store.set]
  cases hc : serCondition f (.struct all) v
  case false =>
    have hp := pe_condition (L := L) (ser := ser) (attrs := attrs) (f := f) hself hi
    rw [hc] at hp
    simp only [serField, h1, h2, hc, Bool.false_eq_true, if_false, Bool.not_false, if_true]
    have : ∀ a : Ex, Does (run w (.ofList [.ite (genCondition f i) a skipE])) s (M.pure ()) fun _ _ s' => Core s s' := fun a =>
      Does.last (Does.ite hp (fun h => by cases h) fun _ => Does.pure (v := .unit) (fun t => (PE.lit _) t) (Core.refl s))
    split <;> exact this _
  have hp := pe_condition (L := L) (ser := ser) (attrs := attrs) (f := f) hself hi
  rw [hc] at hp
  cases h3 : f.attrs.cdata
  case true =>
    simp only [serField, h1, h2, h3, hc, Bool.false_eq_true, if_false, Bool.not_true, if_true]
    obtain ⟨hok, -⟩ := hok
    simp only [FieldDef.SerOk, h1, h2, h3, Bool.false_eq_true, if_false, if_true] at hok
    rw [hok] at hv
    rcases hv with ⟨x⟩
    refine Does.last (Does.ite hp (fun _ => ?_) fun h => by cases h)
    refine Does.conseq (P := fun _ _ s' => s' = s) (Does.blk ?_) fun _ _ _ h => h ▸ Core.refl s
    unfold encloseCdata
    refine Does.letE (pe_start (PE.lit _)) ?_
    refine Does.write (by simpa [Store.set] using hw) (PE.var set_eq) fun _ => ?_
    refine Does.letE (PE.fn1 (pe_self (by simpa [Store.set] using hself) hi) (r := .wev (.cdata x)) rfl) ?_
    refine Does.write (by simpa [Store.set] using hw) (PE.var set_eq) fun _ => ?_
    refine Does.letE pe_end ?_
    refine (Does.last (does_write (by simpa [Store.set] using hw) (PE.var set_eq))).conseq ?_
    rintro _ _ _ rfl y hy
    simp [Exs.ofList, Exs.decls, writeE] at hy
    simp [Store.set, hy]
  simp only [Bool.false_eq_true, if_false]
  refine Does.last (Does.ite hp (fun _ => ?_) fun h => by cases h)
  exact Does.conseq (does_element hs hself hw hi hok h1 h2 h3 hc hv hz) fun _ _ _ h => h ▸ Core.refl s

theorem does_inspectFrom : ∀ (fs : List FieldDef) (vs : List Val) (i : Nat) (w : RV) (s : Store),
    s .self = .val (.struct all) → s .writer = .ser → fs.length = vs.length →
    (∀ k, vs[k]? = all[i + k]?) → (∀ f ∈ fs, FieldSer f) →
    (∀ (k : Nat) (f : FieldDef) (v : Val), fs[k]? = some f → vs[k]? = some v → HasTy env f.ty v) → (∀ v ∈ vs, sizeOf v < N) →
    Does (run w (.ofList (genInspectFrom root i fs))) s (serFields L env root (.struct all) fs vs) fun _ _ s' => Core s s'
  | [], [], _, _, s, _, _, _, _, _, _, _ => by
    rw [serFields]
    · exact Does.nil (Core.refl s)
    · intro _ _ _ _ h; cases h
  | f :: fs, v :: vs, i, w, s, h1, h2, h3, h4, h5, h6, h7 => by
    rw [serFields_cons]
    refine Does.append (does_inspect hs h1 h2 ?_ (h5 f List.mem_cons_self) (h6 0 f v rfl rfl) (h7 v List.mem_cons_self) w) ?_
    · have := h4 0
      simpa using this.symm
    · intro _ w s' hc
      refine Does.conseq (does_inspectFrom fs vs (i + 1) w s' (hc.1.trans h1) (hc.2.1.trans h2) (by simpa using h3) ?_
        (fun f hf => h5 f (List.mem_cons_of_mem _ hf)) (fun k f v hf hv => h6 (k + 1) f v hf hv)
        (fun v hv => h7 v (List.mem_cons_of_mem _ hv))) fun _ _ _ h => hc.trans h
      intro k
      have := h4 (k + 1)
      rw [show i + 1 + k = i + (k + 1) by omega]
      exact this
  | [], _ :: _, _, _, _, _, _, h, _, _, _, _ => by cases h
  | _ :: _, [], _, _, _, _, _, h, _, _, _, _ => by cases h

end fields

end Yaserde.Rs
