import Verif.Spec.NewField
import Verif.Spec.Rename
/-
Two programs that differ in the fields of their structs, run side by side over a document without the names of the new fields.
-/

set_option autoImplicit false

namespace Yaserde

theorem Res.Rel.bind {α β γ δ : Type} {R : α → β → Prop} {S : γ → δ → Prop} {x : Res α} {y : Res β} {f : α → Res γ} {g : β → Res δ}
    (h : Res.Rel R x y) (hf : ∀ a b, R a b → Res.Rel S (f a) (g b)) : Res.Rel S (x.bind f) (y.bind g) := by
  cases h with
  | ok h => exact hf _ _ h
  | err m => exact .err m
  | panic m => exact .panic m
  | diverge => exact .diverge

theorem Res.Rel.refl {α : Type} (x : Res α) : Res.Rel Eq x x := by
  rcases x with a | m | m | _
  · exact .ok rfl
  · exact .err m
  · exact .panic m
  · exact .diverge

theorem foldRes_wide {α β γ : Type} {R : β → γ → Prop} {f : β → α → Res β} {g : γ → α → Res γ} (as : List α)
    (h : ∀ a ∈ as, ∀ b c, R b c → Res.Rel R (f b a) (g c a)) : ∀ (b : β) (c : γ), R b c → Res.Rel R (foldRes f b as) (foldRes g c as) := by
  induction as with
  | nil => exact fun b c hbc => .ok hbc
  | cons a as ih =>
    intro b c hbc
    exact (h a List.mem_cons_self b c hbc).bind fun b' c' h' => ih (fun a ha => h a (List.mem_cons_of_mem _ ha)) b' c' h'

/-- All events in front of the reader. -/
structure Rd.All (F : REv → Prop) (rd : Rd) : Prop where
  evs : ∀ e ∈ rd.reader.evs, F e
  peeked : ∀ e, rd.peeked = some e → F e

/-- On such readers the two computations end alike, with related values and the same reader, again such a one. -/
def Side {α β : Type} (F : REv → Prop) (R : α → β → Prop) (x : D α) (y : D β) : Prop :=
  ∀ rd : Rd, rd.All F → (y rd).2 = (x rd).2 ∧ (x rd).2.All F ∧ Res.Rel R (x rd).1 (y rd).1

namespace Side
variable {F : REv → Prop} {α β γ δ : Type} {R : α → β → Prop} {S : γ → δ → Prop}

theorem bind {x : D α} {y : D β} {f : α → D γ} {g : β → D δ} (h : Side F R x y) (hf : ∀ a b, R a b → Side F S (f a) (g b)) :
    Side F S (x >>= f) (y >>= g) := by
  intro rd hrd
  obtain ⟨h1, h2, h3⟩ := h rd hrd
  show (M.bind y g rd).2 = (M.bind x f rd).2 ∧ (M.bind x f rd).2.All F ∧ Res.Rel S (M.bind x f rd).1 (M.bind y g rd).1
  unfold M.bind
  rcases hx : x rd with ⟨r, rd1⟩
  rcases hy : y rd with ⟨r', rd2⟩
  rw [hx, hy] at h1 h3
  rw [hx] at h2
  dsimp only at h1 h2 h3
  subst h1
  cases h3 with
  | ok h => exact hf _ _ h _ h2
  | err m => exact ⟨rfl, h2, .err m⟩
  | panic m => exact ⟨rfl, h2, .panic m⟩
  | diverge => exact ⟨rfl, h2, .diverge⟩

theorem pure {a : α} {b : β} (h : R a b) : Side F R (M.pure a) (M.pure b) := fun _ hrd => ⟨rfl, hrd, .ok h⟩
theorem throw (m : Str) : Side F R (M.throw m) (M.throw m) := fun _ h => ⟨rfl, h, .err m⟩
theorem panic (m : Str) : Side F R (M.panic m) (M.panic m) := fun _ h => ⟨rfl, h, .panic m⟩
theorem diverge : Side F R M.diverge M.diverge := fun _ h => ⟨rfl, h, .diverge⟩
theorem get : Side F Eq M.get M.get := fun _ h => ⟨rfl, h, .ok rfl⟩
theorem lift {r : Res α} {r' : Res β} (h : Res.Rel R r r') : Side F R (M.lift r) (M.lift r') := fun _ hrd => ⟨rfl, hrd, h⟩

theorem ofExcept (r : Except Str α) : Side F Eq (M.ofExcept r) (M.ofExcept r) := by
  intro rd hrd
  rcases r with m | a
  · exact ⟨rfl, hrd, .err m⟩
  · exact ⟨rfl, hrd, .ok rfl⟩

/-- What `attempt` returns. -/
inductive Got (R : α → β → Prop) : Except Str α → Except Str β → Prop
  | ok {a : α} {b : β} (h : R a b) : Got R (.ok a) (.ok b)
  | error (m : Str) : Got R (.error m) (.error m)

theorem ofGot {r : Except Str α} {r' : Except Str β} (h : Got R r r') : Side F R (M.ofExcept r) (M.ofExcept r') := by
  intro rd hrd
  cases h with
  | ok h => exact ⟨rfl, hrd, .ok h⟩
  | error m => exact ⟨rfl, hrd, .err m⟩

theorem attempt {x : D α} {y : D β} (h : Side F R x y) : Side F (Got R) (M.attempt x) (M.attempt y) := by
  intro rd hrd
  obtain ⟨h1, h2, h3⟩ := h rd hrd
  unfold M.attempt
  rcases hx : x rd with ⟨r, rd1⟩
  rcases hy : y rd with ⟨r', rd2⟩
  rw [hx, hy] at h1 h3
  rw [hx] at h2
  dsimp only at h1 h2 h3
  subst h1
  cases h3 with
  | ok h => exact ⟨rfl, h2, .ok (.ok h)⟩
  | err m => exact ⟨rfl, h2, .ok (.error m)⟩
  | panic m => exact ⟨rfl, h2, .panic m⟩
  | diverge => exact ⟨rfl, h2, .diverge⟩

end Side

section
variable {F : REv → Prop}

/-- The event that both get. -/
def Both' (F : REv → Prop) (e e' : REv) : Prop := e = e' ∧ F e

theorem Got.eq {α : Type} {R : α → α → Prop} (hR : ∀ a b, R a b → a = b) {r r' : Except Str α} (h : Side.Got R r r') : r = r' := by
  cases h with
  | ok h => rw [hR _ _ h]
  | error m => rfl

variable (hF : F .endDocument)
include hF

theorem innerNextL_all : ∀ (es : List REv) (fin : Option Str), (∀ e ∈ es, F e) →
    (∀ e ∈ (innerNextL es fin).2.evs, F e) ∧ ∀ e, (innerNextL es fin).1 = .ok e → F e
  | [], none, _ => ⟨fun _ h => by simp [innerNextL] at h, fun e h => by simp only [innerNextL, Res.ok.injEq] at h; subst h; exact hF⟩
  | [], some _, _ => ⟨fun _ h => by simp [innerNextL] at h, fun e h => by simp [innerNextL] at h⟩
  | e :: es, fin, h => by
    rw [innerNextL]
    split
    · exact innerNextL_all es fin fun e he => h e (List.mem_cons_of_mem _ he)
    · refine ⟨fun e he => h e (List.mem_cons_of_mem _ he), fun x hx => ?_⟩
      cases hx
      exact h _ List.mem_cons_self

omit hF in
theorem Res.Rel.both {r : Res REv} (h : ∀ e, r = .ok e → F e) : Res.Rel (Both' F) r r := by
  rcases r with e | m | m | _
  · exact .ok ⟨rfl, h e rfl⟩
  · exact .err m
  · exact .panic m
  · exact .diverge

theorem Side.innerNext : Side F (Both' F) innerNext innerNext := by
  intro rd hrd
  have h := innerNextL_all hF rd.reader.evs rd.reader.fin hrd.evs
  exact ⟨rfl, ⟨h.1, hrd.peeked⟩, Res.Rel.both h.2⟩

theorem Side.peek : Side F (Both' F) peek peek := by
  intro rd hrd
  refine ⟨rfl, ?_⟩
  unfold Yaserde.peek
  rcases hp : rd.peeked with _ | e
  · have h := innerNextL_all hF rd.reader.evs rd.reader.fin hrd.evs
    dsimp only [Yaserde.innerNext]
    rcases hx : innerNextL rd.reader.evs rd.reader.fin with ⟨e | m | m | _, s⟩ <;> rw [hx] at h
    · have he := h.2 e rfl
      refine ⟨⟨h.1, fun x hx => ?_⟩, .ok ⟨rfl, he⟩⟩
      cases hx
      exact he
    · exact ⟨⟨h.1, fun x hx => by rw [show rd.peeked = some x from hx] at hp; cases hp⟩, .err m⟩
    · exact ⟨⟨h.1, fun x hx => by rw [show rd.peeked = some x from hx] at hp; cases hp⟩, .panic m⟩
    · exact ⟨⟨h.1, fun x hx => by rw [show rd.peeked = some x from hx] at hp; cases hp⟩, .diverge⟩
  · exact ⟨hrd, .ok ⟨rfl, hrd.peeked e hp⟩⟩

omit hF in
theorem Side.trackDepth {e : REv} (he : F e) : Side F (Both' F) (trackDepth e) (trackDepth e) := by
  intro rd hrd
  refine ⟨rfl, ?_⟩
  unfold Yaserde.trackDepth
  split
  · exact ⟨⟨hrd.evs, hrd.peeked⟩, .ok ⟨rfl, he⟩⟩
  · split
    · exact ⟨hrd, .panic _⟩
    · exact ⟨⟨hrd.evs, hrd.peeked⟩, .ok ⟨rfl, he⟩⟩
  · exact ⟨hrd, .ok ⟨rfl, he⟩⟩

theorem Side.next : Side F (Both' F) nextEvent nextEvent := by
  intro rd hrd
  unfold nextEvent
  rcases hp : rd.peeked with _ | e
  · refine Side.bind (Side.innerNext hF) (fun e e' he => ?_) rd hrd
    obtain ⟨rfl, he⟩ := he
    exact Side.trackDepth he
  · exact Side.trackDepth (hrd.peeked e hp) _ ⟨hrd.evs, fun _ h => by cases h⟩

theorem Side.skipElement (fuel : Nat) : Side F Eq (skipElement fuel) (skipElement fuel) := by
  have h : ∀ (k depth : Nat) (acc : List REv), Side F Eq (skipLoop k depth acc) (skipLoop k depth acc) := by
    intro k depth
    induction k with
    | zero => exact fun _ => Side.diverge
    | succ k ih =>
      intro acc rd hrd
      unfold skipLoop
      split
      · refine Side.bind (Side.next hF) (fun e e' he => ?_) rd hrd
        obtain ⟨rfl, -⟩ := he
        exact ih _
      · exact ⟨rfl, hrd, .ok rfl⟩
  exact fun rd hrd => h fuel rd.depth [] rd hrd

/-- `attempt` of the same events. -/
theorem Side.tryNext : Side F Eq (M.attempt nextEvent) (M.attempt nextEvent) := by
  intro rd hrd
  obtain ⟨h1, h2, h3⟩ := Side.attempt (Side.next hF) rd hrd
  exact ⟨h1, h2, Res.Rel.refl _⟩

theorem Side.tryPeek : Side F Eq (M.attempt Yaserde.peek) (M.attempt Yaserde.peek) := by
  intro rd hrd
  obtain ⟨h1, h2, h3⟩ := Side.attempt (Side.peek hF) rd hrd
  exact ⟨h1, h2, Res.Rel.refl _⟩

theorem Side.readInnerValue {α : Type} {x : D α} (h : Side F Eq x x) : Side F Eq (readInnerValue x) (readInnerValue x) := by
  unfold Yaserde.readInnerValue
  refine Side.bind (Side.tryNext hF) fun r r' hr => ?_
  subst hr
  split
  · refine Side.bind h fun v v' hv => ?_
    subst hv
    refine Side.bind (R := Eq) ?_ fun _ _ _ => Side.pure rfl
    unfold expectEndElement
    refine Side.bind (Side.next hF) fun e e' he => ?_
    obtain ⟨rfl, -⟩ := he
    split
    · split
      · exact Side.pure rfl
      · exact Side.throw _
    · exact Side.throw _
  · exact Side.throw _

end

/-! #### Slots -/

section
variable (env env' : Env)

inductive SlotRel : FTy → Slot → Slot → Prop
  | many (t : FTy) (vs vs' : List Val) (h : WidensEach env env' t vs vs') : SlotRel (.vec t) (.many vs) (.many vs')
  | none (t : FTy) (hne : ∀ u, t ≠ .vec u) : SlotRel t (.one none) (.one none)
  | some (t : FTy) (v v' : Val) (hne : ∀ u, t ≠ .vec u) (h : Widens env env' t.core v v') : SlotRel t (.one (some v)) (.one (some v'))

/-- The slots of the older fields, and those of the newer ones with nothing in them. -/
inductive SlotsRel (ws : List FieldDef) : List FieldDef → List Slot → List Slot → Prop
  | nil : SlotsRel ws [] [] (ws.map fun f => Slot.init f.ty)
  | cons (f : FieldDef) (fs : List FieldDef) (s s' : Slot) (ss ss' : List Slot) (h : SlotRel env env' f.ty s s')
      (hs : SlotsRel ws fs ss ss') : SlotsRel ws (f :: fs) (s :: ss) (s' :: ss')

variable {env env'}

theorem widensEach_snoc {t : FTy} {v v' : Val} (hv : Widens env env' t v v') : ∀ {vs vs' : List Val},
    WidensEach env env' t vs vs' → WidensEach env env' t (vs ++ [v]) (vs' ++ [v'])
  | [], _, h => by
    cases h
    exact .cons _ _ _ _ _ hv (.nil _)
  | _ :: _, _, h => by
    cases h with
    | cons _ _ _ _ _ h1 h2 => exact .cons _ _ _ _ _ h1 (widensEach_snoc hv h2)

theorem SlotRel.put {t : FTy} {s s' : Slot} {v v' : Val} (h : SlotRel env env' t s s') (hv : Widens env env' t.core v v') :
    SlotRel env env' t (s.put v) (s'.put v') := by
  cases h with
  | many t vs vs' h => exact .many _ _ _ (widensEach_snoc hv h)
  | none _ hne => exact .some _ _ _ hne hv
  | some _ _ _ hne => exact .some _ _ _ hne hv

theorem SlotRel.init (t : FTy) : SlotRel env env' t (Slot.init t) (Slot.init t) := by
  rcases t with t | t | t | p
  · exact .none _ (by rintro u ⟨⟩)
  · exact .none _ (by rintro u ⟨⟩)
  · exact .many _ _ _ (.nil _)
  · exact .none _ (by rintro u ⟨⟩)

variable {ws : List FieldDef}

theorem SlotsRel.init (fs : List FieldDef) :
    SlotsRel env env' ws fs (fs.map fun f => Slot.init f.ty) ((fs ++ ws).map fun f => Slot.init f.ty) := by
  induction fs with
  | nil => exact .nil
  | cons f fs ih => exact .cons _ _ _ _ _ _ (SlotRel.init _) ih

theorem SlotsRel.put {v v' : Val} {f : FieldDef} (hv : Widens env env' f.ty.core v v') : ∀ {fs : List FieldDef} {ss ss' : List Slot} {i : Nat},
    fs[i]? = some f → SlotsRel env env' ws fs ss ss' → SlotsRel env env' ws fs (ss.modify i (Slot.put v)) (ss'.modify i (Slot.put v'))
  | [], [], _, i, hi, .nil => by simp at hi
  | g :: fs, s :: ss, s' :: ss', 0, hi, .cons _ _ _ _ _ _ h hs => by
    simp only [List.getElem?_cons_zero, Option.some.injEq] at hi
    subst hi
    exact .cons _ _ _ _ _ _ (h.put hv) hs
  | g :: fs, s :: ss, s' :: ss', i + 1, hi, .cons _ _ _ _ _ _ h hs => by
    simp only [List.getElem?_cons_succ] at hi
    exact .cons _ _ _ _ _ _ h (SlotsRel.put hv hi hs)

theorem setText_more (t : Str) : ∀ {ws : List FieldDef} {ss : List Slot}, (∀ w ∈ ws, w.attrs.text = false) → setText ws t ss = ss
  | [], _, _ => by simp [setText]
  | _ :: _, [], _ => rfl
  | w :: ws, s :: ss, h => by
    rw [setText, h w List.mem_cons_self, setText_more t fun w hw => h w (List.mem_cons_of_mem _ hw)]
    rfl

theorem SlotsRel.setText (hw : ∀ w ∈ ws, w.attrs.text = false) (t : Str) : ∀ {fs : List FieldDef} {ss ss' : List Slot},
    SlotsRel env env' ws fs ss ss' → SlotsRel env env' ws fs (setText fs t ss) (setText (fs ++ ws) t ss')
  | _, _, _, .nil => by
    rw [List.nil_append, setText_more t hw]
    exact .nil
  | _, _, _, .cons f fs s s' ss ss' h hs => by
    refine .cons f fs _ _ _ _ ?_ (SlotsRel.setText hw t hs)
    split
    · split
      · rename_i hty
        rw [hty]
        exact .some _ _ _ (by rintro u ⟨⟩) (.simple _ _)
      · rename_i hty
        rw [hty]
        split
        · exact .none _ (by rintro u ⟨⟩)
        · exact .some _ _ _ (by rintro u ⟨⟩) (.simple _ _)
      · exact h
    · exact h

section
variable (L : Lib) {rec rec' : Path → D Val}

theorem visitAttr_wide {t : FTy} (ht : ∀ q, t ≠ .struct q) (w : Str) :
    Res.Rel (Widens env env' t) (visitAttr L rec t w) (visitAttr L rec' t w) := by
  rcases t with t | t | t | p
  · unfold visitAttr
    dsimp only
    split
    · exact .ok (.simple _ _)
    · exact .err _
  · exact .panic _
  · exact .panic _
  · exact absurd rfl (ht p)

theorem loadAttrField_wide {f : FieldDef} (hf : ∀ q, f.ty.core ≠ .struct q) (attrs : List Attr) {s s' : Slot}
    (h : SlotRel env env' f.ty s s') :
    Res.Rel (SlotRel env env' f.ty) (loadAttrField L rec f attrs s) (loadAttrField L rec' f attrs s') := by
  unfold loadAttrField
  refine foldRes_wide attrs (fun a _ b c hbc => ?_) s s' h
  split
  · split
    · rename_i t hty
      rw [hty] at hf
      refine foldRes_wide _ (fun w _ b c hbc => ?_) b c hbc
      refine (visitAttr_wide (env := env) (env' := env') L hf w).bind fun v v' hv => .ok (hbc.put ?_)
      rw [hty]
      exact hv
    · exact (visitAttr_wide (env := env) (env' := env') L hf a.value).bind fun v v' hv => .ok (hbc.put hv)
  · exact .ok hbc

theorem foldRes_keep {α β : Type} {f : β → α → Res β} (as : List α) (h : ∀ a ∈ as, ∀ b, f b a = .ok b) (b : β) : foldRes f b as = .ok b := by
  induction as with
  | nil => rfl
  | cons a as ih =>
    show (f b a).bind _ = _
    rw [h a List.mem_cons_self b]
    exact ih fun a ha => h a (List.mem_cons_of_mem _ ha)

theorem loadAttrs_more {attrs : List Attr} : ∀ {ws : List FieldDef} {ss : List Slot},
    (∀ w ∈ ws, ∀ a ∈ attrs, a.name.loc ≠ w.attrs.rename.getD w.ident) → loadAttrs L rec' ws attrs ss = .ok ss
  | [], _, _ => by simp [loadAttrs]
  | _ :: _, [], _ => rfl
  | w :: ws, s :: ss, h => by
    rw [loadAttrs, loadAttrs_more fun w hw => h w (List.mem_cons_of_mem _ hw)]
    have : (if w.attrs.isAttr then loadAttrField L rec' w attrs s else .ok s) = .ok s := by
      split
      · refine foldRes_keep attrs (fun a ha b => ?_) s
        exact if_neg (h w List.mem_cons_self a ha)
      · rfl
    rw [this]
    rfl

theorem loadAttrs_wide {attrs : List Attr} (hw : ∀ w ∈ ws, ∀ a ∈ attrs, a.name.loc ≠ w.attrs.rename.getD w.ident) :
    ∀ {fs : List FieldDef} {ss ss' : List Slot}, (∀ f ∈ fs, f.attrs.isAttr = true → ∀ q, f.ty.core ≠ .struct q) →
    SlotsRel env env' ws fs ss ss' →
    Res.Rel (SlotsRel env env' ws fs) (loadAttrs L rec fs attrs ss) (loadAttrs L rec' (fs ++ ws) attrs ss')
  | [], [], _, _, .nil => by
    rw [List.nil_append, loadAttrs_more L hw]
    exact .ok .nil
  | f :: fs, s :: ss, s' :: ss', hat, .cons _ _ _ _ _ _ h hs => by
    rw [List.cons_append, loadAttrs, loadAttrs]
    refine Res.Rel.bind (R := SlotRel env env' f.ty) ?_ fun t t' ht =>
      (loadAttrs_wide hw (fun f hf => hat f (List.mem_cons_of_mem _ hf)) hs).bind fun ts ts' hts => .ok (.cons _ _ _ _ _ _ ht hts)
    split
    · rename_i ha
      exact loadAttrField_wide L (hat f List.mem_cons_self ha) attrs h
    · exact .ok h

end

theorem buildField_wide (name : Str) {f : FieldDef} (hd : ∀ dv, f.dflt = some dv → Widens env env' f.ty dv.val dv.val) {s s' : Slot}
    (h : SlotRel env env' f.ty s s') : Res.Rel (Widens env env' f.ty) (buildField name f s) (buildField name f s') := by
  rcases f with ⟨i, ty, a, df, si⟩
  dsimp only at hd h
  cases h with
  | many t vs vs' h => exact .ok (.vec _ _ _ h)
  | none _ hne =>
    rcases ty with t | t | t | p
    · rcases df with _ | dv
      · exact .err _
      · exact .ok (hd dv rfl)
    · exact .ok (.none _)
    · exact absurd rfl (hne t)
    · rcases df with _ | dv
      · exact .err _
      · exact .ok (hd dv rfl)
  | some _ v v' hne h =>
    rcases ty with t | t | t | p
    · exact .ok h
    · exact .ok (.some _ _ _ h)
    · exact absurd rfl (hne t)
    · exact .ok h

theorem buildFields_more (name : Str) : ∀ {ws : List FieldDef},
    (∀ w ∈ ws, (∃ t, w.ty = .opt t) ∨ (∃ t, w.ty = .vec t) ∨ w.dflt ≠ none) →
    buildFields name ws (ws.map fun f => Slot.init f.ty) = .ok (ws.map FieldDef.unfilled)
  | [], _ => rfl
  | w :: ws, h => by
    rw [List.map_cons, List.map_cons, buildFields, buildFields_more name fun w hw => h w (List.mem_cons_of_mem _ hw)]
    have : buildField name w (Slot.init w.ty) = .ok w.unfilled := by
      have h1 := h w List.mem_cons_self
      rcases w with ⟨i, ty, a, df, si⟩
      dsimp only at h1
      rcases ty with t | t | t | p
      · rcases df with _ | dv
        · rcases h1 with ⟨_, h1⟩ | ⟨_, h1⟩ | h1
          · cases h1
          · cases h1
          · exact absurd rfl h1
        · rfl
      · rfl
      · rfl
      · rcases df with _ | dv
        · rcases h1 with ⟨_, h1⟩ | ⟨_, h1⟩ | h1
          · cases h1
          · cases h1
          · exact absurd rfl h1
        · rfl
    rw [this]
    rfl

theorem buildFields_wide (name : Str) (hw : ∀ w ∈ ws, (∃ t, w.ty = .opt t) ∨ (∃ t, w.ty = .vec t) ∨ w.dflt ≠ none) :
    ∀ {fs : List FieldDef} {ss ss' : List Slot}, (∀ f ∈ fs, ∀ dv, f.dflt = some dv → Widens env env' f.ty dv.val dv.val) →
    SlotsRel env env' ws fs ss ss' →
    Res.Rel (fun vs us => ∃ vs', us = vs' ++ ws.map FieldDef.unfilled ∧ WidensAll env env' (fs.map FieldDef.ty) vs vs')
      (buildFields name fs ss) (buildFields name (fs ++ ws) ss')
  | [], [], _, _, .nil => by
    rw [List.nil_append, buildFields_more name hw]
    exact .ok ⟨[], rfl, .nil⟩
  | f :: fs, s :: ss, s' :: ss', hd, .cons _ _ _ _ _ _ h hs => by
    rw [List.cons_append, buildFields, buildFields]
    refine (buildField_wide name (hd f List.mem_cons_self) h).bind fun v v' hv =>
      (buildFields_wide name hw (fun f hf => hd f (List.mem_cons_of_mem _ hf)) hs).bind fun vs us hus => ?_
    obtain ⟨vs', rfl, h2⟩ := hus
    exact .ok ⟨v' :: vs', rfl, .cons _ _ _ _ _ _ hv h2⟩

end

/-! #### Structs -/

section
variable {K : Str → Prop} {env env' : Env} (L : Lib) {rec rec' : Path → D Val}
  (hrec : ∀ p, Side (REv.Unnamed K) (Widens env env' (.struct p)) (rec p) (rec' p))

/-- Local variables. -/
structure StRel (env env' : Env) (ws fs : List FieldDef) (st st' : LoopSt) : Prop where
  depth : st'.depth = st.depth
  writer : st'.writer = st.writer
  slots : SlotsRel env env' ws fs st.slots st'.slots

theorem unnamed_end : REv.Unnamed K .endDocument := trivial

include hrec

theorem Side.callVisitor (root : Attrs) {ws fs : List FieldDef} {f : FieldDef} {i : Nat} (hi : fs[i]? = some f) (name : Name)
    {st st' : LoopSt} (h : StRel env env' ws fs st st') :
    Side (REv.Unnamed K) (StRel env env' ws fs) (callVisitor L rec root f i name st) (callVisitor L rec' root f i name st') := by
  unfold Yaserde.callVisitor
  split
  · rename_i p hp
    unfold callStruct
    rw [h.depth]
    refine Side.bind (R := Eq) ?_ fun _ _ _ => Side.bind (Side.tryPeek unnamed_end) fun r r' hr => ?_
    · split
      · exact Side.bind (Side.tryNext unnamed_end) fun _ _ _ => Side.pure rfl
      · exact Side.pure rfl
    · subst hr
      split
      · refine Side.bind (hrec p) fun v v' hv => Side.bind (Side.next unnamed_end) fun _ _ _ => Side.pure ?_
        exact ⟨h.depth, h.writer, h.slots.put (by rw [hp]; exact hv) hi⟩
      · exact Side.pure h
  · rename_i t ht
    unfold callSimple
    refine Side.bind (Side.ofExcept _) fun _ _ _ => Side.bind (Side.attempt (Side.readInnerValue unnamed_end ?_)) fun r r' hr => ?_
    · unfold simpleInner
      refine Side.bind (Side.tryPeek unnamed_end) fun r r' hr => ?_
      subst hr
      split
      · refine Side.bind (Side.next unnamed_end) fun _ _ _ => ?_
        split
        · exact Side.pure rfl
        · exact Side.throw _
      · exact Side.throw _
    · cases hr with
      | ok hv =>
        subst hv
        exact Side.pure ⟨h.depth, h.writer, h.slots.put (by rw [ht]; exact .simple _ _) hi⟩
      | error m => exact Side.pure h
  · exact Side.panic _

section
variable {d : StructDef} {ws : List FieldDef} (hat : ∀ f ∈ d.fields, f.attrs.isAttr = true → ∀ q, f.ty.core ≠ .struct q)
  (hfl : d.hasFlat = false) (hws : ∀ w ∈ ws, w.Extra K)
include hat hfl hws

omit hrec hat in
theorem hasFlat_more : StructDef.hasFlat { d with fields := d.fields ++ ws } = false := by
  unfold StructDef.hasFlat at hfl ⊢
  dsimp only
  rw [List.any_append, hfl, Bool.false_or, List.any_eq_false]
  intro w hw hc
  rw [Bool.and_eq_true, Bool.not_eq_true'] at hc
  rw [(hws w hw).flatten hc.1] at hc
  exact absurd hc.2 (by decide)

omit hrec hat hfl in
theorem findArm_more {root : Attrs} {ns loc : Str} (hk : ¬ K loc) : findArm root ns loc (d.fields ++ ws) = findArm root ns loc d.fields := by
  unfold findArm
  rw [List.findIdx?_append]
  rcases hv : d.fields.findIdx? _ with _ | i
  · rw [List.findIdx?_eq_none_iff.2]
    · rfl
    · intro w hw
      rw [Bool.eq_false_iff]
      intro hc
      rw [Bool.and_eq_true, beq_iff_eq] at hc
      exact hk (hc.2 ▸ (hws w hw).name)
  · rfl

theorem Side.structStart (fuel : Nat) {st st' : LoopSt} (h : StRel env env' ws d.fields st st') {name : Name} {attrs : List Attr}
    (hk : ¬ K name.loc) (ha : ∀ a ∈ attrs, ¬ K a.name.loc) :
    Side (REv.Unnamed K) (StRel env env' ws d.fields) (structStart L rec fuel d st name attrs)
      (structStart L rec' fuel { d with fields := d.fields ++ ws } st' name attrs) := by
  unfold Yaserde.structStart
  dsimp only
  rw [hasFlat_more hfl hws, hfl, findArm_more hws hk]
  refine Side.bind (R := StRel env env' ws d.fields) ?_ fun s1 s1' h1 =>
    Side.bind (R := StRel env env' ws d.fields) ?_ fun s2 s2' h2 => Side.pure ⟨by rw [h2.depth], h2.writer, h2.slots⟩
  · rw [h.depth, h.writer]
    split
    · refine Side.bind (Side.next unnamed_end) fun e e' he => ?_
      obtain ⟨rfl, -⟩ := he
      refine Side.bind (Side.lift (Res.Rel.refl _)) fun w w' hw => Side.pure ?_
      exact ⟨rfl, hw.symm, h.slots⟩
    · rcases hi : findArm d.attrs (name.ns.getD []) name.loc d.fields with _ | i
      · dsimp only
        refine Side.bind (Side.next unnamed_end) fun e e' he => ?_
        obtain ⟨rfl, -⟩ := he
        refine Side.bind (Side.lift (Res.Rel.refl _)) fun w w' hw => ?_
        subst hw
        split
        · refine Side.bind (Side.skipElement unnamed_end fuel) fun es es' hes => ?_
          subst hes
          exact Side.bind (Side.lift (Res.Rel.refl _)) fun w w' hw => Side.pure ⟨rfl, hw.symm, h.slots⟩
        · exact Side.pure ⟨rfl, rfl, h.slots⟩
      · dsimp only
        have hlt : i < d.fields.length := (List.findIdx?_eq_some_iff_getElem.1 hi).1
        rw [List.getElem?_append_left hlt]
        rcases hf : d.fields[i]? with _ | f
        · exact Side.pure h
        · exact Side.callVisitor L hrec d.attrs hf name h
  · rw [h1.depth]
    split
    · refine Side.bind (Side.lift (loadAttrs_wide L (fun w hw a ham heq => ha a ham (heq ▸ (hws w hw).name)) hat h1.slots)) fun ss ss' hss => Side.pure ?_
      exact ⟨rfl, h1.writer, hss⟩
    · exact Side.pure h1

theorem Side.structStep (fuel : Nat) (named : Str) (startDepth : Nat) {st st' : LoopSt} (h : StRel env env' ws d.fields st st') :
    Side (REv.Unnamed K) (fun r r' => r.2 = r'.2 ∧ StRel env env' ws d.fields r.1 r'.1) (structStep L rec fuel d named startDepth st)
      (structStep L rec' fuel { d with fields := d.fields ++ ws } named startDepth st') := by
  unfold Yaserde.structStep
  refine Side.bind (Side.peek unnamed_end) fun e e' he => ?_
  obtain ⟨rfl, he⟩ := he
  rw [hasFlat_more hfl hws, hfl, h.writer]
  split
  · exact Side.bind (Side.structStart L hrec hat hfl hws fuel h he.1 he.2) fun s1 s1' h1 => Side.pure ⟨rfl, h1⟩
  · refine Side.bind Side.get fun rd rd' hrd => ?_
    subst hrd
    split
    · exact Side.bind (Side.lift (Res.Rel.refl _)) fun w w' hw => Side.pure ⟨rfl, h.depth, hw.symm, h.slots⟩
    · refine Side.bind (Side.next unnamed_end) fun e e' he => ?_
      obtain ⟨rfl, -⟩ := he
      exact Side.bind (Side.lift (Res.Rel.refl _)) fun w w' hw => Side.pure ⟨rfl, by rw [h.depth], hw.symm, h.slots⟩
  · dsimp only
    split <;> exact Side.pure ⟨rfl, h⟩
  · refine Side.bind (Side.next unnamed_end) fun e e' he => ?_
    obtain ⟨rfl, -⟩ := he
    exact Side.bind (Side.lift (Res.Rel.refl _)) fun w w' hw =>
      Side.pure ⟨rfl, h.depth, hw.symm, h.slots.setText (fun w hw => (hws w hw).text) _⟩
  · exact Side.throw _

theorem Side.structLoop (skipFuel : Nat) (named : Str) (startDepth : Nat) : ∀ (n : Nat) {st st' : LoopSt}, StRel env env' ws d.fields st st' →
    Side (REv.Unnamed K) (StRel env env' ws d.fields) (structLoop L rec skipFuel d named startDepth n st)
      (structLoop L rec' skipFuel { d with fields := d.fields ++ ws } named startDepth n st') := by
  intro n
  induction n with
  | zero => exact fun _ => Side.diverge
  | succ n ih =>
    intro st st' h
    unfold Yaserde.structLoop
    refine Side.bind (Side.structStep L hrec hat hfl hws skipFuel named startDepth h) fun r r' hr => ?_
    obtain ⟨s1, b⟩ := r
    obtain ⟨s1', b'⟩ := r'
    obtain ⟨rfl, hr⟩ := hr
    dsimp only
    split
    · exact ih hr
    · exact Side.pure hr

theorem Side.structDeser {p : Path} (hp : env p = some (.struct d)) (hp' : env' p = some (.struct { d with fields := d.fields ++ ws }))
    (hd : ∀ f ∈ d.fields, ∀ dv, f.dflt = some dv → Widens env env' f.ty dv.val dv.val) (fuel : Nat) :
    Side (REv.Unnamed K) (Widens env env' (.struct p)) (structDeser L rec fuel d)
      (structDeser L rec' fuel { d with fields := d.fields ++ ws }) := by
  unfold Yaserde.structDeser structBody
  refine Side.bind (Side.peek unnamed_end) fun e e' he => ?_
  obtain ⟨rfl, -⟩ := he
  refine Side.bind Side.get fun rd rd' hrd => ?_
  subst hrd
  rw [hasFlat_more hfl hws, hfl]
  refine Side.bind (R := Eq) ?_ fun _ _ _ =>
    Side.bind (Side.structLoop L hrec hat hfl hws fuel _ _ fuel ⟨rfl, rfl, SlotsRel.init d.fields⟩) fun st st' hst => ?_
  · split
    · exact Side.ofExcept _
    · exact Side.pure rfl
  · refine Side.bind (R := SlotsRel env env' ws d.fields) (Side.pure hst.slots) fun ss ss' hss => ?_
    refine Side.bind (Side.lift (buildFields_wide d.name (fun w hw => (hws w hw).optional) hd hss)) fun vs us hus => Side.pure ?_
    obtain ⟨vs', rfl, h⟩ := hus
    exact .struct p d ws vs vs' hp hp' h

end

/-! #### Enums -/

omit hrec in
/-- The variant chosen so far. -/
inductive ChoiceRel (env env' : Env) (p : Path) : Option Val → Option Val → Prop
  | none : ChoiceRel env env' p none none
  | some {v v' : Val} (h : Widens env env' (.struct p) v v') : ChoiceRel env env' p (some v) (some v')

omit hrec in
theorem setVariant_wide {p : Path} {d : EnumDef} (hp : env p = some (.enum d)) {i : Nat} {vd : VariantDef} {t : FTy}
    (hv : d.variants[i]? = some vd) (hs : vd.shape = .newtype t) {x x' : Val} (hx : Widens env env' t.core x x')
    {cur cur' : Option Val} (hc : ChoiceRel env env' p cur cur') :
    Side.Got (ChoiceRel env env' p) (setVariant i t x cur) (setVariant i t x' cur') := by
  rcases t with t | t | t | q
  · exact .ok (.some (.newtype p d i vd _ _ _ hp hv hs hx))
  · exact .ok (.some (.newtype p d i vd _ _ _ hp hv hs (.some _ _ _ hx)))
  · cases hc with
    | none => exact .ok (.some (.newtype p d i vd _ _ _ hp hv hs (.vec _ _ _ (.cons _ _ _ _ _ hx (.nil _)))))
    | some h =>
      cases h with
      | struct _ _ _ _ _ h1 => cases hp.symm.trans h1
      | unit _ _ j h1 => exact .error _
      | newtype _ d1 j vd1 t1 y y' h1 h2 h3 h4 =>
        cases hp.symm.trans h1
        by_cases hj : j = i
        · subst hj
          cases hv.symm.trans h2
          cases hs.symm.trans h3
          cases h4 with
          | vec _ vs vs' h5 =>
            unfold setVariant
            dsimp only
            rw [if_pos rfl, if_pos rfl]
            exact .ok (.some (.newtype p d j vd _ _ _ hp hv hs (.vec _ _ _ (widensEach_snoc hx h5))))
        · have hbad : ∀ z w, setVariant i (.vec t) w (some (.enum j [z])) = .error c!"Got sequence of different types" := by
            intro z w
            cases z <;> first | rfl | exact if_neg hj
          rw [hbad, hbad]
          exact .error _
      | prim _ _ _ h1 => cases hp.symm.trans h1
  · exact .ok (.some (.newtype p d i vd _ _ _ hp hv hs hx))

/-- What one round of the loop yields. -/
def ArmRel (env env' : Env) (p : Path) (r r' : Option Val × Bool) : Prop := r.2 = r'.2 ∧ ChoiceRel env env' p r.1 r'.1

section
variable {p : Path} {d : EnumDef} (hp : env p = some (.enum d))
include hp

theorem Side.variantArm {i : Nat} {vd : VariantDef} (hv : d.variants[i]? = some vd) {cur cur' : Option Val}
    (hc : ChoiceRel env env' p cur cur') :
    Side (REv.Unnamed K) (ArmRel env env' p) (variantArm L rec i vd cur) (variantArm L rec' i vd cur') := by
  unfold Yaserde.variantArm
  split
  · exact Side.pure ⟨rfl, .some (.unit p d i hp)⟩
  · exact Side.pure ⟨rfl, hc⟩
  · rename_i t hs
    split
    · rename_i q hq
      refine Side.bind (hrec q) fun x x' hx => Side.bind (Side.ofGot (setVariant_wide hp hv hs (by rw [hq]; exact hx) hc)) fun c c' hcc =>
        Side.bind (Side.tryNext unnamed_end) fun _ _ _ => Side.pure ⟨rfl, hcc⟩
    · rename_i u hu
      refine Side.bind (Side.attempt (Side.readInnerValue unnamed_end ?_)) fun r r' hr => ?_
      · unfold variantInner
        have hun : ∀ t s, Side (REv.Unnamed K) Eq (visitUnwrap L t s) (visitUnwrap L t s) := by
          intro t s
          unfold visitUnwrap
          split
          · exact Side.pure rfl
          · exact Side.panic _
        refine Side.bind (Side.peek unnamed_end) fun e e' he => ?_
        obtain ⟨rfl, -⟩ := he
        split
        · exact hun _ _
        · refine Side.bind (Side.tryNext unnamed_end) fun r r' hr => ?_
          subst hr
          split
          · exact hun _ _
          · exact Side.throw _
      · cases hr with
        | ok hx =>
          subst hx
          exact Side.bind (Side.ofGot (setVariant_wide hp hv hs (by rw [hu]; exact .simple _ _) hc)) fun c c' hcc => Side.pure ⟨rfl, hcc⟩
        | error m => exact Side.pure ⟨rfl, hc⟩
    · exact Side.panic _

theorem Side.enumMatch (key : Str) {cur cur' : Option Val} (hc : ChoiceRel env env' p cur cur') {x y : D (Option Val × Bool)}
    (hx : Side (REv.Unnamed K) (ArmRel env env' p) x y) :
    Side (REv.Unnamed K) (ArmRel env env' p) (enumMatch L rec d key cur x) (enumMatch L rec' d key cur' y) := by
  unfold Yaserde.enumMatch
  rcases findVariant key d.variants with _ | i
  · exact hx
  · dsimp only
    rcases hv : d.variants[i]? with _ | vd
    · exact hx
    · exact Side.variantArm L hrec hp hv hc

theorem Side.enumStep (named : Str) (startDepth : Nat) {cur cur' : Option Val} (hc : ChoiceRel env env' p cur cur') :
    Side (REv.Unnamed K) (ArmRel env env' p) (enumStep L rec d named startDepth cur) (enumStep L rec' d named startDepth cur') := by
  unfold Yaserde.enumStep
  refine Side.bind (Side.peek unnamed_end) fun e e' he => ?_
  obtain ⟨rfl, he⟩ := he
  split
  · refine Side.bind (Side.ofExcept _) fun key key' hk => ?_
    subst hk
    refine Side.bind (Side.enumMatch L hrec hp key hc (Side.bind (Side.tryNext unnamed_end) fun _ _ _ => Side.pure ⟨rfl, hc⟩)) fun r r' hr => ?_
    obtain ⟨c, b⟩ := r
    obtain ⟨c', b'⟩ := r'
    obtain ⟨hb, hr⟩ := hr
    dsimp only at hb hr ⊢
    subst hb
    split
    · refine Side.bind (Side.peek unnamed_end) fun e e' he => ?_
      obtain ⟨rfl, -⟩ := he
      split
      · exact Side.enumMatch L hrec hp _ hr (Side.pure ⟨rfl, hr⟩)
      · exact Side.pure ⟨rfl, hr⟩
    · exact Side.pure ⟨rfl, hr⟩
  · refine Side.bind Side.get fun rd rd' hrd => ?_
    subst hrd
    split
    · exact Side.pure ⟨rfl, hc⟩
    · exact Side.bind (Side.tryNext unnamed_end) fun _ _ _ => Side.pure ⟨rfl, hc⟩
  · exact Side.bind (Side.tryNext unnamed_end) fun _ _ _ => Side.pure ⟨rfl, hc⟩
  · split
    · exact Side.pure ⟨rfl, hc⟩
    · exact Side.throw _
  · exact Side.throw _

theorem Side.enumDeser (hd : Widens env env' (.struct p) d.dflt d.dflt) (fuel : Nat) :
    Side (REv.Unnamed K) (Widens env env' (.struct p)) (enumDeser L rec fuel d) (enumDeser L rec' fuel d) := by
  have hloop : ∀ named startDepth n cur cur', ChoiceRel env env' p cur cur' →
      Side (REv.Unnamed K) (ChoiceRel env env' p) (enumLoop L rec d named startDepth n cur) (enumLoop L rec' d named startDepth n cur') := by
    intro named startDepth n
    induction n with
    | zero => exact fun _ _ _ => Side.diverge
    | succ n ih =>
      intro cur cur' hc
      unfold enumLoop
      refine Side.bind (Side.enumStep L hrec hp named startDepth hc) fun r r' hr => ?_
      obtain ⟨c, b⟩ := r
      obtain ⟨c', b'⟩ := r'
      obtain ⟨hb, hr⟩ := hr
      dsimp only at hb hr ⊢
      subst hb
      split
      · exact ih _ _ hr
      · exact Side.pure hr
  unfold Yaserde.enumDeser enumBody
  refine Side.bind (Side.peek unnamed_end) fun e e' he => ?_
  obtain ⟨rfl, -⟩ := he
  refine Side.bind Side.get fun rd rd' hrd => ?_
  subst hrd
  refine Side.bind (Side.ofExcept _) fun _ _ _ => Side.bind (hloop _ _ fuel none none .none) fun c c' hc => Side.pure ?_
  cases hc with
  | none => exact hd
  | some h => exact h

end

end

theorem Side.deser (L : Lib) {K : Str → Prop} {env env' : Env} (h : env.Widened K env') (hnf : NoFlatten env) (hat : ScalarAttrs env) (n : Nat) :
    ∀ p, Side (REv.Unnamed K) (Widens env env' (.struct p)) (deser L env n p) (deser L env' n p) := by
  induction n with
  | zero => exact fun _ => Side.diverge
  | succ n ih =>
    intro p
    unfold Yaserde.deser
    rcases h.types p with ⟨h1, h2⟩ | ⟨d, ws, h1, h2, h3⟩ | ⟨d, h1, h2⟩ | ⟨d, h1, h2⟩
    · rw [h1, h2]
      first | exact Side.panic _ | exact Side.throw _ | exact Side.diverge
    · rw [h1, h2]
      refine Side.structDeser L ih (hat p d h1) ?_ h3 h1 h2 (h.dflt p d h1) n
      unfold StructDef.hasFlat
      rw [List.any_eq_false]
      intro f hf hc
      rw [Bool.and_eq_true, Bool.not_eq_true'] at hc
      rw [hnf p d h1 f hf hc.1] at hc
      exact absurd hc.2 (by decide)
    · rw [h1, h2]
      exact Side.enumDeser L ih h1 (h.enumDflt p d h1) n
    · rw [h1, h2]
      dsimp only
      unfold primDeser
      have hex : ∀ r, Side (REv.Unnamed K) (Widens env env' (.struct p)) (M.ofExcept r) (M.ofExcept r) := by
        intro r
        rcases r with m | v
        · exact Side.ofGot (.error m)
        · exact Side.ofGot (.ok (.prim p d v h1))
      refine Side.bind (Side.tryPeek unnamed_end) fun r r' hr => ?_
      subst hr
      split
      · refine Side.bind (Side.next unnamed_end) fun _ _ _ => Side.bind (Side.tryPeek unnamed_end) fun r r' hr => ?_
        subst hr
        split <;> exact hex _
      · exact Side.throw _

/-! #### The value of the newer program is determined -/

mutual
  theorem widens_fun {env env' : Env} : ∀ {t : FTy} {v v1 v2 : Val}, Widens env env' t v v1 → Widens env env' t v v2 → v1 = v2
    | _, _, _, _, .simple _ _, h => by cases h; rfl
    | _, _, _, _, .none _, h => by cases h; rfl
    | _, _, _, _, .some _ _ _ h1, h => by
      cases h with
      | some _ _ _ h2 => rw [widens_fun h1 h2]
    | _, _, _, _, .vec _ _ _ h1, h => by
      cases h with
      | vec _ _ _ h2 => rw [widensEach_fun h1 h2]
    | _, _, _, _, .struct p d ws vs vs' hp hp' h1, h => by
      cases h with
      | struct _ d2 ws2 _ vs2 hq hq' h2 =>
        cases hp.symm.trans hq
        have h3 := hp'.symm.trans hq'
        simp only [Option.some.injEq, TypeDef.struct.injEq, StructDef.mk.injEq, List.append_cancel_left_eq, true_and] at h3
        rw [h3, widensAll_fun h1 h2]
      | prim _ _ _ hq => cases hp.symm.trans hq
    | _, _, _, _, .unit p d i hp, h => by cases h <;> rfl
    | _, _, _, _, .newtype p d i vd t x x' hp hv hs h1, h => by
      cases h with
      | newtype _ d2 _ vd2 t2 _ _ hq hv2 hs2 h2 =>
        cases hp.symm.trans hq
        cases hv.symm.trans hv2
        cases hs.symm.trans hs2
        rw [widens_fun h1 h2]
      | prim _ _ _ hq => cases hp.symm.trans hq
    | _, _, _, _, .prim p d v hp, h => by
      cases h with
      | struct _ _ _ _ _ hq => cases hp.symm.trans hq
      | unit _ _ _ hq => rfl
      | newtype _ _ _ _ _ _ _ hq => cases hp.symm.trans hq
      | prim => rfl
  theorem widensEach_fun {env env' : Env} : ∀ {t : FTy} {vs ws us : List Val}, WidensEach env env' t vs ws → WidensEach env env' t vs us → ws = us
    | _, _, _, _, .nil _, h => by cases h; rfl
    | _, _, _, _, .cons _ _ _ _ _ h1 hs1, h => by
      cases h with
      | cons _ _ _ _ _ h2 hs2 => rw [widens_fun h1 h2, widensEach_fun hs1 hs2]
  theorem widensAll_fun {env env' : Env} : ∀ {ts : List FTy} {vs ws us : List Val}, WidensAll env env' ts vs ws → WidensAll env env' ts vs us → ws = us
    | _, _, _, _, .nil, h => by cases h; rfl
    | _, _, _, _, .cons _ _ _ _ _ _ h1 hs1, h => by
      cases h with
      | cons _ _ _ _ _ _ h2 hs2 => rw [widens_fun h1 h2, widensAll_fun hs1 hs2]
end

end Yaserde
