import Verif.Proofs.Reader
import Verif.Model.DeEnum
/-
Locality: every deserializer built by the derive macros is determined by the reader's depth
and by the events it consumes plus one more (the peeked one); and it leaves the reader exactly
`k` events further.  Proved once for each construct of the generated code, hence for all types.
-/

set_option autoImplicit false

namespace Yaserde

/-- A result after which the caller goes on (neither a panic nor non-termination). -/
def Res.settled {α : Type} : Res α → Prop
  | .ok _ => True
  | .err _ => True
  | _ => False

/-- The two readers have the same depth and agree on the next `k + 1` events. -/
def Agree (k : Nat) (a b : Rd) : Prop := a.depth = b.depth ∧ ∀ j, j ≤ k → a.stream j = b.stream j

theorem Agree.refl (k : Nat) (a : Rd) : Agree k a a := ⟨rfl, fun _ _ => rfl⟩

theorem Agree.symm {k : Nat} {a b : Rd} (h : Agree k a b) : Agree k b a :=
  ⟨h.1.symm, fun j hj => (h.2 j hj).symm⟩

theorem Agree.mono {k l : Nat} {a b : Rd} (h : Agree k a b) (hl : l ≤ k) : Agree l a b :=
  ⟨h.1, fun j hj => h.2 j (by omega)⟩

theorem Agree.adv {k l : Nat} {a b a' b' : Rd} (h : Agree (k + l) a b) (ha : Adv k a a')
    (hb : Adv k b b') : Agree l a' b' := by
  constructor
  · have h1 := ha.2
    have h2 := hb.2
    have h3 : weightSum a.stream k = weightSum b.stream k :=
      weightSum_congr fun j hj => h.2 j (by omega)
    rw [h3, h.1] at h1
    exact Int.natCast_inj.mp (h1.trans h2.symm)
  · intro j hj
    rw [ha.1, hb.1]
    exact h.2 _ (by omega)

/-- `f` started at `rd` consumes `k` events and its result depends on those and the next only. -/
def LocAt {α : Type} (f : D α) (rd : Rd) (k : Nat) : Prop :=
  ∀ rd2, Agree k rd rd2 → (f rd2).1 = (f rd).1 ∧ ((f rd).1.settled → Adv k rd2 (f rd2).2)

/-- `f` is local from every reader state. -/
structure Loc {α : Type} (f : D α) : Prop where
  from_ : ∀ rd, ∃ k, LocAt f rd k

section
variable {α β : Type}

theorem Loc.of_const {f : D α} (r : Res α) (h : ∀ rd, f rd = (r, rd)) : Loc f := ⟨fun rd =>
  ⟨0, fun rd2 _ => by rw [h, h]; exact ⟨rfl, fun _ => Adv.refl _⟩⟩⟩

theorem Loc.pure (a : α) : Loc (M.pure a) := .of_const _ fun _ => rfl
theorem Loc.throw (m : Str) : Loc (M.throw m : D α) := .of_const _ fun _ => rfl
theorem Loc.panic (m : Str) : Loc (M.panic m : D α) := .of_const _ fun _ => rfl
theorem Loc.diverge : Loc (M.diverge : D α) := .of_const _ fun _ => rfl
theorem Loc.lift (r : Res α) : Loc (M.lift r : D α) := .of_const _ fun _ => rfl
theorem Loc.ofExcept (r : Except Str α) : Loc (M.ofExcept r : D α) := by
  cases r
  · exact .throw _
  · exact .pure _

theorem Loc.bind {f : D α} {g : α → D β} (hf : Loc f) (hg : ∀ a, Loc (g a)) : Loc (f >>= g) := by
  constructor; intro rd
  obtain ⟨k, hk⟩ := hf.from_ rd
  cases hr : f rd with
  | mk r rd' =>
    cases r with
    | ok a =>
      obtain ⟨l, hl⟩ := (hg a).from_ rd'
      refine ⟨k + l, fun rd2 h2 => ?_⟩
      obtain ⟨e2, a2⟩ := hk rd2 (h2.mono (by omega))
      have a1 := (hk rd (Agree.refl _ _)).2
      rw [hr] at e2 a2 a1
      cases hr2 : f rd2 with
      | mk r2 rd2' =>
        rw [hr2] at e2 a2
        simp only at e2 a2 a1
        subst e2
        rw [bind_ok hr, bind_ok hr2]
        obtain ⟨e3, a3⟩ := hl rd2' (h2.adv (a1 trivial) (a2 trivial))
        exact ⟨e3, fun hs => (a2 trivial).trans (a3 hs)⟩
    | err m =>
      refine ⟨k, fun rd2 h2 => ?_⟩
      obtain ⟨e2, a2⟩ := hk rd2 h2
      rw [hr] at e2 a2
      cases hr2 : f rd2 with
      | mk r2 rd2' =>
        rw [hr2] at e2 a2
        simp only at e2 a2
        subst e2
        rw [bind_err hr, bind_err hr2]
        exact ⟨rfl, fun _ => a2 trivial⟩
    | panic m =>
      refine ⟨k, fun rd2 h2 => ?_⟩
      obtain ⟨e2, _⟩ := hk rd2 h2
      rw [hr] at e2
      cases hr2 : f rd2 with
      | mk r2 rd2' =>
        rw [hr2] at e2
        simp only at e2
        subst e2
        rw [bind_panic hr, bind_panic hr2]
        exact ⟨rfl, fun h => h.elim⟩
    | diverge =>
      refine ⟨k, fun rd2 h2 => ?_⟩
      obtain ⟨e2, _⟩ := hk rd2 h2
      rw [hr] at e2
      cases hr2 : f rd2 with
      | mk r2 rd2' =>
        rw [hr2] at e2
        simp only at e2
        subst e2
        rw [bind_diverge hr, bind_diverge hr2]
        exact ⟨rfl, fun h => h.elim⟩

theorem Loc.attempt {f : D α} (hf : Loc f) : Loc (M.attempt f) := by
  constructor; intro rd
  obtain ⟨k, hk⟩ := hf.from_ rd
  refine ⟨k, fun rd2 h2 => ?_⟩
  obtain ⟨e2, a2⟩ := hk rd2 h2
  cases hr : f rd with
  | mk r rd' =>
    cases hr2 : f rd2 with
    | mk r2 rd2' =>
      rw [hr, hr2] at e2
      rw [hr, hr2] at a2
      simp only at e2 a2
      subst e2
      cases r2 <;> simp only [M.attempt, hr, hr2] <;> refine ⟨trivial, fun h => ?_⟩
      · exact a2 trivial
      · exact a2 trivial
      · exact h.elim
      · exact h.elim

/-- Reading `depth`. -/
theorem Loc.getDepth {g : Rd → D β} (h : Nat → D β) (hg : ∀ rd, g rd = h rd.depth)
    (hh : ∀ d, Loc (h d)) : Loc (M.get >>= g) := by
  constructor; intro rd
  obtain ⟨k, hk⟩ := (hh rd.depth).from_ rd
  refine ⟨k, fun rd2 h2 => ?_⟩
  rw [bind_get, bind_get, hg, hg, ← h2.1]
  exact hk rd2 h2

theorem Loc.peek : Loc peek := by
  constructor; intro rd
  refine ⟨0, fun rd2 h2 => ?_⟩
  rw [(peek_stream rd2).1, (peek_stream rd).1, h2.2 0 (Nat.le_refl _)]
  exact ⟨rfl, fun _ => peek_adv rd2⟩

theorem Loc.nextEvent : Loc nextEvent := by
  constructor; intro rd
  refine ⟨1, fun rd2 h2 => ?_⟩
  have h0 := h2.2 0 (by omega)
  by_cases h : (rd.depth : Int) + weight (rd.stream 0) ≥ 0
  · have h' := h
    rw [h0, h2.1] at h'
    rw [((next_stream rd).1 h).1, ((next_stream rd2).1 h').1, h0]
    exact ⟨rfl, fun _ => ((next_stream rd2).1 h').2⟩
  · have h' := h
    rw [h0, h2.1] at h'
    rw [(next_stream rd).2 h, (next_stream rd2).2 h']
    exact ⟨rfl, fun h => h.elim⟩

end

theorem Loc.skipLoop (n depth : Nat) : ∀ acc, Loc (Yaserde.skipLoop n depth acc) := by
  induction n with
  | zero => intro acc; exact .diverge
  | succ n ih =>
    intro acc
    have : Yaserde.skipLoop (n + 1) depth acc = (M.get >>= fun rd =>
        if rd.depth ≥ depth then Yaserde.nextEvent >>= fun e => Yaserde.skipLoop n depth (acc ++ [e])
        else M.pure acc) := by
      funext rd
      rw [bind_get, Yaserde.skipLoop]
      dsimp only
      split <;> rfl
    rw [this]
    refine .getDepth (fun d => if d ≥ depth then Yaserde.nextEvent >>= fun e =>
      Yaserde.skipLoop n depth (acc ++ [e]) else M.pure acc) (fun _ => rfl) fun d => ?_
    split
    · exact .bind .nextEvent fun e => ih _
    · exact .pure _

theorem Loc.skipElement (fuel : Nat) : Loc (Yaserde.skipElement fuel) := by
  have : Yaserde.skipElement fuel = (M.get >>= fun rd => Yaserde.skipLoop fuel rd.depth []) := rfl
  rw [this]
  exact .getDepth (fun d => Yaserde.skipLoop fuel d []) (fun _ => rfl) fun d => .skipLoop _ _ _

theorem Loc.expectEndElement (n : Name) : Loc (Yaserde.expectEndElement n) := by
  refine .bind .nextEvent fun e => ?_
  split
  · split
    · exact .pure _
    · exact .throw _
  · exact .throw _

theorem Loc.readInnerValue {α : Type} {f : D α} (hf : Loc f) : Loc (Yaserde.readInnerValue f) := by
  refine .bind (.attempt .nextEvent) fun r => ?_
  split
  · exact .bind hf fun _ => .bind (.expectEndElement _) fun _ => .pure _
  · exact .throw _

section
variable {L : Lib} {rec : Path → D Val} (hrec : ∀ p, Loc (rec p))
include hrec

omit hrec in
theorem Loc.simpleInner (f : FieldDef) (t : STy) : Loc (Yaserde.simpleInner L f t) := by
  refine .bind (.attempt .peek) fun r => ?_
  split
  · refine .bind .nextEvent fun _ => ?_
    split
    · exact .pure _
    · exact .throw _
  · exact .throw _

omit hrec in
theorem Loc.callSimple (root : Attrs) (f : FieldDef) (i : Nat) (t : STy) (name : Name) (st : LoopSt) :
    Loc (Yaserde.callSimple L root f i t name st) := by
  refine .bind (.ofExcept _) fun _ => .bind (.attempt (.readInnerValue (.simpleInner f t))) fun r => ?_
  split <;> exact .pure _

theorem Loc.callStruct (i : Nat) (p : Path) (st : LoopSt) : Loc (Yaserde.callStruct rec i p st) := by
  refine .bind ?_ fun _ => .bind (.attempt .peek) fun r => ?_
  · split
    · exact .bind (.attempt .nextEvent) fun _ => .pure _
    · exact .pure _
  · split
    · exact .bind (hrec _) fun _ => .bind .nextEvent fun _ => .pure _
    · exact .pure _

theorem Loc.callVisitor (root : Attrs) (f : FieldDef) (i : Nat) (name : Name) (st : LoopSt) :
    Loc (Yaserde.callVisitor L rec root f i name st) := by
  unfold Yaserde.callVisitor
  split
  · exact .callStruct hrec _ _ _
  · exact .callSimple ..
  · exact .panic _

theorem Loc.structStart (fuel : Nat) (d : StructDef) (st : LoopSt) (name : Name)
    (attrs : List Attr) : Loc (Yaserde.structStart L rec fuel d st name attrs) := by
  refine .bind ?_ fun st' => .bind ?_ fun st'' => .pure _
  · split
    · exact .bind .nextEvent fun _ => .bind (.lift _) fun _ => .pure _
    · split
      · split
        · exact .callVisitor hrec ..
        · exact .pure _
      · refine .bind .nextEvent fun _ => .bind (.lift _) fun _ => ?_
        split
        · exact .bind (.skipElement _) fun _ => .bind (.lift _) fun _ => .pure _
        · exact .pure _
  · split
    · exact .bind (.lift _) fun _ => .pure _
    · exact .pure _

theorem Loc.structStep (fuel : Nat) (d : StructDef) (named : Str) (startDepth : Nat) (st : LoopSt) :
    Loc (Yaserde.structStep L rec fuel d named startDepth st) := by
  refine .bind .peek fun e => ?_
  cases e with
  | start name attrs m => exact .bind (.structStart hrec ..) fun _ => .pure _
  | endE name =>
    refine .getDepth (fun dep => if name.loc = named ∧ dep = startDepth + 1 then
        M.lift (writeUnused d.hasFlat (.endE name) st.writer) >>= fun w =>
          M.pure ({ st with writer := w }, false)
      else
        Yaserde.nextEvent >>= fun e' =>
        M.lift (writeUnused d.hasFlat e' st.writer) >>= fun w =>
          M.pure ({ st with writer := w, depth := st.depth - 1 }, true)) (fun _ => rfl) fun dep => ?_
    split
    · exact .bind (.lift _) fun _ => .pure _
    · exact .bind .nextEvent fun _ => .bind (.lift _) fun _ => .pure _
  | endDocument =>
    dsimp only
    split <;> exact .pure _
  | chars t => exact .bind .nextEvent fun _ => .bind (.lift _) fun _ => .pure _
  | _ => exact .throw _

theorem Loc.structLoop (skipFuel : Nat) (d : StructDef) (named : Str) (startDepth : Nat) (n : Nat) :
    ∀ st, Loc (Yaserde.structLoop L rec skipFuel d named startDepth n st) := by
  induction n with
  | zero => intro st; exact .diverge
  | succ n ih =>
    intro st
    refine .bind (.structStep hrec ..) fun r => ?_
    dsimp only
    split
    · exact ih _
    · exact .pure _

theorem Loc.structBody (fuel : Nat) (d : StructDef) (info : Str × Option Str) (dep : Nat) :
    Loc (Yaserde.structBody L rec fuel d info dep) := by
  refine .bind ?_ fun _ => .bind (.structLoop hrec ..) fun st => .bind ?_ fun slots =>
    .bind (.lift _) fun _ => .pure _
  · split
    · exact .ofExcept _
    · exact .pure _
  · split
    · exact .lift _
    · exact .pure _

theorem Loc.structDeser (fuel : Nat) (d : StructDef) : Loc (Yaserde.structDeser L rec fuel d) := by
  refine .bind .peek fun e => .getDepth _ (fun _ => rfl) fun dep => .structBody hrec ..

omit hrec in
theorem Loc.visitUnwrap (t : STy) (s : Str) : Loc (Yaserde.visitUnwrap L t s) := by
  unfold Yaserde.visitUnwrap
  split
  · exact .pure _
  · exact .panic _

omit hrec in
theorem Loc.variantInner (t : STy) : Loc (Yaserde.variantInner L t) := by
  refine .bind .peek fun e => ?_
  split
  · exact .visitUnwrap ..
  · refine .bind (.attempt .nextEvent) fun r => ?_
    split
    · exact .visitUnwrap ..
    · exact .throw _

theorem Loc.variantArm (i : Nat) (v : VariantDef) (cur : Option Val) :
    Loc (Yaserde.variantArm L rec i v cur) := by
  unfold Yaserde.variantArm
  split
  · exact .pure _
  · exact .pure _
  · split
    · exact .bind (hrec _) fun _ => .bind (.ofExcept _) fun _ =>
        .bind (.attempt .nextEvent) fun _ => .pure _
    · refine .bind (.attempt (.readInnerValue (.variantInner _))) fun r => ?_
      split
      · exact .bind (.ofExcept _) fun _ => .pure _
      · exact .pure _
    · exact .panic _

theorem Loc.enumMatch (d : EnumDef) (key : Str) (cur : Option Val) {dflt : D (Option Val × Bool)}
    (hd : Loc dflt) : Loc (Yaserde.enumMatch L rec d key cur dflt) := by
  unfold Yaserde.enumMatch
  split
  · split
    · exact .variantArm hrec ..
    · exact hd
  · exact hd

theorem Loc.enumStep (d : EnumDef) (named : Str) (startDepth : Nat) (cur : Option Val) :
    Loc (Yaserde.enumStep L rec d named startDepth cur) := by
  refine .bind .peek fun e => ?_
  cases e with
  | start name attrs m =>
    refine .bind (.ofExcept _) fun key =>
      .bind (.enumMatch hrec d key cur (.bind (.attempt .nextEvent) fun _ => .pure _)) fun r => ?_
    dsimp only
    split
    · refine .bind .peek fun e' => ?_
      split
      · exact .enumMatch hrec _ _ _ (.pure _)
      · exact .pure _
    · exact .pure _
  | endE name =>
    refine .getDepth (fun dep => if name.loc = named ∧ dep = startDepth + 1 then M.pure (cur, false)
      else M.attempt Yaserde.nextEvent >>= fun _ => M.pure (cur, true)) (fun _ => rfl) fun dep => ?_
    split
    · exact .pure _
    · exact .bind (.attempt .nextEvent) fun _ => .pure _
  | chars t => exact .bind (.attempt .nextEvent) fun _ => .pure _
  | endDocument =>
    dsimp only
    split
    · exact .pure _
    · exact .throw _
  | _ => exact .throw _

theorem Loc.enumLoop (d : EnumDef) (named : Str) (startDepth : Nat) (n : Nat) :
    ∀ cur, Loc (Yaserde.enumLoop L rec d named startDepth n cur) := by
  induction n with
  | zero => intro st; exact .diverge
  | succ n ih =>
    intro st
    refine .bind (.enumStep hrec ..) fun r => ?_
    dsimp only
    split
    · exact ih _
    · exact .pure _

theorem Loc.enumBody (fuel : Nat) (d : EnumDef) (info : Str × Option Str) (dep : Nat) :
    Loc (Yaserde.enumBody L rec fuel d info dep) :=
  .bind (.ofExcept _) fun _ => .bind (.enumLoop hrec ..) fun _ => .pure _

theorem Loc.enumDeser (fuel : Nat) (d : EnumDef) : Loc (Yaserde.enumDeser L rec fuel d) :=
  .bind .peek fun e => .getDepth _ (fun _ => rfl) fun dep => .enumBody hrec ..

omit hrec in
theorem Loc.primDeser (d : PrimDef) : Loc (Yaserde.primDeser d) := by
  refine .bind (.attempt .peek) fun r => ?_
  split
  · refine .bind .nextEvent fun _ => .bind (.attempt .peek) fun r => ?_
    split <;> exact .ofExcept _
  · exact .throw _

end

/-- Every generated deserializer is local. -/
theorem Loc.deser (L : Lib) (env : Env) (n : Nat) : ∀ p, Loc (Yaserde.deser L env n p) := by
  induction n with
  | zero => intro p; exact .diverge
  | succ n ih =>
    intro p
    unfold Yaserde.deser
    split
    · exact .structDeser ih ..
    · exact .enumDeser ih ..
    · exact .primDeser _
    · exact .panic _

end Yaserde
