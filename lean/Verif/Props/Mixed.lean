import Verif.Proofs.Mixed
import Verif.Proofs.Part
import Verif.Props.UserSer
import Verif.Props.RoundTrip
/-
C88: round trips in programs with hand-written implementations of both traits.
-/

set_option autoImplicit false
set_option maxRecDepth 100000

namespace Yaserde

/-- C88: if the values of the fields survive in the elements and attributes of the fields, the value of the struct survives, in
every element that does not have the name of one of its fields. -/
theorem C88_struct (L : Lib) (env : Env) (ser : SerImpls) (de : Impls) (W : Encoding) (hW : W.Derived L env ser)
    (p : Path) (d : StructDef) (hs : ser p = none) (hd : de p = none) (hp : env p = some (.struct d)) (hplain : PlainStruct d)
    (fs : List Val) (h : FieldsKept L env de W d fs) (l : Str) (hl : d.NamedFor l) : ReadsBack L env de W p (.struct fs) l := by
  have hall := Mixed.all_kept hplain h
  refine ⟨Mixed.attrsOf L W d fs, encFieldsBy L W d.attrs (.struct fs) d.fields fs, ?_, hall.elemOk hl.1, ?_⟩
  · rw [hW.tree _ _ _ hs, Mixed.tree_eq hplain hp]; rfl
  · intro y hy
    obtain ⟨m, ys, rfl, hys⟩ := hall.back hl.1 hy
    have := C80_contract L env de p d hd hp (Mixed.nm l) _ m ys _ _ (hall.over hl hys)
    rwa [hall.decode hys] at this

/-- C88, as XML attributes: a struct without attributes of its own survives as the attribute of a struct around it, if what is written
can be written there. -/
theorem C88_attr (L : Lib) (hx : XmlLaw L) (env : Env) (ser : SerImpls) (de : Impls) (W : Encoding) (hW : W.Derived L env ser)
    (p : Path) (d : StructDef) (hs : ser p = none) (hd : de p = none) (hp : env p = some (.struct d)) (hplain : PlainStruct d)
    (fs : List Val) (h : FieldsKept L env de W d fs) (hl : d.NamedFor p.flatten)
    (hattr : ∀ f ∈ d.fields, f.attrs.isAttr = false)
    (hc : isAttrText (L.emit { decl := false } (WNode.eventsL (W.tree .inner p (.struct fs)))) = true) :
    ReadsBackAttr L env de W p (.struct fs) := by
  have hall := Mixed.all_kept hplain h
  refine ⟨hc, ?_⟩
  have htree : W.tree .inner p (.struct fs) = encFieldsBy L W d.attrs (.struct fs) d.fields fs := by
    rw [hW.tree _ _ _ hs]
    unfold encTyBy
    rw [hp]
    simp [wrap, Place.inner]
  have hno : Mixed.attrsOf L W d fs = [] := by
    rw [List.eq_nil_iff_forall_not_mem]
    intro a ha
    obtain ⟨i, f, v, hf, -, -, h1, -⟩ := hall.own_mem ha
    rw [hattr f (List.mem_of_getElem? hf)] at h1
    cases h1
  rw [htree]
  obtain ⟨y, hy, hparse⟩ := hx.frag p.flatten (encFieldsBy L W d.attrs (.struct fs) d.fields fs) _ hl.1 hall.okL rfl
  have hy' : y.Like ((WNode.elem p.flatten (Mixed.attrsOf L W d fs) [] (encFieldsBy L W d.attrs (.struct fs) d.fields fs)).back []) := by
    rw [hno]; exact hy
  obtain ⟨m, ys, rfl, hys⟩ := hall.back hl.1 hy'
  have := C80_from_str L env de p d hd hp (Mixed.nm p.flatten) _ m ys _ _ (hall.over hl hys) (by intro u hu; cases hu)
    (attrDoc p (L.emit { decl := false } (WNode.eventsL (encFieldsBy L W d.attrs (.struct fs) d.fields fs)))) ⟨[], by
      rw [show ∀ s, attrDoc p s = c!"<" ++ p.flatten ++ c!">" ++ s ++ c!"</" ++ p.flatten ++ c!">" from fun _ => rfl, hparse, List.append_nil]
      exact content_doc _⟩
  rwa [hall.decode hys] at this

/-- C88, documents: such a struct is written as a text, which is read as the same value. -/
theorem C88_round_trip (L : Lib) (hx : XmlLaw L) (env : Env) (ser : SerImpls) (de : Impls) (hok : SerOk env) (W : Encoding)
    (hW : W.Derived L env ser)
    (hU : ∀ p f v, ser p = some f → HasTy env (.struct p) v → SerObeys WritesTrees (serU L env ser) W p v)
    (p : Path) (d : StructDef) (hs : ser p = none) (hd : de p = none) (hp : env p = some (.struct d)) (hplain : PlainStruct d)
    (hname : isNCName (d.attrs.rename.getD d.name) = true)
    (fs : List Val) (hv : HasTy env (.struct p) (.struct fs)) (h : FieldsKept L env de W d fs) :
    ∃ N, ∀ n, N ≤ n → ∀ c : Config, c.emitCfg.Blank → ∃ s, toStringU L env ser n c p (.struct fs) = .ok s ∧
      ReadsDoc L (fun b => deserU L env de b p) s (.ok (.struct fs)) := by
  have hall := Mixed.all_kept hplain h
  obtain ⟨N, hN⟩ := C83_to_string L env ser hok W hW hU p (.struct fs) hv
  refine ⟨N, fun n hn c hc => ⟨_, hN n hn c, ?_⟩⟩
  have htree : W.tree .root p (.struct fs) = [.elem (d.attrs.rename.getD d.name) (Mixed.attrsOf L W d fs) []
      (encFieldsBy L W d.attrs (.struct fs) d.fields fs)] := by
    rw [hW.tree _ _ _ hs]
    exact Mixed.tree_eq hplain hp none
  rw [htree]
  obtain ⟨y, hy, hparse⟩ := hx.doc _ _ _ _ _ (hall.elemOk hname) rfl
  obtain ⟨m, ys, rfl, hys⟩ := hall.back hname hy
  have := C80_from_str L env de p d hd hp (Mixed.nm (d.attrs.rename.getD d.name)) _ m ys _ _
    (hall.over ⟨hname, .inl rfl⟩ hys) (by intro u hu; cases hu) (L.emit c.emitCfg (WNode.eventsL [.elem (d.attrs.rename.getD d.name)
      (Mixed.attrsOf L W d fs) [] (encFieldsBy L W d.attrs (.struct fs) d.fields fs)])) ⟨[], by
      rw [show ∀ x : WNode, WNode.eventsL [x] = x.events from fun x => by simp [WNode.eventsL], hparse _ hc, List.append_nil]
      exact content_doc _⟩
  rwa [hall.decode hys] at this

/-- C88, conversions: a type whose hand-written implementations convert to and from another type of the program. -/
theorem C88_delegates (L : Lib) (env : Env) (de : Impls) (W : Encoding) (p q : Path) (f : Val → Val) (g : Val → Except Str Val)
    (hd : de p = some fun rec => rec q >>= fun v => M.ofExcept (g v)) (v : Val) (l : Str)
    (hW : W.tree ⟨some l, false⟩ p v = W.tree ⟨some l, false⟩ q (f v)) (hinv : g (f v) = .ok v)
    (h : ReadsBack L env de W q (f v) l) : ReadsBack L env de W p v l := by
  obtain ⟨as, ks, h1, h2, h3⟩ := h
  refine ⟨as, ks, hW.trans h1, h2, fun y hy => ?_⟩
  have := C80_delegates L env de p q g hd y _ (h3 y hy)
  rwa [Res.bind_ok, hinv] at this

theorem reads_alone {L : Lib} (hx : XmlLaw L) {env : Env} (hrt : RtOk env []) {p : Path} {v : Val} (hc : Canon L env (.struct p) v)
    {l : Str} (hl : isNCName l = true) (hfit : Fits env p ⟨l, none, none⟩)
    (hvar : ∀ d, env p = some (.enum d) → ∀ as, d.variantOf ⟨l, none, none⟩ as = none) :
    ∃ as ks, encTy L env ⟨some l, false⟩ p v = [.elem l as [] ks] ∧ (WNode.elem l as [] ks).Ok [] ∧
      ∀ y : Node, y.Like ((WNode.elem l as [] ks).back []) → Obeys (fun b => deser L env b p) y (.ok v) := by
  have henc : Enc L env [] p v := (canon_enc hx hrt hc).item.enc p rfl
  have hdec : encTyDecls env p v = [] := List.eq_nil_iff_forall_not_mem.mpr fun e he => by cases henc.decls e he
  obtain ⟨as, nss, ks, e1, e2, e3, e4, -⟩ := henc.elem hrt.table (sc := []) (by simp) (Mixed.qname_nc hl) (nm := l)
    (by rw [hdec]; exact Mixed.bound_nc hl) (by rw [hdec, show firstDecls [] ++ [] = [] from rfl, Mixed.readElem_nc hl]; exact hfit)
  have hnss : nss = [] := by
    have := henc.place ⟨some l, false⟩ rfl
    rw [e1] at this
    simp only [List.cons.injEq, WNode.elem.injEq] at this
    rw [this.1.2.2.1, hdec]; rfl
  subst hnss
  refine ⟨as, ks, e1, e2, fun y hy => ?_⟩
  have hclean := (clean_of_like hrt.table _ [] (by simp) e2 e3 y l as [] ks rfl hy).1
  obtain ⟨k0, hk0⟩ := e4.reads hx hrt.table
  obtain ⟨hconf, hdecode⟩ := hk0 k0 (Nat.le_refl _) y (.strip _ _ (like_strip _ _ hy).symm) hclean
  have := C80_derived L env k0 y p hconf (by
    intro d hd
    have hn : y.name = ⟨l, none, none⟩ := by
      rw [Mixed.like_name hy]
      exact Mixed.readElem_nc hl
    rw [hn]
    exact hvar d hd _)
  rw [hdecode] at this
  simpa only [deserU_none] using this

/-- C88, derived types around which nothing is written by hand: the values that survive in the program of their own (C01). -/
theorem C88_part (L : Lib) (hx : XmlLaw L) (env : Env) (ser : SerImpls) (de : Impls) (W : Encoding) (hW : W.Derived L env ser)
    (part : Env) (hpart : PartOf part env ser de) (hrt : RtOk part []) (p : Path) (v : Val) (hc : Canon L part (.struct p) v)
    (l : Str) (hl : isNCName l = true) (hfit : Fits part p ⟨l, none, none⟩)
    (hvar : ∀ d, part p = some (.enum d) → ∀ as, d.variantOf ⟨l, none, none⟩ as = none) : ReadsBack L env de W p v l := by
  have hne : part p ≠ none := by
    cases hfit with
    | struct _ _ _ hp | enum _ _ _ hp | prim _ _ _ hp => rw [hp]; simp
  obtain ⟨as, ks, h1, h2, h3⟩ := reads_alone hx hrt hc hl hfit hvar
  refine ⟨as, ks, ?_, h2, fun y hy => ?_⟩
  · rw [(Part.tree hpart hW (v.levels + 1) p v (Nat.lt_succ_self _) hne).1]; exact h1
  · have := h3 y hy
    simpa only [Part.deser hpart L _ p hne] using this

/-- C88, the same as attributes. -/
theorem C88_part_attr (L : Lib) (hx : XmlLaw L) (env : Env) (ser : SerImpls) (de : Impls) (W : Encoding) (hW : W.Derived L env ser)
    (part : Env) (hpart : PartOf part env ser de) (hrt : RtOk part []) (p : Path) (v : Val) (hc : Canon L part (.struct p) v)
    (hl : isNCName p.flatten = true) (hfit : Fits part p ⟨p.flatten, none, none⟩) (ha : AttrUserOk L part p v) :
    ReadsBackAttr L env de W p v := by
  have hne : part p ≠ none := by
    cases hfit with
    | struct _ _ _ hp | enum _ _ _ hp | prim _ _ _ hp => rw [hp]; simp
  have henc : Enc L part [] p v := (canon_enc hx hrt hc).item.enc p rfl
  have htree := (Part.tree hpart hW (v.levels + 1) p v (Nat.lt_succ_self _) hne).1 .inner
  refine ⟨by rw [htree]; exact ha.chars, ?_⟩
  rw [htree]
  obtain ⟨y0, ⟨y, hdoc, hst, ⟨G, hG, hclean⟩, hns⟩, hview⟩ := attrDoc_ok hx hrt.table henc ha hl hfit
  obtain ⟨k0, hk0⟩ := hview.reads hx hG
  obtain ⟨hconf, hdec⟩ := hk0 k0 (Nat.le_refl _) y (.strip _ _ hst.symm) hclean
  have hret : Returns L part p (attrDoc p (L.emit { decl := false } (WNode.eventsL (encTy L part .inner p v)))) (.ok v) := by
    rw [returns_iff L part k0 p _ y hdoc hconf]
    unfold decodeDocN decodeDocWith
    rw [hdec]
    split
    · rename_i d hd
      rw [if_pos (hns d hd)]
    · rfl
  obtain ⟨hnd, n, hn⟩ := hret
  refine ⟨hnd, n, fun b hb => ?_⟩
  have := (C27_budget_irrelevant L part p _).1 n b hb (by rw [hn]; exact hnd)
  rw [hn] at this
  dsimp only
  rw [Part.deser hpart L b p hne]
  exact this

/-- C88, derived types around which nothing is written by hand: they keep the contract of C83, whatever the hand-written implementations
of the program do. -/
theorem C88_part_writes (L : Lib) (env : Env) (ser : SerImpls) (de : Impls) (W : Encoding) (hW : W.Derived L env ser)
    (part : Env) (hpart : PartOf part env ser de) (hok : SerOk part) (p : Path) (v : Val) (hv : HasTy part (.struct p) v) :
    SerObeys WritesTrees (serU L env ser) W p v := by
  have hne : part p ≠ none := by
    cases hv with
    | prim _ _ _ hp | struct _ _ _ hp | unit _ _ _ _ hp | newtype _ _ _ _ _ _ hp | named _ _ _ _ _ _ hp => rw [hp]; simp
  obtain ⟨N, hN⟩ := C83_contract L part (fun _ => none) hok _ (C83_encoding L part (fun _ => none)).2.2
    (by intro _ _ _ h; cases h) p v hv
  obtain ⟨t1, t2, t3⟩ := Part.tree hpart hW (v.levels + 1) p v (Nat.lt_succ_self _) hne
  refine ⟨N, fun n hn => ⟨fun pl => ?_, ?_⟩⟩
  · rw [(Part.ser hpart L n).ser p v hne, t1]
    exact (hN n hn).1 pl
  · rw [(Part.ser hpart L n).attrs p v hne, t2, t3]
    exact (hN n hn).2

/-- C88, types implemented with the helpers of the library (`serialize_primitives`, `deserialize_primitives`), by hand or not. -/
theorem C88_helpers (L : Lib) (hx : XmlLaw L) (env : Env) (de : Impls) (W : Encoding) (p : Path) (d : PrimDef)
    (hd : ∀ b, deserU L env de (b + 1) p = primDeser d) (v : Val) (l : Str) (hl : isNCName l = true)
    (hW : W.tree ⟨some l, false⟩ p v = [.elem l [] [] [.text (d.toStr v)]])
    (hb : d.bare = false) (hc : isText (d.toStr v) = true) (hinv : d.fromStr (trimSpace (d.toStr v)) = .ok v) :
    ReadsBack L env de W p v l := by
  obtain ⟨as, ks, h1, h2, h3⟩ := reads_alone (env := fun _ => some (.prim d)) (p := p) hx
    ⟨⟨by simp, by simp, by simp⟩, (by intro _ _ h; cases h), (by intro _ _ h; cases h)⟩ (.prim p d v rfl hb hc hinv) hl
    (.prim _ d _ rfl) (by intro _ h; cases h)
  have : encTy L (fun _ => some (.prim d)) ⟨some l, false⟩ p v = [.elem l [] [] [.text (d.toStr v)]] := by
    unfold encTy
    simp [wrap, hb]
  rw [this] at h1
  simp only [List.cons.injEq, WNode.elem.injEq, true_and, and_true] at h1
  obtain ⟨rfl, rfl⟩ := h1
  refine ⟨[], _, hW, h2, fun y hy => ?_⟩
  refine ByHand.obeys_of_eq (fun b hb' => ?_) (h3 y hy)
  obtain ⟨b, rfl⟩ : ∃ k, b = k + 1 := ⟨b - 1, by omega⟩
  rw [hd]
  rfl

section
open Tests Sample ByHand

/-- **C88 needs the values of hand-written types to survive**: those of the repository's `Day` do not (it is written as `<DoubleDay>`,
and read from a `<Day>`), although its implementations keep both contracts (`ByHand.obeysS`, `C80_day`).  A `Date` is written without
error, and its text is rejected. -/
theorem C88_day : ∃ N, ∀ n, N ≤ n → ∃ s,
    toStringU lib programS implsS n {} [c!"Date"] (.struct [i 2020, i 1, .struct [i 5]]) = .ok s ∧
    ReadsDoc lib (fun b => deserU lib programS impls b [c!"Date"]) s (.err c!"day is a required field of Date") := by
  obtain ⟨N, hN⟩ := C83_to_string lib programS implsS serOkS ByHand.W (encU_derived lib programS implsS treesS)
    (fun p f v h => obeysS p f v h) [c!"Date"] (.struct [i 2020, i 1, .struct [i 5]]) (hasTy_of_check _ _ _ rfl)
  refine ⟨N, fun n hn => ⟨_, hN n hn {}, ?_⟩⟩
  have hs : lib.emit ({} : Config).emitCfg (WNode.eventsL (ByHand.W.tree .root [c!"Date"] (.struct [i 2020, i 1, .struct [i 5]]))) =
      c!"<?xml version=\"1.0\" encoding=\"utf-8\"?><Date><Year>2020</Year><Month>1</Month><DoubleDay>10</DoubleDay></Date>" := by
    decide +kernel
  rw [hs]
  exact C80_from_str lib programS impls [c!"Date"] date rfl rfl ⟨c!"Date", none, none⟩ [] []
    [el c!"Year" [tx c!"2020"], el c!"Month" [tx c!"1"], el c!"DoubleDay" [tx c!"10"]] dayOf (fun _ _ => .err [])
    { plain := date_plain
      noFlat := by rintro ⟨f, hf, -, h⟩; revert h; revert f; decide
      name := .inl ⟨rfl, rfl⟩
      kids := by
        intro k hk
        simp only [List.mem_cons, List.not_mem_nil, or_false] at hk
        rcases hk with rfl | rfl | rfl <;> exact ⟨by simp, fun _ _ _ _ _ _ => trivial⟩
      obey := by
        intro k hk q hq
        obtain ⟨i, f, h1, h2, h3⟩ := hq
        simp only [List.mem_cons, List.not_mem_nil, or_false] at hk
        rcases hk with rfl | rfl | rfl
        · have : date.fieldFor (el c!"Year" [tx c!"2020"]).name = some 0 := by decide
          rw [this] at h1; cases h1; cases h2; cases h3
        · have : date.fieldFor (el c!"Month" [tx c!"1"]).name = some 1 := by decide
          rw [this] at h1; cases h1; cases h2; cases h3
        · have : date.fieldFor (el c!"DoubleDay" [tx c!"10"]).name = none := by decide
          rw [this] at h1; cases h1
      attrs := by
        intro f hf ha
        simp only [date, List.mem_cons, List.not_mem_nil, or_false] at hf
        rcases hf with rfl | rfl | rfl <;> cases ha }
    (by intro u h; cases h) _ ⟨[], by decide +kernel⟩

end

/-! ### A program -/

namespace Bill
open Tests

/-- Two derived types around which nothing is written by hand. -/
def partL : List (Path × TypeDef) :=
  [mkS c!"Raw" [F c!"units" (I .i64) attr, F c!"cents" (I .u8)], mkE c!"Cur" [vU c!"EUR", vU c!"USD"] (.enum 0 [])]

/-- A price, in cents: its values. -/
def price : PrimDef where
  name := c!"Price"
  toStr _ := []
  fromStr _ := .error []
  dom v := match v with | .struct [.int n] => decide (0 ≤ n ∧ n < 1000000) | _ => false

def bill : StructDef :=
  { name := c!"Bill"
    fields := [F c!"id" Tests.S attr, F c!"cur" (T c!"Cur") attr, F c!"item" (V (T c!"Price")), F c!"deposit" (O (T c!"Price"))] }

def part : Env := envOf partL
def env : Env := envOf (([c!"Price"], .prim price) :: ([c!"Bill"], .struct bill) :: partL)

/-- `impl From<Price> for Raw`. -/
def split : Val → Val
  | .struct [.int n] => .struct [.int (n / 100), .int (n % 100)]
  | v => v

/-- `impl From<Raw> for Price`. -/
def join : Val → Except Str Val
  | .struct [.int a, .int b] => .ok (.struct [.int (a * 100 + b)])
  | _ => .error c!"no price"

/-- `impl YaSerialize for Price`: `Raw::from(self.clone()).serialize(writer)`, and `serialize_attributes` accordingly. -/
def ser : SerImpls := fun p =>
  if p = [c!"Price"] then some { ser := fun R v => R.ser [c!"Raw"] (split v), attrs := fun R v => R.attrs [c!"Raw"] (split v) } else none

/-- `impl YaDeserialize for Price`: `Ok(Raw::deserialize(reader)?.into())`. -/
def de : Impls := fun p => if p = [c!"Price"] then some fun rec => rec [c!"Raw"] >>= fun v => M.ofExcept (join v) else none

def W : Encoding := encU lib env ser
  { tree := fun pl _ v => encTy lib part pl [c!"Raw"] (split v)
    attrs := fun _ v => encTyAttrs lib part [c!"Raw"] (split v)
    decls := fun _ v => encTyDecls part [c!"Raw"] (split v) }

theorem derived : W.Derived lib env ser := encU_derived lib env ser _

theorem part_cases {p : Path} {t : TypeDef} (h : part p = some t) :
    (p = [c!"Raw"] ∧ t = (mkS c!"Raw" [F c!"units" (I .i64) attr, F c!"cents" (I .u8)]).2) ∨
    (p = [c!"Cur"] ∧ t = (mkE c!"Cur" [vU c!"EUR", vU c!"USD"] (.enum 0 [])).2) := by
  have := mem_envOf h
  simpa only [partL, mkS, mkE, List.mem_cons, Prod.mk.injEq, List.not_mem_nil, or_false] using this

theorem isPart : PartOf part env ser de := by
  refine ⟨fun p t h => ?_, fun p t h => ?_, fun p t h => ?_, fun p t h q hq => ?_⟩ <;> rcases part_cases h with ⟨rfl, rfl⟩ | ⟨rfl, rfl⟩
  any_goals rfl
  · obtain ⟨f, hf, hl⟩ := hq
    simp only [List.mem_cons, List.not_mem_nil, or_false] at hf
    rcases hf with rfl | rfl <;> cases hl
  · obtain ⟨v, hv, ⟨t, ht, -⟩ | ⟨t, ht, -⟩⟩ := hq <;>
    · simp only [List.mem_cons, List.not_mem_nil, or_false] at hv
      rcases hv with rfl | rfl <;> cases ht

theorem simple : SimpleProgram part := simple_of_check partL (by decide +kernel)
theorem restores : Restores part := restores_of_writesAll (writesAll_of_check partL (by decide +kernel))

theorem noPrim (p : Path) (d : PrimDef) (h : part p = some (.prim d)) : Inverts d := by
  rcases part_cases h with ⟨-, e⟩ | ⟨-, e⟩ <;> cases e

/-- Values of the two types survive in their own program. -/
theorem canon {p : Path} {v : Val} (hv : HasTy part (.struct p) v) (ht : v.Tame lib) : Canon lib part (.struct p) v :=
  canon_of_tame xml (rtOk_simple simple) (carries_simple simple) (plainPayloads_simple simple) restores noPrim hv ht

theorem raw_ty {n : Int} (h0 : 0 ≤ n) (h1 : n < 1000000) : HasTy part (T c!"Raw") (split (.struct [.int n])) := by
  refine .struct _ _ _ rfl rfl fun i f v hf hv => ?_
  match i, hf, hv with
  | 0, hf, hv => cases hf; cases hv; exact .int .i64 _ ((fits_iff _ _).mpr (by simp only [IntTy.lo, IntTy.hi]; omega))
  | 1, hf, hv => cases hf; cases hv; exact .int .u8 _ ((fits_iff _ _).mpr (by simp only [IntTy.lo, IntTy.hi]; omega))

theorem raw_tame (n : Int) : (split (.struct [.int n])).Tame lib := by simp [split, Val.Tame, TameL]

/-- A price survives in any element that is not called `cents`. -/
theorem price_back {n : Int} (h0 : 0 ≤ n) (h1 : n < 1000000) {l : Str} (hl : isNCName l = true) (hne : l ≠ c!"cents") :
    ReadsBack lib env de W [c!"Price"] (.struct [.int n]) l := by
  refine C88_delegates lib env de W [c!"Price"] [c!"Raw"] split join rfl _ l ?_ ?_ ?_
  · rw [(Part.tree isPart derived _ [c!"Raw"] _ (Nat.lt_succ_self _) (by decide)).1]
    exact (encU_user lib env ser _ [c!"Price"] _ rfl _).1 _
  · show Except.ok _ = Except.ok _
    have : n / 100 * 100 + n % 100 = n := by omega
    rw [this]
  · refine C88_part lib xml env ser de W derived part isPart (rtOk_simple simple) _ _ (canon (raw_ty h0 h1) (raw_tame n)) l hl
      (.struct _ _ _ rfl (.inr ?_) ?_ ?_) (by intro d h; cases h)
    · simp [StructDef.fieldFor, F, attr, FieldDef.claims, FieldDef.isElem, hne.symm]
    all_goals
      intro f hf h
      have : f.attrs.flatten = false := by clear h; revert f; decide
      exact absurd h (by simp [FieldDef.isFlat, this])

/-- The currency survives as an attribute. -/
theorem cur_back (i : Nat) (hi : i < 2) : ReadsBackAttr lib env de W [c!"Cur"] (.enum i []) := by
  have hty : HasTy part (T c!"Cur") (.enum i []) := by
    match i, hi with
    | 0, _ => exact hasTy_of_check _ _ _ rfl
    | 1, _ => exact hasTy_of_check _ _ _ rfl
  refine C88_part_attr lib xml env ser de W derived part isPart (rtOk_simple simple) _ _ (canon hty (by simp [Val.Tame, TameL])) (by decide)
    (.enum _ _ _ rfl (by decide) (by decide)) ?_
  match i, hi with
  | 0, _ => exact ⟨rfl, rfl, by decide +kernel⟩
  | 1, _ => exact ⟨rfl, rfl, by decide +kernel⟩

theorem plain : PlainStruct bill := by
  refine ⟨⟨rfl, rfl, rfl⟩, ?_, by decide, by decide, ?_⟩
  · constructor <;> intro f hf <;> simp only [bill, List.mem_cons, List.not_mem_nil, or_false] at hf <;>
      rcases hf with rfl | rfl | rfl | rfl <;> simp [F, T, O, V, Tests.S, attr, FTy.core]
  · intro i j f g hf hg
    have hi := (List.getElem?_eq_some_iff.mp hf).1
    have hj := (List.getElem?_eq_some_iff.mp hg).1
    have : bill.fields.length = 4 := rfl
    match i, j, hf, hg with
    | 0, 0, _, _ | 1, 1, _, _ | 2, 2, _, _ | 3, 3, _, _ => exact fun _ => rfl
    | 0, 1, hf, hg | 0, 2, hf, hg | 0, 3, hf, hg | 1, 0, hf, hg | 1, 2, hf, hg | 1, 3, hf, hg | 2, 0, hf, hg | 2, 1, hf, hg
    | 2, 3, hf, hg | 3, 0, hf, hg | 3, 1, hf, hg | 3, 2, hf, hg =>
      cases hf; cases hg; exact fun h => absurd h (by decide)
    | i + 4, _, _, _ => omega
    | _, j + 4, _, _ => omega

def val (id : Str) (cur : Nat) (items : List Int) (deposit : Option Int) : List Val :=
  [.str id, .enum cur [], .vec (items.map fun n => .struct [.int n]),
    match deposit with | some n => .some (.struct [.int n]) | none => .none]

theorem kept {id : Str} {cur : Nat} {items : List Int} {deposit : Option Int} (h1 : isAttrText id = true) (h2 : cur < 2)
    (h3 : ∀ n ∈ items, 0 ≤ n ∧ n < 1000000) (h4 : ∀ n, deposit = some n → 0 ≤ n ∧ n < 1000000) :
    FieldsKept lib env de W bill (val id cur items deposit) := by
  refine ⟨rfl, fun i f v hf hv => ?_⟩
  match i, hf, hv with
  | 0, hf, hv =>
    cases hf; cases hv
    exact ⟨fun _ => .plain .string _ rfl (by simp [FieldDef.selected, F, attr]) ⟨h1, rfl⟩, (by intro h; cases h), (by intro h; cases h),
      (by intro h; cases h), (by intro h; cases h)⟩
  | 1, hf, hv =>
    cases hf; cases hv
    exact ⟨fun _ => .user _ _ rfl (by simp [FieldDef.selected, F, attr]) (cur_back cur h2), (by intro h; cases h), (by intro h; cases h),
      (by intro h; cases h), (by intro h; cases h)⟩
  | 2, hf, hv =>
    cases hf; cases hv
    refine ⟨(by intro h; cases h), (by intro _ h; cases h), fun _ _ h => ?_, (by intro _ _ _ h; cases h), fun _ _ _ _ => .vec _ _ ?_⟩
    · exfalso; revert h; simp [FieldDef.omitted, FieldDef.selected, F]
    · intro v hv
      obtain ⟨n, hn, rfl⟩ := List.mem_map.mp hv
      exact price_back (h3 n hn).1 (h3 n hn).2 (by decide) (by decide)
  | 3, hf, hv =>
    cases hf; cases hv
    refine ⟨(by intro h; cases h), (by intro _ h; cases h), fun _ _ h => ?_, (by intro _ _ _ h; cases h), fun _ _ _ _ => ?_⟩
    · exfalso; revert h; simp [FieldDef.omitted, FieldDef.selected, F]
    · cases deposit with
      | none => exact .none _
      | some n => exact .some _ _ (price_back (h4 n rfl).1 (h4 n rfl).2 (by decide) (by decide))

theorem writes (p : Path) (f : SerImpl) (v : Val) (h : ser p = some f) (hv : HasTy env (.struct p) v) :
    SerObeys WritesTrees (serU lib env ser) W p v := by
  unfold ser at h
  split at h
  · rename_i e
    subst e
    cases hv with
    | prim _ d _ hp hd =>
      cases hp
      unfold price at hd
      dsimp only at hd
      split at hd
      · rename_i n
        have hd := of_decide_eq_true hd
        obtain ⟨u1, u2, u3⟩ := encU_user lib env ser
          { tree := fun pl _ v => encTy lib part pl [c!"Raw"] (split v)
            attrs := fun _ v => encTyAttrs lib part [c!"Raw"] (split v)
            decls := fun _ v => encTyDecls part [c!"Raw"] (split v) } [c!"Price"] _ rfl (.struct [.int n])
        obtain ⟨t1, t2, t3⟩ := Part.tree isPart derived _ [c!"Raw"] (split (.struct [.int n])) (Nat.lt_succ_self _) (by decide)
        exact C83_delegates WritesTrees lib env ser W _ [c!"Raw"] split rfl _
          ⟨fun pl => (u1 pl).trans (t1 pl).symm, u2.trans t2.symm, u3.trans t3.symm⟩
          (C88_part_writes lib env ser de W derived part isPart (serOk_simple simple restores) _ _ (raw_ty hd.1 hd.2))
      · cases hd
    | struct _ _ _ hp | unit _ _ _ _ hp | newtype _ _ _ _ _ _ hp | named _ _ _ _ _ _ hp => cases hp
  · cases h

theorem typed {id : Str} {cur : Nat} {items : List Int} {deposit : Option Int} (h2 : cur < 2)
    (h3 : ∀ n ∈ items, 0 ≤ n ∧ n < 1000000) (h4 : ∀ n, deposit = some n → 0 ≤ n ∧ n < 1000000) :
    HasTy env (T c!"Bill") (.struct (val id cur items deposit)) := by
  have hp : ∀ n : Int, 0 ≤ n ∧ n < 1000000 → HasTy env (T c!"Price") (.struct [.int n]) := fun n hn =>
    .prim _ price _ rfl (decide_eq_true hn)
  refine .struct _ _ _ rfl rfl fun i f v hf hv => ?_
  match i, hf, hv with
  | 0, hf, hv => cases hf; cases hv; exact .str _
  | 1, hf, hv =>
    cases hf; cases hv
    match cur, h2 with
    | 0, _ => exact hasTy_of_check _ _ _ rfl
    | 1, _ => exact hasTy_of_check _ _ _ rfl
  | 2, hf, hv =>
    cases hf; cases hv
    refine .vec _ _ fun v hv => ?_
    obtain ⟨n, hn, rfl⟩ := List.mem_map.mp hv
    exact hp n (h3 n hn)
  | 3, hf, hv =>
    cases hf; cases hv
    cases deposit with
    | none => exact .none _
    | some n => exact .some _ _ (hp n (h4 n rfl))

/-- Every bill survives, whatever its prices. -/
example (id : Str) (cur : Nat) (items : List Int) (deposit : Option Int) (h1 : isAttrText id = true) (h2 : cur < 2)
    (h3 : ∀ n ∈ items, 0 ≤ n ∧ n < 1000000) (h4 : ∀ n, deposit = some n → 0 ≤ n ∧ n < 1000000) :
    ∃ N, ∀ n, N ≤ n → ∀ c : Config, c.emitCfg.Blank → ∃ s, toStringU lib env ser n c [c!"Bill"] (.struct (val id cur items deposit)) = .ok s ∧
      ReadsDoc lib (fun b => deserU lib env de b [c!"Bill"]) s (.ok (.struct (val id cur items deposit))) :=
  C88_round_trip lib xml env ser de (serOk_of_all _ (by decide +kernel)) W derived writes [c!"Bill"] bill rfl rfl rfl plain (by decide) _
    (typed h2 h3 h4) (kept h1 h2 h3 h4)

end Bill

end Yaserde
