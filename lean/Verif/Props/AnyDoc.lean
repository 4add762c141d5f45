import Verif.Props.Decode
import Verif.Props.Flatten
import Verif.Props.RoundTrip
/-
C15 for every document, and what becomes of C08-C14, C16 and C21 on documents that do not conform: concrete documents on
which they fail.
-/

set_option autoImplicit false
set_option maxRecDepth 100000

namespace Yaserde

/-- Enough budget for finitely many readings at once. -/
theorem common_budget (L : Lib) (env : Env) (user : Path → Str → Res Val) (l : List (Path × Str))
    (h : ∀ x ∈ l, Returns L env x.1 (attrDoc x.1 x.2) (user x.1 x.2)) :
    ∃ N, ∀ n, N ≤ n → ∀ x ∈ l, visitStructStr L (deser L env n) x.1 x.2 = user x.1 x.2 := by
  induction l with
  | nil => exact ⟨0, by simp⟩
  | cons x l ih =>
    obtain ⟨N, hN⟩ := ih fun y hy => h y (List.mem_cons_of_mem _ hy)
    obtain ⟨hd, K, hK⟩ := h x (List.mem_cons_self ..)
    refine ⟨max N K, fun n hn y hy => ?_⟩
    rcases List.mem_cons.mp hy with rfl | hy
    · have := (C27_budget_irrelevant L env y.1 (attrDoc y.1 y.2)).1 K n (by omega) (by rw [hK]; exact hd)
      rw [hK] at this
      exact this
    · exact hN n (by omega) y hy

/-- The texts in the attributes of an element that are read as values of derived types. -/
def userTexts (d : StructDef) (as : List Attr) : List (Path × Str) :=
  d.fields.flatMap fun f => as.flatMap fun a =>
    match f.ty.core with
    | .struct q => (f.ty.attrTexts a.value).map fun s => (q, s)
    | _ => []

/-- C15.  If some attribute (or, for a `Vec`, some word of it) of an attribute field does not parse, `from_str` returns
`Err` with the message of a malformed attribute — in particular with that attribute's message if it is the only malformed
one.  Nothing is assumed about the document after its first start tag.  (Attributes of derived types: they are read from
documents of their own, see C68; `huser` asks that this succeeds or fails, rather than panic or go on forever.) -/
theorem C15_malformed_attribute (L : Lib) (env : Env) (p : Path) (d : StructDef)
    (hp : env p = some (.struct d)) (hplain : d.Plain) (s : Str) (n : Name) (as : List Attr) (m : NsMap) (rest : List REv)
    (hdoc : content (L.parse s).evs = .start n as m :: rest) (hns : nsOk d.attrs n)
    (hroot : (n.loc = d.attrs.rename.getD d.name ∧ n.ns.getD [] = (d.attrs.namespaces.find d.attrs.pfx).getD []) ∨
      d.fieldFor n = none)
    (user : Path → Str → Res Val)
    (huser : ∀ f' ∈ d.fields, f'.attrs.isAttr = true → ∀ q, f'.ty.core = .struct q → ∀ a' ∈ as,
      a'.name.loc = f'.attrs.rename.getD f'.ident → ∀ w ∈ f'.ty.attrTexts a'.value,
        Returns L env q (attrDoc q w) (user q w) ∧ ((∃ v, user q w = .ok v) ∨ ∃ e, user q w = .err e))
    (f : FieldDef) (hf : f ∈ d.fields) (ha : f.attrs.isAttr = true)
    (a : Attr) (haa : a ∈ as) (hname : a.name.loc = f.attrs.rename.getD f.ident)
    (e : Str) (hbad : .err e ∈ attrWords L user f.ty a.value) :
    ∃ e', Returns L env p s (.err e') ∧
      ∃ f' ∈ d.fields, f'.attrs.isAttr = true ∧ ∃ a' ∈ as, a'.name.loc = f'.attrs.rename.getD f'.ident ∧
        .err e' ∈ attrWords L user f'.ty a'.value := by
  have hmem : ∀ c ∈ rawAttrs L user d as, ∃ f' ∈ d.fields, f'.attrs.isAttr = true ∧ ∃ a' ∈ as,
      a'.name.loc = f'.attrs.rename.getD f'.ident ∧ c.2 ∈ attrWords L user f'.ty a'.value := by
    intro c hc
    unfold rawAttrs at hc
    obtain ⟨cs, hcs, hc⟩ := List.mem_flatten.mp hc
    obtain ⟨q, hq, rfl⟩ := List.mem_map.mp hcs
    obtain ⟨r, hr, rfl⟩ := List.mem_map.mp hc
    unfold attrInputs at hr
    split at hr
    · rename_i hat
      obtain ⟨a', ha', hr⟩ := List.mem_flatMap.mp hr
      rw [List.mem_filter] at ha'
      exact ⟨q.1, (List.mem_of_getElem? (List.mem_zipIdx_iff_getElem?.mp hq)), hat, a', ha'.1,
        of_decide_eq_true ha'.2, hr⟩
    · cases hr
  obtain ⟨i, hi⟩ := List.mem_iff_getElem?.mp hf
  have hex : ∃ c ∈ rawAttrs L user d as, ∃ m, c.2 = .err m := by
    refine ⟨(i, .err e), ?_, e, rfl⟩
    unfold rawAttrs
    refine List.mem_flatten.mpr ⟨_, List.mem_map.mpr ⟨(f, i), List.mem_zipIdx_iff_getElem?.mpr hi, rfl⟩, ?_⟩
    refine List.mem_map.mpr ⟨.err e, ?_, rfl⟩
    unfold attrInputs
    rw [if_pos ha]
    exact List.mem_flatMap.mpr ⟨a, List.mem_filter.mpr ⟨haa, decide_eq_true hname⟩, hbad⟩
  obtain ⟨c, hc, e', he', hcol⟩ := collectRaw_first_err (cs' := []) hex (fun c hc => by
    obtain ⟨f', h1, h2, a', h3, h4, h⟩ := hmem c hc
    by_cases hq : ∃ q, f'.ty.core = .struct q
    · obtain ⟨q, hq⟩ := hq
      have hw : ∃ w ∈ f'.ty.attrTexts a'.value, c.2 = user q w := by
        revert h hq
        unfold attrWords FTy.attrTexts FTy.core
        split <;> rintro h hq <;> simp_all
        obtain ⟨w, hw, h⟩ := h
        exact ⟨w, hw, h.symm⟩
      obtain ⟨w, hw, hcw⟩ := hw
      rw [hcw]
      exact (huser f' h1 h2 q hq a' h3 h4 w hw).2
    · exact attrWords_ok_or_err L _ _ _ (fun q h => hq ⟨q, h⟩) _ h)
  rw [List.append_nil, ← attrContribs_raw] at hcol
  refine ⟨e', ?_, ?_⟩
  · obtain ⟨N, hN⟩ := common_budget L env user
      ((userTexts d as).filter fun x => decide (∃ f' ∈ d.fields, f'.attrs.isAttr = true ∧ f'.ty.core = .struct x.1 ∧ ∃ a' ∈ as,
        a'.name.loc = f'.attrs.rename.getD f'.ident ∧ x.2 ∈ f'.ty.attrTexts a'.value)) (by
      rintro ⟨q, w⟩ hx
      obtain ⟨f', h1, h2, h3, a', h4, h5, h6⟩ := of_decide_eq_true (List.mem_filter.mp hx).2
      exact (huser f' h1 h2 q h3 a' h4 h5 w h6).1)
    refine ⟨by simp, N + 2, ?_⟩
    have hat := at_new' (L.parse s)
    rw [hdoc] at hat
    obtain ⟨rd1, h1, a1⟩ := peek_at hat
    unfold deFromStr fromStr deser
    rw [hp]
    dsimp only
    unfold structDeser
    rw [bind_ok h1, bind_get, a1.depth]
    unfold structBody
    dsimp only [startInfo]
    rw [if_pos rfl, nsMatching_ok hns, bind_ok (a := ()) (s' := rd1) (by rfl), slotsFrom_init d.fields 0]
    have hl : Runs (structLoop L (deser L env (N + 1)) (N + 1) d n.loc 0 (N + 1) ⟨0, slotsFrom [] d.fields 0, some {}⟩ rd1)
        (.err e' : Res Unit) fun _ _ _ => True := by
      obtain ⟨rd2, h2, a2⟩ := peek_at a1
      have hs := structStart_own L (deser L env (N + 1)) user (N + 1) d hplain hroot (w := some {}) (by
        intro f' h1 h2 q hq a' h3 h4 w hw
        obtain ⟨hr, hre⟩ := huser f' h1 h2 q hq a' h3 h4 w hw
        refine ⟨hN (N + 1) (by omega) (q, w) ?_, hr.1⟩
        rw [List.mem_filter]
        refine ⟨?_, decide_eq_true ⟨f', h1, h2, hq, a', h3, h4, hw⟩⟩
        unfold userTexts
        refine List.mem_flatMap.mpr ⟨f', h1, List.mem_flatMap.mpr ⟨a', h3, ?_⟩⟩
        rw [hq]
        exact List.mem_map.mpr ⟨w, hw, rfl⟩) a2
      rw [hcol] at hs
      obtain ⟨rd3, h3⟩ := hs
      refine ⟨rd3, ?_⟩
      unfold structLoop
      refine bind_err ?_
      unfold structStep
      rw [bind_ok h2]
      dsimp only
      exact bind_err h3
    obtain ⟨rd3, h3⟩ := hl
    rw [bind_err h3]
  · obtain ⟨f', h1, h2, a', h3, h4, h5⟩ := hmem c hc
    rw [he'] at h5
    exact ⟨f', h1, h2, a', h3, h4, h5⟩

open Sample in
/-- The rest of the document may be anything, here elements that do not conform. -/
example : ∃ e', Returns Tests.lib env [c!"Book"] c!"<book id=\"70000000000\"><title>x<id>7</id></title><color><x><Grey/></x></color></book>"
    (.err e') :=
  (C15_malformed_attribute Tests.lib env [c!"Book"] book env_book (plain_of_check (by decide)) _ ⟨c!"book", none, none⟩
    [⟨⟨c!"id", none, none⟩, c!"70000000000"⟩] []
    (content (Tests.lib.parse c!"<book id=\"70000000000\"><title>x<id>7</id></title><color><x><Grey/></x></color></book>").evs).tail
    (by decide +kernel) (by decide) (.inr rfl) (fun _ _ => .diverge) (by
      intro f hf h1 q hq
      simp only [book, List.mem_cons, List.not_mem_nil, or_false] at hf
      rcases hf with rfl | rfl | rfl | rfl | rfl | rfl | rfl | rfl | rfl <;>
        simp [Tests.F, FTy.core, Tests.S, Tests.I, Tests.O, Tests.V, Tests.T, Tests.attr] at h1 hq)
    _ (List.mem_cons_self ..) rfl _ (List.mem_cons_self ..) rfl _ (List.mem_cons_self ..)).imp fun _ h => h.1

/-! ### Documents that do not conform -/

namespace Leaky
open Tests Sample

/-- `struct A { #[attribute] k: Option<String>, n: Option<i32>, m: Option<i32>, t: Option<T>, v: Vec<T> }`,
`struct T { w: Option<i32> }`. -/
def sA : StructDef :=
  { name := c!"A", fields := [F c!"k" (O Tests.S) attr, F c!"n" (O (I .i32)), F c!"m" (O (I .i32)), F c!"t" (O (T c!"T")),
      F c!"v" (V (T c!"T"))] }
def sT : StructDef := { name := c!"T", fields := [F c!"w" (O (I .i32))] }
def env : Env := envOf [([c!"A"], .struct sA), ([c!"T"], .struct sT)]

/-- `<n>1<x/></n>`: a scalar child with an element in it. -/
def bad : Node := el c!"n" [tx c!"1", el c!"x" []]

def nA : Name := ⟨c!"A", none, none⟩

end Leaky

open Tests Sample Leaky

/-- **C08 is false** of documents in which the element of a field of a derived type has the name of a field of that type:
`<N><kids><p q="a" /></kids></N>` as an `N` (see `C50_false`). -/
theorem C08_false : ∃ (L : Lib) (env : Env) (p : Path) (d : StructDef) (s : Str) (n : Name) (as : List Attr) (m : NsMap) (ks : List Node)
    (vs : List Val), XmlLaw L ∧ env p = some (.struct d) ∧ d.Plain ∧ nsOk d.attrs n ∧ IsDoc (L.parse s) (.elem n as m ks) ∧
      (∀ k, decodeDocN L env k (.elem n as m ks) p = .ok (.struct vs)) ∧ ∃ r, Returns L env p s r ∧ r ≠ .ok (.struct vs) :=
  ⟨lib, recursive, [c!"N"], { name := c!"N", fields := [F c!"kids" (V (T c!"N")), F c!"p" (O (T c!"P"))] },
    c!"<N><kids><p q=\"a\" /></kids></N>", ⟨c!"N", none, none⟩, [], [], [el c!"kids" [elA c!"p" [(c!"q", c!"a")] []]],
    [.vec [.struct [.vec [], .some (.struct [.str c!"a"])]], .none], xml, rfl, plain_of_check (by decide), by decide,
    ⟨[], by decide +kernel⟩, fun k => by cases k <;> rfl,
    .ok (.struct [.vec [.struct [.vec [.struct [.vec [], .none]], .none]], .none]), returns_of_deOk (by decide +kernel), by simp⟩

/-- **C09 is false** of documents with an element inside a scalar: after `<n>1<x/></n>` the unknown element `<y>` is not
skipped, and its child `<m>7</m>` is taken for a child of `<A>`. -/
theorem C09_false : ∃ (L : Lib) (env : Env) (p : Path) (s t : Str) (x y : Node) (v v' : Val), XmlLaw L ∧ IsDoc (L.parse s) x ∧
    IsDoc (L.parse t) y ∧ Within env InsertUnknown p x y ∧ Returns L env p s (.ok v) ∧ Returns L env p t (.ok v') ∧ v ≠ v' :=
  ⟨lib, Leaky.env, [c!"A"], c!"<A><n>1<x/></n></A>", c!"<A><n>1<x/></n><y><m>7</m></y></A>", el c!"A" [bad],
    el c!"A" [bad, el c!"y" [el c!"m" [tx c!"7"]]], .struct [.none, .none, .none, .none, .vec []],
    .struct [.none, .none, .some (.int 7), .none, .vec []], xml, ⟨[], by decide +kernel⟩, ⟨[], by decide +kernel⟩,
    .here (d := Leaky.sA) rfl ⟨_, _, _, [bad], [], ⟨c!"y", none, none⟩, [], [], [el c!"m" [tx c!"7"]], rfl, rfl, by decide, by decide⟩,
    returns_of_deOk (by decide +kernel), returns_of_deOk (by decide +kernel), by simp⟩

/-- **C10 is false** of them: the attribute of `<y k='7'/>` counts if it comes after `<n>1<x/></n>`. -/
theorem C10_false : ∃ (L : Lib) (env : Env) (p : Path) (s t : Str) (x y : Node) (v v' : Val), XmlLaw L ∧ IsDoc (L.parse s) x ∧
    IsDoc (L.parse t) y ∧ Within env Permuted p x y ∧ Returns L env p s (.ok v) ∧ Returns L env p t (.ok v') ∧ v ≠ v' := by
  refine ⟨lib, Leaky.env, [c!"A"], c!"<A><y k='7'/><n>1<x/></n></A>", c!"<A><n>1<x/></n><y k='7'/></A>",
    el c!"A" [elA c!"y" [(c!"k", c!"7")] [], bad], el c!"A" [bad, elA c!"y" [(c!"k", c!"7")] []],
    .struct [.none, .none, .none, .none, .vec []],
    .struct [.some (.str c!"7"), .none, .none, .none, .vec []], xml, ⟨[], by decide +kernel⟩, ⟨[], by decide +kernel⟩,
    .here (d := Leaky.sA) rfl ⟨_, _, _, _, _, rfl, rfl, List.Perm.swap .., ?_, ?_⟩,
    returns_of_deOk (by decide +kernel), returns_of_deOk (by decide +kernel), by simp⟩
  · intro l
    by_cases h1 : (elA c!"y" [(c!"k", c!"7")] []).label = l
    · by_cases h2 : bad.label = l
      · rw [← h2] at h1; exact absurd h1 (by decide)
      · simp only [List.filter_cons, List.filter_nil, h1, h2]; rfl
    · simp only [List.filter_cons, List.filter_nil, h1, decide_false]; rfl
  · rintro cn cas cm cks - f hf ht
    simp only [Leaky.sA, List.mem_cons, List.not_mem_nil, or_false] at hf
    rcases hf with rfl | rfl | rfl | rfl | rfl <;> cases ht

/-- **C11 is false** of them: `<v/>` after `<n>1<x/></n>` is not read. -/
theorem C11_false : ∃ (L : Lib) (env : Env) (p q : Path) (d : StructDef) (f : FieldDef) (s : Str) (n : Name) (as : List Attr)
    (m : NsMap) (ks : List Node) (vs : List Val) (w : Val), XmlLaw L ∧ env p = some (.struct d) ∧ d.Plain ∧
      IsDoc (L.parse s) (.elem n as m ks) ∧ d.fields[4]? = some f ∧ f.isElem = true ∧ f.ty = .vec (.struct q) ∧
      (matching d 4 ks).map (fun c => decodeN L env 0 c q) = [.ok w] ∧
      Returns L env p s (.ok (.struct vs)) ∧ vs[4]? = some (.vec []) :=
  ⟨lib, Leaky.env, [c!"A"], [c!"T"], Leaky.sA, F c!"v" (V (T c!"T")), c!"<A><n>1<x/></n><v/></A>", nA, [], [],
    [bad, el c!"v" []], [.none, .none, .none, .none, .vec []], .struct [.none], xml, rfl, plain_of_check (by decide),
    ⟨[], by decide +kernel⟩, rfl, rfl, rfl, rfl, returns_of_deOk (by decide +kernel), rfl⟩

/-- **C12 is false** of them: the last `<t>` is not read. -/
theorem C12_false : ∃ (L : Lib) (env : Env) (p q : Path) (d : StructDef) (f : FieldDef) (s : Str) (n : Name) (as : List Attr)
    (m : NsMap) (ks : List Node) (vs : List Val) (w w' : Val), XmlLaw L ∧ env p = some (.struct d) ∧ d.Plain ∧
      IsDoc (L.parse s) (.elem n as m ks) ∧ d.fields[3]? = some f ∧ f.isElem = true ∧ f.ty = .opt (.struct q) ∧
      (matching d 3 ks).map (fun c => decodeN L env 0 c q) = [.ok w', .ok w] ∧
      Returns L env p s (.ok (.struct vs)) ∧ vs[3]? = some (.some w') ∧ w ≠ w' :=
  ⟨lib, Leaky.env, [c!"A"], [c!"T"], Leaky.sA, F c!"t" (O (T c!"T")), c!"<A><t><w>1</w></t><n>1<x/></n><n>1<x/></n><t/></A>", nA, [], [],
    [el c!"t" [el c!"w" [tx c!"1"]], bad, bad, el c!"t" []], [.none, .none, .none, .some (.struct [.some (.int 1)]), .vec []],
    .struct [.none], .struct [.some (.int 1)], xml, rfl, plain_of_check (by decide),
    ⟨[], by decide +kernel⟩, rfl, rfl, rfl, rfl, returns_of_deOk (by decide +kernel), rfl, by simp⟩

/-- **C13 is false** of them: the attribute field `k` takes its value from a child. -/
theorem C13_false : ∃ (L : Lib) (env : Env) (p : Path) (d : StructDef) (f : FieldDef) (s : Str) (n : Name)
    (m : NsMap) (ks : List Node) (vs : List Val) (w : Val), XmlLaw L ∧ env p = some (.struct d) ∧ d.Plain ∧
      IsDoc (L.parse s) (.elem n [] m ks) ∧ d.fields[0]? = some f ∧ f.attrs.isAttr = true ∧ f.attrs.text = false ∧
      Returns L env p s (.ok (.struct vs)) ∧ vs[0]? = some (.some w) :=
  ⟨lib, Leaky.env, [c!"A"], Leaky.sA, F c!"k" (O Tests.S) attr, c!"<A><n>1<x/></n><y k='7'/></A>", nA, [],
    [bad, elA c!"y" [(c!"k", c!"7")] []], [.some (.str c!"7"), .none, .none, .none, .vec []], .str c!"7",
    xml, rfl, plain_of_check (by decide), ⟨[], by decide +kernel⟩, rfl, rfl, rfl, returns_of_deOk (by decide +kernel), rfl⟩

/-- **C14 is false** of them: there is no `<m>` in the element, but one further inside that counts. -/
theorem C14_false : ∃ (L : Lib) (env : Env) (p : Path) (d : StructDef) (f : FieldDef) (t : FTy) (s : Str) (n : Name) (as : List Attr)
    (m : NsMap) (ks : List Node) (vs : List Val) (w : Val), XmlLaw L ∧ env p = some (.struct d) ∧ d.Plain ∧
      IsDoc (L.parse s) (.elem n as m ks) ∧ d.fields[2]? = some f ∧ f.ty = .opt t ∧ Absent d 2 f as ks ∧
      Returns L env p s (.ok (.struct vs)) ∧ vs[2]? = some (.some w) :=
  ⟨lib, Leaky.env, [c!"A"], Leaky.sA, F c!"m" (O (I .i32)), I .i32, c!"<A><n>1<x><m>7</m></x></n></A>", nA, [], [],
    [el c!"n" [tx c!"1", el c!"x" [el c!"m" [tx c!"7"]]]], [.none, .none, .some (.int 7), .none, .vec []], .int 7,
    xml, rfl, plain_of_check (by decide), ⟨[], by decide +kernel⟩, rfl, rfl, ⟨nofun, rfl, nofun, .inr rfl⟩,
    returns_of_deOk (by decide +kernel), rfl⟩

/-- **C16 is false** for structs with flattened fields: with `<n>zz</n>` the document is rejected, without it is not. -/
theorem C16_false : ∃ (L : Lib) (env : Env) (p : Path) (s t : Str) (x y : Node) (e : Str) (v : Val), XmlLaw L ∧ IsDoc (L.parse s) x ∧
    IsDoc (L.parse t) y ∧ Within env (RemoveMalformed L) p x y ∧ Returns L env p s (.err e) ∧ Returns L env p t (.ok v) :=
  ⟨lib, FlatSample.env, [c!"A"], c!"<A k='q'><n>zz</n><x>7</x></A>", c!"<A k='q'><x>7</x></A>",
    elA c!"A" [(c!"k", c!"q")] [el c!"n" [tx c!"zz"], el c!"x" [tx c!"7"]], elA c!"A" [(c!"k", c!"q")] [el c!"x" [tx c!"7"]],
    c!"b is a required field of A", .struct [.none, .struct [.str c!"q", .int 7], .none], xml,
    ⟨[], by decide +kernel⟩, ⟨[], by decide +kernel⟩,
    .here (d := FlatSample.sA) rfl ⟨_, _, _, [], [el c!"x" [tx c!"7"]], _, _, _, _, 0, F c!"n" (O (I .i32)), .int .i32, rfl, rfl,
      by decide, rfl, rfl, .inr ⟨c!"zz", _, rfl, rfl⟩⟩,
    returns_of_deErr (by decide +kernel), returns_of_deOk (by decide +kernel)⟩

/-- **C21 is false** of content in which a variant is named further inside: `<color><x><Grey>1</Grey></x></color>` is not
the default. -/
theorem C21_false : ∃ (L : Lib) (env : Env) (p q : Path) (d : StructDef) (e : EnumDef) (f : FieldDef) (s : Str) (n cn : Name) (as : List Attr)
    (m : NsMap) (pre cks : List Node) (vs : List Val) (w : Val), XmlLaw L ∧ env p = some (.struct d) ∧ d.Plain ∧
      IsDoc (L.parse s) (.elem n as m (pre ++ [.elem cn [] [] cks])) ∧ d.fields[5]? = some f ∧ f.isElem = true ∧ f.ty = .struct q ∧
      env q = some (.enum e) ∧ d.fieldFor cn = some 5 ∧ e.variantOf cn [] = none ∧
      (∀ c ∈ cks, e.variantFor (match c with | .text t => t | .elem cn _ _ _ => cn.loc) = none) ∧
      Returns L env p s (.ok (.struct vs)) ∧ vs[5]? = some w ∧ w ≠ e.dflt :=
  ⟨lib, Sample.env, [c!"Book"], [c!"Color"], book, color, F c!"color" (T c!"Color"),
    c!"<book id=\"7\"><title>T</title><color><x><Grey>1</Grey></x></color></book>", ⟨c!"book", none, none⟩, ⟨c!"color", none, none⟩,
    [⟨⟨c!"id", none, none⟩, c!"7"⟩], [], [el c!"title" [tx c!"T"]], [el c!"x" [el c!"Grey" [tx c!"1"]]],
    [.int 7, .vec [], .str c!"T", .vec [], .vec [], .enum 3 [.int 1], .none, .none, .int 5], .enum 3 [.int 1],
    xml, rfl, plain_of_check (by decide), ⟨[], by decide +kernel⟩, rfl, rfl, rfl, rfl, by decide, by decide, by decide,
    returns_of_deOk (by decide +kernel), rfl, by simp [color]⟩

end Yaserde
