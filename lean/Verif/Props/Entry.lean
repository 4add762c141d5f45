import Verif.Proofs.Entry
import Verif.Props.RuntimeGen
/-
C89: the functions that a program calls, and the constructors of `Serializer` and `Deserializer`, as the programs of `/repo/yaserde/src`,
do what the model says they do.
-/

set_option autoImplicit false
set_option maxRecDepth 100000

namespace Yaserde

/-- **C89.** `serialize_with_writer`: `serialize` is run once, on a new serializer; what it has written comes after what was there; its
failure is returned.  `W` is some writer, any of whose writes may fail. -/
theorem C89_with_writer (L : Lib) (ser : Path → Val → S Unit) (p : Path) (v : Val) (k : Rs.Sink) (c : Config) :
    Rs.callSer L ser (Rs.serializeWithWriterE p) [(.rt_model, .val v), (.writer, .sink k), (.rt_config, .val (Rs.configVal c))] =
    match ser p v { writer := { out := [], opened := [], calls := 0, io := k.io }, skip := false, startName := none } with
    | (.ok (), t) => .ok (.sink
        { text := k.text ++ L.emit { indent := if c.performIndent then some (c.indentString.getD c!"  ") else none, decl := c.writeDecl } t.writer.out,
          io := fun n => k.io (t.writer.calls + n) })
    | (.err m, _) => .err m
    | (.panic m, _) => .panic m
    | (.diverge, _) => .diverge :=
  Rs.callSer_with_writer L ser p v k c

/-- **C89.** `serialize_with_writer_content`: the same, without the tags of the value and without the XML declaration; never indented. -/
theorem C89_with_writer_content (L : Lib) (ser : Path → Val → S Unit) (p : Path) (v : Val) (k : Rs.Sink) :
    Rs.callSer L ser (Rs.serializeWithWriterContentE p) [(.rt_model, .val v), (.writer, .sink k)] =
    match ser p v { writer := { out := [], opened := [], calls := 0, io := k.io }, skip := true, startName := none } with
    | (.ok (), t) => .ok (.sink { text := k.text ++ L.emit { indent := none, decl := false } t.writer.out, io := fun n => k.io (t.writer.calls + n) })
    | (.err m, _) => .err m
    | (.panic m, _) => .panic m
    | (.diverge, _) => .diverge :=
  Rs.callSer_with_writer_content L ser p v k

/-- **C89.** `to_string_with_config`, where `serialize` is the one of the model. -/
theorem C89_to_string_with_config (L : Lib) (env : Env) (c : Config) (p : Path) (v : Val) :
    Rs.textOf (Rs.callSer L (serTy L env) (Rs.toStringWithConfigE p) [(.rt_model, .val v), (.rt_config, .val (Rs.configVal c))]) =
    toStringWithConfig L env c p v := by
  rw [Rs.callSer_to_string_with_config]
  unfold toStringWithConfig serializeWithWriter
  have : Sr.new { io := fun _ => none } = Sr.new {} := rfl
  rw [this]
  rcases serTy L env p v (Sr.new {}) with ⟨_ | m | m | _, t⟩ <;> rfl

/-- **C89.** `to_string`. -/
theorem C89_to_string (L : Lib) (env : Env) (p : Path) (v : Val) :
    Rs.textOf (Rs.callSer L (serTy L env) (Rs.toStringE p) [(.rt_model, .val v)]) = toString L env p v := by
  rw [Rs.callSer_to_string]
  unfold toString toStringWithConfig serializeWithWriter
  have : Sr.new { io := fun _ => none } = Sr.new {} := rfl
  rw [this]
  rcases serTy L env p v (Sr.new {}) with ⟨_ | m | m | _, t⟩ <;> rfl

/-- **C89.** `to_string_content`. -/
theorem C89_to_string_content (L : Lib) (env : Env) (p : Path) (v : Val) :
    Rs.textOf (Rs.callSer L (serTy L env) (Rs.toStringContentE p) [(.rt_model, .val v)]) = toStringContent L env p v := by
  rw [Rs.callSer_content]
  unfold toStringContent
  rcases contentOf L (serTy L env p v) with _ | m | m | _ <;> rfl

/-- **C89.** `from_reader` and `from_str`: `deserialize` is run once, on a new deserializer, at depth 0 with nothing peeked, over the
events of the text; all five settings of the parser are given, so that its defaults `P0` do not matter. -/
theorem C89_from_str (L : Lib) (P0 : Rs.ParserCfg) (P : Rs.ParserCfg → Str → Src) (rec : Path → D Val) (p : Path) (s : Str) :
    Rs.callDe L P0 P rec (Rs.fromStrE p) [(.rt_s, .str s)] = Rs.callDe L P0 P rec (Rs.fromReaderE p) [(.rt_reader, .str s)] ∧
    Rs.valOf (Rs.callDe L P0 P rec (Rs.fromStrE p) [(.rt_s, .str s)]) =
      (rec p { depth := 0, reader := P ⟨true, true, true, true, true⟩ s, peeked := none }).1 := by
  rw [Rs.callDe_from_str, Rs.callDe_from_reader]
  refine ⟨rfl, ?_⟩
  unfold Rd.new Rs.yaserdeParser
  rcases rec p ⟨0, P ⟨true, true, true, true, true⟩ s, none⟩ with ⟨_ | m | m | _, t⟩ <;> rfl

/-- `from_str::<p>(s)`, where the printed code, the run-time library and `from_str` itself are programs. -/
def allFromStr (L : Lib) (P0 : Rs.ParserCfg) (P : Rs.ParserCfg → Str → Src) (env : Env) (fuel : Nat) (p : Path) (s : Str) : Res Val :=
  Rs.valOf (Rs.callDe L P0 P (Rs.deserAll L P0 P env fuel) (Rs.fromStrE p) [(.rt_s, .str s)])

/-- `to_string_with_config(v, c)`, likewise. -/
def allToString (L : Lib) (env : Env) (fuel : Nat) (c : Config) (p : Path) (v : Val) : Res Str :=
  Rs.textOf (Rs.callSer L (Rs.serAll L env fuel) (Rs.toStringWithConfigE p) [(.rt_model, .val v), (.rt_config, .val (Rs.configVal c))])

/-- **C89.** What `from_str` returns, when everything but xml-rs and the standard library is run as a program, is what it returns in the
model, and nothing else. -/
theorem C89_returns (L : Lib) (hL : ∀ s, WellFormed (L.parse s)) (P0 : Rs.ParserCfg) (P : Rs.ParserCfg → Str → Src)
    (hP : P ⟨true, true, true, true, true⟩ = L.parse) {env : Env} (h : DerivedDe env) (p : Path) (s : Str) (r : Res Val) :
    (r ≠ .diverge ∧ ∃ n, allFromStr L P0 P env n p s = r) ↔ Returns L env p s r := by
  rw [← C85_returns L hL h]
  unfold RtReturns
  have : ∀ n, allFromStr L P0 P env n p s = rtFromStr L env n p s := by
    intro n
    unfold allFromStr rtFromStr fromStr
    rw [(C89_from_str L P0 P _ p s).2, Rs.deserAll_eq L P0 P hP, hP]
    rfl
  simp only [this]

/-- **C89.** What `to_string_with_config` returns, likewise; `n` only has to exceed the size of the value. -/
theorem C89_writes (L : Lib) {env : Env} (h : DerivedSer env) {p : Path} {v : Val} (hv : HasTy env (.struct p) v) {n : Nat}
    (hn : sizeOf v < n) (c : Config) : allToString L env n c p v = toStringWithConfig L env c p v := by
  rw [← C89_to_string_with_config]
  unfold allToString
  have : Rs.serAll L env n p v = serTy L env p v := by
    funext s
    rw [(Rs.serAll_eq L env n).1]
    exact C85_writes L h hv hn s
  rw [Rs.callSer_to_string_with_config, Rs.callSer_to_string_with_config, this]

/-- Unless indentation is on, the indent string does not matter; the declaration does. -/
theorem C89_config (L : Lib) (env : Env) (c : Config) (p : Path) (v : Val) (hc : c.performIndent = false) :
    toStringWithConfig L env c p v = toStringWithConfig L env { writeDecl := c.writeDecl } p v := by
  unfold toStringWithConfig
  simp [Config.emitCfg, hc]

namespace MacroSample
open Tests

/-- `from_str` as a program, with a parser whose defaults are all off. -/
example : ∃ n, allFromStr lib ⟨false, false, false, false, false⟩ (fun _ => lib.parse) (envOf prog) n [c!"Book"] bookText =
    .ok (.struct [.int 3, .vec [.str c!"x", .str c!"y"], .some (.int 7)]) :=
  ((C89_returns lib wf _ _ rfl derivedDe _ _ _).mpr book_reads).2

/-- The program itself, run. -/
example : (match allFromStr lib ⟨false, false, false, false, false⟩ (fun _ => lib.parse) (envOf prog) 60 [c!"Book"] bookText with
    | .ok v => v.beq (.struct [.int 3, .vec [.str c!"x", .str c!"y"], .some (.int 7)])
    | _ => false) = true := by decide +kernel

example (c : Config) : allToString lib (envOf prog) 10000 c [c!"Kind"] (.enum 1 [bookVal]) =
    toStringWithConfig lib (envOf prog) c [c!"Kind"] (.enum 1 [bookVal]) :=
  C89_writes lib derivedSer (hasTy_of_check _ _ _ rfl) (by decide) c

/-- Written after what was there, with a declaration and indented by a tab. -/
example : (match Rs.callSer lib (Rs.serAll lib (envOf prog) 20) (Rs.serializeWithWriterE [c!"Book"])
      [(.rt_model, .val bookVal), (.writer, .sink { text := c!"old " }), (.rt_config, .val (Rs.configVal ⟨true, true, some c!"\t"⟩))] with
    | .ok (.sink k) => k.text.take 31 == c!"old <?xml version=\"1.0\" encodin"
    | _ => false) = true := by decide +kernel

end MacroSample

end Yaserde
