import Verif.Proofs.Frames
import Verif.Props.Counter
import Verif.Props.Total
/-
Property C82: how deeply the calls of the generated `deserialize` functions are nested.
-/

set_option autoImplicit false
set_option maxRecDepth 100000

namespace Yaserde

/-- C82, types that do not contain themselves: the calls are never nested more deeply than the types, whatever the document —
well-formed or not, conforming or not, however deeply nested. -/
theorem C82_acyclic (L : Lib) (env : Env) (rank : Path → Nat) (he : Acyclic env rank) (p : Path) (s : Str) (k : Nat) (hk : rank p < k) :
    FramesSuffice L env k p s :=
  suffice fun fuel b b' k' hk' => by rw [deserB_acyclic L he fuel b b' (rank p) p k k' rfl hk (by omega)]

/-- C82, types that contain themselves (but not an enum itself as its own payload; without flattened fields, and with scalar attributes):
no more deeply than linearly in the number of events of the document. -/
theorem C82_linear (L : Lib) (env : Env) (rank : Path → Nat) (bound : Nat) (he : Ranked env rank bound) (p : Path) (s : Str) (k : Nat)
    (hk : (L.parse s).evs.length * (bound + 1) + rank p < k) : FramesSuffice L env k p s := by
  refine suffice fun fuel b b' k' hk' => ?_
  have hmu : (Rd.new (L.parse s)).mu ≤ (L.parse s).evs.length := by
    unfold Rd.mu
    rw [(at_new (L.parse s)).vis]
    exact Nat.le_trans List.countP_le_length (List.length_filter_le ..)
  rw [(deserB_ranked L he fuel b b' (L.parse s).evs.length (rank p) p k k' rfl hk (by omega) _ hmu).1]

/-! ### A type that contains itself -/

namespace Nested

/-- `#[derive(YaDeserialize)] #[yaserde(rename = "node")] struct Node { node: Vec<Node> }` -/
def d : StructDef where
  name := c!"Node"
  attrs := { rename := some c!"node" }
  fields := [{ ident := c!"node", ty := .vec (.struct [c!"Node"]) }]

def program : Env := fun p => if p = [c!"Node"] then some (.struct d) else none

/-- `<node>` inside `<node>` inside …, `m` + 1 of them. -/
def nest : Nat → Node
  | 0 => .elem ⟨c!"node", none, none⟩ [] [] []
  | m + 1 => .elem ⟨c!"node", none, none⟩ [] [] [nest m]

/-- The value it stands for. -/
def value : Nat → Val
  | 0 => .struct [.vec []]
  | m + 1 => .struct [.vec [value m]]

theorem fieldFor_node : d.fieldFor ⟨c!"node", none, none⟩ = some 0 := by decide

theorem nest_name (m : Nat) : (nest m).name = ⟨c!"node", none, none⟩ := by cases m <;> rfl

theorem nest_ok (m : Nat) : d.KidOk (nest m) := by
  cases m <;>
  · refine ⟨by simp, fun i f t h1 h2 h3 => ?_⟩
    rw [fieldFor_node] at h1
    cases h1
    cases h2
    cases h3

theorem plain : d.Plain := by
  constructor <;> intro f hf <;> simp only [d, List.mem_cons, List.not_mem_nil, or_false] at hf <;> subst hf <;> simp [FTy.core]

/-- What reading it on `k` frames gives. -/
def outcome (k m : Nat) : Res Val := if m < k then .ok (value m) else .panic c!"stack overflow"

theorem reads (L : Lib) (base : D Val) (m : Nat) : ∀ (k fuel : Nat), m < k ∨ base = M.panic c!"stack overflow" → (nest m).events.length < fuel → ∀ (dep : Nat) (rest : List REv) (fin : Option Str)
    (rd : Rd), At dep ((nest m).events ++ rest) fin rd →
    Runs (deserB L program fuel base k [c!"Node"] rd) (outcome k m) fun v b rd' => b = v ∧ At (dep + 1) (.endE ⟨c!"node", none, none⟩ :: rest) fin rd' := by
  induction m with
  | zero =>
    intro k fuel hb hf dep rest fin rd hat
    cases k with
    | zero =>
      obtain rfl := hb.resolve_left (by omega)
      exact ⟨rd, rfl⟩
    | succ k =>
      obtain ⟨rd1, hpk, a1⟩ := peek_at (show At dep (.start ⟨c!"node", none, none⟩ [] [] :: ([.endE ⟨c!"node", none, none⟩] ++ rest)) fin rd from hat)
      have h := structBody_by L (fun _ _ => .err []) (fun _ _ => .err []) (deserB L program fuel base k) fuel d (own := ⟨c!"node", none, none⟩)
        (as := []) (m := []) (ks := []) plain rfl (.inl ⟨rfl, rfl⟩) (fun _ h => by cases h) (fun _ h => by cases h)
        (fun _ _ _ _ _ _ h => by cases h) (by simp [nest, Node.events, Node.eventsL] at hf ⊢; omega) (dep := dep) (rest := rest) (fin := fin) (rd := rd1)
        (fun _ _ h => by cases h) a1
      show Runs (structDeser L (deserB L program fuel base k) fuel d rd) _ _
      unfold structDeser
      rw [bind_ok hpk, bind_get, a1.depth]
      exact h
  | succ m ih =>
    intro k fuel hb hf dep rest fin rd hat
    cases k with
    | zero =>
      obtain rfl := hb.resolve_left (by omega)
      exact ⟨rd, rfl⟩
    | succ k =>
      have hlen : (nest (m + 1)).events.length = (nest m).events.length + 2 := by simp [nest, Node.events, Node.eventsL]
      obtain ⟨rd1, hpk, a1⟩ := peek_at (show At dep (.start ⟨c!"node", none, none⟩ [] [] :: (Node.eventsL [nest m] ++ [.endE ⟨c!"node", none, none⟩] ++ rest))
        fin rd by simpa [nest, Node.events] using hat)
      have h := structBody_by L (fun _ _ => outcome k m) (fun _ _ => .err []) (deserB L program fuel base k) fuel d (own := ⟨c!"node", none, none⟩)
        (as := []) (m := []) (ks := [nest m]) plain rfl (.inl ⟨rfl, rfl⟩) (fun x h => by rw [List.mem_singleton.mp h]; exact nest_ok m)
        (by
          rintro x hx name as ms kids q rfl hq
          have hx := List.mem_singleton.mp hx
          have hn : name = ⟨c!"node", none, none⟩ := by rw [← nest_name m, ← hx]; rfl
          have hq : q = [c!"Node"] := by
            obtain ⟨i, f, h1, h2, h3⟩ := hq
            rw [hx, nest_name, fieldFor_node] at h1
            cases h1
            cases h2
            cases h3
            rfl
          subst hq hn
          rw [hx]
          exact ⟨[], .inl rfl, fun dep' rest' fin' rd' _ hat' => ih k fuel (hb.imp_left (by omega)) (by omega) dep' rest' fin' rd' hat'⟩)
        (fun _ _ _ _ _ _ h => by cases h) (by simp [Node.eventsL]; omega) (dep := dep) (rest := rest) (fin := fin) (rd := rd1)
        (fun _ _ h => by cases h) (by simpa [Node.events] using a1)
      show Runs (structDeser L (deserB L program fuel base k) fuel d rd) _ _
      unfold structDeser
      rw [bind_ok hpk, bind_get, a1.depth]
      have ho : decodeStruct L (attrsBy fun _ _ => .err []) d ⟨c!"node", none, none⟩ [] [] [nest m] ([nest m].map fun _ _ => outcome k m) =
          outcome (k + 1) (m + 1) := by
        have hk : kidContribs L d [nest m] ([nest m].map fun _ _ => outcome k m) = (outcome k m).bind fun v => .ok [(0, v)] := by
          have : kidContrib L d (fun _ => outcome k m) (nest m) = (outcome k m).bind fun v => .ok [(0, v)] := by
            cases m <;> rfl
          unfold kidContribs
          simp only [List.map_cons, List.map_nil, List.zip_cons_cons, List.zip_nil_right, Res.collect]
          rw [this]
          cases outcome k _ <;> rfl
        unfold decodeStruct
        rw [hk]
        unfold outcome
        by_cases hm : m < k
        · rw [if_pos hm, if_pos (by omega)]; rfl
        · rw [if_neg hm, if_neg (by omega)]; rfl
      rw [ho] at h
      exact h

end Nested

open Nested in
/-- C82, a type that contains itself: a document nested `m` levels deep needs as many frames — with fewer the program is killed, with
more it gets the value. -/
theorem C82_overflow (L : Lib) (m : Nat) (s : Str) (hdoc : IsDoc (L.parse s) (nest m)) :
    Returns L program [c!"Node"] s (.ok (value m)) ∧
    (∀ k, k ≤ m → Overflows L program k [c!"Node"] s) ∧ ∀ k, m < k → FramesSuffice L program k [c!"Node"] s := by
  obtain ⟨post, hpost⟩ := hdoc
  have hat := at_new' (L.parse s)
  rw [hpost] at hat
  have run : ∀ k fuel, (nest m).events.length < fuel → fromStrF L program k fuel [c!"Node"] s = outcome k m := by
    intro k fuel hf
    have := reads L _ m k fuel (.inr rfl) hf 0 post _ _ hat
    unfold fromStrF fromStr
    rw [deserF_eq]
    unfold outcome at this ⊢
    split at this
    · rename_i h
      obtain ⟨v, rd', h1, rfl, -⟩ := this
      rw [h1, if_pos h]
    · rename_i h
      obtain ⟨rd', h1⟩ := this
      rw [h1, if_neg h]
  have hret : Returns L program [c!"Node"] s (.ok (value m)) := by
    refine ⟨by simp, m + 1 + ((nest m).events.length + 1), ?_⟩
    have := reads L M.diverge m (m + 1) ((nest m).events.length + 1) (.inl (by omega)) (by omega) 0 post _ _ hat
    rw [outcome, if_pos (by omega)] at this
    obtain ⟨v, rd', h1, rfl, -⟩ := this
    unfold deFromStr fromStr
    rw [(deserB_le L program (m + 1) ((nest m).events.length + 1) [c!"Node"]).imp _ (by rw [h1]; simp), h1]
  refine ⟨hret, fun k hk => ⟨(nest m).events.length + 1, fun fuel hf => ?_⟩, fun k hk r hr => ?_⟩
  · rw [run k fuel (by omega), outcome, if_neg (by omega)]
  · have e1 : (∃ fuel, fromStrF L program k fuel [c!"Node"] s = r) ↔ r = .ok (value m) := by
      constructor
      · rintro ⟨fuel, h⟩
        have h1 := run k (max fuel ((nest m).events.length + 1)) (by omega)
        unfold fromStrF fromStr at h h1
        rw [deserF_eq] at h h1
        rw [(deserB_mono L program (Nat.le_max_left fuel ((nest m).events.length + 1)) _ k [c!"Node"]).imp _ (by rw [h]; exact hr), h] at h1
        rw [h1, outcome, if_pos hk]
      · rintro rfl
        exact ⟨_, by rw [run k ((nest m).events.length + 1) (by omega), outcome, if_pos hk]⟩
    rw [e1]
    obtain ⟨-, n, hn⟩ := hret
    constructor
    · rintro rfl; exact ⟨n, hn⟩
    · rintro ⟨n', hn'⟩
      have h1 := (C27_budget_irrelevant L program [c!"Node"] s).1 n (max n n') (Nat.le_max_left ..) (by rw [hn]; simp)
      have h2 := (C27_budget_irrelevant L program [c!"Node"] s).1 n' (max n n') (Nat.le_max_right ..) (by rw [hn']; exact hr)
      rw [← hn', ← h2, h1, hn]

namespace Nested
open Spell

/-- The text `<node>…<node/>…</node>`. -/
def text : Nat → Str
  | 0 => c!"<node/>"
  | m + 1 => c!"<node>" ++ text m ++ c!"</node>"

theorem spelled_elem (m : Nat) : Elem [] (nest m) (text m) := by
  have blank : Blank [] := by simp [Blank]
  have tag : Tag [] [] c!"node" [] ⟨c!"node", none, none⟩ [] := Wrap.tag c!"node" (by decide) (by decide)
  induction m with
  | zero => exact .empty (raw := c!"node") (sa := []) (w := []) .nil blank tag
  | succ m ih =>
    have h := Elem.full (raw := c!"node") (sa := []) (w := []) (w' := []) .nil blank tag
      (Content.elem (run := []) (s' := []) ih .nil) blank
    simpa [text, nest, show textRun [] = [] from rfl] using h

theorem isDoc (m : Nat) : IsDoc (Tests.lib.parse (text m)) (nest m) :=
  ⟨[], by
    have h : Doc (nest m) (text m) := by simpa using Doc.mk .nil (spelled_elem m) .nil
    show content (XmlText.parse (text m)).evs = _
    rw [C74_parse h, List.append_nil]
    exact content_node _⟩

end Nested

open Nested in
/-- C82: for that type no number of frames is enough for all documents. -/
theorem C82_unbounded (k : Nat) : ∃ s v, Returns Tests.lib program [c!"Node"] s (.ok v) ∧ Overflows Tests.lib program k [c!"Node"] s := by
  obtain ⟨h1, h2, -⟩ := C82_overflow Tests.lib k (text k) (isDoc k)
  exact ⟨text k, value k, h1, h2 k (Nat.le_refl _)⟩

/-! ### Examples -/

namespace Nested

example : text 2 = c!"<node><node><node/></node></node>" := by decide

theorem ranked : Ranked program (fun _ => 0) 0 := by
  refine ⟨fun _ => Nat.le_refl _, fun p x h => ?_, fun p x h => ?_, fun p x h => ?_⟩ <;> unfold program at h <;> split at h <;> cases h
  · decide
  · intro f hf ha
    simp only [d, List.mem_cons, List.not_mem_nil, or_false] at hf
    subst hf
    cases ha

/-- Whatever the text, as many frames as there are events in it are enough. -/
example (s : Str) : FramesSuffice Tests.lib program ((Tests.lib.parse s).evs.length + 1) [c!"Node"] s :=
  C82_linear _ _ _ _ ranked _ _ _ (by omega)

end Nested

namespace Sample
open Tests

def depth2 (p : Path) : Nat := if p = [c!"Book"] then 2 else if p = [c!"Color"] then 1 else 0

theorem acyclic2 : Acyclic env2 depth2 := by
  intro p t h q hq
  rcases env2_cases h with ⟨rfl, rfl⟩ | ⟨rfl, rfl⟩ | ⟨rfl, rfl⟩
  · obtain ⟨f, hf, hc⟩ := hq
    simp only [author, List.mem_cons, List.not_mem_nil, or_false] at hf
    rcases hf with rfl | rfl <;> cases hc
  · obtain ⟨v, hv, t, ht, hc⟩ := hq
    simp only [color2, List.mem_cons, List.not_mem_nil, or_false] at hv
    rcases hv with rfl | rfl | rfl | rfl <;> cases ht <;> cases hc <;> decide
  · obtain ⟨f, hf, hc⟩ := hq
    simp only [book, List.mem_cons, List.not_mem_nil, or_false] at hf
    rcases hf with rfl | rfl | rfl | rfl | rfl | rfl | rfl | rfl | rfl <;> cases hc <;> decide

/-- The sample program needs three frames for any text. -/
example (s : Str) : FramesSuffice lib env2 3 [c!"Book"] s := C82_acyclic _ _ _ acyclic2 _ _ _ (by decide)

end Sample

end Yaserde
