import Verif.Proofs.SizeDe
import Verif.Proofs.SizeText
import Verif.Proofs.Clean
import Verif.Props.Bound
import Verif.Props.Spell
/-
C86: how much larger than its text the value can be that is read from it.
-/

set_option autoImplicit false
set_option maxRecDepth 100000

namespace Yaserde

/-! ### Without flattened fields: linear -/

/-- The factor: `c` bounds the constants of the program, `bound` the length of chains of enums. -/
def growth (c bound : Nat) : Nat := 2 * (c + 3) * (c + bound + 3)

theorem sum_filter_le (f : REv → Nat) (q : REv → Bool) (es : List REv) : ((es.filter q).map f).sum ≤ (es.map f).sum := by
  induction es with
  | nil => simp
  | cons e es ih =>
    rw [List.filter_cons]
    split <;> simp <;> omega

theorem growth_ge (c bound : Nat) :
    (1 + c * (c + 1) + c) + (c + 3) * (bound + 1) + 3 + (1 + c * (c + 1)) + (c + 1) ≤ growth c bound := by
  unfold growth
  have e1 : 2 * (c + 3) * (c + bound + 3) = 2 * (c * c) + 12 * c + 18 + 2 * ((c + 3) * bound) := by
    rw [Nat.mul_assoc]
    simp only [Nat.mul_add, Nat.add_mul]; omega
  have e2 : (c + 3) * (bound + 1) = (c + 3) * bound + (c + 3) := by rw [Nat.mul_add, Nat.mul_one]
  have e3 : c * (c + 1) = c * c + c := by rw [Nat.mul_add, Nat.mul_one]
  rw [e1, e2, e3]
  omega

/-- The price of an event: `A0` times its size, `A` times the attributes. -/
def price (A0 A : Nat) : REv → Nat
  | .start _ as _ => A0 + A * attrsSize as
  | e => A0 * e.size

theorem price_pays (A0 A c K : Nat) (h0 : K + (c + 1) ≤ A0) : Pays (price A0 A) c K A := by
  refine ⟨by simp [price, REv.size], fun n as m => ?_, fun t => ?_, fun n => ?_⟩
  · have : attrsCost A as ≤ A * attrsSize as := by
      unfold attrsCost attrsSize
      induction as with
      | nil => simp
      | cons a as ih =>
        simp only [List.map_cons, List.sum_cons]
        rw [Nat.mul_add A (5 + _)]
        exact Nat.add_le_add (Nat.mul_le_mul_left _ (by omega)) ih
    simp only [price]
    omega
  · simp only [price, REv.size]
    have := Nat.mul_le_mul_right (1 + t.length) h0
    rw [Nat.add_mul] at this
    have := Nat.le_mul_of_pos_right K (show 0 < 1 + t.length by omega)
    omega
  · simp only [price, REv.size]
    omega

theorem price_unit (A0 A : Nat) (h : A0 ≤ A) (e : REv) : price A0 A e ≤ A * e.size := by
  unfold price
  split
  · simp only [REv.size]; rw [Nat.mul_add]; omega
  · exact Nat.mul_le_mul_right _ h

theorem price_bare (A0 A : Nat) (e : REv) (h : bareEv e = true) : price A0 A e ≤ A0 * e.size := by
  unfold price
  split
  · rename_i n as m
    cases as with
    | nil => simp [REv.size, attrsSize]
    | cons a as => cases h
  · exact Nat.le_refl _

theorem linear_apart (L : Lib) (env : Env) (rank : Path → Nat) (bound c A : Nat) (hA : growth c bound ≤ A)
    (he : RankedApart env rank bound) (hL : SmallDocs L env (growth c bound) A) (hm : Modest env c)
    (p : Path) (s : Str) (v : Val) (h : Returns L env p s (.ok v)) :
    v.size ≤ A * (docSize (L.parse s).evs + 1) := by
  obtain ⟨-, n, hn⟩ := h
  have hg := growth_ge c bound
  have hw := Wt.deser (price_pays (growth c bound) A c _ (by omega)) (price_unit _ _ hA) (price_bare _ _) (by omega) (by omega) L env
    rank bound he hL hm _ (Nat.le_refl _) (Nat.le_refl _) n p (Rd.new (L.parse s)) _ (Nat.le_refl _)
  have hpot := pot_filter_le (price (growth c bound) A) A (L.parse s) fun e _ => price_unit _ _ hA e
  have hd := (hw.1 v (deser L env n p (Rd.new (L.parse s))).2 (Prod.ext hn rfl)).2
  rw [Nat.mul_add, Nat.mul_one]
  rcases hd with ⟨-, -, hd⟩ | hd
  · omega
  · omega

theorem Ranked.apart {env : Env} {rank : Path → Nat} {bound : Nat} (h : Ranked env rank bound) : RankedApart env rank bound where
  bounded := h.bounded
  noFlat := h.noFlat
  attrs p d hd := ⟨by
    have ha := h.attrs p d hd
    generalize d.fields = fs at ha
    induction fs with
    | nil => exact .nil
    | cons f fs ih =>
      refine .cons (fun g hg hf1 hg1 _ => ⟨ha f (List.mem_cons_self ..) hf1, ha g (List.mem_cons_of_mem _ hg) hg1⟩)
        (ih fun g hg => ha g (List.mem_cons_of_mem _ hg)), fun f hf hi => .inl (h.attrs p d hd f hf hi)⟩
  payload := h.payload

/-- **C86.** Without flattened fields and attributes of derived types (`Ranked`): whatever the text, well-formed or not, and
whatever the type, the value read is at most linear in the size of the document.  The factor depends on the program only. -/
theorem C86_linear_partial (L : Lib) (env : Env) (rank : Path → Nat) (bound c : Nat) (he : Ranked env rank bound) (hm : Modest env c)
    (p : Path) (s : Str) (v : Val) (h : Returns L env p s (.ok v)) :
    v.size ≤ growth c bound * (docSize (L.parse s).evs + 1) := by
  refine linear_apart L env rank bound c _ (Nat.le_refl _) he.apart (fun p d hd g hg hi q hq => ?_) hm p s v h
  obtain ⟨t, ht⟩ := he.attrs p d hd g hg hi
  rw [ht] at hq
  cases hq

/-- The same for the text: no text is blown up by more than a factor that depends on the program only. -/
theorem C86_text_partial (L : Lib) (hL : L.parse = XmlText.parse) (env : Env) (rank : Path → Nat) (bound c : Nat) (he : Ranked env rank bound)
    (hm : Modest env c) (p : Path) (s : Str) (v : Val) (h : Returns L env p s (.ok v)) :
    v.size ≤ growth c bound * (s.length + 1) := by
  have h1 := C86_linear_partial L env rank bound c he hm p s v h
  rw [hL] at h1
  exact Nat.le_trans h1 (Nat.mul_le_mul_left _ (Nat.succ_le_succ (XmlText.parse_size s)))

/-- The same with attributes of derived types, if they have names of their own (`RankedApart`): the documents that are read instead of
them are paid for by their text. -/
theorem C86_attrs_partial (L : Lib) (hL : L.parse = XmlText.parse) (env : Env) (rank : Path → Nat) (bound c : Nat)
    (he : RankedApart env rank bound) (hm : Modest env c) (p : Path) (s : Str) (v : Val) (h : Returns L env p s (.ok v)) :
    v.size ≤ 3 * growth c bound * (s.length + 1) := by
  have h1 := linear_apart L env rank bound c (3 * growth c bound) (by omega) he (fun p d hd g hg hi q hq => by
    rw [hL]
    rcases (he.attrs p d hd).types g hg hi with ⟨u, hu⟩ | ⟨q', hq', hn⟩
    · rw [hu] at hq; cases hq
    · rw [hq'] at hq
      cases hq
      exact ⟨XmlText.attrDoc_size hn, fun _ => ⟨Nat.le_refl _, fun w hw => XmlText.bare_attrDoc hn hw⟩⟩) hm p s v h
  rw [hL] at h1
  exact Nat.le_trans h1 (Nat.mul_le_mul_left _ (Nat.succ_le_succ (XmlText.parse_size s)))

namespace Leaks

/-- The constants of the program of `C07_false_inside`. -/
theorem modest : Modest env 4 := by
  refine ⟨fun p d h => ?_, fun p d h => ?_, fun p d h => ?_, fun p d h => ?_⟩
  · rcases env_cases h with ⟨-, h⟩ | ⟨-, h⟩ | ⟨_, h⟩ | ⟨-, h⟩ <;> cases h <;> decide
  · rcases env_cases h with ⟨-, h⟩ | ⟨-, h⟩ | ⟨_, h⟩ | ⟨-, h⟩ <;> cases h
    · intro f hf x hx
      simp only [List.mem_cons, List.not_mem_nil, or_false] at hf
      rcases hf with rfl
      cases hx
    · intro f hf x hx
      simp only [List.mem_cons, List.not_mem_nil, or_false] at hf
      rcases hf with rfl | rfl | rfl | rfl <;> cases hx
  · rcases env_cases h with ⟨-, h⟩ | ⟨-, h⟩ | ⟨_, h⟩ | ⟨-, h⟩ <;> cases h <;> decide
  · intro t v hv
    have : d.fromStr = fun t => .ok (.str t) := by
      simp only [env, Tests.envOf, Tests.mkS, Tests.mkE, List.find?] at h
      split at h
      · cases h
      · split at h
        · cases h
        · split at h
          · cases h; rfl
          · split at h <;> cases h
    rw [this] at hv
    cases hv
    simp only [Val.size]
    omega

end Leaks

open Leaks in
/-- All texts, and all values read from them. -/
example (s : Str) (v : Val) (h : Returns Tests.lib env [c!"S"] s (.ok v)) : v.size ≤ 112 * (s.length + 1) :=
  C86_text_partial Tests.lib rfl env rank 1 4 ranked modest _ s v h

namespace OwnNames
open Tests

def defN : StructDef :=
  { name := c!"N", fields := [F c!"id" (.simple .string) { isAttr := true }, F c!"next" (.opt (.struct [c!"N"])) { isAttr := true },
      F c!"refs" (.vec (.struct [c!"N"])) { isAttr := true }, F c!"kid" (.vec (.struct [c!"N"]))] }

/-- `struct N { #[yaserde(attribute)] id: String, #[yaserde(attribute)] next: Option<N>, #[yaserde(attribute)] refs: Vec<N>,
kid: Vec<N> }`. -/
def env : Env := envOf [([c!"N"], .struct defN)]

theorem env_some {p : Path} {d : TypeDef} (h : env p = some d) : d = .struct defN := by
  simp only [env, envOf, List.find?] at h
  split at h <;> cases h
  rfl

theorem ranked : RankedApart env (fun _ => 0) 0 where
  bounded _ := Nat.le_refl _
  noFlat p d h := by
    cases env_some h
    rintro ⟨f, hf, h1, h2⟩
    simp only [defN, List.mem_cons, List.not_mem_nil, or_false] at hf
    rcases hf with rfl | rfl | rfl | rfl <;> cases h2
  attrs p d h := by
    cases env_some h
    refine ⟨?_, fun f hf hi => ?_⟩
    · have : defN.fields.Pairwise fun f g => f.label ≠ g.label := by decide
      exact this.imp fun h _ _ he => absurd he h
    · simp only [defN, List.mem_cons, List.not_mem_nil, or_false] at hf
      rcases hf with rfl | rfl | rfl | rfl
      · exact .inl ⟨_, rfl⟩
      · exact .inr ⟨[c!"N"], rfl, by decide⟩
      · exact .inr ⟨[c!"N"], rfl, by decide⟩
      · cases hi
  payload p d h := by cases env_some h

theorem modest : Modest env 4 where
  fields p d h := by cases env_some h; decide
  dflts p d h f hf x hx := by
    cases env_some h
    simp only [defN, List.mem_cons, List.not_mem_nil, or_false] at hf
    rcases hf with rfl | rfl | rfl | rfl <;> cases hx
  enums p d h := by cases env_some h
  prims p d h := by cases env_some h

end OwnNames

open OwnNames in
/-- The same for a program with attributes of the type itself. -/
example (s : Str) (v : Val) (h : Returns Tests.lib env [c!"N"] s (.ok v)) : v.size ≤ 294 * (s.length + 1) :=
  C86_attrs_partial Tests.lib rfl env _ 0 4 ranked modest _ s v h

/-! ### With flattened fields: exponential -/

namespace Doubling
open Tests

def defA : StructDef :=
  { name := c!"A", fields := [F c!"l" (T c!"L") { flatten := true }, F c!"r" (T c!"L") { flatten := true }] }

def defL : StructDef := { name := c!"L", attrs := { rename := some c!"x" }, fields := [F c!"x" (.vec (.struct [c!"A"]))] }

/-- `struct A { #[yaserde(flatten)] l: L, #[yaserde(flatten)] r: L }` and `#[yaserde(rename = "x")] struct L { x: Vec<A> }`. -/
def env : Env := envOf [([c!"A"], .struct defA), ([c!"L"], .struct defL)]

/-- `n` elements inside an element, one inside the other. -/
def text : Nat → Str
  | 0 => c!"<x></x>"
  | n + 1 => c!"<x>" ++ text n ++ c!"</x>"

def tree : Nat → Node
  | 0 => .elem ⟨c!"x", none, none⟩ [] [] []
  | n + 1 => .elem ⟨c!"x", none, none⟩ [] [] [tree n]

/-- What is read from it: both fields get the elements inside. -/
def value : Nat → Val
  | 0 => .struct [.struct [.vec []], .struct [.vec []]]
  | n + 1 => .struct [.struct [.vec [value n]], .struct [.vec [value n]]]

theorem text_length (n : Nat) : (text n).length = 7 * (n + 1) := by
  induction n with
  | zero => rfl
  | succ n ih => simp only [text, List.length_append, ih, List.length_cons, List.length_nil]; omega

theorem value_size (n : Nat) : 2 ^ n ≤ (value n).size := by
  induction n with
  | zero => decide
  | succ n ih => simp only [value, Val.size, Val.sizeL, Nat.pow_succ]; omega

theorem tag : Spell.Tag [] [] c!"x" [] ⟨c!"x", none, none⟩ [] where
  name := by decide
  nodup := by simp
  scope := by decide
  elem := .bare (by decide)
  attrs := .nil

theorem elem_text (n : Nat) : Spell.Elem [] (tree n) (text n) := by
  induction n with
  | zero => exact .full (raw := c!"x") (sa := []) (w := []) (w' := []) (s := []) .nil (by simp [Spell.Blank]) tag .nil (by simp [Spell.Blank])
  | succ n ih =>
    have := Spell.Elem.full (raw := c!"x") (sa := []) (w := []) (w' := []) (s := text n) .nil (by simp [Spell.Blank]) tag
      (by simpa using Spell.Content.elem (run := []) (s' := []) ih .nil) (by simp [Spell.Blank])
    simpa [text, tree, show textRun [] = [] from rfl] using this

theorem doc_text (n : Nat) : Spell.Doc (tree n) (text n) := by
  simpa using Spell.Doc.mk (a := []) (b := []) .nil (elem_text n) .nil

theorem bound : Bound [] (⟨c!"x", none, none⟩ : Name).raw := by
  rw [Bound, show splitColon (⟨c!"x", none, none⟩ : Name).raw = none by decide]
  trivial

theorem clean (n : Nat) : (tree n).Clean [] := by
  induction n with
  | zero => refine ⟨⟨by decide, bound, by decide⟩, ⟨⟨by simp, by simp, by simp⟩, by simp⟩, ⟨by simp, by simp⟩, ⟨by simp [ntexts], by simp⟩, trivial⟩
  | succ n ih =>
    refine ⟨⟨by decide, bound, by decide⟩, ⟨⟨by simp, by simp, by simp⟩, by simp⟩, ⟨by simp, by simp⟩, ⟨?_, by simp⟩, ih, trivial⟩
    cases n <;> simp [ntexts, tree]

end Doubling

mutual
  theorem strip_of_clean (x : Node) (h : x.Clean []) : x.strip = x := by
    match x with
    | .text s => rfl
    | .elem n as m ks =>
      obtain ⟨-, -, ⟨-, hm⟩, -, hk⟩ := h
      have : m = [] := by
        cases m with
        | nil => rfl
        | cons e m => exact absurd (hm e List.mem_cons_self) (by simp)
      subst this
      simp only [Node.strip]
      rw [stripL_of_clean ks hk]
  theorem stripL_of_clean (ks : List Node) (h : Node.CleanL [] ks) : Node.stripL ks = ks := by
    match ks with
    | [] => rfl
    | k :: ks =>
      simp only [Node.stripL]
      rw [strip_of_clean k h.1, stripL_of_clean ks h.2]
end

/-- A tree without declarations, written and read, is the same tree. -/
theorem reparse_same {L : Lib} (hL : XmlLaw L) (n : Name) (as : List Attr) (m : NsMap) (ks : List Node)
    (hx : (Node.elem n as m ks).Clean []) : Reparse L (.elem n as m ks) (.elem n as m ks) := by
  obtain ⟨y, hr, hy⟩ := reparse_clean hL ⟨by simp, by simp, by simp⟩ n as m ks hx
  have : y = .elem n as m ks := by
    rw [← strip_of_clean y hy, hr.1, canon_clean _ hx, strip_of_clean _ hx]
  rw [this] at hr
  exact hr

namespace Doubling
open Tests

theorem fieldFor_A : defA.fieldFor ⟨c!"x", none, none⟩ = none := by decide
theorem fieldFor_L : defL.fieldFor ⟨c!"x", none, none⟩ = some 0 := by decide

theorem residue_tree (n : Nat) : ∃ ks, tree n = .elem ⟨c!"x", none, none⟩ [] [] ks ∧
    defA.residue ⟨c!"x", none, none⟩ [] [] ks = tree n := by
  cases n with
  | zero => exact ⟨[], rfl, rfl⟩
  | succ n => 
    refine ⟨[tree n], rfl, ?_⟩
    have : defA.unclaimed (tree n) = true := by cases n <;> exact congrArg Option.isNone fieldFor_A
    simp [StructDef.residue, this, tree]

theorem plain_A : defA.Plain := by
  refine ⟨fun f hf => ?_, fun f hf h => ?_, fun f hf h1 h2 => ?_⟩ <;>
    simp only [defA, List.mem_cons, List.not_mem_nil, or_false] at hf <;> rcases hf with rfl | rfl
  · exact .inr ⟨_, rfl⟩
  · exact .inr ⟨_, rfl⟩
  · cases h
  · cases h
  · exact .inl ⟨_, rfl⟩
  · exact .inl ⟨_, rfl⟩

theorem plain_L : defL.Plain := by
  refine ⟨fun f hf => ?_, fun f hf h => ?_, fun f hf h1 h2 => ?_⟩ <;>
    simp only [defL, List.mem_cons, List.not_mem_nil, or_false] at hf <;> rcases hf with rfl
  · exact .inr ⟨_, rfl⟩
  · cases h
  · cases h2

theorem confWith_struct {L : Lib} {fc : Node → Path → Prop} {n : Name} {as : List Attr} {m : NsMap} {ks : List Node} {p : Path}
    {d : StructDef} (hp : env p = some (.struct d)) (h : d.Plain ∧
        ((n.loc = d.attrs.rename.getD d.name ∧
            n.ns.getD [] = (d.attrs.namespaces.find d.attrs.pfx).getD []) ∨ d.fieldFor n = none) ∧
        ConfKids L env fc d ks ∧
        (∀ f ∈ d.fields, f.attrs.isAttr = false → f.attrs.flatten = true →
          ∀ q, f.ty.core = .struct q → fc (d.residue n as m ks) q) ∧
        (∀ f ∈ d.fields, f.attrs.isAttr = true → ∀ q, f.ty.core = .struct q →
          ∀ a ∈ as, a.name.loc = f.label → ∀ s ∈ f.ty.attrTexts a.value, fc (.text s) q)) :
    ConfWith L env fc (.elem n as m ks) p := by
  rw [ConfWith, hp]
  exact h

theorem env_A : env [c!"A"] = some (.struct defA) := by
  simp [env, envOf]

theorem env_L : env [c!"L"] = some (.struct defL) := by
  simp [env, envOf]

theorem kids_nil {L : Lib} {fc : Node → Path → Prop} {d : StructDef} : ConfKids L env fc d [] := by
  rw [ConfKids]; trivial

theorem kids_one {L : Lib} {fc : Node → Path → Prop} {d : StructDef} {k : Node} (h : ConfKid L env fc d k) : ConfKids L env fc d [k] := by
  rw [ConfKids]; exact ⟨h, kids_nil⟩

theorem conf_A {L : Lib} (hL : XmlLaw L) (n k : Nat) (h : ConfN L env k (tree n) [c!"L"]) : ConfN L env (k + 1) (tree n) [c!"A"] := by
  have hc := clean n
  obtain ⟨ks, h1, h2⟩ := residue_tree n
  rw [confN_eq, h1]
  refine confWith_struct env_A ⟨plain_A, .inr fieldFor_A, ?_, fun f hf _ _ q hq => ?_, fun f hf h => ?_⟩
  · cases n with
    | zero => cases h1; exact kids_nil
    | succ n =>
      cases h1
      refine kids_one ?_
      obtain ⟨ks, h1, -⟩ := residue_tree n
      rw [h1, ConfKid]
      exact ⟨by simp, fun i f hi => by rw [fieldFor_A] at hi; cases hi⟩
  · have : q = [c!"L"] := by
      simp only [defA, List.mem_cons, List.not_mem_nil, or_false] at hf
      rcases hf with rfl | rfl <;> exact (FTy.struct.inj hq).symm
    subst this
    rw [h2, h1]
    rw [h1] at h hc
    exact ⟨_, reparse_same hL _ _ _ _ hc, h⟩
  · simp only [defA, List.mem_cons, List.not_mem_nil, or_false] at hf
    rcases hf with rfl | rfl <;> cases h

/-- The documents conform to the type. -/
theorem conf {L : Lib} (hL : XmlLaw L) (n : Nat) : ∀ k, n < k → ConfN L env k (tree n) [c!"A"] := by
  induction n with
  | zero =>
    intro k hk
    obtain ⟨k, rfl⟩ : ∃ j, k = j + 1 := ⟨k - 1, by omega⟩
    refine conf_A hL 0 k ?_
    rw [confN_eq]
    refine confWith_struct env_L ⟨plain_L, .inl ⟨rfl, rfl⟩, kids_nil, fun f hf _ h => ?_, fun f hf h => ?_⟩ <;>
    · simp only [defL, List.mem_cons, List.not_mem_nil, or_false] at hf
      rcases hf with rfl
      cases h
  | succ n ih =>
    intro k hk
    obtain ⟨k, rfl⟩ : ∃ j, k = j + 1 := ⟨k - 1, by omega⟩
    refine conf_A hL (n + 1) k ?_
    have := ih k (by omega)
    rw [confN_eq] at this ⊢
    refine confWith_struct env_L ⟨plain_L, .inl ⟨rfl, rfl⟩, kids_one ?_, fun f hf _ h => ?_, fun f hf h => ?_⟩
    · obtain ⟨ks, h1, -⟩ := residue_tree n
      rw [h1] at this ⊢
      rw [ConfKid]
      refine ⟨by simp, fun i f hi hf => ?_⟩
      rw [fieldFor_L] at hi
      cases hi
      cases hf
      refine ⟨fun t ht => (by cases ht), fun q hq => ⟨?_, ?_⟩⟩
      · cases hq; exact this
      · rintro ⟨f, hf, h1, h2⟩
        simp only [defL, List.mem_cons, List.not_mem_nil, or_false] at hf
        rcases hf with rfl
        cases h2
    all_goals
      simp only [defL, List.mem_cons, List.not_mem_nil, or_false] at hf
      rcases hf with rfl
      cases h

theorem canon_tree (n : Nat) : (tree n).canon = tree n := by
  rw [canon_clean _ (clean n), strip_of_clean _ (clean n)]

theorem nsOk_tree (n : Nat) (a : Attrs) : nsOk a (tree n).name := by
  cases n <;> (intro u hu; cases hu)

theorem flat_eq (L : Lib) (n k : Nat) : flatN L env (k + 1) (tree n) [c!"L"] = decodeN L env k (tree n) [c!"L"] := by
  have : flatN L env (k + 1) (tree n) [c!"L"] = decodeDocWith env (decodeN L env k) (tree n).canon [c!"L"] := by
    cases n <;> rfl
  rw [this, canon_tree, decodeDocWith, env_L]
  exact if_pos (nsOk_tree n _)

theorem decode_A (L : Lib) (n k : Nat) (v : Val) (h : decodeN L env k (tree n) [c!"L"] = .ok v) :
    decodeN L env (k + 1) (tree n) [c!"A"] = .ok (.struct [v, v]) := by
  have hf := flat_eq L n k
  rw [h] at hf
  obtain ⟨ks, h1, h2⟩ := residue_tree n
  rw [decodeN_eq, h1, decodeWith, env_A]
  have hk : kidContribs L defA ks (decodeL L env (flatN L env (k + 1)) ks) = .ok [] := by
    cases n with
    | zero => cases h1; rfl
    | succ n =>
      cases h1
      have : ∀ dec, kidContrib L defA dec (tree n) = .ok [] := by
        intro dec
        cases n <;> simp only [tree, kidContrib, fieldFor_A]
      simp [kidContribs, decodeL, this, Res.collect, Res.bind]
  have ha : attrContribs L (userAttr (flatN L env (k + 1))) defA [] = .ok [] := rfl
  simp only [decodeStruct, ha, hk, Res.bind, h2]
  have : flatContribs (flatN L env (k + 1) (tree n)) defA = .ok [(0, v), (1, v)] := by
    simp [flatContribs, defA, flatContrib, F, T, hf, Res.collect, Res.bind]
  rw [this]
  rfl

theorem decode_tree (L : Lib) (n : Nat) : ∀ k, n < k → decodeN L env k (tree n) [c!"A"] = .ok (value n) := by
  induction n with
  | zero =>
    intro k hk
    obtain ⟨k, rfl⟩ : ∃ j, k = j + 1 := ⟨k - 1, by omega⟩
    refine decode_A L 0 k _ ?_
    rw [decodeN_eq, tree, decodeWith, env_L]
    rfl
  | succ n ih =>
    intro k hk
    obtain ⟨k, rfl⟩ : ∃ j, k = j + 1 := ⟨k - 1, by omega⟩
    refine decode_A L (n + 1) k (.struct [.vec [value n]]) ?_
    have hi := ih k (by omega)
    rw [decodeN_eq] at hi ⊢
    rw [tree, decodeWith, env_L]
    have hk : kidContribs L defL [tree n] (decodeL L env (flatN L env k) [tree n]) = .ok [(0, value n)] := by
      have : kidContrib L defL (decodeWith L env (flatN L env k) (tree n)) (tree n) = .ok [(0, value n)] := by
        obtain ⟨ks, h1, -⟩ := residue_tree n
        rw [h1] at hi ⊢
        simp only [kidContrib, fieldFor_L, show defL.fields[0]? = some (F c!"x" (.vec (.struct [c!"A"]))) from rfl,
          show (F c!"x" (.vec (.struct [c!"A"]))).ty.core = .struct [c!"A"] from rfl, hi, Res.bind]
      simp [kidContribs, decodeL, this, Res.collect, Res.bind]
    have ha : attrContribs L (userAttr (flatN L env k)) defL [] = .ok [] := rfl
    simp only [decodeStruct, ha, hk, Res.bind]
    rfl

end Doubling

open Doubling in
/-- **C86 is false of the code**: with flattened fields a text of `7 * (n + 1)` characters is read as a value of size at least
`2 ^ n`, whatever the primitive parsers and the naming of characters. -/
theorem C86_false (L : Lib) (hp : L.parse = XmlText.parse) (he : L.emit = XmlText.emit) (n : Nat) :
    ∃ v, Returns L env [c!"A"] (text n) (.ok v) ∧ (text n).length = 7 * (n + 1) ∧ 2 ^ n ≤ v.size := by
  refine ⟨value n, ?_, text_length n, value_size n⟩
  rw [C74_reads_partial L hp env (n + 1) _ (doc_text n) (conf (XmlText.xmlLaw L hp he) n (n + 1) (Nat.lt_succ_self n)) _]
  rw [decodeDocN, decodeDocWith, env_A]
  simp only [nsOk_tree, if_true]
  exact (decode_tree L n (n + 1) (Nat.lt_succ_self n)).symm

open Doubling in
/-- No factor will do for this program, although its constants are small. -/
theorem C86_false_factor (L : Lib) (hp : L.parse = XmlText.parse) (he : L.emit = XmlText.emit) :
    Modest env 2 ∧ ¬ ∃ A, ∀ s v, Returns L env [c!"A"] s (.ok v) → v.size ≤ A * (s.length + 1) := by
  refine ⟨⟨?_, ?_, ?_, ?_⟩, ?_⟩
  · intro p d h
    simp only [env, Tests.envOf, List.find?] at h
    split at h
    · cases h; decide
    · split at h
      · cases h; decide
      · cases h
  · intro p d h f hf x hx
    simp only [env, Tests.envOf, List.find?] at h
    split at h
    · cases h
      simp only [defA, List.mem_cons, List.not_mem_nil, or_false] at hf
      rcases hf with rfl | rfl <;> cases hx
    · split at h
      · cases h
        simp only [defL, List.mem_cons, List.not_mem_nil, or_false] at hf
        rcases hf with rfl
        cases hx
      · cases h
  · intro p d h
    simp only [env, Tests.envOf, List.find?] at h
    split at h
    · cases h
    · split at h <;> cases h
  · intro p d h
    simp only [env, Tests.envOf, List.find?] at h
    split at h
    · cases h
    · split at h <;> cases h
  · rintro ⟨A, h⟩
    -- `2 ^ n` outgrows `A * (7 * n + 8)`
    have h1 : ∀ n, 2 ^ n ≤ A * (7 * (n + 1) + 1) := by
      intro n
      obtain ⟨v, hv, hl, hs⟩ := C86_false L hp he n
      rw [← hl]
      exact Nat.le_trans hs (h _ v hv)
    have h2 : ∀ n, n + 1 ≤ 2 ^ n := by
      intro n
      induction n with
      | zero => decide
      | succ n ih => rw [Nat.pow_succ]; omega
    have h3 := h1 (A + 6 + (A + 6))
    have h4 := h2 (A + 6)
    have h5 : ∀ m, 64 * (m + 1) ≤ 2 ^ (m + 6) := fun m => by
      rw [Nat.pow_add]
      have := Nat.mul_le_mul_right 64 (h2 m)
      omega
    rw [Nat.pow_add] at h3
    have h6 := Nat.mul_le_mul h4 (h5 A)
    have h7 : A * (7 * (A + 6 + (A + 6) + 1) + 1) < (A + 6 + 1) * (64 * (A + 1)) := by
      have : 7 * (A + 6 + (A + 6) + 1) + 1 = 14 * A + 92 := by omega
      rw [this]
      have e1 : A * (14 * A + 92) = 14 * (A * A) + 92 * A := by
        rw [Nat.mul_add, Nat.mul_left_comm, Nat.mul_comm A 92]
      have e2 : (A + 6 + 1) * (64 * (A + 1)) = 64 * (A * A) + 64 * A + 7 * (64 * (A + 1)) := by
        rw [show A + 6 + 1 = A + 7 from rfl, Nat.add_mul, Nat.mul_left_comm, Nat.mul_add A, Nat.mul_one, Nat.mul_add 64]
      rw [e1, e2]
      have : 0 ≤ A * A := Nat.zero_le _
      omega
    omega

end Yaserde
