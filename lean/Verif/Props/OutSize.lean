import Verif.Proofs.OutSizeTree
import Verif.Proofs.Leaf
import Verif.Tests.Util
/-
C87: how much longer than the value the text can be that is written for it.
-/

set_option autoImplicit false
set_option maxRecDepth 100000

namespace Yaserde
open XmlText

/-- The factor: `c` bounds the constants of the program. -/
def spread (c : Nat) : Nat := 12 * c + 172

/-- **C87.** Without attributes of derived types and without indentation: the text written for any value is at most linear in the
size of the value.  The factor depends on the program only. -/
theorem C87_linear_partial (L : Lib) (hL : L.emit = XmlText.emit) (env : Env) (hs : SerOk env) (c : Nat) (ht : Terse L env c) (hn : NoAttrOf env)
    (cfg : Config) (hi : cfg.performIndent = false) (p : Path) (v : Val) (hv : HasTy env (.struct p) v) :
    ∃ s, toStringWithConfig L env cfg p v = .ok s ∧ s.length ≤ spread c * v.size + 38 := by
  refine ⟨_, toString_eq hs hv cfg, ?_⟩
  rw [hL]
  have h1 := tree_cost (escapes_none hn escLen_le) ht hs hv root_short
  have h2 := length_emit cfg.emitCfg (encTy L env .root p v)
  have h3 : nlCost cfg.emitCfg (WNode.eventsL (encTy L env .root p v)).length = 0 := by
    simp [nlCost, Config.emitCfg, hi]
  rw [h3] at h2
  unfold budget at h1
  unfold spread
  have h4 : (if cfg.emitCfg.decl = true then 38 else 0) ≤ 38 := by split <;> omega
  omega

/-- The string for one level of indentation. -/
def Config.indentLen (cfg : Config) : Nat := if cfg.performIndent then (cfg.indentString.getD c!"  ").length else 0

/-- All programs and all configurations: at most quadratic. -/
theorem C87_square (L : Lib) (hL : L.emit = XmlText.emit) (env : Env) (hs : SerOk env) (c : Nat) (ht : Terse L env c)
    (cfg : Config) (p : Path) (v : Val) (hv : HasTy env (.struct p) v) :
    ∃ s, toStringWithConfig L env cfg p v = .ok s ∧
      s.length ≤ 2 * spread c * v.size + 5 * spread c * (v.size * v.size) + cfg.indentLen * (spread c * v.size) * (spread c * v.size) + 38 := by
  refine ⟨_, toString_eq hs hv cfg, ?_⟩
  rw [hL]
  have h1 := tree_cost (escapes_length hL ht hs) ht hs hv root_short
  have h2 := length_emit cfg.emitCfg (encTy L env .root p v)
  have h3 := events_length ht hs hv root_short
  change _ ≤ spread c * v.size at h3
  unfold budget at h1
  change _ ≤ spread c * v.size + 5 * spread c * (v.size * v.size) at h1
  generalize (WNode.eventsL (encTy L env .root p v)).length = k at *
  have h4 : (if cfg.emitCfg.decl = true then 38 else 0) ≤ 38 := by split <;> omega
  have h5 : k * nlCost cfg.emitCfg k ≤ spread c * v.size + cfg.indentLen * (spread c * v.size) * (spread c * v.size) := by
    unfold nlCost Config.indentLen Config.emitCfg
    cases cfg.performIndent with
    | false => simp
    | true =>
      simp only [if_true]
      rw [Nat.mul_add, Nat.mul_one, Nat.mul_comm k]
      exact Nat.add_le_add h3 (Nat.mul_le_mul (Nat.mul_le_mul_left _ h3) h3)
  have h6 : 2 * spread c * v.size = spread c * v.size + spread c * v.size := by rw [Nat.mul_assoc, Nat.two_mul]
  omega

/-! ### Attributes of derived types: quadratic -/

namespace Quoting
open Tests

def defA : StructDef := { name := c!"A", attrs := { rename := some c!"a" }, fields := [F c!"b" (.opt (.struct [c!"B"])) { isAttr := true }] }

def defB : StructDef := { name := c!"B", fields := [F c!"a" (.vec (.struct [c!"A"]))] }

/-- `#[yaserde(rename = "a")] struct A { #[yaserde(attribute)] b: Option<B> }` and `struct B { a: Vec<A> }`. -/
def env : Env := envOf [([c!"A"], .struct defA), ([c!"B"], .struct defB)]

theorem env_A : env [c!"A"] = some (.struct defA) := by simp [env, envOf]
theorem env_B : env [c!"B"] = some (.struct defB) := by simp [env, envOf]

/-- `n` structs inside a struct, one inside the other. -/
def value : Nat → Val
  | 0 => .struct [.none]
  | n + 1 => .struct [.some (.struct [.vec [value n]])]

/-- Every level is an attribute in which all quotes and angle brackets of the levels inside are escaped. -/
def text : Nat → Str
  | 0 => c!"<a />"
  | n + 1 => c!"<a b=\"" ++ escAttr (text n) ++ c!"\" />"

theorem value_size (n : Nat) : (value n).size = 4 * n + 2 := by
  induction n with
  | zero => rfl
  | succ n ih => simp only [value, Val.size, Val.sizeL, ih]; omega

theorem specials_text (n : Nat) : specials (text n) = 4 * n + 2 := by
  induction n with
  | zero => decide
  | succ n ih =>
    have h1 : specials c!"<a b=\"" = 2 := by decide
    have h2 : specials c!"\" />" = 2 := by decide
    unfold text
    have h3 : specials (escAttr (text n)) = 4 * n + 2 := by rw [specials_escAttr, ih]
    unfold specials at *
    rw [wt_append, wt_append]
    omega

theorem text_length (n : Nat) : n * n ≤ (text n).length := by
  induction n with
  | zero => exact Nat.zero_le _
  | succ n ih =>
    have h1 := escAttr_length_ge (text n)
    rw [specials_text] at h1
    have h2 : (n + 1) * (n + 1) = n * n + n + n + 1 := by rw [Nat.add_mul, Nat.mul_add]; omega
    simp only [text, List.length_append, List.length_cons, List.length_nil]
    omega

theorem hasTy (n : Nat) : HasTy env (.struct [c!"A"]) (value n) := by
  induction n with
  | zero =>
    refine .struct _ defA _ env_A rfl fun i f v h1 h2 => ?_
    match i with
    | 0 => simp only [defA, List.getElem?_cons_zero, Option.some.injEq] at h1 h2; subst h1 h2; exact .none _
    | i + 1 => simp [defA] at h1
  | succ n ih =>
    refine .struct _ defA _ env_A rfl fun i f v h1 h2 => ?_
    match i with
    | 0 =>
      simp only [defA, List.getElem?_cons_zero, Option.some.injEq] at h1 h2; subst h1 h2
      refine .some _ _ (.struct _ defB _ env_B rfl fun i f v h1 h2 => ?_)
      match i with
      | 0 =>
        simp only [defB, List.getElem?_cons_zero, Option.some.injEq] at h1 h2; subst h1 h2
        exact .vec _ _ fun v hv => by simp only [List.mem_singleton] at hv; rw [hv]; exact ih
      | i + 1 => simp [defB] at h1
    | i + 1 => simp [defA] at h1

theorem serOk : SerOk env := by
  refine ⟨fun p d h f hf => ?_, fun p d h => ?_, fun p d h => ?_⟩ <;> simp only [env, Tests.envOf, List.find?] at h <;> split at h
  · cases h
    simp only [defA, List.mem_cons, List.not_mem_nil, or_false] at hf
    subst hf; simp [FieldDef.SerOk, F]
  · split at h
    · cases h
      simp only [defB, List.mem_cons, List.not_mem_nil, or_false] at hf
      subst hf; simp [FieldDef.SerOk, F]
    · cases h
  · cases h
  · split at h <;> cases h
  · cases h
  · split at h <;> cases h

theorem terse (L : Lib) (c : Nat) (h32 : ∀ b, (L.showF32 b).length ≤ c + 1) (h64 : ∀ b, (L.showF64 b).length ≤ c + 1) : Terse L env (c + 1) := by
  refine ⟨fun p d h => ?_, fun p d h => ?_, fun p d h => ?_, h32, h64⟩ <;> simp only [env, Tests.envOf, List.find?] at h <;> split at h
  · cases h
    refine ⟨?_, ?_, fun f hf => ?_⟩
    · show 1 ≤ c + 1; omega
    · exact Nat.zero_le _
    · simp only [defA, List.mem_cons, List.not_mem_nil, or_false] at hf
      subst hf; show 1 ≤ c + 1; omega
  · split at h
    · cases h
      refine ⟨?_, ?_, fun f hf => ?_⟩
      · show 1 ≤ c + 1; omega
      · exact Nat.zero_le _
      · simp only [defB, List.mem_cons, List.not_mem_nil, or_false] at hf
        subst hf; show 1 ≤ c + 1; omega
    · cases h
  · cases h
  · split at h <;> cases h
  · cases h
  · split at h <;> cases h

theorem emit_a (as : List Attr) : emit { decl := false } (WNode.eventsL [.elem c!"a" as [] []]) = c!"<a" ++ as.flatMap emitAttr ++ c!" />" := by
  simp [emit, WNode.eventsL, WNode.events, Em.step, Em.checkStarted, Em.fix, Em.beforeMarkup, Em.add, newDecls, Em.setFlag, qname, Name.ofStr, splitColon]

/-- What is written for a value, inside a struct or by itself. -/
theorem enc (L : Lib) (hL : L.emit = XmlText.emit) (n : Nat) (pl : Place) (hpl : pl.bare = false ∧ (pl.name = none ∨ pl.name = some c!"a")) :
    ∃ as, encTy L env pl [c!"A"] (value n) = [.elem c!"a" as [] []] ∧ c!"<a" ++ as.flatMap emitAttr ++ c!" />" = text n := by
  induction n generalizing pl with
  | zero =>
    refine ⟨[], ?_, rfl⟩
    rw [encTy.eq_def, env_A]
    rcases hpl with ⟨h1, h2 | h2⟩ <;>
    simp [value, wrap, h1, h2, defA, encOwn, encFields, encInherited, encInheritedDecls, F, firstDecls, Attrs.decls, NsMap.extend] <;> rfl
  | succ n ih =>
    obtain ⟨as, h1, h2⟩ := ih ⟨some c!"a", false⟩ ⟨rfl, .inr rfl⟩
    have hB : encTy L env .inner [c!"B"] (.struct [.vec [value n]]) = [.elem c!"a" as [] []] := by
      rw [encTy.eq_def, env_B]
      have : FieldDef.place defB.attrs (F c!"a" (.vec (.struct [c!"A"]))) = ⟨some c!"a", false⟩ := rfl
      simp only [wrap, Place.inner, Bool.or_true, if_true]
      rw [encFields.eq_def]
      simp only [defB]
      rw [encFields.eq_def L env _ _ [] [], List.append_nil]
      simp only [F, Bool.false_eq_true, if_false]
      rw [if_neg (by simp [FieldDef.selected])]
      rw [encItems.eq_def]
      simp only
      rw [encItems.eq_def L env _ _ [], List.append_nil]
      exact h1
    refine ⟨[⟨Name.ofStr c!"b", text n⟩], ?_, ?_⟩
    · rw [encTy.eq_def, env_A]
      have ho : encOwn L env defA.attrs (value (n + 1)) defA.fields [.some (.struct [.vec [value n]])] = [⟨Name.ofStr c!"b", text n⟩] := by
        rw [encOwn.eq_def]
        simp only [defA]
        rw [encOwn.eq_def L env _ _ [] [], List.append_nil, if_pos (by rfl)]
        simp only [F]
        rw [hB, hL, emit_a, h2]
        rfl
      have hi : encInherited L env defA.fields [.some (.struct [.vec [value n]])] = [] := by
        rw [encInherited.eq_def]
        simp only [defA]
        rw [encInherited.eq_def L env [] []]
        rfl
      have hd : encInheritedDecls env defA.fields [.some (.struct [.vec [value n]])] = [] := by
        rw [encInheritedDecls.eq_def]
        simp only [defA]
        rw [encInheritedDecls.eq_def env [] []]
        rfl
      have hf : encFields L env defA.attrs (value (n + 1)) defA.fields [.some (.struct [.vec [value n]])] = [] := by
        rw [encFields.eq_def]
        simp only [defA]
        rw [encFields.eq_def L env _ _ [] []]
        rfl
      rw [value] at ho hf ⊢
      simp only
      rw [ho, hi, hd, hf]
      rcases hpl with ⟨h1, h2 | h2⟩ <;> simp [wrap, h1, h2, defA, firstDecls, Attrs.decls, NsMap.extend] <;> rfl
    · simp only [List.flatMap_cons, List.flatMap_nil, List.append_nil, emitAttr, qname_ofStr, text]
      simp

theorem writes (L : Lib) (hL : L.emit = XmlText.emit) (n : Nat) :
    toStringWithConfig L env { writeDecl := false } [c!"A"] (value n) = .ok (text n) := by
  rw [toString_eq serOk (hasTy n)]
  obtain ⟨as, h1, h2⟩ := enc L hL n .root ⟨rfl, .inl rfl⟩
  rw [h1, hL, ← h2, ← emit_a]
  rfl

end Quoting

open Quoting in
/-- With attributes of derived types it need not be linear, without indentation and although the constants of the program are small:
every level of attributes escapes the quotes and angle brackets of all levels inside. -/
theorem C87_false (L : Lib) (hL : L.emit = XmlText.emit) (n : Nat) :
    ∃ s, toStringWithConfig L env { writeDecl := false } [c!"A"] (value n) = .ok s ∧ (value n).size = 4 * n + 2 ∧ n * n ≤ s.length :=
  ⟨text n, writes L hL n, value_size n, text_length n⟩

theorem no_factor {f g : Nat → Nat} (hf : ∀ n, f n ≤ 4 * n + 4) (hg : ∀ n, n * n ≤ g n) : ¬ ∃ A, ∀ n, g n ≤ A * (f n + 1) := by
  rintro ⟨A, h⟩
  have h1 := h (4 * A + 8)
  have h2 := hf (4 * A + 8)
  have h3 := hg (4 * A + 8)
  have h4 : A * (f (4 * A + 8) + 1) ≤ A * (4 * (4 * A + 8) + 5) := Nat.mul_le_mul_left _ (by omega)
  have h5 : (4 * A + 8) * (4 * A + 8) = 16 * (A * A) + 64 * A + 64 := by
    simp only [Nat.add_mul, Nat.mul_add]
    have : 4 * A * (4 * A) = 16 * (A * A) := by rw [Nat.mul_assoc, Nat.mul_left_comm A, ← Nat.mul_assoc]
    omega
  have h6 : A * (4 * (4 * A + 8) + 5) = 16 * (A * A) + 37 * A := by
    have : A * (4 * (4 * A)) = 16 * (A * A) := by rw [← Nat.mul_assoc 4, Nat.mul_left_comm]
    rw [Nat.mul_add, Nat.mul_add 4, Nat.mul_add]
    omega
  omega

open Quoting in
/-- No factor will do for this program. -/
theorem C87_false_factor (L : Lib) (hL : L.emit = XmlText.emit) (c : Nat) (h32 : ∀ b, (L.showF32 b).length ≤ c + 1)
    (h64 : ∀ b, (L.showF64 b).length ≤ c + 1) :
    Terse L env (c + 1) ∧ ¬ ∃ A, ∀ v s, HasTy env (.struct [c!"A"]) v →
      toStringWithConfig L env { writeDecl := false } [c!"A"] v = .ok s → s.length ≤ A * (v.size + 1) := by
  refine ⟨terse L c h32 h64, ?_⟩
  rintro ⟨A, h⟩
  refine no_factor (f := fun n => (value n).size) (g := fun n => (text n).length) (fun n => ?_) text_length
    ⟨A, fun n => h _ _ (hasTy n) (writes L hL n)⟩
  rw [value_size]; omega

/-! ### Indentation: quadratic -/

namespace Indenting
open Tests

def defA : StructDef := { name := c!"A", attrs := { rename := some c!"a" }, fields := [F c!"a" (.vec (.struct [c!"A"]))] }

/-- `#[yaserde(rename = "a")] struct A { a: Vec<A> }`. -/
def env : Env := envOf [([c!"A"], .struct defA)]

theorem env_A : env [c!"A"] = some (.struct defA) := by simp [env, envOf]

/-- `n` structs inside a struct, one inside the other. -/
def value : Nat → Val
  | 0 => .struct [.vec []]
  | n + 1 => .struct [.vec [value n]]

def tree : Nat → WNode
  | 0 => .elem c!"a" [] [] []
  | n + 1 => .elem c!"a" [] [] [tree n]

theorem value_size (n : Nat) : (value n).size = 2 * n + 2 := by
  induction n with
  | zero => rfl
  | succ n ih => simp only [value, Val.size, Val.sizeL, ih]; omega

theorem serOk : SerOk env := by
  refine ⟨fun p d h f hf => ?_, fun p d h => ?_, fun p d h => ?_⟩ <;> simp only [env, Tests.envOf, List.find?] at h <;> split at h
  · cases h
    simp only [defA, List.mem_cons, List.not_mem_nil, or_false] at hf
    subst hf; simp [FieldDef.SerOk, F]
  all_goals cases h

theorem noAttrOf : NoAttrOf env := by
  rintro p ⟨q, d, f, h, hf, ha, -⟩
  simp only [env, Tests.envOf, List.find?] at h
  split at h
  · cases h
    simp only [defA, List.mem_cons, List.not_mem_nil, or_false] at hf
    subst hf; cases ha
  · cases h

theorem terse (L : Lib) (c : Nat) (h32 : ∀ b, (L.showF32 b).length ≤ c + 1) (h64 : ∀ b, (L.showF64 b).length ≤ c + 1) : Terse L env (c + 1) := by
  refine ⟨fun p d h => ?_, fun p d h => ?_, fun p d h => ?_, h32, h64⟩ <;> simp only [env, Tests.envOf, List.find?] at h <;> split at h
  · cases h
    refine ⟨?_, ?_, fun f hf => ?_⟩
    · show 1 ≤ c + 1; omega
    · exact Nat.zero_le _
    · simp only [defA, List.mem_cons, List.not_mem_nil, or_false] at hf
      subst hf; show 1 ≤ c + 1; omega
  all_goals cases h

theorem hasTy (n : Nat) : HasTy env (.struct [c!"A"]) (value n) := by
  have key : ∀ vs, (∀ v ∈ vs, HasTy env (.struct [c!"A"]) v) → HasTy env (.struct [c!"A"]) (.struct [.vec vs]) := by
    intro vs hvs
    refine .struct _ defA _ env_A rfl fun i f v h1 h2 => ?_
    match i with
    | 0 =>
      simp only [defA, List.getElem?_cons_zero, Option.some.injEq] at h1 h2; subst h1 h2
      exact .vec _ _ hvs
    | i + 1 => simp [defA] at h1
  induction n with
  | zero => exact key _ (by simp)
  | succ n ih => exact key _ fun v hv => by simp only [List.mem_singleton] at hv; rw [hv]; exact ih

theorem enc (L : Lib) (n : Nat) (pl : Place) (hpl : pl.bare = false ∧ (pl.name = none ∨ pl.name = some c!"a")) :
    encTy L env pl [c!"A"] (value n) = [tree n] := by
  have key : ∀ vs pl, pl.bare = false ∧ (pl.name = none ∨ pl.name = some c!"a") →
      encTy L env pl [c!"A"] (.struct [.vec vs]) = [.elem c!"a" [] [] (encItems L env ⟨some c!"a", false⟩ [c!"A"] vs)] := by
    intro vs pl hpl
    rw [encTy.eq_def, env_A]
    have ho : ∀ x, encOwn L env defA.attrs x defA.fields [.vec vs] = [] := by
      intro x
      rw [encOwn.eq_def]
      simp only [defA]
      rw [encOwn.eq_def L env _ _ [] []]
      rfl
    have hi : encInherited L env defA.fields [.vec vs] = [] := by
      rw [encInherited.eq_def]
      simp only [defA]
      rw [encInherited.eq_def L env [] []]
      rfl
    have hd : encInheritedDecls env defA.fields [.vec vs] = [] := by
      rw [encInheritedDecls.eq_def]
      simp only [defA]
      rw [encInheritedDecls.eq_def env [] []]
      rfl
    have hf : ∀ x, encFields L env defA.attrs x defA.fields [.vec vs] = encItems L env ⟨some c!"a", false⟩ [c!"A"] vs := by
      intro x
      rw [encFields.eq_def]
      simp only [defA]
      rw [encFields.eq_def L env _ _ [] [], List.append_nil]
      simp only [F, Bool.false_eq_true, if_false]
      rw [if_neg (by simp [FieldDef.selected])]
      rfl
    simp only
    rw [ho, hi, hd, hf]
    rcases hpl with ⟨h1, h2 | h2⟩ <;> simp [wrap, h1, h2, defA, firstDecls, Attrs.decls, NsMap.extend] <;> rfl
  induction n generalizing pl with
  | zero =>
    rw [value, key _ _ hpl, encItems.eq_def]; rfl
  | succ n ih =>
    rw [value, key _ _ hpl, encItems.eq_def]
    simp only
    rw [encItems.eq_def L env _ _ [], ih _ ⟨rfl, .inr rfl⟩]
    rfl

/-- Nothing that has been written is taken back. -/
theorem step_grows (cfg : EmitCfg) (e : Em) (ev : WEv) : e.out.length ≤ (e.step cfg ev).out.length := by
  have hset : ∀ (e : Em) f, (e.setFlag f).out = e.out := by
    intro e f; unfold Em.setFlag; split <;> rfl
  have hstart : e.out.length ≤ (e.checkStarted cfg).out.length := by
    unfold Em.checkStarted
    split
    · omega
    · dsimp only
      split
      · rw [hset]; simp [Em.add]
      · exact Nat.le_refl _
  have hfix : ∀ e : Em, e.out.length ≤ e.fix.out.length := by
    intro e; unfold Em.fix; split
    · simp [Em.add]
    · omega
  have hbm : ∀ e : Em, e.out.length ≤ (e.beforeMarkup cfg).out.length := by
    intro e; unfold Em.beforeMarkup; split
    · omega
    · split
      · simp [Em.add]
      · omega
  unfold Em.step
  split
  · dsimp only [Em.add]
    rw [List.length_append]
    exact Nat.le_trans hstart (Nat.le_trans (hfix _) (Nat.le_trans (hbm _) (Nat.le_add_right _ _)))
  · dsimp only
    split
    · rw [hset]; simp [Em.add]
    · rw [hset]
      dsimp only [Em.add]
      rw [List.length_append]
      refine Nat.le_trans ?_ (Nat.le_add_right _ _)
      split
      · omega
      · split
        · simp
        · omega
  · rw [hset]
    dsimp only [Em.add]
    rw [List.length_append]
    exact Nat.le_trans hstart (Nat.le_trans (hfix _) (Nat.le_add_right _ _))
  · rw [hset]
    dsimp only [Em.add]
    rw [List.length_append]
    exact Nat.le_trans (hfix _) (Nat.le_add_right _ _)
  · exact Nat.le_refl _

/-- A start tag inside an element begins on a line of its own, behind the indentation. -/
theorem step_start (cfg : EmitCfg) (ind : Str) (hi : cfg.indent = some ind) (e : Em) (hs : e.started = true) (hf : e.flag = .markup) (n : Name) :
    e.out.length + e.opened.length * ind.length ≤ (e.step cfg (.start n [] [])).out.length ∧
      (e.step cfg (.start n [] [])).opened.length = e.opened.length + 1 ∧
      (e.step cfg (.start n [] [])).started = true ∧ (e.step cfg (.start n [] [])).flag = .markup := by
  have h1 : e.checkStarted cfg = e := by unfold Em.checkStarted; rw [if_pos hs]
  have h2 : e.fix.flag = .markup ∧ e.fix.opened = e.opened ∧ e.fix.started = true ∧ e.out.length ≤ e.fix.out.length := by
    unfold Em.fix
    split
    · exact ⟨hf, rfl, hs, by simp [Em.add]⟩
    · exact ⟨hf, rfl, hs, Nat.le_refl _⟩
  have h3 : e.fix.beforeMarkup cfg = e.fix.add (nl ind e.fix.opened.length) := by
    unfold Em.beforeMarkup
    rw [hi]
    simp only
    rw [if_pos ⟨by rw [h2.1]; decide, .inr h2.1⟩]
  have h4 : (nl ind e.opened.length).length = 1 + e.opened.length * ind.length := by
    simp [nl, Nat.add_comm]
  simp only [Em.step, h1, h3]
  refine ⟨?_, ?_, ?_, rfl⟩
  · simp only [Em.add, List.length_append, h2.2.1, h4]
    have := h2.2.2.2
    omega
  · simp [Em.add, h2.2.1]
  · exact h2.2.2.1

theorem tree_grows (cfg : EmitCfg) (ind : Str) (hi : cfg.indent = some ind) (n : Nat) : ∀ (e : Em), e.started = true → e.flag = .markup →
    2 * e.out.length + ind.length * ((n + 1) * (2 * e.opened.length + n)) ≤ 2 * (((tree n).events.foldl (Em.step cfg) e).out.length) := by
  induction n with
  | zero =>
    intro e hs hf
    obtain ⟨h1, -, -, -⟩ := step_start cfg ind hi e hs hf (Name.ofStr c!"a")
    have h2 := step_grows cfg (e.step cfg (.start (Name.ofStr c!"a") [] [])) (.endE (some (Name.ofStr c!"a")))
    have h3 : ind.length * ((0 + 1) * (2 * e.opened.length + 0)) = 2 * (e.opened.length * ind.length) := by
      rw [Nat.zero_add, Nat.one_mul, Nat.add_zero, Nat.mul_left_comm, Nat.mul_comm ind.length]
    have h4 : ((tree 0).events.foldl (Em.step cfg) e).out.length
        = ((e.step cfg (.start (Name.ofStr c!"a") [] [])).step cfg (.endE none)).out.length := rfl
    have h5 := step_grows cfg (e.step cfg (.start (Name.ofStr c!"a") [] [])) (.endE none)
    rw [h3, h4]
    omega
  | succ n ih =>
    intro e hs hf
    obtain ⟨h1, h2, h3, h4⟩ := step_start cfg ind hi e hs hf (Name.ofStr c!"a")
    have h5 := ih _ h3 h4
    rw [h2] at h5
    have h6 := step_grows cfg ((tree n).events.foldl (Em.step cfg) (e.step cfg (.start (Name.ofStr c!"a") [] []))) (.endE none)
    have h7 : ((tree (n + 1)).events.foldl (Em.step cfg) e)
        = (((tree n).events.foldl (Em.step cfg) (e.step cfg (.start (Name.ofStr c!"a") [] []))).step cfg (.endE none)) := by
      simp [tree, WNode.events, WNode.eventsL]
    have h8 : (n + 1 + 1) * (2 * e.opened.length + (n + 1)) = (n + 1) * (2 * (e.opened.length + 1) + n) + 2 * e.opened.length := by
      simp only [Nat.add_mul, Nat.mul_add]; omega
    have h9 : ind.length * (2 * e.opened.length) = 2 * (e.opened.length * ind.length) := by
      rw [Nat.mul_left_comm, Nat.mul_comm ind.length]
    rw [h7, h8, Nat.mul_add, h9]
    omega

end Indenting

open Indenting in
/-- With indentation it need not be linear either: every level of elements is indented. -/
theorem C87_indented (L : Lib) (hL : L.emit = XmlText.emit) (n : Nat) :
    ∃ s, toStringWithConfig L env { performIndent := true } [c!"A"] (value n) = .ok s ∧ (value n).size = 2 * n + 2 ∧ n * n ≤ s.length := by
  refine ⟨_, toString_eq serOk (hasTy n) _, value_size n, ?_⟩
  rw [enc L n .root ⟨rfl, .inl rfl⟩, hL]
  have h := tree_grows { indent := some c!"  " } c!"  " rfl n (({} : Em).checkStarted {}) rfl rfl
  have h1 : (tree n).events.foldl (Em.step { indent := some c!"  " }) (({} : Em).checkStarted {})
      = (WNode.eventsL [tree n]).foldl (Em.step { indent := some c!"  " }) {} := by
    simp only [WNode.eventsL, List.append_nil]
    cases n <;> rfl
  rw [h1] at h
  have h2 : n * n ≤ (n + 1) * (2 * (({} : Em).checkStarted {}).opened.length + n) := Nat.mul_le_mul (by omega) (by omega)
  have h3 : (c!"  ").length = 2 := rfl
  rw [h3] at h
  show n * n ≤ ((WNode.eventsL [tree n]).foldl (Em.step { indent := some c!"  " }) {}).out.length
  omega

open Indenting in
/-- No factor will do for this program, although it has no attributes and its constants are small. -/
theorem C87_indented_factor (L : Lib) (hL : L.emit = XmlText.emit) (c : Nat) (h32 : ∀ b, (L.showF32 b).length ≤ c + 1)
    (h64 : ∀ b, (L.showF64 b).length ≤ c + 1) :
    Terse L env (c + 1) ∧ NoAttrOf env ∧ ¬ ∃ A, ∀ v s, HasTy env (.struct [c!"A"]) v →
      toStringWithConfig L env { performIndent := true } [c!"A"] v = .ok s → s.length ≤ A * (v.size + 1) := by
  refine ⟨terse L c h32 h64, noAttrOf, ?_⟩
  rintro ⟨A, h⟩
  choose s hs using fun n => C87_indented L hL n
  refine no_factor (f := fun n => (value n).size) (g := fun n => (s n).length) (fun n => ?_) (fun n => (hs n).2.2)
    ⟨A, fun n => h _ _ (hasTy n) (hs n).1⟩
  rw [(hs n).2.1]; omega

/-! ### Non-vacuity -/

section
open Tests

/-- A library whose texts of floating-point numbers are short. -/
def terseLib : Lib := { lib with showF32 := fun _ => c!"1", showF64 := fun _ => c!"1" }

/-- `C87_linear_partial`: three levels of elements, written without indentation. -/
example : ∃ s, toStringWithConfig terseLib Indenting.env {} [c!"A"] (Indenting.value 3) = .ok s ∧ s.length ≤ spread 1 * (Indenting.value 3).size + 38 :=
  C87_linear_partial terseLib rfl Indenting.env Indenting.serOk 1 (Indenting.terse _ 0 (fun _ => Nat.le_refl 1) (fun _ => Nat.le_refl 1)) Indenting.noAttrOf {} rfl _ _
    (Indenting.hasTy 3)

example : toStringWithConfig terseLib Indenting.env {} [c!"A"] (Indenting.value 3)
    = .ok c!"<?xml version=\"1.0\" encoding=\"utf-8\"?><a><a><a><a /></a></a></a>" := by decide +kernel

/-- `C87_square`: the same with indentation, and attributes inside attributes. -/
example : ∃ s, toStringWithConfig terseLib Indenting.env { performIndent := true } [c!"A"] (Indenting.value 3) = .ok s ∧
    s.length ≤ 2 * spread 1 * (Indenting.value 3).size + 5 * spread 1 * ((Indenting.value 3).size * (Indenting.value 3).size) +
      2 * (spread 1 * (Indenting.value 3).size) * (spread 1 * (Indenting.value 3).size) + 38 :=
  C87_square terseLib rfl Indenting.env Indenting.serOk 1 (Indenting.terse _ 0 (fun _ => Nat.le_refl 1) (fun _ => Nat.le_refl 1)) { performIndent := true } _ _
    (Indenting.hasTy 3)

example : ∃ s, toStringWithConfig terseLib Quoting.env { writeDecl := false } [c!"A"] (Quoting.value 3) = .ok s ∧
    s.length ≤ 2 * spread 1 * (Quoting.value 3).size + 5 * spread 1 * ((Quoting.value 3).size * (Quoting.value 3).size) +
      0 * (spread 1 * (Quoting.value 3).size) * (spread 1 * (Quoting.value 3).size) + 38 :=
  C87_square terseLib rfl Quoting.env Quoting.serOk 1 (Quoting.terse _ 0 (fun _ => Nat.le_refl 1) (fun _ => Nat.le_refl 1)) { writeDecl := false } _ _
    (Quoting.hasTy 3)

/-- `C87_false`: what is written at three levels. -/
example : toStringWithConfig terseLib Quoting.env { writeDecl := false } [c!"A"] (Quoting.value 2)
    = .ok c!"<a b=\"&lt;a b=&quot;&amp;lt;a /&amp;gt;&quot; /&gt;\" />" := by decide +kernel

end

end Yaserde
