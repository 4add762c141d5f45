import Verif.Props.SizeAttr
/-
C86 with an attribute of a derived type and a scalar one that have the same name: not linear.
-/

set_option autoImplicit false
set_option maxRecDepth 100000

namespace Yaserde

open XmlText

namespace Copied
open Tests
open Twice (text tree doc doc_text doc_attr isDoc specials_text)

def defA : StructDef :=
  { name := c!"A", attrs := { rename := some c!"a" }
    fields := [F c!"l" (.opt (.struct [c!"B"])) { isAttr := true, rename := some c!"b" },
      F c!"r" (.opt (.simple .string)) { isAttr := true, rename := some c!"b" }] }

def defB : StructDef := { name := c!"B", fields := [F c!"a" (.vec (.struct [c!"A"]))] }

/-- `#[yaserde(rename = "a")] struct A { #[yaserde(attribute, rename = "b")] l: Option<B>, #[yaserde(attribute, rename = "b")] r: Option<String> }`
and `struct B { a: Vec<A> }`. -/
def env : Env := envOf [([c!"A"], .struct defA), ([c!"B"], .struct defB)]

theorem env_A : env [c!"A"] = some (.struct defA) := by simp [env, envOf]
theorem env_B : env [c!"B"] = some (.struct defB) := by simp [env, envOf]

/-- What is read from the texts of `C86_false_attr`: one field gets what is inside, the other keeps the text of it. -/
def value : Nat → Val
  | 0 => .struct [.none, .none]
  | n + 1 => .struct [.some (.struct [.vec [value n]]), .some (.str (text n))]

theorem length_escAttr_ge (s : Str) : s.length + 3 * specials s ≤ (escAttr s).length := by
  induction s with
  | nil => simp [specials, wt]
  | cons c s ih =>
    have : 1 + 3 * isSpecial c ≤ (escAttrChar c).length := by
      unfold isSpecial
      split
      · rename_i h; rw [h]; simp
      · rename_i h
        revert h
        unfold escAttrChar
        repeat' split
        all_goals simp
    unfold escAttr at ih ⊢
    rw [List.flatMap_cons, specials, wt_cons, List.length_append, List.length_cons]
    unfold specials at ih
    omega

theorem text_length_ge (n : Nat) : 6 * (n * n) ≤ (text n).length := by
  induction n with
  | zero => simp
  | succ n ih =>
    have h1 := length_escAttr_ge (text n)
    rw [specials_text] at h1
    have h2 : (n + 1) * (n + 1) = n * n + n + n + 1 := by rw [Nat.add_mul, Nat.mul_add]; omega
    simp only [text, List.length_append, List.length_cons, List.length_nil]
    omega

theorem value_size (n : Nat) : 2 * (n * n * n) ≤ (value n).size + 3 * (n * n) := by
  induction n with
  | zero => simp
  | succ n ih =>
    have h1 := text_length_ge n
    have h2 : (n + 1) * (n + 1) = n * n + n + n + 1 := by rw [Nat.add_mul, Nat.mul_add]; omega
    have h3 : (n + 1) * (n + 1) * (n + 1) = n * n * n + 3 * (n * n) + 3 * n + 1 := by
      rw [h2]
      simp only [Nat.add_mul, Nat.mul_add, Nat.mul_one, Nat.one_mul]
      omega
    simp only [value, Val.size, Val.sizeL]
    omega

theorem plain_A : defA.Plain := by
  refine ⟨fun f hf => ?_, fun f hf h => ?_, fun f hf h1 h2 => ?_⟩ <;>
    simp only [defA, List.mem_cons, List.not_mem_nil, or_false] at hf <;> rcases hf with rfl | rfl
  · exact .inr ⟨_, rfl⟩
  · exact .inl ⟨_, rfl⟩
  · cases h
  · cases h
  · cases h2
  · cases h2

theorem plain_B : defB.Plain := by
  refine ⟨fun f hf => ?_, fun f hf h => ?_, fun f hf h1 h2 => ?_⟩ <;>
    simp only [defB, List.mem_cons, List.not_mem_nil, or_false] at hf <;> rcases hf with rfl
  · exact .inr ⟨_, rfl⟩
  · cases h
  · cases h2

theorem fieldFor_B : defB.fieldFor ⟨c!"a", none, none⟩ = some 0 := rfl

theorem confWith_struct {L : Lib} {fc : Node → Path → Prop} {n : Name} {as : List Attr} {m : NsMap} {ks : List Node} {p : Path}
    {d : StructDef} (hp : env p = some (.struct d)) (h : d.Plain ∧
        ((n.loc = d.attrs.rename.getD d.name ∧
            n.ns.getD [] = (d.attrs.namespaces.find d.attrs.pfx).getD []) ∨ d.fieldFor n = none) ∧
        ConfKids L env fc d ks ∧
        (∀ f ∈ d.fields, f.attrs.isAttr = false → f.attrs.flatten = true →
          ∀ q, f.ty.core = .struct q → fc (d.residue n as m ks) q) ∧
        (∀ f ∈ d.fields, f.attrs.isAttr = true → ∀ q, f.ty.core = .struct q →
          ∀ a ∈ as, a.name.loc = f.label → ∀ s ∈ f.ty.attrTexts a.value, fc (.text s) q)) :
    ConfWith L env fc (.elem n as m ks) p := by
  rw [ConfWith, hp]
  exact h

theorem conf_doc {L : Lib} (n k : Nat) (h : ConfN L env k (tree n) [c!"A"]) : ConfN L env k (doc c!"B" n) [c!"B"] := by
  rw [confN_eq] at h ⊢
  refine confWith_struct env_B ⟨plain_B, .inl ⟨rfl, rfl⟩, ?_, fun f hf _ h => ?_, fun f hf h => ?_⟩
  · have : ∃ as, tree n = .elem ⟨c!"a", none, none⟩ as [] [] := by cases n <;> exact ⟨_, rfl⟩
    obtain ⟨as, e⟩ := this
    rw [e] at h ⊢
    rw [ConfKids, ConfKid, ConfKids]
    refine ⟨⟨by simp, fun i f hi hf => ?_⟩, trivial⟩
    rw [fieldFor_B] at hi
    cases hi
    cases hf
    refine ⟨fun t ht => (by cases ht), fun p hp => ⟨?_, ?_⟩⟩
    · cases hp; exact h
    · rintro ⟨f, hf, h1, h2⟩
      simp only [defB, List.mem_cons, List.not_mem_nil, or_false] at hf
      rcases hf with rfl
      cases h2
  all_goals
    simp only [defB, List.mem_cons, List.not_mem_nil, or_false] at hf
    rcases hf with rfl
    cases h

/-- The documents conform to the type. -/
theorem conf {L : Lib} (hL : L.parse = XmlText.parse) (n : Nat) : ∀ k, n < k → ConfN L env k (tree n) [c!"A"] := by
  induction n with
  | zero =>
    intro k hk
    rw [confN_eq]
    refine confWith_struct env_A ⟨plain_A, .inl ⟨rfl, rfl⟩, by rw [ConfKids]; trivial, fun f hf _ h => ?_, fun f hf h q hq a ha => ?_⟩
    · simp only [defA, List.mem_cons, List.not_mem_nil, or_false] at hf
      rcases hf with rfl | rfl <;> cases h
    · cases ha
  | succ n ih =>
    intro k hk
    obtain ⟨k, rfl⟩ : ∃ j, k = j + 1 := ⟨k - 1, by omega⟩
    rw [confN_eq]
    refine confWith_struct env_A ⟨plain_A, .inl ⟨rfl, rfl⟩, by rw [ConfKids]; trivial, fun f hf _ h => ?_, fun f hf h q hq a ha hn s hs => ?_⟩
    · simp only [defA, List.mem_cons, List.not_mem_nil, or_false] at hf
      rcases hf with rfl | rfl <;> cases h
    · simp only [List.mem_cons, List.not_mem_nil, or_false] at ha
      subst ha
      have hq' : q = [c!"B"] ∧ s = text n := by
        simp only [defA, List.mem_cons, List.not_mem_nil, or_false] at hf
        rcases hf with rfl | rfl
        · simp only [F, FTy.attrTexts, List.mem_cons, List.not_mem_nil, or_false] at hs
          exact ⟨(FTy.struct.inj hq).symm, hs⟩
        · cases hq
      obtain ⟨rfl, rfl⟩ := hq'
      refine ⟨doc c!"B" n, isDoc hL (doc_attr _ (.inl rfl) n), ?_, conf_doc n k (ih k (by omega))⟩
      have : (doc c!"B" n).events.length = 4 := by cases n <;> rfl
      omega

theorem decode_doc (L : Lib) (n k : Nat) {v : Val} (h : decodeN L env k (tree n) [c!"A"] = .ok v) :
    decodeN L env k (doc c!"B" n) [c!"B"] = .ok (.struct [.vec [v]]) := by
  rw [decodeN_eq] at h ⊢
  rw [doc, decodeWith, env_B]
  have hk : kidContribs L defB [tree n] (decodeL L env (flatN L env k) [tree n]) = .ok [(0, v)] := by
    have : kidContrib L defB (decodeWith L env (flatN L env k) (tree n)) (tree n) = .ok [(0, v)] := by
      have : ∃ as, tree n = .elem ⟨c!"a", none, none⟩ as [] [] := by cases n <;> exact ⟨_, rfl⟩
      obtain ⟨as, e⟩ := this
      rw [e] at h ⊢
      simp only [kidContrib, fieldFor_B, show defB.fields[0]? = some (F c!"a" (.vec (.struct [c!"A"]))) from rfl,
        show (F c!"a" (.vec (.struct [c!"A"]))).ty.core = .struct [c!"A"] from rfl, h, Res.bind]
    simp [kidContribs, decodeL, this, Res.collect, Res.bind]
  have ha : attrContribs L (userAttr (flatN L env k)) defB [] = .ok [] := rfl
  simp only [decodeStruct, ha, hk, Res.bind]
  rfl

theorem decode_tree {L : Lib} (hL : L.parse = XmlText.parse) (n : Nat) : ∀ k, n < k → decodeN L env k (tree n) [c!"A"] = .ok (value n) := by
  induction n with
  | zero =>
    intro k hk
    rw [decodeN_eq, tree, decodeWith, env_A]
    rfl
  | succ n ih =>
    intro k hk
    obtain ⟨k, rfl⟩ : ∃ j, k = j + 1 := ⟨k - 1, by omega⟩
    have hi := ih k (by omega)
    have hu : userAttr (flatN L env (k + 1)) [c!"B"] (text n) = .ok (.struct [.vec [value n]]) := by
      have := flatN_text (env := env) (k := k) (isDoc hL (doc_attr _ (.inl rfl) n))
      unfold userAttr
      rw [this, decodeDocWith, env_B]
      dsimp only
      rw [if_pos (by intro u hu; cases hu)]
      exact decode_doc L n k hi
    rw [decodeN_eq, tree, decodeWith, env_A]
    have ha : attrContribs L (userAttr (flatN L env (k + 1))) defA [⟨⟨c!"b", none, none⟩, text n⟩] =
        .ok [(0, .struct [.vec [value n]]), (1, .str (text n))] := by
      have hv : visitS L .string (text n) = .ok (.str (text n)) := rfl
      simp [attrContribs, defA, attrContrib, F, attrValues, hu, Res.collect, Res.bind, FieldDef.label, hv]
    have hk : kidContribs L defA [] (decodeL L env (flatN L env (k + 1)) []) = .ok [] := rfl
    dsimp only
    unfold decodeStruct
    rw [ha, hk]
    rfl

end Copied

open Copied in
/-- **C86 is false of the code** also if an attribute field of a derived type has the name of a scalar one: texts of `O(n * n)`
characters are read as values of size at least `2 * n * n * n - 3 * n * n`, and no factor will do. -/
theorem C86_false_scalar (L : Lib) (hp : L.parse = XmlText.parse) :
    (∀ n, ∃ v, Returns L env [c!"A"] (Twice.text n) (.ok v) ∧ (Twice.text n).length ≤ 10 * (n * n) + 10 * n + 4 ∧
      2 * (n * n * n) ≤ v.size + 3 * (n * n)) ∧
    ¬ ∃ A, ∀ s v, Returns L env [c!"A"] s (.ok v) → v.size ≤ A * (s.length + 1) := by
  have h : ∀ n, ∃ v, Returns L env [c!"A"] (Twice.text n) (.ok v) ∧ (Twice.text n).length ≤ 10 * (n * n) + 10 * n + 4 ∧
      2 * (n * n * n) ≤ v.size + 3 * (n * n) := by
    intro n
    refine ⟨value n, ?_, Twice.text_length n, value_size n⟩
    rw [C74_reads_partial L hp env (n + 1) _ (Twice.doc_text n) (conf hp n (n + 1) (Nat.lt_succ_self n)) _]
    rw [decodeDocN, decodeDocWith, env_A]
    dsimp only
    rw [if_pos]
    · exact (decode_tree hp n (n + 1) (Nat.lt_succ_self n)).symm
    · cases n <;> (intro u hu; cases hu)
  refine ⟨h, ?_⟩
  rintro ⟨A, hA⟩
  obtain ⟨v, h1, h2, h3⟩ := h (13 * A + 4)
  have h4 := hA _ v h1
  generalize hn : 13 * A + 4 = n at h2 h3 h4
  have h5 : A * ((Twice.text n).length + 1) ≤ A * (25 * (n * n)) := by
    refine Nat.mul_le_mul_left _ ?_
    have : n ≤ n * n := Nat.le_mul_of_pos_right n (by omega)
    omega
  have h6 : A * (25 * (n * n)) = 25 * A * (n * n) := by rw [← Nat.mul_assoc, Nat.mul_comm A 25]
  have h7 : 2 * (n * n * n) = 2 * n * (n * n) := by rw [Nat.mul_assoc 2 n, Nat.mul_comm n (n * n)]
  have h8 : (25 * A + 4) * (n * n) ≤ 2 * n * (n * n) := Nat.mul_le_mul_right _ (by omega)
  have h9 : 1 ≤ n * n := Nat.mul_pos (by omega) (by omega)
  rw [Nat.add_mul] at h8
  omega

end Yaserde
