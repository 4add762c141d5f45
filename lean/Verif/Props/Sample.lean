import Verif.Tests.Repo
import Verif.Spec.Within
/-
A program and documents used to illustrate the property theorems: the `example`s beside them show
that their hypotheses are satisfied by non-trivial cases.
-/

set_option autoImplicit false
set_option maxRecDepth 100000

namespace Yaserde

mutual
theorem Val.eq_of_beq : ∀ a b : Val, Val.beq a b = true → a = b
  | .str _, b, h => by cases b <;> simp_all [Val.beq]
  | .bool _, b, h => by cases b <;> simp_all [Val.beq]
  | .int _, b, h => by cases b <;> simp_all [Val.beq]
  | .f32 _, b, h => by cases b <;> simp_all [Val.beq]
  | .f64 _, b, h => by cases b <;> simp_all [Val.beq]
  | .none, b, h => by cases b <;> simp_all [Val.beq]
  | .some x, b, h => by
    cases b <;> simp only [Val.beq, Bool.false_eq_true] at h
    rw [Val.eq_of_beq x _ h]
  | .vec x, b, h => by
    cases b <;> simp only [Val.beq, Bool.false_eq_true] at h
    rw [Val.eq_of_beqL x _ h]
  | .struct x, b, h => by
    cases b <;> simp only [Val.beq, Bool.false_eq_true] at h
    rw [Val.eq_of_beqL x _ h]
  | .enum i x, b, h => by
    cases b <;> simp only [Val.beq, Bool.false_eq_true, Bool.and_eq_true, beq_iff_eq] at h
    rw [h.1, Val.eq_of_beqL x _ h.2]
theorem Val.eq_of_beqL : ∀ a b : List Val, Val.beqL a b = true → a = b
  | [], b, h => by cases b <;> simp_all [Val.beqL]
  | x :: xs, b, h => by
    cases b <;> simp only [Val.beqL, Bool.false_eq_true, Bool.and_eq_true] at h
    rw [Val.eq_of_beq x _ h.1, Val.eq_of_beqL xs _ h.2]
end

namespace Tests

theorem returns_of_deOk {env : Env} {p s : Str} {v : Val} (h : deOk env p s v = true) :
    Returns lib env [p] s (.ok v) := by
  unfold deOk at h
  split at h
  · rename_i x hx
    refine ⟨by simp, 60, ?_⟩
    rw [← Val.eq_of_beq x v h]
    exact hx
  · cases h

theorem returns_of_deErr {env : Env} {p s : Str} {m : Str} (h : deErr env p s m = true) :
    Returns lib env [p] s (.err m) := by
  unfold deErr at h
  split at h
  · rename_i x hx
    refine ⟨by simp, 60, ?_⟩
    rw [← eq_of_beq h]
    exact hx
  · cases h

end Tests

namespace Sample
open Tests

def author : StructDef :=
  { name := c!"Author"
    fields := [F c!"name" Tests.S, F c!"age" (O (I .u8))] }

def color : EnumDef :=
  { name := c!"Color"
    variants := [vU c!"White", vU c!"Red" (rn c!"red"), vN c!"Mix" (T c!"Author"), vN c!"Grey" (I .u8)]
    dflt := .enum 0 [] }

def book : StructDef :=
  { name := c!"Book"
    attrs := rn c!"book"
    fields := [
      F c!"id" (I .u32) attr,
      F c!"tags" (V Tests.S) attr,
      F c!"title" Tests.S,
      F c!"author" (V (T c!"Author")),
      F c!"score" (V (I .i32)),
      F c!"color" (T c!"Color"),
      F c!"note" (O Tests.S),
      F c!"body" (O Tests.S) { text := true },
      { ident := c!"stock", ty := I .u16, dflt := some ⟨.int 5, fun _ => true⟩ }] }

def env : Env := envOf [([c!"Author"], .struct author), ([c!"Color"], .enum color), ([c!"Book"], .struct book)]

def el (n : Str) (ks : List Node) : Node := .elem ⟨n, none, none⟩ [] [] ks
def elA (n : Str) (as : List (Str × Str)) (ks : List Node) : Node :=
  .elem ⟨n, none, none⟩ (as.map fun a => ⟨⟨a.1, none, none⟩, a.2⟩) [] ks
def tx (s : Str) : Node := .text s

/-- A document with attributes, repeated and interleaved children, an unknown child, a malformed
scalar child, an enum and text. -/
def text1 : Str := c!"<?xml version=\"1.0\"?><book tags=\"a b\" id=\"7\"><title>T</title><author><name>A</name></author><score>1</score><zzz><title>no</title></zzz><score>x</score><author><name>B</name><age>44</age></author><score>2</score><color>red</color>hello<!-- end --></book>"

def authorA : Node := el c!"author" [el c!"name" [tx c!"A"]]
def authorB : Node := el c!"author" [el c!"name" [tx c!"B"], el c!"age" [tx c!"44"]]

def kids1 : List Node :=
  [el c!"title" [tx c!"T"], authorA, el c!"score" [tx c!"1"], el c!"zzz" [el c!"title" [tx c!"no"]],
   el c!"score" [tx c!"x"], authorB, el c!"score" [tx c!"2"], el c!"color" [tx c!"red"], tx c!"hello"]

def root (ks : List Node) : Node := elA c!"book" [(c!"tags", c!"a b"), (c!"id", c!"7")] ks

def doc1 : Node := root kids1

theorem isDoc1 : IsDoc (lib.parse text1) doc1 := ⟨[], by decide +kernel⟩

theorem env_author : env [c!"Author"] = some (.struct author) := rfl
theorem env_color : env [c!"Color"] = some (.enum color) := rfl
theorem env_book : env [c!"Book"] = some (.struct book) := rfl

theorem author_plain : author.Plain := by
  constructor <;> intro f hf
  all_goals
    simp only [author, List.mem_cons, List.not_mem_nil, or_false] at hf
    rcases hf with rfl | rfl <;> simp [F, FTy.core, Tests.S, I, O]

theorem book_plain : book.Plain := by
  constructor <;> intro f hf
  all_goals
    simp only [book, List.mem_cons, List.not_mem_nil, or_false] at hf
    rcases hf with rfl | rfl | rfl | rfl | rfl | rfl | rfl | rfl | rfl <;>
      simp [F, FTy.core, Tests.S, I, O, V, T, attr]

theorem not_hasFlat (d : StructDef) (h : d.hasFlat = false) : ¬ d.HasFlat := by
  rintro ⟨f, hf, h1, h2⟩
  simp only [StructDef.hasFlat, List.any_eq_false] at h
  exact h f hf (by simp [h1, h2])

theorem confAuthor (n : Name) (as : List Attr) (m : NsMap) (ks : List Node)
    (hn : author.fieldFor n = none) (hk : ConfKids lib env (fun _ _ => False) author ks) :
    ConfWith lib env (fun _ _ => False) (.elem n as m ks) [c!"Author"] := by
  rw [ConfWith, env_author]
  refine ⟨author_plain, .inr hn, hk, ?_, ?_⟩
  · intro f hf h1 h2
    have := not_hasFlat author (by decide) ⟨f, hf, h1, h2⟩
    exact this.elim
  · intro f hf h1 q hq
    simp only [author, List.mem_cons, List.not_mem_nil, or_false] at hf
    rcases hf with rfl | rfl <;> cases h1

/-- A scalar child. -/
theorem confScalar (d : StructDef) (hd : d.hasFlat = false) (n : Str) (ks : List Node) (t : STy)
    (ht : ∀ i f, d.fieldFor ⟨n, none, none⟩ = some i → d.fields[i]? = some f → f.ty.core = .simple t)
    (hk : textOnly ks) : ConfKid lib env (fun _ _ => False) d (el n ks) := by
  rw [el, ConfKid]
  refine ⟨by simp, fun i f hi hf => ⟨fun t' _ => ⟨hk, fun h => (not_hasFlat d hd h).elim⟩, fun q hq => ?_⟩⟩
  rw [ht i f hi hf] at hq
  cases hq

/-- A child no field claims. -/
theorem confOther (d : StructDef) (n : Str) (ks : List Node)
    (h : d.fieldFor ⟨n, none, none⟩ = none) : ConfKid lib env (fun _ _ => False) d (el n ks) := by
  rw [el, ConfKid]
  refine ⟨by simp, fun i f hi => ?_⟩
  rw [h] at hi
  cases hi

/-- A child read as a type of its own. -/
theorem confStruct (d : StructDef) (hd : d.hasFlat = false) (n : Str) (ks : List Node) (q : Path)
    (ht : ∀ i f, d.fieldFor ⟨n, none, none⟩ = some i → d.fields[i]? = some f → f.ty.core = .struct q)
    (hk : ConfWith lib env (fun _ _ => False) (el n ks) q) : ConfKid lib env (fun _ _ => False) d (el n ks) := by
  rw [el, ConfKid]
  refine ⟨by simp, fun i f hi hf => ⟨fun t' ht' => ?_, fun q' hq => ?_⟩⟩
  · rw [ht i f hi hf] at ht'; cases ht'
  · rw [ht i f hi hf] at hq; cases hq; exact ⟨hk, fun h => (not_hasFlat d hd h).elim⟩

theorem field_ty (d : StructDef) (n : Name) (j : Nat) (g : FieldDef) (c : FTy) (h1 : d.fieldFor n = some j)
    (h2 : d.fields[j]? = some g) (h3 : g.ty.core = c) :
    ∀ i f, d.fieldFor n = some i → d.fields[i]? = some f → f.ty.core = c := by
  intro i f hi hf
  rw [h1] at hi
  cases hi
  rw [h2] at hf
  cases hf
  exact h3

theorem conf_authorA : ConfWith lib env (fun _ _ => False) authorA [c!"Author"] := by
  refine confAuthor _ _ _ _ (by decide) ?_
  simp only [ConfKids, and_true]
  exact confScalar author (by decide) _ _ .string (field_ty _ _ 0 _ _ (by decide) rfl rfl) trivial

theorem conf_authorB : ConfWith lib env (fun _ _ => False) authorB [c!"Author"] := by
  refine confAuthor _ _ _ _ (by decide) ?_
  simp only [ConfKids, and_true]
  exact ⟨confScalar author (by decide) _ _ .string (field_ty _ _ 0 _ _ (by decide) rfl rfl) trivial,
    confScalar author (by decide) _ _ (.int .u8) (field_ty _ _ 1 _ _ (by decide) rfl rfl) trivial⟩

theorem conf_color (s : Str) (i : Nat) (v : VariantDef) (h1 : color.variantFor s = some i)
    (h2 : color.variants[i]? = some v) (h3 : v.shape = .unit) :
    ConfWith lib env (fun _ _ => False) (el c!"color" [tx s]) [c!"Color"] := by
  rw [el, ConfWith, env_color]
  exact ⟨by decide, .inl ⟨rfl, by decide, .inl ⟨i, v, h1, h2, h3⟩⟩⟩

theorem conf_book (n : Name) (as : List Attr) (m : NsMap) (ks : List Node)
    (hn : book.fieldFor n = none ∨ n = ⟨c!"book", none, none⟩) (hk : ∀ k ∈ ks, ConfKid lib env (fun _ _ => False) book k) :
    Conf lib env 0 (.elem n as m ks) [c!"Book"] := by
  rw [Conf, ConfWith, env_book]
  refine ⟨book_plain, ?_, ?_, ?_⟩
  · rcases hn with h | rfl
    · exact .inr h
    · exact .inl (by decide)
  · induction ks with
    | nil => simp [ConfKids]
    | cons k ks ih =>
      rw [ConfKids]
      exact ⟨hk k (List.mem_cons_self ..), ih fun k' h' => hk k' (List.mem_cons_of_mem _ h')⟩
  · refine ⟨?_, ?_⟩
    · intro f hf h1 h2
      have := not_hasFlat book (by decide) ⟨f, hf, h1, h2⟩
      exact this.elim
    · intro f hf h1 q hq
      simp only [book, List.mem_cons, List.not_mem_nil, or_false] at hf
      rcases hf with rfl | rfl | rfl | rfl | rfl | rfl | rfl | rfl | rfl <;>
        simp [F, FTy.core, Tests.S, I, O, V, T, attr] at h1 hq

theorem conf_title (s : Str) : ConfKid lib env (fun _ _ => False) book (el c!"title" [tx s]) :=
  confScalar book (by decide) _ _ .string (field_ty _ _ 2 _ _ (by decide) rfl rfl) trivial
theorem conf_score (s : Str) : ConfKid lib env (fun _ _ => False) book (el c!"score" [tx s]) :=
  confScalar book (by decide) _ _ (.int .i32) (field_ty _ _ 4 _ _ (by decide) rfl rfl) trivial
theorem conf_kidA : ConfKid lib env (fun _ _ => False) book authorA :=
  confStruct book (by decide) _ _ _ (field_ty _ _ 3 _ _ (by decide) rfl rfl) conf_authorA
theorem conf_kidB : ConfKid lib env (fun _ _ => False) book authorB :=
  confStruct book (by decide) _ _ _ (field_ty _ _ 3 _ _ (by decide) rfl rfl) conf_authorB
theorem conf_red : ConfKid lib env (fun _ _ => False) book (el c!"color" [tx c!"red"]) :=
  confStruct book (by decide) _ _ _ (field_ty _ _ 5 _ _ (by decide) rfl rfl) (conf_color _ 1 _ (by decide) rfl rfl)
theorem conf_text (s : Str) (h : s ≠ []) : ConfKid lib env (fun _ _ => False) book (tx s) := by
  rw [tx, ConfKid]; exact h

theorem conf1 : Conf lib env 0 doc1 [c!"Book"] := by
  refine conf_book _ _ _ _ (.inr rfl) ?_
  intro k hk
  simp only [kids1, List.mem_cons, List.not_mem_nil, or_false] at hk
  rcases hk with rfl | rfl | rfl | rfl | rfl | rfl | rfl | rfl | rfl
  · exact conf_title _
  · exact conf_kidA
  · exact conf_score _
  · exact confOther _ _ _ (by decide)
  · exact conf_score _
  · exact conf_kidB
  · exact conf_score _
  · exact conf_red
  · exact conf_text _ (by simp)

/-- The value of the sample document. -/
def val1 : List Val :=
  [.int 7, .vec [.str c!"a", .str c!"b"], .str c!"T",
   .vec [.struct [.str c!"A", .none], .struct [.str c!"B", .some (.int 44)]],
   .vec [.int 1, .int 2], .enum 1 [], .none, .some (.str c!"hello"), .int 5]

theorem returns1 : Returns lib env [c!"Book"] text1 (.ok (.struct val1)) :=
  returns_of_deOk (by decide +kernel)

end Sample
end Yaserde
