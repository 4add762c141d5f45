import Verif.Proofs.EvolveTree
import Verif.Proofs.Rename
import Verif.Props.Decode
import Verif.Props.RoundTrip
/-
C73: fields can be added to structs, and reordered.
-/

set_option autoImplicit false
set_option maxRecDepth 100000

namespace Yaserde

/-- C73, older program, newer document.  A document that conforms to the newer version of the program (or is one
of its recursive types, C94) and is read by it is read by the older version, too, with the same values in the fields both versions have. -/
theorem C73_older_program_reads {L : Lib} {env env' : Env} (hg : Grow env env') (hnf : NoFlatten env') {k : Nat}
    {p : Path} (hp : env p ≠ none) {s : Str} {x : Node} (hdoc : IsDoc (L.parse s) x) (hconf : Readable L env' k x p)
    {v' : Val} (h : Returns L env' p s (.ok v')) :
    ∃ v, Returns L env p s (.ok v) ∧ Cut env env' (.struct p) v v' := by
  rw [hconf.returns hdoc] at h
  obtain ⟨v, hv, hc⟩ := decodeDocWith_foll (down := true) hg hp (decodeN_down (L := L) hg hnf k x p hp) v' h
  exact ⟨v, ((readable_down hg hnf k x p hp hconf).returns hdoc _).mpr hv, hc⟩

/-- C73, newer program, older document.  A document that conforms to the older version of the program (or is one
of its recursive types) and is read by it is read by the newer version, too, with the same values in the fields both versions have — if the added fields may
be left out and nothing in the document is named like one of them. -/
theorem C73_newer_program_reads {L : Lib} {env env' : Env} (hg : Grow env env') (hnf : NoFlatten env')
    (hadd : ∀ f', AddedField env env' f' → f'.Optional) {p : Path} {s : Str} {x : Node}
    (hdoc : IsDoc (L.parse s) x) (hconf : Readable L env 0 x p) (hx : x.silent (AddedName env env'))
    {v : Val} (h : Returns L env p s (.ok v)) :
    ∃ v', Returns L env' p s (.ok v') ∧ Cut env env' (.struct p) v v' := by
  have hp : env p ≠ none := readable_known hconf
  rw [hconf.returns hdoc] at h
  obtain ⟨v', hv, hc⟩ := decodeDocWith_foll (down := false) hg hp
    (decodeN_up (L := L) hg hnf x p hp fun _ => ⟨hadd, hx⟩) v h
  exact ⟨v', ((readable_up hg hnf x p hp hx hconf).returns hdoc _).mpr hv, hc⟩

/-- The value of the older program is determined by that of the newer one. -/
theorem C73_cut_unique {env env' : Env} (hg : Grow env env') {t : FTy} {v w v' : Val} (h : Cut env env' t v v')
    (h' : Cut env env' t w v') : v = w := cut_unique hg h h'

/-- C73 with the writer: what the newer program writes is read by the older one. -/
theorem C73_older_reads_what_newer_writes {L : Lib} (hL : XmlLaw L) {env env' : Env} (hg : Grow env env')
    (hnf : NoFlatten env') {G : NsMap} (hrt : RtOk env' G) (hok : SerOk env') {p : Path} (hp : env p ≠ none)
    (hroot : RootOk env' G p) {v' : Val} (hv : HasTy env' (.struct p) v') (hc : Canon L env' (.struct p) v') :
    ∃ s v, toString L env' p v' = .ok s ∧ Returns L env p s (.ok v) ∧ Cut env env' (.struct p) v v' := by
  obtain ⟨s, y, k, h1, h2, h3, h4⟩ := written_doc hL hrt hok hroot hv hc {} blank_default
  obtain ⟨v, h5, h6⟩ := C73_older_program_reads hg hnf hp h2 (.inl h3) h4
  exact ⟨s, v, h1, h5, h6⟩

/-! ### An example -/

theorem nodup_get {α : Type} {l : List α} {g : α → Str} (h : (l.map g).Nodup) (i j : Nat) (a b : α)
    (ha : l[i]? = some a) (hb : l[j]? = some b) (he : g a = g b) : i = j := by
  have hi := (List.getElem?_eq_some_iff.mp ha).1
  refine (List.getElem?_inj (by simpa using hi) h).mp ?_
  rw [List.getElem?_map, List.getElem?_map, ha, hb]
  simp [he]

theorem growStruct_of {env env' : Env} {d d' : StructDef} (hname : d'.name = d.name) (hattrs : d'.attrs = d.attrs)
    (hplain : d'.Plain) (h1 : (d.fields.map FieldDef.ident).Nodup) (h2 : (d'.fields.map FieldDef.ident).Nodup)
    (h3 : (d'.fields.map FieldDef.label).Nodup) (hk : ∀ f ∈ d.fields, ∃ f' ∈ d'.fields, KeptField env env' f f') :
    GrowStruct env env' d d' :=
  ⟨hname, hattrs, hplain, nodup_get h1, nodup_get h2,
    fun i j f g n hf hg hc hc' => nodup_get h3 i j f g hf hg (hc.2.2.trans hc'.2.2.symm), hk⟩

theorem kept_self {env env' : Env} {f : FieldDef} (h : f.dflt = none) : KeptField env env' f f :=
  ⟨rfl, rfl, rfl, by rw [h]; trivial⟩

namespace Evolve
open Tests Sample

/-- An earlier version of the sample program: fewer fields, in another order. -/
def oldAuthor : StructDef := { name := c!"Author", fields := [F c!"name" Tests.S] }

def oldBook : StructDef :=
  { name := c!"Book"
    attrs := rn c!"book"
    fields := [
      F c!"author" (V (T c!"Author")),
      F c!"title" Tests.S,
      F c!"color" (T c!"Color"),
      { ident := c!"stock", ty := I .u16, dflt := some ⟨.int 5, fun _ => true⟩ },
      F c!"id" (I .u32) attr,
      F c!"body" (O Tests.S) { text := true }] }

def old : Env := envOf [([c!"Author"], .struct oldAuthor), ([c!"Color"], .enum color), ([c!"Book"], .struct oldBook)]

/-- A later version. -/
def newAuthor : StructDef :=
  { name := c!"Author", fields := [F c!"name" Tests.S, F c!"born" (O (I .i32)) attr, F c!"age" (O (I .u8))] }

def newBook : StructDef :=
  { name := c!"Book"
    attrs := rn c!"book"
    fields := [
      F c!"year" (O (I .u16)) attr,
      F c!"id" (I .u32) attr,
      F c!"tags" (V Tests.S) attr,
      F c!"title" Tests.S,
      F c!"editor" (V (T c!"Author")),
      F c!"author" (V (T c!"Author")),
      F c!"score" (V (I .i32)),
      F c!"color" (T c!"Color"),
      F c!"note" (O Tests.S),
      F c!"body" (O Tests.S) { text := true },
      { ident := c!"stock", ty := I .u16, dflt := some ⟨.int 5, fun _ => true⟩ },
      { ident := c!"price", ty := I .u32, dflt := some ⟨.int 0, fun _ => true⟩ }] }

def new : Env := envOf [([c!"Author"], .struct newAuthor), ([c!"Color"], .enum color), ([c!"Book"], .struct newBook)]

theorem env_cases {a b : StructDef} {c : EnumDef} {p : Path} {td : TypeDef}
    (h : envOf [([c!"Author"], .struct a), ([c!"Color"], .enum c), ([c!"Book"], .struct b)] p = some td) :
    (p = [c!"Author"] ∧ td = .struct a) ∨ (p = [c!"Color"] ∧ td = .enum c) ∨ (p = [c!"Book"] ∧ td = .struct b) := by
  have := mem_envOf h
  simpa using this

theorem grow_of {a b a' b' : StructDef} {env env' : Env}
    (he : env = envOf [([c!"Author"], .struct a), ([c!"Color"], .enum color), ([c!"Book"], .struct b)])
    (he' : env' = envOf [([c!"Author"], .struct a'), ([c!"Color"], .enum color), ([c!"Book"], .struct b')])
    (ha : GrowStruct env env' a a') (hb : GrowStruct env env' b b')
    (hta : ∀ f ∈ a.fields, ∀ q, f.ty.core = .struct q → q = [c!"Author"] ∨ q = [c!"Color"])
    (htb : ∀ f ∈ b.fields, ∀ q, f.ty.core = .struct q → q = [c!"Author"] ∨ q = [c!"Color"]) : Grow env env' := by
  have hdef : ∀ q, q = [c!"Author"] ∨ q = [c!"Color"] → env q ≠ none := by
    rintro q (rfl | rfl) <;> rw [he] <;> simp [envOf]
  constructor
  · intro p d hp
    rw [he] at hp
    rcases env_cases hp with ⟨rfl, h⟩ | ⟨rfl, h⟩ | ⟨rfl, h⟩ <;> cases h
    · exact ⟨a', by rw [he']; rfl, ha⟩
    · exact ⟨b', by rw [he']; rfl, hb⟩
  · intro p d hp
    have hp0 := hp
    rw [he] at hp
    rcases env_cases hp with ⟨rfl, h⟩ | ⟨rfl, h⟩ | ⟨rfl, h⟩ <;> cases h
    exact ⟨color.dflt, by rw [he']; rfl, .enum _ _ 0 _ [] [] hp0 rfl rfl (fun _ _ => rfl) fun j t v v' _ h => by simp at h⟩
  · intro p d hp
    rw [he] at hp
    rcases env_cases hp with ⟨rfl, h⟩ | ⟨rfl, h⟩ | ⟨rfl, h⟩ <;> cases h
  · intro p d hp f hf q hq
    rw [he] at hp
    rcases env_cases hp with ⟨rfl, h⟩ | ⟨rfl, h⟩ | ⟨rfl, h⟩ <;> cases h
    · exact hdef q (hta f hf q hq)
    · exact hdef q (htb f hf q hq)
  · intro p d hp v hv t ht q hq
    rw [he] at hp
    rcases env_cases hp with ⟨rfl, h⟩ | ⟨rfl, h⟩ | ⟨rfl, h⟩ <;> cases h
    simp only [color, vU, vN, List.mem_cons, List.not_mem_nil, or_false] at hv
    rcases hv with rfl | rfl | rfl | rfl <;> cases ht
    · exact hdef q (by cases hq; exact .inl rfl)
    · cases hq

theorem kept_stock {env env' : Env} : KeptField env env' 
    { ident := c!"stock", ty := I .u16, dflt := some ⟨.int 5, fun _ => true⟩ }
    { ident := c!"stock", ty := I .u16, dflt := some ⟨.int 5, fun _ => true⟩ } :=
  ⟨rfl, rfl, rfl, .simple _ _⟩

theorem growOld : Grow old Sample.env := by
  refine grow_of rfl rfl (growStruct_of rfl rfl (plain_of_check (by decide)) (by decide) (by decide) (by decide) ?_)
    (growStruct_of rfl rfl (plain_of_check (by decide)) (by decide) (by decide) (by decide) ?_) ?_ ?_
  · intro f hf
    simp only [oldAuthor, List.mem_cons, List.not_mem_nil, or_false] at hf
    subst hf
    exact ⟨_, by simp [author], kept_self rfl⟩
  · intro f hf
    simp only [oldBook, List.mem_cons, List.not_mem_nil, or_false] at hf
    rcases hf with rfl | rfl | rfl | rfl | rfl | rfl
    · exact ⟨_, by simp [Sample.book], kept_self rfl⟩
    · exact ⟨_, by simp [Sample.book], kept_self rfl⟩
    · exact ⟨_, by simp [Sample.book], kept_self rfl⟩
    · exact ⟨_, by simp [Sample.book], kept_stock⟩
    · exact ⟨_, by simp [Sample.book], kept_self rfl⟩
    · exact ⟨_, by simp [Sample.book], kept_self rfl⟩
  · intro f hf q hq
    simp only [oldAuthor, List.mem_cons, List.not_mem_nil, or_false] at hf
    subst hf
    cases hq
  · intro f hf q hq
    simp only [oldBook, List.mem_cons, List.not_mem_nil, or_false] at hf
    rcases hf with rfl | rfl | rfl | rfl | rfl | rfl <;> cases hq <;> simp

theorem growNew : Grow Sample.env new := by
  refine grow_of rfl rfl (growStruct_of rfl rfl (plain_of_check (by decide)) (by decide) (by decide) (by decide) ?_)
    (growStruct_of rfl rfl (plain_of_check (by decide)) (by decide) (by decide) (by decide) ?_) ?_ ?_
  · intro f hf
    simp only [author, List.mem_cons, List.not_mem_nil, or_false] at hf
    rcases hf with rfl | rfl
    · exact ⟨_, by simp [newAuthor], kept_self rfl⟩
    · exact ⟨_, by simp [newAuthor], kept_self rfl⟩
  · intro f hf
    simp only [Sample.book, List.mem_cons, List.not_mem_nil, or_false] at hf
    rcases hf with rfl | rfl | rfl | rfl | rfl | rfl | rfl | rfl | rfl
    · exact ⟨_, by simp [newBook], kept_self rfl⟩
    · exact ⟨_, by simp [newBook], kept_self rfl⟩
    · exact ⟨_, by simp [newBook], kept_self rfl⟩
    · exact ⟨_, by simp [newBook], kept_self rfl⟩
    · exact ⟨_, by simp [newBook], kept_self rfl⟩
    · exact ⟨_, by simp [newBook], kept_self rfl⟩
    · exact ⟨_, by simp [newBook], kept_self rfl⟩
    · exact ⟨_, by simp [newBook], kept_self rfl⟩
    · exact ⟨_, by simp [newBook], kept_stock⟩
  · intro f hf q hq
    simp only [author, List.mem_cons, List.not_mem_nil, or_false] at hf
    rcases hf with rfl | rfl <;> cases hq
  · intro f hf q hq
    simp only [Sample.book, List.mem_cons, List.not_mem_nil, or_false] at hf
    rcases hf with rfl | rfl | rfl | rfl | rfl | rfl | rfl | rfl | rfl <;> cases hq <;> simp

theorem noFlatten_of {a b : StructDef} (ha : a.hasFlat = false) (hb : b.hasFlat = false) :
    NoFlatten (envOf [([c!"Author"], .struct a), ([c!"Color"], .enum color), ([c!"Book"], .struct b)]) := by
  intro p d hp
  rcases env_cases hp with ⟨rfl, h⟩ | ⟨rfl, h⟩ | ⟨rfl, h⟩ <;> cases h
  · exact noFlat_iff.mpr ha
  · exact noFlat_iff.mpr hb

/-- The fields the later version adds. -/
theorem added {f' : FieldDef} (h : AddedField Sample.env new f') : f' = F c!"born" (O (I .i32)) attr ∨
    f' = F c!"year" (O (I .u16)) attr ∨ f' = F c!"editor" (V (T c!"Author")) ∨
    f' = { ident := c!"price", ty := I .u32, dflt := some ⟨.int 0, fun _ => true⟩ } := by
  obtain ⟨p, d, d', hp, hp', hf', hno⟩ := h
  rcases env_cases hp with ⟨rfl, h⟩ | ⟨rfl, h⟩ | ⟨rfl, h⟩ <;> cases h
  · cases hp'
    simp only [newAuthor, List.mem_cons, List.not_mem_nil, or_false] at hf'
    rcases hf' with rfl | rfl | rfl
    · exact absurd rfl (hno (F c!"name" Tests.S) (by simp [author]))
    · exact .inl rfl
    · exact absurd rfl (hno (F c!"age" (O (I .u8))) (by simp [author]))
  · cases hp'
    simp only [newBook, List.mem_cons, List.not_mem_nil, or_false] at hf'
    rcases hf' with rfl | rfl | rfl | rfl | rfl | rfl | rfl | rfl | rfl | rfl | rfl | rfl
    · exact .inr (.inl rfl)
    · exact absurd rfl (hno (F c!"id" (I .u32) attr) (by simp [Sample.book]))
    · exact absurd rfl (hno (F c!"tags" (V Tests.S) attr) (by simp [Sample.book]))
    · exact absurd rfl (hno (F c!"title" Tests.S) (by simp [Sample.book]))
    · exact .inr (.inr (.inl rfl))
    · exact absurd rfl (hno (F c!"author" (V (T c!"Author"))) (by simp [Sample.book]))
    · exact absurd rfl (hno (F c!"score" (V (I .i32))) (by simp [Sample.book]))
    · exact absurd rfl (hno (F c!"color" (T c!"Color")) (by simp [Sample.book]))
    · exact absurd rfl (hno (F c!"note" (O Tests.S)) (by simp [Sample.book]))
    · exact absurd rfl (hno (F c!"body" (O Tests.S) { text := true }) (by simp [Sample.book]))
    · exact absurd rfl (hno { ident := c!"stock", ty := I .u16, dflt := some ⟨.int 5, fun _ => true⟩ } (by simp [Sample.book]))
    · exact .inr (.inr (.inr rfl))

theorem addedName {l : Str} (h : AddedName Sample.env new l) :
    l ∈ [c!"born", c!"year", c!"editor", c!"price"] := by
  obtain ⟨f', hf', rfl⟩ := h
  rcases added hf' with rfl | rfl | rfl | rfl <;> decide

end Evolve

mutual
  def Node.silentB (ls : List Str) : Node → Bool
    | .text _ => true
    | .elem n as _ ks => !ls.contains n.loc && as.all (fun a => !ls.contains a.name.loc) && Node.silentLB ls ks
  def Node.silentLB (ls : List Str) : List Node → Bool
    | [] => true
    | k :: ks => k.silentB ls && Node.silentLB ls ks
end

mutual
  theorem silent_of_check {P : Str → Prop} {ls : List Str} (hP : ∀ l, P l → l ∈ ls) :
      ∀ (x : Node), x.silentB ls = true → x.silent P
    | .text _ => fun _ => by rw [Node.silent]; trivial
    | .elem n as m ks => by
      have ih := silentL_of_check hP ks
      rw [Node.silentB, Node.silent]
      simp only [Bool.and_eq_true, Bool.not_eq_true', List.all_eq_true, List.contains_eq_mem, decide_eq_false_iff_not]
      exact fun ⟨⟨h1, h2⟩, h3⟩ => ⟨fun h => h1 (hP _ h), fun a ha h => h2 a ha (hP _ h), ih h3⟩
  theorem silentL_of_check {P : Str → Prop} {ls : List Str} (hP : ∀ l, P l → l ∈ ls) :
      ∀ (ks : List Node), Node.silentLB ls ks = true → Node.silentL P ks
    | [] => fun _ => by rw [Node.silentL]; trivial
    | k :: ks => by
      have h1 := silent_of_check hP k
      have h2 := silentL_of_check hP ks
      rw [Node.silentLB, Node.silentL, Bool.and_eq_true]
      exact fun ⟨g1, g2⟩ => ⟨h1 g1, h2 g2⟩
end

open Evolve Sample in
/-- The earlier version reads the sample document. -/
example : ∃ v, Returns Tests.lib old [c!"Book"] text1 (.ok v) ∧
    Cut old Sample.env (.struct [c!"Book"]) v (.struct val1) :=
  C73_older_program_reads growOld (noFlatten_of (by decide) (by decide)) (by decide) ok1.doc (.inl conf1.confN) ok1.returns

open Evolve Sample in
/-- So does the later version. -/
example : ∃ v', Returns Tests.lib new [c!"Book"] text1 (.ok v') ∧
    Cut Sample.env new (.struct [c!"Book"]) (.struct val1) v' :=
  C73_newer_program_reads growNew (noFlatten_of (by decide) (by decide))
    (fun f' h => by rcases added h with rfl | rfl | rfl | rfl <;> refine ⟨rfl, ?_⟩ <;> simp [Tests.F, Tests.O, Tests.V])
    ok1.doc (.inl conf1.confN) (silent_of_check (fun l h => addedName h) doc1 (by decide)) ok1.returns

namespace Evolve
open Tests

/-- An earlier version of the program `Trip.prog`. -/
def oldDir : StructDef := { name := c!"Dir", fields := [F c!"entry" (V (T c!"Entry")), F c!"name" Tests.S attr] }
def oldEntry : StructDef := { name := c!"Entry", fields := [F c!"file" (O Tests.S), F c!"dir" (O (T c!"Dir"))] }
def oldTrip : Env := envOf [([c!"Dir"], .struct oldDir), ([c!"Entry"], .struct oldEntry)]

theorem oldTrip_cases {p : Path} {td : TypeDef} (h : oldTrip p = some td) :
    (p = [c!"Dir"] ∧ td = .struct oldDir) ∨ (p = [c!"Entry"] ∧ td = .struct oldEntry) := by
  have := mem_envOf h
  simpa using this

theorem growTrip : Grow oldTrip Trip.env := by
  constructor
  · intro p d hp
    rcases oldTrip_cases hp with ⟨rfl, h⟩ | ⟨rfl, h⟩ <;> cases h
    · refine ⟨_, rfl, growStruct_of rfl rfl (plain_of_check (by decide)) (by decide) (by decide) (by decide) ?_⟩
      intro f hf
      simp only [oldDir, List.mem_cons, List.not_mem_nil, or_false] at hf
      rcases hf with rfl | rfl
      · exact ⟨_, by simp, kept_self rfl⟩
      · exact ⟨_, by simp, kept_self rfl⟩
    · refine ⟨_, rfl, growStruct_of rfl rfl (plain_of_check (by decide)) (by decide) (by decide) (by decide) ?_⟩
      intro f hf
      simp only [oldEntry, List.mem_cons, List.not_mem_nil, or_false] at hf
      rcases hf with rfl | rfl
      · exact ⟨_, by simp, kept_self rfl⟩
      · exact ⟨_, by simp, kept_self rfl⟩
  · intro p d hp
    rcases oldTrip_cases hp with ⟨rfl, h⟩ | ⟨rfl, h⟩ <;> cases h
  · intro p d hp
    rcases oldTrip_cases hp with ⟨rfl, h⟩ | ⟨rfl, h⟩ <;> cases h
  · intro p d hp f hf q hq
    rcases oldTrip_cases hp with ⟨rfl, h⟩ | ⟨rfl, h⟩ <;> cases h
    · simp only [oldDir, List.mem_cons, List.not_mem_nil, or_false] at hf
      rcases hf with rfl | rfl <;> cases hq
      decide
    · simp only [oldEntry, List.mem_cons, List.not_mem_nil, or_false] at hf
      rcases hf with rfl | rfl <;> cases hq
      decide
  · intro p d hp
    rcases oldTrip_cases hp with ⟨rfl, h⟩ | ⟨rfl, h⟩ <;> cases h

theorem noFlattenTrip : NoFlatten Trip.env := by
  intro p d hp
  have := mem_envOf hp
  simp only [Trip.prog, mkS, mkE, List.mem_cons, Prod.mk.injEq, List.not_mem_nil, or_false, reduceCtorEq, and_false,
    false_or, TypeDef.struct.injEq] at this
  rcases this with ⟨-, rfl⟩ | ⟨-, rfl⟩ | ⟨-, rfl⟩ <;> exact noFlat_iff.mpr (by decide)

/-- What the program writes for `Trip.val` is read by its earlier version. -/
example : ∃ s v, toString lib Trip.env [c!"Dir"] Trip.val = .ok s ∧ Returns lib oldTrip [c!"Dir"] s (.ok v) ∧
    Cut oldTrip Trip.env (T c!"Dir") v Trip.val :=
  C73_older_reads_what_newer_writes xml growTrip noFlattenTrip (rtOk_simple Trip.simple)
    (serOk_simple Trip.simple (restores_of_writesAll Trip.writesAll)) (by decide)
    (rootOk_simple Trip.simple (simpleRoot_of_check (by decide +kernel)))
    (hasTy_of_check Trip.env (T c!"Dir") Trip.val (by decide +kernel))
    (canon_of_tame xml (rtOk_simple Trip.simple) (carries_simple Trip.simple) (plainPayloads_simple Trip.simple) (restores_of_writesAll Trip.writesAll) Trip.prims
      (hasTy_of_check Trip.env (T c!"Dir") Trip.val (by decide +kernel))
      (tame_of_check lib Trip.val (by decide +kernel)))

/-! ### The names of added fields -/

def rec1 : StructDef := { name := c!"R", fields := [F c!"a" Tests.S] }
def rec2 : StructDef := { name := c!"R", fields := [F c!"a" Tests.S, F c!"year" (O (I .u16)) attr] }
def recs (d : StructDef) : Env := envOf [([c!"R"], .struct d)]

theorem recs_cases {d : StructDef} {p : Path} {td : TypeDef} (h : recs d p = some td) : p = [c!"R"] ∧ td = .struct d := by
  have := mem_envOf h
  simpa using this

theorem growRec : Grow (recs rec1) (recs rec2) := by
  constructor
  · intro p d hp
    obtain ⟨rfl, h⟩ := recs_cases hp
    cases h
    refine ⟨_, rfl, growStruct_of rfl rfl (plain_of_check (by decide)) (by decide) (by decide) (by decide) ?_⟩
    intro f hf
    simp only [rec1, List.mem_cons, List.not_mem_nil, or_false] at hf
    subst hf
    exact ⟨_, by simp [rec2], kept_self rfl⟩
  · intro p d hp
    obtain ⟨rfl, h⟩ := recs_cases hp
    cases h
  · intro p d hp
    obtain ⟨rfl, h⟩ := recs_cases hp
    cases h
  · intro p d hp f hf q hq
    obtain ⟨rfl, h⟩ := recs_cases hp
    cases h
    simp only [rec1, List.mem_cons, List.not_mem_nil, or_false] at hf
    subst hf
    cases hq
  · intro p d hp
    obtain ⟨rfl, h⟩ := recs_cases hp
    cases h

end Evolve

open Evolve Tests in
/-- C73 does need that nothing in the older document is named like an added field: an attribute the older version
ignored makes the newer one fail, although the added field is an `Option`. -/
theorem C73_names_matter : ∃ (L : Lib) (env env' : Env) (p : Path) (s : Str) (x : Node) (v : Val) (m : Str),
    Grow env env' ∧ NoFlatten env' ∧ (∀ f', AddedField env env' f' → f'.Optional) ∧ IsDoc (L.parse s) x ∧
    ConfN L env 0 x p ∧ Returns L env p s (.ok v) ∧ Returns L env' p s (.err m) := by
  refine ⟨lib, recs rec1, recs rec2, [c!"R"], c!"<R year='old'><a>x</a></R>",
    Sample.elA c!"R" [(c!"year", c!"old")] [Sample.el c!"a" [.text c!"x"]], .struct [.str c!"x"], _, growRec, ?_, ?_,
    ⟨[], by decide +kernel⟩, ?_, returns_of_deOk (by decide +kernel), returns_of_deErr (m := c!"invalid digit found in string") (by decide +kernel)⟩
  · intro p d hp
    obtain ⟨rfl, h⟩ := recs_cases hp
    cases h
    exact noFlat_iff.mpr (by decide)
  · rintro f' ⟨p, d, d', hp, hp', hf', hno⟩
    obtain ⟨rfl, h⟩ := recs_cases hp
    cases h
    cases hp'
    simp only [rec2, List.mem_cons, List.not_mem_nil, or_false] at hf'
    rcases hf' with rfl | rfl
    · exact absurd rfl (hno (F c!"a" Tests.S) (by simp [rec1]))
    · exact ⟨rfl, .inl ⟨_, rfl⟩⟩
  · rw [confN_eq, Sample.elA, ConfWith]
    refine ⟨plain_of_check (by decide), .inl (by decide), ?_, ?_, ?_⟩
    · rw [ConfKids, ConfKids, Sample.el, ConfKid]
      refine ⟨⟨by simp, fun i f hi hf => ?_⟩, trivial⟩
      have : i = 0 := by
        have h0 : rec1.fieldFor ⟨c!"a", none, none⟩ = some 0 := by decide
        rw [h0] at hi; cases hi; rfl
      subst this
      cases hf
      exact ⟨fun t ht => ⟨trivial, fun h => absurd h (Sample.not_hasFlat rec1 (by decide))⟩, fun q hq => by cases hq⟩
    · intro f hf h1 h2
      exact (Sample.not_hasFlat rec1 (by decide) ⟨f, hf, h1, h2⟩).elim
    · intro f hf h1
      simp only [rec1, List.mem_cons, List.not_mem_nil, or_false] at hf
      subst hf
      cases h1

end Yaserde
