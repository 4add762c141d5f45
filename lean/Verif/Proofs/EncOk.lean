import Verif.Proofs.View
import Verif.Proofs.Encode
/-
The encoding of a value that survives a round trip, in pieces: names, declarations, items of fields.
-/

set_option autoImplicit false

namespace Yaserde

open Classical
open XmlText (scopeUri_mem scopeUri_none splitColon_some splitColon_colon splitColon_none ncName_noColon)

/-! ### Declarations -/

theorem mem_put {m : NsMap} {p u : Str} {e : Str × Str} (h : e ∈ m.put p u) : e ∈ m ∨ e = (p, u) := by
  unfold NsMap.put at h
  split at h
  · exact .inl h
  · exact (NsMap.mem_insert.mp h).symm

theorem mem_extend {m o : NsMap} {e : Str × Str} (h : e ∈ m.extend o) : e ∈ m ∨ e ∈ o := by
  induction o generalizing m with
  | nil => exact .inl h
  | cons d o ih =>
    rcases ih (m := m.put d.1 d.2) h with h1 | h1
    · rcases mem_put h1 with h2 | h2
      · exact .inl h2
      · exact .inr (by rw [h2]; exact List.mem_cons_self)
    · exact .inr (List.mem_cons_of_mem _ h1)

theorem mem_firstDecls {ds : NsMap} {e : Str × Str} (h : e ∈ firstDecls ds) : e ∈ ds := by
  rcases mem_extend h with h | h
  · cases h
  · exact h

theorem put_nodup {m : NsMap} (h : (m.map Prod.fst).Nodup) (p u : Str) : ((m.put p u).map Prod.fst).Nodup := by
  unfold NsMap.put
  split
  · exact h
  · rename_i hn
    rw [((NsMap.insert_perm p u m).map Prod.fst).nodup_iff, List.map_cons, List.nodup_cons]
    refine ⟨?_, h⟩
    intro ha
    obtain ⟨x, hx, he⟩ := List.mem_map.mp ha
    exact hn (List.any_eq_true.mpr ⟨x, hx, by simp [he]⟩)

theorem extend_nodup {m : NsMap} (o : NsMap) (h : (m.map Prod.fst).Nodup) : ((m.extend o).map Prod.fst).Nodup := by
  induction o generalizing m with
  | nil => exact h
  | cons d o ih => exact ih (put_nodup h d.1 d.2)

theorem firstDecls_nodup (ds : NsMap) : ((firstDecls ds).map Prod.fst).Nodup := extend_nodup ds (by simp)

/-- With one meaning per prefix, no declaration is lost. -/
theorem mem_firstDecls_of {G ds : NsMap} (hG : NsTable G) (hd : ∀ e ∈ ds, e ∈ G) {e : Str × Str} (h : e ∈ ds) :
    e ∈ firstDecls ds := by
  have hany : (firstDecls ds).any (fun d => d.1 == e.1) = true :=
    NsMap.extend_any_right [] ds e.1 (List.any_eq_true.mpr ⟨e, h, by simp⟩)
  obtain ⟨d, hdm, hde⟩ := List.any_eq_true.mp hany
  have hde' : d.1 = e.1 := by simpa using hde
  have : d.2 = e.2 := hG.agree d (hd d (mem_firstDecls hdm)) e (hd e h) hde'
  have : d = e := Prod.ext hde' this
  rw [← this]; exact hdm

theorem declsOk_first {G ds sc : NsMap} (hG : NsTable G) (hd : ∀ e ∈ ds, e ∈ G) (hs : ∀ e ∈ sc, e ∈ G) :
    DeclsOk sc (firstDecls ds) := by
  refine ⟨?_, ?_, firstDecls_nodup ds, ?_⟩
  · intro d h; exact hG.pfx d (hd d (mem_firstDecls h))
  · intro d h; exact hG.uri d (hd d (mem_firstDecls h))
  · intro d h e he; exact hG.agree d (hd d (mem_firstDecls h)) e (hs e he)

theorem declsOk_nil (sc : NsMap) : DeclsOk sc [] := ⟨by simp, by simp, by simp, by simp⟩
theorem attrsOk_nil (sc : NsMap) : AttrsOk sc [] := ⟨by simp, by simp, by simp⟩

/-! ### Names -/

theorem find_none (m : NsMap) : m.find none = none := by
  unfold NsMap.find
  rw [List.find?_eq_none.mpr (by simp)]
  rfl

theorem find_mem {m : NsMap} {p u : Str} (h : (p, u) ∈ m) : ∃ u', m.find (some p) = some u' ∧ (p, u') ∈ m := by
  unfold NsMap.find
  cases hf : List.find? (fun e => some p == some e.1) m with
  | none =>
    rw [List.find?_eq_none] at hf
    exact absurd (hf _ h) (by simp)
  | some e =>
    have h1 := List.mem_of_find?_eq_some hf
    have h2 := List.find?_some hf
    simp only [beq_iff_eq, Option.some.injEq] at h2
    refine ⟨e.2, rfl, ?_⟩
    rw [h2]; exact h1

/-- How a declared prefix is written and resolved. -/
theorem declared {G sc : NsMap} {root : Attrs} (hG : NsTable G) (hd : ∀ e ∈ root.decls, e ∈ sc) (hs : ∀ e ∈ sc, e ∈ G)
    {p u : Str} (h : (p, u) ∈ root.namespaces) :
    ∃ u', root.namespaces.find (some p) = some u' ∧
      scopeUri sc (if root.defaultNs = some p then [] else p) = some u' := by
  obtain ⟨u', h1, h2⟩ := find_mem h
  refine ⟨u', h1, scopeUri_of_mem hG hs (hd _ ?_)⟩
  unfold Attrs.decls
  refine List.mem_map.mpr ⟨(p, u'), h2, ?_⟩
  by_cases hc : root.defaultNs = some p <;> simp [hc]

theorem pfx_name {G sc : NsMap} {root : Attrs} (hG : NsTable G) (hd : ∀ e ∈ root.decls, e ∈ sc) (hs : ∀ e ∈ sc, e ∈ G)
    {p u : Str} (h : (p, u) ∈ root.namespaces) (hne : p ≠ []) (hnd : root.defaultNs ≠ some p) :
    isNCName p = true ∧ p ≠ c!"xml" ∧ p ≠ c!"xmlns" := by
  obtain ⟨u', -, h2⟩ := declared hG hd hs h
  rw [if_neg hnd] at h2
  rcases hG.pfx _ (hs _ (scopeUri_mem h2)) with h3 | h3
  · exact absurd h3 hne
  · exact h3

theorem elemName_ok {G sc : NsMap} {root : Attrs} (hG : NsTable G) (hd : ∀ e ∈ root.decls, e ∈ sc) (hs : ∀ e ∈ sc, e ∈ G)
    {pfx : Option Str} {label : Str} (hp : PfxOk G root pfx) (hl : isNCName label = true) :
    isQName (qualify root.defaultNs pfx label) = true ∧ Bound sc (qualify root.defaultNs pfx label) ∧
      IsNameOf root pfx label (readElemName sc (qualify root.defaultNs pfx label)) := by
  have hsp := splitColon_none (ncName_noColon hl)
  cases pfx with
  | none =>
    have hu : scopeUri sc [] = none := by
      cases h : scopeUri sc [] with
      | none => rfl
      | some u => exact absurd rfl (hp _ (hs _ (scopeUri_mem h)))
    simp only [qualify, isQName, Bound, readElemName, hsp, IsNameOf, hl, hu, find_none, and_self]
  | some p =>
    obtain ⟨hne, u, hu⟩ := hp
    obtain ⟨u', h1, h2⟩ := declared hG hd hs hu
    by_cases hc : root.defaultNs = some p
    · rw [if_pos hc] at h2
      simp only [qualify, hc, if_true, isQName, Bound, readElemName, hsp, IsNameOf, hl, h1, h2, and_self]
    · rw [if_neg hc] at h2
      have hn := (pfx_name hG hd hs hu hne hc).1
      have hsp' : splitColon (p ++ c!":" ++ label) = some (p, label) := splitColon_colon (ncName_noColon hn)
      simp only [qualify, hc, if_false, isQName, Bound, readElemName, hsp', IsNameOf, hl, hn, h1, h2, Bool.and_self,
        Option.isSome_some, and_self]

theorem attrName_ok {G sc : NsMap} {root : Attrs} (hG : NsTable G) (hd : ∀ e ∈ root.decls, e ∈ sc) (hs : ∀ e ∈ sc, e ∈ G)
    {pfx : Option Str} {label : Str} (hp : ∀ p, pfx = some p → p ≠ [] ∧ ∃ u, (p, u) ∈ root.namespaces)
    (hl : isNCName label = true) (hx : label ≠ c!"xmlns") :
    AttrNameOk sc (qualify root.defaultNs pfx label) ∧
      (readAttrName sc (qualify root.defaultNs pfx label)).loc = label := by
  have hsp := splitColon_none (ncName_noColon hl)
  have plain : AttrNameOk sc label ∧ (readAttrName sc label).loc = label := by
    simp only [AttrNameOk, isQName, readAttrName, hsp, hl, hx, true_and, ne_eq, not_false_eq_true, and_self]
  cases pfx with
  | none => exact plain
  | some p =>
    obtain ⟨hne, u, hu⟩ := hp p rfl
    obtain ⟨u', h1, h2⟩ := declared hG hd hs hu
    by_cases hc : root.defaultNs = some p
    · have : qualify root.defaultNs (some p) label = label := by simp [qualify, hc]
      rw [this]; exact plain
    · rw [if_neg hc] at h2
      obtain ⟨hn, h3, h4⟩ := pfx_name hG hd hs hu hne hc
      have hsp' : splitColon (p ++ c!":" ++ label) = some (p, label) := splitColon_colon (ncName_noColon hn)
      have e : qualify root.defaultNs (some p) label = p ++ c!":" ++ label := by simp [qualify, hc]
      rw [e]
      refine ⟨⟨?_, ?_, ?_⟩, ?_⟩
      · simp only [isQName, hsp', hn, hl, Bool.and_self]
      · intro h
        rw [h] at hsp'
        have : splitColon c!"xmlns" = none := by decide
        rw [this] at hsp'; cases hsp'
      · rw [hsp']
        exact ⟨h4, .inr (by rw [h2]; rfl)⟩
      · unfold readAttrName; rw [hsp']

theorem claims_of_isNameOf {root : Attrs} {f : FieldDef} {n : Name} (he : f.isElem = true)
    (h : IsNameOf root f.attrs.pfx f.label n) : f.claims root n := by
  refine ⟨he, ?_, h.1.symm⟩
  rw [h.2]

/-! ### Lists of blocks -/

theorem filter_flatten_unique {α : Type} (R : α → Bool) : ∀ (bs : List (List α)) (i : Nat),
    (∀ (j : Nat) (b : List α) (x : α), bs[j]? = some b → x ∈ b → R x = true → j = i) →
    bs.flatten.filter R = ((bs[i]?).getD []).filter R := by
  intro bs
  induction bs with
  | nil => intro i _; rfl
  | cons b bs ih =>
    intro i h
    rw [List.flatten_cons, List.filter_append]
    cases i with
    | zero =>
      have : bs.flatten.filter R = [] := by
        rw [List.filter_eq_nil_iff]
        intro x hx hR
        obtain ⟨c, hc, hxc⟩ := List.mem_flatten.mp hx
        obtain ⟨j, hj⟩ := List.getElem?_of_mem hc
        have := h (j + 1) c x (by simpa using hj) hxc hR
        omega
      rw [this]; simp
    | succ i =>
      have : b.filter R = [] := by
        rw [List.filter_eq_nil_iff]
        intro x hx hR
        have := h 0 b x rfl hx hR
        omega
      rw [this, List.nil_append, List.getElem?_cons_succ]
      exact ih i (fun j c x hj hx hR => by
        have := h (j + 1) c x (by simpa using hj) hx hR
        omega)

theorem flatten_le_one {α : Type} (bs : List (List α)) (h1 : ∀ b ∈ bs, b.length ≤ 1)
    (h2 : ∀ (i j : Nat) (b c : List α), bs[i]? = some b → bs[j]? = some c → b ≠ [] → c ≠ [] → i = j) :
    bs.flatten.length ≤ 1 := by
  by_cases hex : ∃ (i : Nat) (b : List α), bs[i]? = some b ∧ b ≠ []
  · obtain ⟨i, b, hi, hb⟩ := hex
    have := filter_flatten_unique (fun _ => true) bs i (by
      intro j c x hj hx _
      exact h2 j i c b hj hi (List.ne_nil_of_mem hx) hb)
    rw [List.filter_eq_self.mpr (by simp), hi] at this
    rw [this]
    simpa using h1 b (List.mem_of_getElem? hi)
  · have : bs.flatten = [] := by
      rw [List.flatten_eq_nil_iff]
      intro b hb
      obtain ⟨i, hi⟩ := List.getElem?_of_mem hb
      by_contra hne
      exact hex ⟨i, b, hi, hne⟩
    rw [this]; simp

theorem wtexts_flatten (bs : List (List WNode)) : wtexts bs.flatten = (bs.map wtexts).flatten := by
  induction bs with
  | nil => rfl
  | cons b bs ih => rw [List.flatten_cons, wtexts_append, ih]; rfl

theorem backs_flatten (sc : NsMap) (bs : List (List WNode)) : backs sc bs.flatten = (bs.map (backs sc)).flatten := by
  induction bs with
  | nil => rfl
  | cons b bs ih => rw [List.flatten_cons, backs_append, ih]; rfl

/-! ### Encoding, field by field -/

theorem encFields_zip (L : Lib) (env : Env) (root : Attrs) (self : Val) : ∀ (fds : List FieldDef) (vs : List Val),
    encFields L env root self fds vs = (List.zipWith (fun f v => encFields L env root self [f] [v]) fds vs).flatten := by
  intro fds
  induction fds with
  | nil => intro vs; rw [encFields.eq_def]; cases vs <;> rfl
  | cons f fds ih =>
    intro vs
    cases vs with
    | nil => rw [encFields.eq_def]; rfl
    | cons v vs =>
      rw [List.zipWith_cons_cons, List.flatten_cons, ← ih vs]
      rw [encFields.eq_def L env root self (f :: fds), encFields.eq_def L env root self [f]]
      dsimp only
      rw [encFields.eq_def L env root self [] []]
      simp only [List.append_nil]

theorem encOwn_zip (L : Lib) (env : Env) (root : Attrs) (self : Val) : ∀ (fds : List FieldDef) (vs : List Val),
    encOwn L env root self fds vs = (List.zipWith (fun f v => encOwn L env root self [f] [v]) fds vs).flatten := by
  intro fds
  induction fds with
  | nil => intro vs; rw [encOwn.eq_def]; cases vs <;> rfl
  | cons f fds ih =>
    intro vs
    cases vs with
    | nil => rw [encOwn.eq_def]; rfl
    | cons v vs =>
      rw [List.zipWith_cons_cons, List.flatten_cons, ← ih vs]
      rw [encOwn.eq_def L env root self (f :: fds), encOwn.eq_def L env root self [f]]
      dsimp only
      rw [encOwn.eq_def L env root self [] []]
      simp only [List.append_nil]

theorem encInherited_zip (L : Lib) (env : Env) : ∀ (fds : List FieldDef) (vs : List Val),
    encInherited L env fds vs = (List.zipWith (fun f v => encInherited L env [f] [v]) fds vs).flatten := by
  intro fds
  induction fds with
  | nil => intro vs; rw [encInherited.eq_def]; cases vs <;> rfl
  | cons f fds ih =>
    intro vs
    cases vs with
    | nil => rw [encInherited.eq_def]; rfl
    | cons v vs =>
      rw [List.zipWith_cons_cons, List.flatten_cons, ← ih vs]
      rw [encInherited.eq_def L env (f :: fds), encInherited.eq_def L env [f]]
      dsimp only
      rw [encInherited.eq_def L env [] []]
      simp only [List.append_nil]

theorem encInheritedDecls_zip (env : Env) : ∀ (fds : List FieldDef) (vs : List Val),
    encInheritedDecls env fds vs = (List.zipWith (fun f v => encInheritedDecls env [f] [v]) fds vs).flatten := by
  intro fds
  induction fds with
  | nil => intro vs; rw [encInheritedDecls.eq_def]; cases vs <;> rfl
  | cons f fds ih =>
    intro vs
    cases vs with
    | nil => rw [encInheritedDecls.eq_def]; rfl
    | cons v vs =>
      rw [List.zipWith_cons_cons, List.flatten_cons, ← ih vs]
      rw [encInheritedDecls.eq_def env (f :: fds), encInheritedDecls.eq_def env [f]]
      dsimp only
      rw [encInheritedDecls.eq_def env [] []]
      simp only [List.append_nil]

/-! ### What is shown of the encoding of a value -/

/-- The attributes as they are read. -/
def readAttrs (sc : NsMap) (as : List Attr) : List Attr := as.map fun a => ⟨readAttrName sc a.name.raw, a.value⟩

def attrLoc (sc : NsMap) (a : Attr) : Str := (readAttrName sc a.name.raw).loc

/-- The content of an element for the value, inside the declarations `sc`. -/
structure EncIn (L : Lib) (env : Env) (G sc : NsMap) (p : Path) (v : Val) : Prop where
  ok : WNode.OkL sc (encTy L env .inner p v)
  tidy : WNode.TidyL G (encTy L env .inner p v)
  one : (wtexts (encTy L env .inner p v)).length ≤ 1
  attrs : AttrsOk sc (encTyAttrs L env p v)
  locs : ((encTyAttrs L env p v).map (attrLoc sc)).Nodup
  takesAttr : ∀ d, env p = some (.struct d) → ∀ a ∈ encTyAttrs L env p v, Takes env p (.attr (attrLoc sc a))
  takesKid : ∀ d, env p = some (.struct d) → ∀ k ∈ backs sc (encTy L env .inner p v), Takes env p k.item
  takesText : ∀ d, env p = some (.struct d) → wtexts (encTy L env .inner p v) ≠ [] → Takes env p .text
  view : ∀ (n : Name) (m : NsMap), Fits env p n →
    View L env p v (.elem n (readAttrs sc (encTyAttrs L env p v)) m (backs sc (encTy L env .inner p v)))
  byText : (∀ e, env p ≠ some (.prim e)) →
    (∀ e, env p = some (.enum e) → ∀ v ∈ e.variants, v.shape ≠ .unit) →
    ∀ (n : Name) (m : NsMap), Fits env p n →
    ¬ byText env (.elem n (readAttrs sc (encTyAttrs L env p v)) m (backs sc (encTy L env .inner p v))) p

def ownName (env : Env) (p : Path) : Str :=
  match env p with
  | some (.struct d) => d.attrs.written d.name
  | some (.enum d) => d.attrs.written d.name
  | some (.prim d) => d.name
  | none => []

structure Enc (L : Lib) (env : Env) (G : NsMap) (p : Path) (v : Val) : Prop where
  decls : ∀ e ∈ encTyDecls env p v, e ∈ G
  place : ∀ pl : Place, pl.bare = false → encTy L env pl p v =
    [.elem (pl.name.getD (ownName env p)) (encTyAttrs L env p v) (firstDecls (encTyDecls env p v)) (encTy L env .inner p v)]
  content : ∀ sc, (∀ e ∈ encTyDecls env p v, e ∈ sc) → (∀ e ∈ sc, e ∈ G) → EncIn L env G sc p v

/-- The value as an element. -/
theorem Enc.elem {L : Lib} {env : Env} {G : NsMap} (hG : NsTable G) {p : Path} {v : Val} (h : Enc L env G p v) {sc : NsMap}
    (hs : ∀ e ∈ sc, e ∈ G) {nm : Str} (hq : isQName nm = true)
    (hb : Bound (firstDecls (encTyDecls env p v) ++ sc) nm)
    (hf : Fits env p (readElemName (firstDecls (encTyDecls env p v) ++ sc) nm)) :
    ∃ as nss ks, encTy L env ⟨some nm, false⟩ p v = [.elem nm as nss ks] ∧ (WNode.elem nm as nss ks).Ok sc ∧
      (WNode.elem nm as nss ks).Tidy G ∧ View L env p v ((WNode.elem nm as nss ks).back sc) ∧
      ((∀ e, env p ≠ some (.prim e)) → (∀ e, env p = some (.enum e) → ∀ v ∈ e.variants, v.shape ≠ .unit) →
        ¬ Yaserde.byText env ((WNode.elem nm as nss ks).back sc) p) := by
  have hin : ∀ e ∈ firstDecls (encTyDecls env p v) ++ sc, e ∈ G := by
    intro e he
    rcases List.mem_append.mp he with h1 | h1
    · exact h.decls e (mem_firstDecls h1)
    · exact hs e h1
  have hc := h.content (firstDecls (encTyDecls env p v) ++ sc)
    (fun e he => List.mem_append_left _ (mem_firstDecls_of hG h.decls he)) hin
  refine ⟨_, _, _, h.place ⟨some nm, false⟩ rfl, ?_, ?_, ?_, ?_⟩
  · exact ⟨hq, hb, declsOk_first hG h.decls hs, hc.attrs, hc.ok⟩
  · exact ⟨fun e he => h.decls e (mem_firstDecls he), hc.one, hc.tidy⟩
  · have := hc.view _ (firstDecls (encTyDecls env p v) ++ sc) hf
    simp only [WNode.back, Option.getD_some]
    rw [backL_nil_eq _ _ hc.one]
    exact this
  · intro h1 h2
    have := hc.byText h1 h2 _ (firstDecls (encTyDecls env p v) ++ sc) hf
    simp only [WNode.back]
    rw [backL_nil_eq _ _ hc.one]
    exact this

/-- One child of an element field. -/
structure KidOf (L : Lib) (env : Env) (d : StructDef) (f : FieldDef) (kid : Node) (w : Val) : Prop where
  claimed : ∃ n as m kk, kid = .elem n as m kk ∧ f.claims d.attrs n
  scalar : ∀ t, f.ty.core = .simple t → scalarContent L t kid.content = some w
  view : ∀ q, f.ty.core = .struct q → View L env q w kid
  byText : ∀ q, f.ty.core = .struct q → (∀ e, env q ≠ some (.prim e)) →
    (∀ e, env q = some (.enum e) → ∀ v ∈ e.variants, v.shape ≠ .unit) → ¬ byText env kid q

/-- The nodes of one item. -/
structure ItemOk (L : Lib) (env : Env) (G sc : NsMap) (d : StructDef) (f : FieldDef) (w : Val) (ns : List WNode) : Prop where
  ok : WNode.OkL sc ns
  tidy : WNode.TidyL G ns
  noText : wtexts ns = []
  kid : ∃ kid, backs sc ns = [kid] ∧ KidOf L env d f kid w

/-- An element field. -/
structure ElemOk (L : Lib) (env : Env) (G sc : NsMap) (d : StructDef) (f : FieldDef) (ws : List Val) (b : List WNode) : Prop where
  ok : WNode.OkL sc b
  tidy : WNode.TidyL G b
  noText : wtexts b = []
  kids : List.Forall₂ (KidOf L env d f) (backs sc b) ws

theorem okL_append {sc : NsMap} {a b : List WNode} : WNode.OkL sc (a ++ b) ↔ WNode.OkL sc a ∧ WNode.OkL sc b := by
  simp only [okL_iff, List.forall_mem_append]

theorem tidyL_append {G : NsMap} {a b : List WNode} : WNode.TidyL G (a ++ b) ↔ WNode.TidyL G a ∧ WNode.TidyL G b := by
  simp only [tidyL_iff, List.forall_mem_append]

theorem elemOk_flatMap {L : Lib} {env : Env} {G sc : NsMap} {d : StructDef} {f : FieldDef} (g : Val → List WNode) (ws : List Val)
    (h : ∀ w ∈ ws, ItemOk L env G sc d f w (g w)) : ElemOk L env G sc d f ws (ws.flatMap g) := by
  induction ws with
  | nil => exact ⟨trivial, trivial, rfl, .nil⟩
  | cons w ws ih =>
    have h1 := h w List.mem_cons_self
    have h2 := ih (fun x hx => h x (List.mem_cons_of_mem _ hx))
    rw [List.flatMap_cons]
    refine ⟨okL_append.mpr ⟨h1.ok, h2.ok⟩, tidyL_append.mpr ⟨h1.tidy, h2.tidy⟩, ?_, ?_⟩
    · rw [wtexts_append, h1.noText, h2.noText]; rfl
    · obtain ⟨kid, hk, hk2⟩ := h1.kid
      rw [backs_append, hk]
      exact .cons hk2 h2.kids

theorem itemOk_leaf {L : Lib} {env : Env} {G sc : NsMap} {d : StructDef} {f : FieldDef} {t : STy} {w : Val}
    (ht : f.ty.core = .simple t) (k : WNode) (s : Str) (hk : k.Ok sc) (hw : wtexts [k] = if s = [] then [] else [s])
    (hbk : back1 sc k = textRun s) (htd : k.Tidy G) (hc : CleanText s) (hv : visitS L t s = .ok w)
    (hq : isQName (f.written d.attrs) = true) (hb : Bound sc (f.written d.attrs))
    (hn : f.claims d.attrs (readElemName sc (f.written d.attrs))) :
    ItemOk L env G sc d f w [.elem (f.written d.attrs) [] [] [k]] := by
  refine ⟨⟨⟨hq, hb, declsOk_nil sc, attrsOk_nil _, hk, trivial⟩, trivial⟩, ⟨⟨by simp, ?_, htd, trivial⟩, trivial⟩, rfl, ?_⟩
  · rw [hw]; split <;> simp
  · have hone : (wtexts [k]).length ≤ 1 := by rw [hw]; split <;> simp
    have e : backs sc [WNode.elem (f.written d.attrs) [] [] [k]]
        = [.elem (readElemName sc (f.written d.attrs)) [] sc [.text s]] := by
      simp only [backs, List.flatMap_cons, List.flatMap_nil, List.append_nil, back1, WNode.back, List.nil_append, List.map_nil]
      rw [backL_nil_eq _ _ hone]
      simp only [backs, List.flatMap_cons, List.flatMap_nil, List.append_nil, hbk, textRun_clean hc]
    refine ⟨_, e, ⟨⟨_, _, _, _, rfl, hn⟩, ?_, ?_, ?_⟩⟩
    · intro t' ht'
      rw [ht] at ht'; cases ht'
      simp [Node.content, scalarContent, hv]
    · intro q hq'; rw [ht] at hq'; cases hq'
    · intro q hq'; rw [ht] at hq'; cases hq'

theorem itemOk_struct {L : Lib} {env : Env} {G sc : NsMap} (hG : NsTable G) {d : StructDef} {f : FieldDef} {q : Path} {w : Val}
    (ht : f.ty.core = .struct q) (h : Enc L env G q w) (hd : ∀ e ∈ d.attrs.decls, e ∈ sc) (hs : ∀ e ∈ sc, e ∈ G)
    (he : f.isElem = true) (hp : PfxOk G d.attrs f.attrs.pfx) (hl : isNCName f.label = true)
    (hfit : ∀ n, IsNameOf d.attrs f.attrs.pfx f.label n → Fits env q n) :
    ItemOk L env G sc d f w (encTy L env ⟨some (f.written d.attrs), false⟩ q w) := by
  have hin : ∀ e ∈ firstDecls (encTyDecls env q w) ++ sc, e ∈ G := by
    intro e he
    rcases List.mem_append.mp he with h1 | h1
    · exact h.decls e (mem_firstDecls h1)
    · exact hs e h1
  obtain ⟨n1, n2, n3⟩ := elemName_ok (root := d.attrs) hG (sc := firstDecls (encTyDecls env q w) ++ sc)
    (fun e he => List.mem_append_right _ (hd e he)) hin hp hl
  have e : f.written d.attrs = qualify d.attrs.defaultNs f.attrs.pfx f.label := rfl
  rw [← e] at n1 n2 n3
  obtain ⟨as, nss, ks, e1, e2, e3, e4, e5⟩ := h.elem hG hs n1 n2 (hfit _ n3)
  have hnss : nss = firstDecls (encTyDecls env q w) := by
    have := h.place ⟨some (f.written d.attrs), false⟩ rfl
    rw [e1] at this
    simp only [List.cons.injEq, WNode.elem.injEq] at this
    exact this.1.2.2.1
  rw [e1]
  refine ⟨⟨e2, trivial⟩, ⟨e3, trivial⟩, rfl, _, rfl, ⟨?_, ?_, ?_, ?_⟩⟩
  · refine ⟨_, _, _, _, rfl, ?_⟩
    rw [hnss]
    exact claims_of_isNameOf he n3
  · intro t ht'; rw [ht] at ht'; cases ht'
  · intro q' hq'; rw [ht] at hq'; cases hq'; exact e4
  · intro q' hq'; rw [ht] at hq'; cases hq'; exact e5

end Yaserde
