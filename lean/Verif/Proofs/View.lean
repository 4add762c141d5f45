import Verif.Proofs.Clean
import Verif.Proofs.Matching
import Verif.Proofs.Within
/-
Trees that contain a value: `View L env p v x`.  Such a tree, and any tree that agrees with it on what the type looks
at, is read as that value.
-/

set_option autoImplicit false

namespace Yaserde

open Classical

def Node.item : Node → Item
  | .text _ => .text
  | .elem n _ _ _ => .elem n

theorem item_strip (k : Node) : k.strip.item = k.item := by cases k <;> rfl

/-- The children a type looks at. -/
noncomputable def sees (env : Env) (p : Path) (ks : List Node) : List Node :=
  ks.filter fun k => decide (Takes env p k.item)

/-- The attributes a type looks at. -/
noncomputable def seesAttrs (env : Env) (p : Path) (as : List Attr) : List Attr :=
  as.filter fun a => decide (Takes env p (.attr a.name.loc))

/-- The same, as far as the type is concerned. -/
inductive Similar (env : Env) (p : Path) : Node → Node → Prop
  | strip (x x' : Node) (h : x.strip = x'.strip) : Similar env p x x'
  | seen (d : StructDef) (n : Name) (as as' : List Attr) (m m' : NsMap) (ks ks' : List Node)
      (hp : env p = some (.struct d)) (ha : seesAttrs env p as = seesAttrs env p as')
      (hk : (sees env p ks).map Node.strip = (sees env p ks').map Node.strip) :
      Similar env p (.elem n as m ks) (.elem n as' m' ks')

theorem sees_strip (env : Env) (p : Path) (ks : List Node) :
    (sees env p ks).map Node.strip = sees env p (ks.map Node.strip) := by
  unfold sees
  rw [List.filter_map]
  congr 1
  refine List.filter_congr ?_
  intro k _
  simp [item_strip]

theorem sees_of_strip {env : Env} {p : Path} {ks ks' : List Node} (h : Node.stripL ks = Node.stripL ks') :
    (sees env p ks).map Node.strip = (sees env p ks').map Node.strip := by
  rw [stripL_eq_map, stripL_eq_map] at h
  rw [sees_strip, sees_strip, h]

/-- For structs: the attributes and children they look at are the same. -/
theorem similar_struct {env : Env} {p : Path} {d : StructDef} (hp : env p = some (.struct d)) {x x' : Node}
    (h : Similar env p x x') :
    (∃ s, x = .text s ∧ x' = .text s) ∨ ∃ n as m ks as' m' ks', x = .elem n as m ks ∧ x' = .elem n as' m' ks' ∧
      seesAttrs env p as = seesAttrs env p as' ∧ (sees env p ks).map Node.strip = (sees env p ks').map Node.strip := by
  cases h with
  | strip _ _ h =>
    cases x with
    | text s =>
      cases x' with
      | text t => simp [Node.strip] at h; exact .inl ⟨s, rfl, by rw [h]⟩
      | elem => simp [Node.strip] at h
    | elem n as m ks =>
      cases x' with
      | text t => simp [Node.strip] at h
      | elem n' as' m' ks' =>
        simp only [Node.strip, Node.elem.injEq] at h
        obtain ⟨rfl, rfl, -, h⟩ := h
        exact .inr ⟨_, _, _, _, _, _, _, rfl, rfl, rfl, sees_of_strip h⟩
  | seen d' n as as' m m' ks ks' hp' ha hk => exact .inr ⟨_, _, _, _, _, _, _, rfl, rfl, ha, hk⟩

theorem similar_notStruct {env : Env} {p : Path} (hp : ∀ d, env p ≠ some (.struct d)) {x x' : Node}
    (h : Similar env p x x') : x.strip = x'.strip := by
  cases h with
  | strip _ _ h => exact h
  | seen d n as as' m m' ks ks' hp' ha hk => exact absurd hp' (hp d)

theorem similar_of_strip {env : Env} {p : Path} {x x' y : Node} (h : Similar env p x x') (hs : x'.strip = y.strip) :
    Similar env p x y := by
  cases h with
  | strip _ _ h => exact .strip _ _ (h.trans hs)
  | seen d n as as' m m' ks ks' hp ha hk =>
    cases y with
    | text => simp [Node.strip] at hs
    | elem n'' as'' m'' ks'' =>
      simp only [Node.strip, Node.elem.injEq] at hs
      obtain ⟨rfl, rfl, -, hs⟩ := hs
      exact .seen d _ _ _ _ _ _ _ hp ha (hk.trans (sees_of_strip hs))

/-! ### Values in trees -/

/-- The value a variant has, from those of the elements that name it. -/
inductive VariantVal (dflt : Val) (i : Nat) : FTy → List Val → Val → Prop
  | none (t : FTy) : VariantVal dflt i t [] dflt
  | items (t : FTy) (x : Val) (xs : List Val) : VariantVal dflt i (.vec t) (x :: xs) (.enum i [.vec (x :: xs)])
  | some (t : FTy) (x : Val) : VariantVal dflt i (.opt t) [x] (.enum i [.some x])
  | simple (t : STy) (x : Val) : VariantVal dflt i (.simple t) [x] (.enum i [x])
  | struct (q : Path) (x : Val) : VariantVal dflt i (.struct q) [x] (.enum i [x])

/-- The tree is one from which the value can be read. -/
inductive View (L : Lib) (env : Env) : Path → Val → Node → Prop
  | struct (p : Path) (d : StructDef) (n : Name) (as : List Attr) (m : NsMap) (ks : List Node) (fs : List Val)
      (ins : Nat → List Val) (x0 : Nat → Node) (ya : Nat → Str → Node) (wa : Nat → Str → Val)
      (hp : env p = some (.struct d)) (hplain : d.Plain) (hlen : fs.length = d.fields.length)
      (hname : (n.loc = d.attrs.rename.getD d.name ∧
          n.ns.getD [] = (d.attrs.namespaces.find d.attrs.pfx).getD []) ∨ d.fieldFor n = none)
      (hval : ∀ (i : Nat) (f : FieldDef) (v : Val), d.fields[i]? = some f → fs[i]? = some v →
        fieldValue d.name f (ins i) = .ok v)
      (hattr : ∀ (i : Nat) (f : FieldDef), d.fields[i]? = some f → f.attrs.isAttr = true → f.attrs.text = false ∧
        ((as.filter fun a => a.name.loc = f.label).flatMap fun a =>
          attrWords L (fun _ s => .ok (wa i s)) f.ty a.value) = (ins i).map .ok)
      (htext : ∀ (i : Nat) (f : FieldDef), d.fields[i]? = some f → f.attrs.text = true →
        f.isElem = true ∧ (ntexts ks).map Val.str = ins i ∧ matching d i ks = [])
      (hlenIns : ∀ (i : Nat) (f : FieldDef), d.fields[i]? = some f → f.isElem = true → f.attrs.text = false →
        (matching d i ks).length = (ins i).length)
      (hscal : ∀ (i : Nat) (f : FieldDef) (t : STy) (j : Nat) (kid : Node) (w : Val), d.fields[i]? = some f →
        f.isElem = true → f.attrs.text = false → f.ty.core = .simple t → (matching d i ks)[j]? = some kid →
        (ins i)[j]? = some w → scalarContent L t kid.content = some w)
      (hkids : ∀ (i : Nat) (f : FieldDef) (q : Path) (j : Nat) (kid : Node) (w : Val), d.fields[i]? = some f →
        f.isElem = true → f.attrs.text = false → f.ty.core = .struct q → (matching d i ks)[j]? = some kid →
        (ins i)[j]? = some w → View L env q w kid)
      (hby : d.HasFlat → ∀ (i : Nat) (f : FieldDef) (q : Path) (kid : Node), d.fields[i]? = some f →
        f.isElem = true → f.ty.core = .struct q → kid ∈ matching d i ks → ¬ byText env kid q)
      (hflat : ∀ (i : Nat) (f : FieldDef) (v : Val), d.fields[i]? = some f → fs[i]? = some v → f.isFlat →
        f.attrs.text = false ∧ ins i = [v] ∧ ∃ q d', f.ty = .struct q ∧ env q = some (.struct d') ∧ nsOk d'.attrs n ∧
          Similar env q (x0 i) (.elem n as m ks) ∧ ∀ n', Takes env q (.elem n') → d.fieldFor n' = none)
      (hflats : ∀ (i : Nat) (f : FieldDef) (v : Val) (q : Path), d.fields[i]? = some f → fs[i]? = some v → f.isFlat →
        f.ty = .struct q → View L env q v (x0 i))
      -- attributes of derived types
      (hdoc : ∀ (i : Nat) (f : FieldDef) (q : Path) (a : Attr) (s : Str), d.fields[i]? = some f → f.attrs.isAttr = true →
        f.ty.core = .struct q → a ∈ as → a.name.loc = f.label → s ∈ f.ty.attrTexts a.value →
        ∃ y, IsDoc (L.parse (attrDoc q s)) y ∧ y.strip = (ya i s).strip ∧ (∃ G, NsTable G ∧ y.Clean G) ∧
          ∀ d', env q = some (.struct d') → nsOk d'.attrs y.name)
      (hdocs : ∀ (i : Nat) (f : FieldDef) (q : Path) (a : Attr) (s : Str), d.fields[i]? = some f → f.attrs.isAttr = true →
        f.ty.core = .struct q → a ∈ as → a.name.loc = f.label → s ∈ f.ty.attrTexts a.value →
        View L env q (wa i s) (ya i s)) :
      View L env p (.struct fs) (.elem n as m ks)
  | unit (p : Path) (d : EnumDef) (n : Name) (as : List Attr) (m : NsMap) (s : Str) (i : Nat) (vd : VariantDef)
      (hp : env p = some (.enum d)) (htag : d.attrs.tag = none) (hns : nsOk d.attrs n) (hn : d.variantFor n.loc = none)
      (hi : d.variantFor s = some i) (hv : d.variants[i]? = some vd) (hs : vd.shape = .unit) :
      View L env p (.enum i []) (.elem n as m [.text s])
  | named (p : Path) (d : EnumDef) (n : Name) (as : List Attr) (m : NsMap) (key : Str) (i : Nat) (vd : VariantDef)
      (hp : env p = some (.enum d)) (hns : nsOk d.attrs n) (hk : d.keyOf n as = some key)
      (hi : d.variantFor key = some i) (hv : d.variants[i]? = some vd) (hs : vd.shape = .unit) :
      View L env p (.enum i []) (.elem n as m [])
  | variants (p : Path) (d : EnumDef) (n : Name) (as : List Attr) (m : NsMap) (ks : List Node) (i : Nat) (vd : VariantDef)
      (t : FTy) (xs : List Val) (v : Val)
      (hp : env p = some (.enum d)) (htag : d.attrs.tag = none) (hns : nsOk d.attrs n) (hn : d.variantFor n.loc = none)
      (hv : d.variants[i]? = some vd) (hs : vd.shape = .newtype t)
      (hcore : (∃ s, t.core = .simple s) ∨ ∃ q, t.core = .struct q) (hlen : xs.length = ks.length)
      (hkid : ∀ kid ∈ ks, ∃ n' as' m' kk, kid = .elem n' as' m' kk ∧ d.variantFor n'.loc = some i)
      (hscal : ∀ (s : STy) (j : Nat) (kid : Node) (w : Val), t.core = .simple s → ks[j]? = some kid → xs[j]? = some w →
        textOnly kid.content ∧ parseS L s (textContent kid.content) = .ok w)
      (hstr : ∀ (q : Path) (j : Nat) (kid : Node) (w : Val), t.core = .struct q → ks[j]? = some kid → xs[j]? = some w →
        View L env q w kid)
      (hval : VariantVal d.dflt i t xs v) : View L env p v (.elem n as m ks)
  | prim (p : Path) (d : PrimDef) (n : Name) (as : List Attr) (m : NsMap) (ks : List Node) (v : Val)
      (hp : env p = some (.prim d)) (ht : textOnly ks) (hv : d.fromStr (textContent ks) = .ok v) :
      View L env p v (.elem n as m ks)

/-- With `k` levels of flattening, all trees that agree with `x` are read as `v`. -/
def ReadAs (L : Lib) (env : Env) (G : NsMap) (k : Nat) (q : Path) (v : Val) (x : Node) : Prop :=
  ∀ x', Similar env q x x' → x'.Clean G → ConfN L env k x' q ∧ decodeN L env k x' q = .ok v

/-- With `k` levels of embedding, the attribute value is read as `w`. -/
def AttrRead (L : Lib) (env : Env) (k : Nat) (q : Path) (s : Str) (w : Val) : Prop :=
  ∃ y, IsDoc (L.parse (attrDoc q s)) y ∧ y.events.length ≤ k + 3 ∧ ConfN L env k y q ∧ decodeN L env k y q = .ok w ∧
    ∀ d', env q = some (.struct d') → nsOk d'.attrs y.name

theorem AttrRead.value {L : Lib} {env : Env} {k : Nat} {q : Path} {s : Str} {w : Val} (h : AttrRead L env k q s w) :
    userAttr (flatN L env (k + 1)) q s = .ok w := by
  obtain ⟨y, h1, -, h2, h3, h4⟩ := h
  unfold userAttr
  cases y with
  | text t => rw [confN_eq, ConfWith] at h2; exact h2.elim
  | elem n1 as1 m1 ks1 =>
    rw [flatN_text h1]
    unfold decodeDocWith
    rw [h3]
    split
    · rename_i d' hd'
      rw [if_pos (h4 d' hd')]
    · rfl

theorem ev_fin {P : Nat → Nat → Prop} (n : Nat) (h : ∀ i < n, ∃ k0, ∀ k, k0 ≤ k → P i k) :
    ∃ k0, ∀ i < n, ∀ k, k0 ≤ k → P i k := by
  induction n with
  | zero => exact ⟨0, by intro i hi; omega⟩
  | succ n ih =>
    obtain ⟨a, ha⟩ := ih (fun i hi => h i (by omega))
    obtain ⟨b, hb⟩ := h n (by omega)
    refine ⟨max a b, ?_⟩
    intro i hi k hk
    by_cases e : i = n
    · subst e; exact hb k (by omega)
    · exact ha i (by omega) k (by omega)

theorem ev_list {α : Type} {P : α → Nat → Prop} (l : List α) (h : ∀ a ∈ l, ∃ k0, ∀ k, k0 ≤ k → P a k) :
    ∃ k0, ∀ k, k0 ≤ k → ∀ a ∈ l, P a k := by
  induction l with
  | nil => exact ⟨0, by intro _ _ a ha; cases ha⟩
  | cons b l ih =>
    obtain ⟨k1, h1⟩ := ih fun a ha => h a (List.mem_cons_of_mem _ ha)
    obtain ⟨k2, h2⟩ := h b (List.mem_cons_self ..)
    refine ⟨max k1 k2, fun k hk a ha => ?_⟩
    rcases List.mem_cons.mp ha with rfl | ha
    · exact h2 k (by omega)
    · exact h1 k (by omega) a ha

theorem attrWords_congr {L : Lib} {u u' : Path → Str → Res Val} {ty : FTy} {value : Str}
    (h : ∀ q, ty.core = .struct q → ∀ s ∈ ty.attrTexts value, u q s = u' q s) :
    attrWords L u ty value = attrWords L u' ty value := by
  unfold attrWords
  split
  · rfl
  · rfl
  · rfl
  · rename_i q
    exact List.map_congr_left fun s hs => h q rfl s hs
  · rename_i q
    rw [h q rfl value (by simp [FTy.attrTexts])]
  · rename_i q
    rw [h q rfl value (by simp [FTy.attrTexts])]
  · rfl

/-! ### What agreement preserves -/

theorem takes_of_fieldFor {env : Env} {p : Path} {d : StructDef} (hp : env p = some (.struct d)) {n : Name} {i : Nat}
    (h : d.fieldFor n = some i) : Takes env p (.elem n) := by
  obtain ⟨f, hf, -, hc⟩ := fieldFor_some h
  exact .own p d f _ hp (List.mem_of_getElem? hf) hc

theorem matching_sees {env : Env} {p : Path} {d : StructDef} (hp : env p = some (.struct d)) (i : Nat) (ks : List Node) :
    matching d i (sees env p ks) = matching d i ks := by
  unfold matching sees
  rw [List.filter_filter]
  refine List.filter_congr ?_
  intro k _
  cases k with
  | text s => rfl
  | elem n as m kk =>
    by_cases h : d.fieldFor n = some i
    · simp [h, Node.item, takes_of_fieldFor hp h]
    · simp [h]

theorem matching_strip (d : StructDef) (i : Nat) (ks : List Node) :
    (matching d i ks).map Node.strip = matching d i (ks.map Node.strip) := by
  unfold matching
  rw [List.filter_map]
  congr 1
  refine List.filter_congr ?_
  intro k _
  cases k <;> rfl

theorem matching_similar {env : Env} {p : Path} {d : StructDef} (hp : env p = some (.struct d)) {ks ks' : List Node}
    (hk : (sees env p ks).map Node.strip = (sees env p ks').map Node.strip) (i : Nat) :
    (matching d i ks).map Node.strip = (matching d i ks').map Node.strip := by
  rw [← matching_sees hp i ks, ← matching_sees hp i ks', matching_strip, matching_strip, hk]

theorem ntexts_strip (ks : List Node) : ntexts (ks.map Node.strip) = ntexts ks := by
  unfold ntexts
  rw [List.filterMap_map]
  congr 1
  funext k
  cases k <;> rfl

theorem ntexts_sees {env : Env} {p : Path} (h : Takes env p .text) (ks : List Node) : ntexts (sees env p ks) = ntexts ks := by
  induction ks with
  | nil => rfl
  | cons k ks ih =>
    unfold sees at ih ⊢
    rw [List.filter_cons, ntexts_cons k ks, ← ih]
    cases k with
    | text s => simp [Node.item, h]; rw [ntexts_cons]
    | elem n as m kk =>
      split
      · rw [ntexts_cons]
      · rfl

theorem content_strip (k : Node) : k.strip.content = Node.stripL k.content := by cases k <;> rfl

theorem textOnly_strip (ks : List Node) : textOnly (Node.stripL ks) ↔ textOnly ks := by
  match ks with
  | [] => simp [Node.stripL]
  | [.text s] => simp [Node.stripL, Node.strip, textOnly]
  | [.elem n as m kk] => simp [Node.stripL, Node.strip, textOnly]
  | k :: k' :: kk => simp [Node.stripL, textOnly]

theorem byText_strip (env : Env) (x : Node) (q : Path) : byText env x.strip q ↔ byText env x q := by
  cases x with
  | text s => rfl
  | elem n as m ks =>
    unfold byText
    simp only [Node.strip, Node.content, Node.name, Node.attrs]
    split
    · cases ks <;> simp [Node.stripL]
    · rw [unitByText_strip]
    · rfl

theorem textOnly_of_scalarContent {L : Lib} {t : STy} {ks : List Node} {w : Val} (h : scalarContent L t ks = some w) :
    textOnly ks := by
  unfold scalarContent at h
  split at h
  · trivial
  · cases h

theorem getElem?_of_map_strip {a b : List Node} (h : a.map Node.strip = b.map Node.strip) {j : Nat} {y : Node}
    (hy : b[j]? = some y) : ∃ x, a[j]? = some x ∧ x.strip = y.strip := by
  have : (a.map Node.strip)[j]? = (b.map Node.strip)[j]? := by rw [h]
  rw [List.getElem?_map, List.getElem?_map, hy] at this
  cases hx : a[j]? with
  | none => rw [hx] at this; cases this
  | some x => rw [hx] at this; exact ⟨x, rfl, by simpa using this⟩

theorem clean_residue {G : NsMap} {d : StructDef} {n : Name} {as : List Attr} {m : NsMap} {ks : List Node}
    (h : (Node.elem n as m ks).Clean G) : (d.residue n as m ks).Clean G := by
  obtain ⟨h1, h2, h3, ⟨h4, h5⟩, h6⟩ := h
  refine ⟨h1, h2, h3, ⟨?_, ?_⟩, ?_⟩
  · refine Nat.le_trans ?_ h4
    exact ((List.filter_sublist (p := d.unclaimed) (l := ks)).filterMap _).length_le
  · intro k hk
    exact h5 k (List.mem_filter.mp hk).1
  · rw [cleanL_iff] at h6 ⊢
    intro k hk
    exact h6 k (List.mem_filter.mp hk).1

theorem clean_ns {G : NsMap} (hG : NsTable G) {n : Name} {as : List Attr} {m : NsMap} {ks : List Node}
    (h : (Node.elem n as m ks).Clean G) : n.ns ≠ some [] := by
  obtain ⟨⟨-, -, h1⟩, -, ⟨-, h2⟩, -⟩ := h
  intro he
  rw [← h1] at he
  have key : ∀ q, scopeUri m q = some [] → False := by
    intro q hq
    have := hG.uri _ (h2 _ (XmlText.scopeUri_mem hq))
    simp [isUri] at this
  unfold readElemName at he
  split at he
  · exact key _ he
  · exact key _ he

theorem takes_sub {env : Env} {p q : Path} {d : StructDef} {f : FieldDef} (hp : env p = some (.struct d)) (hf : f ∈ d.fields)
    (hfl : f.isFlat) (hty : f.ty = .struct q) {it : Item} (h : Takes env q it) : Takes env p it :=
  .flat p d f q it hp hf hfl hty h

theorem seesAttrs_sub {env : Env} {p q : Path} (h : ∀ it, Takes env q it → Takes env p it) (as : List Attr) :
    seesAttrs env q (seesAttrs env p as) = seesAttrs env q as := by
  unfold seesAttrs
  rw [List.filter_filter]
  refine List.filter_congr ?_
  intro a _
  by_cases hq : Takes env q (.attr a.name.loc)
  · simp [hq, h _ hq]
  · simp [hq]

theorem sees_sub {env : Env} {p q : Path} (h : ∀ it, Takes env q it → Takes env p it) (ks : List Node) :
    sees env q (sees env p ks) = sees env q ks := by
  unfold sees
  rw [List.filter_filter]
  refine List.filter_congr ?_
  intro k _
  by_cases hq : Takes env q k.item
  · simp [hq, h _ hq]
  · simp [hq]

/-- Nothing the flattened field looks at is taken away. -/
theorem similar_residue {env : Env} {p q : Path} {d d' : StructDef} (hq : env q = some (.struct d'))
    (hsub : ∀ it, Takes env q it → Takes env p it) (hun : ∀ n', Takes env q (.elem n') → d.fieldFor n' = none)
    {x0 : Node} {n : Name} {as as' : List Attr} {m m' : NsMap} {ks ks' : List Node}
    (h0 : Similar env q x0 (.elem n as m ks)) (ha : seesAttrs env p as = seesAttrs env p as')
    (hk : (sees env p ks).map Node.strip = (sees env p ks').map Node.strip) :
    Similar env q x0 (d.residue n as' m' ks') := by
  rcases similar_struct hq h0 with ⟨s, -, h⟩ | ⟨n1, as1, m1, ks1, as2, m2, ks2, rfl, h, ha1, hk1⟩
  · cases h
  · cases h
    refine .seen d' _ _ _ _ _ _ _ hq ?_ ?_
    · rw [ha1, ← seesAttrs_sub hsub as, ha, seesAttrs_sub hsub as']
    · have e1 : sees env q (ks'.filter d.unclaimed) = sees env q ks' := by
        unfold sees
        rw [List.filter_filter]
        refine List.filter_congr ?_
        intro k _
        cases k with
        | text s => simp [StructDef.unclaimed]
        | elem n' as' m' kk =>
          by_cases ht : Takes env q (.elem n')
          · simp [Node.item, ht, StructDef.unclaimed, hun n' ht]
          · simp [Node.item, ht]
      rw [hk1, e1, ← sees_sub hsub ks, ← sees_sub hsub ks', sees_strip env q (sees env p ks),
        sees_strip env q (sees env p ks'), hk]

/-! ### Reading -/

theorem variantKids_all (L : Lib) (d : EnumDef) (i : Nat) (t : FTy) (l : List (Node × (Path → Res Val))) :
    ∀ xs : List Val, xs.length = l.length →
    (∀ (j : Nat) (k : Node × (Path → Res Val)) (x : Val), l[j]? = some k → xs[j]? = some x →
      variantKid L d k.2 k.1 = .ok (some (i, t, x))) →
    ∀ cur, variantKids L d l cur = xs.foldl (fun (r : Res (Option Val)) x => r.bind fun c => variantAdd c (some (i, t, x))) (.ok cur) := by
  induction l with
  | nil =>
    intro xs hl _ cur
    have : xs = [] := List.length_eq_zero_iff.mp hl
    subst this; rfl
  | cons k l ih =>
    intro xs hl h cur
    cases xs with
    | nil => simp at hl
    | cons x xs =>
      rw [variantKids, h 0 k x rfl rfl]
      simp only [Res.bind, List.foldl_cons]
      have ih' := ih xs (by simpa using hl) (fun j k x hk hx => h (j + 1) k x (by simpa using hk) (by simpa using hx))
      have stuck : ∀ (r : Res (Option Val)) , (∀ c, r ≠ .ok c) →
          xs.foldl (fun (r : Res (Option Val)) x => r.bind fun c => variantAdd c (some (i, t, x))) r = r := by
        intro r hr
        clear ih' h hl
        induction xs with
        | nil => rfl
        | cons y ys ih2 =>
          rw [List.foldl_cons]
          have : (r.bind fun c => variantAdd c (some (i, t, y))) = r := by
            cases r <;> simp_all [Res.bind]
          rw [this]; exact ih2
      cases hv : variantAdd cur (some (i, t, x)) with
      | ok c => exact ih' c
      | err m => exact (stuck _ (by simp)).symm
      | panic m => exact (stuck _ (by simp)).symm
      | diverge => exact (stuck _ (by simp)).symm

theorem variantVal_fold {dflt : Val} {i : Nat} {t : FTy} {xs : List Val} {v : Val} (h : VariantVal dflt i t xs v) :
    (xs.foldl (fun (r : Res (Option Val)) x => r.bind fun c => variantAdd c (some (i, t, x))) (.ok none)).bind (fun r => Res.ok (r.getD dflt))
      = .ok v := by
  cases h with
  | none t => rfl
  | some t x => rfl
  | simple t x => rfl
  | struct q x => rfl
  | items t x xs =>
    have : ∀ (ys zs : List Val), zs.foldl (fun (r : Res (Option Val)) x => r.bind fun c => variantAdd c (some (i, FTy.vec t, x)))
        (.ok (some (.enum i [.vec ys]))) = Res.ok (some (.enum i [.vec (ys ++ zs)])) := by
      intro ys zs
      induction zs generalizing ys with
      | nil => simp
      | cons z zs ih =>
        rw [List.foldl_cons]
        have e : ((Res.ok (some (Val.enum i [Val.vec ys]))).bind fun c => variantAdd c (some (i, FTy.vec t, z)))
            = .ok (some (.enum i [.vec (ys ++ [z])])) := by
          simp [Res.bind, variantAdd]
        rw [e, ih, List.append_assoc]; rfl
    rw [List.foldl_cons]
    have e : ((Res.ok (none : Option Val)).bind fun c => variantAdd c (some (i, FTy.vec t, x)))
        = .ok (some (.enum i [.vec [x]])) := rfl
    rw [e, this]
    rfl

theorem not_isElem_of_attr {f : FieldDef} (h : f.attrs.isAttr = true) : f.isElem = false := by
  simp [FieldDef.isElem, h]

theorem not_isElem_of_flat {f : FieldDef} (h : f.isFlat) : f.isElem = false := by
  simp [FieldDef.isElem, h.2]

theorem matching_not_elem {d : StructDef} {i : Nat} {f : FieldDef} (hf : d.fields[i]? = some f) (h : f.isElem = false)
    (ks : List Node) : matching d i ks = [] := by
  unfold matching
  rw [List.filter_eq_nil_iff]
  intro k _
  cases k with
  | text s => simp
  | elem n as m kk =>
    simp only [decide_eq_true_eq]
    intro hc
    obtain ⟨g, hg, -, hcl⟩ := fieldFor_some hc
    rw [hf] at hg
    cases hg
    rw [hcl.1] at h
    cases h

/-- Children that are not matched give nothing, except text. -/
theorem inputs_text {L : Lib} {dec : Node → Path → Res Val} {d : StructDef} {i : Nat} {f : FieldDef}
    (ks : List Node) (hm : matching d i ks = []) :
    ks.flatMap (kidInputs L dec d i f) = if f.attrs.text then (ntexts ks).map fun s => .ok (.str s) else [] := by
  induction ks with
  | nil => simp [ntexts]
  | cons k ks ih =>
    unfold matching at hm
    rw [List.filter_cons] at hm
    cases k with
    | text s =>
      rw [List.flatMap_cons, ih (by simpa [matching] using hm), ntexts_cons]
      by_cases ht : f.attrs.text = true <;> simp [kidInputs, ht, ntexts]
    | elem n as m kk =>
      by_cases hn : d.fieldFor n = some i
      · simp [hn] at hm
      · simp only [hn, decide_false, Bool.false_eq_true, if_false] at hm
        rw [List.flatMap_cons, ih hm, ntexts_cons]
        simp [kidInputs, hn, ntexts]

theorem map_eq_map_of {α β γ : Type} {f : α → γ} {g : β → γ} {l : List α} {l' : List β} (hl : l.length = l'.length)
    (h : ∀ (j : Nat) (a : α) (b : β), l[j]? = some a → l'[j]? = some b → f a = g b) : l.map f = l'.map g := by
  refine List.ext_getElem? ?_
  intro j
  rw [List.getElem?_map, List.getElem?_map]
  cases ha : l[j]? with
  | none =>
    have : l'[j]? = none := by
      rw [List.getElem?_eq_none_iff] at ha ⊢; omega
    rw [this]; rfl
  | some a =>
    have hj := (List.getElem?_eq_some_iff.mp ha).1
    have hb : l'[j]? = some (l'[j]'(by omega)) := List.getElem?_eq_getElem _
    rw [hb]
    simp [h j a _ ha hb]

theorem strip_elem {k : Node} {n : Name} {as : List Attr} {m : NsMap} {kk : List Node} (h : k.strip = (Node.elem n as m kk).strip) :
    ∃ m0 kk0, k = .elem n as m0 kk0 ∧ Node.stripL kk0 = Node.stripL kk := by
  cases k with
  | text s => simp [Node.strip] at h
  | elem n0 as0 m0 kk0 =>
    simp only [Node.strip, Node.elem.injEq] at h
    obtain ⟨rfl, rfl, -, h⟩ := h
    exact ⟨m0, kk0, rfl, h⟩

/-- A tree that contains a value is read as that value. -/
theorem View.reads {L : Lib} {env : Env} (hL : XmlLaw L) {G : NsMap} (hG : NsTable G) {p : Path} {v : Val} {x : Node}
    (h : View L env p v x) : ∃ k0, ∀ k, k0 ≤ k → ReadAs L env G k p v x := by
  induction h generalizing G with
  | struct p d n as m ks fs ins x0 ya wa hp hplain hlen hname hval hattr htext hlenIns hscal hkids hby hflat hflats hdoc hdocs
      ihk ihf iha =>
    replace ihk := fun i f q j kid w e1 e2 e3 e4 e5 e6 => ihk i f q j kid w e1 e2 e3 e4 e5 e6 hG
    replace ihf := fun i f v q e1 e2 e3 e4 => ihf i f v q e1 e2 e3 e4 hG
    -- enough levels for all attributes
    have hk3 : ∃ k3, ∀ k, k3 ≤ k → ∀ (i : Nat) (f : FieldDef) (q : Path) (a : Attr) (s : Str), d.fields[i]? = some f →
        f.attrs.isAttr = true → f.ty.core = .struct q → a ∈ as → a.name.loc = f.label → s ∈ f.ty.attrTexts a.value →
        AttrRead L env k q s (wa i s) := by
      obtain ⟨k1, hk1⟩ := ev_fin (P := fun i k => ∀ (f : FieldDef) (q : Path) (a : Attr) (s : Str), d.fields[i]? = some f →
        f.attrs.isAttr = true → f.ty.core = .struct q → a ∈ as → a.name.loc = f.label → s ∈ f.ty.attrTexts a.value →
        AttrRead L env k q s (wa i s))
        d.fields.length (by
          intro i hi
          obtain ⟨f, hf⟩ : ∃ f, d.fields[i]? = some f := ⟨_, List.getElem?_eq_getElem hi⟩
          by_cases hq : f.attrs.isAttr = true ∧ ∃ q, f.ty.core = .struct q
          · obtain ⟨hatt, q, hq⟩ := hq
            obtain ⟨k0, hk0⟩ := ev_list (P := fun a k => a.name.loc = f.label → ∀ s ∈ f.ty.attrTexts a.value,
              AttrRead L env k q s (wa i s)) as (by
                intro a ha
                by_cases hl : a.name.loc = f.label
                · obtain ⟨k2, hk2⟩ := ev_list (P := fun s k => AttrRead L env k q s (wa i s)) (f.ty.attrTexts a.value) (by
                      intro s hs
                      obtain ⟨y, hy, hst, ⟨G', hG', hcl⟩, hns⟩ := hdoc i f q a s hf hatt hq ha hl hs
                      obtain ⟨k3, hk3⟩ := iha i f q a s hf hatt hq ha hl hs hG'
                      refine ⟨max k3 y.events.length, fun k hk => ?_⟩
                      obtain ⟨g1, g2⟩ := hk3 k (by omega) y (.strip _ _ hst.symm) hcl
                      exact ⟨y, hy, by omega, g1, g2, hns⟩)
                  exact ⟨k2, fun k hk _ => hk2 k hk⟩
                · exact ⟨0, fun k _ h => (hl h).elim⟩)
            refine ⟨k0, ?_⟩
            intro k hk f' q' a s f1 _ f3 f4 f5 f6
            rw [hf] at f1; cases f1
            rw [hq] at f3; cases f3
            exact hk0 k hk a f4 f5 s f6
          · refine ⟨0, ?_⟩
            intro k _ f' q' a s f1 f2 f3
            rw [hf] at f1; cases f1
            exact (hq ⟨f2, q', f3⟩).elim)
      refine ⟨k1, ?_⟩
      intro k hk i f q a s e1
      exact hk1 i (List.getElem?_eq_some_iff.mp e1).1 k hk f q a s e1
    -- enough levels for all children
    have hk1 : ∃ k1, ∀ k, k1 ≤ k → ∀ (i : Nat) (f : FieldDef) (q : Path) (j : Nat) (kid : Node) (w : Val),
        d.fields[i]? = some f → f.isElem = true → f.attrs.text = false → f.ty.core = .struct q →
        (matching d i ks)[j]? = some kid → (ins i)[j]? = some w → ReadAs L env G k q w kid := by
      obtain ⟨k1, hk1⟩ := ev_fin (P := fun i k => ∀ (f : FieldDef) (q : Path) (j : Nat) (kid : Node) (w : Val),
        d.fields[i]? = some f → f.isElem = true → f.attrs.text = false → f.ty.core = .struct q →
        (matching d i ks)[j]? = some kid → (ins i)[j]? = some w → ReadAs L env G k q w kid) d.fields.length (by
          intro i hi
          obtain ⟨k2, hk2⟩ := ev_fin (P := fun j k => ∀ (f : FieldDef) (q : Path) (kid : Node) (w : Val),
            d.fields[i]? = some f → f.isElem = true → f.attrs.text = false → f.ty.core = .struct q →
            (matching d i ks)[j]? = some kid → (ins i)[j]? = some w → ReadAs L env G k q w kid) (ins i).length (by
              intro j hj
              by_cases hex : ∃ (f : FieldDef) (q : Path) (kid : Node) (w : Val),
                d.fields[i]? = some f ∧ f.isElem = true ∧ f.attrs.text = false ∧ f.ty.core = .struct q ∧
                (matching d i ks)[j]? = some kid ∧ (ins i)[j]? = some w
              · obtain ⟨f, q, kid, w, e1, e2, e3, e4, e5, e6⟩ := hex
                obtain ⟨k0, hk0⟩ := ihk i f q j kid w e1 e2 e3 e4 e5 e6
                refine ⟨k0, ?_⟩
                intro k hk f' q' kid' w' f1 _ _ f4 f5 f6
                rw [e1] at f1; cases f1
                rw [e4] at f4; cases f4
                rw [e5] at f5; cases f5
                rw [e6] at f6; cases f6
                exact hk0 k hk
              · refine ⟨0, ?_⟩
                intro k _ f' q' kid' w' f1 f2 f3 f4 f5 f6
                exact absurd ⟨f', q', kid', w', f1, f2, f3, f4, f5, f6⟩ hex)
          refine ⟨k2, ?_⟩
          intro k hk f q j kid w e1 e2 e3 e4 e5 e6
          exact hk2 j (List.getElem?_eq_some_iff.mp e6).1 k hk f q kid w e1 e2 e3 e4 e5 e6)
      refine ⟨k1, ?_⟩
      intro k hk i f q j kid w e1
      exact hk1 i (List.getElem?_eq_some_iff.mp e1).1 k hk f q j kid w e1
    have hk2 : ∃ k2, ∀ k, k2 ≤ k → ∀ (i : Nat) (f : FieldDef) (v : Val) (q : Path), d.fields[i]? = some f →
        fs[i]? = some v → f.isFlat → f.ty = .struct q → ReadAs L env G k q v (x0 i) := by
      obtain ⟨k1, hk1⟩ := ev_fin (P := fun i k => ∀ (f : FieldDef) (v : Val) (q : Path), d.fields[i]? = some f →
        fs[i]? = some v → f.isFlat → f.ty = .struct q → ReadAs L env G k q v (x0 i)) d.fields.length (by
          intro i hi
          by_cases hex : ∃ (f : FieldDef) (v : Val) (q : Path), d.fields[i]? = some f ∧
              fs[i]? = some v ∧ f.isFlat ∧ f.ty = .struct q
          · obtain ⟨f, v, q, e1, e2, e3, e4⟩ := hex
            obtain ⟨k0, hk0⟩ := ihf i f v q e1 e2 e3 e4
            refine ⟨k0, ?_⟩
            intro k hk f' v' q' f1 f2 _ f4
            rw [e1] at f1; cases f1
            rw [e2] at f2; cases f2
            rw [e4] at f4; cases f4
            exact hk0 k hk
          · refine ⟨0, ?_⟩
            intro k _ f' v' q' f1 f2 f3 f4
            exact absurd ⟨f', v', q', f1, f2, f3, f4⟩ hex)
      refine ⟨k1, ?_⟩
      intro k hk i f v q e1
      exact hk1 i (List.getElem?_eq_some_iff.mp e1).1 k hk f v q e1
    obtain ⟨k1, hk1⟩ := hk1
    obtain ⟨k2, hk2⟩ := hk2
    obtain ⟨k3, hk3⟩ := hk3
    refine ⟨max k1 (max (k2 + 1) (k3 + 1)), ?_⟩
    intro k hk x' hag hcl
    obtain ⟨kk, rfl⟩ : ∃ kk, k = kk + 1 := ⟨k - 1, by omega⟩
    replace hk1 := hk1 (kk + 1) (by omega)
    replace hk2 := hk2 kk (by omega)
    replace hk3 := hk3 kk (by omega)
    rcases similar_struct hp hag with ⟨s, h, -⟩ | ⟨n1, as1, m1, ks1, as', m', ks', h, rfl, ha, hks⟩
    · cases h
    cases h
    have hmat := matching_similar hp hks
    have hcl' := hcl
    obtain ⟨-, -, -, -, hclk⟩ := hcl'
    rw [cleanL_iff] at hclk
    -- the kid of the original tree for a kid of this one
    have hkid : ∀ (i : Nat) (f : FieldDef) (j : Nat) (kid : Node), d.fields[i]? = some f → f.isElem = true →
        f.attrs.text = false → (matching d i ks')[j]? = some kid →
        ∃ kid0 w, (matching d i ks)[j]? = some kid0 ∧ kid0.strip = kid.strip ∧ (ins i)[j]? = some w := by
      intro i f j kid hf he ht hj
      obtain ⟨kid0, h1, h2⟩ := getElem?_of_map_strip (hmat i) hj
      have hlt := (List.getElem?_eq_some_iff.mp h1).1
      rw [hlenIns i f hf he ht] at hlt
      exact ⟨kid0, _, h1, h2, List.getElem?_eq_getElem hlt⟩
    have hmem : ∀ (i : Nat) (kid : Node), kid ∈ matching d i ks' → kid ∈ ks' := fun i kid h => (List.mem_filter.mp h).1
    have hres : ∀ (i : Nat) (f : FieldDef) (v : Val) (q : Path), d.fields[i]? = some f → fs[i]? = some v → f.isFlat →
        f.ty = .struct q → Similar env q (x0 i) (d.residue n as' m' ks') := by
      intro i f v q hf hv hfl hty
      obtain ⟨-, -, q', d', hty', hq', -, hal, hun⟩ := hflat i f v hf hv hfl
      rw [hty] at hty'; cases hty'
      exact similar_residue hq' (fun it => takes_sub hp (List.mem_of_getElem? hf) hfl hty) hun hal ha hks
    have hcr : (d.residue n as' m' ks').Clean G := clean_residue hcl
    have hfsome : ∀ (i : Nat) (f : FieldDef), d.fields[i]? = some f → ∃ v, fs[i]? = some v := by
      intro i f hf
      have := (List.getElem?_eq_some_iff.mp hf).1
      exact ⟨_, List.getElem?_eq_getElem (by omega)⟩
    have hfl : ∀ (f : FieldDef), f ∈ d.fields → f.attrs.isAttr = true → ∀ l : List Attr,
        l.filter (fun a => decide (a.name.loc = f.label)) =
          (seesAttrs env p l).filter (fun a => decide (a.name.loc = f.label)) := by
      intro f hf hatt l
      unfold seesAttrs
      rw [List.filter_filter]
      refine List.filter_congr ?_
      intro a _
      by_cases hl : a.name.loc = f.label
      · have : Takes env p (.attr a.name.loc) := .own p d f _ hp hf ⟨hatt, hl.symm⟩
        rw [hl] at this
        simp [hl, this]
      · simp [hl]
    have hsame : ∀ (f : FieldDef), f ∈ d.fields → f.attrs.isAttr = true →
        as'.filter (fun a => decide (a.name.loc = f.label)) = as.filter (fun a => decide (a.name.loc = f.label)) := by
      intro f hf hatt
      rw [hfl f hf hatt as', hfl f hf hatt as, ha]
    constructor
    · rw [confN_eq, ConfWith, hp]
      refine ⟨hplain, hname, ?_, ?_, ?_⟩
      · rw [confKids_iff]
        intro kid hkm
        cases kid with
        | text s => rw [ConfKid]; exact (hclk _ hkm).nonempty
        | elem n1 as1 m1 kk1 =>
          rw [ConfKid]
          refine ⟨clean_ns hG (hclk _ hkm), ?_⟩
          intro i f hff hf
          have hm : Node.elem n1 as1 m1 kk1 ∈ matching d i ks' := List.mem_filter.mpr ⟨hkm, by simp [hff]⟩
          have he : f.isElem = true := by
            obtain ⟨g, hg, -, hc⟩ := fieldFor_some hff
            rw [hf] at hg; cases hg
            exact hc.1
          have ht : f.attrs.text = false := by
            cases ht : f.attrs.text with
            | false => rfl
            | true =>
              have h1 := hmat i
              rw [(htext i f hf ht).2.2] at h1
              have h2 : matching d i ks' = [] := by simpa using h1.symm
              rw [h2] at hm; cases hm
          obtain ⟨j, hj⟩ := List.getElem?_of_mem hm
          obtain ⟨kid0, w, e1, e2, e3⟩ := hkid i f j _ hf he ht hj
          obtain ⟨m0, kk0, rfl, e4⟩ := strip_elem e2
          constructor
          · intro t hty
            have hs := hscal i f t j _ w hf he ht hty e1 e3
            have hs' : scalarContent L t kk1 = some w := by
              rw [← scalarContent_strip, ← e4, scalarContent_strip]; exact hs
            exact ⟨textOnly_of_scalarContent hs', fun _ => by rw [hs']; rfl⟩
          · intro q hty
            have hr := hk1 i f q j _ w hf he ht hty e1 e3 _ (.strip _ _ e2) (hclk _ hkm)
            rw [confN_eq] at hr
            refine ⟨hr.1, ?_⟩
            intro hfl hbt
            refine hby hfl i f q _ hf he hty (List.mem_of_getElem? e1) ?_
            rw [← byText_strip, e2, byText_strip]
            exact hbt
      · intro f hf h1 h2 q hty
        obtain ⟨i, hi⟩ := List.getElem?_of_mem hf
        obtain ⟨v, hv⟩ := hfsome i f hi
        obtain ⟨-, -, q', d', hty', -⟩ := hflat i f v hi hv ⟨h1, h2⟩
        rw [hty'] at hty
        cases hty
        obtain ⟨y, hy, hyc⟩ := reparse_clean hL hG n as' m' _ hcr
        refine ⟨y, hy, ?_⟩
        have hal := similar_of_strip (hres i f v _ hi hv ⟨h1, h2⟩ hty') (y := y) (by
          rw [hy.1]; exact (canon_clean _ hcr).symm)
        exact (hk2 i f v _ hi hv ⟨h1, h2⟩ hty' y hal hyc).1
      · intro f hf hatt q hq a ha' hl s hs
        obtain ⟨i, hi⟩ := List.getElem?_of_mem hf
        have hmem' : a ∈ as := by
          have : a ∈ as'.filter (fun a => decide (a.name.loc = f.label)) :=
            List.mem_filter.mpr ⟨ha', decide_eq_true hl⟩
          rw [hsame f hf hatt] at this
          exact (List.mem_filter.mp this).1
        obtain ⟨y, g1, g2, g3, -⟩ := hk3 i f q a s hi hatt hq hmem' hl hs
        exact ⟨y, g1, g2, g3⟩
    · rw [decodeN_struct_ok_iff L env (kk + 1) p d hp]
      refine ⟨fs, rfl, hlen, ?_⟩
      intro i f v hf hv
      refine ⟨ins i, ?_, hval i f v hf hv⟩
      unfold fieldInputs
      by_cases hatt : f.attrs.isAttr = true
      · -- attribute
        obtain ⟨h1, h2⟩ := hattr i f hf hatt
        have e1 : attrInputs L (userAttr (flatN L env (kk + 1))) f as' = (ins i).map .ok := by
          unfold attrInputs
          rw [if_pos hatt, ← h2, hsame f (List.mem_of_getElem? hf) hatt]
          refine List.flatMap_congr fun a ha' => attrWords_congr ?_
          intro q hq s hs
          rw [List.mem_filter] at ha'
          have hl := of_decide_eq_true ha'.2
          exact (hk3 i f q a s hf hatt hq ha'.1 hl hs).value
        rw [e1, inputs_text ks' (matching_not_elem hf (not_isElem_of_attr hatt) ks'), h1]
        have e3 : flatInputs (flatN L env (kk + 1) (d.residue n as' m' ks')) f = [] := by
          unfold flatInputs; simp [hatt]
        rw [e3]; simp
      · have hatt' : f.attrs.isAttr = false := by simpa using hatt
        have e1 : attrInputs L (userAttr (flatN L env (kk + 1))) f as' = [] := by unfold attrInputs; simp [hatt]
        by_cases hfl : f.attrs.flatten = true
        · -- flattened
          obtain ⟨h1, h2, q, d', hty, hq, hns, -, -⟩ := hflat i f v hf hv ⟨hatt', hfl⟩
          rw [e1, inputs_text ks' (matching_not_elem hf (not_isElem_of_flat ⟨hatt', hfl⟩) ks'), h1, h2]
          have hr := (hk2 i f v q hf hv ⟨hatt', hfl⟩ hty _ (hres i f v q hf hv ⟨hatt', hfl⟩ hty) hcr).2
          have e3 : flatN L env (kk + 1) (d.residue n as' m' ks') q = .ok v := by
            show decodeDocWith env (decodeN L env kk) (d.residue n as' m' ks').canon q = .ok v
            rw [canon_clean _ hcr, decodeDoc_strip]
            unfold decodeDocWith
            rw [hq]
            dsimp only
            rw [if_pos (show nsOk d'.attrs (d.residue n as' m' ks').name from hns), hr]
          unfold flatInputs
          simp only [hatt', hfl, Bool.not_false, Bool.and_true, if_true, hty, e3]
          simp
        · have hfl' : f.attrs.flatten = false := by simpa using hfl
          have he : f.isElem = true := by simp [FieldDef.isElem, hatt', hfl']
          rw [e1, flatInputs_elem _ f he, List.nil_append, List.append_nil]
          by_cases ht : f.attrs.text = true
          · -- text
            obtain ⟨-, h1, h2⟩ := htext i f hf ht
            have hm : matching d i ks' = [] := by
              have := hmat i
              rw [h2] at this
              simpa using this.symm
            rw [inputs_text ks' hm, if_pos ht, ← h1]
            have htk : Takes env p .text := .own p d f _ hp (List.mem_of_getElem? hf) ht
            have : ntexts ks' = ntexts ks := by
              rw [← ntexts_sees htk ks', ← ntexts_sees htk ks, ← ntexts_strip (sees env p ks'), ← hks, ntexts_strip]
            rw [this, List.map_map]
            rfl
          · have ht' : f.attrs.text = false := by simpa using ht
            have hl : (matching d i ks').length = (ins i).length := by
              rw [← hlenIns i f hf he ht', ← List.length_map (as := matching d i ks') Node.strip,
                ← List.length_map (as := matching d i ks) Node.strip, hmat i]
            rcases hplain.elemTy f (List.mem_of_getElem? hf) with ⟨t, hty⟩ | ⟨q, hty⟩
            · rw [inputs_matching_simple L _ d i f t hty ht']
              congr 1
              have : (matching d i ks').filterMap (fun c => scalarContent L t c.content) = (ins i).filterMap some := by
                have e2 : ((matching d i ks').map fun c => scalarContent L t c.content) = (ins i).map some := by
                  refine map_eq_map_of hl ?_
                  intro j a b hj hb
                  obtain ⟨kid0, w, g1, g2, g3⟩ := hkid i f j a hf he ht' hj
                  rw [hb] at g3; cases g3
                  rw [← scalarContent_strip, ← content_strip, ← g2, content_strip, scalarContent_strip]
                  exact hscal i f t j kid0 b hf he ht' hty g1 hb
                have e3 : ∀ (l : List Node) , l.filterMap (fun c => scalarContent L t c.content)
                    = (l.map fun c => scalarContent L t c.content).filterMap id := by
                  intro l; rw [List.filterMap_map]; rfl
                rw [e3, e2, List.filterMap_map]; rfl
              rw [this, List.filterMap_some]
            · rw [inputs_matching_struct L _ d i f q hty ht']
              refine map_eq_map_of hl ?_
              intro j a b hj hb
              obtain ⟨kid0, w, g1, g2, g3⟩ := hkid i f j a hf he ht' hj
              rw [hb] at g3; cases g3
              exact (hk1 i f q j kid0 b hf he ht' hty g1 hb a (.strip _ _ g2)
                (hclk a (hmem i a (List.mem_of_getElem? hj)))).2
  | unit p d n as m s i vd hp htag hns hn hi hv hs =>
    refine ⟨0, ?_⟩
    intro k _ x' hag _
    have hst := similar_notStruct (by intro d' h; rw [hp] at h; cases h) hag
    obtain ⟨m', ks', rfl, hk⟩ := strip_elem hst.symm
    have : ks' = [.text s] := by
      match ks', hk with
      | [.text t], hk => simpa [Node.stripL, Node.strip] using hk
      | [.elem ..], hk => simp [Node.stripL, Node.strip] at hk
      | [], hk => simp [Node.stripL] at hk
      | _ :: _ :: _, hk => simp [Node.stripL] at hk
    subst this
    have hu : unitByText d [.text s] = some i := hi
    constructor
    · rw [confN_eq, ConfWith, hp]
      exact ⟨hns, .inl ⟨htag, hn, .inl ⟨i, vd, hu, hv, hs⟩⟩⟩
    · rw [decodeN_eq, decodeWith, hp]
      dsimp only
      unfold decodeEnum
      have hof : d.variantOf n as = none := by simp [EnumDef.variantOf, EnumDef.keyOf, htag, hn]
      rw [hof, hu]
  | named p d n as m key i vd hp hns hk hi hv hs =>
    refine ⟨0, ?_⟩
    intro k _ x' hag _
    have hst := similar_notStruct (by intro d' h; rw [hp] at h; cases h) hag
    obtain ⟨m', ks', rfl, hk'⟩ := strip_elem hst.symm
    have : ks' = [] := by
      cases ks' with
      | nil => rfl
      | cons a b => simp [Node.stripL] at hk'
    subst this
    constructor
    · rw [confN_eq, ConfWith, hp]
      refine ⟨hns, .inr ⟨rfl, key, hk, ?_⟩⟩
      intro i' v' h1 h2
      rw [hi] at h1; cases h1
      rw [hv] at h2; cases h2
      exact hs
    · rw [decodeN_eq, decodeWith, hp]
      dsimp only
      unfold decodeEnum
      have hof : d.variantOf n as = some i := by simp [EnumDef.variantOf, hk, hi]
      rw [hof]
  | variants p d n as m ks i vd t xs v hp htag hns hn hv hs hcore hlen hkid hscal hstr hval ih =>
    have hk1 : ∃ k1, ∀ k, k1 ≤ k → ∀ (q : Path) (j : Nat) (kid : Node) (w : Val), t.core = .struct q →
        ks[j]? = some kid → xs[j]? = some w → ReadAs L env G k q w kid := by
      obtain ⟨k1, hk1⟩ := ev_fin (P := fun j k => ∀ (q : Path) (kid : Node) (w : Val), t.core = .struct q →
        ks[j]? = some kid → xs[j]? = some w → ReadAs L env G k q w kid) ks.length (by
          intro j hj
          by_cases hex : ∃ (q : Path) (kid : Node) (w : Val), t.core = .struct q ∧ ks[j]? = some kid ∧ xs[j]? = some w
          · obtain ⟨q, kid, w, e1, e2, e3⟩ := hex
            obtain ⟨k0, hk0⟩ := ih q j kid w e1 e2 e3 hG
            refine ⟨k0, ?_⟩
            intro k hk q' kid' w' f1 f2 f3
            rw [e1] at f1; cases f1
            rw [e2] at f2; cases f2
            rw [e3] at f3; cases f3
            exact hk0 k hk
          · refine ⟨0, ?_⟩
            intro k _ q' kid' w' f1 f2 f3
            exact absurd ⟨q', kid', w', f1, f2, f3⟩ hex)
      refine ⟨k1, ?_⟩
      intro k hk q j kid w e1 e2
      exact hk1 j (List.getElem?_eq_some_iff.mp e2).1 k hk q kid w e1 e2
    obtain ⟨k1, hk1⟩ := hk1
    refine ⟨k1, ?_⟩
    intro k hk x' hag hcl
    replace hk1 := hk1 k hk
    have hst := similar_notStruct (by intro d' h; rw [hp] at h; cases h) hag
    obtain ⟨m', ks', rfl, hks⟩ := strip_elem hst.symm
    rw [stripL_eq_map, stripL_eq_map] at hks
    obtain ⟨-, -, -, -, hclk⟩ := hcl
    rw [cleanL_iff] at hclk
    have hl : xs.length = ks'.length := by
      rw [hlen, ← List.length_map (as := ks') Node.strip, ← List.length_map (as := ks) Node.strip, hks]
    have hkid' : ∀ (j : Nat) (kid : Node), ks'[j]? = some kid → ∃ kid0 w n1 as1 m0 m1 kk0 kk1, ks[j]? = some kid0 ∧
        xs[j]? = some w ∧ kid0.strip = kid.strip ∧ kid0 = .elem n1 as1 m0 kk0 ∧ kid = .elem n1 as1 m1 kk1 ∧
        Node.stripL kk0 = Node.stripL kk1 ∧ d.variantFor n1.loc = some i := by
      intro j kid hj
      obtain ⟨kid0, h1, h2⟩ := getElem?_of_map_strip hks.symm hj
      have hlt := (List.getElem?_eq_some_iff.mp h1).1
      obtain ⟨n1, as1, m0, kk0, rfl, hvf⟩ := hkid kid0 (List.mem_of_getElem? h1)
      obtain ⟨m1, kk1, rfl, h3⟩ := strip_elem h2.symm
      exact ⟨_, _, n1, as1, m0, m1, kk0, kk1, h1, List.getElem?_eq_getElem (by omega), h2, rfl, rfl, h3.symm, hvf⟩
    have hu : unitByText d ks' = none := by
      unfold unitByText
      split
      · rename_i s
        obtain ⟨kid0, w, n1, as1, m0, m1, kk0, kk1, -, -, -, -, h, -⟩ := hkid' 0 (.text s) rfl
        cases h
      · rfl
    constructor
    · rw [confN_eq, ConfWith, hp]
      refine ⟨hns, .inl ⟨htag, hn, .inr ?_⟩⟩
      rw [confVariants_iff]
      intro kid hkm
      obtain ⟨j, hj⟩ := List.getElem?_of_mem hkm
      obtain ⟨kid0, w, n1, as1, m0, m1, kk0, kk1, h1, h2, h3, rfl, rfl, h4, h5⟩ := hkid' j kid hj
      unfold ConfVariant
      refine .inr ⟨i, vd, t, h5, hv, hs, ?_⟩
      rcases hcore with ⟨s, hc⟩ | ⟨q, hc⟩
      · refine .inl ⟨s, hc, ?_⟩
        have := (hscal s j _ w hc h1 h2).1
        rw [← textOnly_strip, ← h4, textOnly_strip]
        exact this
      · refine .inr ⟨q, hc, ?_⟩
        have := (hk1 q j _ w hc h1 h2 _ (.strip _ _ h3) (hclk _ hkm)).1
        rwa [confN_eq] at this
    · rw [decodeN_eq, decodeWith, hp]
      dsimp only
      unfold decodeEnum
      have hof : d.variantOf n as = none := by simp [EnumDef.variantOf, EnumDef.keyOf, htag, hn]
      rw [hof, hu]
      dsimp only
      rw [variantKids_all L d i t _ xs (by rw [List.length_zip, decodeL_map, List.length_map]; omega) ?_ none]
      · exact variantVal_fold hval
      · intro j kk w hj hw
        rw [decodeL_map, List.getElem?_zip_eq_some, List.getElem?_map] at hj
        obtain ⟨hj1, hj2⟩ := hj
        rw [hj1] at hj2
        simp only [Option.map_some, Option.some.injEq] at hj2
        obtain ⟨kid0, w', n1, as1, m0, m1, kk0, kk1, h1, h2, h3, rfl, h6, h4, h5⟩ := hkid' j kk.1 hj1
        rw [hw] at h2; cases h2
        rw [h6, variantKid, h5]
        dsimp only
        rw [hv]
        obtain ⟨vi, va, vs⟩ := vd
        dsimp only at hs
        subst hs
        dsimp only
        rcases hcore with ⟨s, hc⟩ | ⟨q, hc⟩
        · rw [hc]
          dsimp only
          have : parseS L s (textContent kk0) = .ok w := (hscal s j _ w hc h1 hw).2
          rw [← textContent_strip, ← h4, textContent_strip, this]
        · rw [hc]
          dsimp only
          have := (hk1 q j _ w hc h1 hw kk.1 (.strip _ _ h3) (hclk _ (List.mem_of_getElem? hj1))).2
          rw [decodeN_eq] at this
          rw [← hj2, this]
          rfl
  | prim p d n as m ks v hp ht hv =>
    refine ⟨0, ?_⟩
    intro k _ x' hag _
    have hst := similar_notStruct (by intro d' h; rw [hp] at h; cases h) hag
    obtain ⟨m', ks', rfl, hk⟩ := strip_elem hst.symm
    constructor
    · rw [confN_eq, ConfWith, hp]
      dsimp only
      rw [← textOnly_strip, hk, textOnly_strip]
      exact ht
    · rw [decodeN_eq, decodeWith, hp]
      dsimp only
      rw [← textContent_strip, hk, textContent_strip, hv]

end Yaserde
