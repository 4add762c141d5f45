import Verif.Proofs.XmlText
/-
The concrete XML library satisfies the law: emitter and parser, side by side.
-/

set_option autoImplicit false

namespace Yaserde
namespace XmlText

/-! ### Tags -/

theorem run_decls {nm : Str} (ds : NsMap) (hp : ∀ d ∈ ds, d.1 = [] ∨ isNCName d.1 = true) (hu : ∀ d ∈ ds, isUri d.2 = true)
    (p : PS) {as : List (Str × Str)} {st : PSt} (h : TagSt nm as st) :
    ∃ st', TagSt nm (as ++ ds.map declAttr) st' ∧ run (ds.flatMap emitDecl) { p with st := st } = { p with st := st' } := by
  induction ds generalizing as st with
  | nil => exact ⟨st, by simpa using h, by simp [run]⟩
  | cons d ds ih =>
    obtain ⟨st', h1, h2⟩ := ih (fun e he => hp e (by simp [he])) (fun e he => hu e (by simp [he])) (.val (as ++ [declAttr d]))
    refine ⟨st', by simpa using h1, ?_⟩
    rw [List.flatMap_cons, run_append, run_decl h p d (hp d (by simp)) (hu d (by simp)), h2]

theorem run_attrs {nm : Str} (l : List Attr) (hn : ∀ a ∈ l, NameLike a.name.raw) (hv : ∀ a ∈ l, isAttrText a.value = true)
    (p : PS) {as : List (Str × Str)} {st : PSt} (h : TagSt nm as st) :
    ∃ st', TagSt nm (as ++ l.map fun a => (a.name.raw, a.value)) st' ∧
      run (l.flatMap emitAttr) { p with st := st } = { p with st := st' } := by
  induction l generalizing as st with
  | nil => exact ⟨st, by simpa using h, by simp [run]⟩
  | cons d ds ih =>
    obtain ⟨st', h1, h2⟩ := ih (fun e he => hn e (by simp [he])) (fun e he => hv e (by simp [he]))
      (.val (as ++ [(d.name.raw, d.value)]))
    refine ⟨st', by simpa using h1, ?_⟩
    rw [List.flatMap_cons, run_append, run_attr h p d (hn d (by simp)) (hv d (by simp)), h2]

/-- The events of the pending text. -/
def flushed (b : Str) : List REv := if trimSpace b = [] then [] else [.chars (trimSpace b)]

theorem flush_eq (p : PS) : p.flush = { p with buf := [], evs := p.evs ++ flushed p.buf } := by
  unfold PS.flush flushed
  rw [trim_eq]
  by_cases h : trimSpace p.buf = []
  · simp [h]
  · have : (trimSpace p.buf).isEmpty = false := by simpa using h
    simp [h]

/-- The start tag up to its attributes. -/
theorem run_openTag (nm : Str) (ds : NsMap) (l : List Attr) (p : PS) (hst : p.st = .text) (hn : NameLike nm)
    (hp : ∀ d ∈ ds, d.1 = [] ∨ isNCName d.1 = true) (hu : ∀ d ∈ ds, isUri d.2 = true)
    (han : ∀ a ∈ l, NameLike a.name.raw) (hav : ∀ a ∈ l, isAttrText a.value = true) :
    ∃ st, TagSt nm (ds.map declAttr ++ l.map fun a => (a.name.raw, a.value)) st ∧
      run (c!"<" ++ nm ++ ds.flatMap emitDecl ++ l.flatMap emitAttr) p
        = { p with buf := [], evs := p.evs ++ flushed p.buf, st := st } := by
  obtain ⟨hne, hall⟩ := hn
  cases nm with
  | nil => exact absurd rfl hne
  | cons c cs =>
    obtain ⟨h1, h2, h3, -, -, -, -⟩ := nameChar_ne hall.1
    have hp0 : p = { p with st := .text } := by rw [← hst]
    have e1 : PS.step p '<' = { p with st := .lt } := by rw [hp0]; rfl
    have e2 : PS.step { p with st := .lt } c = { p with buf := [], evs := p.evs ++ flushed p.buf, st := .openName [c] } := by
      simp only [PS.step]
      rw [if_neg h1, if_neg h2, if_neg h3, if_pos hall.1, flush_eq]
    have e3 : run (c!"<" ++ (c :: cs)) p = { p with buf := [], evs := p.evs ++ flushed p.buf, st := .openName (c :: cs) } := by
      have e0 : run c!"<" p = { p with st := .lt } := by rw [run_cons, e1, run_nil]
      rw [run_append, e0, run_cons, e2]
      exact run_openName cs { p with buf := [], evs := p.evs ++ flushed p.buf } [c] hall.2
    obtain ⟨st1, t1, r1⟩ := run_decls ds hp hu { p with buf := [], evs := p.evs ++ flushed p.buf } (TagSt.name (nm := c :: cs))
    obtain ⟨st2, t2, r2⟩ := run_attrs l han hav { p with buf := [], evs := p.evs ++ flushed p.buf } t1
    refine ⟨st2, by simpa using t2, ?_⟩
    rw [run_append, run_append, e3, r1, r2]

theorem run_closeStart (nm : Str) (p : PS) (hst : p.st = .text) (hn : NameLike nm) :
    run (c!"</" ++ nm) p = { p with buf := [], evs := p.evs ++ flushed p.buf, st := .closeName nm } := by
  have hp0 : p = { p with st := .text } := by rw [← hst]
  have e1 : PS.step p '<' = { p with st := .lt } := by rw [hp0]; rfl
  have e2 : PS.step { p with st := .lt } '/' = { p with buf := [], evs := p.evs ++ flushed p.buf, st := .closeName [] } := by
    simp only [PS.step]
    rw [if_pos (by decide), flush_eq]
  have e3 := run_closeName nm { p with buf := [], evs := p.evs ++ flushed p.buf } [] hn.2
  have e0 : run c!"</" p = { p with buf := [], evs := p.evs ++ flushed p.buf, st := .closeName [] } := by
    rw [run_cons, e1, run_cons, e2, run_nil]
  rw [run_append, e0, e3]
  rfl

theorem run_closeTag (nm : Str) (p : PS) (hst : p.st = .text) (hn : NameLike nm) :
    run (c!"</" ++ nm ++ c!">") p
      = PS.closeElem { p with buf := [], evs := p.evs ++ flushed p.buf, st := .closeName nm } nm := by
  rw [run_append, run_closeStart nm p hst hn, run_cons, run_nil]
  simp only [PS.step]
  rw [if_neg (nameStep_stop _ (by decide) (by decide)), if_pos (by decide)]

/-! ### Namespaces -/

/-- The scopes of emitter and parser agree with the declarations `sc`. -/
structure Scoped (scopes : List NsMap) (ps sc : NsMap) : Prop where
  written : ∀ d, (∃ m ∈ scopes, d ∈ m) ↔ d ∈ sc
  lookup : ∀ p u, lookupNs ps p = some u ↔ (p, u) ∈ sc

theorem Scoped.nil : Scoped [] [] [] := ⟨by simp, by simp [lookupNs]⟩

theorem lookupNs_eq (sc : NsMap) (p : Str) : lookupNs sc p = scopeUri sc p := rfl

theorem scopeUri_mem {sc : NsMap} {p u : Str} (h : scopeUri sc p = some u) : (p, u) ∈ sc := by
  unfold scopeUri at h
  rw [Option.map_eq_some_iff] at h
  obtain ⟨⟨a, b⟩, h1, h2⟩ := h
  have h3 := List.find?_some h1
  simp only [beq_iff_eq] at h3
  dsimp only at h2
  subst h3 h2
  exact List.mem_of_find?_eq_some h1

theorem scopeUri_none {sc : NsMap} {p : Str} (h : scopeUri sc p = none) : ∀ u, (p, u) ∉ sc := by
  unfold scopeUri at h
  simp only [Option.map_eq_none_iff, List.find?_eq_none, beq_iff_eq] at h
  exact fun u hu => h _ hu rfl

theorem Scoped.scopeUri {scopes : List NsMap} {ps sc : NsMap} (h : Scoped scopes ps sc) (p : Str) :
    lookupNs ps p = Yaserde.scopeUri sc p := by
  cases hs : Yaserde.scopeUri sc p with
  | some u => exact (h.lookup p u).mpr (scopeUri_mem hs)
  | none =>
    cases hl : lookupNs ps p with
    | none => rfl
    | some u => exact absurd ((h.lookup p u).mp hl) (scopeUri_none hs u)

theorem mem_newDecls {scopes : List NsMap} {nss : NsMap} {d : Str × Str} :
    d ∈ newDecls scopes nss ↔ d ∈ nss ∧ ¬ ∃ m ∈ scopes, d ∈ m := by
  simp only [newDecls, List.mem_filter, Bool.not_eq_true', List.any_eq_false, and_congr_right_iff]
  intro _
  constructor
  · rintro h ⟨m, hm, hd⟩
    have := h m hm
    simp only [List.any_eq_true, beq_iff_eq, exists_eq_right, not_exists, Bool.not_eq_true, List.any_eq_false] at this
    exact this hd
  · intro h m hm hany
    simp only [List.any_eq_true, beq_iff_eq] at hany
    obtain ⟨e, he, rfl⟩ := hany
    exact h ⟨m, hm, he⟩

theorem lookup_newScope {outer ds : NsMap} {p : Str} : lookupNs (newScope outer ds) p = (lookupNs ds p).or (lookupNs outer p) := by
  unfold lookupNs newScope
  rw [List.find?_append]
  cases h : List.find? (fun e => e.1 == p) ds with
  | some e => simp
  | none =>
    simp only [Option.none_or, Option.map_none]
    congr 1
    rw [List.find?_filter]
    congr 1
    funext e
    by_cases he : e.1 = p
    · subst he
      have : (ds.any fun d => d.1 == e.1) = false := by
        rw [List.any_eq_false]; intro d hd; exact (List.find?_eq_none.mp h) d hd
      simp [this]
    · simp [he]

theorem lookup_mem_nodup {ds : NsMap} (h : (ds.map Prod.fst).Nodup) (p u : Str) : lookupNs ds p = some u ↔ (p, u) ∈ ds := by
  constructor
  · exact scopeUri_mem
  · intro hm
    induction ds with
    | nil => cases hm
    | cons d ds ih =>
      simp only [List.map_cons, List.nodup_cons, List.mem_map, not_exists, not_and] at h
      unfold lookupNs
      rcases List.mem_cons.mp hm with rfl | hm
      · simp
      · have : ¬ d.1 = p := fun hd => h.1 (p, u) hm hd.symm
        rw [List.find?_cons_of_neg (by simpa using this)]
        exact ih h.2 hm

/-- Going into an element. -/
theorem Scoped.push {scopes : List NsMap} {ps sc nss : NsMap} (h : Scoped scopes ps sc) (hd : DeclsOk sc nss) :
    Scoped (newDecls scopes nss :: scopes) (newScope ps (newDecls scopes nss)) (nss ++ sc) := by
  have hnd : ((newDecls scopes nss).map Prod.fst).Nodup := (List.filter_sublist.map _).nodup hd.nodup
  constructor
  · intro d
    simp only [List.mem_cons, exists_eq_or_imp, mem_newDecls, List.mem_append]
    constructor
    · rintro (h1 | h1)
      · exact .inl h1.1
      · exact .inr ((h.written d).mp h1)
    · rintro (h1 | h1)
      · by_cases hw : ∃ m ∈ scopes, d ∈ m
        · exact .inr hw
        · exact .inl ⟨h1, hw⟩
      · exact .inr ((h.written d).mpr h1)
  · intro p u
    rw [lookup_newScope, List.mem_append]
    cases hl : lookupNs (newDecls scopes nss) p with
    | some u' =>
      have hm := (lookup_mem_nodup hnd p u').mp hl
      rw [mem_newDecls] at hm
      simp only [Option.some_or, Option.some.injEq]
      constructor
      · rintro rfl; exact .inl hm.1
      · rintro (h1 | h1)
        · have h2 := (lookup_mem_nodup hd.nodup p u).mpr h1
          have h3 := (lookup_mem_nodup hd.nodup p u').mpr hm.1
          rw [h2] at h3; cases h3; rfl
        · exact hd.agree _ hm.1 _ h1 rfl
    | none =>
      simp only [Option.none_or]
      rw [h.lookup]
      constructor
      · exact .inr
      · rintro (h1 | h1)
        · by_cases hw : ∃ m ∈ scopes, (p, u) ∈ m
          · exact (h.written _).mp hw
          · have := (lookup_mem_nodup hnd p u).mpr (mem_newDecls.mpr ⟨h1, hw⟩)
            rw [hl] at this; cases this
        · exact h1

theorem uri_ne {scopes : List NsMap} {ps sc : NsMap} (h : Scoped scopes ps sc) (hu : ∀ d ∈ sc, d.2 ≠ []) {p u : Str}
    (hl : lookupNs ps p = some u) : u.isEmpty = false := by
  have := hu _ ((h.lookup p u).mp hl)
  simpa using this

theorem resolveElem_eq {scopes : List NsMap} {ps sc : NsMap} (h : Scoped scopes ps sc) (hu : ∀ d ∈ sc, d.2 ≠ []) {raw : Str}
    (hb : Bound sc raw) : resolveElem ps raw = some (readElemName sc raw) := by
  unfold resolveElem readElemName
  unfold Bound at hb
  cases hs : splitColon raw with
  | none =>
    dsimp only
    rw [← h.scopeUri]
    cases hl : lookupNs ps [] with
    | none => rfl
    | some u => simpa using uri_ne h hu hl
  | some q =>
    obtain ⟨p, l⟩ := q
    rw [hs] at hb
    dsimp only at hb ⊢
    rw [← h.scopeUri] at hb ⊢
    cases hl : lookupNs ps p with
    | none => rw [hl] at hb; cases hb
    | some u => simpa using uri_ne h hu hl

theorem resolveAttrName_eq {scopes : List NsMap} {ps sc : NsMap} (h : Scoped scopes ps sc) (hu : ∀ d ∈ sc, d.2 ≠ []) {raw : Str}
    (hb : AttrNameOk sc raw) : resolveAttrName ps raw = some (readAttrName sc raw) := by
  unfold resolveAttrName readAttrName
  obtain ⟨-, -, hb⟩ := hb
  cases hs : splitColon raw with
  | none => rfl
  | some q =>
    obtain ⟨p, l⟩ := q
    rw [hs] at hb
    dsimp only at hb ⊢
    by_cases hx : p = c!"xml"
    · rw [if_pos hx, if_pos hx]
    · rw [if_neg hx, if_neg hx]
      have hb2 := hb.2.resolve_left hx
      rw [← h.scopeUri] at hb2 ⊢
      cases hl : lookupNs ps p with
      | none => rw [hl] at hb2; cases hb2
      | some u => simpa using uri_ne h hu hl

theorem resolveAttrs_eq {scopes : List NsMap} {ps sc : NsMap} (h : Scoped scopes ps sc) (hu : ∀ d ∈ sc, d.2 ≠ []) (as : List Attr)
    (hb : ∀ a ∈ as, AttrNameOk sc a.name.raw) :
    resolveAttrs ps (as.map fun a => (a.name.raw, a.value)) = some (as.map fun a => ⟨readAttrName sc a.name.raw, a.value⟩) := by
  induction as with
  | nil => rfl
  | cons a as ih =>
    rw [List.map_cons, resolveAttrs, resolveAttrName_eq h hu (hb a (by simp)), ih fun b hb' => hb b (by simp [hb'])]
    rfl

theorem declOf_declAttr {d : Str × Str} (h : d.1 = [] ∨ isNCName d.1 = true) : declOf (declAttr d) = some d := by
  obtain ⟨p, u⟩ := d
  dsimp only at h
  unfold declOf declAttr
  by_cases hp : p = []
  · subst hp; rfl
  · have e : splitColon (c!"xmlns:" ++ p) = some (c!"xmlns", p) := splitColon_colon (p := c!"xmlns") (by decide)
    dsimp only
    rw [if_neg hp]
    dsimp only
    have hne : (c!"xmlns:" ++ p : Str) ≠ c!"xmlns" := by
      intro hc; have := congrArg List.length hc; simp at this
    rw [if_neg hne, e]
    rfl

theorem declOf_attr {sc : NsMap} {a : Attr} (h : AttrNameOk sc a.name.raw) : declOf (a.name.raw, a.value) = none := by
  obtain ⟨-, h1, h2⟩ := h
  unfold declOf
  rw [if_neg h1]
  dsimp only
  cases hs : splitColon a.name.raw with
  | none => rfl
  | some q =>
    obtain ⟨p, l⟩ := q
    rw [hs] at h2
    exact if_neg h2.1

theorem hasDup_false {l : List Str} (h : l.Nodup) : hasDup l = false := by
  induction l with
  | nil => rfl
  | cons a as ih =>
    rw [List.nodup_cons] at h
    rw [hasDup, ih h.2]
    simpa using h.1

theorem declAttr_inj {a b : Str × Str} (h : (declAttr a).1 = (declAttr b).1) : a.1 = b.1 := by
  unfold declAttr at h
  by_cases ha : a.1 = [] <;> by_cases hb : b.1 = []
  · rw [ha, hb]
  · rw [if_pos ha, if_neg hb] at h
    have := congrArg List.length h; simp at this
  · rw [if_neg ha, if_pos hb] at h
    have := congrArg List.length h; simp at this
  · rw [if_neg ha, if_neg hb] at h
    simpa using h

theorem declAttr_ne {sc : NsMap} {d : Str × Str} {raw : Str} (h : AttrNameOk sc raw) : (declAttr d).1 ≠ raw := by
  obtain ⟨-, h1, h2⟩ := h
  unfold declAttr
  by_cases hd : d.1 = []
  · rw [if_pos hd]; exact Ne.symm h1
  · rw [if_neg hd]
    rintro rfl
    have e : splitColon (c!"xmlns:" ++ d.1) = some (c!"xmlns", d.1) := splitColon_colon (p := c!"xmlns") (by decide)
    rw [e] at h2
    exact h2.1 rfl

/-- The declarations in effect at the innermost open element. -/
def top : List (Str × NsMap) → NsMap
  | [] => []
  | (_, s) :: _ => s

theorem openElem_def (p : PS) (nm : Str) (attrs : List (Str × Str)) (b : Bool) :
    p.openElem nm attrs b =
      if hasDup (attrs.map Prod.fst) then p.fail c!"Attribute is redefined"
      else
        let scope := newScope (top p.stack) (attrs.filterMap declOf)
        match resolveElem scope nm, resolveAttrs scope (attrs.filter fun a => (declOf a).isNone) with
        | some n, some as =>
          let evs := p.evs ++ [.start n as scope]
          if b then { p with evs := evs ++ [.endE n], seenRoot := true, st := .text }
          else { p with evs := evs, seenRoot := true, stack := (nm, scope) :: p.stack, st := .text }
        | none, _ => p.fail (c!"Element " ++ nm ++ c!" prefix is unbound")
        | _, none => p.fail c!"Attribute prefix is unbound" := by
  obtain ⟨evs, stack, buf, r, st⟩ := p
  cases stack <;> rfl

/-- A complete start tag. -/
theorem openElem_eq {scopes : List NsMap} {sc nss : NsMap} (p : PS) (nm : Str) (as : List Attr) (b : Bool)
    (h : Scoped scopes (top p.stack) sc) (hu : ∀ d ∈ sc, d.2 ≠ [])
    (hd : DeclsOk sc nss) (ha : AttrsOk (nss ++ sc) as) (hb : Bound (nss ++ sc) nm) :
    let ds := newDecls scopes nss
    let scope := newScope (top p.stack) ds
    let n := readElemName (nss ++ sc) nm
    let evs := p.evs ++ [.start n (as.map fun a => ⟨readAttrName (nss ++ sc) a.name.raw, a.value⟩) scope]
    p.openElem nm (ds.map declAttr ++ as.map fun a => (a.name.raw, a.value)) b =
      if b then { p with evs := evs ++ [.endE n], seenRoot := true, st := .text }
      else { p with evs := evs, seenRoot := true, stack := (nm, scope) :: p.stack, st := .text } := by
  intro ds scope n evs
  have hsub : ∀ d ∈ ds, d ∈ nss := fun d hd => (mem_newDecls.mp hd).1
  have hp : ∀ d ∈ ds, d.1 = [] ∨ isNCName d.1 = true := fun d hm => by
    rcases hd.pfx d (hsub d hm) with h | h
    · exact .inl h
    · exact .inr h.1
  have hnd : (ds.map Prod.fst).Nodup := (List.filter_sublist.map _).nodup hd.nodup
  have hu' : ∀ d ∈ nss ++ sc, d.2 ≠ [] := by
    intro d hm
    rcases List.mem_append.mp hm with hm | hm
    · have := hd.uri d hm
      simp only [isUri, Bool.and_eq_true, Bool.not_eq_true', List.isEmpty_eq_false_iff] at this
      exact this.1
    · exact hu d hm
  have hs := h.push hd
  have e1 : hasDup ((ds.map declAttr ++ as.map fun a => (a.name.raw, a.value)).map Prod.fst) = false := by
    refine hasDup_false ?_
    rw [List.map_append, List.map_map, List.map_map, List.nodup_append]
    refine ⟨?_, ?_, ?_⟩
    · rw [List.Nodup, List.pairwise_map] at hnd ⊢
      exact hnd.imp fun hne heq => hne (declAttr_inj heq)
    · exact ha.nodup
    · intro x hx y hy
      obtain ⟨d, -, rfl⟩ := List.mem_map.mp hx
      obtain ⟨a, ham, rfl⟩ := List.mem_map.mp hy
      exact declAttr_ne (ha.name a ham)
  have e2 : (ds.map declAttr ++ as.map fun a => (a.name.raw, a.value)).filterMap declOf = ds := by
    rw [List.filterMap_append]
    have h1 : (ds.map declAttr).filterMap declOf = ds := by
      rw [List.filterMap_map]
      have : ∀ (l : NsMap), (∀ d ∈ l, d.1 = [] ∨ isNCName d.1 = true) → l.filterMap (declOf ∘ declAttr) = l := by
        intro l hl
        induction l with
        | nil => rfl
        | cons d l ih =>
          rw [List.filterMap_cons, Function.comp_apply, declOf_declAttr (hl d (by simp))]
          dsimp only
          rw [ih fun e he => hl e (by simp [he])]
      exact this ds hp
    have h2 : (as.map fun a => (a.name.raw, a.value)).filterMap declOf = [] := by
      rw [List.filterMap_eq_nil_iff]
      intro x hx
      obtain ⟨a, ham, rfl⟩ := List.mem_map.mp hx
      exact declOf_attr (ha.name a ham)
    rw [h1, h2, List.append_nil]
  have e3 : ((ds.map declAttr ++ as.map fun a => (a.name.raw, a.value)).filter fun a => (declOf a).isNone)
      = as.map fun a => (a.name.raw, a.value) := by
    rw [List.filter_append]
    have h1 : ((ds.map declAttr).filter fun a => (declOf a).isNone) = [] := by
      rw [List.filter_eq_nil_iff]
      intro x hx
      obtain ⟨d, hm, rfl⟩ := List.mem_map.mp hx
      rw [declOf_declAttr (hp d hm)]; simp
    have h2 : ((as.map fun a => (a.name.raw, a.value)).filter fun a => (declOf a).isNone) = as.map fun a => (a.name.raw, a.value) := by
      rw [List.filter_eq_self]
      intro x hx
      obtain ⟨a, ham, rfl⟩ := List.mem_map.mp hx
      rw [declOf_attr (ha.name a ham)]; rfl
    rw [h1, h2, List.nil_append]
  rw [openElem_def, e1, if_neg (by simp)]
  dsimp only
  rw [e2, e3, resolveElem_eq hs hu' hb, resolveAttrs_eq hs hu' as ha.name]

/-! ### The emitter -/

/-- The text written so far, with the pending start tag closed by `>`, leaves the parser between tags. -/
structure Inv (e : Em) (E : List REv) (St : List (Str × NsMap)) (B : Str) (r : Bool) : Prop where
  started : e.started = true
  opened : e.opened = St.map Prod.fst
  text : run e.fix.out {} = ⟨E, St, B, r, .text⟩
  selfClose : e.pending = true → ∃ nm sc rest n, St = (nm, sc) :: rest ∧ B = [] ∧ resolveElem sc nm = some n ∧
    run (e.out ++ c!" />") {} = ⟨E ++ [.endE n], rest, [], true, .text⟩ ∧
    (run (e.out ++ c!" /") {}).evs.length < (E ++ [REv.endE n]).length

theorem fix_pending (e : Em) : e.fix.pending = false := by
  unfold Em.fix; split
  · rfl
  · simpa using ‹¬ e.pending = true›

theorem fix_opened (e : Em) : e.fix.opened = e.opened := by unfold Em.fix Em.add; split <;> rfl
theorem fix_scopes (e : Em) : e.fix.scopes = e.scopes := by unfold Em.fix Em.add; split <;> rfl
theorem fix_started (e : Em) : e.fix.started = e.started := by unfold Em.fix Em.add; split <;> rfl

theorem setFlag_out (e : Em) (f : Flag) : (e.setFlag f).out = e.out := by unfold Em.setFlag; split <;> rfl
theorem setFlag_opened (e : Em) (f : Flag) : (e.setFlag f).opened = e.opened := by unfold Em.setFlag; split <;> rfl
theorem setFlag_scopes (e : Em) (f : Flag) : (e.setFlag f).scopes = e.scopes := by unfold Em.setFlag; split <;> rfl
theorem setFlag_started (e : Em) (f : Flag) : (e.setFlag f).started = e.started := by unfold Em.setFlag; split <;> rfl
theorem setFlag_pending (e : Em) (f : Flag) : (e.setFlag f).pending = e.pending := by unfold Em.setFlag; split <;> rfl

theorem fix_of_not_pending {e : Em} (h : e.pending = false) : e.fix = e := by
  unfold Em.fix; rw [h]; rfl

theorem checkStarted_of {cfg : EmitCfg} {e : Em} (h : e.started = true) : e.checkStarted cfg = e := by
  unfold Em.checkStarted; rw [h]; rfl

theorem nl_space {ind : Str} (h : ind.all isXmlSpace = true) (k : Nat) : ∀ c ∈ nl ind k, isXmlSpace c = true := by
  intro c hc
  rw [nl, List.mem_cons] at hc
  rcases hc with rfl | hc
  · decide
  · rw [List.mem_flatten] at hc
    obtain ⟨l, h1, h2⟩ := hc
    rw [List.mem_replicate] at h1
    rw [h1.2] at h2
    exact List.all_eq_true.mp h c h2

/-- `before_markup` adds white space only. -/
theorem beforeMarkup_eq {cfg : EmitCfg} (hc : cfg.Blank) (e : Em) :
    ∃ w, (∀ c ∈ w, isXmlSpace c = true) ∧ e.beforeMarkup cfg = e.add w := by
  unfold Em.beforeMarkup
  have h0 : e = e.add [] := by simp [Em.add]
  split
  · exact ⟨[], by simp, h0⟩
  · rename_i ind hi
    split
    · exact ⟨_, nl_space (hc ind hi) _, rfl⟩
    · exact ⟨[], by simp, h0⟩

theorem flushed_space (b w : Str) (h : ∀ c ∈ w, isXmlSpace c = true) : flushed (b ++ w) = flushed b := by
  unfold flushed; rw [trim_append_space b w h]

/-- A start tag. -/
theorem Inv.start {cfg : EmitCfg} (hc : cfg.Blank) {e : Em} {E : List REv} {St : List (Str × NsMap)} {B : Str} {r : Bool}
    (hi : Inv e E St B r) {sc : NsMap} (hs : Scoped e.scopes (top St) sc)
    (hu : ∀ d ∈ sc, d.2 ≠ []) {nm : Str} {as : List Attr} {nss : NsMap} (hq : isQName nm = true)
    (hb : Bound (nss ++ sc) nm) (hd : DeclsOk sc nss) (ha : AttrsOk (nss ++ sc) as) :
    let scope := newScope (top St) (newDecls e.scopes nss)
    Inv (e.step cfg (.start (Name.ofStr nm) as nss))
      (E ++ flushed B ++ [.start (readElemName (nss ++ sc) nm)
        (as.map fun a => ⟨readAttrName (nss ++ sc) a.name.raw, a.value⟩) scope]) ((nm, scope) :: St) [] true ∧
      (e.step cfg (.start (Name.ofStr nm) as nss)).scopes = newDecls e.scopes nss :: e.scopes ∧
      Scoped (newDecls e.scopes nss :: e.scopes) scope (nss ++ sc) := by
  intro scope
  obtain ⟨w, hw, hbm⟩ := beforeMarkup_eq hc e.fix
  have hraw : qname (Name.ofStr nm) = nm := by
    rw [qname_eq, Name.raw, Name.ofStr]
    cases hsp : splitColon nm with
    | none => rfl
    | some q => obtain ⟨p, l⟩ := q; exact (splitColon_some hsp).symm
  have hscopes : (e.fix.add w).scopes = e.scopes := fix_scopes e
  have hrun := hi.text
  obtain ⟨w', hw', hr1⟩ := run_space w ⟨E, St, B, r, .text⟩ hw
  have hr2 : run (e.fix.out ++ w) {} = ⟨E, St, B ++ w', r, .text⟩ := by
    rw [run_append, hrun]; exact hr1
  obtain ⟨st, ht, hr3⟩ := run_openTag nm (newDecls e.scopes nss) as ⟨E, St, B ++ w', r, .text⟩ rfl (qName_like hq)
    (fun d hm => by
      rcases hd.pfx d (mem_newDecls.mp hm).1 with h | h
      · exact .inl h
      · exact .inr h.1)
    (fun d hm => hd.uri d (mem_newDecls.mp hm).1) (fun a hm => qName_like (ha.name a hm).1) ha.value
  rw [flushed_space B w' hw'] at hr3
  have hstep : e.step cfg (.start (Name.ofStr nm) as nss)
      = { (e.fix.add w).add (c!"<" ++ nm ++ (newDecls e.scopes nss).flatMap emitDecl ++ as.flatMap emitAttr) with
        opened := nm :: e.opened, scopes := newDecls e.scopes nss :: e.scopes, pending := true,
        flags := .markup :: (e.fix.add w).flags } := by
    simp only [Em.step]
    rw [checkStarted_of hi.started, hbm, hscopes, hraw]
    have : (e.fix.add w).opened = e.opened := fix_opened e
    rw [this]
  have hout : run (e.fix.out ++ w ++ (c!"<" ++ nm ++ (newDecls e.scopes nss).flatMap emitDecl ++ as.flatMap emitAttr)) {}
      = ⟨E ++ flushed B, St, [], r, st⟩ := by
    rw [run_append, hr2, hr3]
  have hopen := openElem_eq (scopes := e.scopes) (sc := sc) (nss := nss) ⟨E ++ flushed B, St, [], r, st⟩ nm as false hs hu hd ha hb
  have hself := openElem_eq (scopes := e.scopes) (sc := sc) (nss := nss)
    ⟨E ++ flushed B, St, [], r, .slash nm ((newDecls e.scopes nss).map declAttr ++ as.map fun a => (a.name.raw, a.value))⟩
    nm as true hs hu hd ha hb
  have hs' := hs.push hd
  refine ⟨⟨?_, ?_, ?_, ?_⟩, ?_, hs'⟩
  · rw [hstep]; exact (fix_started e).trans hi.started
  · rw [hstep]; show nm :: e.opened = _; rw [hi.opened]; rfl
  · rw [hstep]
    show run (e.fix.out ++ w ++ (c!"<" ++ nm ++ (newDecls e.scopes nss).flatMap emitDecl ++ as.flatMap emitAttr) ++ c!">") {} = _
    rw [run_append, hout]
    refine (TagSt.close ht ⟨E ++ flushed B, St, [], r, st⟩).trans ?_
    rw [hopen]; rfl
  · intro _
    have hu' : ∀ d ∈ nss ++ sc, d.2 ≠ [] := by
      intro d hm
      rcases List.mem_append.mp hm with hm | hm
      · have := hd.uri d hm
        simp only [isUri, Bool.and_eq_true, Bool.not_eq_true', List.isEmpty_eq_false_iff] at this
        exact this.1
      · exact hu d hm
    refine ⟨nm, _, St, readElemName (nss ++ sc) nm, rfl, rfl, resolveElem_eq hs' hu' hb, ?_, ?_⟩
    · rw [hstep]
      show run (e.fix.out ++ w ++ (c!"<" ++ nm ++ (newDecls e.scopes nss).flatMap emitDecl ++ as.flatMap emitAttr) ++ c!" />") {} = _
      rw [run_append, hout]
      refine (TagSt.selfClose ht ⟨E ++ flushed B, St, [], r, st⟩).trans ?_
      rw [hself]; rfl
    · rw [hstep]
      show (run (e.fix.out ++ w ++ (c!"<" ++ nm ++ (newDecls e.scopes nss).flatMap emitDecl ++ as.flatMap emitAttr) ++ c!" /") {}).evs.length < _
      rw [run_append, hout, run_cons]
      have hsp := TagSt.space ht ⟨E ++ flushed B, St, [], r, st⟩
      dsimp only at hsp
      rw [hsp]
      have : (run c!"/" ⟨E ++ flushed B, St, [], r, .inTag nm ((newDecls e.scopes nss).map declAttr ++ as.map fun a => (a.name.raw, a.value))⟩).evs
        = E ++ flushed B := rfl
      rw [this]
      simp
  · rw [hstep]

/-- An end tag. -/
theorem Inv.end {cfg : EmitCfg} (hc : cfg.Blank) {e : Em} {E : List REv} {nm : Str} {scope : NsMap} {St : List (Str × NsMap)}
    {B : Str} {r : Bool} (hi : Inv e E ((nm, scope) :: St) B r) {n : Name} (hres : resolveElem scope nm = some n)
    (hq : isQName nm = true) (g : Option Name) :
    ∃ r', Inv (e.step cfg (.endE g)) (E ++ flushed B ++ [.endE n]) St [] r' ∧ (r = true → r' = true) ∧
      (e.step cfg (.endE g)).scopes = e.scopes.tail ∧
      ∃ t, (e.step cfg (.endE g)).out = t ++ c!">" ∧ (run t {}).evs.length < (E ++ flushed B ++ [REv.endE n]).length := by
  have hopened : e.opened.tail = St.map Prod.fst := by rw [hi.opened]; rfl
  by_cases hp : e.pending = true
  · obtain ⟨nm', sc', rest, n', h1, h2, h3, h4, h5⟩ := hi.selfClose hp
    cases h1
    rw [hres] at h3; cases h3
    subst h2
    refine ⟨true, ⟨?_, ?_, ?_, ?_⟩, fun _ => rfl, ?_, e.out ++ c!" /", ?_, by simpa [flushed, trimSpace] using h5⟩
    all_goals simp only [Em.step]; rw [if_pos hp]
    · rw [setFlag_started]; exact hi.started
    · rw [setFlag_opened]; exact hopened
    · rw [fix_of_not_pending (by rw [setFlag_pending]), setFlag_out]
      show run (e.out ++ c!" />") {} = _
      rw [h4]; simp [flushed, trimSpace]
    · intro h; rw [setFlag_pending] at h; cases h
    · rw [setFlag_scopes]; rfl
    · rw [setFlag_out]
      show e.out ++ c!" />" = e.out ++ c!" /" ++ c!">"
      simp
  · have hp : e.pending = false := by simpa using hp
    have hrun := hi.text
    rw [fix_of_not_pending hp] at hrun
    obtain ⟨w, hw, he⟩ : ∃ w, (∀ c ∈ w, isXmlSpace c = true) ∧ e.step cfg (.endE g) =
        Em.setFlag { (e.add w).add (c!"</" ++ (e.add w).opened.headD [] ++ c!">") with
          opened := e.opened.tail, scopes := e.scopes.tail, flags := e.flags.tail } Flag.markup := by
      have h0 : e = e.add [] := by simp [Em.add]
      cases hind : cfg.indent with
      | none =>
        refine ⟨[], by simp, ?_⟩
        simp only [Em.step, hind]
        rw [if_neg (by simp [hp]), ← h0]; rfl
      | some ind =>
        by_cases hcond : e.opened.length > 0 ∧ e.flag = Flag.markup
        · refine ⟨_, nl_space (hc ind hind) (e.opened.length - 1), ?_⟩
          simp only [Em.step, hind]
          rw [if_neg (by simp [hp]), if_pos hcond]; rfl
        · refine ⟨[], by simp, ?_⟩
          simp only [Em.step, hind]
          rw [if_neg (by simp [hp]), if_neg hcond, ← h0]; rfl
    obtain ⟨w', hw', hr1⟩ := run_space w ⟨E, (nm, scope) :: St, B, r, .text⟩ hw
    have hr2 : run (e.out ++ w ++ (c!"</" ++ nm ++ c!">")) {} = ⟨E ++ flushed B ++ [.endE n], St, [], r, .text⟩ := by
      rw [run_append, run_append e.out w, hrun, hr1, run_closeTag nm _ rfl (qName_like hq)]
      simp only [PS.closeElem, if_pos]
      rw [hres, flushed_space B w' hw']
    have hr3 : (run (e.out ++ w ++ (c!"</" ++ nm)) {}).evs = E ++ flushed B := by
      rw [run_append, run_append e.out w, hrun, hr1, run_closeStart nm _ rfl (qName_like hq)]
      exact congrArg (E ++ ·) (flushed_space B w' hw')
    refine ⟨r, ⟨?_, ?_, ?_, ?_⟩, id, ?_, e.out ++ w ++ (c!"</" ++ nm), ?_, by rw [hr3]; simp⟩
    all_goals rw [he]
    · rw [setFlag_started]; exact hi.started
    · rw [setFlag_opened]; exact hopened
    · rw [fix_of_not_pending (by rw [setFlag_pending]; exact hp), setFlag_out]
      have : (e.add w).opened.headD [] = nm := by show e.opened.headD [] = nm; rw [hi.opened]; rfl
      rw [this]
      exact hr2
    · intro h; rw [setFlag_pending] at h
      have h : e.pending = true := h
      exact absurd h (by simp [hp])
    · rw [setFlag_scopes]
    · rw [setFlag_out]
      have : (e.add w).opened.headD [] = nm := by show e.opened.headD [] = nm; rw [hi.opened]; rfl
      rw [this]
      show e.out ++ w ++ (c!"</" ++ nm ++ c!">") = _
      simp

/-- Text. -/
theorem Inv.chars {cfg : EmitCfg} {e : Em} {E : List REv} {St : List (Str × NsMap)}
    {B : Str} {r : Bool} (hi : Inv e E St B r) (hst : St ≠ []) {s : Str} (h : isText s = true) :
    Inv (e.step cfg (.chars s)) E St (B ++ s) r ∧ (e.step cfg (.chars s)).scopes = e.scopes := by
  have hrun : run (e.fix.out ++ escText s) {} = ⟨E, St, B ++ s, r, .text⟩ := by
    rw [run_append, hi.text]; exact run_text s ⟨E, St, B, r, .text⟩ hst h
  have hpend : (((e.fix).add (escText s)).setFlag .text).pending = false := by
    rw [setFlag_pending]; exact fix_pending e
  refine ⟨⟨?_, ?_, ?_, ?_⟩, ?_⟩
  all_goals simp only [Em.step]; rw [checkStarted_of hi.started]
  · rw [setFlag_started]; exact (fix_started e).trans hi.started
  · rw [setFlag_opened]; exact (fix_opened e).trans hi.opened
  · rw [fix_of_not_pending hpend, setFlag_out]; exact hrun
  · intro h; rw [hpend] at h; cases h
  · rw [setFlag_scopes]; exact fix_scopes e

/-- CDATA. -/
theorem Inv.cdata {cfg : EmitCfg} {e : Em} {E : List REv} {St : List (Str × NsMap)}
    {B : Str} {r : Bool} (hi : Inv e E St B r) (hst : St ≠ []) {s : Str} (h : isCdata s) :
    Inv (e.step cfg (.cdata s)) E St (B ++ s) r ∧ (e.step cfg (.cdata s)).scopes = e.scopes := by
  have hrun : run (e.fix.out ++ (c!"<![CDATA[" ++ s ++ c!"]]>")) {} = ⟨E, St, B ++ s, r, .text⟩ := by
    rw [run_append, hi.text]; exact run_cdata s ⟨E, St, B, r, .text⟩ hst h
  have hpend : (((e.fix).add (c!"<![CDATA[" ++ s ++ c!"]]>")).setFlag .text).pending = false := by
    rw [setFlag_pending]; exact fix_pending e
  refine ⟨⟨?_, ?_, ?_, ?_⟩, ?_⟩
  all_goals simp only [Em.step]
  · rw [setFlag_started]; exact (fix_started e).trans hi.started
  · rw [setFlag_opened]; exact (fix_opened e).trans hi.opened
  · rw [fix_of_not_pending hpend, setFlag_out]; exact hrun
  · intro h; rw [hpend] at h; cases h
  · rw [setFlag_scopes]; exact fix_scopes e

/-! ### Trees -/

theorem flushed_events (b : Str) : flushed b = Node.eventsL (textRun b) := by
  unfold flushed textRun
  split
  · rfl
  · simp [Node.eventsL, Node.events]

theorem eventsL_append (a b : List Node) : Node.eventsL (a ++ b) = Node.eventsL a ++ Node.eventsL b := by
  induction a with
  | nil => rfl
  | cons k ks ih => simp [Node.eventsL, ih]

mutual
  /-- The tree that is read back, with the namespace tables as the parser builds them. -/
  def got (scopes : List NsMap) (ps sc : NsMap) : WNode → Node
    | .elem n as nss ks =>
      .elem (readElemName (nss ++ sc) n) (as.map fun a => ⟨readAttrName (nss ++ sc) a.name.raw, a.value⟩)
        (newScope ps (newDecls scopes nss))
        (gotL (newDecls scopes nss :: scopes) (newScope ps (newDecls scopes nss)) (nss ++ sc) [] ks)
    | .text s => .text s
    | .cdata s => .text s
  def gotL (scopes : List NsMap) (ps sc : NsMap) (run : Str) : List WNode → List Node
    | [] => textRun run
    | k :: ks =>
      match k with
      | .text s => gotL scopes ps sc (run ++ s) ks
      | .cdata s => gotL scopes ps sc (run ++ s) ks
      | .elem n as nss kk => textRun run ++ got scopes ps sc (.elem n as nss kk) :: gotL scopes ps sc [] ks
end

theorem declsOk_uri {sc nss : NsMap} (hu : ∀ d ∈ sc, d.2 ≠ []) (hd : DeclsOk sc nss) : ∀ d ∈ nss ++ sc, d.2 ≠ [] := by
  intro d hm
  rcases List.mem_append.mp hm with hm | hm
  · have := hd.uri d hm
    simp only [isUri, Bool.and_eq_true, Bool.not_eq_true', List.isEmpty_eq_false_iff] at this
    exact this.1
  · exact hu d hm

mutual
  theorem node_run {cfg : EmitCfg} (hc : cfg.Blank) (n : Str) (as : List Attr) (nss : NsMap) (ks : List WNode) {e : Em}
      {E : List REv} {St : List (Str × NsMap)} {B : Str} {r : Bool} (hi : Inv e E St B r) {sc : NsMap}
      (hs : Scoped e.scopes (top St) sc) (hu : ∀ d ∈ sc, d.2 ≠ [])
      (hok : (WNode.elem n as nss ks).Ok sc) :
      Inv ((WNode.elem n as nss ks).events.foldl (Em.step cfg) e)
        (E ++ flushed B ++ (got e.scopes (top St) sc (.elem n as nss ks)).events) St [] true ∧
      ((WNode.elem n as nss ks).events.foldl (Em.step cfg) e).scopes = e.scopes ∧
      ∃ t, ((WNode.elem n as nss ks).events.foldl (Em.step cfg) e).out = t ++ c!">" ∧
        (run t {}).evs.length < (E ++ flushed B ++ (got e.scopes (top St) sc (.elem n as nss ks)).events).length := by
    rw [WNode.Ok] at hok
    obtain ⟨hq, hb, hd, ha, hk⟩ := hok
    obtain ⟨h1, h2, h3⟩ := hi.start hc hs hu hq hb hd ha
    have hu' := declsOk_uri hu hd
    obtain ⟨ys, B', h4, h5, h6⟩ := kids_run hc ks h1 (by simp) (sc := nss ++ sc) (by rw [h2]; exact h3) hu' hk
    obtain ⟨r', h7, h8, h9, t, h10, h11⟩ := h5.end hc (resolveElem_eq h3 hu' hb) hq none
    have := h8 rfl
    subst this
    have this : E ++ flushed B ++ (got e.scopes (top St) sc (.elem n as nss ks)).events
        = E ++ flushed B ++ [.start (readElemName (nss ++ sc) n)
            (as.map fun a => ⟨readAttrName (nss ++ sc) a.name.raw, a.value⟩) (newScope (top St) (newDecls e.scopes nss))]
          ++ Node.eventsL ys ++ flushed B' ++ [.endE (readElemName (nss ++ sc) n)] := by
      rw [got, Node.events]
      rw [h2] at h4
      have h4' : ys ++ textRun B' = gotL (newDecls e.scopes nss :: e.scopes) (newScope (top St) (newDecls e.scopes nss))
        (nss ++ sc) [] ks := h4
      rw [← h4', eventsL_append, flushed_events B']
      simp
    refine ⟨?_, ?_, t, ?_, ?_⟩
    · rw [WNode.events, List.foldl_cons, List.foldl_append, List.foldl_cons, List.foldl_nil]
      rw [this]
      exact h7
    · rw [WNode.events, List.foldl_cons, List.foldl_append, List.foldl_cons, List.foldl_nil, h9, h6, h2]
      rfl
    · rw [WNode.events, List.foldl_cons, List.foldl_append, List.foldl_cons, List.foldl_nil, h10]
    · rw [this]; exact h11

  theorem kids_run {cfg : EmitCfg} (hc : cfg.Blank) (ks : List WNode) {e : Em}
      {E : List REv} {St : List (Str × NsMap)} {B : Str} (hi : Inv e E St B true) (hst : St ≠ []) {sc : NsMap}
      (hs : Scoped e.scopes (top St) sc) (hu : ∀ d ∈ sc, d.2 ≠ [])
      (hok : WNode.OkL sc ks) :
      ∃ (ys : List Node) (B' : Str), ys ++ textRun B' = gotL e.scopes (top St) sc B ks ∧
        Inv ((WNode.eventsL ks).foldl (Em.step cfg) e) (E ++ Node.eventsL ys) St B' true ∧
        ((WNode.eventsL ks).foldl (Em.step cfg) e).scopes = e.scopes := by
    cases ks with
    | nil => exact ⟨[], B, rfl, by simpa [WNode.eventsL, Node.eventsL] using hi, rfl⟩
    | cons k ks =>
      rw [WNode.OkL] at hok
      obtain ⟨hk, hks⟩ := hok
      rw [WNode.eventsL, List.foldl_append]
      cases k with
      | text s =>
        rw [WNode.Ok] at hk
        obtain ⟨h1, h2⟩ := hi.chars (cfg := cfg) hst hk
        obtain ⟨ys, B', h3, h4, h5⟩ := kids_run hc ks h1 hst (sc := sc) (by rw [h2]; exact hs) hu hks
        exact ⟨ys, B', by rw [h3, h2, gotL], h4, h5.trans h2⟩
      | cdata s =>
        rw [WNode.Ok] at hk
        obtain ⟨h1, h2⟩ := hi.cdata (cfg := cfg) hst hk
        obtain ⟨ys, B', h3, h4, h5⟩ := kids_run hc ks h1 hst (sc := sc) (by rw [h2]; exact hs) hu hks
        exact ⟨ys, B', by rw [h3, h2, gotL], h4, h5.trans h2⟩
      | elem n as nss kk =>
        obtain ⟨h2, h3, -⟩ := node_run hc n as nss kk hi hs hu hk
        obtain ⟨ys, B', h4, h5, h6⟩ := kids_run hc ks h2 hst (sc := sc) (by rw [h3]; exact hs) hu hks
        refine ⟨textRun B ++ got e.scopes (top St) sc (.elem n as nss kk) :: ys, B', ?_, ?_, h6.trans h3⟩
        · rw [h3] at h4
          rw [gotL, ← h4]; simp
        · have : E ++ Node.eventsL (textRun B ++ got e.scopes (top St) sc (.elem n as nss kk) :: ys)
              = E ++ flushed B ++ (got e.scopes (top St) sc (.elem n as nss kk)).events ++ Node.eventsL ys := by
            rw [eventsL_append, Node.eventsL, flushed_events]; simp
          rw [this]; exact h5
end

theorem likeL_append {a a' b b' : List Node} (h : Node.LikeL a a') (h' : Node.LikeL b b') :
    Node.LikeL (a ++ b) (a' ++ b') := by
  induction a generalizing a' with
  | nil => cases a' with | nil => exact h' | cons => exact h.elim
  | cons k a ih =>
    cases a' with
    | nil => exact h.elim
    | cons k' a' => exact ⟨h.1, ih h.2⟩

theorem likeL_textRun (s : Str) : Node.LikeL (textRun s) (textRun s) := by
  unfold textRun; split
  · exact trivial
  · exact ⟨rfl, trivial⟩

theorem newScope_nodup {ps ds : NsMap} (h1 : (ps.map Prod.fst).Nodup) (h2 : (ds.map Prod.fst).Nodup) :
    ((newScope ps ds).map Prod.fst).Nodup := by
  unfold newScope
  rw [List.map_append, List.nodup_append]
  refine ⟨h2, (List.filter_sublist.map _).nodup h1, ?_⟩
  intro a ha b hb hab
  subst hab
  obtain ⟨e, he, rfl⟩ := List.mem_map.mp ha
  obtain ⟨e', he', heq⟩ := List.mem_map.mp hb
  rw [List.mem_filter] at he'
  have h3 := he'.2
  simp only [Bool.not_eq_true', List.any_eq_false, beq_iff_eq] at h3
  exact h3 e he heq.symm

theorem scoped_mem {scopes : List NsMap} {ps sc : NsMap} (hs : Scoped scopes ps sc) (hn : (ps.map Prod.fst).Nodup) (e : Str × Str) :
    e ∈ ps ↔ e ∈ sc := by
  rw [← hs.lookup e.1 e.2, lookup_mem_nodup hn]

mutual
  theorem got_like (x : WNode) {scopes : List NsMap} {ps sc : NsMap} (hs : Scoped scopes ps sc)
      (hn : (ps.map Prod.fst).Nodup) (hok : x.Ok sc) : (got scopes ps sc x).Like (x.back sc) := by
    cases x with
    | text s => rw [got, WNode.back]; exact rfl
    | cdata s => rw [got, WNode.back]; exact rfl
    | elem n as nss ks =>
      rw [WNode.Ok] at hok
      obtain ⟨hq, hb, hd, ha, hk⟩ := hok
      have hs' := hs.push hd
      have hn' : ((newScope ps (newDecls scopes nss)).map Prod.fst).Nodup :=
        newScope_nodup hn ((List.filter_sublist.map _).nodup hd.nodup)
      rw [got, WNode.back]
      exact ⟨rfl, rfl, hn', scoped_mem hs' hn', gotL_like ks [] hs' hn' hk⟩

  theorem gotL_like (ks : List WNode) (run : Str) {scopes : List NsMap} {ps sc : NsMap} (hs : Scoped scopes ps sc)
      (hn : (ps.map Prod.fst).Nodup) (hok : WNode.OkL sc ks) :
      Node.LikeL (gotL scopes ps sc run ks) (WNode.backL sc run ks) := by
    cases ks with
    | nil => rw [gotL, WNode.backL]; exact likeL_textRun run
    | cons k ks =>
      rw [WNode.OkL] at hok
      cases k with
      | text s => rw [gotL, WNode.backL]; exact gotL_like ks _ hs hn hok.2
      | cdata s => rw [gotL, WNode.backL]; exact gotL_like ks _ hs hn hok.2
      | elem n as nss kk =>
        rw [gotL, WNode.backL]
        exact likeL_append (likeL_textRun run) ⟨got_like _ hs hn hok.1, gotL_like ks _ hs hn hok.2⟩
end

theorem step_face (cfg : EmitCfg) (e : Em) (ev : WEv) : e.step cfg ev.face = e.step cfg ev := by
  cases ev with
  | start n as nss =>
    simp only [WEv.face, Em.step, List.flatMap_map]
    rfl
  | endE g => rfl
  | _ => rfl

theorem foldl_face (cfg : EmitCfg) (es : List WEv) (e : Em) :
    (es.map WEv.face).foldl (Em.step cfg) e = es.foldl (Em.step cfg) e := by
  induction es generalizing e with
  | nil => rfl
  | cons ev es ih => rw [List.map_cons, List.foldl_cons, List.foldl_cons, step_face, ih]

theorem law_doc' (n : Str) (as : List Attr) (nss : NsMap) (ks : List WNode) (es : List WEv)
    (hok : (WNode.elem n as nss ks).Ok []) (hes : es.map WEv.face = ((WNode.elem n as nss ks).events).map WEv.face) :
    ∃ y : Node, y.Like ((WNode.elem n as nss ks).back []) ∧
      ∀ cfg : EmitCfg, cfg.Blank → parse (emit cfg es) = ⟨.startDocument :: y.events, none⟩ ∧
        ∃ t, emit cfg es = t ++ c!">" ∧ (run t {}).evs.length < y.events.length := by
  refine ⟨got [] [] [] (.elem n as nss ks), got_like _ .nil (by simp) hok, fun cfg hc => ?_⟩
  have hemit : emit cfg es = (((WNode.elem n as nss ks).events).foldl (Em.step cfg) {}).out := by
    unfold emit; rw [← foldl_face, hes, foldl_face]
  -- the XML declaration comes first
  have hinit : Inv (({} : Em).checkStarted cfg) [] [] [] false := by
    cases hd : cfg.decl
    · refine ⟨?_, ?_, ?_, ?_⟩ <;> simp [Em.checkStarted, hd, Em.fix, run]
    · refine ⟨?_, ?_, ?_, ?_⟩
      · simp [Em.checkStarted, hd, Em.setFlag, Em.add]
      · simp [Em.checkStarted, hd, Em.setFlag, Em.add]
      · simp only [Em.checkStarted, hd, Em.setFlag, Em.add, Em.fix]
        rfl
      · simp [Em.checkStarted, hd, Em.setFlag, Em.add]
  have hscopes : (({} : Em).checkStarted cfg).scopes = [] := by
    unfold Em.checkStarted; split
    · rfl
    · dsimp only; split
      · rw [setFlag_scopes]; rfl
      · rfl
  have hfold : ((WNode.elem n as nss ks).events).foldl (Em.step cfg) {}
      = ((WNode.elem n as nss ks).events).foldl (Em.step cfg) (({} : Em).checkStarted cfg) := by
    rw [WNode.events, List.foldl_cons, List.foldl_cons]
    congr 1
    simp only [Em.step]
    rw [checkStarted_of hinit.started]
  obtain ⟨h2, -, t, h3, h4⟩ := node_run hc n as nss ks hinit (sc := []) (by rw [hscopes]; exact .nil) (by simp) hok
  rw [← hfold, hscopes] at h2
  rw [← hfold, ← hemit] at h3
  rw [hscopes] at h4
  have hout : run (emit cfg es) {} = ⟨(got [] [] [] (.elem n as nss ks)).events, [], [], true, .text⟩ := by
    rw [hemit]
    have hnp : (((WNode.elem n as nss ks).events).foldl (Em.step cfg) {}).pending = false := by
      cases hpd : (((WNode.elem n as nss ks).events).foldl (Em.step cfg) {}).pending with
      | false => rfl
      | true => obtain ⟨_, _, _, _, h, _⟩ := h2.selfClose hpd; cases h
    have := h2.text
    rw [fix_of_not_pending hnp] at this
    rw [this]; simp [flushed, trimSpace, top]
  refine ⟨?_, t, h3, by simpa [flushed, trimSpace, top] using h4⟩
  rw [parse]; rw [show List.foldl PS.step {} (emit cfg es) = _ from hout]
  rfl

theorem law_doc (n : Str) (as : List Attr) (nss : NsMap) (ks : List WNode) (es : List WEv)
    (hok : (WNode.elem n as nss ks).Ok []) (hes : es.map WEv.face = ((WNode.elem n as nss ks).events).map WEv.face) :
    ∃ y : Node, y.Like ((WNode.elem n as nss ks).back []) ∧
      ∀ cfg : EmitCfg, cfg.Blank → parse (emit cfg es) = ⟨.startDocument :: y.events, none⟩ := by
  obtain ⟨y, h1, h2⟩ := law_doc' n as nss ks es hok hes
  exact ⟨y, h1, fun cfg hc => (h2 cfg hc).1⟩

/-! ### The content of an element on its own -/

/-- The same output, inside an element. -/
structure Sim (n : Str) (e e' : Em) : Prop where
  out : e'.out = c!"<" ++ n ++ c!">" ++ e.out
  opened : e'.opened = e.opened ++ [n]
  scopes : e'.scopes = e.scopes ++ [[]]
  pending : e'.pending = e.pending
  len : e.scopes.length = e.opened.length

abbrev bare : EmitCfg := { decl := false }

theorem checkStarted_bare (e : Em) : (e.checkStarted bare).out = e.out ∧ (e.checkStarted bare).opened = e.opened ∧
    (e.checkStarted bare).scopes = e.scopes ∧ (e.checkStarted bare).pending = e.pending := by
  unfold Em.checkStarted; split <;> simp [bare]

theorem Sim.of_eq {n : Str} {e e' f f' : Em} (h : Sim n e e') (h1 : f.out = e.out ∧ f.opened = e.opened ∧
    f.scopes = e.scopes ∧ f.pending = e.pending) (h2 : f'.out = e'.out ∧ f'.opened = e'.opened ∧
    f'.scopes = e'.scopes ∧ f'.pending = e'.pending) : Sim n f f' := by
  obtain ⟨a1, a2, a3, a4⟩ := h1
  obtain ⟨b1, b2, b3, b4⟩ := h2
  exact ⟨by rw [a1, b1, h.out], by rw [a2, b2, h.opened], by rw [a3, b3, h.scopes], by rw [a4, b4, h.pending], by rw [a2, a3, h.len]⟩

theorem setFlag_same (e : Em) (f : Flag) : (e.setFlag f).out = e.out ∧ (e.setFlag f).opened = e.opened ∧
    (e.setFlag f).scopes = e.scopes ∧ (e.setFlag f).pending = e.pending :=
  ⟨setFlag_out .., setFlag_opened .., setFlag_scopes .., setFlag_pending ..⟩

theorem Sim.fix {n : Str} {e e' : Em} (h : Sim n e e') : Sim n e.fix e'.fix := by
  unfold Em.fix
  rw [h.pending]
  split
  · exact ⟨by simp [Em.add, h.out], h.opened, h.scopes, rfl, h.len⟩
  · exact h

theorem Sim.add {n : Str} {e e' : Em} (h : Sim n e e') (s : Str) : Sim n (e.add s) (e'.add s) :=
  ⟨by simp [Em.add, h.out], h.opened, h.scopes, h.pending, h.len⟩

theorem newDecls_nil (scopes : List NsMap) (nss : NsMap) : newDecls (scopes ++ [[]]) nss = newDecls scopes nss := by
  unfold newDecls; simp

theorem Sim.start {n : Str} {e e' : Em} (h : Sim n e e') (nm : Name) (as : List Attr) (nss : NsMap) :
    Sim n (e.step bare (.start nm as nss)) (e'.step bare (.start nm as nss)) ∧
      (e.step bare (.start nm as nss)).opened = qname nm :: e.opened := by
  have h1 : Sim n (e.checkStarted bare).fix (e'.checkStarted bare).fix :=
    (h.of_eq (checkStarted_bare e) (checkStarted_bare e')).fix
  have ho : (e.checkStarted bare).fix.opened = e.opened := by rw [fix_opened]; exact (checkStarted_bare e).2.1
  simp only [Em.step, Em.beforeMarkup]
  refine ⟨⟨?_, ?_, ?_, rfl, ?_⟩, ?_⟩
  · simp only [Em.add, h1.out, h1.scopes, newDecls_nil, List.append_assoc]
  · simp [h1.opened]
  · simp [h1.scopes, newDecls_nil]
  · simp [h1.len]
  · simp [ho]

theorem Sim.endE {n : Str} {e e' : Em} (h : Sim n e e') (g : Option Name) (o : Str) (os : List Str) (ho : e.opened = o :: os) :
    Sim n (e.step bare (.endE g)) (e'.step bare (.endE g)) ∧ (e.step bare (.endE g)).opened = os := by
  obtain ⟨sc, scs, hsc⟩ : ∃ sc scs, e.scopes = sc :: scs := by
    have := h.len
    rw [ho] at this
    cases hs : e.scopes with
    | nil => rw [hs] at this; cases this
    | cons a b => exact ⟨a, b, rfl⟩
  have hlen : scs.length = os.length := by
    have := h.len; rw [ho, hsc] at this; simpa using this
  simp only [Em.step, h.pending]
  split
  · refine ⟨Sim.of_eq (e := { (e.add c!" />") with opened := e.opened.tail, scopes := e.scopes.tail, pending := false, flags := e.flags.tail })
      (e' := { (e'.add c!" />") with opened := e'.opened.tail, scopes := e'.scopes.tail, pending := false, flags := e'.flags.tail })
      ?_ (setFlag_same _ _) (setFlag_same _ _), ?_⟩
    · exact ⟨by simp [Em.add, h.out], by simp [h.opened, ho], by simp [h.scopes, hsc], rfl, by simp [ho, hsc, hlen]⟩
    · rw [setFlag_opened]; simp [Em.add, ho]
  · have hh : e'.opened.headD [] = e.opened.headD [] := by rw [h.opened, ho]; rfl
    refine ⟨Sim.of_eq (e := { (e.add (c!"</" ++ e.opened.headD [] ++ c!">")) with opened := e.opened.tail, scopes := e.scopes.tail, flags := e.flags.tail })
      (e' := { (e'.add (c!"</" ++ e'.opened.headD [] ++ c!">")) with opened := e'.opened.tail, scopes := e'.scopes.tail, flags := e'.flags.tail })
      ?_ (setFlag_same _ _) (setFlag_same _ _), ?_⟩
    · rw [hh]
      exact ⟨by simp [Em.add, h.out], by simp [Em.add, h.opened, ho], by simp [Em.add, h.scopes, hsc], h.pending, by simp [Em.add, ho, hsc, hlen]⟩
    · rw [setFlag_opened]; simp [Em.add, ho]

theorem Sim.chars {n : Str} {e e' : Em} (h : Sim n e e') (s : Str) :
    Sim n (e.step bare (.chars s)) (e'.step bare (.chars s)) ∧ (e.step bare (.chars s)).opened = e.opened := by
  have h1 : Sim n (e.checkStarted bare).fix (e'.checkStarted bare).fix :=
    (h.of_eq (checkStarted_bare e) (checkStarted_bare e')).fix
  have ho : (e.checkStarted bare).fix.opened = e.opened := by rw [fix_opened]; exact (checkStarted_bare e).2.1
  exact ⟨(h1.add _).of_eq (setFlag_same _ _) (setFlag_same _ _), (setFlag_same _ _).2.1.trans ho⟩

theorem Sim.cdata {n : Str} {e e' : Em} (h : Sim n e e') (s : Str) :
    Sim n (e.step bare (.cdata s)) (e'.step bare (.cdata s)) ∧ (e.step bare (.cdata s)).opened = e.opened :=
  ⟨(h.fix.add _).of_eq (setFlag_same _ _) (setFlag_same _ _), (setFlag_same _ _).2.1.trans (fix_opened e)⟩

mutual
  theorem sim_node {n : Str} (x : WNode) {e e' : Em} (h : Sim n e e') :
      Sim n (x.events.foldl (Em.step bare) e) (x.events.foldl (Em.step bare) e') ∧
        (x.events.foldl (Em.step bare) e).opened = e.opened := by
    cases x with
    | text s => exact h.chars s
    | cdata s => exact h.cdata s
    | elem nm as nss ks =>
      simp only [WNode.events, List.foldl_cons, List.foldl_append, List.foldl_nil]
      obtain ⟨h1, h2⟩ := h.start (Name.ofStr nm) as nss
      obtain ⟨h3, h4⟩ := sim_nodes ks h1
      exact h3.endE none _ _ (h4.trans h2)
  theorem sim_nodes {n : Str} (xs : List WNode) {e e' : Em} (h : Sim n e e') :
      Sim n ((WNode.eventsL xs).foldl (Em.step bare) e) ((WNode.eventsL xs).foldl (Em.step bare) e') ∧
        ((WNode.eventsL xs).foldl (Em.step bare) e).opened = e.opened := by
    cases xs with
    | nil => exact ⟨h, rfl⟩
    | cons x xs =>
      rw [WNode.eventsL, List.foldl_append, List.foldl_append]
      obtain ⟨h1, h2⟩ := sim_node x h
      obtain ⟨h3, h4⟩ := sim_nodes xs h1
      exact ⟨h3, h4.trans h2⟩
end

theorem step_pending (e : Em) (ev : WEv) (h : ∀ n as nss, ev ≠ .start n as nss) (h' : e.pending = false ∨ (∃ g, ev = .endE g) ∨
    (∃ s, ev = .chars s) ∨ ∃ s, ev = .cdata s) : (e.step bare ev).pending = false := by
  cases ev with
  | start n as nss => exact (h n as nss rfl).elim
  | endE g =>
    simp only [Em.step]
    split
    · rw [setFlag_pending]
    · rw [setFlag_pending]
      simp_all [Em.add]
  | chars s => simp only [Em.step]; rw [setFlag_pending]; exact fix_pending _
  | cdata s => simp only [Em.step]; rw [setFlag_pending]; exact fix_pending _
  | _ => simpa [Em.step] using h'

theorem node_pending (x : WNode) (e : Em) : (x.events.foldl (Em.step bare) e).pending = false := by
  cases x with
  | text s => exact step_pending e (.chars s) (by simp) (.inr (.inr (.inl ⟨s, rfl⟩)))
  | cdata s => exact step_pending e (.cdata s) (by simp) (.inr (.inr (.inr ⟨s, rfl⟩)))
  | elem nm as nss ks =>
    simp only [WNode.events, List.foldl_cons, List.foldl_append, List.foldl_nil]
    exact step_pending _ (.endE none) (by simp) (.inr (.inl ⟨none, rfl⟩))

theorem nodes_pending (xs : List WNode) (e : Em) (h : e.pending = false) :
    ((WNode.eventsL xs).foldl (Em.step bare) e).pending = false := by
  induction xs generalizing e with
  | nil => exact h
  | cons x xs ih => rw [WNode.eventsL, List.foldl_append]; exact ih _ (node_pending x e)

/-- An element with content: its content, between the tags. -/
theorem emit_elem (n : Str) (hn : isNCName n = true) (k : WNode) (ks : List WNode) :
    emit bare (WNode.elem n [] [] (k :: ks)).events =
      c!"<" ++ n ++ c!">" ++ emit bare (WNode.eventsL (k :: ks)) ++ c!"</" ++ n ++ c!">" := by
  have hq : qname (Name.ofStr n) = n := by
    unfold Name.ofStr; rw [splitColon_none (ncName_noColon hn)]; rfl
  unfold emit
  simp only [WNode.events, List.foldl_cons, List.foldl_append, List.foldl_nil]
  generalize he1 : Em.step bare {} (.start (Name.ofStr n) [] []) = e1
  have hst : e1.started = true := by rw [← he1]; rfl
  have hsim : Sim n {} e1.fix := by
    rw [← he1]
    refine ⟨?_, ?_, ?_, ?_, rfl⟩ <;>
      simp [Em.step, Em.checkStarted, Em.fix, Em.beforeMarkup, Em.add, hq, newDecls, bare]
  have hfirst : (WNode.eventsL (k :: ks)).foldl (Em.step bare) e1 = (WNode.eventsL (k :: ks)).foldl (Em.step bare) e1.fix := by
    have h1 : e1.fix.checkStarted bare = e1.fix := checkStarted_of ((fix_started e1).trans hst)
    have h2 : e1.checkStarted bare = e1 := checkStarted_of hst
    have h3 : e1.fix.fix = e1.fix := fix_of_not_pending (fix_pending e1)
    rw [WNode.eventsL, List.foldl_append, List.foldl_append]
    congr 1
    cases k with
    | text s => simp only [WNode.events, List.foldl_cons, List.foldl_nil, Em.step, h1, h2, h3]
    | cdata s => simp only [WNode.events, List.foldl_cons, List.foldl_nil, Em.step, h3]
    | elem nm as nss kk => simp only [WNode.events, List.foldl_cons, Em.step, h1, h2, h3]
  rw [hfirst]
  obtain ⟨h1, h2⟩ := sim_nodes (k :: ks) hsim
  have hp : ((WNode.eventsL (k :: ks)).foldl (Em.step bare) e1.fix).pending = false :=
    nodes_pending _ _ (fix_pending e1)
  generalize (WNode.eventsL (k :: ks)).foldl (Em.step bare) e1.fix = e2 at h1 hp
  generalize (WNode.eventsL (k :: ks)).foldl (Em.step bare) {} = e3 at h1 h2
  simp only [Em.step, hp, Bool.false_eq_true, if_false]
  rw [setFlag_out]
  simp only [Em.add, h1.out, h1.opened, h2]
  simp

theorem law_frag (n : Str) (ks : List WNode) (es : List WEv) (hn : isNCName n = true) (hok : WNode.OkL [] ks)
    (hes : es.map WEv.face = (WNode.eventsL ks).map WEv.face) :
    ∃ y : Node, y.Like ((WNode.elem n [] [] ks).back []) ∧
      parse (c!"<" ++ n ++ c!">" ++ emit bare es ++ c!"</" ++ n ++ c!">") = ⟨.startDocument :: y.events, none⟩ := by
  have hemit : emit bare es = emit bare (WNode.eventsL ks) := by
    unfold emit; rw [← foldl_face, hes, foldl_face]
  have hsp := splitColon_none (ncName_noColon hn)
  have key : ∀ ks, WNode.OkL [] ks → (WNode.elem n [] [] ks).Ok [] := by
    intro ks h
    refine ⟨?_, ?_, ⟨by simp, by simp, by simp, by simp⟩, ⟨by simp, by simp, by simp⟩, by simpa using h⟩
    · unfold isQName; rw [hsp]; exact hn
    · unfold Bound; rw [hsp]; trivial
  rw [hemit]
  cases ks with
  | nil =>
    obtain ⟨y, h1, h2⟩ := law_doc n [] [] [.text []] _ (key _ ⟨rfl, trivial⟩) rfl
    refine ⟨y, h1, ?_⟩
    have := h2 bare (by intro ind h; cases h)
    rw [emit_elem n hn] at this
    exact this
  | cons k ks =>
    obtain ⟨y, h1, h2⟩ := law_doc n [] [] (k :: ks) _ (key _ hok) rfl
    refine ⟨y, h1, ?_⟩
    have := h2 bare (by intro ind h; cases h)
    rw [emit_elem n hn] at this
    exact this

/-! ### Characters -/

theorem _root_.Yaserde.namePart_facts {c : Char} (h : isNamePart c = true) : isDocChar c = true ∧ isXmlSpace c = false := by
  have key : isXmlSpace c = true → c.toNat ≤ 32 := by
    intro hs
    simp only [isXmlSpace, Bool.or_eq_true, beq_iff_eq] at hs
    rcases hs with ((rfl | rfl) | rfl) | rfl <;> decide
  have h45 : 45 ≤ c.toNat ∧ ((0x20 ≤ c.toNat ∧ c.toNat ≤ 0xD7FF) ∨ (0xE000 ≤ c.toNat ∧ c.toNat ≤ 0xFFFD) ∨ 0x10000 ≤ c.toNat) := by
    simp only [isNamePart, isNameStart, Bool.or_eq_true, Bool.and_eq_true, decide_eq_true_eq, beq_iff_eq] at h
    omega
  constructor
  · simp only [isDocChar, Bool.or_eq_true, Bool.and_eq_true, decide_eq_true_eq, beq_iff_eq]
    omega
  · cases hx : isXmlSpace c with
    | false => rfl
    | true => have := key hx; omega

theorem _root_.Yaserde.ncName_parts {s : Str} (h : isNCName s = true) : ∀ c ∈ s, isNamePart c = true := by
  cases s with
  | nil => intro c hc; cases hc
  | cons a s =>
    simp only [isNCName, Bool.and_eq_true, List.all_eq_true] at h
    intro c hc
    rcases List.mem_cons.mp hc with rfl | hc
    · simp only [isNamePart, h.1, Bool.true_or]
    · exact h.2 c hc


theorem isAttrText_append (a b : Str) : isAttrText (a ++ b) = (isAttrText a && isAttrText b) := by
  unfold isAttrText; rw [List.all_append]

theorem isAttrText_flatMap {α : Type} (l : List α) (f : α → Str) (h : ∀ a ∈ l, isAttrText (f a) = true) :
    isAttrText (l.flatMap f) = true := by
  induction l with
  | nil => rfl
  | cons a l ih =>
    rw [List.flatMap_cons, isAttrText_append, h a (List.mem_cons_self ..), ih fun b hb => h b (List.mem_cons_of_mem _ hb)]; rfl

theorem isAttrText_mem {s : Str} (h : isAttrText s = true) {c : Char} (hc : c ∈ s) : isAttrText [c] = true := by
  unfold isAttrText at *
  rw [List.all_eq_true] at h
  simpa using h c hc

theorem attrText_escText {s : Str} (h : isAttrText s = true) : isAttrText (escText s) = true := by
  refine isAttrText_flatMap _ _ fun c hc => ?_
  unfold escChar
  split
  · decide
  split
  · decide
  split
  · decide
  exact isAttrText_mem h hc

theorem attrText_escAttr {s : Str} (h : isAttrText s = true) : isAttrText (escAttr s) = true := by
  refine isAttrText_flatMap _ _ fun c hc => ?_
  unfold escAttrChar
  split
  · decide
  split
  · decide
  split
  · decide
  split
  · decide
  split
  · decide
  split
  · decide
  split
  · decide
  exact isAttrText_mem h hc

theorem attrText_ncName {s : Str} (h : isNCName s = true) : isAttrText s = true := by
  unfold isAttrText
  rw [List.all_eq_true]
  intro c hc
  obtain ⟨h1, h2⟩ := namePart_facts (ncName_parts h c hc)
  simp only [isXmlSpace, Bool.or_eq_false_iff, beq_eq_false_iff_ne] at h2
  simp [h1, h2]

theorem attrText_qName {s : Str} (h : isQName s = true) : isAttrText s = true := by
  unfold isQName at h
  cases hs : splitColon s with
  | none => rw [hs] at h; exact attrText_ncName h
  | some q =>
    obtain ⟨p, l⟩ := q
    rw [hs] at h
    simp only [Bool.and_eq_true] at h
    rw [splitColon_some hs]
    simp only [isAttrText_append, attrText_ncName h.1, attrText_ncName h.2]
    decide

theorem qname_ofStr (raw : Str) : qname (Name.ofStr raw) = raw := by
  unfold Name.ofStr
  cases hs : splitColon raw with
  | none => rfl
  | some q => obtain ⟨p, l⟩ := q; exact (splitColon_some hs).symm

theorem attrText_uri {s : Str} (h : isUri s = true) : isAttrText s = true := by
  unfold isUri at h
  unfold isAttrText
  simp only [Bool.and_eq_true, List.all_eq_true] at h ⊢
  intro c hc
  have := h.2 c hc
  simp only [isXmlSpace, Bool.not_eq_true', Bool.or_eq_false_iff, bne_iff_ne, beq_eq_false_iff_ne] at this ⊢
  exact ⟨⟨this.1.1.1.1, this.1.1.1.2.2⟩, this.1.1.1.2.1.1.2⟩

/-- All that was written can occur in an attribute value. -/
structure Safe (e : Em) : Prop where
  out : isAttrText e.out = true
  opened : ∀ o ∈ e.opened, isAttrText o = true

theorem Safe.of_eq {e f : Em} (h : Safe e) (h1 : f.out = e.out) (h2 : f.opened = e.opened) : Safe f :=
  ⟨by rw [h1]; exact h.out, by rw [h2]; exact h.opened⟩

theorem Safe.add {e : Em} (h : Safe e) {s : Str} (hs : isAttrText s = true) : Safe (e.add s) :=
  ⟨by simp [Em.add, isAttrText_append, h.out, hs], h.opened⟩

theorem Safe.fix {e : Em} (h : Safe e) : Safe e.fix := by
  unfold Em.fix; split
  · exact ⟨by simp [Em.add, isAttrText_append, h.out]; decide, h.opened⟩
  · exact h

theorem Safe.check {e : Em} (h : Safe e) : Safe (e.checkStarted bare) :=
  h.of_eq (checkStarted_bare e).1 (checkStarted_bare e).2.1

theorem Safe.flag {e : Em} (h : Safe e) (f : Flag) : Safe (e.setFlag f) := h.of_eq (setFlag_same _ _).1 (setFlag_same _ _).2.1

mutual
  theorem safe_node (x : WNode) {sc : NsMap} (hok : x.Ok sc) (ht : x.TabFree) {e : Em} (h : Safe e) :
      Safe (x.events.foldl (Em.step bare) e) := by
    cases x with
    | text s => exact ((h.check.fix).add (attrText_escText ht)).flag _
    | cdata s =>
      refine (h.fix.add ?_).flag _
      have ht : isAttrText s = true := ht
      simp only [isAttrText_append, ht]
      decide
    | elem nm as nss ks =>
      rw [WNode.Ok] at hok
      obtain ⟨hq, -, hd, ha, hk⟩ := hok
      simp only [WNode.events, List.foldl_cons, List.foldl_append, List.foldl_nil]
      have hnm : isAttrText (qname (Name.ofStr nm)) = true := by
        have : qname (Name.ofStr nm) = nm := qname_ofStr nm
        rw [this]; exact attrText_qName hq
      have h1 : Safe (e.step bare (.start (Name.ofStr nm) as nss)) := by
        have h2 := h.check.fix
        simp only [Em.step, Em.beforeMarkup]
        refine ⟨?_, ?_⟩
        · simp only [Em.add, isAttrText_append, h2.out, hnm, Bool.true_and, Bool.and_eq_true]
          refine ⟨⟨⟨by decide, trivial⟩, ?_⟩, ?_⟩
          · refine isAttrText_flatMap _ _ fun d hdm => ?_
            have hdm : d ∈ nss := (List.mem_filter.mp hdm).1
            unfold emitDecl
            have hu := attrText_uri (hd.uri d hdm)
            split
            · split
              · rfl
              · simp only [isAttrText_append, hu]; decide
            · rename_i hne
              rcases hd.pfx d hdm with hp | hp
              · exact (hne hp).elim
              · simp only [isAttrText_append, hu, attrText_ncName hp.1]; decide
          · refine isAttrText_flatMap _ _ fun a ham => ?_
            unfold emitAttr
            have h3 : isAttrText (qname a.name) = true := attrText_qName (ha.name a ham).1
            simp only [isAttrText_append, h3, attrText_escAttr (ha.value a ham)]
            decide
        · intro o ho
          rcases List.mem_cons.mp ho with rfl | ho
          · exact hnm
          · exact h2.opened o ho
      have h3 := safe_nodes ks hk ht h1
      generalize (WNode.eventsL ks).foldl (Em.step bare) (e.step bare (.start (Name.ofStr nm) as nss)) = e2 at h3
      simp only [Em.step]
      split
      · refine Safe.flag ⟨?_, ?_⟩ _
        · simp [Em.add, isAttrText_append, h3.out]; decide
        · intro o ho; exact h3.opened o (List.mem_of_mem_tail ho)
      · refine Safe.flag ⟨?_, ?_⟩ _
        · have : isAttrText (e2.opened.headD []) = true := by
            cases ho : e2.opened with
            | nil => rfl
            | cons o os => exact h3.opened o (by rw [ho]; exact List.mem_cons_self ..)
          simp only [Em.add, isAttrText_append, h3.out, this]
          decide
        · intro o ho; exact h3.opened o (List.mem_of_mem_tail ho)
  theorem safe_nodes (xs : List WNode) {sc : NsMap} (hok : WNode.OkL sc xs) (ht : WNode.TabFreeL xs) {e : Em} (h : Safe e) :
      Safe ((WNode.eventsL xs).foldl (Em.step bare) e) := by
    cases xs with
    | nil => exact h
    | cons x xs =>
      rw [WNode.eventsL, List.foldl_append]
      exact safe_nodes xs hok.2 ht.2 (safe_node x hok.1 ht.1 h)
end

theorem law_chars (ks : List WNode) (es : List WEv) (hok : WNode.OkL [] ks) (ht : WNode.TabFreeL ks)
    (hes : es.map WEv.face = (WNode.eventsL ks).map WEv.face) : isAttrText (emit bare es) = true := by
  have hemit : emit bare es = emit bare (WNode.eventsL ks) := by
    unfold emit; rw [← foldl_face, hes, foldl_face]
  rw [hemit]
  exact (safe_nodes ks hok ht (e := {}) ⟨rfl, by simp⟩).out

/-- The concrete XML library satisfies the law. -/
theorem xmlLaw (L : Lib) (hp : L.parse = parse) (he : L.emit = emit) : XmlLaw L := by
  refine ⟨?_, ?_, ?_⟩
  · rw [hp, he]; exact law_doc
  · rw [hp, he]; exact law_frag
  · rw [he]; exact law_chars

end XmlText
end Yaserde
