import Verif.Proofs.Spell
/-
What the emitter writes is a spelling of the tree.
-/

set_option autoImplicit false

namespace Yaserde
namespace XmlText
open Spell

/-! ### Attributes -/

theorem value_plain {q : Char} : ∀ (s : Str), (∀ c ∈ s, (isDocChar c && !isXmlSpace c && c != '<' && c != '&' && c != q) = true) → Value q s s
  | [], _ => .nil
  | c :: s, h => by
    have hc := h c (by simp)
    simp only [Bool.and_eq_true, Bool.not_eq_true', bne_iff_ne] at hc
    obtain ⟨⟨⟨⟨h1, h2⟩, h3⟩, h4⟩, h5⟩ := hc
    have := Value.char h1 h5 h3 h4 (value_plain s fun d hd => h d (by simp [hd]))
    rw [h2] at this
    exact this

theorem value_esc : ∀ (s : Str), isAttrText s = true → Value '"' (escAttr s) s
  | [], _ => .nil
  | c :: s, h => by
    have hall : (isDocChar c && c != '\r' && c != '\t') = true ∧ isAttrText s = true := by
      simpa [isAttrText] using h
    obtain ⟨hc, hs⟩ := hall
    have ih := value_esc s hs
    simp only [Bool.and_eq_true, bne_iff_ne] at hc
    obtain ⟨⟨h1, h2⟩, h3⟩ := hc
    have e : escAttr (c :: s) = escAttrChar c ++ escAttr s := by simp [escAttr]
    rw [e]
    unfold escAttrChar
    by_cases a1 : c = '<'
    · subst a1; exact .ref .lt ih
    by_cases a2 : c = '>'
    · subst a2; exact .ref .gt ih
    by_cases a3 : c = '&'
    · subst a3; exact .ref .amp ih
    by_cases a4 : c = '"'
    · subst a4; exact .ref .quot ih
    by_cases a5 : c = '\''
    · subst a5; exact .ref .apos ih
    by_cases a6 : c = '\n'
    · subst a6
      exact .ref (r := c!"#xA") (.hex (ds := c!"A") (.one (.upper (d := 0) (by decide) (by decide))) (by decide)) ih
    rw [if_neg a1, if_neg a2, if_neg a3, if_neg a4, if_neg a5, if_neg a6, if_neg h2]
    have := Value.char h1 a4 a1 a3 ih
    by_cases a7 : c = ' '
    · subst a7; exact this
    · have hw : isXmlSpace c = false := by simp [isXmlSpace, a7, h3, a6, h2]
      rw [hw] at this
      exact this

theorem attrs_app {s t : Str} {as bs : List (Str × Str)} (h : Spell.Attrs s as) (h' : Spell.Attrs t bs) : Spell.Attrs (s ++ t) (as ++ bs) := by
  induction h with
  | nil => exact h'
  | @cons w n w1 w2 s v rest q as a1 a2 a3 a4 a5 a6 a7 _ ih =>
    have := Spell.Attrs.cons a1 a2 a3 a4 a5 a6 a7 ih
    simpa using this

theorem blank_nil : Blank [] := by intro c hc; cases hc
theorem blank_one : Blank c!" " := by intro c hc; rw [List.mem_singleton.mp hc]; rfl

/-- One attribute in double quotes. -/
theorem attrs_one {n s v : Str} (hn : isQName n = true) (h : Value '"' s v) : Spell.Attrs (c!" " ++ n ++ c!"=\"" ++ s ++ c!"\"") [(n, v)] := by
  have := Spell.Attrs.cons blank_one (by simp) hn blank_nil blank_nil (.inl rfl) h .nil
  simpa using this

theorem attrs_emit : ∀ (as : List Attr), (∀ a ∈ as, isQName a.name.raw = true) → (∀ a ∈ as, isAttrText a.value = true) →
    Spell.Attrs (as.flatMap emitAttr) (as.map fun a => (a.name.raw, a.value))
  | [], _, _ => .nil
  | a :: as, hn, hv => by
    rw [List.flatMap_cons, List.map_cons]
    refine attrs_app (as := [(a.name.raw, a.value)]) ?_ (attrs_emit as (fun b hb => hn b (by simp [hb])) fun b hb => hv b (by simp [hb]))
    exact attrs_one (hn a (by simp)) (value_esc _ (hv a (by simp)))

theorem qName_nc {s : Str} (h : isNCName s = true) : isQName s = true := by
  unfold isQName; rw [splitColon_none (ncName_noColon h)]; exact h

theorem attrs_decls : ∀ (ds : NsMap), (∀ d ∈ ds, d.1 = [] ∨ isNCName d.1 = true) → (∀ d ∈ ds, isUri d.2 = true) →
    Spell.Attrs (ds.flatMap emitDecl) (ds.map declAttr)
  | [], _, _ => .nil
  | (p, u) :: ds, hp, hu => by
    rw [List.flatMap_cons, List.map_cons]
    refine attrs_app (as := [declAttr (p, u)]) ?_ (attrs_decls ds (fun d hd => hp d (by simp [hd])) fun d hd => hu d (by simp [hd]))
    have hu' := hu (p, u) (by simp)
    have hp' := hp (p, u) (by simp)
    simp only [isUri, Bool.and_eq_true, Bool.not_eq_true', List.isEmpty_eq_false_iff, List.all_eq_true] at hu'
    have hv : Value '"' u u := value_plain u fun c hc => by
      have := hu'.2 c hc; simp only [Bool.and_eq_true, Bool.not_eq_true'] at this ⊢; exact this
    dsimp only at hp' hu'
    by_cases hq : p = []
    · subst hq
      have := attrs_one (n := c!"xmlns") (by decide) hv
      simpa [emitDecl, declAttr, hu'.1] using this
    · have hn : isNCName p = true := by rcases hp' with h | h; exact absurd h hq; exact h
      have hqn : isQName (c!"xmlns:" ++ p) = true := by
        unfold isQName
        have : splitColon (c!"xmlns:" ++ p) = some (c!"xmlns", p) := splitColon_colon (p := c!"xmlns") (by decide)
        rw [this]
        simp only [Bool.and_eq_true]
        exact ⟨by decide, hn⟩
      have := attrs_one hqn hv
      simpa [emitDecl, declAttr, hq] using this

/-! ### Text -/

theorem content_app {sc : NsMap} {run s t d : Str} {ks : List Node} (h : ∀ r, Content sc (r ++ d) ks t → Content sc r ks (s ++ t))
    (h' : Content sc (run ++ d) ks t) : Content sc run ks (s ++ t) := h run h'

theorem content_text {sc : NsMap} {t : Str} {ks : List Node} : ∀ (s : Str) (run : Str), isText s = true → Content sc (run ++ s) ks t →
    Content sc run ks (escText s ++ t)
  | [], run, _, h => by simpa [escText] using h
  | c :: s, run, hs, h => by
    have hall : (isDocChar c && c != '\r') = true ∧ isText s = true := by simpa [isText] using hs
    obtain ⟨hc, hs'⟩ := hall
    simp only [Bool.and_eq_true, bne_iff_ne] at hc
    have ih := content_text s (run ++ [c]) hs' (by simpa using h)
    have e : escText (c :: s) ++ t = escChar c ++ (escText s ++ t) := by simp [escText]
    rw [e]
    refine .piece ?_ ih
    unfold escChar
    by_cases a1 : c = '<'
    · subst a1; exact .ref .lt
    by_cases a2 : c = '>'
    · subst a2; exact .ref .gt
    by_cases a3 : c = '&'
    · subst a3; exact .ref .amp
    rw [if_neg a1, if_neg a2, if_neg a3]
    have := Piece.char hc.1 a1 a3
    rw [lineEnd, if_neg hc.2] at this
    exact this

theorem space_doc {c : Char} (h : isXmlSpace c = true) : isDocChar c = true ∧ c ≠ '<' ∧ c ≠ '&' ∧ isXmlSpace (lineEnd c) = true := by
  simp only [isXmlSpace, Bool.or_eq_true, beq_iff_eq] at h
  rcases h with ((rfl | rfl) | rfl) | rfl <;> decide

theorem content_blank {sc : NsMap} {t : Str} {ks : List Node} : ∀ (w : Str) (run : Str), Blank w → Content sc (run ++ w.map lineEnd) ks t →
    Content sc run ks (w ++ t)
  | [], run, _, h => by simpa using h
  | c :: w, run, hw, h => by
    obtain ⟨h1, h2, h3, -⟩ := space_doc (hw c (by simp))
    exact .piece (s := [c]) (.char h1 h2 h3) (content_blank w (run ++ [lineEnd c]) (fun d hd => hw d (by simp [hd])) (by simpa using h))

theorem textRun_blank (run w : Str) (hw : Blank w) : textRun (run ++ w.map lineEnd) = textRun run := by
  unfold textRun
  rw [trim_append_space]
  intro c hc
  obtain ⟨d, hd, rfl⟩ := List.mem_map.mp hc
  exact (space_doc (hw d hd)).2.2.2

theorem content_cdata {sc : NsMap} {t : Str} {ks : List Node} {s run : Str} (h : isCdata s) (hk : Content sc (run ++ s) ks t) :
    Content sc run ks (c!"<![CDATA[" ++ s ++ c!"]]>" ++ t) := by
  obtain ⟨h1, h2⟩ := h
  simp only [isText, List.all_eq_true, Bool.and_eq_true, bne_iff_ne] at h1
  refine .piece (.cdata (fun c hc => (h1 c hc).1) h2) ?_
  have : s.map lineEnd = s := by
    have hm : s.map lineEnd = s.map id := List.map_congr_left fun c hc => by
      rw [lineEnd, if_neg (h1 c hc).2]; rfl
    rw [hm, List.map_id]
  rw [this]
  exact hk

/-! ### Tags -/

theorem nsOf_scoped {scopes : List NsMap} {ps sc : NsMap} (h : Scoped scopes ps sc) (hu : ∀ d ∈ sc, d.2 ≠ []) (p : Str) :
    nsOf ps p = Yaserde.scopeUri sc p := by
  rw [nsOf_eq, h.scopeUri]
  cases hs : Yaserde.scopeUri sc p with
  | none => rfl
  | some u =>
    have : u ≠ [] := hu _ (scopeUri_mem hs)
    simp [this]

theorem elemName_read {scopes : List NsMap} {ps sc : NsMap} (h : Scoped scopes ps sc) (hu : ∀ d ∈ sc, d.2 ≠ []) {raw : Str} (hb : Bound sc raw) :
    ElemName ps raw (readElemName sc raw) := by
  unfold readElemName
  unfold Bound at hb
  cases hs : splitColon raw with
  | none => dsimp only; rw [← nsOf_scoped h hu]; exact .bare hs
  | some q =>
    obtain ⟨p, l⟩ := q
    dsimp only
    rw [← nsOf_scoped h hu]
    rw [hs] at hb
    refine .prefixed hs ?_
    rw [show Yaserde.scopeUri ps p = lookupNs ps p from rfl, h.scopeUri]
    exact hb

theorem attrName_read {scopes : List NsMap} {ps sc : NsMap} (h : Scoped scopes ps sc) (hu : ∀ d ∈ sc, d.2 ≠ []) {raw : Str} (hb : AttrNameOk sc raw) :
    AttrName ps raw (readAttrName sc raw) := by
  obtain ⟨-, -, hb⟩ := hb
  unfold readAttrName
  cases hs : splitColon raw with
  | none => exact .bare hs
  | some q =>
    obtain ⟨p, l⟩ := q
    rw [hs] at hb
    dsimp only at hb ⊢
    by_cases hx : p = c!"xml"
    · subst hx; rw [if_pos rfl]; exact .xml hs
    · rw [if_neg hx, ← nsOf_scoped h hu]
      refine .prefixed hs hx ?_
      rw [show Yaserde.scopeUri ps p = lookupNs ps p from rfl, h.scopeUri]
      exact hb.2.resolve_left hx

theorem attrList_app {sc : NsMap} {as : List (Str × Str)} {bs : List Attr} : ∀ (ds : List (Str × Str)), (∀ d ∈ ds, (Spell.declOf d).isSome = true) →
    AttrList sc as bs → AttrList sc (ds ++ as) bs
  | [], _, h => h
  | d :: ds, hd, h => .decl (hd d (by simp)) (attrList_app ds (fun e he => hd e (by simp [he])) h)

theorem tag_emit {scopes : List NsMap} {ps sc nss : NsMap} (h : Scoped scopes ps sc) (hu : ∀ d ∈ sc, d.2 ≠ []) {nm : Str} {as : List Attr}
    (hq : isQName nm = true) (hb : Bound (nss ++ sc) nm) (hd : DeclsOk sc nss) (ha : AttrsOk (nss ++ sc) as) :
    Tag ps (newScope ps (newDecls scopes nss)) nm ((newDecls scopes nss).map declAttr ++ as.map fun a => (a.name.raw, a.value))
      (readElemName (nss ++ sc) nm) (as.map fun a => ⟨readAttrName (nss ++ sc) a.name.raw, a.value⟩) := by
  have hs := h.push hd
  have hu' := declsOk_uri hu hd
  have hp : ∀ d ∈ newDecls scopes nss, d.1 = [] ∨ isNCName d.1 = true := fun d hm => by
    rcases hd.pfx d (mem_newDecls.mp hm).1 with h | h
    · exact .inl h
    · exact .inr h.1
  have hnd : ((newDecls scopes nss).map Prod.fst).Nodup := (List.filter_sublist.map _).nodup hd.nodup
  refine ⟨hq, ?_, ?_, elemName_read hs hu' hb, ?_⟩
  · rw [List.map_append, List.map_map, List.map_map, List.nodup_append]
    refine ⟨?_, ha.nodup, ?_⟩
    · rw [List.Nodup, List.pairwise_map] at hnd ⊢
      exact hnd.imp fun hne heq => hne (declAttr_inj heq)
    · intro x hx y hy
      obtain ⟨d, -, rfl⟩ := List.mem_map.mp hx
      obtain ⟨a, ham, rfl⟩ := List.mem_map.mp hy
      exact declAttr_ne (ha.name a ham)
  · show newScope ps (newDecls scopes nss) = newScope ps (List.filterMap XmlText.declOf _)
    congr 1
    rw [List.filterMap_append]
    have h1 : ((newDecls scopes nss).map declAttr).filterMap XmlText.declOf = newDecls scopes nss := by
      rw [List.filterMap_map]
      have : ∀ (l : NsMap), (∀ d ∈ l, d.1 = [] ∨ isNCName d.1 = true) → l.filterMap (XmlText.declOf ∘ declAttr) = l := by
        intro l hl
        induction l with
        | nil => rfl
        | cons d l ih =>
          rw [List.filterMap_cons, Function.comp_apply, declOf_declAttr (hl d (by simp))]
          dsimp only
          rw [ih fun e he => hl e (by simp [he])]
      exact this _ hp
    have h2 : (as.map fun a => (a.name.raw, a.value)).filterMap XmlText.declOf = [] := by
      rw [List.filterMap_eq_nil_iff]
      intro x hx
      obtain ⟨a, ham, rfl⟩ := List.mem_map.mp hx
      exact declOf_attr (ha.name a ham)
    rw [h1, h2, List.append_nil]
  · refine attrList_app _ ?_ ?_
    · intro x hx
      obtain ⟨d, hm, rfl⟩ := List.mem_map.mp hx
      rw [declOf_eq, declOf_declAttr (hp d hm)]; rfl
    · have hn := ha.name
      clear ha
      induction as with
      | nil => exact .nil
      | cons a as ih =>
        refine .attr ?_ (attrName_read hs hu' (hn a (by simp))) (ih fun b hb => hn b (by simp [hb]))
        rw [declOf_eq]
        exact declOf_attr (hn a (by simp))

/-! ### The emitter -/

/-- A start tag is written. -/
theorem step_start {cfg : EmitCfg} (hc : cfg.Blank) {e : Em} (hst : e.started = true) (nm : Str) (as : List Attr) (nss : NsMap) :
    ∃ w, Blank w ∧ (e.step cfg (.start (Name.ofStr nm) as nss)).out
        = e.fix.out ++ w ++ (c!"<" ++ nm ++ ((newDecls e.scopes nss).flatMap emitDecl ++ as.flatMap emitAttr)) ∧
      (e.step cfg (.start (Name.ofStr nm) as nss)).pending = true ∧
      (e.step cfg (.start (Name.ofStr nm) as nss)).started = true ∧
      (e.step cfg (.start (Name.ofStr nm) as nss)).scopes = newDecls e.scopes nss :: e.scopes ∧
      (e.step cfg (.start (Name.ofStr nm) as nss)).opened = nm :: e.opened := by
  obtain ⟨w, hw, hbm⟩ := beforeMarkup_eq hc e.fix
  have hscopes : (e.fix.add w).scopes = e.scopes := fix_scopes e
  have hopened : (e.fix.add w).opened = e.opened := fix_opened e
  refine ⟨w, hw, ?_⟩
  simp only [Em.step]
  rw [checkStarted_of hst, hbm, hscopes, hopened, qname_ofStr]
  refine ⟨?_, trivial, (fix_started e).trans hst, rfl, rfl⟩
  simp [Em.add]

/-- An end tag is written: that of an empty element … -/
theorem step_end_pending {cfg : EmitCfg} {e : Em} (hp : e.pending = true) (g : Option Name) :
    (e.step cfg (.endE g)).out = e.out ++ c!" />" ∧ (e.step cfg (.endE g)).pending = false ∧
      (e.step cfg (.endE g)).started = e.started ∧ (e.step cfg (.endE g)).scopes = e.scopes.tail ∧
      (e.step cfg (.endE g)).opened = e.opened.tail := by
  simp only [Em.step]
  rw [if_pos hp]
  exact ⟨by rw [setFlag_out]; rfl, by rw [setFlag_pending], by rw [setFlag_started]; rfl, by rw [setFlag_scopes]; rfl, by rw [setFlag_opened]; rfl⟩

/-- … or another one. -/
theorem step_end {cfg : EmitCfg} (hc : cfg.Blank) {e : Em} (hp : e.pending = false) (g : Option Name) {nm : Str} {os : List Str}
    (ho : e.opened = nm :: os) : ∃ w, Blank w ∧ (e.step cfg (.endE g)).out = e.out ++ w ++ (c!"</" ++ nm ++ c!">") ∧
      (e.step cfg (.endE g)).pending = false ∧ (e.step cfg (.endE g)).started = e.started ∧ (e.step cfg (.endE g)).scopes = e.scopes.tail ∧
      (e.step cfg (.endE g)).opened = os := by
  obtain ⟨w, hw, he⟩ : ∃ w, Blank w ∧ e.step cfg (.endE g) =
      Em.setFlag { (e.add w).add (c!"</" ++ (e.add w).opened.headD [] ++ c!">") with
        opened := e.opened.tail, scopes := e.scopes.tail, flags := e.flags.tail } Flag.markup := by
    have h0 : e = e.add [] := by simp [Em.add]
    cases hind : cfg.indent with
    | none =>
      refine ⟨[], blank_nil, ?_⟩
      simp only [Em.step, hind]
      rw [if_neg (by simp [hp]), ← h0]; rfl
    | some ind =>
      by_cases hcond : e.opened.length > 0 ∧ e.flag = Flag.markup
      · refine ⟨_, nl_space (hc ind hind) (e.opened.length - 1), ?_⟩
        simp only [Em.step, hind]
        rw [if_neg (by simp [hp]), if_pos hcond]; rfl
      · refine ⟨[], blank_nil, ?_⟩
        simp only [Em.step, hind]
        rw [if_neg (by simp [hp]), if_neg hcond, ← h0]; rfl
  have hh : (e.add w).opened.headD [] = nm := by show e.opened.headD [] = nm; rw [ho]; rfl
  rw [he, hh]
  refine ⟨w, hw, by rw [setFlag_out]; rfl, by rw [setFlag_pending]; exact hp, by rw [setFlag_started]; rfl, by rw [setFlag_scopes], ?_⟩
  rw [setFlag_opened]; show e.opened.tail = os; rw [ho]; rfl

mutual
  theorem node_spell {cfg : EmitCfg} (hc : cfg.Blank) (n : Str) (as : List Attr) (nss : NsMap) (ks : List WNode) {e : Em} (hst : e.started = true)
      {ps sc : NsMap} (hs : Scoped e.scopes ps sc) (hu : ∀ d ∈ sc, d.2 ≠ []) (hok : (WNode.elem n as nss ks).Ok sc) :
      ∃ w t, Blank w ∧ Elem ps (got e.scopes ps sc (.elem n as nss ks)) t ∧
        ((WNode.elem n as nss ks).events.foldl (Em.step cfg) e).out = e.fix.out ++ w ++ t ∧
        ((WNode.elem n as nss ks).events.foldl (Em.step cfg) e).pending = false ∧
        ((WNode.elem n as nss ks).events.foldl (Em.step cfg) e).started = true ∧
        ((WNode.elem n as nss ks).events.foldl (Em.step cfg) e).scopes = e.scopes ∧
        ((WNode.elem n as nss ks).events.foldl (Em.step cfg) e).opened = e.opened := by
    rw [WNode.Ok] at hok
    obtain ⟨hq, hb, hd, ha, hk⟩ := hok
    obtain ⟨w, hw, h1, h2, h3, h4, h5⟩ := step_start hc hst n as nss
    have htag := tag_emit hs hu hq hb hd ha
    have hat : Spell.Attrs ((newDecls e.scopes nss).flatMap emitDecl ++ as.flatMap emitAttr)
        ((newDecls e.scopes nss).map declAttr ++ as.map fun a => (a.name.raw, a.value)) := by
      refine attrs_app (attrs_decls _ (fun d hm => ?_) fun d hm => hd.uri d (mem_newDecls.mp hm).1)
        (attrs_emit as (fun a hm => (ha.name a hm).1) ha.value)
      rcases hd.pfx d (mem_newDecls.mp hm).1 with h | h
      · exact .inl h
      · exact .inr h.1
    have hs' := hs.push hd
    obtain ⟨t, h6, h7, h8, h9, h10, h11, h12⟩ := kids_spell hc ks h3 (ps := newScope ps (newDecls e.scopes nss)) (sc := nss ++ sc)
      (by rw [h4]; exact hs') (declsOk_uri hu hd) hk []
    rw [WNode.events, List.foldl_cons, List.foldl_append, List.foldl_cons, List.foldl_nil, got]
    rw [h4] at h7
    generalize he' : (WNode.eventsL ks).foldl (Em.step cfg) (e.step cfg (.start (Name.ofStr n) as nss)) = e' at *
    cases ks with
    | nil =>
      have hh := h8 rfl
      obtain ⟨g1, g2, g3, g4, g5⟩ := step_end_pending (cfg := cfg) (e := e') (by rw [hh]; exact h2) none
      refine ⟨w, _, hw, .empty hat blank_one htag, ?_, g2, by rw [g3, h10], ?_, ?_⟩
      · rw [g1, hh, h1]; simp
      · rw [g4, h11, h4]; rfl
      · rw [g5, h12, h5]; rfl
    | cons k ks =>
      obtain ⟨w', hw', g1, g2, g3, g4, g5⟩ := step_end hc (h9 (by simp)) none (h12.trans h5)
      refine ⟨w, _, hw, .full (w := []) (w' := []) hat blank_nil htag (h7 w' hw') blank_nil, ?_, g2, by rw [g3, h10], ?_, g5⟩
      · have hf : (e.step cfg (.start (Name.ofStr n) as nss)).fix.out = (e.step cfg (.start (Name.ofStr n) as nss)).out ++ c!">" := by
          unfold Em.fix; rw [if_pos h2]; rfl
        rw [g1]
        rw [fix_of_not_pending (h9 (by simp)), hf, h1] at h6
        rw [h6]; simp
      · rw [g4, h11, h4]; rfl

  theorem kids_spell {cfg : EmitCfg} (hc : cfg.Blank) (ks : List WNode) {e : Em} (hst : e.started = true) {ps sc : NsMap}
      (hs : Scoped e.scopes ps sc) (hu : ∀ d ∈ sc, d.2 ≠ []) (hok : WNode.OkL sc ks) (B : Str) :
      ∃ t, ((WNode.eventsL ks).foldl (Em.step cfg) e).fix.out = e.fix.out ++ t ∧
        (∀ w, Blank w → Content ps B (gotL e.scopes ps sc B ks) (t ++ w)) ∧
        (ks = [] → (WNode.eventsL ks).foldl (Em.step cfg) e = e) ∧
        (ks ≠ [] → ((WNode.eventsL ks).foldl (Em.step cfg) e).pending = false) ∧
        ((WNode.eventsL ks).foldl (Em.step cfg) e).started = true ∧
        ((WNode.eventsL ks).foldl (Em.step cfg) e).scopes = e.scopes ∧
        ((WNode.eventsL ks).foldl (Em.step cfg) e).opened = e.opened := by
    cases ks with
    | nil =>
      refine ⟨[], by simp [WNode.eventsL], fun w hw => ?_, fun _ => rfl, fun h => absurd rfl h, hst, rfl, rfl⟩
      have := content_blank (sc := ps) (t := []) (ks := textRun (B ++ w.map lineEnd)) w B hw .nil
      rw [textRun_blank _ _ hw] at this
      rw [gotL]
      simpa using this
    | cons k ks =>
      rw [WNode.OkL] at hok
      obtain ⟨hk, hks⟩ := hok
      rw [WNode.eventsL, List.foldl_append]
      -- the rest, after the first item
      have rest : ∀ (e1 : Em) (B1 s : Str), e1.started = true → e1.pending = false → e1.scopes = e.scopes → e1.opened = e.opened →
          e1.out = e.fix.out ++ s →
          ∃ t, ((WNode.eventsL ks).foldl (Em.step cfg) e1).fix.out = e.fix.out ++ (s ++ t) ∧
            (∀ w, Blank w → Content ps B1 (gotL e.scopes ps sc B1 ks) (t ++ w)) ∧
            ((WNode.eventsL ks).foldl (Em.step cfg) e1).pending = false ∧
            ((WNode.eventsL ks).foldl (Em.step cfg) e1).started = true ∧
            ((WNode.eventsL ks).foldl (Em.step cfg) e1).scopes = e.scopes ∧
            ((WNode.eventsL ks).foldl (Em.step cfg) e1).opened = e.opened := by
        intro e1 B1 s a1 a2 a3 a4 a5
        obtain ⟨t, h1, h2, h3, h4, h5, h6, h7⟩ := kids_spell hc ks a1 (ps := ps) (sc := sc) (by rw [a3]; exact hs) hu hks B1
        refine ⟨t, by rw [h1, fix_of_not_pending a2, a5]; simp, by rw [a3] at h2; exact h2, ?_, h5, h6.trans a3, h7.trans a4⟩
        by_cases hn : ks = []
        · rw [h3 hn]; exact a2
        · exact h4 hn
      cases k with
      | text s =>
        rw [WNode.Ok] at hk
        have e1 : ([WEv.chars s].foldl (Em.step cfg) e) = ((e.fix).add (escText s)).setFlag .text := by
          simp only [List.foldl_cons, List.foldl_nil, Em.step]; rw [checkStarted_of hst]
        rw [show (WNode.text s).events = [WEv.chars s] from rfl, e1]
        obtain ⟨t, h1, h2, h3, h4, h5, h6⟩ := rest (((e.fix).add (escText s)).setFlag .text) (B ++ s) (escText s) (by rw [setFlag_started]; exact (fix_started e).trans hst)
          (by rw [setFlag_pending]; exact fix_pending e) (by rw [setFlag_scopes]; exact fix_scopes e) (by rw [setFlag_opened]; exact fix_opened e)
          (by rw [setFlag_out]; rfl)
        refine ⟨escText s ++ t, h1, fun w hw => ?_, fun h => (nomatch h), fun _ => h3, h4, h5, h6⟩
        rw [gotL, List.append_assoc]
        exact content_text s B hk (h2 w hw)
      | cdata s =>
        rw [WNode.Ok] at hk
        have e1 : ([WEv.cdata s].foldl (Em.step cfg) e) = ((e.fix).add (c!"<![CDATA[" ++ s ++ c!"]]>")).setFlag .text := rfl
        rw [show (WNode.cdata s).events = [WEv.cdata s] from rfl, e1]
        obtain ⟨t, h1, h2, h3, h4, h5, h6⟩ := rest (((e.fix).add (c!"<![CDATA[" ++ s ++ c!"]]>")).setFlag .text) (B ++ s) (c!"<![CDATA[" ++ s ++ c!"]]>") (by rw [setFlag_started]; exact (fix_started e).trans hst)
          (by rw [setFlag_pending]; exact fix_pending e) (by rw [setFlag_scopes]; exact fix_scopes e) (by rw [setFlag_opened]; exact fix_opened e)
          (by rw [setFlag_out]; rfl)
        refine ⟨(c!"<![CDATA[" ++ s ++ c!"]]>") ++ t, h1, fun w hw => ?_, fun h => (nomatch h), fun _ => h3, h4, h5, h6⟩
        rw [gotL, List.append_assoc]
        exact content_cdata hk (h2 w hw)
      | elem n as nss kk =>
        obtain ⟨v, x, g1, g2, g3, g4, g5, g6, g7⟩ := node_spell hc n as nss kk hst hs hu hk
        obtain ⟨t, h1, h2, h3, h4, h5, h6⟩ := rest _ [] (v ++ x) g5 g4 g6 g7 (by rw [g3]; simp)
        refine ⟨v ++ x ++ t, h1, fun w hw => ?_, fun h => (nomatch h), fun _ => h3, h4, h5, h6⟩
        rw [gotL, List.append_assoc, List.append_assoc]
        refine content_blank v B g1 ?_
        have := Content.elem (run := B ++ v.map lineEnd) g2 (h2 w hw)
        rw [textRun_blank _ _ g1] at this
        exact this
end

theorem misc_blank : ∀ (w : Str), Blank w → Misc w
  | [], _ => .nil
  | c :: w, h => .space (h c (by simp)) (misc_blank w fun d hd => h d (by simp [hd]))

/-- What is written for a tree is a spelling of it. -/
theorem emit_spelling (n : Str) (as : List Attr) (nss : NsMap) (ks : List WNode) (es : List WEv)
    (hok : (WNode.elem n as nss ks).Ok []) (hes : es.map WEv.face = ((WNode.elem n as nss ks).events).map WEv.face) :
    ∃ y : Node, y.Like ((WNode.elem n as nss ks).back []) ∧ ∀ cfg : EmitCfg, cfg.Blank → Doc y (emit cfg es) := by
  refine ⟨got [] [] [] (.elem n as nss ks), got_like _ .nil (by simp) hok, fun cfg hc => ?_⟩
  have hemit : emit cfg es = (((WNode.elem n as nss ks).events).foldl (Em.step cfg) {}).out := by
    unfold emit; rw [← foldl_face, hes, foldl_face]
  have hst : (({} : Em).checkStarted cfg).started = true := by
    cases hd : cfg.decl <;> simp [Em.checkStarted, hd, Em.setFlag, Em.add]
  have hscopes : (({} : Em).checkStarted cfg).scopes = [] := by
    cases hd : cfg.decl <;> simp [Em.checkStarted, hd, Em.setFlag, Em.add]
  have hfold : ((WNode.elem n as nss ks).events).foldl (Em.step cfg) {}
      = ((WNode.elem n as nss ks).events).foldl (Em.step cfg) (({} : Em).checkStarted cfg) := by
    rw [WNode.events, List.foldl_cons, List.foldl_cons]
    congr 1
    simp only [Em.step]
    rw [checkStarted_of hst]
  obtain ⟨w, t, h1, h2, h3, -⟩ := node_spell hc n as nss ks hst (ps := []) (sc := []) (by rw [hscopes]; exact .nil) (by simp) hok
  rw [hscopes] at h2
  rw [hemit, hfold, h3]
  have hm : Misc ((({} : Em).checkStarted cfg).fix.out ++ w) := by
    cases hd : cfg.decl
    · simp only [Em.checkStarted, hd, Em.fix]
      exact misc_blank w h1
    · have e : (({} : Em).checkStarted cfg).fix.out = c!"<?xml version=\"1.0\" encoding=\"utf-8\"?>" := by
        simp [Em.checkStarted, hd, Em.setFlag, Em.add, Em.fix]
      rw [e]
      exact .pi (.mk (target := c!"xml") (t := c!" version=\"1.0\" encoding=\"utf-8\"") (by decide) (.inr ⟨_, _, rfl, rfl⟩) (by decide) (by decide))
        (misc_blank w h1)
  have := Doc.mk (b := []) hm h2 .nil
  simpa using this

end XmlText
end Yaserde
