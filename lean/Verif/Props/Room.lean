import Verif.Proofs.Room
import Verif.Props.Total
import Verif.Proofs.EncField
/-
Properties C07 (termination), C22 (panics), C28 (content after the document element) of structs of scalars: every
document, not only those that conform.
-/

set_option autoImplicit false
set_option maxRecDepth 100000

namespace Yaserde

theorem deser_scalars {L : Lib} {env : Env} {p : Path} {d : StructDef} (hp : env p = some (.struct d)) (hd : d.ScalarsOnly)
    (n : Nat) : deser L env (n + 1) p = structDeser L (fun _ => M.throw []) n d := by
  rw [← structDeser_rec hd (deser L env n)]
  funext rd
  unfold deser
  rw [hp]

theorem at_doc {L : Lib} {s : Str} {x : Node} {post : List REv} (hs : content (L.parse s).evs = x.events ++ post) :
    At 0 (x.events ++ post) (L.parse s).fin (Rd.new (L.parse s)) := by
  have := at_new' (L.parse s)
  rwa [hs] at this

theorem returns_large {L : Lib} {env : Env} {p : Path} {s : Str} {r : Res Val} (h : Returns L env p s r) (b : Nat) :
    ∃ k, b ≤ k ∧ deFromStr L env (k + 1) p s = r := by
  obtain ⟨hr, k, hk⟩ := h
  exact ⟨k + b, by omega, ((C27_budget_irrelevant L env p s).1 k (k + b + 1) (by omega) (by rw [hk]; exact hr)).trans hk⟩

theorem attrs_nd {L : Lib} {d : StructDef} (hd : d.ScalarsOnly) (as : List Attr) :
    attrContribs L (fun _ _ => .err []) d as ≠ .diverge := by
  refine attrContribs_ne_diverge _ _ _ _ ?_
  intro f hf _ q hq
  obtain ⟨t, ht⟩ := hd.scalar f hf
  rw [ht] at hq
  cases hq

theorem wellFormed_node (x : Node) : WellFormed ⟨x.events, none⟩ := by
  obtain ⟨h1, h2⟩ := bal_events x
  refine ⟨fun k => ?_, ?_, fun _ => ?_⟩
  · have := h2 k
    unfold bal at this
    show closes (x.events.take k) ≤ opens (x.events.take k)
    omega
  · intro h
    exact events_ne x _ h rfl
  · unfold bal at h1
    show opens x.events = closes x.events
    omega

theorem scalars_np {L : Lib} (hL : ∀ s, WellFormed (L.parse s)) {d : StructDef} (hd : d.ScalarsOnly) (k : Nat) {src : Src}
    (hs : WellFormed src) (m : Str) : (structDeser L (fun _ => M.throw []) k d (Rd.new src)).1 ≠ .panic m := by
  have hn := NP.structDeser (L := L) (rec := fun _ => M.throw []) (R := fun _ => False)
    (A := fun _ => False) hL (fun q hq => hq.elim) k d
    (fun f hf => .inl (hd.scalar f hf)) (fun f hf h1 h2 => by rw [hd.noFlat f hf h1] at h2; cases h2) _ (Good.new hs)
  unfold NPat at hn
  intro h
  split at hn <;> rename_i heq <;> rw [heq] at h <;> cases h
  exact hn

/-- The outcome for a document element that is not taken for a field is determined by that element. -/
theorem scalars_doc {L : Lib} {d : StructDef} (hd : d.ScalarsOnly) {n : Name} {as : List Attr} {m : NsMap} {ks : List Node}
    (hnt : ¬ TakenForField L d (.elem n as m ks)) (hnp : ∀ k e, (structDeser L (fun _ => M.throw []) k d
      (Rd.new ⟨(Node.elem n as m ks).events, none⟩)).1 ≠ .panic e) :
    ∃ k r, r ≠ .diverge ∧ (∀ e, r ≠ .panic e) ∧ ∀ (src : Src) (post : List REv),
      content src.evs = (Node.elem n as m ks).events ++ post →
      (structDeser L (fun _ => M.throw []) k d (Rd.new src)).1 = r := by
  have hat : ∀ (src : Src) (post : List REv), content src.evs = (Node.elem n as m ks).events ++ post →
      At 0 ((Node.elem n as m ks).events ++ post) src.fin (Rd.new src) := by
    intro src post h
    have := at_new' src
    rwa [h] at this
  have h0 : content (Src.evs ⟨(Node.elem n as m ks).events, none⟩) = (Node.elem n as m ks).events ++ [] := by
    rw [List.append_nil]
    exact content_node _
  rw [takenForField_iff] at hnt
  by_cases ht : ∃ i v, TakenTag L d n ks i v
  · obtain ⟨i, v, hiv⟩ := ht
    refine ⟨1, (structDeser L (fun _ => M.throw []) 1 d (Rd.new ⟨(Node.elem n as m ks).events, none⟩)).1, ?_, hnp 1, ?_⟩
    · obtain ⟨-, h2, h3⟩ := structDeser_taken (rec := fun _ => M.throw []) hd hiv 0 (hat _ _ h0)
      intro hc
      cases ha : attrContribs L (fun _ _ => .err []) d as with
      | ok cs => exact hnt ⟨⟨i, v, hiv⟩, cs, ha⟩
      | err e => rw [h2 e ha] at hc; cases hc
      | panic e => rw [h3 e ha] at hc; cases hc
      | diverge => exact attrs_nd hd as ha
    · intro src post h
      obtain ⟨-, h2, h3⟩ := structDeser_taken (rec := fun _ => M.throw []) hd hiv 0 (hat _ _ h0)
      obtain ⟨-, h2', h3'⟩ := structDeser_taken (rec := fun _ => M.throw []) hd hiv 0 (hat _ _ h)
      cases ha : attrContribs L (fun _ _ => .err []) d as with
      | ok cs => exact (hnt ⟨⟨i, v, hiv⟩, cs, ha⟩).elim
      | err e => rw [h2 e ha, h2' e ha]
      | panic e => rw [h3 e ha, h3' e ha]
      | diverge => exact (attrs_nd hd as ha).elim
  · let rd0 := Rd.new ⟨(Node.elem n as m ks).events, none⟩
    have hst := structDeser_stays (rec := fun _ => M.throw []) hd (fun i v hiv => ht ⟨i, v, hiv⟩) (rd0.len + 1) (hat _ _ h0)
      (Nat.lt_succ_self _)
    obtain ⟨l, hl⟩ := (Loc.structDeser (L := L) (rec := fun _ => M.throw []) (fun _ => .throw _) (rd0.len + 1) d).from_ rd0
    have hadv := (hl _ (Agree.refl _ _)).2
    have hnp' := hnp (rd0.len + 1)
    change Stays n [] (structDeser L (fun _ => M.throw []) (rd0.len + 1) d rd0) at hst
    change ∀ e, (structDeser L (fun _ => M.throw []) (rd0.len + 1) d rd0).1 ≠ _ at hnp'
    cases hx : structDeser L (fun _ => M.throw []) (rd0.len + 1) d rd0 with
    | mk r rd' =>
      rw [hx] at hadv hst hnp'
      have hend : Res.settled r ∧ ∃ es, rd'.visible = es ++ .endE n :: [] := by
        cases r with
        | ok v => exact ⟨trivial, hst⟩
        | err e => exact ⟨trivial, hst⟩
        | panic e => exact (hnp' e rfl).elim
        | diverge => exact hst.elim
      obtain ⟨hset, es, hes⟩ := hend
      refine ⟨rd0.len + 1, r, fun hc => by rw [hc] at hset; exact hset, hnp', fun src post h => ?_⟩
      have h1 : rd'.stream es.length = .ok (.endE n) := by
        rw [(at_self rd').stream, hes]
        unfold strm
        rw [List.getElem?_append_right (Nat.le_refl _)]
        simp
      rw [(hadv hset).1, (hat _ _ h0).stream] at h1
      have hlt : es.length + l < (Node.elem n as m ks).events.length := by
        rcases Nat.lt_or_ge (es.length + l) (Node.elem n as m ks).events.length with hlt | hge
        · exact hlt
        · exfalso
          unfold strm at h1
          rw [List.append_nil, List.getElem?_eq_none hge] at h1
          cases h1
      have hag : Agree l rd0 (Rd.new src) := by
        refine ⟨rfl, fun j hj => ?_⟩
        rw [(hat _ _ h0).stream, (hat _ _ h).stream]
        unfold strm
        rw [List.getElem?_append_left (by omega), List.getElem?_append_left (by omega),
          List.getElem?_eq_getElem (by omega)]
      rw [(hl _ hag).1, hx]

theorem returns_scalars {L : Lib} {env : Env} {p : Path} {d : StructDef} (hp : env p = some (.struct d)) (hd : d.ScalarsOnly)
    {s : Str} {k : Nat} {r : Res Val} (hr : r ≠ .diverge)
    (h : (structDeser L (fun _ => M.throw []) k d (Rd.new (L.parse s))).1 = r) : Returns L env p s r := by
  refine ⟨hr, k + 1, ?_⟩
  unfold deFromStr fromStr
  rw [deser_scalars hp hd]
  exact h

/-- C07 for structs of scalars, whatever follows the document element: unless the document element is taken for one of
the struct's own fields, `from_str` returns a value or an error. -/
theorem C07_scalars_trailing (L : Lib) (hL : ∀ s, WellFormed (L.parse s)) (env : Env) (p : Path) (d : StructDef)
    (hp : env p = some (.struct d)) (hd : d.ScalarsOnly) (s : Str) (n : Name) (as : List Attr) (m : NsMap) (ks : List Node)
    (hdoc : IsDoc (L.parse s) (.elem n as m ks)) (hnt : ¬ TakenForField L d (.elem n as m ks)) :
    (∃ v, Returns L env p s (.ok v)) ∨ ∃ e, Returns L env p s (.err e) := by
  obtain ⟨post, hdoc⟩ := hdoc
  obtain ⟨k, r, h1, h2, h3⟩ := scalars_doc hd hnt fun k => scalars_np hL hd k (wellFormed_node _)
  have := returns_scalars hp hd h1 (h3 _ _ hdoc)
  cases r with
  | ok v => exact .inl ⟨v, this⟩
  | err e => exact .inr ⟨e, this⟩
  | panic e => exact (h2 e rfl).elim
  | diverge => exact (h1 rfl).elim

/-- C07 for structs of scalars.  Whatever the document element is and contains, `from_str` comes to an end, unless the
document element is taken for one of the struct's own fields; then it never does. -/
theorem C07_scalars_iff (L : Lib) (hL : ∀ s, WellFormed (L.parse s)) (env : Env) (p : Path) (d : StructDef) (hp : env p = some (.struct d)) (hd : d.ScalarsOnly)
    (s : Str) (n : Name) (as : List Attr) (m : NsMap) (ks : List Node)
    (hdoc : content (L.parse s).evs = (Node.elem n as m ks).events) (hfin : (L.parse s).fin = none) :
    (∃ r, Returns L env p s r) ↔ ¬ TakenForField L d (.elem n as m ks) := by
  constructor
  · rintro ⟨r, hr⟩ ht
    obtain ⟨⟨i, v, ht⟩, cs, hcs⟩ := takenForField_iff.mp ht
    obtain ⟨k, hk, h⟩ := returns_large hr 1
    apply hr.1
    obtain ⟨k, rfl⟩ : ∃ j, k = j + 1 := ⟨k - 1, by omega⟩
    rw [← h]
    unfold deFromStr fromStr
    rw [deser_scalars hp hd]
    exact (structDeser_taken hd ht k (at_doc (post := []) (by rw [hdoc, List.append_nil]))).1 cs hcs rfl hfin
  · intro hnt
    rcases C07_scalars_trailing L hL env p d hp hd s n as m ks ⟨[], by rw [hdoc, List.append_nil]⟩ hnt with h | h
    · exact ⟨_, h.choose_spec⟩
    · exact ⟨_, h.choose_spec⟩

/-- C07 for structs of scalars: texts that the XML parser finds malformed or truncated. -/
theorem C07_scalars_broken (L : Lib) (env : Env) (p : Path) (d : StructDef) (hp : env p = some (.struct d))
    (hd : d.ScalarsOnly) (s : Str) (hend : REv.endDocument ∉ (L.parse s).evs) (hfin : (L.parse s).fin ≠ none) :
    ∃ r, Returns L env p s r := by
  have hb : Broken (Rd.new (L.parse s)) := by
    refine ⟨hfin, ?_⟩
    rw [(at_new (L.parse s)).vis]
    intro h
    exact hend (List.mem_filter.mp h).1
  have h := TM.structDeser (L := L) (rec := fun _ => M.throw []) (Rd.new (L.parse s)).len _
    (fun _ _ hg _ => .throw hg) d (fun f hf _ => hd.scalar f hf) (ScalarsOnly.hasFlat hd) (Nat.lt_succ_self _) hb (Nat.le_refl _)
  refine ⟨deFromStr L env ((Rd.new (L.parse s)).len + 1 + 1) p s, fun hc => ?_, _, rfl⟩
  unfold deFromStr fromStr at hc
  rw [deser_scalars hp hd] at hc
  unfold TM at h
  split at h <;> rename_i heq <;> rw [heq] at hc <;> cases hc
  exact h

/-- C22 for structs of scalars: no text makes `from_str` panic. -/
theorem C22_scalars (L : Lib) (hL : ∀ s, WellFormed (L.parse s)) (env : Env) (p : Path) (d : StructDef)
    (hp : env p = some (.struct d)) (hd : d.ScalarsOnly) (s m : Str) : ¬ Returns L env p s (.panic m) := by
  intro h
  obtain ⟨k, -, h⟩ := returns_large h 0
  unfold deFromStr fromStr at h
  rw [deser_scalars hp hd] at h
  exact scalars_np hL hd k (hL s) m h

/-- C28 for structs of scalars: what follows the document element does not matter, for every outcome, unless the document
element is taken for one of the struct's own fields. -/
theorem C28_scalars (L : Lib) (hL : ∀ s, WellFormed (L.parse s)) (env : Env) (p : Path) (d : StructDef)
    (hp : env p = some (.struct d)) (hd : d.ScalarsOnly) (s t : Str) (n : Name) (as : List Attr) (m : NsMap) (ks : List Node)
    (hs : IsDoc (L.parse s) (.elem n as m ks)) (ht : IsDoc (L.parse t) (.elem n as m ks))
    (hnt : ¬ TakenForField L d (.elem n as m ks)) (r : Res Val) : Returns L env p s r ↔ Returns L env p t r := by
  obtain ⟨post, hs⟩ := hs
  obtain ⟨post', ht⟩ := ht
  obtain ⟨k, r', h1, -, h3⟩ := scalars_doc hd hnt fun k => scalars_np hL hd k (wellFormed_node _)
  have r1 := returns_scalars hp hd h1 (h3 _ _ hs)
  have r2 := returns_scalars hp hd h1 (h3 _ _ ht)
  constructor
  · intro h
    rw [(C27_budget_irrelevant L env p s).2 _ _ h r1]
    exact r2
  · intro h
    rw [(C27_budget_irrelevant L env p t).2 _ _ h r2]
    exact r1

namespace Sample

theorem author_scalars : author.ScalarsOnly := by
  refine ⟨fun f hf => ?_, fun f hf _ => ?_, rfl⟩ <;> simp only [author, List.mem_cons, List.not_mem_nil, or_false] at hf
  · rcases hf with rfl | rfl
    · exact ⟨_, rfl⟩
    · exact ⟨_, rfl⟩
  · rcases hf with rfl | rfl <;> rfl

/-- An author with nested, repeated and misplaced elements: read to an end. -/
example : ∃ r, Returns Tests.lib env [c!"Author"]
    c!"<Author>x<name>a<age>1</age></name><Author><age>7</age></Author></Author>" r := by
  refine (C07_scalars_iff _ XmlText.parse_wellFormed _ _ author env_author author_scalars _ ⟨c!"Author", none, none⟩ [] []
    [tx c!"x", el c!"name" [tx c!"a", el c!"age" [tx c!"1"]], el c!"Author" [el c!"age" [tx c!"7"]]]
    (by decide +kernel) (by decide +kernel)).mpr ?_
  rintro ⟨-, h, -⟩
  exact h ⟨rfl, rfl⟩

/-- A document element named like the field `name`: an error if it contains another element, for ever otherwise. -/
example : ∃ r, Returns Tests.lib env [c!"Author"] c!"<name>a<b/></name>" r := by
  refine (C07_scalars_iff _ XmlText.parse_wellFormed _ _ author env_author author_scalars _ ⟨c!"name", none, none⟩ [] []
    [tx c!"a", el c!"b" []] (by decide +kernel) (by decide +kernel)).mpr ?_
  rintro ⟨-, -, ⟨i, f, t, -, -, -, -, h⟩, -⟩
  cases h
example : ¬ ∃ r, Returns Tests.lib env [c!"Author"] c!"<name>a</name>" r := by
  refine fun h => (C07_scalars_iff _ XmlText.parse_wellFormed _ _ author env_author author_scalars _ ⟨c!"name", none, none⟩ [] []
    [tx c!"a"] (by decide +kernel) (by decide +kernel)).mp h ?_
  refine ⟨by decide +kernel, by decide +kernel, ⟨0, _, .string, by decide +kernel, rfl, rfl, ?_, by decide +kernel⟩, [], rfl⟩
  intro u hu
  cases hu

/-- What follows an `<age>` that is not an author's. -/
example (r : Res Val) : Returns Tests.lib env [c!"Author"] c!"<age>x</age>" r ↔
    Returns Tests.lib env [c!"Author"] c!"<age>x</age><name>a</name><!!" r := by
  refine C28_scalars _ XmlText.parse_wellFormed _ _ author env_author author_scalars _ _ ⟨c!"age", none, none⟩ [] []
    [tx c!"x"] ⟨[], by decide +kernel⟩ ⟨(el c!"name" [tx c!"a"]).events, by decide +kernel⟩ ?_ r
  rintro ⟨-, -, ⟨i, f, t, h1, h2, h3, -, h⟩, -⟩
  have : i = 1 := by
    have h0 : author.fieldFor ⟨c!"age", none, none⟩ = some 1 := by decide +kernel
    rw [h0] at h1
    exact (Option.some.inj h1).symm
  subst this
  cases h2
  cases h3
  revert h
  decide +kernel

/-- A text that is cut off. -/
example : ∃ r, Returns Tests.lib env [c!"Author"] c!"<name>a" r :=
  C07_scalars_broken _ _ _ author env_author author_scalars _ (by decide +kernel) (by decide +kernel)

/-- All texts. -/
example (s m : Str) : ¬ Returns Tests.lib env [c!"Author"] s (.panic m) :=
  C22_scalars _ XmlText.parse_wellFormed _ _ author env_author author_scalars s m

end Sample

end Yaserde
