import Verif.Proofs.EncEnum
import Verif.Props.Decode
import Verif.Props.Encode
/-
Writing a canonical value and reading the text again.
-/

set_option autoImplicit false

namespace Yaserde

theorem nsOk_of_isNameOf {root : Attrs} {label : Str} {n : Name} (h : IsNameOf root root.pfx label n) : nsOk root n := by
  intro u hu
  rw [h.2] at hu
  unfold NsMap.find at hu
  cases hf : List.find? (fun e => root.pfx == some e.1) root.namespaces with
  | none => rw [hf] at hu; cases hu
  | some e =>
    rw [hf] at hu
    refine ⟨e, List.mem_of_find?_eq_some hf, ?_, by simpa using hu⟩
    simpa using List.find?_some hf

/-- The document written for a canonical value. -/
theorem canon_root {L : Lib} (hL : XmlLaw L) {env : Env} {G : NsMap} (hrt : RtOk env G) {p : Path} (hroot : RootOk env G p) {v : Val}
    (hc : Canon L env (.struct p) v) :
    ∃ n as nss ks, encTy L env .root p v = [.elem n as nss ks] ∧ (WNode.elem n as nss ks).Ok [] ∧
      (WNode.elem n as nss ks).Tidy G ∧ View L env p v ((WNode.elem n as nss ks).back []) ∧
      ∀ d, env p = some (.struct d) → nsOk d.attrs ((WNode.elem n as nss ks).back []).name := by
  have hG := hrt.table
  have henc : Enc L env G p v := (canon_enc hL hrt hc).item.enc p rfl
  have hplace : encTy L env .root p v = encTy L env ⟨some (ownName env p), false⟩ p v := by
    rw [henc.place .root rfl, henc.place ⟨some (ownName env p), false⟩ rfl]; rfl
  have hdG : ∀ e ∈ firstDecls (encTyDecls env p v) ++ [], e ∈ G := by
    intro e he
    rw [List.append_nil] at he
    exact henc.decls e (mem_firstDecls he)
  have hsub : ∀ e ∈ encTyDecls env p v, e ∈ firstDecls (encTyDecls env p v) ++ [] := by
    intro e he
    rw [List.append_nil]
    exact mem_firstDecls_of hG henc.decls he
  -- the name of the element
  have hname : isQName (ownName env p) = true ∧ Bound (firstDecls (encTyDecls env p v) ++ []) (ownName env p) ∧
      Fits env p (readElemName (firstDecls (encTyDecls env p v) ++ []) (ownName env p)) ∧
      ∀ d, env p = some (.struct d) → nsOk d.attrs (readElemName (firstDecls (encTyDecls env p v) ++ []) (ownName env p)) := by
    unfold RootOk at hroot
    cases hp : env p with
    | none => rw [hp] at hroot; exact hroot.elim
    | some td =>
      rw [hp] at hroot
      cases td with
      | struct d =>
        obtain ⟨h1, h2, h3⟩ := hroot
        have hdec : ∀ e ∈ d.attrs.decls, e ∈ firstDecls (encTyDecls env p v) ++ [] := by
          intro e he
          refine hsub e ?_
          cases hc with
          | struct _ d' fs hp' => rw [hp] at hp'; cases hp'; rw [encTyDecls_struct hp]; exact List.mem_append_left _ he
          | unit _ d' i vd hp' => rw [hp] at hp'; cases hp'
          | payload _ d' i vd t x hp' => rw [hp] at hp'; cases hp'
          | payloadSome _ d' i vd t x hp' => rw [hp] at hp'; cases hp'
          | payloadItems _ d' i vd t x hp' => rw [hp] at hp'; cases hp'
          | payloadStruct _ d' i vd t x hp' => rw [hp] at hp'; cases hp'
          | payloadSomeStruct _ d' i vd t x hp' => rw [hp] at hp'; cases hp'
          | payloadStructs _ d' i vd t x hp' => rw [hp] at hp'; cases hp'
          | payloadNone _ d' i vd t hp' => rw [hp] at hp'; cases hp'
          | payloadEmpty _ d' i vd t hp' => rw [hp] at hp'; cases hp'
          | prim _ d' v hp' => rw [hp] at hp'; cases hp'
        obtain ⟨n1, n2, n3⟩ := elemName_ok (root := d.attrs) hG hdec hdG h2 h1
        have e : ownName env p = qualify d.attrs.defaultNs d.attrs.pfx (d.attrs.rename.getD d.name) := by
          unfold ownName; rw [hp]; rfl
        rw [← e] at n1 n2 n3
        refine ⟨n1, n2, h3 _ n3, ?_⟩
        intro d' hd'; cases hd'
        exact nsOk_of_isNameOf n3
      | enum d =>
        obtain ⟨h1, h2, h3⟩ := hroot
        have hdec : ∀ e ∈ d.attrs.decls, e ∈ firstDecls (encTyDecls env p v) ++ [] := by
          intro e he
          refine hsub e ?_
          rw [encTyDecls_enum hp]; exact he
        obtain ⟨n1, n2, n3⟩ := elemName_ok (root := d.attrs) hG hdec hdG h2 h1
        have e : ownName env p = qualify d.attrs.defaultNs d.attrs.pfx (d.attrs.rename.getD d.name) := by
          unfold ownName; rw [hp]; rfl
        rw [← e] at n1 n2 n3
        exact ⟨n1, n2, h3 _ n3, by intro d' hd'; cases hd'⟩
      | prim d =>
        have e : ownName env p = d.name := by unfold ownName; rw [hp]
        have hsp := XmlText.splitColon_none (XmlText.ncName_noColon hroot)
        refine ⟨?_, ?_, .prim p d _ hp, by intro d' hd'; cases hd'⟩
        · rw [e]; unfold isQName; rw [hsp]; exact hroot
        · rw [e]; unfold Bound; rw [hsp]; trivial
  obtain ⟨n1, n2, n3, n4⟩ := hname
  obtain ⟨as, nss, ks, e1, e2, e3, e4, -⟩ := henc.elem hG (sc := []) (by simp) n1 n2 n3
  refine ⟨_, as, nss, ks, hplace.trans e1, e2, e3, e4, ?_⟩
  intro d hp
  have hnss : nss = firstDecls (encTyDecls env p v) := by
    have := henc.place ⟨some (ownName env p), false⟩ rfl
    rw [e1] at this
    simp only [List.cons.injEq, WNode.elem.injEq] at this
    exact this.1.2.2.1
  rw [hnss]
  exact n4 d hp

/-- A text whose tree shows the value is a conforming document, read as the value. -/
theorem doc_of_view {L : Lib} (hx : XmlLaw L) {env : Env} {G : NsMap} (hG : NsTable G) {p : Path} {v : Val}
    {n : Str} {as : List Attr} {nss : NsMap} {ks : List WNode} (hok : (WNode.elem n as nss ks).Ok [])
    (htidy : (WNode.elem n as nss ks).Tidy G) (hview : View L env p v ((WNode.elem n as nss ks).back []))
    (hns : ∀ d, env p = some (.struct d) → nsOk d.attrs ((WNode.elem n as nss ks).back []).name)
    (es : List WEv) (hes : es.map WEv.face = ((WNode.elem n as nss ks).events).map WEv.face)
    (cfg : EmitCfg) (hcfg : cfg.Blank) :
    ∃ y k, IsDoc (L.parse (L.emit cfg es)) y ∧ ConfN L env k y p ∧ Returns L env p (L.emit cfg es) (.ok v) := by
  obtain ⟨y, hlike, hparse⟩ := hx.doc n as nss ks es hok hes
  have hclean := (clean_of_like hG _ [] (by simp) hok htidy y n as nss ks rfl hlike).1
  obtain ⟨k0, hk0⟩ := hview.reads hx hG
  obtain ⟨hconf, hdec⟩ := hk0 k0 (Nat.le_refl _) y (.strip _ _ (like_strip _ _ hlike).symm) hclean
  have hdoc : IsDoc (L.parse (L.emit cfg es)) y := by
    refine ⟨[], ?_⟩
    rw [hparse cfg hcfg, List.append_nil]
    exact content_doc y
  refine ⟨y, k0, hdoc, hconf, ?_⟩
  rw [returns_iff L env k0 p _ y hdoc hconf]
  unfold decodeDocN decodeDocWith
  rw [hdec]
  have hname : y.name = ((WNode.elem n as nss ks).back []).name := by
    have := like_strip _ _ hlike
    cases y with
    | text => simp [WNode.back, Node.strip] at this
    | elem n' as' m' ks' =>
      simp only [WNode.back, Node.strip, Node.elem.injEq] at this
      exact this.1
  split
  · rename_i d hd
    rw [hname, if_pos (hns d hd)]
  · rfl

/-- A text whose tree shows the value is read as the value. -/
theorem returns_of_view {L : Lib} (hx : XmlLaw L) {env : Env} {G : NsMap} (hG : NsTable G) {p : Path} {v : Val}
    {n : Str} {as : List Attr} {nss : NsMap} {ks : List WNode} (hok : (WNode.elem n as nss ks).Ok [])
    (htidy : (WNode.elem n as nss ks).Tidy G) (hview : View L env p v ((WNode.elem n as nss ks).back []))
    (hns : ∀ d, env p = some (.struct d) → nsOk d.attrs ((WNode.elem n as nss ks).back []).name)
    (es : List WEv) (hes : es.map WEv.face = ((WNode.elem n as nss ks).events).map WEv.face)
    (cfg : EmitCfg) (hcfg : cfg.Blank) : Returns L env p (L.emit cfg es) (.ok v) := by
  obtain ⟨-, -, -, -, h⟩ := doc_of_view hx hG hok htidy hview hns es hes cfg hcfg
  exact h

/-- Every canonical value is written, and read back unchanged. -/
theorem roundtrip {L : Lib} (hx : XmlLaw L) {env : Env} {G : NsMap} (hrt : RtOk env G) (hok : SerOk env) {p : Path}
    (hroot : RootOk env G p) {v : Val} (hv : HasTy env (.struct p) v) (hc : Canon L env (.struct p) v) (c : Config)
    (hcfg : c.emitCfg.Blank) : ∃ s, toStringWithConfig L env c p v = .ok s ∧ Returns L env p s (.ok v) := by
  obtain ⟨n, as, nss, ks, e, h1, h2, h3, h4⟩ := canon_root hx hrt hroot hc
  have hser := serialize_eq (L := L) hok hv
  refine ⟨L.emit c.emitCfg (WNode.elem n as nss ks).events, ?_, ?_⟩
  · unfold toStringWithConfig
    rw [hser, e]
    simp [WNode.eventsL]
  · exact returns_of_view hx hrt.table h1 h2 h3 h4 _ rfl _ hcfg

/-- … as a conforming document. -/
theorem written_doc {L : Lib} (hx : XmlLaw L) {env : Env} {G : NsMap} (hrt : RtOk env G) (hok : SerOk env) {p : Path}
    (hroot : RootOk env G p) {v : Val} (hv : HasTy env (.struct p) v) (hc : Canon L env (.struct p) v) (c : Config)
    (hcfg : c.emitCfg.Blank) : ∃ s y k, toStringWithConfig L env c p v = .ok s ∧ IsDoc (L.parse s) y ∧
      ConfN L env k y p ∧ Returns L env p s (.ok v) := by
  obtain ⟨n, as, nss, ks, e, h1, h2, h3, h4⟩ := canon_root hx hrt hroot hc
  have hser := serialize_eq (L := L) hok hv
  obtain ⟨y, k, g1, g2, g3⟩ := doc_of_view hx hrt.table h1 h2 h3 h4 _ rfl _ hcfg
  refine ⟨L.emit c.emitCfg (WNode.elem n as nss ks).events, y, k, ?_, g1, g2, g3⟩
  unfold toStringWithConfig
  rw [hser, e]
  simp [WNode.eventsL]

end Yaserde
