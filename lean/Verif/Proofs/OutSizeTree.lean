import Verif.Proofs.OutSizeEnc
/-
C87: every value is within its budget.
-/

set_option autoImplicit false

namespace Yaserde
open XmlText

section
variable {L : Lib} {env : Env} {c D : Nat} {E : Str → Nat}

theorem cost_wrap {a : Attrs} {pl : Place} (hpl : Place.Short c pl) {n : Str} (hn : n.length ≤ c) (as : List Attr) (m : NsMap) (ks : List WNode) :
    costL E (wrap a pl n as m ks) ≤ costL E ks + attrsCost E as + declsCost m + (10 + 2 * c) := by
  unfold wrap
  split
  · omega
  · have : (pl.name.getD n).length ≤ c := by
      cases h : pl.name with
      | none => exact hn
      | some s => exact hpl s h
    simp only [costL, cost]
    omega

theorem cost_wrap_inner {a : Attrs} {n : Str} (as : List Attr) (m : NsMap) (ks : List WNode) : costL E (wrap a .inner n as m ks) = costL E ks := by
  simp [wrap, Place.inner]

/-- The content of an enum, with the attribute for the variant. -/
theorem variant_cost {N : Nat} (hE : Escapes L env E D) (ht : Terse L env c) (hs : SerOk env) (hb : BudgetedBelow L env E c D N) {p : Path} {d : EnumDef}
    (hp : env p = some (.enum d)) {i : Nat} {vd : VariantDef} (hvd : d.variants[i]? = some vd) {pay : List Val} (hN : Val.sizeL pay < N)
    (hpay : (vd.shape = .unit ∧ pay = []) ∨ (∃ t x, vd.shape = .newtype t ∧ pay = [x] ∧ HasTy env t x)) {pl : Place} (hpl : Place.Short c pl) :
    costL E (encVariant L env pl d.attrs vd pay) + attrsCost E (tagAttrs d vd) ≤ budget c D (Val.sizeL pay) + (7 * c + 4) := by
  have hmem : vd ∈ d.variants := List.mem_of_getElem? hvd
  obtain ⟨-, -, htag, hvar⟩ := ht.enums p d hp
  obtain ⟨hw, hr, -⟩ := hvar vd hmem
  have hta : attrsCost E (tagAttrs d vd) ≤ 4 + 7 * c := by
    unfold tagAttrs
    split
    · rename_i tag htg
      have h1 := htag tag htg
      have h2 := hE.six (vd.attrs.rename.getD vd.ident)
      simp only [attrsCost, List.map_cons, List.map_nil, List.sum_cons, List.sum_nil]
      simp only [qname]
      omega
    · simp [attrsCost]
  have hz : costL E [] = 0 := rfl
  rcases hpay with ⟨hsh, rfl⟩ | ⟨t, x, hsh, rfl, hx⟩
  · rw [encVariant.eq_def, hsh]
    simp only
    split
    · rw [hz]; omega
    · rename_i hn
      have : tagAttrs d vd = [] := by
        unfold tagAttrs
        cases h : d.attrs.tag with
        | none => rfl
        | some t => rw [h] at hn; exact absurd rfl hn
      rw [this]
      have := hE.six (vd.written d.attrs)
      simp only [costL, cost, attrsCost, List.map_nil, List.sum_nil]
      omega
  · refine Nat.le_trans (Nat.add_le_add (?_ : _ ≤ budget c D (Val.sizeL [x])) hta) (by omega)
    have hok := hs.variants p d hp vd hmem t hsh
    have hge := budget_ge c D x.size
    simp only [Val.sizeL, Nat.add_zero] at hN ⊢
    rw [encVariant.eq_def, hsh]
    cases t with
    | simple s =>
      simp only
      have := cost_leaf hE ht hw hx
      omega
    | struct q =>
      simp only
      split
      · exact (hb x hN q hx).tree pl hpl
      · have h1 := (hb x hN q hx).all
        simp only [costL, cost, attrsCost, declsCost, List.map_nil, List.sum_nil] at h1 ⊢
        omega
    | opt t =>
      cases hx with
      | none => simp only [hz]; cases t <;> simp [hz]
      | some _ y hy =>
        simp only [Val.size] at hN hge ⊢
        have hsucc := budget_succ c D y.size
        cases t with
        | simple s =>
          have := cost_leaf hE ht hw hy
          have := budget_ge c D y.size
          simp only
          omega
        | struct q =>
          have h1 := (hb y (by omega) q hy).all
          simp only [costL, cost, attrsCost, declsCost, List.map_nil, List.sum_nil] at h1 ⊢
          omega
        | opt t => exact hok.elim
        | vec t => exact hok.elim
    | vec t =>
      cases hx with
      | vec _ ys hy =>
        simp only [Val.size] at hN hge ⊢
        have hsucc := budget_succ c D (Val.sizeL ys)
        have htt : (∃ s, t = .simple s) ∨ ∃ p, t = .struct p := by
          cases t with
          | simple s => exact .inl ⟨s, rfl⟩
          | struct q => exact .inr ⟨q, rfl⟩
          | opt t => exact hok.elim
          | vec t => exact hok.elim
        have := cost_variantItems hE ht hb hw htt ys (by omega) hy
        omega

theorem budgeted (hE : Escapes L env E D) (ht : Terse L env c) (hs : SerOk env) :
    ∀ (N : Nat) (x : Val), x.size < N → ∀ p, HasTy env (.struct p) x → Budgeted L env E c D p x := by
  intro N
  induction N with
  | zero => intro x h; omega
  | succ N ih =>
    intro x hx p hv
    have hb : BudgetedBelow L env E c D x.size := fun y hy q hq => ih y (by omega) q hq
    clear ih hx
    cases hv with
    | struct _ d fs hp hlen h =>
      obtain ⟨h1, h2, h3⟩ := ht.structs p d hp
      simp only [Val.size] at hb
      have hf := fields_cost (root := d.attrs) (self := .struct fs) hE ht hb d.fields (hs.fields p d hp) h3
        (fun f hf ha q hq => ⟨p, d, f, hp, hf, ha, hq⟩) fs (by omega) h
      have hsucc := budget_succ c D (Val.sizeL fs)
      unfold fieldCost at hf
      have hd := declsCost_firstDecls (d.attrs.decls ++ encInheritedDecls env d.fields fs)
      rw [declsCost_append] at hd
      have h2' : declsCost d.attrs.decls ≤ c := h2
      constructor
      · intro pl hpl
        rw [encTy.eq_def, hp]
        simp only
        refine Nat.le_trans (cost_wrap hpl h1 _ _ _) ?_
        rw [attrsCost_append]
        simp only [Val.size]
        omega
      · rw [encTy.eq_def, encTyAttrs.eq_def, encTyDecls.eq_def, hp]
        simp only
        rw [cost_wrap_inner, attrsCost_append, declsCost_append]
        simp only [Val.size]
        omega
    | unit _ d i vd hp hvd hsh =>
      obtain ⟨h1, h2, -⟩ := ht.enums p d hp
      have h2' : declsCost d.attrs.decls ≤ c := h2
      have hd := declsCost_firstDecls d.attrs.decls
      simp only [Val.size] at hb
      have hsucc := budget_succ c D (Val.sizeL [])
      have hc : ∀ pl, Place.Short c pl → _ := fun pl hpl => variant_cost hE ht hs hb hp hvd (pay := []) (by omega) (.inl ⟨hsh, rfl⟩) hpl
      constructor
      · intro pl hpl
        rw [encTy.eq_def, hp]
        simp only [hvd]
        refine Nat.le_trans (cost_wrap hpl h1 _ _ _) ?_
        rw [hsh]
        have := hc pl hpl
        simp only [Val.size]
        omega
      · rw [encTy.eq_def, encTyAttrs.eq_def, encTyDecls.eq_def, hp]
        simp only [hvd]
        rw [cost_wrap_inner, hsh]
        have := hc .inner inner_short
        simp only [Val.size]
        omega
    | newtype _ d i vd t x hp hvd hsh hx =>
      obtain ⟨h1, h2, -⟩ := ht.enums p d hp
      have h2' : declsCost d.attrs.decls ≤ c := h2
      have hd := declsCost_firstDecls d.attrs.decls
      simp only [Val.size] at hb
      have hsucc := budget_succ c D (Val.sizeL [x])
      have hc : ∀ pl, Place.Short c pl → _ := fun pl hpl => variant_cost hE ht hs hb hp hvd (pay := [x]) (by omega) (.inr ⟨t, x, hsh, rfl, hx⟩) hpl
      constructor
      · intro pl hpl
        rw [encTy.eq_def, hp]
        simp only [hvd]
        refine Nat.le_trans (cost_wrap hpl h1 _ _ _) ?_
        rw [hsh]
        have := hc pl hpl
        simp only [Val.size]
        omega
      · rw [encTy.eq_def, encTyAttrs.eq_def, encTyDecls.eq_def, hp]
        simp only [hvd]
        rw [cost_wrap_inner, hsh]
        have := hc .inner inner_short
        simp only [Val.size]
        omega
    | named _ d i vd fds fs hp hvd hsh hlen h =>
      obtain ⟨h1, h2, htag, hvar⟩ := ht.enums p d hp
      have hmem : vd ∈ d.variants := List.mem_of_getElem? hvd
      obtain ⟨-, hr, hnf⟩ := hvar vd hmem
      have h2' : declsCost d.attrs.decls ≤ c := h2
      have hd := declsCost_firstDecls d.attrs.decls
      simp only [Val.size] at hb
      have hsucc := budget_succ c D (Val.sizeL fs)
      have hc := named_cost (root := d.attrs) hE ht hb fds (hs.named p d hp vd hmem fds hsh) (hnf fds hsh) fs (by omega) h
      have hta : attrsCost E (tagAttrs d vd) ≤ 4 + 7 * c := by
        unfold tagAttrs
        split
        · rename_i tag htg
          have h1 := htag tag htg
          have h2 := hE.six (vd.attrs.rename.getD vd.ident)
          simp only [attrsCost, List.map_cons, List.map_nil, List.sum_cons, List.sum_nil]
          simp only [qname]
          omega
        · simp [attrsCost]
      constructor
      · intro pl hpl
        rw [encTy.eq_def, hp]
        simp only [hvd]
        refine Nat.le_trans (cost_wrap hpl h1 _ _ _) ?_
        rw [hsh]
        simp only [Val.size]
        omega
      · rw [encTy.eq_def, encTyAttrs.eq_def, encTyDecls.eq_def, hp]
        simp only [hvd]
        rw [cost_wrap_inner, hsh]
        simp only [Val.size]
        omega
    | prim _ d _ hp hd =>
      obtain ⟨h1, h2⟩ := ht.prims p d hp
      have h3 := h2 x hd
      have h4 := hE.six (d.toStr x)
      have h5 := budget_ge c D x.size
      have h6 := Nat.mul_le_mul_left (6 * c + 172) (size_pos x)
      have h7 : (12 * c + 172) * x.size = 6 * (c * x.size) + (6 * c + 172) * x.size := by
        rw [show 12 * c + 172 = 6 * c + (6 * c + 172) by omega, Nat.add_mul, Nat.mul_assoc]
      have h0 : attrsCost E [] = 0 := rfl
      have h0' : declsCost [] = 0 := rfl
      constructor
      · intro pl hpl
        rw [encTy.eq_def, hp]
        simp only
        refine Nat.le_trans (cost_wrap hpl h1 _ _ _) ?_
        simp only [costL, cost, h0, h0']
        omega
      · rw [encTy.eq_def, encTyAttrs.eq_def, encTyDecls.eq_def, hp]
        simp only
        rw [cost_wrap_inner]
        simp only [costL, cost, h0, h0']
        omega

/-- What the tree of a value costs. -/
theorem tree_cost (hE : Escapes L env E D) (ht : Terse L env c) (hs : SerOk env) {p : Path} {x : Val} (hv : HasTy env (.struct p) x)
    {pl : Place} (hpl : Place.Short c pl) : costL E (encTy L env pl p x) ≤ budget c D x.size :=
  (budgeted hE ht hs _ x (Nat.lt_succ_self _) p hv).tree pl hpl

theorem escapes_none (h : NoAttrOf env) {E : Str → Nat} (hsix : ∀ s, E s ≤ 6 * s.length) : Escapes L env E 0 :=
  ⟨hsix, fun p _ _ ha => absurd ha (h p)⟩

theorem escapes_zero : Escapes L env (fun _ => 0) 0 := ⟨fun _ => Nat.zero_le _, fun _ _ _ _ => Nat.zero_le _⟩

theorem nlCost_plain (n : Nat) : nlCost { decl := false } n = 0 := rfl

theorem escapes_specials (hL : L.emit = XmlText.emit) : Escapes L env specials 0 := by
  refine ⟨fun s => ?_, fun p x _ _ => ?_⟩
  · have := wt_le_length isSpecial_le s
    unfold specials; omega
  · rw [hL]
    have := wt_emit isSpecial_le (E := specials) (fun s => Nat.le_of_eq (specials_escAttr s)) specials_escText { decl := false } (encTy L env .inner p x)
    rw [nlCost_plain] at this
    simpa [specials] using this

/-- The length of a text when escaped, at most. -/
def escLen (s : Str) : Nat := s.length + 5 * specials s

theorem escLen_le (s : Str) : escLen s ≤ 6 * s.length := by
  have := wt_le_length isSpecial_le s
  unfold escLen specials; omega

theorem length_emit (cfg : EmitCfg) (ts : List WNode) :
    (emit cfg (WNode.eventsL ts)).length ≤ (if cfg.decl then 38 else 0) + costL escLen ts + (WNode.eventsL ts).length * nlCost cfg (WNode.eventsL ts).length := by
  have := wt_emit (w := fun _ => 1) (fun _ => Nat.le_refl 1) (E := escLen) (fun s => by rw [wt_one]; exact length_escAttr s)
    (fun s => by rw [wt_one]; exact length_escText s) cfg ts
  rwa [wt_one] at this

theorem escapes_length (hL : L.emit = XmlText.emit) (ht : Terse L env c) (hs : SerOk env) : Escapes L env escLen (5 * (12 * c + 172)) := by
  refine ⟨escLen_le, fun p x hv _ => ?_⟩
  have h1 := tree_cost (escapes_specials hL) ht hs hv inner_short
  have h2 := wt_emit isSpecial_le (E := specials) (fun s => Nat.le_of_eq (specials_escAttr s)) specials_escText { decl := false } (encTy L env .inner p x)
  have h3 := length_emit { decl := false } (encTy L env .inner p x)
  rw [nlCost_plain] at h2 h3
  rw [hL]
  unfold budget at h1
  have h4 : 5 * (12 * c + 172) * x.size = 5 * ((12 * c + 172) * x.size) := Nat.mul_assoc ..
  simp only [Bool.false_eq_true, if_false, Nat.mul_zero, Nat.add_zero, Nat.zero_add, Nat.zero_mul] at h1 h2 h3
  unfold escLen at h3 ⊢
  have h5 : wt isSpecial (emit { decl := false } (WNode.eventsL (encTy L env .inner p x))) = specials (emit { decl := false } (WNode.eventsL (encTy L env .inner p x))) := rfl
  rw [h4]
  omega

/-- The number of events is linear. -/
theorem events_length (ht : Terse L env c) (hs : SerOk env) {p : Path} {x : Val} (hv : HasTy env (.struct p) x) {pl : Place} (hpl : Place.Short c pl) :
    (WNode.eventsL (encTy L env pl p x)).length ≤ (12 * c + 172) * x.size := by
  have h1 := tree_cost (escapes_zero (L := L) (env := env)) ht hs hv hpl
  have h2 := eventsL_cost (fun _ => 0) (encTy L env pl p x)
  unfold budget at h1
  omega

end
end Yaserde
