import Verif.Model.Visitor
import Verif.Props.Macro
/-
Property C75: the generated visitors of different fields do not clash.
-/

set_option autoImplicit false
set_option maxRecDepth 100000

namespace Yaserde

/-! ### Words -/

/-- A word of a name in snake case. -/
def LowerWord (w : Str) : Prop := w ≠ [] ∧ ∀ c ∈ w, c.isLower = true

/-- `words`, joined by underscores. -/
def snake : List Str → Str
  | [] => []
  | [w] => w
  | w :: ws => w ++ c!"_" ++ snake ws

theorem lower_range {c : Char} (h : c.isLower = true) : ∃ k : Fin 26, c = Char.ofNat (97 + k) := by
  have hr : 97 ≤ c.toNat ∧ c.toNat ≤ 122 := by
    simp only [Char.isLower, Bool.and_eq_true, decide_eq_true_eq] at h
    exact ⟨UInt32.le_iff_toNat_le.mp h.1, UInt32.le_iff_toNat_le.mp h.2⟩
  refine ⟨⟨c.toNat - 97, by omega⟩, ?_⟩
  have e : 97 + (c.toNat - 97) = c.toNat := by omega
  dsimp only
  rw [e, Char.ofNat_toNat]

theorem lower_facts {c : Char} (h : c.isLower = true) : c.isAlphanum = true ∧ c.isUpper = false ∧ c.toLower = c := by
  obtain ⟨k, rfl⟩ := lower_range h
  clear h
  revert k
  decide

theorem humps_lower (w : Str) : ∀ (acc : Str) (mode : WordMode), mode ≠ .upper → LowerWord w → humps mode acc w = [acc.reverse ++ w] := by
  induction w with
  | nil => intro acc mode _ h; exact (h.1 rfl).elim
  | cons c w ih =>
    intro acc mode hm h
    cases w with
    | nil => rfl
    | cons c' w =>
      have hc := lower_facts (h.2 c (List.mem_cons_self ..))
      have hl := h.2 c (List.mem_cons_self ..)
      have hc' := lower_facts (h.2 c' (List.mem_cons_of_mem _ (List.mem_cons_self ..)))
      rw [humps]
      rw [if_neg (by rw [hc'.2.1]; simp), if_neg (by rw [hc.2.1]; simp), if_pos hl,
        ih (c :: acc) .lower (by simp) ⟨by simp, fun x hx => h.2 x (List.mem_cons_of_mem _ hx)⟩]
      simp

theorem alnumRuns_word (w rest : Str) (hw : ∀ c ∈ w, c.isLower = true) : ∀ acc, alnumRuns acc (w ++ rest) = alnumRuns (w.reverse ++ acc) rest := by
  induction w with
  | nil => intro acc; rfl
  | cons c w ih =>
    intro acc
    rw [List.cons_append, alnumRuns, if_pos (lower_facts (hw c (List.mem_cons_self ..))).1, ih (fun x hx => hw x (List.mem_cons_of_mem _ hx))]
    simp

theorem alnumRuns_snake (ws : List Str) (hne : ws ≠ []) (h : ∀ w ∈ ws, LowerWord w) : alnumRuns [] (snake ws) = ws := by
  induction ws with
  | nil => exact (hne rfl).elim
  | cons w ws ih =>
    have hw := h w (List.mem_cons_self ..)
    cases ws with
    | nil =>
      have := alnumRuns_word w [] hw.2 []
      rw [List.append_nil] at this
      show alnumRuns [] w = _
      rw [this]
      simp [alnumRuns]
    | cons w' ws =>
      show alnumRuns [] (w ++ c!"_" ++ snake (w' :: ws)) = _
      rw [List.append_assoc, alnumRuns_word w _ hw.2 []]
      show alnumRuns _ ('_' :: snake (w' :: ws)) = _
      rw [alnumRuns, if_neg (by decide), ih (by simp) (fun x hx => h x (List.mem_cons_of_mem _ hx))]
      simp

theorem upperCamel_snake (ws : List Str) (hne : ws ≠ []) (h : ∀ w ∈ ws, LowerWord w) : upperCamel (snake ws) = ws.flatMap capitalize := by
  unfold upperCamel
  rw [alnumRuns_snake ws hne h]
  congr 1
  clear hne
  induction ws with
  | nil => rfl
  | cons w ws ih =>
    rw [List.flatMap_cons, humps_lower w [] .boundary (by simp) (h w (List.mem_cons_self ..)), ih (fun x hx => h x (List.mem_cons_of_mem _ hx))]
    rfl

theorem toUpper_lower {c : Char} (h : c.isLower = true) : c.toUpper.isLower = false ∧ c.toUpper.isAlphanum = true ∧ c.toUpper.toLower = c := by
  obtain ⟨k, rfl⟩ := lower_range h
  clear h
  revert k
  decide

/-- Capitalised words can be told apart: each starts at an upper-case letter. -/
theorem capitalize_inj : ∀ (ws ws' : List Str), (∀ w ∈ ws, LowerWord w) → (∀ w ∈ ws', LowerWord w) →
    ws.flatMap capitalize = ws'.flatMap capitalize → ws = ws' := by
  have key : ∀ (a b : Str) (x y : Str), (∀ c ∈ a, c.isLower = true) → (∀ c ∈ b, c.isLower = true) →
      (∀ c, x.head? = some c → c.isLower = false) → (∀ c, y.head? = some c → c.isLower = false) → a ++ x = b ++ y → a = b ∧ x = y := by
    intro a
    induction a with
    | nil =>
      intro b x y _ hb hx hy e
      cases b with
      | nil => exact ⟨rfl, e⟩
      | cons c b =>
        exfalso
        have := hx c (by rw [List.nil_append] at e; rw [e]; rfl)
        rw [hb c (List.mem_cons_self ..)] at this
        cases this
    | cons c a ih =>
      intro b x y ha hb hx hy e
      cases b with
      | nil =>
        exfalso
        have := hy c (by rw [List.nil_append] at e; rw [← e]; rfl)
        rw [ha c (List.mem_cons_self ..)] at this
        cases this
      | cons c' b =>
        simp only [List.cons_append, List.cons.injEq] at e
        obtain ⟨rfl, e⟩ := e
        obtain ⟨rfl, rfl⟩ := ih b x y (fun z hz => ha z (List.mem_cons_of_mem _ hz)) (fun z hz => hb z (List.mem_cons_of_mem _ hz)) hx hy e
        exact ⟨rfl, rfl⟩
  have hd : ∀ (ws : List Str), (∀ w ∈ ws, LowerWord w) → ∀ c, (ws.flatMap capitalize).head? = some c → c.isLower = false := by
    intro ws h c hc
    cases ws with
    | nil => cases hc
    | cons w ws =>
      have hw := h w (List.mem_cons_self ..)
      cases w with
      | nil => exact (hw.1 rfl).elim
      | cons a w =>
        rw [List.flatMap_cons] at hc
        cases hc
        exact (toUpper_lower (hw.2 a (List.mem_cons_self ..))).1
  have lw : ∀ (w : Str), (∀ c ∈ w, c.isLower = true) → w.map Char.toLower = w := by
    intro w h
    induction w with
    | nil => rfl
    | cons c w ih =>
      rw [List.map_cons, (lower_facts (h c (List.mem_cons_self ..))).2.2, ih (fun x hx => h x (List.mem_cons_of_mem _ hx))]
  intro ws
  induction ws with
  | nil =>
    intro ws' _ h e
    cases ws' with
    | nil => rfl
    | cons w ws' =>
      have := h w (List.mem_cons_self ..)
      cases w with
      | nil => exact (this.1 rfl).elim
      | cons a w => rw [List.flatMap_cons] at e; cases e
  | cons w ws ih =>
    intro ws' h h' e
    cases ws' with
    | nil =>
      have := h w (List.mem_cons_self ..)
      cases w with
      | nil => exact (this.1 rfl).elim
      | cons a w => rw [List.flatMap_cons] at e; cases e
    | cons w' ws' =>
      have hw := h w (List.mem_cons_self ..)
      have hw' := h' w' (List.mem_cons_self ..)
      cases w with
      | nil => exact (hw.1 rfl).elim
      | cons a w =>
        cases w' with
        | nil => exact (hw'.1 rfl).elim
        | cons a' w' =>
          have t1 := fun x hx => hw.2 x (List.mem_cons_of_mem a hx)
          have t2 := fun x hx => hw'.2 x (List.mem_cons_of_mem a' hx)
          simp only [List.flatMap_cons, capitalize, List.cons_append, List.cons.injEq, lw w t1, lw w' t2] at e
          obtain ⟨e1, e2⟩ := e
          obtain ⟨rfl, e3⟩ := key w w' _ _ t1 t2 (hd ws fun x hx => h x (List.mem_cons_of_mem _ hx))
            (hd ws' fun x hx => h' x (List.mem_cons_of_mem _ hx)) e2
          have ea : a = a' := by
            have := (toUpper_lower (hw.2 a (List.mem_cons_self ..))).2.2
            rw [e1, (toUpper_lower (hw'.2 a' (List.mem_cons_self ..))).2.2] at this
            exact this.symm
          rw [ea, ih ws' (fun x hx => h x (List.mem_cons_of_mem _ hx)) (fun x hx => h' x (List.mem_cons_of_mem _ hx)) e3]

/-! ### Names of visitors -/

theorem humps_alnum : ∀ (mode : WordMode) (acc s : Str), (∀ c ∈ acc, c.isAlphanum = true) → (∀ c ∈ s, c.isAlphanum = true) →
    ∀ w ∈ humps mode acc s, ∀ c ∈ w, c.isAlphanum = true := by
  intro mode acc s
  induction s generalizing mode acc with
  | nil => intro _ _ w hw; cases hw
  | cons a s ih =>
    intro hacc hs w hw c hc
    have ha := hs a (List.mem_cons_self ..)
    have hs' : ∀ c ∈ s, c.isAlphanum = true := fun x hx => hs x (List.mem_cons_of_mem _ hx)
    cases s with
    | nil =>
      simp only [humps, List.mem_cons, List.not_mem_nil, or_false] at hw
      subst hw
      simp only [List.mem_append, List.mem_reverse, List.mem_cons, List.not_mem_nil, or_false] at hc
      rcases hc with hc | rfl
      · exact hacc c hc
      · exact ha
    | cons b s =>
      rw [humps] at hw
      generalize (if a.isLower = true then WordMode.lower else if a.isUpper = true then WordMode.upper else mode) = mode' at hw
      split at hw
      · rcases List.mem_cons.mp hw with rfl | hw
        · simp only [List.mem_append, List.mem_reverse, List.mem_cons, List.not_mem_nil, or_false] at hc
          rcases hc with hc | rfl
          · exact hacc c hc
          · exact ha
        · exact ih _ _ (fun x hx => by cases hx) hs' w hw c hc
      · split at hw
        · rcases List.mem_cons.mp hw with rfl | hw
          · exact hacc c (List.mem_reverse.mp hc)
          · exact ih _ _ (fun x hx => by simp only [List.mem_cons, List.not_mem_nil, or_false] at hx; exact hx ▸ ha) hs' w hw c hc
        · exact ih _ _ (fun x hx => by
            rcases List.mem_cons.mp hx with rfl | hx
            · exact ha
            · exact hacc x hx) hs' w hw c hc

theorem alnumRuns_alnum : ∀ (s acc : Str), (∀ c ∈ acc, c.isAlphanum = true) → ∀ w ∈ alnumRuns acc s, ∀ c ∈ w, c.isAlphanum = true := by
  intro s
  induction s with
  | nil =>
    intro acc h w hw c hc
    simp only [alnumRuns, List.mem_cons, List.not_mem_nil, or_false] at hw
    subst hw
    exact h c (List.mem_reverse.mp hc)
  | cons a s ih =>
    intro acc h w hw c hc
    rw [alnumRuns] at hw
    split at hw
    · rename_i ha
      exact ih _ (fun x hx => by
        rcases List.mem_cons.mp hx with rfl | hx
        · exact ha
        · exact h x hx) w hw c hc
    · rcases List.mem_cons.mp hw with rfl | hw
      · exact h c (List.mem_reverse.mp hc)
      · exact ih _ (fun x hx => by cases hx) w hw c hc

theorem alnum_case {c : Char} (h : c.isAlphanum = true) : c.toUpper ≠ '_' ∧ c.toLower ≠ '_' := by
  have hr : c.toNat < 128 := by
    simp only [Char.isAlphanum, Char.isAlpha, Char.isUpper, Char.isLower, Char.isDigit, Bool.or_eq_true, decide_eq_true_eq,
      Bool.and_eq_true] at h
    have e : ∀ x : UInt32, x ≤ 122 → x.toNat < 128 := fun x hx => by
      have := UInt32.le_iff_toNat_le.mp hx
      change _ ≤ 122 at this
      omega
    have e' : ∀ x y : UInt32, x ≤ y → y ≤ 122 → x ≤ 122 := fun x y h1 h2 => UInt32.le_trans h1 h2
    rcases h with (h | h) | h
    · exact e _ (e' _ _ h.2 (by decide))
    · exact e _ h.2
    · exact e _ (e' _ _ h.2 (by decide))
  have hall : ∀ k : Fin 128, (Char.ofNat k).isAlphanum = true → (Char.ofNat k).toUpper ≠ '_' ∧ (Char.ofNat k).toLower ≠ '_' := by decide
  have := hall ⟨c.toNat, hr⟩
  dsimp only at this
  rw [Char.ofNat_toNat] at this
  exact this h

theorem upperCamel_noUnderscore (s : Str) : '_' ∉ upperCamel s := by
  intro h
  unfold upperCamel at h
  obtain ⟨w, hw, hc⟩ := List.mem_flatMap.mp h
  obtain ⟨r, hr, hw⟩ := List.mem_flatMap.mp hw
  have h1 := humps_alnum .boundary [] r (fun c hc => by cases hc) (alnumRuns_alnum s [] (fun c hc => by cases hc) r hr) w hw
  cases w with
  | nil => cases hc
  | cons a w =>
    simp only [capitalize, List.mem_cons, List.mem_map] at hc
    rcases hc with hc | ⟨x, hx, hc⟩
    · exact (alnum_case (h1 a (List.mem_cons_self ..))).1 hc.symm
    · exact (alnum_case (h1 x (List.mem_cons_of_mem _ hx))).2 hc

theorem split_underscore : ∀ {a b x y : Str}, '_' ∉ a → '_' ∉ b → a ++ '_' :: x = b ++ '_' :: y → a = b ∧ x = y := by
  intro a
  induction a with
  | nil =>
    intro b x y _ hb e
    cases b with
    | nil => exact ⟨rfl, by simpa using e⟩
    | cons c b =>
      simp only [List.nil_append, List.cons_append, List.cons.injEq] at e
      exact (hb (e.1 ▸ List.mem_cons_self ..)).elim
  | cons c a ih =>
    intro b x y ha hb e
    cases b with
    | nil =>
      simp only [List.nil_append, List.cons_append, List.cons.injEq] at e
      exact (ha (e.1 ▸ List.mem_cons_self ..)).elim
    | cons c' b =>
      simp only [List.cons_append, List.cons.injEq] at e
      obtain ⟨rfl, e⟩ := e
      obtain ⟨rfl, rfl⟩ := ih (fun h => ha (List.mem_cons_of_mem _ h)) (fun h => hb (List.mem_cons_of_mem _ h)) e
      exact ⟨rfl, rfl⟩

/-- `.` is taken for `_`. -/
def dots (s : Str) : Str := s.map fun c => if c = '.' then '_' else c

/-- **C75, exactly**, for fields without prefix: visitors clash if both fields are elements or both are attributes, the XML names are the
same in camel case, and so are the types if they are user types. -/
theorem C75_clash_iff (f g : FieldDef) (s t : Str) (hf : f.attrs.pfx = none) (hg : g.attrs.pfx = none)
    (hs : f.attrs.isAttr = false → s = []) (ht : g.attrs.isAttr = false → t = []) :
    f.visitorIdent s = g.visitorIdent t ↔
      f.attrs.isAttr = g.attrs.isAttr ∧ upperCamel (dots (f.attrs.rename.getD f.ident)) = upperCamel (dots (g.attrs.rename.getD g.ident)) ∧ s = t := by
  have n1 := upperCamel_noUnderscore (dots (f.attrs.rename.getD f.ident))
  have n2 := upperCamel_noUnderscore (dots (g.attrs.rename.getD g.ident))
  have e1 : f.visitorIdent s = c!"__Visitor_" ++ ((if f.attrs.isAttr then c!"Attribute_" else []) ++
      (upperCamel (dots (f.attrs.rename.getD f.ident)) ++ '_' :: s)) := by
    unfold FieldDef.visitorIdent
    rw [hf]
    simp [dots, FieldDef.label]
  have e2 : g.visitorIdent t = c!"__Visitor_" ++ ((if g.attrs.isAttr then c!"Attribute_" else []) ++
      (upperCamel (dots (g.attrs.rename.getD g.ident)) ++ '_' :: t)) := by
    unfold FieldDef.visitorIdent
    rw [hg]
    simp [dots, FieldDef.label]
  rw [e1, e2]
  constructor
  · intro h
    have h := List.append_cancel_left h
    cases ha : f.attrs.isAttr <;> cases hb : g.attrs.isAttr <;> rw [ha, hb] at h <;>
      simp only [Bool.false_eq_true, if_true, if_false, List.nil_append] at h
    · exact ⟨rfl, split_underscore n1 n2 h⟩
    · exfalso
      obtain ⟨-, h'⟩ := split_underscore (b := c!"Attribute") n1 (by decide) h
      rw [hs ha] at h'
      revert h'
      cases upperCamel (dots (g.attrs.rename.getD g.ident)) <;> intro h' <;> cases h'
    · exfalso
      obtain ⟨-, h'⟩ := split_underscore (a := c!"Attribute") (by decide) n2 h
      rw [ht hb] at h'
      revert h'
      cases upperCamel (dots (f.attrs.rename.getD f.ident)) <;> intro h' <;> cases h'
    · exact ⟨rfl, split_underscore n1 n2 (List.append_cancel_left h)⟩
  · rintro ⟨h1, h2, h3⟩
    rw [h1, h2, h3]

/-- **C75**, the part that holds: names in snake case (words of lower-case letters joined by underscores), no prefixes.  If no two
elements and no two attributes have the same name, all visitors are different.  (Missing: digits, upper-case letters, prefixes; there
it is false.) -/
theorem C75_snake_partial (d : StructDef) (hp : ∀ f ∈ d.fields, f.attrs.pfx = none)
    (hn : ∀ f ∈ d.fields, ∃ ws, ws ≠ [] ∧ (∀ w ∈ ws, LowerWord w) ∧ f.attrs.rename.getD f.ident = snake ws)
    (hd : (d.fields.map fun f => (f.attrs.isAttr, f.attrs.rename.getD f.ident)).Nodup) : d.visitors.Nodup := by
  have hdots : ∀ ws, (∀ w ∈ ws, LowerWord w) → dots (snake ws) = snake ws := by
    intro ws
    induction ws with
    | nil => intro _; rfl
    | cons w ws ih =>
      intro h
      have hw : dots w = w := by
        have := (h w (List.mem_cons_self ..)).2
        clear h ih
        induction w with
        | nil => rfl
        | cons c w ih =>
          have hc := this c (List.mem_cons_self ..)
          show (if c = '.' then '_' else c) :: dots w = _
          rw [ih (fun x hx => this x (List.mem_cons_of_mem _ hx)), if_neg]
          rintro rfl
          cases hc
      cases ws with
      | nil => exact hw
      | cons w' ws =>
        show dots (w ++ c!"_" ++ snake (w' :: ws)) = _
        have : dots (w ++ c!"_" ++ snake (w' :: ws)) = dots w ++ c!"_" ++ dots (snake (w' :: ws)) := by simp [dots]
        rw [this, hw, ih (fun x hx => h x (List.mem_cons_of_mem _ hx))]
        rfl
  have hid : ∀ f ∈ d.fields, ∀ x, f.visitor = some x → ∃ s, (f.attrs.isAttr = false → s = []) ∧ x = f.visitorIdent s := by
    intro f hf x hx
    unfold FieldDef.visitor at hx
    split at hx
    · exact ⟨[], fun _ => rfl, by injection hx with hx; exact hx.symm⟩
    · rename_i q _
      split at hx
      · rename_i h
        exact ⟨structId q, (fun h' => by rw [h] at h'; cases h'), by injection hx with hx; exact hx.symm⟩
      · cases hx
    · cases hx
  unfold StructDef.visitors
  generalize d.fields = fs at hp hn hd hid
  induction fs with
  | nil => exact List.nodup_nil
  | cons f fs ih =>
    have ih := ih (fun g hg => hp g (List.mem_cons_of_mem _ hg)) (fun g hg => hn g (List.mem_cons_of_mem _ hg))
      (List.nodup_cons.mp hd).2 (fun g hg => hid g (List.mem_cons_of_mem _ hg))
    cases hv : f.visitor with
    | none => rw [List.filterMap_cons_none hv]; exact ih
    | some x =>
      rw [List.filterMap_cons_some hv]
      refine List.nodup_cons.mpr ⟨fun hx => ?_, ih⟩
      obtain ⟨g, hg, hgx⟩ := List.mem_filterMap.mp hx
      obtain ⟨s, hs, e1⟩ := hid f (List.mem_cons_self ..) x hv
      obtain ⟨t, ht, e2⟩ := hid g (List.mem_cons_of_mem _ hg) x hgx
      obtain ⟨h1, h2, -⟩ := (C75_clash_iff f g s t (hp f (List.mem_cons_self ..)) (hp g (List.mem_cons_of_mem _ hg)) hs ht).mp (e1.symm.trans e2)
      obtain ⟨ws, n1, l1, w1⟩ := hn f (List.mem_cons_self ..)
      obtain ⟨ws', n2, l2, w2⟩ := hn g (List.mem_cons_of_mem _ hg)
      rw [w1, w2, hdots ws l1, hdots ws' l2, upperCamel_snake ws n1 l1, upperCamel_snake ws' n2 l2] at h2
      have := capitalize_inj ws ws' l1 l2 h2
      subst this
      refine (List.nodup_cons.mp hd).1 (List.mem_map.mpr ⟨g, hg, ?_⟩)
      dsimp only
      rw [w1, w2, h1]

/-! ### Camel case -/

/-- The first letter in upper case. -/
def title : Str → Str
  | [] => []
  | c :: cs => c.toUpper :: cs

/-- `words` in camel case: `pageCount`. -/
def camel : List Str → Str
  | [] => []
  | w :: ws => w ++ ws.flatMap title

/-- All words but the last one have two letters at least. -/
def Long : List Str → Prop
  | [] => True
  | [_] => True
  | w :: ws => 2 ≤ w.length ∧ Long ws

theorem upper_facts {c : Char} (h : c.isLower = true) : c.toUpper.isUpper = true ∧ c.toUpper.isLower = false ∧ c.toUpper.toUpper = c.toUpper ∧
    c.toUpper.isAlphanum = true := by
  obtain ⟨k, rfl⟩ := lower_range h
  clear h
  revert k
  decide

theorem humps_word (w rest : Str) (hrest : ∀ c, rest.head? = some c → c.isUpper = true) : ∀ (acc : Str) (mode : WordMode), LowerWord w →
    humps mode acc (w ++ rest) = (acc.reverse ++ w) :: humps .boundary [] rest := by
  induction w with
  | nil => intro acc mode h; exact (h.1 rfl).elim
  | cons c w ih =>
    intro acc mode h
    have hl := h.2 c (List.mem_cons_self ..)
    have hc := lower_facts hl
    cases w with
    | nil =>
      cases rest with
      | nil => rfl
      | cons u rest =>
        show humps mode acc (c :: u :: rest) = _
        rw [humps, if_pos hl, if_pos ⟨rfl, hrest u rfl⟩]
    | cons c' w =>
      have hc' := lower_facts (h.2 c' (List.mem_cons_of_mem _ (List.mem_cons_self ..)))
      show humps mode acc (c :: c' :: (w ++ rest)) = _
      rw [humps, if_neg (by rw [hc'.2.1]; simp), if_neg (by rw [hc.2.1]; simp), if_pos hl]
      have := ih (c :: acc) .lower ⟨by simp, fun x hx => h.2 x (List.mem_cons_of_mem _ hx)⟩
      rw [List.cons_append] at this
      rw [this]
      simp

theorem title_head {ws : List Str} (h : ∀ w ∈ ws, LowerWord w) : ∀ c, (ws.flatMap title).head? = some c → c.isUpper = true := by
  intro c hc
  cases ws with
  | nil => cases hc
  | cons w ws =>
    have hw := h w (List.mem_cons_self ..)
    cases w with
    | nil => exact (hw.1 rfl).elim
    | cons a w =>
      cases hc
      exact (upper_facts (hw.2 a (List.mem_cons_self ..))).1

theorem humps_titles (ws : List Str) (h : ∀ w ∈ ws, LowerWord w) (hlong : Long ws) : humps .boundary [] (ws.flatMap title) = ws.map title := by
  induction ws with
  | nil => rfl
  | cons w ws ih =>
    have hw := h w (List.mem_cons_self ..)
    have hws : ∀ w ∈ ws, LowerWord w := fun x hx => h x (List.mem_cons_of_mem _ hx)
    have hl : Long ws := by
      cases ws with
      | nil => trivial
      | cons w' ws => exact hlong.2
    cases w with
    | nil => exact (hw.1 rfl).elim
    | cons a w =>
      have ha := upper_facts (hw.2 a (List.mem_cons_self ..))
      rw [List.flatMap_cons, List.map_cons]
      cases w with
      | nil =>
        cases ws with
        | nil => rfl
        | cons w' ws =>
          have := hlong.1
          simp at this
      | cons b w =>
        have hb := lower_facts (hw.2 b (List.mem_cons_of_mem _ (List.mem_cons_self ..)))
        show humps .boundary [] (a.toUpper :: b :: (w ++ ws.flatMap title)) = _
        rw [humps, if_neg (by rw [hb.2.1]; simp), if_neg (by simp), if_neg (by rw [ha.2.1]; simp), if_pos ha.1]
        have := humps_word (b :: w) (ws.flatMap title) (title_head hws) [a.toUpper] .upper
          ⟨by simp, fun x hx => hw.2 x (List.mem_cons_of_mem _ hx)⟩
        rw [List.cons_append] at this
        rw [this, ih hws hl]
        rfl

theorem alnumRuns_one (s : Str) (h : ∀ c ∈ s, c.isAlphanum = true) : ∀ acc, alnumRuns acc s = [acc.reverse ++ s] := by
  induction s with
  | nil => intro acc; simp [alnumRuns]
  | cons c s ih =>
    intro acc
    rw [alnumRuns, if_pos (h c (List.mem_cons_self ..)), ih (fun x hx => h x (List.mem_cons_of_mem _ hx))]
    simp

theorem map_toLower {w : Str} (h : ∀ c ∈ w, c.isLower = true) : w.map Char.toLower = w := by
  induction w with
  | nil => rfl
  | cons c w ih =>
    rw [List.map_cons, (lower_facts (h c (List.mem_cons_self ..))).2.2, ih (fun x hx => h x (List.mem_cons_of_mem _ hx))]

theorem capitalize_title {w : Str} (h : LowerWord w) : capitalize (title w) = capitalize w := by
  cases w with
  | nil => rfl
  | cons c w =>
    show c.toUpper.toUpper :: _ = c.toUpper :: _
    rw [(upper_facts (h.2 c (List.mem_cons_self ..))).2.2.1]

theorem upperCamel_camel (w : Str) (ws : List Str) (h : ∀ x ∈ w :: ws, LowerWord x) (hlong : Long ws) :
    upperCamel (camel (w :: ws)) = (w :: ws).flatMap capitalize := by
  have hws : ∀ w ∈ ws, LowerWord w := fun x hx => h x (List.mem_cons_of_mem _ hx)
  have hw := h w (List.mem_cons_self ..)
  have ht : ∀ (ws : List Str), (∀ w ∈ ws, LowerWord w) → ∀ c ∈ ws.flatMap title, c.isAlphanum = true := by
    intro ws h c hc
    obtain ⟨x, hx, hc⟩ := List.mem_flatMap.1 hc
    have := h x hx
    cases x with
    | nil => cases hc
    | cons a x =>
      rcases List.mem_cons.1 hc with rfl | hc
      · exact (upper_facts (this.2 a (List.mem_cons_self ..))).2.2.2
      · exact (lower_facts (this.2 c (List.mem_cons_of_mem _ hc))).1
  have hal : ∀ c ∈ camel (w :: ws), c.isAlphanum = true := by
    intro c hc
    rcases List.mem_append.1 hc with hc | hc
    · exact (lower_facts (hw.2 c hc)).1
    · exact ht ws hws c hc
  unfold upperCamel
  rw [alnumRuns_one _ hal []]
  show ((humps .boundary [] (w ++ ws.flatMap title)) ++ []).flatMap capitalize = _
  rw [List.append_nil, humps_word w _ (title_head hws) [] .boundary hw, humps_titles ws hws hlong, List.flatMap_cons, List.flatMap_cons]
  congr 1
  clear h hal hlong
  induction ws with
  | nil => rfl
  | cons x ws ih =>
    rw [List.map_cons, List.flatMap_cons, List.flatMap_cons, capitalize_title (hws x (List.mem_cons_self ..)),
      ih (fun y hy => hws y (List.mem_cons_of_mem _ hy))]

theorem dots_id {s : Str} (h : '.' ∉ s) : dots s = s := by
  unfold dots
  induction s with
  | nil => rfl
  | cons c s ih =>
    rw [List.map_cons, ih (fun hm => h (List.mem_cons_of_mem _ hm)), if_neg (fun e : c = '.' => h (e ▸ List.mem_cons_self ..))]

theorem dot_snake {ws : List Str} (h : ∀ w ∈ ws, LowerWord w) : '.' ∉ snake ws := by
  have hl : ∀ {w : Str}, LowerWord w → '.' ∉ w := fun hw hm => by have := hw.2 _ hm; revert this; decide
  induction ws with
  | nil => exact List.not_mem_nil
  | cons w ws ih =>
    cases ws with
    | nil => exact hl (h w (List.mem_cons_self ..))
    | cons w' ws =>
      have := ih fun x hx => h x (List.mem_cons_of_mem _ hx)
      show '.' ∉ w ++ c!"_" ++ snake (w' :: ws)
      simp only [List.mem_append, not_or]
      exact ⟨⟨hl (h w (List.mem_cons_self ..)), by decide⟩, this⟩

theorem dot_camel {ws : List Str} (h : ∀ w ∈ ws, LowerWord w) : '.' ∉ camel ws := by
  have hl : ∀ {w : Str}, LowerWord w → '.' ∉ w := fun hw hm => by have := hw.2 _ hm; revert this; decide
  cases ws with
  | nil => exact List.not_mem_nil
  | cons w ws =>
    show '.' ∉ w ++ ws.flatMap title
    rw [List.mem_append, not_or]
    refine ⟨hl (h w (List.mem_cons_self ..)), fun hm => ?_⟩
    obtain ⟨x, hx, hc⟩ := List.mem_flatMap.1 hm
    have hx := h x (List.mem_cons_of_mem _ hx)
    cases x with
    | nil => cases hc
    | cons a x =>
      rcases List.mem_cons.1 hc with e | hc
      · have := (upper_facts (hx.2 a (List.mem_cons_self ..))).1
        rw [← e] at this
        revert this
        decide
      · exact hl hx (List.mem_cons_of_mem _ hc)

/-- **C75 fails for any name in camel case** beside the same name in snake case — `pageCount` and `page_count`, different names in
XML —: two such elements, or two such attributes, without prefix and of scalar types have the same visitor, and rustc rejects the
program. -/
theorem C75_camel (d : StructDef) (w : Str) (ws : List Str) (h : ∀ x ∈ w :: ws, LowerWord x) (hlong : Long ws) (f g : FieldDef)
    (i j : Nat) (hij : i < j) (hi : d.fields[i]? = some f) (hj : d.fields[j]? = some g) (hf : f.attrs.pfx = none) (hg : g.attrs.pfx = none)
    (hfs : ∃ t, f.ty.core = .simple t) (hgs : ∃ t, g.ty.core = .simple t) (ha : f.attrs.isAttr = g.attrs.isAttr)
    (hfl : f.attrs.rename.getD f.ident = camel (w :: ws)) (hgl : g.attrs.rename.getD g.ident = snake (w :: ws)) :
    ¬ d.visitors.Nodup := by
  have hid : f.visitorIdent [] = g.visitorIdent [] := by
    rw [C75_clash_iff f g [] [] hf hg (fun _ => rfl) (fun _ => rfl)]
    refine ⟨ha, ?_, rfl⟩
    rw [hfl, hgl, dots_id (dot_camel h), dots_id (dot_snake h), upperCamel_camel w ws h hlong, upperCamel_snake _ (by simp) h]
  obtain ⟨t, ht⟩ := hfs
  obtain ⟨t', ht'⟩ := hgs
  have hv : f.visitor = some (f.visitorIdent []) := by unfold FieldDef.visitor; rw [ht]
  have hv' : g.visitor = some (f.visitorIdent []) := by unfold FieldDef.visitor; rw [ht', hid]
  intro hn
  unfold StructDef.visitors at hn
  obtain ⟨hi', hif⟩ := List.getElem?_eq_some_iff.1 hi
  obtain ⟨hj', hjg⟩ := List.getElem?_eq_some_iff.1 hj
  have hsplit : d.fields = d.fields.take (i + 1) ++ d.fields.drop (i + 1) := (List.take_append_drop _ _).symm
  rw [hsplit, List.filterMap_append] at hn
  refine (List.nodup_append.1 hn).2.2 (f.visitorIdent []) ?_ (f.visitorIdent []) ?_ rfl
  · refine List.mem_filterMap.2 ⟨f, ?_, hv⟩
    rw [← hif]
    exact List.mem_take_iff_getElem.2 ⟨i, by omega, rfl⟩
  · refine List.mem_filterMap.2 ⟨g, ?_, hv'⟩
    rw [← hjg]
    refine List.mem_drop_iff_getElem.2 ⟨j - (i + 1), by omega, ?_⟩
    congr 1
    omega

/-! ### Witnesses -/

namespace VisitorSample
open MacroSample

/-- `struct Point { x1: u8, x_1: u8 }` -/
def point : DeriveInput := ⟨c!"Point", [], .struct (.named [⟨some c!"x1", ty c!"u8", []⟩, ⟨some c!"x_1", ty c!"u8", []⟩])⟩
def pointDef : StructDef := ⟨c!"Point", {}, [{ ident := c!"x1", ty := .simple (.int .u8) }, { ident := c!"x_1", ty := .simple (.int .u8) }]⟩

/-- `struct Doc { #[yaserde(rename = "ID")] upper: String, id: String }`; XML names are case sensitive. -/
def docDef : StructDef := ⟨c!"Doc", {}, [{ ident := c!"upper", ty := .simple .string, attrs := { rename := some c!"ID" } }, { ident := c!"id", ty := .simple .string }]⟩

/-- An attribute and an element whose prefix is `attribute`. -/
def mixDef : StructDef :=
  ⟨c!"Mix", { namespaces := [(c!"attribute", c!"urn:a")] },
    [{ ident := c!"a", ty := .simple .string, attrs := { isAttr := true } },
     { ident := c!"b", ty := .simple .string, attrs := { rename := some c!"a", pfx := some c!"attribute" } }]⟩

/-- Names in snake case, an attribute and an element of the same name. -/
def goodDef : StructDef :=
  ⟨c!"Good", {}, [{ ident := c!"page_count", ty := .simple (.int .u8) }, { ident := c!"page", ty := .opt (.simple .string) },
    { ident := c!"p", ty := .struct [c!"Color"], attrs := { isAttr := true, rename := some c!"page" } }]⟩

end VisitorSample

open VisitorSample MacroSample in
/-- **C75 is false**: the macro accepts the fields `x1` and `x_1`, elements `ID` and `id`, or an attribute and an element with the prefix
`attribute`, and defines the same visitor twice. -/
theorem C75_false : deAccepts point = .ok () ∧ point.toDef fns = .ok (.struct pointDef) ∧
    pointDef.visitors = [c!"__Visitor_X1_", c!"__Visitor_X1_"] ∧
    docDef.visitors = [c!"__Visitor_Id_", c!"__Visitor_Id_"] ∧
    mixDef.visitors = [c!"__Visitor_Attribute_A_", c!"__Visitor_Attribute_A_"] := ⟨rfl, rfl, by decide, by decide, by decide⟩

open VisitorSample in
example : goodDef.visitors.Nodup := by
  refine C75_snake_partial goodDef (by simp [goodDef]) ?_ (by decide)
  intro f hf
  simp only [goodDef, List.mem_cons, List.not_mem_nil, or_false] at hf
  have w : ∀ s : Str, (s ≠ [] ∧ s.all Char.isLower = true) → LowerWord s := fun s h => ⟨h.1, by simpa using h.2⟩
  rcases hf with rfl | rfl | rfl
  · refine ⟨[c!"page", c!"count"], by simp, ?_, rfl⟩
    intro x hx
    simp only [List.mem_cons, List.not_mem_nil, or_false] at hx
    rcases hx with rfl | rfl <;> exact w _ (by decide)
  · refine ⟨[c!"page"], by simp, ?_, rfl⟩
    intro x hx
    simp only [List.mem_cons, List.not_mem_nil, or_false] at hx
    exact hx ▸ w _ (by decide)
  · refine ⟨[c!"page"], by simp, ?_, rfl⟩
    intro x hx
    simp only [List.mem_cons, List.not_mem_nil, or_false] at hx
    exact hx ▸ w _ (by decide)

open VisitorSample in
/-- The two visitors called `Page` of the example. -/
example : goodDef.visitors = [c!"__Visitor_PageCount_", c!"__Visitor_Page_", c!"__Visitor_Attribute_Page_Color"] := by decide

/-- `struct Page { pageCount: u8, page_count: Option<String> }` -/
def VisitorSample.pageDef : StructDef :=
  ⟨c!"Page", {}, [{ ident := c!"pageCount", ty := .simple (.int .u8) }, { ident := c!"page_count", ty := .opt (.simple .string) }]⟩

example : ¬ VisitorSample.pageDef.visitors.Nodup := by
  refine C75_camel VisitorSample.pageDef c!"page" [c!"count"] ?_ trivial _ _ 0 1 (by decide) rfl rfl rfl rfl ⟨_, rfl⟩ ⟨_, rfl⟩ rfl rfl rfl
  intro x hx
  simp only [List.mem_cons, List.not_mem_nil, or_false] at hx
  rcases hx with rfl | rfl <;> exact ⟨by decide, by decide⟩

/-! Examples from the documentation and tests of `heck`. -/

example : upperCamel c!"MixedUP_CamelCase, with some Spaces" = c!"MixedUpCamelCaseWithSomeSpaces" ∧
    upperCamel c!"kebab-case" = c!"KebabCase" ∧ upperCamel c!"SHOUTY_SNAKE_CASE" = c!"ShoutySnakeCase" ∧
    upperCamel c!"XMLHttpRequest" = c!"XmlHttpRequest" ∧ upperCamel c!"FIELD_NAME11" = c!"FieldName11" ∧
    upperCamel c!"99BOTTLES" = c!"99bottles" ∧ upperCamel c!"abc123DEf456" = c!"Abc123DEf456" ∧
    upperCamel c!"ABC123dEEf456FOO" = c!"Abc123dEEf456Foo" := by decide

end Yaserde
