import Verif.Proofs.XmlLaw
import Verif.Spec.Encode
/-
How long the text is that is written for a tree.
-/

set_option autoImplicit false

namespace Yaserde
namespace XmlText

/-- What the characters of a text weigh together. -/
def wt (w : Char → Nat) (s : Str) : Nat := (s.map w).sum

theorem wt_nil (w : Char → Nat) : wt w [] = 0 := rfl

theorem wt_cons (w : Char → Nat) (c : Char) (s : Str) : wt w (c :: s) = w c + wt w s := by simp [wt]

theorem wt_append (w : Char → Nat) (s t : Str) : wt w (s ++ t) = wt w s + wt w t := by simp [wt]

theorem wt_le_length {w : Char → Nat} (hw : ∀ c, w c ≤ 1) (s : Str) : wt w s ≤ s.length := by
  induction s with
  | nil => simp [wt]
  | cons c s ih => rw [wt_cons, List.length_cons]; have := hw c; omega

theorem wt_one (s : Str) : wt (fun _ => 1) s = s.length := by
  induction s with
  | nil => rfl
  | cons c s ih => rw [wt_cons, ih, List.length_cons]; omega

/-- A character that is not written as it is in an attribute. -/
def isSpecial (c : Char) : Nat := if escAttrChar c = [c] then 0 else 1

/-- The characters of a text that are not written as they are in an attribute. -/
def specials (s : Str) : Nat := wt isSpecial s

theorem isSpecial_le (c : Char) : isSpecial c ≤ 1 := by unfold isSpecial; split <;> omega

/-- Escaping a second time finds as many characters to escape as the first time. -/
theorem specials_escAttr (s : Str) : specials (escAttr s) = specials s := by
  induction s with
  | nil => rfl
  | cons c s ih =>
    have : specials (escAttrChar c) = isSpecial c := by
      unfold escAttrChar
      repeat' split
      all_goals first | (subst_vars; decide) | simp [specials, wt]
    unfold escAttr at ih ⊢
    rw [List.flatMap_cons, specials, specials, wt_append, wt_cons]
    exact congr (congrArg _ this) ih

theorem specials_escText (s : Str) : specials (escText s) ≤ specials s := by
  induction s with
  | nil => exact Nat.le_refl _
  | cons c s ih =>
    have : specials (escChar c) ≤ isSpecial c := by
      unfold escChar
      repeat' split
      all_goals first | (subst_vars; decide) | simp [specials, wt]
    unfold escText at ih ⊢
    rw [List.flatMap_cons, specials, specials, wt_append, wt_cons]
    exact Nat.add_le_add this ih

theorem length_escAttr (s : Str) : (escAttr s).length ≤ s.length + 5 * specials s := by
  induction s with
  | nil => simp [escAttr]
  | cons c s ih =>
    have : (escAttrChar c).length ≤ 1 + 5 * isSpecial c := by
      unfold escAttrChar
      repeat' split
      all_goals first | (subst_vars; decide) | simp
    unfold escAttr at ih ⊢
    rw [List.flatMap_cons, specials, wt_cons, List.length_append, List.length_cons]
    unfold specials at ih
    omega

theorem length_escText (s : Str) : (escText s).length ≤ s.length + 5 * specials s := by
  induction s with
  | nil => simp [escText]
  | cons c s ih =>
    have : (escChar c).length ≤ 1 + 5 * isSpecial c := by
      unfold escChar
      repeat' split
      all_goals first | (subst_vars; decide) | simp
    unfold escText at ih ⊢
    rw [List.flatMap_cons, specials, wt_cons, List.length_append, List.length_cons]
    unfold specials at ih
    omega

/-- Each special character costs at least three more. -/
theorem escAttr_length_ge (s : Str) : s.length + 3 * specials s ≤ (escAttr s).length := by
  induction s with
  | nil => simp [specials, wt]
  | cons c s ih =>
    have : 1 + 3 * isSpecial c ≤ (escAttrChar c).length := by
      unfold isSpecial
      split
      · rename_i h; rw [h]; simp
      · rename_i h
        unfold escAttrChar at h ⊢
        repeat' split
        all_goals first | (simp; done) | (simp_all; done) | skip
    unfold escAttr at ih ⊢
    rw [List.flatMap_cons, specials, wt_cons, List.length_append, List.length_cons]
    unfold specials at ih
    omega

/-! ### Trees -/

/-- The attributes of a start tag; `E` is the cost of a text when escaped. -/
def attrsCost (E : Str → Nat) (as : List Attr) : Nat := (as.map fun a => 4 + (qname a.name).length + E a.value).sum

/-- The declarations of a start tag. -/
def declsCost (m : NsMap) : Nat := (m.map fun d => 10 + d.1.length + d.2.length).sum

mutual
  /-- What a tree costs. -/
  def cost (E : Str → Nat) : WNode → Nat
    | .elem n as m ks => 10 + 2 * n.length + attrsCost E as + declsCost m + costL E ks
    | .text s => 1 + E s
    | .cdata s => 13 + s.length
  def costL (E : Str → Nat) : List WNode → Nat
    | [] => 0
    | k :: ks => cost E k + costL E ks
end

theorem costL_append (E : Str → Nat) (xs ys : List WNode) : costL E (xs ++ ys) = costL E xs + costL E ys := by
  induction xs with
  | nil => simp [costL]
  | cons x xs ih => simp only [List.cons_append, costL, ih]; omega

theorem attrsCost_append (E : Str → Nat) (xs ys : List Attr) : attrsCost E (xs ++ ys) = attrsCost E xs + attrsCost E ys := by
  simp [attrsCost]

theorem declsCost_append (xs ys : NsMap) : declsCost (xs ++ ys) = declsCost xs + declsCost ys := by
  simp [declsCost]

theorem declsCost_cons (d : Str × Str) (m : NsMap) : declsCost (d :: m) = 10 + d.1.length + d.2.length + declsCost m := by
  simp [declsCost]

theorem declsCost_insert (m : NsMap) (p u : Str) : declsCost (m.insert p u) = declsCost m + (10 + p.length + u.length) := by
  induction m with
  | nil => simp [NsMap.insert, declsCost]
  | cons e m ih =>
    unfold NsMap.insert
    split
    · rw [declsCost_cons]; simp only; omega
    · rw [declsCost_cons, ih, declsCost_cons]; omega

theorem declsCost_firstDecls (ds : NsMap) : declsCost (firstDecls ds) ≤ declsCost ds := by
  have : ∀ acc : NsMap, declsCost (NsMap.extend acc ds) ≤ declsCost acc + declsCost ds := by
    induction ds with
    | nil => intro acc; simp [NsMap.extend, declsCost]
    | cons d ds ih =>
      intro acc
      have h := ih (acc.put d.1 d.2)
      have h2 : declsCost (acc.put d.1 d.2) ≤ declsCost acc + (10 + d.1.length + d.2.length) := by
        unfold NsMap.put
        split
        · omega
        · rw [declsCost_insert]; omega
      rw [declsCost_cons]
      have e : NsMap.extend acc (d :: ds) = NsMap.extend (acc.put d.1 d.2) ds := rfl
      rw [e]
      omega
  have h := this []
  have h0 : declsCost [] = 0 := rfl
  rw [h0, Nat.zero_add] at h
  exact h

/-! ### Events -/

/-- What an event costs: the end tag is paid for by the start tag, but for three characters. -/
def evCost (E : Str → Nat) : WEv → Nat
  | .start n as m => 2 + 2 * (qname n).length + attrsCost E as + declsCost m
  | .endE _ => 3
  | .chars s => E s
  | .cdata s => 12 + s.length
  | _ => 0

def evsCost (E : Str → Nat) (es : List WEv) : Nat := (es.map (evCost E)).sum

mutual
  theorem events_cost (E : Str → Nat) (x : WNode) : evsCost E x.events + x.events.length ≤ cost E x := by
    match x with
    | .elem n as m ks =>
      have := eventsL_cost E ks
      simp only [WNode.events, evsCost, List.map_cons, List.map_append, List.map_nil, List.sum_cons, List.sum_append, List.sum_nil,
        evCost, cost, qname_ofStr, List.length_cons, List.length_append, List.length_nil] at this ⊢
      omega
    | .text s => simp [WNode.events, evsCost, evCost, cost]; omega
    | .cdata s => simp [WNode.events, evsCost, evCost, cost]; omega
  theorem eventsL_cost (E : Str → Nat) (xs : List WNode) : evsCost E (WNode.eventsL xs) + (WNode.eventsL xs).length ≤ costL E xs := by
    match xs with
    | [] => simp [WNode.eventsL, evsCost, costL]
    | x :: xs =>
      have h1 := events_cost E x
      have h2 := eventsL_cost E xs
      simp only [WNode.eventsL, evsCost, costL, List.map_append, List.sum_append, List.length_append] at h1 h2 ⊢
      omega
end

/-! ### The emitter -/

/-- What has been written, and what is still to be written for what has been opened. -/
def Em.due (cfg : EmitCfg) (w : Char → Nat) (e : Em) : Nat :=
  wt w e.out + (e.opened.map List.length).sum + (cond e.pending 1 0) + (cond (e.started || !cfg.decl) 0 38)

/-- The length of a newline and the indentation at a level. -/
def nlCost (cfg : EmitCfg) (level : Nat) : Nat :=
  match cfg.indent with
  | none => 0
  | some ind => 1 + ind.length * level

section
variable {cfg : EmitCfg} {w : Char → Nat}

theorem due_started (hw : ∀ c, w c ≤ 1) (e : Em) : (e.checkStarted cfg).due cfg w ≤ e.due cfg w ∧ (e.checkStarted cfg).opened = e.opened := by
  unfold Em.checkStarted
  split
  · exact ⟨Nat.le_refl _, rfl⟩
  · rename_i h
    have h38 := wt_le_length hw c!"<?xml version=\"1.0\" encoding=\"utf-8\"?>"
    simp only [List.length_cons, List.length_nil] at h38
    simp only
    split
    · rename_i hd
      have : ∀ (e : Em) (f : Flag), (e.setFlag f).due cfg w = e.due cfg w ∧ (e.setFlag f).opened = e.opened := by
        intro e f; unfold Em.setFlag; split <;> exact ⟨rfl, rfl⟩
      rw [(this _ _).1, (this _ _).2]
      refine ⟨?_, rfl⟩
      have h' : e.started = false := by simpa using h
      simp only [Em.due, Em.add, wt_append, hd, h', Bool.not_true, Bool.or_false, Bool.or_true, Bool.true_or, cond_true, cond_false]
      omega
    · refine ⟨?_, rfl⟩
      simp only [Em.due, Bool.true_or, cond_true]
      omega

theorem due_fix (hw : ∀ c, w c ≤ 1) (e : Em) : (e.fix).due cfg w ≤ e.due cfg w ∧ e.fix.opened = e.opened ∧ e.fix.pending = false := by
  unfold Em.fix
  split
  · rename_i h
    refine ⟨?_, rfl, rfl⟩
    have := wt_le_length hw c!">"
    simp only [List.length_cons, List.length_nil] at this
    simp only [Em.due, Em.add, wt_append, h, cond_true, cond_false]
    omega
  · rename_i h
    exact ⟨Nat.le_refl _, rfl, by simpa using h⟩

theorem wt_nl (hw : ∀ c, w c ≤ 1) (ind : Str) (level : Nat) : wt w (nl ind level) ≤ 1 + ind.length * level := by
  refine Nat.le_trans (wt_le_length hw _) ?_
  unfold nl
  have : (List.replicate level ind).flatten.length = ind.length * level := by
    induction level with
    | zero => simp
    | succ k ih => rw [List.replicate_succ, List.flatten_cons, List.length_append, ih, Nat.mul_succ]; omega
  rw [List.length_cons, this]
  omega

theorem due_add (e : Em) (s : Str) : (e.add s).due cfg w = e.due cfg w + wt w s := by
  simp only [Em.due, Em.add, wt_append]
  omega

theorem due_setFlag (e : Em) (f : Flag) : (e.setFlag f).due cfg w = e.due cfg w ∧ (e.setFlag f).opened = e.opened := by
  unfold Em.setFlag; split <;> exact ⟨rfl, rfl⟩

theorem due_markup (hw : ∀ c, w c ≤ 1) (e : Em) :
    (e.beforeMarkup cfg).due cfg w ≤ e.due cfg w + nlCost cfg e.opened.length ∧ (e.beforeMarkup cfg).opened = e.opened ∧
      (e.beforeMarkup cfg).pending = e.pending := by
  unfold Em.beforeMarkup nlCost
  cases cfg.indent with
  | none => exact ⟨Nat.le_refl _, rfl, rfl⟩
  | some ind =>
    dsimp only
    split
    · refine ⟨?_, rfl, rfl⟩
      rw [due_add]
      have := wt_nl hw ind e.opened.length
      omega
    · exact ⟨Nat.le_add_right _ _, rfl, rfl⟩

theorem wt_flatMap_le {α : Type} (f : α → Str) (g : α → Nat) (h : ∀ a, wt w (f a) ≤ g a) (l : List α) :
    wt w (l.flatMap f) ≤ (l.map g).sum := by
  induction l with
  | nil => simp [wt]
  | cons a l ih => rw [List.flatMap_cons, wt_append, List.map_cons, List.sum_cons]; have := h a; omega

theorem wt_emitDecl (hw : ∀ c, w c ≤ 1) (d : Str × Str) : wt w (emitDecl d) ≤ 10 + d.1.length + d.2.length := by
  refine Nat.le_trans (wt_le_length hw _) ?_
  unfold emitDecl
  repeat' split
  all_goals simp only [List.length_append, List.length_cons, List.length_nil]; omega

theorem wt_emitAttr (hw : ∀ c, w c ≤ 1) {E : Str → Nat} (hE : ∀ s, wt w (escAttr s) ≤ E s) (a : Attr) :
    wt w (emitAttr a) ≤ 4 + (qname a.name).length + E a.value := by
  unfold emitAttr
  rw [wt_append, wt_append, wt_append, wt_append]
  have h1 := wt_le_length hw c!" "
  have h2 := wt_le_length hw (qname a.name)
  have h3 := wt_le_length hw c!"=\""
  have h4 := wt_le_length hw c!"\""
  have := hE a.value
  simp only [List.length_cons, List.length_nil] at h1 h3 h4
  omega

theorem sum_filter_le' {α : Type} (g : α → Nat) (q : α → Bool) (l : List α) : ((l.filter q).map g).sum ≤ (l.map g).sum := by
  induction l with
  | nil => simp
  | cons a l ih =>
    rw [List.filter_cons]
    split <;> simp only [List.map_cons, List.sum_cons] <;> omega

/-- One event. -/
theorem due_step (hw : ∀ c, w c ≤ 1) {E : Str → Nat} (h1 : ∀ s, wt w (escAttr s) ≤ E s) (h2 : ∀ s, wt w (escText s) ≤ E s) (e : Em) (ev : WEv) :
    (e.step cfg ev).due cfg w ≤ e.due cfg w + evCost E ev + nlCost cfg e.opened.length ∧
      (e.step cfg ev).opened.length ≤ e.opened.length + 1 := by
  cases ev with
  | start n as nss =>
    obtain ⟨a1, a2⟩ := due_started (cfg := cfg) hw e
    obtain ⟨b1, b2, b3⟩ := due_fix (cfg := cfg) hw (e.checkStarted cfg)
    obtain ⟨c1, c2, c3⟩ := due_markup (cfg := cfg) hw (e.checkStarted cfg).fix
    rw [b2, a2] at c2 c1
    rw [b3] at c3
    simp only [Em.step]
    generalize Em.beforeMarkup cfg (e.checkStarted cfg).fix = e' at *
    have hd : wt w ((newDecls e'.scopes nss).flatMap emitDecl) ≤ declsCost nss :=
      Nat.le_trans (wt_flatMap_le _ _ (wt_emitDecl hw) _) (sum_filter_le' _ _ _)
    have ha : wt w (as.flatMap emitAttr) ≤ attrsCost E as := wt_flatMap_le _ _ (wt_emitAttr hw h1) _
    have hq := wt_le_length hw (qname n)
    have hl := wt_le_length hw c!"<"
    simp only [List.length_cons, List.length_nil] at hl
    refine ⟨?_, by simp [c2]⟩
    simp only [Em.due, Em.add, wt_append, evCost, List.map_cons, List.sum_cons, c3, cond_true, cond_false] at *
    omega
  | endE n =>
    simp only [Em.step]
    split
    · rename_i hp
      rw [(due_setFlag (cfg := cfg) (w := w) _ _).1, (due_setFlag (cfg := cfg) (w := w) _ _).2]
      have hl := wt_le_length hw c!" />"
      simp only [List.length_cons, List.length_nil] at hl
      have ht : (e.opened.tail.map List.length).sum ≤ (e.opened.map List.length).sum := by
        cases e.opened <;> simp
      refine ⟨?_, by simp only [Em.add]; rw [List.length_tail]; omega⟩
      simp only [Em.due, Em.add, wt_append, hp, evCost, cond_true, cond_false] at *
      omega
    · rename_i hp
      rw [(due_setFlag (cfg := cfg) (w := w) _ _).1, (due_setFlag (cfg := cfg) (w := w) _ _).2]
      have key : ∀ e' : Em, e'.opened = e.opened → e'.due cfg w ≤ e.due cfg w + nlCost cfg e.opened.length →
          ({ e'.add (c!"</" ++ e'.opened.headD [] ++ c!">") with opened := e'.opened.tail, scopes := e'.scopes.tail, flags := e'.flags.tail } : Em).due cfg w
            ≤ e.due cfg w + 3 + nlCost cfg e.opened.length := by
        intro e' ho hd
        have hl := wt_le_length hw c!"</"
        have hr := wt_le_length hw c!">"
        simp only [List.length_cons, List.length_nil] at hl hr
        have hh : wt w (e'.opened.headD []) + (e'.opened.tail.map List.length).sum ≤ (e'.opened.map List.length).sum := by
          cases e'.opened with
          | nil => simp [wt]
          | cons x xs => simpa using wt_le_length hw x
        simp only [Em.due, Em.add, wt_append] at *
        omega
      have hn : ∀ ind, nlCost cfg e.opened.length = 1 + ind * e.opened.length → ∀ s, wt w s ≤ 1 + ind * (e.opened.length - 1) →
          wt w s ≤ nlCost cfg e.opened.length := by
        intro ind h s hs
        rw [h]
        have := Nat.mul_le_mul_left ind (Nat.sub_le e.opened.length 1)
        omega
      cases hi : cfg.indent with
      | none =>
        refine ⟨?_, by simp only [Em.add]; rw [List.length_tail]; omega⟩
        have := key e rfl (Nat.le_add_right _ _)
        simpa only [evCost, Em.add] using this
      | some ind =>
        simp only
        split
        · have hw' := hn ind.length (by unfold nlCost; rw [hi]) _ (wt_nl hw ind (e.opened.length - 1))
          refine ⟨?_, by simp only [Em.add]; rw [List.length_tail]; omega⟩
          have := key (e.add (nl ind (e.opened.length - 1))) rfl (by rw [due_add]; omega)
          simpa only [evCost, Em.add] using this
        · refine ⟨?_, by simp only [Em.add]; rw [List.length_tail]; omega⟩
          have := key e rfl (Nat.le_add_right _ _)
          simpa only [evCost, Em.add] using this
  | chars s =>
    obtain ⟨a1, a2⟩ := due_started (cfg := cfg) hw e
    obtain ⟨b1, b2, b3⟩ := due_fix (cfg := cfg) hw (e.checkStarted cfg)
    simp only [Em.step]
    rw [(due_setFlag (cfg := cfg) (w := w) _ _).1, (due_setFlag (cfg := cfg) (w := w) _ _).2, due_add]
    have := h2 s
    refine ⟨by simp only [evCost]; omega, ?_⟩
    simp only [Em.add]; rw [b2, a2]; omega
  | cdata s =>
    obtain ⟨b1, b2, b3⟩ := due_fix (cfg := cfg) hw e
    simp only [Em.step]
    rw [(due_setFlag (cfg := cfg) (w := w) _ _).1, (due_setFlag (cfg := cfg) (w := w) _ _).2, due_add, wt_append, wt_append]
    have hl := wt_le_length hw c!"<![CDATA["
    have hr := wt_le_length hw c!"]]>"
    have hs := wt_le_length hw s
    simp only [List.length_cons, List.length_nil] at hl hr
    refine ⟨by simp only [evCost]; omega, ?_⟩
    simp only [Em.add]; rw [b2]; omega
  | _ => exact ⟨by simp only [Em.step]; omega, by simp [Em.step]⟩

/-- All events: the indentation of at most `n` levels each. -/
theorem due_fold (hw : ∀ c, w c ≤ 1) {E : Str → Nat} (h1 : ∀ s, wt w (escAttr s) ≤ E s) (h2 : ∀ s, wt w (escText s) ≤ E s) (es : List WEv) :
    ∀ (e : Em) (n : Nat), e.opened.length + es.length ≤ n →
      (es.foldl (Em.step cfg) e).due cfg w ≤ e.due cfg w + evsCost E es + es.length * nlCost cfg n := by
  induction es with
  | nil => intro e n _; simp
  | cons ev es ih =>
    intro e n hn
    obtain ⟨a1, a2⟩ := due_step (cfg := cfg) hw h1 h2 e ev
    rw [List.length_cons] at hn
    have := ih (e.step cfg ev) n (by omega)
    have hm : nlCost cfg e.opened.length ≤ nlCost cfg n := by
      unfold nlCost
      cases cfg.indent with
      | none => exact Nat.le_refl _
      | some ind => exact Nat.add_le_add_left (Nat.mul_le_mul_left _ (by omega)) _
    rw [List.foldl_cons, List.length_cons, Nat.succ_mul]
    simp only [evsCost, List.map_cons, List.sum_cons] at this ⊢
    omega

end

/-- The text of a tree. -/
theorem wt_emit {w : Char → Nat} (hw : ∀ c, w c ≤ 1) {E : Str → Nat} (h1 : ∀ s, wt w (escAttr s) ≤ E s) (h2 : ∀ s, wt w (escText s) ≤ E s)
    (cfg : EmitCfg) (ts : List WNode) : wt w (emit cfg (WNode.eventsL ts)) ≤
      (if cfg.decl then 38 else 0) + costL E ts + (WNode.eventsL ts).length * nlCost cfg (WNode.eventsL ts).length := by
  have h := due_fold (cfg := cfg) hw h1 h2 (WNode.eventsL ts) {} (WNode.eventsL ts).length (by simp)
  have hc := eventsL_cost E ts
  have h0 : (({} : Em).due cfg w) = if cfg.decl then 38 else 0 := by
    simp only [Em.due, wt]
    cases cfg.decl <;> rfl
  have : wt w (emit cfg (WNode.eventsL ts)) ≤ ((WNode.eventsL ts).foldl (Em.step cfg) {}).due cfg w := by
    unfold emit Em.due
    omega
  rw [h0] at h
  omega

end XmlText
end Yaserde
