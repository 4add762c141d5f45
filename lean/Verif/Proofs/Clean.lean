import Verif.Spec.RoundTrip
import Verif.Proofs.DecodeAll
import Verif.Proofs.XmlLaw
import Mathlib.Data.List.Forall2
/-
Trees with at most one text among the children of an element come back unchanged when they are written and read.
-/

set_option autoImplicit false

namespace Yaserde

open XmlText (scopeUri_mem scopeUri_none splitColon_some splitColon_colon splitColon_none ncName_noColon)

/-! ### Texts -/

/-- The texts in a list of children. -/
def wtexts (ks : List WNode) : List Str :=
  ks.filterMap fun
    | .text s => if s = [] then none else some s
    | .cdata s => if s = [] then none else some s
    | .elem .. => none

def ntexts (ks : List Node) : List Str :=
  ks.filterMap fun
    | .text s => some s
    | .elem .. => none

def back1 (sc : NsMap) : WNode → List Node
  | .text s => textRun s
  | .cdata s => textRun s
  | .elem n as nss ks => [WNode.back sc (.elem n as nss ks)]

/-- The children that are read back, one by one. -/
def backs (sc : NsMap) (ks : List WNode) : List Node := ks.flatMap (back1 sc)

theorem textRun_nil : textRun [] = [] := rfl

theorem wtexts_cons (k : WNode) (ks : List WNode) : wtexts (k :: ks) = wtexts [k] ++ wtexts ks := by
  unfold wtexts
  rw [← List.filterMap_append]
  rfl

theorem wtexts_append (a b : List WNode) : wtexts (a ++ b) = wtexts a ++ wtexts b := List.filterMap_append

theorem backs_append (sc : NsMap) (a b : List WNode) : backs sc (a ++ b) = backs sc a ++ backs sc b := List.flatMap_append

theorem wtexts_text (s : Str) : wtexts [.text s] = if s = [] then [] else [s] := by
  unfold wtexts; by_cases h : s = [] <;> simp [h]

theorem wtexts_cdata (s : Str) : wtexts [.cdata s] = if s = [] then [] else [s] := by
  unfold wtexts; by_cases h : s = [] <;> simp [h]

theorem wtexts_elem (n : Str) (as : List Attr) (nss : NsMap) (ks : List WNode) : wtexts [.elem n as nss ks] = [] := rfl

theorem backL_eq (sc : NsMap) (ks : List WNode) : ∀ run : Str, (wtexts ks).length ≤ 1 → run = [] ∨ wtexts ks = [] →
    WNode.backL sc run ks = textRun run ++ backs sc ks := by
  induction ks with
  | nil => intro run _ _; simp [WNode.backL, backs]
  | cons k ks ih =>
    intro run h1 h2
    rw [wtexts_cons] at h1 h2
    have key : ∀ s, wtexts [k] = (if s = [] then [] else [s]) → back1 sc k = textRun s →
        WNode.backL sc run (k :: ks) = WNode.backL sc (run ++ s) ks →
        WNode.backL sc run (k :: ks) = textRun run ++ backs sc (k :: ks) := by
      intro s hw hb he
      rw [he]
      rw [hw] at h1 h2
      have hbs : backs sc (k :: ks) = textRun s ++ backs sc ks := by
        unfold backs; rw [List.flatMap_cons, hb]
      by_cases hs : s = []
      · subst hs
        simp only [if_true, List.nil_append] at h1 h2
        rw [hbs, textRun_nil, List.nil_append, List.append_nil]
        exact ih run h1 h2
      · rw [if_neg hs] at h1 h2
        have hr : run = [] := by
          rcases h2 with h2 | h2
          · exact h2
          · simp at h2
        have hk : wtexts ks = [] := by
          simp at h1; exact h1
        subst hr
        rw [List.nil_append, ih s (by simp [hk]) (.inr hk), hbs]
        simp [textRun_nil]
    cases k with
    | text s => exact key s (wtexts_text s) rfl (by simp [WNode.backL])
    | cdata s => exact key s (wtexts_cdata s) rfl (by simp [WNode.backL])
    | elem n as nss kk =>
      rw [wtexts_elem, List.nil_append] at h1
      rw [WNode.backL, ih [] h1 (.inl rfl)]
      simp [backs, back1, textRun_nil]

theorem backL_nil_eq (sc : NsMap) (ks : List WNode) (h : (wtexts ks).length ≤ 1) :
    WNode.backL sc [] ks = backs sc ks := by
  rw [backL_eq sc ks [] h (.inl rfl), textRun_nil, List.nil_append]

theorem ntexts_cons (k : Node) (ks : List Node) : ntexts (k :: ks) = ntexts [k] ++ ntexts ks := by
  unfold ntexts
  rw [← List.filterMap_append]
  rfl

theorem ntexts_append (a b : List Node) : ntexts (a ++ b) = ntexts a ++ ntexts b := List.filterMap_append

theorem ntexts_textRun (s : Str) : (ntexts (textRun s)).length ≤ (if s = [] then [] else [s]).length := by
  unfold textRun
  by_cases h : s = []
  · subst h; simp [trimSpace, ntexts]
  · rw [if_neg h]
    split <;> simp [ntexts]

theorem ntexts_backs (sc : NsMap) (ks : List WNode) : (ntexts (backs sc ks)).length ≤ (wtexts ks).length := by
  induction ks with
  | nil => simp [backs, ntexts]
  | cons k ks ih =>
    have h1 : backs sc (k :: ks) = back1 sc k ++ backs sc ks := rfl
    rw [h1, ntexts_append, wtexts_cons, List.length_append, List.length_append]
    have : (ntexts (back1 sc k)).length ≤ (wtexts [k]).length := by
      cases k with
      | text s => rw [wtexts_text]; exact ntexts_textRun s
      | cdata s => rw [wtexts_cdata]; exact ntexts_textRun s
      | elem n as nss kk => simp [back1, ntexts, WNode.back]
    omega

theorem isText_trimSpace {s : Str} (h : isText s = true) : isText (trimSpace s) = true := by
  simp only [isText, List.all_eq_true] at h ⊢
  intro c hc
  refine h c ?_
  unfold trimSpace at hc
  rw [List.mem_reverse] at hc
  have := (List.dropWhile_sublist _).subset hc
  rw [List.mem_reverse] at this
  exact (List.dropWhile_sublist _).subset this

theorem dropWhile_idem (p : Char → Bool) (l : Str) : (l.dropWhile p).dropWhile p = l.dropWhile p := by
  induction l with
  | nil => rfl
  | cons a l ih =>
    by_cases h : p a = true
    · simp [List.dropWhile_cons, h, ih]
    · simp [List.dropWhile_cons, h]

theorem dropWhile_eq_of_head {p : Char → Bool} {l : Str} (h : ∀ a t, l = a :: t → p a = false) : l.dropWhile p = l := by
  cases l with
  | nil => rfl
  | cons a t => simp [List.dropWhile_cons, h a t rfl]

theorem head_dropWhile {p : Char → Bool} (l : Str) : ∀ a t, l.dropWhile p = a :: t → p a = false := by
  induction l with
  | nil => intro a t h; simp at h
  | cons b l ih =>
    intro a t h
    by_cases hb : p b = true
    · simp [List.dropWhile_cons, hb] at h; exact ih a t h
    · simp [List.dropWhile_cons, hb] at h; rw [← h.1]; simpa using hb

/-- Dropping at the end keeps the beginning. -/
theorem dropEnd_head {p : Char → Bool} {l : Str} (hl : ∀ a t, l = a :: t → p a = false) :
    ∀ a t, (l.reverse.dropWhile p).reverse = a :: t → p a = false := by
  intro a t h
  have hpre : (l.reverse.dropWhile p).reverse <+: l := by
    have := List.dropWhile_suffix p (l := l.reverse)
    have := List.reverse_prefix.mpr this
    rwa [List.reverse_reverse] at this
  rw [h] at hpre
  obtain ⟨r, hr⟩ := hpre
  exact hl a (t ++ r) (by rw [← hr]; rfl)

theorem trimSpace_idem (s : Str) : trimSpace (trimSpace s) = trimSpace s := by
  have h1 : (trimSpace s).dropWhile isXmlSpace = trimSpace s := by
    refine dropWhile_eq_of_head ?_
    unfold trimSpace
    exact dropEnd_head (head_dropWhile s)
  have h2 : trimSpace (trimSpace s) = (((trimSpace s).dropWhile isXmlSpace).reverse.dropWhile isXmlSpace).reverse := rfl
  rw [h2, h1]
  unfold trimSpace
  rw [List.reverse_reverse, dropWhile_idem]

theorem cleanText_trimSpace {s : Str} (h : isText s = true) (hne : trimSpace s ≠ []) : CleanText (trimSpace s) :=
  ⟨isText_trimSpace h, trimSpace_idem s, hne⟩

theorem textRun_clean {s : Str} (h : CleanText s) : textRun s = [.text s] := by
  unfold textRun
  rw [h.trimmed, if_neg h.nonempty]

/-! ### Scopes -/

theorem scopeUri_congr {G m m' : NsMap} (hG : NsTable G) (hm : ∀ e ∈ m', e ∈ G) (h : ∀ e, e ∈ m ↔ e ∈ m') :
    scopeUri m = scopeUri m' := by
  funext p
  cases h1 : scopeUri m p with
  | none =>
    cases h2 : scopeUri m' p with
    | none => rfl
    | some u => exact absurd ((h _).mpr (scopeUri_mem h2)) (scopeUri_none h1 u)
  | some u =>
    have e1 := (h _).mp (scopeUri_mem h1)
    cases h2 : scopeUri m' p with
    | none => exact absurd e1 (scopeUri_none h2 u)
    | some u' => exact congrArg some (hG.agree _ (hm _ e1) _ (hm _ (scopeUri_mem h2)) rfl)

theorem scopeUri_of_mem {G m : NsMap} (hG : NsTable G) (hm : ∀ e ∈ m, e ∈ G) {p u : Str} (h : (p, u) ∈ m) :
    scopeUri m p = some u := by
  cases h2 : scopeUri m p with
  | none => exact absurd h (scopeUri_none h2 u)
  | some u' => exact congrArg some (hG.agree _ (hm _ h) _ (hm _ (scopeUri_mem h2)) rfl).symm

theorem readElemName_congr {m m' : NsMap} (h : scopeUri m = scopeUri m') (raw : Str) :
    readElemName m raw = readElemName m' raw := by
  unfold readElemName; rw [h]

theorem readAttrName_congr {m m' : NsMap} (h : scopeUri m = scopeUri m') (raw : Str) :
    readAttrName m raw = readAttrName m' raw := by
  unfold readAttrName; rw [h]

theorem bound_congr {m m' : NsMap} (h : scopeUri m = scopeUri m') {raw : Str} (hb : Bound m raw) : Bound m' raw := by
  unfold Bound at *; rwa [← h]

theorem attrsOk_congr {m m' : NsMap} (h : scopeUri m = scopeUri m') {as : List Attr} (ha : AttrsOk m as) : AttrsOk m' as := by
  refine ⟨fun a hm => ?_, ha.value, ha.nodup⟩
  have := ha.name a hm
  unfold AttrNameOk at *
  rwa [← h]

theorem raw_readElemName (sc : NsMap) (raw : Str) : (readElemName sc raw).raw = raw := by
  unfold readElemName
  cases hs : splitColon raw with
  | none => rfl
  | some q => obtain ⟨p, l⟩ := q; exact (splitColon_some hs).symm

theorem raw_readAttrName (sc : NsMap) (raw : Str) : (readAttrName sc raw).raw = raw := by
  unfold readAttrName
  cases hs : splitColon raw with
  | none => rfl
  | some q => obtain ⟨p, l⟩ := q; exact (splitColon_some hs).symm

theorem raw_ofStr (raw : Str) : (Name.ofStr raw).raw = raw := by
  unfold Name.ofStr
  cases hs : splitColon raw with
  | none => rfl
  | some q => obtain ⟨p, l⟩ := q; exact (splitColon_some hs).symm

/-! ### Clean trees -/

mutual
  /-- As it is read: names are resolved by the namespace tables, which only grow; texts are trimmed, not empty, and at
  most one per element. -/
  def Node.Clean (G : NsMap) : Node → Prop
    | .text s => CleanText s
    | .elem n as m ks =>
      (isQName n.raw = true ∧ Bound m n.raw ∧ readElemName m n.raw = n) ∧
      (AttrsOk m as ∧ ∀ a ∈ as, readAttrName m a.name.raw = a.name) ∧
      ((m.map Prod.fst).Nodup ∧ ∀ e ∈ m, e ∈ G) ∧
      ((ntexts ks).length ≤ 1 ∧ ∀ k ∈ ks, ∀ n' as' m' ks', k = .elem n' as' m' ks' → ∀ e ∈ m, e ∈ m') ∧
      Node.CleanL G ks
  def Node.CleanL (G : NsMap) : List Node → Prop
    | [] => True
    | k :: ks => k.Clean G ∧ Node.CleanL G ks
end

theorem cleanL_iff {G : NsMap} {ks : List Node} : Node.CleanL G ks ↔ ∀ k ∈ ks, k.Clean G := by
  induction ks with
  | nil => simp [Node.CleanL]
  | cons k ks ih => simp [Node.CleanL, ih]

mutual
  /-- At most one text per element; declarations are those of the table. -/
  def WNode.Tidy (G : NsMap) : WNode → Prop
    | .elem _ _ nss ks => (∀ e ∈ nss, e ∈ G) ∧ (wtexts ks).length ≤ 1 ∧ WNode.TidyL G ks
    | _ => True
  def WNode.TidyL (G : NsMap) : List WNode → Prop
    | [] => True
    | k :: ks => k.Tidy G ∧ WNode.TidyL G ks
end

theorem tidyL_iff {G : NsMap} {ks : List WNode} : WNode.TidyL G ks ↔ ∀ k ∈ ks, k.Tidy G := by
  induction ks with
  | nil => simp [WNode.TidyL]
  | cons k ks ih => simp [WNode.TidyL, ih]

theorem okL_iff {sc : NsMap} {ks : List WNode} : WNode.OkL sc ks ↔ ∀ k ∈ ks, k.Ok sc := by
  induction ks with
  | nil => simp [WNode.OkL]
  | cons k ks ih => simp [WNode.OkL, ih]

theorem likeL_iff {a b : List Node} : Node.LikeL a b ↔ List.Forall₂ Node.Like a b := by
  induction a generalizing b with
  | nil => cases b <;> simp [Node.LikeL]
  | cons k ks ih => cases b <;> simp [Node.LikeL, ih]

theorem likeL_ntexts {a b : List Node} (h : Node.LikeL a b) : ntexts a = ntexts b := by
  rw [likeL_iff] at h
  induction h with
  | nil => rfl
  | @cons x y xs ys h _ ih =>
    rw [ntexts_cons, ntexts_cons y, ih]
    congr 1
    cases x <;> cases y <;> simp_all [Node.Like, ntexts]

theorem likeL_append_right {a b c : List Node} (h : Node.LikeL a (b ++ c)) :
    ∃ a1 a2, a = a1 ++ a2 ∧ Node.LikeL a1 b ∧ Node.LikeL a2 c := by
  induction b generalizing a with
  | nil => exact ⟨[], a, rfl, trivial, h⟩
  | cons k b ih =>
    cases a with
    | nil => simp [Node.LikeL] at h
    | cons x a =>
      obtain ⟨h1, h2⟩ := h
      obtain ⟨a1, a2, rfl, h3, h4⟩ := ih h2
      exact ⟨x :: a1, a2, rfl, ⟨h1, h3⟩, h4⟩

/-- The namespace table of an element. -/
def Node.nss : Node → NsMap
  | .elem _ _ m _ => m
  | .text _ => []

theorem likeL_texts {s : Str} {ys : List Node} (ht : isText s = true) (h : Node.LikeL ys (textRun s)) (G : NsMap) :
    (∀ y ∈ ys, y.Clean G) ∧ ∀ y ∈ ys, ∃ t, y = .text t := by
  unfold textRun at h
  split at h
  · cases ys with
    | nil => simp
    | cons y ys => simp [Node.LikeL] at h
  · rename_i hne
    cases ys with
    | nil => simp [Node.LikeL] at h
    | cons y ys =>
      cases ys with
      | cons z zs => simp [Node.LikeL] at h
      | nil =>
        simp only [Node.LikeL, and_true] at h
        cases y with
        | elem n as m ks => simp [Node.Like] at h
        | text t =>
          simp only [Node.Like] at h
          subst h
          simp only [List.mem_singleton, forall_eq]
          exact ⟨cleanText_trimSpace ht hne, _, rfl⟩

theorem isText_of_cdata {s : Str} (h : isCdata s) : isText s = true := h.1

mutual
  /-- What is read back is clean. -/
  theorem clean_of_like {G : NsMap} (hG : NsTable G) (w : WNode) (sc : NsMap) (hsc : ∀ e ∈ sc, e ∈ G) (hok : w.Ok sc)
      (hw : w.Tidy G) (y : Node) (n : Str) (as : List Attr) (nss : NsMap) (ks : List WNode) (he : w = .elem n as nss ks)
      (hy : y.Like (w.back sc)) : y.Clean G ∧ ∀ e ∈ sc, e ∈ y.nss := by
    match w, he with
    | .elem n as nss ks, _ =>
      obtain ⟨h1, h2, h3, h4, h5⟩ := hok
      obtain ⟨g1, g2, g3⟩ := hw
      cases y with
      | text s => simp [WNode.back, Node.Like] at hy
      | elem n' as' m' ks' =>
        simp only [WNode.back, Node.Like] at hy
        obtain ⟨rfl, rfl, e3, e4, e5⟩ := hy
        rw [backL_nil_eq _ _ g2] at e5
        have hin : ∀ e ∈ nss ++ sc, e ∈ G := by
          intro e he
          rcases List.mem_append.mp he with h | h
          · exact g1 e h
          · exact hsc e h
        have hs : scopeUri m' = scopeUri (nss ++ sc) := scopeUri_congr hG hin e4
        obtain ⟨k1, k2⟩ := cleanL_of_like hG ks (nss ++ sc) hin h5 g3 ks' e5
        refine ⟨⟨⟨by rw [raw_readElemName]; exact h1, by rw [raw_readElemName]; exact bound_congr hs.symm h2,
          by rw [raw_readElemName]; exact readElemName_congr hs n⟩, ⟨?_, ?_⟩, ⟨e3, fun e he => hin e ((e4 e).mp he)⟩,
          ⟨?_, ?_⟩, cleanL_iff.mpr k1⟩, ?_⟩
        · have ha : AttrsOk m' as := attrsOk_congr hs.symm h4
          refine ⟨?_, ?_, ?_⟩
          · intro a ha'
            obtain ⟨b, hb, rfl⟩ := List.mem_map.mp ha'
            dsimp only
            rw [raw_readAttrName]
            exact ha.name b hb
          · intro a ha'
            obtain ⟨b, hb, rfl⟩ := List.mem_map.mp ha'
            exact ha.value b hb
          · rw [List.map_map]
            have : ((fun a : Attr => a.name.raw) ∘ fun a : Attr => (⟨readAttrName (nss ++ sc) a.name.raw, a.value⟩ : Attr))
                = fun a : Attr => a.name.raw := by
              funext a; exact raw_readAttrName _ _
            rw [this]
            exact ha.nodup
        · intro a ha'
          obtain ⟨b, hb, rfl⟩ := List.mem_map.mp ha'
          dsimp only
          rw [raw_readAttrName]
          exact readAttrName_congr hs _
        · rw [likeL_ntexts e5]
          exact Nat.le_trans (ntexts_backs _ _) g2
        · intro k hk n1 as1 m1 ks1 hk' e he
          have := k2 k hk n1 as1 m1 ks1 hk' e ((e4 e).mp he)
          rw [hk'] at this
          exact this
        · intro e he
          exact (e4 e).mpr (List.mem_append_right _ he)
  theorem cleanL_of_like {G : NsMap} (hG : NsTable G) (ws : List WNode) (sc : NsMap) (hsc : ∀ e ∈ sc, e ∈ G)
      (hok : WNode.OkL sc ws) (hw : WNode.TidyL G ws) (ys : List Node) (hy : Node.LikeL ys (backs sc ws)) :
      (∀ y ∈ ys, y.Clean G) ∧ ∀ y ∈ ys, ∀ n as m ks, y = .elem n as m ks → ∀ e ∈ sc, e ∈ y.nss := by
    match ws with
    | [] =>
      cases ys with
      | nil => simp
      | cons y ys => simp [backs, Node.LikeL] at hy
    | w :: ws =>
      obtain ⟨h1, h2⟩ := hok
      obtain ⟨g1, g2⟩ := hw
      have hb : backs sc (w :: ws) = back1 sc w ++ backs sc ws := rfl
      rw [hb] at hy
      obtain ⟨y1, y2, rfl, l1, l2⟩ := likeL_append_right hy
      obtain ⟨i1, i2⟩ := cleanL_of_like hG ws sc hsc h2 g2 y2 l2
      have key : (∀ y ∈ y1, y.Clean G) ∧ ∀ y ∈ y1, ∀ n as m ks, y = .elem n as m ks → ∀ e ∈ sc, e ∈ y.nss := by
        match w with
        | .text s =>
          obtain ⟨k1, k2⟩ := likeL_texts h1 l1 G
          refine ⟨k1, ?_⟩
          intro y hy n as m ks he
          obtain ⟨t, ht⟩ := k2 y hy
          rw [ht] at he; cases he
        | .cdata s =>
          obtain ⟨k1, k2⟩ := likeL_texts (isText_of_cdata h1) l1 G
          refine ⟨k1, ?_⟩
          intro y hy n as m ks he
          obtain ⟨t, ht⟩ := k2 y hy
          rw [ht] at he; cases he
        | .elem n as nss ks =>
          have l1' : Node.LikeL y1 [WNode.back sc (.elem n as nss ks)] := l1
          cases y1 with
          | nil => simp [Node.LikeL] at l1'
          | cons y ys =>
            cases ys with
            | cons z zs => simp [Node.LikeL] at l1'
            | nil =>
              obtain ⟨l2', -⟩ := l1'
              obtain ⟨c1, c2⟩ := clean_of_like hG (.elem n as nss ks) sc hsc h1 g1 y n as nss ks rfl l2'
              simp only [List.mem_singleton, forall_eq]
              exact ⟨c1, fun _ _ _ _ _ => c2⟩
      constructor
      · intro y hy
        rcases List.mem_append.mp hy with h | h
        · exact key.1 y h
        · exact i1 y h
      · intro y hy
        rcases List.mem_append.mp hy with h | h
        · exact key.2 y h
        · exact i2 y h
end

mutual
  /-- A tree that was read, as a tree to write. -/
  def Node.toW : Node → WNode
    | .text s => .text s
    | .elem n as m ks => .elem n.raw as m (Node.toWL ks)
  def Node.toWL : List Node → List WNode
    | [] => []
    | k :: ks => k.toW :: Node.toWL ks
end

theorem wtexts_toWL {G : NsMap} (ks : List Node) (h : Node.CleanL G ks) : wtexts (Node.toWL ks) = ntexts ks := by
  induction ks with
  | nil => rfl
  | cons k ks ih =>
    rw [ntexts_cons, Node.toWL, wtexts_cons, ih h.2]
    congr 1
    cases k with
    | elem n as m kk => rfl
    | text s =>
      have : CleanText s := h.1
      rw [Node.toW, wtexts_text, if_neg this.nonempty]
      rfl

mutual
  theorem toW_events (x : Node) : x.wevents.map WEv.face = x.toW.events.map WEv.face := by
    cases x with
    | text s => rfl
    | elem n as m ks =>
      simp only [Node.wevents, Node.toW, WNode.events, List.map_cons, List.map_append, List.map_nil, WEv.face, raw_ofStr]
      rw [toWL_events ks]
  theorem toWL_events (ks : List Node) : (Node.weventsL ks).map WEv.face = (WNode.eventsL (Node.toWL ks)).map WEv.face := by
    cases ks with
    | nil => rfl
    | cons k ks =>
      simp only [Node.weventsL, Node.toWL, WNode.eventsL, List.map_append]
      rw [toW_events k, toWL_events ks]
end

theorem scope_absorb {G m sc : NsMap} (hG : NsTable G) (hm : ∀ e ∈ m, e ∈ G) (h : ∀ e ∈ sc, e ∈ m) :
    scopeUri (m ++ sc) = scopeUri m := by
  refine scopeUri_congr hG hm ?_
  intro e
  rw [List.mem_append]
  exact ⟨fun h' => h'.elim id (h e), .inl⟩

mutual
  /-- A clean tree can be written, inside declarations it contains. -/
  theorem toW_ok {G : NsMap} (hG : NsTable G) (x : Node) (sc : NsMap) (hx : x.Clean G) (n : Name) (as : List Attr) (m : NsMap)
      (ks : List Node) (he : x = .elem n as m ks) (hsc : ∀ e ∈ sc, e ∈ m) : x.toW.Ok sc ∧ x.toW.Tidy G := by
    match x, he with
    | .elem n as m ks, rfl =>
      obtain ⟨⟨h1, h2, h3⟩, ⟨h4, h5⟩, ⟨h6, h7⟩, ⟨h8, h9⟩, h10⟩ := hx
      have hs := scope_absorb hG h7 hsc
      obtain ⟨i1, i2⟩ := toWL_ok hG ks (m ++ sc) h10 (by
        intro k hk n' as' m' ks' he' e hm
        rcases List.mem_append.mp hm with h | h
        · exact h9 k hk n' as' m' ks' he' e h
        · exact h9 k hk n' as' m' ks' he' e (hsc e h))
      refine ⟨⟨h1, bound_congr hs.symm h2, ⟨?_, ?_, h6, ?_⟩, attrsOk_congr hs.symm h4, i1⟩, h7, ?_, i2⟩
      · intro e he; exact hG.pfx e (h7 e he)
      · intro e he; exact hG.uri e (h7 e he)
      · intro d hd e he hde
        exact hG.agree d (h7 d hd) e (h7 e (hsc e he)) hde
      · rw [wtexts_toWL ks h10]; exact h8
  theorem toWL_ok {G : NsMap} (hG : NsTable G) (ks : List Node) (sc : NsMap) (hx : Node.CleanL G ks)
      (hsc : ∀ k ∈ ks, ∀ n' as' m' ks', k = .elem n' as' m' ks' → ∀ e ∈ sc, e ∈ m') :
      WNode.OkL sc (Node.toWL ks) ∧ WNode.TidyL G (Node.toWL ks) := by
    match ks with
    | [] => exact ⟨trivial, trivial⟩
    | k :: ks =>
      obtain ⟨i1, i2⟩ := toWL_ok hG ks sc hx.2 (fun k hk => hsc k (List.mem_cons_of_mem _ hk))
      match k with
      | .text s => exact ⟨⟨hx.1.chars, i1⟩, trivial, i2⟩
      | .elem n as m kk =>
        obtain ⟨j1, j2⟩ := toW_ok hG (.elem n as m kk) sc hx.1 n as m kk rfl (hsc _ List.mem_cons_self n as m kk rfl)
        exact ⟨⟨j1, i1⟩, j2, i2⟩
end

mutual
  theorem strip_of_like {G : NsMap} (hG : NsTable G) (x : Node) (sc : NsMap) (hx : x.Clean G) (n : Name) (as : List Attr)
      (m : NsMap) (ks : List Node) (he : x = .elem n as m ks) (hsc : ∀ e ∈ sc, e ∈ m) (y : Node) (hy : y.Like (x.toW.back sc)) :
      y.strip = x.strip := by
    match x, he with
    | .elem n as m ks, rfl =>
      obtain ⟨⟨h1, h2, h3⟩, ⟨h4, h5⟩, ⟨h6, h7⟩, ⟨h8, h9⟩, h10⟩ := hx
      have hs := scope_absorb hG h7 hsc
      cases y with
      | text s => simp [Node.toW, WNode.back, Node.Like] at hy
      | elem n' as' m' ks' =>
        simp only [Node.toW, WNode.back, Node.Like] at hy
        obtain ⟨rfl, rfl, e3, e4, e5⟩ := hy
        rw [backL_nil_eq _ _ (by rw [wtexts_toWL ks h10]; exact h8)] at e5
        have hk := stripL_of_like hG ks (m ++ sc) h10 (by
          intro k hk n' as' m' ks' he' e hm
          rcases List.mem_append.mp hm with h | h
          · exact h9 k hk n' as' m' ks' he' e h
          · exact h9 k hk n' as' m' ks' he' e (hsc e h)) ks' e5
        simp only [Node.strip, Node.elem.injEq, hk, and_true]
        refine ⟨by rw [readElemName_congr hs]; exact h3, ?_⟩
        conv => rhs; rw [← List.map_id as]
        refine List.map_congr_left ?_
        intro a ha
        rw [readAttrName_congr hs, h5 a ha]
        rfl
  theorem stripL_of_like {G : NsMap} (hG : NsTable G) (ks : List Node) (sc : NsMap) (hx : Node.CleanL G ks)
      (hsc : ∀ k ∈ ks, ∀ n' as' m' ks', k = .elem n' as' m' ks' → ∀ e ∈ sc, e ∈ m') (ys : List Node)
      (hy : Node.LikeL ys (backs sc (Node.toWL ks))) : Node.stripL ys = Node.stripL ks := by
    match ks with
    | [] =>
      cases ys with
      | nil => rfl
      | cons y ys => simp [backs, Node.toWL, Node.LikeL] at hy
    | k :: ks =>
      have hb : backs sc (Node.toWL (k :: ks)) = back1 sc k.toW ++ backs sc (Node.toWL ks) := rfl
      rw [hb] at hy
      have hb1 : ∃ z, back1 sc k.toW = [z] ∧ ∀ y : Node, y.Like z → y.strip = k.strip := by
        match k with
        | .text s =>
          refine ⟨.text s, textRun_clean hx.1, ?_⟩
          intro y hy
          cases y with
          | text t => simp only [Node.Like] at hy; rw [hy]
          | elem => simp [Node.Like] at hy
        | .elem n as m kk =>
          refine ⟨_, rfl, ?_⟩
          intro y hy
          exact strip_of_like hG (.elem n as m kk) sc hx.1 n as m kk rfl (hsc _ List.mem_cons_self n as m kk rfl) y hy
      obtain ⟨z, hz, hz2⟩ := hb1
      rw [hz] at hy
      cases ys with
      | nil => simp [Node.LikeL] at hy
      | cons y ys =>
        obtain ⟨l1, l2⟩ := hy
        simp only [Node.stripL]
        rw [hz2 y l1, stripL_of_like hG ks sc hx.2 (fun k hk => hsc k (List.mem_cons_of_mem _ hk)) ys l2]
end

mutual
  theorem canon_clean {G : NsMap} (x : Node) (hx : x.Clean G) : x.canon = x.strip := by
    match x with
    | .text s => rfl
    | .elem n as m ks =>
      obtain ⟨-, -, -, ⟨h8, -⟩, h10⟩ := hx
      simp only [Node.canon, Node.strip]
      rw [canonL_clean ks h8 h10]
  theorem canonL_clean {G : NsMap} (ks : List Node) (h : (ntexts ks).length ≤ 1) (hx : Node.CleanL G ks) :
      Node.canonL ks = Node.stripL ks := by
    match ks with
    | [] => rfl
    | k :: ks =>
      rw [ntexts_cons, List.length_append] at h
      simp only [Node.canonL, Node.stripL]
      rw [canon_clean k hx.1, canonL_clean ks (by omega) hx.2]
      match k with
      | .elem n as m kk => rfl
      | .text s =>
        match ks with
        | [] => rfl
        | .elem n as m kk :: ks => rfl
        | .text t :: ks => simp [ntexts] at h; omega
end

/-- A clean tree, written and read. -/
theorem reparse_clean {L : Lib} (hL : XmlLaw L) {G : NsMap} (hG : NsTable G) (n : Name) (as : List Attr) (m : NsMap)
    (ks : List Node) (hx : (Node.elem n as m ks).Clean G) : ∃ y, Reparse L (.elem n as m ks) y ∧ y.Clean G := by
  obtain ⟨h1, h2⟩ := toW_ok hG _ [] hx n as m ks rfl (by simp)
  obtain ⟨y, hy, hp⟩ := hL.doc n.raw as m (Node.toWL ks) (Node.wevents (.elem n as m ks)) h1 (toW_events _)
  refine ⟨y, ⟨?_, [.startDocument], rfl, ?_⟩, ?_⟩
  · rw [canon_clean _ hx]
    exact strip_of_like hG _ [] hx n as m ks rfl (by simp) y hy
  · rw [hp {} (by intro i h; cases h)]
    rfl
  · exact (clean_of_like hG _ [] (by simp) h1 h2 y _ _ _ _ rfl hy).1

mutual
  theorem like_strip (x y : Node) (h : x.Like y) : x.strip = y.strip := by
    match x, y with
    | .text s, .text t => simp only [Node.Like] at h; rw [h]
    | .text s, .elem .. => simp [Node.Like] at h
    | .elem .., .text t => simp [Node.Like] at h
    | .elem n as m ks, .elem n' as' m' ks' =>
      simp only [Node.Like] at h
      obtain ⟨rfl, rfl, -, -, h⟩ := h
      simp only [Node.strip]
      rw [likeL_strip ks ks' h]
  theorem likeL_strip (xs ys : List Node) (h : Node.LikeL xs ys) : Node.stripL xs = Node.stripL ys := by
    match xs, ys with
    | [], [] => rfl
    | [], _ :: _ => simp [Node.LikeL] at h
    | _ :: _, [] => simp [Node.LikeL] at h
    | x :: xs, y :: ys =>
      obtain ⟨h1, h2⟩ := h
      simp only [Node.stripL]
      rw [like_strip x y h1, likeL_strip xs ys h2]
end

end Yaserde
