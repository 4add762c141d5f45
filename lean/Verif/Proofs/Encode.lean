import Verif.Spec.Encode
import Verif.Proofs.Reader
import Verif.Proofs.StrLt
/-
The generated serializers write exactly the events of the tree `encTy`.
-/

set_option autoImplicit false

namespace Yaserde

/-! ### Names and namespaces -/

theorem renamedLabel_eq (root : Attrs) (f : FieldDef) : f.renamedLabel root = f.written root := by
  unfold FieldDef.renamedLabel FieldDef.written qualify FieldDef.label
  cases hp : f.attrs.pfx with
  | none => simp
  | some p => by_cases h : root.defaultNs = some p <;> simp [h]

theorem buildLabelName_eq (root : Attrs) (v : VariantDef) :
    buildLabelName v.ident v.attrs root.defaultNs = v.written root := by
  unfold buildLabelName VariantDef.written qualify
  cases hp : v.attrs.pfx with
  | none => simp
  | some p => by_cases h : root.defaultNs = some p <;> simp [h]

theorem serRootName_eq (a : Attrs) (ident : Str) : serRootName a ident = a.written ident := by
  unfold serRootName Attrs.prefixNamespace Attrs.xmlElementName Attrs.written qualify
  cases hp : a.pfx with
  | none => simp
  | some p => by_cases h : a.defaultNs = some p <;> simp [h]

theorem NsMap.extend_nil (m : NsMap) : m.extend [] = m := rfl

theorem NsMap.extend_append (m a b : NsMap) : m.extend (a ++ b) = (m.extend a).extend b := by
  unfold NsMap.extend; rw [List.foldl_append]

theorem NsMap.put_any_iff (m : NsMap) (p u : Str) (k : Str) :
    (m.put p u).any (fun e => e.1 == k) = true ↔ p = k ∨ m.any (fun e => e.1 == k) = true := by
  unfold NsMap.put; split
  · rename_i h
    exact ⟨.inr, fun k => k.elim (fun e => e ▸ h) id⟩
  · rw [(NsMap.insert_perm p u m).any_eq, List.any_cons, Bool.or_eq_true, beq_iff_eq]

theorem NsMap.put_any (m : NsMap) (p u : Str) (k : Str) (h : m.any (fun e => e.1 == k) = true) :
    (m.put p u).any (fun e => e.1 == k) = true := (NsMap.put_any_iff m p u k).mpr (.inr h)

theorem NsMap.put_self (m : NsMap) (p u : Str) : (m.put p u).any (fun e => e.1 == p) = true :=
  (NsMap.put_any_iff m p u p).mpr (.inl rfl)

theorem NsMap.put_comm (m : NsMap) {p q : Str} (u v : Str) (h : p ≠ q) :
    (m.put q v).put p u = (m.put p u).put q v := by
  have h1 := NsMap.put_any_iff m q v p
  have h2 := NsMap.put_any_iff m p u q
  unfold NsMap.put at h1 h2 ⊢
  by_cases hp : m.any (fun e => e.1 == p) = true <;> by_cases hq : m.any (fun e => e.1 == q) = true
  · simp only [if_pos hp, if_pos hq]
  · simp only [if_pos hp, if_neg hq] at h1 ⊢
    rw [if_pos (h1.mpr (.inr hp))]
  · simp only [if_neg hp, if_pos hq] at h2 ⊢
    rw [if_pos (h2.mpr (.inr hq))]
  · simp only [if_neg hp, if_neg hq] at h1 h2 ⊢
    rw [if_neg (fun k => (h1.mp k).elim (fun e => h e.symm) hp),
      if_neg (fun k => (h2.mp k).elim (fun e => h e) hq), NsMap.insert_comm u v h]

theorem NsMap.extend_any_left (m a : NsMap) (k : Str) (h : m.any (fun e => e.1 == k) = true) :
    (m.extend a).any (fun e => e.1 == k) = true := by
  unfold NsMap.extend
  induction a generalizing m with
  | nil => exact h
  | cons e a ih => exact ih _ (NsMap.put_any m e.1 e.2 k h)

theorem NsMap.extend_any_right (m a : NsMap) (k : Str) (h : a.any (fun e => e.1 == k) = true) :
    (m.extend a).any (fun e => e.1 == k) = true := by
  induction a generalizing m with
  | nil => cases h
  | cons e a ih =>
    show List.any (NsMap.extend (m.put e.1 e.2) a) _ = true
    rw [List.any_cons, Bool.or_eq_true] at h
    rcases h with h | h
    · rw [beq_iff_eq] at h; subst h
      exact NsMap.extend_any_left _ _ _ (NsMap.put_self ..)
    · exact ih _ h

theorem NsMap.extend_put (m a : NsMap) (p u : Str) : m.extend (a.put p u) = (m.extend a).put p u := by
  by_cases h : a.any (fun e => e.1 == p) = true
  · have h1 : a.put p u = a := by unfold NsMap.put; rw [if_pos h]
    have h2 : (m.extend a).put p u = m.extend a := by
      unfold NsMap.put; rw [if_pos (NsMap.extend_any_right m a p h)]
    rw [h1, h2]
  · have h1 : a.put p u = a.insert p u := by unfold NsMap.put; rw [if_neg h]
    rw [h1]
    clear h1
    induction a generalizing m with
    | nil => rfl
    | cons e a ih =>
      rw [List.any_cons, Bool.or_eq_true, beq_iff_eq, not_or] at h
      unfold NsMap.insert; split
      · show NsMap.extend ((m.put p u).put e.1 e.2) a = (NsMap.extend (m.put e.1 e.2) a).put p u
        rw [NsMap.put_comm m e.2 u h.1]
        have key : ∀ (a m : NsMap), ¬ a.any (fun e => e.1 == p) = true → NsMap.extend (m.put p u) a = (NsMap.extend m a).put p u := by
          intro a
          induction a with
          | nil => intro m _; rfl
          | cons d a ih =>
            intro m h
            rw [List.any_cons, Bool.or_eq_true, beq_iff_eq, not_or] at h
            show NsMap.extend ((m.put p u).put d.1 d.2) a = (NsMap.extend (m.put d.1 d.2) a).put p u
            rw [NsMap.put_comm m d.2 u h.1, ih _ h.2]
        exact key a _ h.2
      · exact ih (m.put e.1 e.2) h.2

theorem NsMap.extend_extend (m a b : NsMap) : m.extend (NsMap.extend a b) = (m.extend a).extend b := by
  induction b generalizing a with
  | nil => rfl
  | cons e b ih =>
    show m.extend (NsMap.extend (a.put e.1 e.2) b) = NsMap.extend ((m.extend a).put e.1 e.2) b
    rw [ih, NsMap.extend_put]

theorem namespacesDef_eq (a : Attrs) : namespacesDef a = firstDecls a.decls := by
  unfold namespacesDef firstDecls Attrs.decls NsMap.extend
  rw [List.foldl_map]
  congr 1
  funext m e
  split <;> rfl

theorem allDecls_eq (a : Attrs) (c : NsMap) :
    (namespacesDef a).extend (firstDecls c) = firstDecls (a.decls ++ c) := by
  rw [namespacesDef_eq]
  unfold firstDecls
  rw [NsMap.extend_extend, NsMap.extend_append]
  rfl

theorem allDecls_eq' (a : Attrs) (c : NsMap) :
    NsMap.extend (NsMap.extend [] (namespacesDef a)) (firstDecls c) = firstDecls (a.decls ++ c) := by
  rw [namespacesDef_eq]
  unfold firstDecls
  rw [NsMap.extend_extend, NsMap.extend_extend, NsMap.extend_append]
  rfl

theorem selected_iff (f : FieldDef) (self v : Val) :
    attrCondition f self v = true ↔ f.selected self v := by
  unfold attrCondition FieldDef.selected
  cases f.skipIf <;> cases f.dflt <;> simp

theorem attrCondition_eq (f : FieldDef) (self v : Val) :
    attrCondition f self v = decide (f.selected self v) := by
  rw [Bool.eq_iff_iff, selected_iff, decide_eq_true_iff]

theorem serCondition_eq (f : FieldDef) (self v : Val) :
    (!serCondition f self v) = (f.attrs.skipSer || !decide (f.selected self v)) := by
  rw [← attrCondition_eq]
  unfold serCondition attrCondition
  rw [Bool.and_assoc, Bool.not_and, Bool.not_not]

/-! ### Writes of the serializer -/

theorem performWrites_append (io : Nat → Option Str) (a b : List (WEv × Bool)) (n : Nat) :
    performWrites io n (a ++ b) = if (performWrites io n a).1 = true then
      ((performWrites io (n + a.length) b).1, (performWrites io n a).2 ++ (performWrites io (n + a.length) b).2)
      else performWrites io n a := by
  induction a generalizing n with
  | nil => simp [performWrites]
  | cons w a ih =>
    obtain ⟨e, q⟩ := w
    rw [List.cons_append, performWrites, performWrites, ih (n + 1), List.length_cons, show n + 1 + a.length = n + (a.length + 1) by omega]
    cases io n with
    | none =>
      dsimp only
      split <;> rfl
    | some m =>
      cases q with
      | false => rfl
      | true => rfl

theorem performWrites_all (io : Nat → Option Str) (h : ∀ n, io n = none) (a : List (WEv × Bool)) (n : Nat) :
    performWrites io n a = (true, a.map (·.1)) := by
  induction a generalizing n with
  | nil => rfl
  | cons w a ih =>
    obtain ⟨e, q⟩ := w
    rw [performWrites, h, ih]
    rfl

/-- If all errors are noticed, the first one ends it. -/
theorem performWrites_loud (io : Nat → Option Str) (a : List (WEv × Bool)) (h : ∀ w ∈ a, w.2 = false) (n : Nat) :
    (performWrites io n a = (true, a.map (·.1)) ∧ ∀ j, j < a.length → io (n + j) = none) ∨
    ∃ j, j < a.length ∧ performWrites io n a = (false, (a.map (·.1)).take j) ∧ (∃ e, io (n + j) = some e) ∧
      ∀ i, i < j → io (n + i) = none := by
  induction a generalizing n with
  | nil => exact .inl ⟨rfl, by simp⟩
  | cons w a ih =>
    obtain ⟨e, q⟩ := w
    have hq : q = false := h (e, q) (List.mem_cons_self ..)
    subst hq
    rw [performWrites]
    cases hio : io n with
    | some m => exact .inr ⟨0, by simp, by simp, ⟨m, hio⟩, by simp⟩
    | none =>
      have step : ∀ (k : Nat), (∀ j, j < k → io (n + 1 + j) = none) → ∀ j, j < k + 1 → io (n + j) = none := by
        intro k hk j hj
        cases j with
        | zero => exact hio
        | succ j => rw [← hk j (by omega)]; congr 1; omega
      rcases ih (fun w hw => h w (List.mem_cons_of_mem _ hw)) (n + 1) with ⟨h1, h2⟩ | ⟨j, hj, h1, ⟨m, h2⟩, h3⟩
      · exact .inl ⟨by rw [h1]; rfl, step _ h2⟩
      · refine .inr ⟨j + 1, by simp; omega, by rw [h1]; rfl, ⟨m, ?_⟩, step _ h3⟩
        rw [← h2]; congr 1; omega

/-- What has been written is part of it, and if all writes have been tried, the unmarked ones have been written. -/
theorem performWrites_sublist (io : Nat → Option Str) (a : List (WEv × Bool)) (n : Nat) :
    (performWrites io n a).2.Sublist (a.map (·.1)) ∧ ((performWrites io n a).1 = true →
      ∀ P : WEv → Bool, (∀ w ∈ a, w.2 = true → P w.1 = false) → (performWrites io n a).2.filter P = (a.map (·.1)).filter P) := by
  induction a generalizing n with
  | nil => exact ⟨.slnil, fun _ _ _ => rfl⟩
  | cons w a ih =>
    obtain ⟨e, q⟩ := w
    obtain ⟨h1, h2⟩ := ih (n + 1)
    rw [performWrites]
    cases io n with
    | none =>
      refine ⟨h1.cons₂ e, fun h P hP => ?_⟩
      have := h2 h P fun w hw => hP w (List.mem_cons_of_mem _ hw)
      simp only [List.map_cons, List.filter_cons, this]
    | some m =>
      cases q with
      | false =>
        refine ⟨List.nil_sublist _, fun h => ?_⟩
        cases h
      | true =>
        refine ⟨h1.cons e, fun h P hP => ?_⟩
        have := h2 h P fun w hw => hP w (List.mem_cons_of_mem _ hw)
        have he : P e = false := hP (e, true) (List.mem_cons_self ..) rfl
        simpa only [List.map_cons, List.filter_cons, he, Bool.false_eq_true, ↓reduceIte] using this

/-- What is claimed of writes: whether no error goes unnoticed, and whether it is claimed for writers that fail. -/
structure WriteMode where
  reports : Prop
  exact : Prop

/-- The computation performs the writes, after which the elements `op` are open. -/
def Performs (x : S Unit) (s : Sr) (ps : List (WEv × Bool)) (op : List Name) : Prop :=
  ((performWrites s.writer.io s.writer.calls ps).1 = true → ∃ s', x s = (.ok (), s') ∧
    s'.writer.out = s.writer.out ++ (performWrites s.writer.io s.writer.calls ps).2 ∧ s'.writer.opened = op ∧
    s'.writer.calls = s.writer.calls + ps.length ∧ s'.writer.io = s.writer.io) ∧
  ((performWrites s.writer.io s.writer.calls ps).1 = false → ∃ m s', x s = (.err m, s') ∧
    s'.writer.out = s.writer.out ++ (performWrites s.writer.io s.writer.calls ps).2)

theorem Performs.seq {x y : S Unit} {s : Sr} {ps qs : List (WEv × Bool)} {op op' : List Name} (h : Performs x s ps op)
    (h' : ∀ s1, x s = (.ok (), s1) → s1.writer.opened = op → s1.writer.io = s.writer.io → Performs y s1 qs op') :
    Performs (x >>= fun _ => y) s (ps ++ qs) op' := by
  unfold Performs
  rw [performWrites_append]
  cases hb : (performWrites s.writer.io s.writer.calls ps).1 with
  | false =>
    obtain ⟨m, s1, e1, o1⟩ := h.2 hb
    rw [if_neg (by simp)]
    exact ⟨fun hc => (by rw [hb] at hc; cases hc), fun _ => ⟨m, s1, by rw [bind_err e1], o1⟩⟩
  | true =>
    obtain ⟨s1, e1, o1, p1, c1, i1⟩ := h.1 hb
    rw [if_pos rfl, bind_ok e1]
    have h2 := h' s1 e1 p1 i1
    unfold Performs at h2
    rw [i1, c1] at h2
    refine ⟨fun hc => ?_, fun hc => ?_⟩
    · obtain ⟨s2, e2, o2, p2, c2, i2⟩ := h2.1 hc
      exact ⟨s2, e2, by rw [o2, o1, List.append_assoc], p2, by rw [c2, List.length_append]; omega, i2⟩
    · obtain ⟨m, s2, e2, o2⟩ := h2.2 hc
      exact ⟨m, s2, e2, by rw [o2, o1, List.append_assoc]⟩

theorem performs_write {s : Sr} {e : WEv} {op : List Name}
    (h : s.writer.io s.writer.calls = none → swrite e s = (.ok (), { s with writer := { s.writer with
      calls := s.writer.calls + 1, out := s.writer.out ++ [e], opened := op } })) : Performs (swrite e) s [(e, false)] op := by
  unfold Performs
  rw [performWrites]
  cases hio : s.writer.io s.writer.calls with
  | none =>
    refine ⟨fun _ => ⟨_, h hio, rfl, rfl, rfl, rfl⟩, fun hc => ?_⟩
    cases hc
  | some m =>
    refine ⟨fun hc => ?_, fun _ => ⟨m, { s with writer := { s.writer with calls := s.writer.calls + 1 } }, ?_, ?_⟩⟩
    · cases hc
    · unfold swrite EW.write; rw [hio]
    · exact (List.append_nil _).symm

/-- Started with flags satisfying `F`, the computation performs the writes `es` one after the other and fails with an error
exactly when one of them fails. The errors of some writes of text may go unnoticed unless the mode is `reports`; the claim is about
writers that do not fail only unless the mode is `exact`. -/
def Writes (B : WriteMode) (F : Option Str → Bool → Prop) (x : S Unit) (es : List WEv) : Prop :=
  ∃ ps : List (WEv × Bool), ps.map (·.1) = es ∧ (∀ w ∈ ps, w.2 = true → ¬ B.reports ∧ ∃ t, w.1 = .chars t) ∧
    ∀ s : Sr, F s.startName s.skip → (B.exact ∨ ∀ n, s.writer.io n = none) → Performs x s ps s.writer.opened

/-- Flags as set for a place. -/
def Place.Set (pl : Place) (n : Option Str) (b : Bool) : Prop := n = pl.name ∧ b = pl.bare

def AnyFlags (_ : Option Str) (_ : Bool) : Prop := True

namespace Writes
variable {B : WriteMode} {F : Option Str → Bool → Prop}

theorem weaken {x : S Unit} {es : List WEv} (h : Writes B AnyFlags x es) : Writes B F x es :=
  let ⟨ps, h1, h2, h3⟩ := h
  ⟨ps, h1, h2, fun s _ => h3 s trivial⟩

theorem of_eq {x y : S Unit} {es : List WEv} (e : ∀ s, F s.startName s.skip → x s = y s) (h : Writes B F y es) : Writes B F x es := by
  obtain ⟨ps, h1, h2, h3⟩ := h
  refine ⟨ps, h1, h2, fun s hf hio => ?_⟩
  have := h3 s hf hio
  unfold Performs at this ⊢
  rw [e s hf]
  exact this

/-- In terms of the first write that fails. -/
theorem run {x : S Unit} {es : List WEv} (h : Writes B F x es) (s : Sr) (hf : F s.startName s.skip)
    (hio : (B.reports ∧ B.exact) ∨ ∀ n, s.writer.io n = none) :
    (∃ s', x s = (.ok (), s') ∧ s'.writer.out = s.writer.out ++ es ∧ s'.writer.opened = s.writer.opened ∧
      s'.writer.calls = s.writer.calls + es.length ∧ s'.writer.io = s.writer.io ∧
      ∀ j, j < es.length → s.writer.io (s.writer.calls + j) = none) ∨
    (∃ j m s', x s = (.err m, s') ∧ j < es.length ∧ s'.writer.out = s.writer.out ++ es.take j ∧
      (∃ e, s.writer.io (s.writer.calls + j) = some e) ∧
      ∀ i, i < j → s.writer.io (s.writer.calls + i) = none) := by
  obtain ⟨ps, rfl, h2, h3⟩ := h
  obtain ⟨h4, h5⟩ := h3 s hf (hio.imp And.right id)
  have key : (performWrites s.writer.io s.writer.calls ps = (true, ps.map (·.1)) ∧
        ∀ j, j < ps.length → s.writer.io (s.writer.calls + j) = none) ∨
      ∃ j, j < ps.length ∧ performWrites s.writer.io s.writer.calls ps = (false, (ps.map (·.1)).take j) ∧
        (∃ e, s.writer.io (s.writer.calls + j) = some e) ∧ ∀ i, i < j → s.writer.io (s.writer.calls + i) = none := by
    rcases hio with hB | hio
    · refine performWrites_loud _ _ (fun w hw => ?_) _
      cases hq : w.2 with
      | false => rfl
      | true => exact ((h2 w hw hq).1 hB.1).elim
    · exact .inl ⟨performWrites_all _ hio _ _, fun j _ => hio _⟩
  rw [List.length_map]
  rcases key with ⟨e, hn⟩ | ⟨j, hj, e, he, hn⟩
  · rw [e] at h4
    obtain ⟨s', e1, o1, p1, c1, i1⟩ := h4 rfl
    exact .inl ⟨s', e1, o1, p1, c1, i1, hn⟩
  · rw [e] at h5
    obtain ⟨m, s', e1, o1⟩ := h5 rfl
    exact .inr ⟨j, m, s', e1, hj, o1, he, hn⟩

theorem pure_ : Writes B F (M.pure ()) [] :=
  ⟨[], rfl, by simp, fun s _ _ => ⟨fun _ => ⟨s, rfl, by simp [performWrites], rfl, by simp, rfl⟩, fun hc => by cases hc⟩⟩

theorem seq {x y : S Unit} {es1 es2 : List WEv} (h1 : Writes B F x es1) (h2 : Writes B AnyFlags y es2) :
    Writes B F (x >>= fun _ => y) (es1 ++ es2) := by
  obtain ⟨ps, rfl, a2, a3⟩ := h1
  obtain ⟨qs, rfl, b2, b3⟩ := h2
  refine ⟨ps ++ qs, List.map_append, fun w hw => (List.mem_append.mp hw).elim (a2 w) (b2 w), fun s hf hio => ?_⟩
  refine (a3 s hf hio).seq fun s1 _ p1 i1 => ?_
  rw [← p1]
  exact b3 s1 trivial (by rw [i1]; exact hio)

theorem write_text (e : WEv) (he : (∃ t, e = .chars t) ∨ ∃ t, e = .cdata t) : Writes B F (swrite e) [e] := by
  refine ⟨[(e, false)], rfl, fun w hw h => ?_, fun s _ _ => performs_write fun hio => ?_⟩
  · rw [List.mem_singleton] at hw
    subst hw
    cases h
  · unfold swrite EW.write
    rw [hio]
    rcases he with ⟨t, rfl⟩ | ⟨t, rfl⟩ <;> rfl

/-- An element around what `x` writes. -/
theorem enclose {x : S Unit} {es : List WEv} (n : Name) (as : List Attr) (m : NsMap) (h : Writes B F x es) :
    Writes B F (swrite (.start n as m) >>= fun _ => x >>= fun _ => swrite (.endE none)) (.start n as m :: (es ++ [.endE none])) := by
  obtain ⟨ps, rfl, a2, a3⟩ := h
  refine ⟨[(.start n as m, false)] ++ (ps ++ [(.endE none, false)]), by simp, fun w hw h => ?_, fun s hf hio => ?_⟩
  · simp only [List.mem_append, List.mem_singleton] at hw
    rcases hw with rfl | hw | rfl
    · cases h
    · exact a2 w hw h
    · cases h
  · have h0 : s.writer.io s.writer.calls = none → swrite (.start n as m) s = (.ok (), { s with writer := { s.writer with
        calls := s.writer.calls + 1, out := s.writer.out ++ [.start n as m], opened := n :: s.writer.opened } }) := by
      intro hio
      unfold swrite EW.write
      rw [hio]
    refine (performs_write h0).seq fun s1 e1 p1 i1 => ?_
    have hflags : F s1.startName s1.skip := by
      cases hc : s.writer.io s.writer.calls with
      | none => rw [h0 hc] at e1; cases e1; exact hf
      | some e => unfold swrite EW.write at e1; rw [hc] at e1; cases e1
    refine (a3 s1 hflags (by rw [i1]; exact hio)).seq fun s2 _ p2 i2 => performs_write fun hio => ?_
    unfold swrite EW.write
    rw [hio, p2, p1]

theorem flags {x : S Unit} {es : List WEv} (pl : Place) (h : Writes B pl.Set x es) :
    Writes B F (setFlags pl.name pl.bare >>= fun _ => x) es := by
  obtain ⟨ps, h1, h2, h3⟩ := h
  refine ⟨ps, h1, h2, fun s _ hio => ?_⟩
  unfold Performs
  rw [bind_ok (s := s) (a := ()) (s' := { s with startName := pl.name, skip := pl.bare }) rfl]
  exact h3 { s with startName := pl.name, skip := pl.bare } ⟨rfl, rfl⟩ hio

/-- The same up to error messages. -/
def _root_.Yaserde.SameUpTo (x y : S Unit) : Prop :=
  ∀ s, (∃ m m' s', x s = (.err m, s') ∧ y s = (.err m', s')) ∨ x s = y s

theorem _root_.Yaserde.SameUpTo.mapErr_ (m : Str) (x : S Unit) : SameUpTo (mapErr m x) x := by
  intro s
  unfold mapErr
  cases h : x s with
  | mk r s' => cases r <;> simp

theorem _root_.Yaserde.SameUpTo.bind {x x' y y' : S Unit} (hx : SameUpTo x x') (hy : SameUpTo y y') :
    SameUpTo (x >>= fun _ => y) (x' >>= fun _ => y') := by
  intro s
  rcases hx s with ⟨m, m', s', e, e'⟩ | e
  · exact .inl ⟨m, m', s', by rw [bind_err e], by rw [bind_err e']⟩
  · simp only [bind_def, M.bind, e]
    cases h : x' s with
    | mk r s' =>
      cases r
      case ok a => exact hy s'
      all_goals exact .inr rfl

theorem congr {x y : S Unit} {es : List WEv} (e : SameUpTo x y) (h : Writes B F y es) : Writes B F x es := by
  obtain ⟨ps, h1, h2, h3⟩ := h
  refine ⟨ps, h1, h2, fun s hf hio => ?_⟩
  obtain ⟨h4, h5⟩ := h3 s hf hio
  rcases e s with ⟨m, m', s', e, e'⟩ | e
  · refine ⟨fun hc => ?_, fun hc => ?_⟩
    · obtain ⟨s1, e1, -⟩ := h4 hc
      rw [e1] at e'; cases e'
    · obtain ⟨m1, s1, e1, o1⟩ := h5 hc
      rw [e1] at e'; cases e'
      exact ⟨m, _, e, o1⟩
  · unfold Performs
    rw [e]
    exact ⟨h4, h5⟩

theorem mapErr_ {x : S Unit} {es : List WEv} (m : Str) (h : Writes B F x es) : Writes B F (mapErr m x) es :=
  h.congr (SameUpTo.mapErr_ m x)

/-- Writes whose errors are dropped. -/
theorem dropped (t : Str) (hB : ¬ B.reports) : Writes B F (M.attempt (swrite (.chars t)) >>= fun _ => M.pure ()) [.chars t] := by
  refine ⟨[(.chars t, true)], rfl, fun w hw _ => ?_, fun s _ _ => ?_⟩
  · rw [List.mem_singleton] at hw
    subst hw
    exact ⟨hB, t, rfl⟩
  · unfold Performs
    rw [performWrites]
    cases hio : s.writer.io s.writer.calls with
    | none =>
      refine ⟨fun _ => ⟨{ s with writer := { s.writer with calls := s.writer.calls + 1, out := s.writer.out ++ [.chars t] } },
        ?_, rfl, rfl, rfl, rfl⟩, fun hc => by cases hc⟩
      rw [bind_ok (a := .ok ()) (s' := { s with writer := { s.writer with calls := s.writer.calls + 1, out := s.writer.out ++ [.chars t] } })]
      · rfl
      · unfold M.attempt swrite EW.write
        rw [hio]
    | some m =>
      refine ⟨fun _ => ⟨{ s with writer := { s.writer with calls := s.writer.calls + 1 } },
        ?_, by simp [performWrites], rfl, rfl, rfl⟩, fun hc => by cases hc⟩
      rw [bind_ok (a := .error m) (s' := { s with writer := { s.writer with calls := s.writer.calls + 1 } })]
      · rfl
      · unfold M.attempt swrite EW.write
        rw [hio]

theorem builtin (L : Lib) (v : Val) (hB : ¬ B.reports) : Writes B F (serBuiltin L v) [.chars (showS L v)] := dropped _ hB

end Writes

theorem WNode.eventsL_append (a b : List WNode) : WNode.eventsL (a ++ b) = WNode.eventsL a ++ WNode.eventsL b := by
  induction a with
  | nil => simp [WNode.eventsL]
  | cons k a ih => rw [List.cons_append, WNode.eventsL, WNode.eventsL, ih, List.append_assoc]

theorem WNode.eventsL_single (a : WNode) : WNode.eventsL [a] = a.events := by
  simp [WNode.eventsL]

theorem pure_seq (x : S Unit) : (M.pure () >>= fun _ => x) = x := rfl

theorem bind_assoc' (x y z : S Unit) :
    (x >>= fun _ => y >>= fun _ => z) = ((x >>= fun _ => y) >>= fun _ => z) := by
  funext s
  simp only [bind_def, M.bind]
  cases hx : x s with
  | mk r s' => cases r <;> rfl

theorem placeFlags (root : Attrs) (f : FieldDef) :
    setFlags (if f.attrs.flatten then none else some (f.renamedLabel root)) f.attrs.flatten
      = setFlags (f.place root).name (f.place root).bare := by
  rw [renamedLabel_eq]
  unfold FieldDef.place
  cases f.attrs.flatten <;> rfl

namespace Writes
variable {B : WriteMode} {F : Option Str → Bool → Prop}

theorem encloseChars_ (name text : Str) : Writes B F (encloseChars name text) (leaf name text).events := by
  simp only [leaf, WNode.events, WNode.eventsL_single]
  exact enclose _ _ _ (write_text _ (.inl ⟨_, rfl⟩))

theorem encloseCdata_ (name text : Str) :
    Writes B F (encloseCdata name text) (WNode.elem name [] [] [.cdata text]).events := by
  simp only [WNode.events, WNode.eventsL_single]
  exact enclose _ _ _ (write_text _ (.inr ⟨_, rfl⟩))

theorem leaves (L : Lib) (name : Str) (xs : List Val) :
    Writes B F (xs.foldr (fun x k => encloseChars name (showS L x) >>= fun _ => k) (M.pure ()))
      (WNode.eventsL (xs.map fun x => leaf name (showS L x))) := by
  induction xs generalizing F with
  | nil => exact pure_
  | cons x xs ih =>
    rw [List.foldr_cons, List.map_cons, WNode.eventsL]
    exact (encloseChars_ _ _).seq ih

theorem wrap_ {L : Lib} (a : Attrs) (pl : Place) (root root' : Str) (acc : AttrAcc) (inner : S Unit) (kids : List WNode)
    (as : List Attr) (nss : NsMap) (hroot : root = root') (has : acc.own ++ acc.child = as)
    (hns : (namespacesDef a).extend acc.childNs = nss)
    (h : Writes B pl.Set inner (WNode.eventsL kids)) :
    Writes B pl.Set (implSerializer a root (.ok acc) inner) (WNode.eventsL (wrap a pl root' as nss kids)) := by
  subst hroot has hns
  refine of_eq (fun s hf => by unfold implSerializer; rw [bind_get, hf.1, hf.2]) ?_
  unfold wrap
  by_cases hc : (a.flatten || pl.bare) = true
  · have hc' : (!a.flatten && !pl.bare) = false := by
      rw [← Bool.not_or, hc]; rfl
    rw [if_pos hc, hc']
    have := h.seq (pure_ (F := AnyFlags))
    rw [List.append_nil] at this
    exact this
  · have hc' : (!a.flatten && !pl.bare) = true := by
      rw [← Bool.not_or]; simpa using hc
    rw [if_neg hc, hc', WNode.eventsL_single, WNode.events]
    exact h.enclose _ _ _

end Writes

/-- What is to be shown of a value of each type. -/
def EncOk (B : WriteMode) (L : Lib) (env : Env) : FTy → Val → Prop
  | .struct p, v =>
    (∀ pl, Writes B pl.Set (serTy L env p v) (WNode.eventsL (encTy L env pl p v))) ∧
      attrsOf L env p v = .ok (encTyAttrs L env p v, firstDecls (encTyDecls env p v))
  | .opt t, v => ∀ x, v = .some x → EncOk B L env t x
  | .vec t, v => ∀ xs, v = .vec xs → ∀ x ∈ xs, EncOk B L env t x
  | .simple _, _ => True

namespace EncOk
variable {B : WriteMode} {L : Lib} {env : Env} {F : Option Str → Bool → Prop}

theorem items {p : Path} {xs : List Val} (pl : Place) (h : ∀ x ∈ xs, EncOk B L env (.struct p) x) :
    Writes B F (serItems L env p (setFlags pl.name pl.bare) xs) (WNode.eventsL (encItems L env pl p xs)) := by
  induction xs generalizing F with
  | nil => simp only [serItems, encItems, WNode.eventsL]; exact .pure_
  | cons x xs ih =>
    simp only [serItems, encItems, WNode.eventsL_append]
    rw [bind_assoc']
    exact (((h x (List.mem_cons_self ..)).1 pl).flags pl).seq (ih fun y hy => h y (List.mem_cons_of_mem _ hy))

theorem optItems {t : FTy} {xs : List Val} (ht : (∃ s, t = .simple s ∧ ¬ B.reports) ∨ ∃ p, t = .struct p)
    (hv : ∀ x ∈ xs, ∀ y, x = .some y → EncOk B L env t y) :
    Writes B F (serOptItems L env t xs) (WNode.eventsL (encOptItems L env t xs)) := by
  induction xs generalizing F with
  | nil => simp only [serOptItems, encOptItems, WNode.eventsL]; exact .pure_
  | cons x xs ih =>
    have ih := @ih
    have ih' := fun F => @ih F fun y hy => hv y (List.mem_cons_of_mem _ hy)
    cases x
    case some x =>
      simp only [serOptItems, encOptItems, WNode.eventsL_append]
      rw [bind_assoc']
      refine Writes.seq ?_ (ih' _)
      refine Writes.flags .root ?_
      rcases ht with ⟨s, rfl, hB⟩ | ⟨p, rfl⟩
      · dsimp only
        rw [WNode.eventsL_single, WNode.events]
        exact .builtin L x hB
      · exact (hv _ (List.mem_cons_self ..) x rfl).1 _
    all_goals
      simp only [serOptItems, encOptItems]
      exact ih' _

theorem content {p : Path} {x : Val} (h : EncOk B L env (.struct p) x) :
    contentOf L (serTy L env p x) = .ok (L.emit { decl := false } (WNode.eventsL (encTy L env .inner p x))) := by
  unfold contentOf
  rcases (h.1 .inner).run { writer := {}, skip := true, startName := none } ⟨rfl, rfl⟩ (.inr fun _ => rfl) with
    ⟨s', e, o, -⟩ | ⟨j, m, s', e, hj, o, ⟨e', he⟩, -⟩
  · rw [e]
    dsimp only
    rw [o]
    rfl
  · cases he

end EncOk

/-- All fields. -/
def FieldsOk (B : WriteMode) (L : Lib) (env : Env) (fds : List FieldDef) (vs : List Val) : Prop :=
  ∀ (i : Nat) (f : FieldDef) (v : Val), fds[i]? = some f → vs[i]? = some v →
    f.SerOk ∧ HasTy env f.ty v ∧ EncOk B L env f.ty v ∧ (B.reports → ∀ t, f.ty ≠ .vec (.opt (.simple t)))

theorem FieldsOk.tail {B : WriteMode} {L : Lib} {env : Env} {f : FieldDef} {fds : List FieldDef} {v : Val} {vs : List Val}
    (h : FieldsOk B L env (f :: fds) (v :: vs)) : FieldsOk B L env fds vs :=
  fun i g w hg hw => h (i + 1) g w hg hw

theorem Writes.fields {B : WriteMode} {L : Lib} {env : Env} {F : Option Str → Bool → Prop} (root : Attrs) (self : Val)
    (fds : List FieldDef) (vs : List Val) (h : FieldsOk B L env fds vs) :
    Writes B F (serFields L env root self fds vs) (WNode.eventsL (encFields L env root self fds vs)) := by
  induction fds generalizing vs F with
  | nil => rw [serFields, encFields]; exact .pure_; all_goals simp
  | cons f fds ih =>
  cases vs with
  | nil => rw [serFields, encFields]; exact .pure_; all_goals simp
  | cons v vs =>
  rw [serFields.eq_def, encFields.eq_def]
  dsimp only
  rw [WNode.eventsL_append]
  refine Writes.seq ?_ (ih vs h.tail)
  obtain ⟨hs, ht, he, hb⟩ := h 0 f v rfl rfl
  clear ih h
  by_cases ha : f.attrs.isAttr = true
  · rw [if_pos ha, if_pos ha]; exact .pure_
  rw [if_neg ha, if_neg ha]
  unfold FieldDef.SerOk at hs
  rw [if_neg ha] at hs
  by_cases htx : f.attrs.text = true
  · rw [if_pos htx, if_pos htx]
    rw [if_pos htx] at hs
    rcases hs with hs | hs
    all_goals
      rw [hs] at ht
      cases ht
    · exact .write_text _ (.inl ⟨_, rfl⟩)
    · exact .write_text _ (.inl ⟨_, rfl⟩)
    · rename_i ht; cases ht
      exact .write_text _ (.inl ⟨_, rfl⟩)
  rw [if_neg htx, if_neg htx, serCondition_eq]
  rw [if_neg htx] at hs
  by_cases hsk : (f.attrs.skipSer || !decide (f.selected self v)) = true
  · rw [if_pos hsk, if_pos hsk]; exact .pure_
  rw [if_neg hsk, if_neg hsk]
  by_cases hcd : f.attrs.cdata = true
  · rw [if_pos hcd, if_pos hcd]
    rw [if_pos hcd] at hs
    rw [hs] at ht
    cases ht
    dsimp only
    rw [WNode.eventsL_single, renamedLabel_eq]
    exact .encloseCdata_ _ _
  rw [if_neg hcd, if_neg hcd]
  rw [if_neg hcd] at hs
  rw [placeFlags, renamedLabel_eq]
  generalize hty : f.ty = ty at *
  split at hs
  · -- scalar
    dsimp only
    rw [WNode.eventsL_single]
    exact .encloseChars_ _ _
  · cases ht with
    | none => exact .pure_
    | some _ x h =>
      dsimp only
      rw [WNode.eventsL_single]
      exact .encloseChars_ _ _
  · cases ht with
    | none => exact .pure_
    | some _ x h =>
      cases h
      exact .leaves L _ _
  · cases ht with
    | none => exact .pure_
    | some _ x h => exact ((he x rfl).1 _).flags _
  · exact (he.1 _).flags _
  · cases ht
    exact .leaves L _ _
  · rename_i t
    cases ht with
    | vec _ vs h =>
      refine EncOk.optItems (.inl ⟨_, rfl, fun hB => hb hB t rfl⟩) ?_
      intro x hx y hy; exact he vs rfl x hx y hy
  · cases ht with
    | vec _ vs h =>
      refine EncOk.optItems (.inr ⟨_, rfl⟩) ?_
      intro x hx y hy; exact he vs rfl x hx y hy
  · cases ht with
    | vec _ vs h => exact EncOk.items _ (he vs rfl)
  · cases hs

theorem structAttrs_eq {B : WriteMode} {L : Lib} {env : Env} (root : Attrs) (self : Val)
    (fds : List FieldDef) (vs : List Val) (h : FieldsOk B L env fds vs) :
    structAttrs L env root self fds vs
      = .ok ⟨encOwn L env root self fds vs, encInherited L env fds vs, firstDecls (encInheritedDecls env fds vs)⟩ := by
  induction fds generalizing vs with
  | nil => rw [structAttrs.eq_def, encOwn.eq_def, encInherited.eq_def, encInheritedDecls.eq_def]; rfl
  | cons f fds ih =>
  cases vs with
  | nil => rw [structAttrs.eq_def, encOwn.eq_def, encInherited.eq_def, encInheritedDecls.eq_def]; rfl
  | cons v vs =>
  rw [structAttrs.eq_def, encOwn.eq_def, encInherited.eq_def, encInheritedDecls.eq_def]
  dsimp only
  obtain ⟨hs, ht, he, -⟩ := h 0 f v rfl rfl
  have ih := ih vs h.tail
  unfold FieldDef.SerOk at hs
  by_cases ha : f.attrs.isAttr = true
  · rw [if_pos ha] at hs ⊢
    have hsel := attrCondition_eq f self v
    rw [ha]
    simp only [Bool.true_and, Bool.not_true, Bool.false_and, Bool.false_eq_true, if_false, List.nil_append]
    generalize hty : f.ty = ty at *
    have key : ∀ text, (addOwn root f (attrCondition f self v) text
        ⟨encOwn L env root self fds vs, encInherited L env fds vs, firstDecls (encInheritedDecls env fds vs)⟩)
        = ⟨(if decide (f.selected self v) = true then [⟨Name.ofStr (f.written root), text⟩] else []) ++ encOwn L env root self fds vs,
            encInherited L env fds vs, firstDecls (encInheritedDecls env fds vs)⟩ := by
      intro text
      unfold addOwn
      rw [hsel, renamedLabel_eq]
      split <;> rfl
    split at hs
    · dsimp only
      rw [ih]
      simp only [Res.bind, key]
    · cases ht with
      | none => dsimp only; rw [ih]; simp
      | some _ x hx =>
        dsimp only
        rw [ih]
        simp only [Res.bind, key]
    · cases ht with
      | none => dsimp only; rw [ih]; simp
      | some _ x hx =>
        dsimp only
        rw [ih, (he x rfl).content]
        simp only [Res.bind, key]
    · dsimp only
      rw [ih, EncOk.content he]
      simp only [Res.bind, key]
    · dsimp only
      rw [ih]; simp
    · cases hs
  · rw [if_neg ha]
    have ha : f.attrs.isAttr = false := by simpa using ha
    rw [ha]
    simp only [Bool.false_and, Bool.false_eq_true, if_false, List.nil_append, Bool.not_false, Bool.true_and]
    by_cases hfl : f.attrs.flatten = true
    · rw [if_pos hfl, if_pos hfl, if_pos hfl]
      generalize hty : f.ty = ty at *
      cases ty
      case struct p =>
        dsimp only
        rw [he.2, ih]
        simp only [Res.bind]
        congr 2
        unfold firstDecls
        rw [NsMap.extend_extend, NsMap.extend_extend, NsMap.extend_append]
        rfl
      all_goals
        dsimp only
        rw [ih]; rfl
    · rw [if_neg hfl, if_neg hfl, if_neg hfl, ih]; rfl

namespace EncOk
variable {B : WriteMode} {L : Lib} {env : Env} {F : Option Str → Bool → Prop}

theorem named (root : Attrs) (fds : List FieldDef) (vs : List Val)
    (h : ∀ (i : Nat) (f : FieldDef) (v : Val), fds[i]? = some f → vs[i]? = some v →
      f.ty.NamedOk ∧ HasTy env f.ty v ∧ EncOk B L env f.ty v ∧ (B.reports → ∀ t, f.ty ≠ .vec (.simple t))) :
    Writes B F (serNamed L env root fds vs) (WNode.eventsL (encNamed L env root fds vs)) := by
  induction fds generalizing vs F with
  | nil => rw [serNamed.eq_def, encNamed.eq_def]; exact .pure_
  | cons f fds ih =>
  cases vs with
  | nil => rw [serNamed.eq_def, encNamed.eq_def]; exact .pure_
  | cons v vs =>
  rw [serNamed.eq_def, encNamed.eq_def]
  dsimp only
  rw [WNode.eventsL_append]
  refine Writes.seq ?_ (ih vs fun i g w hg hw => h (i + 1) g w hg hw)
  obtain ⟨hs, ht, he, hb⟩ := h 0 f v rfl rfl
  clear ih h
  rw [renamedLabel_eq]
  generalize hty : f.ty = ty at *
  unfold FTy.NamedOk at hs
  split at hs
  · dsimp only
    rw [WNode.eventsL_single]
    exact .encloseChars_ _ _
  · exact (he.1 ⟨some _, false⟩).flags ⟨some _, false⟩
  · cases ht with
    | vec _ xs hx => exact items ⟨some _, false⟩ (he xs rfl)
  · rename_i t
    have hB : ¬ B.reports := fun hB => hb hB t rfl
    cases ht with
    | vec _ xs hx =>
      dsimp only
      clear hx hty he
      induction xs generalizing F with
      | nil => exact .pure_
      | cons x xs ih =>
        rw [List.foldr_cons, List.map_cons, WNode.eventsL, WNode.events, bind_assoc']
        exact (Writes.flags ⟨some _, false⟩ (.builtin L x hB)).seq ih
  · exact .pure_
  · cases hs

theorem variantItems (name : Str) (t : FTy) (xs : List Val)
    (ht : (∃ s, t = .simple s ∧ (s = .string ∨ ¬ B.reports)) ∨ ∃ p, t = .struct p)
    (hv : ∀ x ∈ xs, EncOk B L env t x) :
    Writes B F (serVariantItems L env name t xs) (WNode.eventsL (encVariantItems L env name t xs)) := by
  induction xs generalizing F with
  | nil => rw [serVariantItems.eq_def, encVariantItems.eq_def]; exact .pure_
  | cons x xs ih =>
    rw [serVariantItems.eq_def, encVariantItems.eq_def]
    dsimp only
    have ih := @ih AnyFlags fun y hy => hv y (List.mem_cons_of_mem _ hy)
    rw [WNode.eventsL, bind_assoc', bind_assoc', ← bind_assoc' (swrite _)]
    refine Writes.seq ?_ ih
    rcases ht with ⟨s, rfl, hs⟩ | ⟨p, rfl⟩
    · dsimp only
      rw [leaf, WNode.events, WNode.eventsL_single, WNode.events]
      refine Writes.enclose _ _ _ ?_
      split
      · exact .write_text _ (.inl ⟨_, rfl⟩)
      · rename_i heq; cases heq
      · rename_i h1 h2
        refine Writes.flags .inner (.builtin L x ?_)
        rcases hs with rfl | hs
        · exact (h1 rfl).elim
        · exact hs
    · dsimp only
      rw [WNode.events]
      exact Writes.enclose _ _ _ (((hv x (List.mem_cons_self ..)).1 .inner).flags .inner)

theorem variant (pl : Place) (root : Attrs) (vd : VariantDef) (t : FTy) (x : Val) (hs : vd.shape = .newtype t)
    (hok : t.VariantOk) (ht : HasTy env t x) (he : EncOk B L env t x)
    (hb : B.reports → ∀ s, s ≠ .string → t ≠ .opt (.simple s) ∧ t ≠ .vec (.simple s)) :
    Writes B pl.Set (serVariant L env root vd [x]) (WNode.eventsL (encVariant L env pl root vd [x])) := by
  rw [serVariant.eq_def, encVariant.eq_def, hs, buildLabelName_eq]
  unfold FTy.VariantOk at hok
  split at hok
  · dsimp only
    rw [WNode.eventsL_single]
    exact .encloseChars_ _ _
  · rename_i s
    cases ht with
    | none => cases s <;> exact .pure_
    | some _ y hy =>
      by_cases hstr : s = .string
      · subst hstr
        dsimp only
        rw [WNode.eventsL_single]
        exact .encloseChars_ _ _
      · have hB : ¬ B.reports := fun hB => (hb hB s hstr).1 rfl
        cases s
        case string => exact (hstr rfl).elim
        all_goals
          dsimp only
          rw [WNode.eventsL_single, leaf, WNode.events, WNode.eventsL_single, WNode.events]
          rw [bind_assoc' (setFlags _ _)]
          exact Writes.enclose _ _ _ (Writes.flags .inner (.builtin L y hB))
  · cases ht with
    | none => exact .pure_
    | some _ y hy =>
      dsimp only
      rw [WNode.eventsL_single, WNode.events, bind_assoc' (setFlags _ _)]
      exact Writes.enclose _ _ _ (((he y rfl).1 .inner).flags .inner)
  · dsimp only
    split
    · exact he.1 pl
    · rw [WNode.eventsL_single, WNode.events, bind_assoc' (setFlags _ _)]
      exact Writes.enclose _ _ _ ((he.1 .inner).flags .inner)
  · rename_i s
    cases ht with
    | vec _ xs hx =>
      refine variantItems _ _ xs (.inl ⟨s, rfl, ?_⟩) (he xs rfl)
      by_cases hstr : s = .string
      · exact .inl hstr
      · exact .inr fun hB => (hb hB s hstr).2 rfl
  · cases ht with
    | vec _ xs hx => exact variantItems _ _ xs (.inr ⟨_, rfl⟩) (he xs rfl)
  · cases hok

theorem enumAttrs_eq (d : EnumDef) (vd : VariantDef) : (enumAttrs d vd).own ++ (enumAttrs d vd).child = tagAttrs d vd := by
  unfold enumAttrs tagAttrs
  cases d.attrs.tag with
  | none => rfl
  | some t => simp [Attrs.xmlElementName]

theorem enumAttrs_childNs (d : EnumDef) (vd : VariantDef) : (enumAttrs d vd).childNs = [] := by
  unfold enumAttrs
  cases d.attrs.tag <;> rfl

theorem enum {p : Path} {d : EnumDef} {i : Nat} {vd : VariantDef} {pay : List Val} (hp : env p = some (.enum d))
    (hv : d.variants[i]? = some vd)
    (h : ∀ pl : Place, Writes B pl.Set
      (match vd.shape with
        | .named fds => serNamed L env d.attrs fds pay
        | _ => serVariant L env d.attrs vd pay)
      (WNode.eventsL (match vd.shape with
        | .named fds => encNamed L env d.attrs fds pay
        | _ => encVariant L env pl d.attrs vd pay))) :
    EncOk B L env (.struct p) (.enum i pay) := by
  constructor
  · intro pl
    rw [serTy.eq_def, encTy.eq_def, hp]
    dsimp only
    rw [hv]
    dsimp only
    refine .wrap_ (L := L) _ _ _ _ _ _ _ _ _ (serRootName_eq _ _) ?_ ?_ (h pl)
    · exact enumAttrs_eq d vd
    · rw [enumAttrs_childNs, namespacesDef_eq]; rfl
  · rw [attrsOf.eq_def, encTyAttrs.eq_def, encTyDecls.eq_def, hp]
    dsimp only
    rw [hv]
    dsimp only
    unfold serializeAttributes
    simp only [Res.bind]
    rw [enumAttrs_eq, enumAttrs_childNs, namespacesDef_eq]
    unfold firstDecls
    rw [NsMap.extend_extend]
    rfl

theorem prim {p : Path} {d : PrimDef} (hp : env p = some (.prim d)) (hB : d.bare = true → ¬ B.reports) (v : Val) :
    EncOk B L env (.struct p) v := by
  constructor
  · intro pl
    rw [serTy.eq_def, encTy.eq_def, hp]
    dsimp only
    unfold serPrim wrap
    dsimp only
    cases hd : d.bare with
    | true =>
      rw [if_pos rfl, Bool.true_or, if_pos rfl, WNode.eventsL_single, WNode.events]
      exact .dropped _ (hB hd)
    | false =>
    rw [if_neg (by simp), Bool.false_or]
    refine Writes.of_eq (fun s hf => by rw [bind_get, hf.1, hf.2]) ?_
    cases hb : pl.bare with
    | true =>
      have := ((Writes.write_text (B := B) (F := pl.Set) (.chars (d.toStr v)) (.inl ⟨_, rfl⟩)).mapErr_
        (c!"Element value " ++ L.dbgStr (pl.name.getD d.name) ++ c!" write failed")).seq (Writes.pure_ (F := AnyFlags))
      rw [List.append_nil] at this
      have e : WNode.eventsL (if true = true then [WNode.text (d.toStr v)] else
          [.elem (pl.name.getD d.name) [] [] [.text (d.toStr v)]]) = [.chars (d.toStr v)] := by
        rw [if_pos rfl, WNode.eventsL_single, WNode.events]
      rw [e]
      exact this
    | false =>
      have e : WNode.eventsL (if false = true then [WNode.text (d.toStr v)] else
          [.elem (pl.name.getD d.name) [] [] [.text (d.toStr v)]])
          = .start (Name.ofStr (pl.name.getD d.name)) [] [] :: ([.chars (d.toStr v)] ++ [.endE none]) := by
        rw [if_neg (by simp), WNode.eventsL_single, WNode.events, WNode.eventsL_single, WNode.events]
      rw [e]
      have h := Writes.enclose (B := B) (F := pl.Set) (Name.ofStr (pl.name.getD d.name)) [] []
        (Writes.write_text (.chars (d.toStr v)) (.inl ⟨_, rfl⟩))
      refine Writes.congr ?_ h
      refine SameUpTo.bind (SameUpTo.mapErr_ _ _) (SameUpTo.bind (SameUpTo.mapErr_ _ _) (SameUpTo.mapErr_ _ _))
  · rw [attrsOf.eq_def, encTyAttrs.eq_def, encTyDecls.eq_def, hp]
    rfl

end EncOk

/-- **The serializers write the encoding.** -/
theorem encOk {L : Lib} {env : Env} (hok : SerOk env) {t : FTy} {v : Val} (h : HasTy env t v) :
    EncOk ⟨NoBuiltin env, True⟩ L env t v := by
  induction h with
  | str | bool | int | f32 | f64 => trivial
  | none t => intro x hx; cases hx
  | some t v h ih => intro x hx; cases hx; exact ih
  | vec t vs h ih => intro xs hx; cases hx; exact ih
  | struct p d fs hp hlen h ih =>
    have hfs : FieldsOk ⟨NoBuiltin env, True⟩ L env d.fields fs := by
      intro i f v hf hv
      have hm := List.mem_of_getElem? hf
      exact ⟨hok.fields p d hp f hm, h i f v hf hv, ih i f v hf hv, fun hB => hB.fields p d hp f hm⟩
    have hat := structAttrs_eq d.attrs (.struct fs) d.fields fs hfs
    constructor
    · intro pl
      rw [serTy.eq_def, encTy.eq_def, hp]
      dsimp only
      rw [hat]
      refine .wrap_ (L := L) _ _ _ _ _ _ _ _ _ (serRootName_eq _ _) rfl ?_ (.fields _ _ _ _ hfs)
      exact allDecls_eq _ _
    · rw [attrsOf.eq_def, encTyAttrs.eq_def, encTyDecls.eq_def, hp]
      dsimp only
      unfold serializeAttributes
      rw [hat]
      simp only [Res.bind]
      rw [allDecls_eq']
  | unit p d i vd hp hv hs =>
    refine EncOk.enum hp hv fun pl => ?_
    rw [hs]
    dsimp only
    rw [serVariant.eq_def, encVariant.eq_def, hs]
    dsimp only
    split
    · exact .pure_
    · rw [WNode.eventsL_single, WNode.events, buildLabelName_eq]
      exact .write_text _ (.inl ⟨_, rfl⟩)
  | newtype p d i vd t x hp hv hs h ih =>
    have hm := List.mem_of_getElem? hv
    refine EncOk.enum hp hv fun pl => ?_
    rw [hs]
    dsimp only
    refine EncOk.variant pl d.attrs vd t x hs (hok.variants p d hp vd hm t hs) h ih fun hB s hne => ?_
    have := hB.variants p d hp vd hm s hne
    rw [hs] at this
    exact ⟨fun e => this.1 (by rw [e]), fun e => this.2 (by rw [e])⟩
  | named p d i vd fds fs hp hv hs hlen h ih =>
    have hm := List.mem_of_getElem? hv
    refine EncOk.enum hp hv fun pl => ?_
    rw [hs]
    dsimp only
    refine EncOk.named _ _ _ fun j f v hf hw => ?_
    have hmf := List.mem_of_getElem? hf
    exact ⟨hok.named p d hp vd hm fds hs f hmf, h j f v hf hw, ih j f v hf hw, fun hB => hB.named p d hp vd hm fds hs f hmf⟩
  | prim p d v hp => exact EncOk.prim hp (fun hb hB => by rw [hB.prims p d hp] at hb; cases hb) v

end Yaserde
