import Verif.Proofs.DecodeEnum
/-
Deserialization of a conforming element, for every type: structs, enums, primitives, flatten.
-/

set_option autoImplicit false

namespace Yaserde

/-! ### Namespace declarations and merged texts do not matter -/

mutual
  theorem events_strip_length (x : Node) : x.strip.events.length = x.events.length := by
    cases x with
    | text s => rfl
    | elem n as m ks => simp [Node.strip, Node.events, eventsL_strip_length ks]
  theorem eventsL_strip_length (ks : List Node) :
      (Node.eventsL (Node.stripL ks)).length = (Node.eventsL ks).length := by
    cases ks with
    | nil => rfl
    | cons k ks => simp [Node.stripL, Node.eventsL, events_strip_length k, eventsL_strip_length ks]
end

mutual
  theorem events_canon_length (x : Node) : x.canon.events.length ≤ x.events.length := by
    cases x with
    | text s => exact Nat.le_refl _
    | elem n as m ks =>
      have := eventsL_canon_length ks
      simp [Node.canon, Node.events]; omega
  theorem eventsL_canon_length (ks : List Node) :
      (Node.eventsL (Node.canonL ks)).length ≤ (Node.eventsL ks).length := by
    cases ks with
    | nil => exact Nat.le_refl _
    | cons k ks =>
      have h1 := events_canon_length k
      have h2 := eventsL_canon_length ks
      unfold Node.canonL
      split
      · rename_i h3 h4
        rw [h3] at h1
        rw [h4] at h2
        simp [Node.eventsL, Node.events] at *
        omega
      · simp [Node.eventsL]; omega
end

mutual
  theorem canon_strip (x : Node) : x.strip.canon = x.canon := by
    cases x with
    | text s => rfl
    | elem n as m ks => simp [Node.strip, Node.canon, canonL_strip ks]
  theorem canonL_strip (ks : List Node) : Node.canonL (Node.stripL ks) = Node.canonL ks := by
    cases ks with
    | nil => rfl
    | cons k ks => simp only [Node.stripL, Node.canonL, canon_strip k, canonL_strip ks]
end

theorem textContent_strip (ks : List Node) : textContent (Node.stripL ks) = textContent ks := by
  match ks with
  | [] => rfl
  | [.text _] => rfl
  | [.elem ..] => rfl
  | _ :: _ :: _ => simp [Node.stripL, textContent]

theorem unitByText_strip (d : EnumDef) (ks : List Node) :
    unitByText d (Node.stripL ks) = unitByText d ks := by
  match ks with
  | [] => rfl
  | [.text _] => rfl
  | [.elem ..] => rfl
  | _ :: _ :: _ => simp [Node.stripL, unitByText]

theorem scalarContent_strip (L : Lib) (t : STy) (ks : List Node) :
    scalarContent L t (Node.stripL ks) = scalarContent L t ks := by
  match ks with
  | [] => rfl
  | [.text _] => rfl
  | [.elem ..] => rfl
  | _ :: _ :: _ => simp [Node.stripL, scalarContent]

theorem kidContrib_strip (L : Lib) (d : StructDef) (dec : Path → Res Val) (k : Node) :
    kidContrib L d dec k.strip = kidContrib L d dec k := by
  cases k with
  | text s => rfl
  | elem n as m ks => simp only [Node.strip, kidContrib, scalarContent_strip]

theorem variantKid_strip (L : Lib) (d : EnumDef) (dec : Path → Res Val) (k : Node) :
    variantKid L d dec k.strip = variantKid L d dec k := by
  cases k with
  | text s => rfl
  | elem n as m ks => simp only [Node.strip, variantKid, textContent_strip]

theorem stripL_eq_map (ks : List Node) : Node.stripL ks = ks.map Node.strip := by
  induction ks with
  | nil => rfl
  | cons k ks ih => simp [Node.stripL, ih]

theorem unclaimed_strip (d : StructDef) (k : Node) : d.unclaimed k.strip = d.unclaimed k := by
  cases k <;> rfl

theorem residue_strip (d : StructDef) (n : Name) (as : List Attr) (m : NsMap) (ks : List Node) :
    d.residue n as [] (Node.stripL ks) = (d.residue n as m ks).strip := by
  simp only [StructDef.residue, Node.strip, stripL_eq_map, List.filter_map]
  congr 2
  exact List.filter_congr fun k _ => unclaimed_strip d k

theorem variantKids_strip (L : Lib) (d : EnumDef) (ks : List (Node × (Path → Res Val))) (cur : Option Val) :
    variantKids L d (ks.map fun k => (k.1.strip, k.2)) cur = variantKids L d ks cur := by
  induction ks generalizing cur with
  | nil => rfl
  | cons k ks ih => simp only [List.map_cons, variantKids, variantKid_strip, ih]

mutual
  theorem decodeWith_strip (L : Lib) (env : Env) (flat : Node → Path → Res Val)
      (hf : ∀ x q, flat x.strip q = flat x q) (x : Node) (p : Path) :
      decodeWith L env flat x.strip p = decodeWith L env flat x p := by
    cases x with
    | text s => rfl
    | elem n as m ks =>
      have hk := decodeL_strip L env flat hf ks
      simp only [Node.strip, decodeWith, hk, textContent_strip]
      split
      · rename_i d _
        unfold decodeStruct
        have h1 : kidContribs L d (Node.stripL ks) (decodeL L env flat ks)
            = kidContribs L d ks (decodeL L env flat ks) := by
          unfold kidContribs
          rw [stripL_eq_map, List.zip_map_left, List.map_map]
          congr 3
          funext k
          exact kidContrib_strip ..
        have h2 : flat (d.residue n as [] (Node.stripL ks)) = flat (d.residue n as m ks) := by
          funext q; rw [residue_strip (m := m), hf]
        rw [h1, h2]
      · rename_i d _
        unfold decodeEnum
        rw [unitByText_strip]
        have h1 : variantKids L d ((Node.stripL ks).zip (decodeL L env flat ks)) none
            = variantKids L d (ks.zip (decodeL L env flat ks)) none := by
          rw [stripL_eq_map, List.zip_map_left]
          exact variantKids_strip ..
        rw [h1]
      · rfl
      · rfl
  theorem decodeL_strip (L : Lib) (env : Env) (flat : Node → Path → Res Val)
      (hf : ∀ x q, flat x.strip q = flat x q) (ks : List Node) :
      decodeL L env flat (Node.stripL ks) = decodeL L env flat ks := by
    cases ks with
    | nil => rfl
    | cons k ks =>
      simp only [Node.stripL, decodeL, decodeL_strip L env flat hf ks]
      congr 1
      funext p
      exact decodeWith_strip L env flat hf k p
end

/-! ### The knot -/

/-- How flattened fields and attributes of derived types are read, with up to `k` levels. -/
def flatN (L : Lib) (env : Env) : Nat → Node → Path → Res Val
  | 0 => fun _ _ => .err []
  | k + 1 => fun x q =>
    match x with
    | .text s =>
      match firstElem (content (L.parse (attrDoc q s)).evs) [] with
      | some y => decodeDocWith env (decodeN L env k) y q
      | none => .err []
    | .elem .. => decodeDocWith env (decodeN L env k) x.canon q

/-- Conformance for flattened fields and attributes of derived types, with up to `k` levels. -/
def flatConfN (L : Lib) (env : Env) : Nat → Node → Path → Prop
  | 0 => fun _ _ => False
  | k + 1 => fun x q =>
    match x with
    | .text s => ∃ y, IsDoc (L.parse (attrDoc q s)) y ∧ y.events.length ≤ k + 3 ∧ ConfN L env k y q
    | .elem .. => ∃ y, Reparse L x y ∧ ConfN L env k y q

theorem decodeN_eq (L : Lib) (env : Env) (k : Nat) : decodeN L env k = decodeWith L env (flatN L env k) := by
  cases k <;> rfl

theorem confN_eq (L : Lib) (env : Env) (k : Nat) : ConfN L env k = ConfWith L env (flatConfN L env k) := by
  cases k <;> rfl

theorem flatN_strip (L : Lib) (env : Env) (k : Nat) (x : Node) (q : Path) :
    flatN L env k x.strip q = flatN L env k x q := by
  cases k with
  | zero => rfl
  | succ k =>
    cases x with
    | text s => rfl
    | elem n as m ks =>
      have := canon_strip (.elem n as m ks)
      simp only [Node.strip] at this
      simp only [Node.strip, flatN, this]

theorem decodeN_strip (L : Lib) (env : Env) (k : Nat) (x : Node) (p : Path) :
    decodeN L env k x.strip p = decodeN L env k x p := by
  rw [decodeN_eq]; exact decodeWith_strip L env _ (flatN_strip L env k) x p

theorem name_strip (x : Node) : x.strip.name = x.name := by cases x <;> rfl

theorem decodeDoc_strip (L : Lib) (env : Env) (k : Nat) (x : Node) (p : Path) :
    decodeDocWith env (decodeN L env k) x.strip p = decodeDocWith env (decodeN L env k) x p := by
  unfold decodeDocWith; rw [name_strip, decodeN_strip]

/-- The outcome of reading `x` at depth `dep`. -/
def decodeAt (L : Lib) (env : Env) (k : Nat) (dep : Nat) (x : Node) (p : Path) : Res Val :=
  if dep = 0 then decodeDocWith env (decodeN L env k) x p else decodeN L env k x p

theorem decodeAt_eq (L : Lib) (env : Env) (k : Nat) (dep : Nat) (x : Node) (p : Path)
    (h : dep = 0 → ∀ d, env p = some (.struct d) → nsOk d.attrs x.name) :
    decodeAt L env k dep x p = decodeN L env k x p := by
  unfold decodeAt decodeDocWith
  split
  · rename_i hd
    split
    · rename_i d he
      rw [if_pos (h hd d he)]
    · rfl
  · rfl

theorem events_mem_le {k : Node} {ks : List Node} (h : k ∈ ks) :
    k.events.length ≤ (Node.eventsL ks).length := by
  induction ks with
  | nil => cases h
  | cons a ks ih =>
    rcases List.mem_cons.mp h with rfl | h
    · simp [Node.eventsL]
    · have := ih h; simp [Node.eventsL]; omega

theorem eventsL_filter_le (p : Node → Bool) (ks : List Node) :
    (Node.eventsL (ks.filter p)).length ≤ (Node.eventsL ks).length := by
  induction ks with
  | nil => exact Nat.le_refl _
  | cons a ks ih =>
    rw [List.filter_cons]
    split <;> simp [Node.eventsL] <;> omega

mutual
  theorem events_visible (x : Node) : x.events.filter (fun e => !e.skipped) = x.events := by
    cases x with
    | text s => rfl
    | elem n as m ks =>
      rw [Node.events, List.filter_cons, if_pos (by rfl), List.filter_append, eventsL_visible ks]
      rfl
  theorem eventsL_visible (ks : List Node) :
      (Node.eventsL ks).filter (fun e => !e.skipped) = Node.eventsL ks := by
    cases ks with
    | nil => rfl
    | cons k ks => simp [Node.eventsL, events_visible k, eventsL_visible ks]
end

theorem skipped_eq_isMisc : (fun e => !REv.skipped e) = fun e => !isMisc e := by
  funext e; cases e <;> rfl

/-- A whole document. -/
theorem Runs.doc {x : Res Val × Rd} {r : Res Val} {Q : Rd → Prop}
    (h : Runs x r fun v b rd => b = v ∧ Q rd) : x.1 = r ∧ r ≠ .diverge := by
  cases r with
  | ok a => obtain ⟨b, s, rfl, rfl, _⟩ := h; exact ⟨rfl, by simp⟩
  | err m => obtain ⟨s, rfl⟩ := h; exact ⟨rfl, by simp⟩
  | panic m => obtain ⟨s, rfl⟩ := h; exact ⟨rfl, by simp⟩
  | diverge => exact h.elim

/-- The text of a primitive's element stays unread. -/
def primLeft : List Node → List REv
  | [.text s] => [.chars s]
  | _ => []

theorem prim_tree (d : PrimDef) {own : Name} {as : List Attr} {m : NsMap} {ks : List Node}
    (hks : textOnly ks) {dep : Nat} {rest : List REv} {fin : Option Str} {rd : Rd}
    (hat : At dep ((Node.elem own as m ks).events ++ rest) fin rd) :
    Runs (primDeser d rd)
      (match d.fromStr (textContent ks) with | .ok v => .ok v | .error m => .err m)
      fun v b rd' => b = v ∧ At (dep + 1)
        (primLeft ks ++ .endE own :: rest) fin rd' := by
  have hat' : At dep (.start own as m :: (Node.eventsL ks ++ .endE own :: rest)) fin rd := by
    simpa [Node.events] using hat
  obtain ⟨rd1, h1, a1⟩ := peek_at hat'
  obtain ⟨rd2, h2, a2⟩ := next_start a1
  unfold primDeser
  rw [bind_ok (attempt_ok h1)]
  dsimp only
  rw [bind_ok h2]
  match ks, hks with
  | [], _ =>
    simp only [Node.eventsL, List.nil_append] at a2
    obtain ⟨rd3, h3, a3⟩ := peek_at a2
    rw [bind_ok (attempt_ok h3)]
    dsimp only [textContent]
    cases d.fromStr [] with
    | ok v => exact ⟨v, rd3, rfl, rfl, a3⟩
    | error e => exact ⟨rd3, rfl⟩
  | [.text s], _ =>
    simp only [Node.eventsL, Node.events, List.append_nil, List.cons_append, List.nil_append] at a2
    obtain ⟨rd3, h3, a3⟩ := peek_at a2
    rw [bind_ok (attempt_ok h3)]
    dsimp only [textContent]
    cases d.fromStr s with
    | ok v => exact ⟨v, rd3, rfl, rfl, a3⟩
    | error e => exact ⟨rd3, rfl⟩

/-! ### Attributes of derived types -/

mutual
  theorem firstElem_node (x : Node) (es : List REv) (n : Name) (as : List Attr) (m : NsMap) (ks : List Node) (st : Open) :
      firstElem (x.events ++ es) ((n, as, m, ks) :: st) = firstElem es ((n, as, m, x :: ks) :: st) := by
    cases x with
    | text s => simp [Node.events, firstElem]
    | elem n' as' m' ks' =>
      simp only [Node.events, List.cons_append, List.append_assoc, firstElem]
      rw [firstElem_nodes ks']
      simp [firstElem]
  theorem firstElem_nodes (xs : List Node) (es : List REv) (n : Name) (as : List Attr) (m : NsMap) (ks : List Node)
      (st : Open) :
      firstElem (Node.eventsL xs ++ es) ((n, as, m, ks) :: st) = firstElem es ((n, as, m, xs.reverse ++ ks) :: st) := by
    cases xs with
    | nil => simp [Node.eventsL]
    | cons x xs =>
      simp only [Node.eventsL, List.append_assoc]
      rw [firstElem_node x, firstElem_nodes xs]
      simp
end

theorem firstElem_elem (n : Name) (as : List Attr) (m : NsMap) (ks : List Node) (post : List REv) :
    firstElem ((Node.elem n as m ks).events ++ post) [] = some (.elem n as m ks) := by
  simp only [Node.events, List.cons_append, List.append_assoc, firstElem]
  rw [firstElem_nodes]
  simp [firstElem]

/-- The document of an attribute of a derived type. -/
theorem flatN_text {L : Lib} {env : Env} {k : Nat} {s : Str} {q : Path} {n : Name} {as : List Attr} {m : NsMap}
    {ks : List Node} (h : IsDoc (L.parse (attrDoc q s)) (.elem n as m ks)) :
    flatN L env (k + 1) (.text s) q = decodeDocWith env (decodeN L env k) (.elem n as m ks) q := by
  obtain ⟨post, h⟩ := h
  simp only [flatN, h, firstElem_elem]

/-- Steps that reading with `k` levels of embedding may take on top of the length of the document. -/
def levelFuel : Nat → Nat
  | 0 => 0
  | k + 1 => levelFuel k + k + 4

/-- The generated deserializers on a conforming element. -/
theorem deser_tree (L : Lib) (env : Env) : ∀ (n k : Nat) (x : Node) (p : Path),
    ConfN L env k x p → x.events.length + levelFuel k < n →
    ∀ (dep : Nat) (rest : List REv) (fin : Option Str) (rd : Rd), At dep (x.events ++ rest) fin rd →
      Runs (deser L env n p rd) (decodeAt L env k dep x p) fun v b rd' =>
        b = v ∧ At (dep + 1 - opens (leftover env x p)) (leftover env x p ++ .endE x.name :: rest) fin rd' := by
  intro n
  induction n with
  | zero => intro k x p _ h; omega
  | succ n ih =>
    intro k x p hconf hlen dep rest fin rd hat
    cases x with
    | text s => rw [confN_eq, ConfWith] at hconf; exact hconf.elim
    | elem own as m ks =>
      have hln : (Node.elem own as m ks).events.length = (Node.eventsL ks).length + 2 := by
        simp [Node.events]
      have hrec : ∀ k' ∈ ks, ∀ name as m kids q, k' = .elem name as m kids →
          ConfWith L env (flatConfN L env k) k' q →
          ReadsAs 1 (deser L env n q) name k'.events (leftover env k' q)
            (decodeWith L env (flatN L env k) k' q) := by
        intro k' hk' name as' m' kids q hk'e hc dep' rest' fin' rd' hd ha
        have h1 := ih k k' q (by rw [confN_eq]; exact hc)
          (by have := events_mem_le hk'; omega) dep' rest' fin' rd' ha
        rw [decodeAt_eq L env k dep' k' q (by omega), decodeN_eq] at h1
        subst hk'e
        exact h1
      rw [confN_eq, ConfWith] at hconf
      have hpeek : ∀ {own as m} {l : List REv} {rd : Rd}, At dep (.start own as m :: l) fin rd →
          ∃ rd1, peek rd = (.ok (.start own as m), rd1) ∧ At dep (.start own as m :: l) fin rd1 :=
        fun h => peek_at h
      unfold deser
      simp only [Node.name]
      cases he : env p with
      | none => rw [he] at hconf; exact hconf.elim
      | some td =>
        rw [he] at hconf
        cases td with
        | prim d =>
          dsimp only at hconf ⊢
          rw [decodeAt_eq L env k dep _ p (by intro _ d h; rw [he] at h; cases h), decodeN_eq, decodeWith, he]
          refine (prim_tree d hconf hat).mono ?_
          rintro v b rd' - ⟨rfl, h⟩
          refine ⟨rfl, ?_⟩
          match ks, hconf with
          | [], _ => simpa [leftover, he, opens, primLeft] using h
          | [.text s], _ => simpa [leftover, he, opens, primLeft] using h
        | enum d =>
          obtain ⟨hns, hcv⟩ := hconf
          dsimp only
          rw [decodeAt_eq L env k dep _ p (by intro _ d h; rw [he] at h; cases h), decodeN_eq, decodeWith, he]
          obtain ⟨rd1, h1, a1⟩ := hpeek (by simpa [Node.events] using hat)
          unfold enumDeser
          rw [bind_ok h1, bind_get, a1.depth]
          exact enumBody_tree L env (flatN L env k) (flatConfN L env k) (deser L env n) n d hns hcv
            hrec (by omega) he (by simpa [Node.events] using a1)
        | struct d =>
          obtain ⟨hplain, hname, hkids, hfl, hattr⟩ := hconf
          dsimp only
          obtain ⟨rd1, h1, a1⟩ := hpeek (by simpa [Node.events] using hat)
          unfold structDeser
          rw [bind_ok h1, bind_get, a1.depth]
          by_cases hns : dep = 0 → nsOk d.attrs own
          · rw [decodeAt_eq L env k dep _ p
              (by intro h0 d' h; rw [he] at h; cases h; exact hns h0), decodeN_eq, decodeWith, he]
            have hlo : leftover env (.elem own as m ks) p = [] := by unfold leftover; rw [he]
            rw [hlo]
            refine structBody_tree L env (flatN L env k) (flatConfN L env k) (deser L env n) n d hplain hname
              hkids hrec ?_ ?_ (by omega) hns (by simpa [Node.events] using a1)
            rotate_left
            · intro f hf hatt q hq a ha hl s hs
              have hac := hattr f hf hatt q hq a ha hl s hs
              cases k with
              | zero => exact hac.elim
              | succ k =>
                obtain ⟨y, hdoc, hylen, hcy⟩ := hac
                cases y with
                | text s => rw [confN_eq, ConfWith] at hcy; exact hcy.elim
                | elem yn yas ym yks =>
                  have h7 := flatN_text (env := env) (k := k) hdoc
                  obtain ⟨post, hdoc⟩ := hdoc
                  have hnew := at_new (L.parse (attrDoc q s))
                  rw [skipped_eq_isMisc, show (L.parse (attrDoc q s)).evs.filter (fun e => !isMisc e)
                    = content (L.parse (attrDoc q s)).evs from rfl, hdoc] at hnew
                  have hr := ih k _ q hcy (by simp only [levelFuel] at hlen; omega) 0 post _ _ hnew
                  obtain ⟨h5, h6⟩ := hr.doc
                  simp only [decodeAt, if_true] at h5 h6
                  rw [← h7] at h5 h6
                  exact ⟨h5, h6⟩
            intro f hf h2 h3 q hq
            have hfc := hfl f hf h2 h3 q hq
            cases k with
            | zero => exact hfc.elim
            | succ k =>
              obtain ⟨y, ⟨hys, pre, hpre, hparse⟩, hcy⟩ := hfc
              have hylen : y.events.length ≤ (Node.eventsL ks).length + 2 := by
                rw [← events_strip_length, hys]
                refine Nat.le_trans (events_canon_length _) ?_
                have := eventsL_filter_le d.unclaimed ks
                simp [StructDef.residue, Node.events]; omega
              have hnew := at_new (L.parse (L.emit unusedCfg (d.residue own as m ks).wevents))
              rw [show unusedCfg = {} from rfl, hparse] at hnew
              simp only [List.filter_append, events_visible] at hnew
              rw [skipped_eq_isMisc, show pre.filter (fun e => !isMisc e) = [] from hpre,
                List.nil_append] at hnew
              have hr := ih k y q hcy (by simp only [levelFuel] at hlen; omega) 0 [] none _ (by simpa using hnew)
              obtain ⟨h5, h6⟩ := hr.doc
              have h7 : decodeAt L env k 0 y q = flatN L env (k + 1) (d.residue own as m ks) q := by
                simp only [decodeAt, flatN, if_true, StructDef.residue]
                rw [show (Node.elem own as m (List.filter d.unclaimed ks)).canon = y.strip from hys.symm, decodeDoc_strip]
              rw [← h7]
              refine ⟨?_, h6⟩
              unfold fromStr
              rw [show unusedCfg = {} from rfl, hparse]
              exact h5
          · -- wrong namespace
            have h0 : dep = 0 := by
              by_cases h : dep = 0
              · exact h
              · exact (hns fun h' => (h h').elim).elim
            subst h0
            have hnk : ¬ nsOk d.attrs own := fun h => hns fun _ => h
            have hnm : nsMatching d.attrs.namespaces d.attrs.pfx own.ns own.loc
                = .error (c!"bad namespace for " ++ own.loc ++ c!", found " ++ own.ns.getD []) := by
              unfold nsMatching
              cases hn : own.ns with
              | none => exact (hnk (by intro u hu; rw [hn] at hu; cases hu)).elim
              | some u =>
                dsimp only
                rw [if_neg]
                · rfl
                intro h
                rw [List.any_eq_true] at h
                obtain ⟨e, he', h2⟩ := h
                refine hnk ?_
                intro u' hu'
                rw [hn] at hu'
                cases hu'
                simp at h2
                exact ⟨e, he', by simp [h2.1], h2.2⟩
            unfold structBody
            have h2 : (M.ofExcept (nsMatching d.attrs.namespaces d.attrs.pfx own.ns own.loc) : D Unit) rd1
                = (.err (c!"bad namespace for " ++ own.loc ++ c!", found " ++ own.ns.getD []), rd1) := by
              rw [hnm]; rfl
            dsimp only [startInfo]
            rw [if_pos rfl, bind_err h2]
            unfold decodeAt decodeDocWith
            rw [if_pos rfl, he]
            dsimp only
            rw [if_neg (show ¬ nsOk d.attrs (Node.elem own as m ks).name from hnk)]
            exact ⟨rd1, rfl⟩

end Yaserde
