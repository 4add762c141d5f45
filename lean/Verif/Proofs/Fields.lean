import Verif.Spec.Fields
import Verif.Proofs.DecodeAll
/-
The declarative reading of a struct, field by field: proofs.
-/

set_option autoImplicit false

namespace Yaserde

/-- Contributions not yet known to have succeeded. -/
abbrev Raw := Nat × Res Val

def Raw.run (c : Raw) : Res Contrib := c.2.bind fun v => .ok (c.1, v)

/-- First failure, or all contributions. -/
def collectRaw (cs : List Raw) : Res (List Contrib) := Res.collect (cs.map Raw.run)

theorem collectRaw_append (a b : List Raw) :
    collectRaw (a ++ b) = (collectRaw a).bind fun x => (collectRaw b).bind fun y => .ok (x ++ y) := by
  unfold collectRaw; rw [List.map_append, collect_append]

theorem collectRaw_flatten (css : List (List Raw)) :
    collectRaw css.flatten = (Res.collect (css.map collectRaw)).bind fun xs => .ok xs.flatten := by
  induction css with
  | nil => rfl
  | cons c css ih =>
    rw [List.flatten_cons, collectRaw_append, ih, List.map_cons, collect_cons]
    simp only [Res.bind_assoc, Res.bind_ok]
    rfl

theorem collect_tag (i : Nat) (rs : List (Res Val)) :
    (Res.collect rs).bind (fun vs => Res.ok (vs.map fun v => (i, v))) =
      collectRaw (rs.map fun r => (i, r)) := by
  induction rs with
  | nil => rfl
  | cons r rs ih =>
    unfold collectRaw at ih ⊢
    rw [List.map_cons, List.map_cons, collect_cons, collect_cons, ← ih]
    cases r with
    | ok v => simp only [Raw.run, Res.bind_ok, Res.bind_assoc]; rfl
    | _ => rfl

theorem collect_flatMap {α β : Type} (g : α → List (Res β)) (as : List α) :
    (Res.collect (as.map fun a => Res.collect (g a))).bind (fun vs => .ok vs.flatten) =
      Res.collect (as.flatMap g) := by
  induction as with
  | nil => rfl
  | cons a as ih =>
    rw [List.map_cons, collect_cons, List.flatMap_cons, collect_append, ← ih]
    simp only [Res.bind_assoc, Res.bind_ok]
    rfl

theorem attrValues_eq (L : Lib) (user : Path → Str → Res Val) (ty : FTy) (s : Str) :
    attrValues L user ty s = Res.collect (attrWords L user ty s) := by
  have key : ∀ (e : Except Str Val), (match e with | .ok v => Res.ok [v] | .error m => Res.err m)
      = Res.collect [match e with | .ok v => Res.ok v | .error m => .err m] := by
    intro e; cases e <;> rfl
  cases ty with
  | simple t => exact key _
  | opt t =>
    cases t with
    | simple t => exact key _
    | struct q => simp only [attrValues, attrWords]; cases user q s <;> rfl
    | _ => rfl
  | vec t => cases t <;> rfl
  | struct q => simp only [attrValues, attrWords]; cases user q s <;> rfl

/-- Raw contributions of attributes. -/
def rawAttrs (L : Lib) (user : Path → Str → Res Val) (d : StructDef) (as : List Attr) : List Raw :=
  (d.fields.zipIdx.map fun p => (attrInputs L user p.1 as).map fun r => (p.2, r)).flatten

theorem attrContribs_raw (L : Lib) (user : Path → Str → Res Val) (d : StructDef) (as : List Attr) :
    attrContribs L user d as = collectRaw (rawAttrs L user d as) := by
  unfold attrContribs rawAttrs
  rw [collectRaw_flatten, List.map_map]
  congr 2
  apply List.map_congr_left
  intro p _
  simp only [Function.comp_apply]
  rw [← collect_tag]
  unfold attrContrib attrInputs
  split
  · rw [show (fun a : Attr => attrValues L user p.1.ty a.value) = fun a => Res.collect (attrWords L user p.1.ty a.value)
      from funext fun a => attrValues_eq ..]
    rw [← collect_flatMap, Res.bind_assoc]
    rfl
  · rfl

/-- Raw contributions of a child. -/
def rawKid (L : Lib) (dec : Node → Path → Res Val) (d : StructDef) : Node → List Raw
  | .text s => (d.fields.zipIdx.filter fun p => p.1.attrs.text).map fun p => (p.2, .ok (.str s))
  | .elem n as m ks =>
    match d.fieldFor n with
    | none => []
    | some i =>
      match d.fields[i]? with
      | none => []
      | some f => (kidInputs L dec d i f (.elem n as m ks)).map fun r => (i, r)

theorem collectRaw_ok (cs : List Contrib) : collectRaw (cs.map fun c => (c.1, .ok c.2)) = .ok cs := by
  unfold collectRaw
  rw [List.map_map, show (Raw.run ∘ fun c : Contrib => (c.1, Res.ok c.2)) = Res.ok from by
    funext c; rfl]
  exact collect_map_ok cs

theorem kidContrib_raw (L : Lib) (dec : Node → Path → Res Val) (d : StructDef) (k : Node) :
    kidContrib L d (dec k) k = collectRaw (rawKid L dec d k) := by
  cases k with
  | text s =>
    simp only [kidContrib, rawKid, textContrib]
    rw [← collectRaw_ok, List.map_map]
    rfl
  | elem n as m ks =>
    simp only [kidContrib, rawKid]
    cases hf : d.fieldFor n with
    | none => rfl
    | some i =>
      dsimp only
      cases hd : d.fields[i]? with
      | none => rfl
      | some f =>
        simp only [kidInputs, hf, if_true]
        cases f.ty.core with
        | simple t =>
          dsimp only
          cases scalarContent L t ks <;> rfl
        | struct q =>
          dsimp only
          cases dec (.elem n as m ks) q <;> rfl
        | _ => rfl

def rawKids (L : Lib) (dec : Node → Path → Res Val) (d : StructDef) (ks : List Node) : List Raw :=
  (ks.map (rawKid L dec d)).flatten

theorem zip_map_self {α β : Type} (g : α → β) (as : List α) : as.zip (as.map g) = as.map fun a => (a, g a) := by
  induction as with
  | nil => rfl
  | cons a as ih => simp [ih]

theorem kidContribs_raw (L : Lib) (dec : Node → Path → Res Val) (d : StructDef) (ks : List Node) :
    kidContribs L d ks (ks.map dec) = collectRaw (rawKids L dec d ks) := by
  unfold kidContribs rawKids
  rw [collectRaw_flatten, zip_map_self, List.map_map, List.map_map]
  congr 2
  apply List.map_congr_left
  intro k _
  exact kidContrib_raw L dec d k

def rawFlat (flat : Path → Res Val) (d : StructDef) : List Raw :=
  (d.fields.zipIdx.map fun p => (flatInputs flat p.1).map fun r => (p.2, r)).flatten

theorem flatContribs_raw (flat : Path → Res Val) (d : StructDef) :
    flatContribs flat d = collectRaw (rawFlat flat d) := by
  unfold flatContribs rawFlat
  rw [collectRaw_flatten, List.map_map]
  congr 2
  apply List.map_congr_left
  intro p _
  simp only [Function.comp_apply]
  unfold flatContrib flatInputs
  split
  · cases p.1.ty with
    | struct q => dsimp only; cases flat q <;> rfl
    | opt t =>
      cases t with
      | struct q => dsimp only; cases flat q <;> rfl
      | _ => rfl
    | _ => rfl
  · rfl

/-- Everything, in the order in which failures are reported. -/
def rawAll (L : Lib) (dec flat : Node → Path → Res Val) (d : StructDef) (n : Name) (as : List Attr)
    (m : NsMap) (ks : List Node) : List Raw :=
  rawAttrs L (userAttr flat) d as ++ rawKids L dec d ks ++ rawFlat (flat (d.residue n as m ks)) d

theorem decodeStruct_raw (L : Lib) (dec flat : Node → Path → Res Val) (d : StructDef) (n : Name)
    (as : List Attr) (m : NsMap) (ks : List Node) :
    decodeStruct L flat d n as m ks (ks.map dec) =
      (collectRaw (rawAll L dec flat d n as m ks)).bind (assemble d) := by
  unfold decodeStruct rawAll
  rw [attrContribs_raw, kidContribs_raw, flatContribs_raw, collectRaw_append, collectRaw_append]
  simp only [Res.bind_assoc, Res.bind_ok]

/-! ### Which raw contributions belong to a field -/

def rawOf (cs : List Raw) (i : Nat) : List (Res Val) := (cs.filter fun c => c.1 = i).map Prod.snd

theorem rawOf_append (a b : List Raw) (i : Nat) : rawOf (a ++ b) i = rawOf a i ++ rawOf b i := by
  simp [rawOf]

theorem rawOf_tag (rs : List (Res Val)) (i j : Nat) :
    rawOf (rs.map fun r => (j, r)) i = if j = i then rs else [] := by
  unfold rawOf
  induction rs with
  | nil => split <;> rfl
  | cons r rs ih =>
    rw [List.map_cons, List.filter_cons]
    split
    · rename_i h
      have : j = i := by simpa using h
      simp only [this, if_true] at ih ⊢
      simp [ih]
    · rename_i h
      have : j ≠ i := by simpa using h
      simp only [this, if_false] at ih ⊢
      exact ih

theorem rawOf_fields (g : FieldDef → List (Res Val)) (fs : List FieldDef) :
    ∀ (i j : Nat), rawOf (((fs.zipIdx j).map fun p => (g p.1).map fun r => (p.2, r)).flatten) (j + i)
      = match fs[i]? with | some f => g f | none => [] := by
  induction fs with
  | nil => intro i j; rfl
  | cons f fs ih =>
    intro i j
    rw [List.zipIdx_cons, List.map_cons, List.flatten_cons, rawOf_append, rawOf_tag]
    cases i with
    | zero =>
      simp only [Nat.add_zero, if_true, List.getElem?_cons_zero]
      have : rawOf (((fs.zipIdx (j + 1)).map fun p => (g p.1).map fun r => (p.2, r)).flatten) j = [] := by
        unfold rawOf
        rw [List.map_eq_nil_iff, List.filter_eq_nil_iff]
        intro c hc
        obtain ⟨cs, hcs, hc⟩ := List.mem_flatten.mp hc
        obtain ⟨p, hp, rfl⟩ := List.mem_map.mp hcs
        obtain ⟨r, -, rfl⟩ := List.mem_map.mp hc
        have := List.le_snd_of_mem_zipIdx hp
        simp; omega
      rw [this, List.append_nil]
    | succ i =>
      rw [if_neg (by omega), List.nil_append, List.getElem?_cons_succ, ← ih i (j + 1)]
      congr 1; omega

theorem rawOf_attrs (L : Lib) (user : Path → Str → Res Val) (d : StructDef) (as : List Attr) (i : Nat) (f : FieldDef)
    (hf : d.fields[i]? = some f) : rawOf (rawAttrs L user d as) i = attrInputs L user f as := by
  have := rawOf_fields (fun f => attrInputs L user f as) d.fields i 0
  rw [Nat.zero_add, hf] at this
  exact this

theorem rawOf_flat (flat : Path → Res Val) (d : StructDef) (i : Nat) (f : FieldDef)
    (hf : d.fields[i]? = some f) : rawOf (rawFlat flat d) i = flatInputs flat f := by
  have := rawOf_fields (fun f => flatInputs flat f) d.fields i 0
  rw [Nat.zero_add, hf] at this
  exact this

theorem filter_map_flatten (fs : List FieldDef) (s : Str) : ∀ j,
    (((fs.zipIdx j).filter fun p => p.1.attrs.text).map fun p => ((p.2, .ok (.str s)) : Raw)) =
      ((fs.zipIdx j).map fun p => (if p.1.attrs.text then [Res.ok (.str s)] else []).map fun r => (p.2, r)).flatten := by
  induction fs with
  | nil => intro j; rfl
  | cons f fs ih =>
    intro j
    rw [List.zipIdx_cons, List.filter_cons, List.map_cons, List.flatten_cons]
    split <;> rename_i h
    · simp only [List.map_cons, ih]
      simp at h
      simp [h]
    · simp at h
      simp [h, ih]

theorem rawOf_kid (L : Lib) (dec : Node → Path → Res Val) (d : StructDef) (k : Node) (i : Nat)
    (f : FieldDef) (hf : d.fields[i]? = some f) :
    rawOf (rawKid L dec d k) i = kidInputs L dec d i f k := by
  cases k with
  | text s =>
    simp only [rawKid, kidInputs]
    rw [filter_map_flatten]
    have := rawOf_fields (fun f => if f.attrs.text then [Res.ok (.str s)] else []) d.fields i 0
    rw [Nat.zero_add, hf] at this
    exact this
  | elem n as m ks =>
    simp only [rawKid]
    cases hfi : d.fieldFor n with
    | none => simp [rawOf, kidInputs, hfi]
    | some j =>
      dsimp only
      by_cases hji : j = i
      · subst hji
        rw [hf]
        dsimp only
        rw [rawOf_tag, if_pos rfl]
      · have : kidInputs L dec d i f (.elem n as m ks) = [] := by
          simp [kidInputs, hfi, hji]
        rw [this]
        cases hj : d.fields[j]? with
        | none => rfl
        | some g => dsimp only; rw [rawOf_tag, if_neg hji]

theorem rawOf_kids (L : Lib) (dec : Node → Path → Res Val) (d : StructDef) (ks : List Node) (i : Nat)
    (f : FieldDef) (hf : d.fields[i]? = some f) :
    rawOf (rawKids L dec d ks) i = ks.flatMap (kidInputs L dec d i f) := by
  induction ks with
  | nil => rfl
  | cons k ks ih =>
    unfold rawKids at *
    rw [List.map_cons, List.flatten_cons, rawOf_append, ih, rawOf_kid L dec d k i f hf, List.flatMap_cons]

theorem rawOf_all (L : Lib) (dec flat : Node → Path → Res Val) (d : StructDef) (n : Name) (as : List Attr)
    (m : NsMap) (ks : List Node) (i : Nat) (f : FieldDef) (hf : d.fields[i]? = some f) :
    rawOf (rawAll L dec flat d n as m ks) i = fieldInputs L dec flat d n as m ks i f := by
  unfold rawAll fieldInputs
  rw [rawOf_append, rawOf_append, rawOf_attrs _ _ _ _ _ _ hf, rawOf_kids _ _ _ _ _ _ hf, rawOf_flat _ _ _ _ hf]

theorem rawAttrs_idx (g : FieldDef → List (Res Val)) (fs : List FieldDef) :
    ∀ c ∈ ((fs.zipIdx.map fun p => (g p.1).map fun r => (p.2, r)).flatten : List Raw),
      ∃ f, fs[c.1]? = some f := by
  intro c hc
  obtain ⟨cs, hcs, hc⟩ := List.mem_flatten.mp hc
  obtain ⟨p, hp, rfl⟩ := List.mem_map.mp hcs
  obtain ⟨r, -, rfl⟩ := List.mem_map.mp hc
  exact ⟨p.1, (List.mem_zipIdx_iff_getElem?.mp hp)⟩

theorem rawAll_idx (L : Lib) (dec flat : Node → Path → Res Val) (d : StructDef) (n : Name) (as : List Attr)
    (m : NsMap) (ks : List Node) : ∀ c ∈ rawAll L dec flat d n as m ks, ∃ f, d.fields[c.1]? = some f := by
  intro c hc
  unfold rawAll at hc
  rcases List.mem_append.mp hc with hc | hc
  · rcases List.mem_append.mp hc with hc | hc
    · exact rawAttrs_idx (fun f => attrInputs L (userAttr flat) f as) _ c hc
    · obtain ⟨cs, hcs, hc⟩ := List.mem_flatten.mp hc
      obtain ⟨k, -, rfl⟩ := List.mem_map.mp hcs
      cases k with
      | text s =>
        simp only [rawKid] at hc
        rw [filter_map_flatten] at hc
        exact rawAttrs_idx (fun f => if f.attrs.text = true then [Res.ok (Val.str s)] else []) _ c hc
      | elem n as m ks =>
        simp only [rawKid] at hc
        split at hc
        · cases hc
        · split at hc
          · cases hc
          · rename_i hf
            obtain ⟨r, -, rfl⟩ := List.mem_map.mp hc
            exact ⟨_, hf⟩
  · exact rawAttrs_idx (flatInputs (flat (d.residue n as m ks))) _ c hc

/-! ### Success, field by field -/

theorem collectRaw_iff {cs : List Raw} {xs : List Contrib} :
    collectRaw cs = .ok xs ↔ cs = xs.map fun c => (c.1, .ok c.2) := by
  constructor
  · intro h
    unfold collectRaw at h
    rw [collect_ok_iff] at h
    induction cs generalizing xs with
    | nil => cases xs with | nil => rfl | cons => cases h
    | cons c cs ih =>
      cases xs with
      | nil => cases h
      | cons x xs =>
        simp only [List.map_cons, List.cons.injEq] at h ⊢
        refine ⟨?_, ih h.2⟩
        have h1 := h.1
        unfold Raw.run at h1
        obtain ⟨v, hv, hx⟩ := Res.bind_eq_ok.mp h1
        obtain ⟨i, r⟩ := c
        simp only [Res.ok.injEq] at hx hv
        subst hx hv
        rfl
  · rintro rfl; exact collectRaw_ok xs

theorem rawOf_ok (xs : List Contrib) (i : Nat) :
    rawOf (xs.map fun c => (c.1, .ok c.2)) i = (valuesOf xs i).map .ok := by
  unfold rawOf valuesOf
  rw [List.filter_map, List.map_map, List.map_map]
  rfl

theorem assemble_ok_iff (d : StructDef) (cs : List Contrib) (r : Val) :
    assemble d cs = .ok r ↔ ∃ vs, r = .struct vs ∧ vs.length = d.fields.length ∧
      ∀ (i : Nat) (f : FieldDef) (v : Val), d.fields[i]? = some f → vs[i]? = some v →
        fieldValue d.name f (valuesOf cs i) = .ok v := by
  unfold assemble
  rw [Res.bind_eq_ok]
  constructor
  · rintro ⟨vs, h1, h2⟩
    simp only [Res.ok.injEq] at h2
    rw [collect_ok_iff] at h1
    have hlen := congrArg List.length h1
    simp at hlen
    refine ⟨vs, h2.symm, hlen.symm, ?_⟩
    intro i f v hf hv
    have := congrArg (fun l => l[i]?) h1
    simp [hf, hv] at this
    exact this
  · rintro ⟨vs, rfl, hlen, h⟩
    refine ⟨vs, ?_, rfl⟩
    rw [collect_ok_iff]
    apply List.ext_getElem?
    intro i
    simp only [List.getElem?_map, List.getElem?_zipIdx, Option.map_map]
    cases hf : d.fields[i]? with
    | none =>
      have : vs[i]? = none := by
        rw [List.getElem?_eq_none_iff] at hf ⊢; omega
      simp [this]
    | some f =>
      have hi : i < vs.length := by
        have := (List.getElem?_eq_some_iff.mp hf).1; omega
      have hv : vs[i]? = some vs[i] := List.getElem?_eq_getElem hi
      simp [h i f _ hf hv, hv]

theorem exists_ok_map (rs : List (Res Val)) : (∀ r ∈ rs, ∃ v, r = .ok v) → ∃ vs : List Val, rs = vs.map .ok := by
  induction rs with
  | nil => exact fun _ => ⟨[], rfl⟩
  | cons r rs ih =>
    intro h
    obtain ⟨v, rfl⟩ := h _ (List.mem_cons_self ..)
    obtain ⟨vs, rfl⟩ := ih fun r hr => h r (List.mem_cons_of_mem _ hr)
    exact ⟨v :: vs, rfl⟩

theorem map_ok_inj {a b : List Val} (h : a.map Res.ok = b.map Res.ok) : a = b := by
  induction a generalizing b with
  | nil => cases b with | nil => rfl | cons => cases h
  | cons x a ih =>
    cases b with
    | nil => cases h
    | cons y b =>
      simp only [List.map_cons, List.cons.injEq, Res.ok.injEq] at h
      rw [h.1, ih h.2]

theorem decodeStruct_ok_iff (L : Lib) (dec flat : Node → Path → Res Val) (d : StructDef) (n : Name)
    (as : List Attr) (m : NsMap) (ks : List Node) (r : Val) :
    decodeStruct L flat d n as m ks (ks.map dec) = .ok r ↔
      ∃ vs, r = .struct vs ∧ vs.length = d.fields.length ∧
        ∀ (i : Nat) (f : FieldDef) (v : Val), d.fields[i]? = some f → vs[i]? = some v →
          ∃ ins, fieldInputs L dec flat d n as m ks i f = ins.map .ok ∧ fieldValue d.name f ins = .ok v := by
  rw [decodeStruct_raw, Res.bind_eq_ok]
  constructor
  · rintro ⟨cs, h1, h2⟩
    obtain ⟨vs, rfl, hlen, h⟩ := (assemble_ok_iff ..).mp h2
    refine ⟨vs, rfl, hlen, fun i f v hf hv => ⟨valuesOf cs i, ?_, h i f v hf hv⟩⟩
    rw [← rawOf_all L dec flat d n as m ks i f hf, collectRaw_iff.mp h1, rawOf_ok]
  · rintro ⟨vs, rfl, hlen, h⟩
    have hget : ∀ (i : Nat) (f : FieldDef), d.fields[i]? = some f → ∃ v, vs[i]? = some v := by
      intro i f hf
      have hi : i < vs.length := by
        have := (List.getElem?_eq_some_iff.mp hf).1; omega
      exact ⟨vs[i], List.getElem?_eq_getElem hi⟩
    have hall : ∀ c ∈ rawAll L dec flat d n as m ks, ∃ v, c.2 = .ok v := by
      intro c hc
      obtain ⟨f, hf⟩ := rawAll_idx L dec flat d n as m ks c hc
      obtain ⟨v, hv⟩ := hget _ _ hf
      obtain ⟨ins, h1, -⟩ := h _ f v hf hv
      rw [← rawOf_all L dec flat d n as m ks _ f hf] at h1
      have : c.2 ∈ rawOf (rawAll L dec flat d n as m ks) c.1 := by
        unfold rawOf
        exact List.mem_map.mpr ⟨c, List.mem_filter.mpr ⟨hc, by simp⟩, rfl⟩
      rw [h1] at this
      obtain ⟨w, -, hw⟩ := List.mem_map.mp this
      exact ⟨w, hw.symm⟩
    have : ∃ cs : List Contrib, rawAll L dec flat d n as m ks = cs.map fun c => (c.1, .ok c.2) := by
      generalize rawAll L dec flat d n as m ks = raw at hall
      induction raw with
      | nil => exact ⟨[], rfl⟩
      | cons c raw ih =>
        obtain ⟨v, hv⟩ := hall c (List.mem_cons_self ..)
        obtain ⟨cs, rfl⟩ := ih fun c' hc' => hall c' (List.mem_cons_of_mem _ hc')
        obtain ⟨i, r⟩ := c
        simp only at hv
        subst hv
        exact ⟨(i, v) :: cs, rfl⟩
    obtain ⟨cs, hcs⟩ := this
    refine ⟨cs, collectRaw_iff.mpr hcs, (assemble_ok_iff ..).mpr ⟨vs, rfl, hlen, ?_⟩⟩
    intro i f v hf hv
    obtain ⟨ins, h1, h2⟩ := h i f v hf hv
    rw [← rawOf_all L dec flat d n as m ks i f hf, hcs, rawOf_ok] at h1
    rw [map_ok_inj h1]
    exact h2

theorem decodeL_map (L : Lib) (env : Env) (flat : Node → Path → Res Val) (ks : List Node) :
    decodeL L env flat ks = ks.map (decodeWith L env flat) := by
  induction ks with
  | nil => rfl
  | cons k ks ih => simp [decodeL, ih]

/-- A struct's element is read as `r` exactly if `r` is a struct value each field of which is
made from that field's inputs, all of which succeed. -/
theorem decodeN_struct_ok_iff (L : Lib) (env : Env) (k : Nat) (p : Path) (d : StructDef)
    (hp : env p = some (.struct d)) (n : Name) (as : List Attr) (m : NsMap) (ks : List Node) (r : Val) :
    decodeN L env k (.elem n as m ks) p = .ok r ↔
      ∃ vs, r = .struct vs ∧ vs.length = d.fields.length ∧
        ∀ (i : Nat) (f : FieldDef) (v : Val), d.fields[i]? = some f → vs[i]? = some v →
          ∃ ins, fieldInputs L (decodeN L env k) (flatN L env k) d n as m ks i f = ins.map .ok ∧
            fieldValue d.name f ins = .ok v := by
  rw [decodeN_eq, decodeWith, hp]
  dsimp only
  rw [decodeL_map, decodeStruct_ok_iff]

/-- All inputs succeed but a field is missing. -/
theorem assemble_err (d : StructDef) (cs : List Contrib) (i : Nat) (f : FieldDef) (e : Str)
    (hf : d.fields[i]? = some f) (hbad : fieldValue d.name f (valuesOf cs i) = .err e)
    (hgood : ∀ (j : Nat) (g : FieldDef), j < i → d.fields[j]? = some g →
      ∃ v, fieldValue d.name g (valuesOf cs j) = .ok v) : assemble d cs = .err e := by
  have key : ∀ (fs : List FieldDef) (o j : Nat), fs[j]? = some f →
      fieldValue d.name f (valuesOf cs (o + j)) = .err e →
      (∀ (l : Nat) (g : FieldDef), l < j → fs[l]? = some g →
        ∃ v, fieldValue d.name g (valuesOf cs (o + l)) = .ok v) →
      Res.collect ((fs.zipIdx o).map fun p => fieldValue d.name p.1 (valuesOf cs p.2)) = .err e := by
    intro fs
    induction fs with
    | nil => intro o j hj; simp at hj
    | cons g fs ih =>
      intro o j hj hb hg
      rw [List.zipIdx_cons, List.map_cons, collect_cons]
      cases j with
      | zero =>
        simp only [List.getElem?_cons_zero, Option.some.injEq] at hj
        subst hj
        rw [Nat.add_zero] at hb
        rw [hb]
        rfl
      | succ j =>
        obtain ⟨v, hv⟩ := hg 0 g (by omega) (by simp)
        rw [Nat.add_zero] at hv
        rw [hv, Res.bind_ok]
        rw [ih (o + 1) j (by simpa using hj) (by rw [← hb]; congr 2; omega)
          (fun l g' hl hg' => by
            obtain ⟨v, hv⟩ := hg (l + 1) g' (by omega) (by simpa using hg')
            exact ⟨v, by rw [← hv]; congr 2; omega⟩)]
        rfl
  unfold assemble
  rw [key d.fields 0 i hf (by simpa using hbad) (by simpa using hgood)]
  rfl

end Yaserde
