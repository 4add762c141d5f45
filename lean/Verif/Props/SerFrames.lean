import Verif.Props.Frames
import Verif.Props.UserSer
/-
Property C84: how deeply the calls of the generated `serialize` functions are nested.
-/

set_option autoImplicit false
set_option maxRecDepth 100000

namespace Yaserde

/-- C84: the calls are never nested more deeply than the values are, whatever the values — of the type or not. -/
theorem C84_enough (L : Lib) (env : Env) (k : Nat) (p : Path) (v : Val) (h : Nests env k p v) :
    (serF L env k).ser p v = serTy L env p v ∧ ∀ c, toStringF L env k c p v = toStringWithConfig L env c p v := by
  have e : (serF L env k).ser p v = serTy L env p v := (serB_nests L env .overflow k).ser p v h
  refine ⟨e, fun c => ?_⟩
  unfold toStringF toStringWithConfig serializeWithWriter
  rw [e]
  split <;> rename_i h1 <;> rw [h1]

/-- C84: types that do not contain themselves need a bounded number of frames, for any value. -/
theorem C84_acyclic (L : Lib) (env : Env) (rank : Path → Nat) (he : ∀ p t q, env p = some t → t.Contains q → rank q < rank p) (p : Path)
    (v : Val) (k : Nat) (hk : rank p < k) (c : Config) : toStringF L env k c p v = toStringWithConfig L env c p v :=
  (C84_enough L env k p v (nests_rank he k p v hk)).2 c

/-- C84: every value needs a number of frames linear in its depth. -/
theorem C84_levels (L : Lib) (env : Env) (p : Path) (v : Val) (k : Nat) (hk : v.levels < k) (c : Config) :
    toStringF L env k c p v = toStringWithConfig L env c p v :=
  (C84_enough L env k p v (nests_levels env k p v hk)).2 c

namespace Nested

theorem nests (m : Nat) : ∀ k, m < k → Nests program k [c!"Node"] (value m) := by
  induction m with
  | zero =>
    rintro (_ | k) hk
    · omega
    · intro t q x ht hb
      cases ht
      cases hb with
      | field hf hv hr =>
        rename_i i f v
        rcases i with _ | i
        · cases hf; cases hv; cases hr; rename_i hm _; cases hm
        · cases hf
  | succ m ih =>
    rintro (_ | k) hk
    · omega
    · intro t q x ht hb
      cases ht
      cases hb with
      | field hf hv hr =>
        rename_i i f v
        rcases i with _ | i
        · cases hf; cases hv; cases hr; rename_i hm hr
          rw [List.mem_singleton] at hm
          subst hm
          cases hr
          exact ih k (by omega)
        · cases hf

theorem bind_panics {α β : Type} {x : S α} {f : α → S β} {s : Sr} {m : Str} (h : (x s).1 = .panic m) : ((x >>= f) s).1 = .panic m := by
  simp only [bind_def, M.bind]
  cases hx : x s with
  | mk r s' =>
    rw [hx] at h
    cases h
    rfl

theorem impl_panics {a : Attrs} {rn : Str} {acc : AttrAcc} {inner : S Unit} {m : Str}
    (h : ∀ s : Sr, (∀ j, s.writer.io j = none) → (inner s).1 = .panic m) (s : Sr) (hio : ∀ j, s.writer.io j = none) :
    (implSerializer a rn (.ok acc) inner s).1 = .panic m := by
  unfold implSerializer
  rw [bind_ok (show (M.get : S Sr) s = (.ok s, s) from rfl)]
  split
  · rw [show (M.lift (Res.ok acc) >>= fun acc => swrite (.start (Name.ofStr (s.startName.getD rn)) (acc.own ++ acc.child)
      ((namespacesDef a).extend acc.childNs)) : S Unit) = swrite (.start (Name.ofStr (s.startName.getD rn)) (acc.own ++ acc.child)
      ((namespacesDef a).extend acc.childNs)) from rfl]
    have hw : ∀ e n as, ∃ s', swrite (.start e n as) s = (.ok (), s') ∧ ∀ j, s'.writer.io j = none := by
      intro e n as
      unfold swrite EW.write
      dsimp only
      rw [hio]
      exact ⟨_, rfl, hio⟩
    obtain ⟨s', h1, h2⟩ := hw (Name.ofStr (s.startName.getD rn)) (acc.own ++ acc.child) ((namespacesDef a).extend acc.childNs)
    rw [bind_ok h1]
    exact bind_panics (h s' h2)
  · rw [bind_ok (show (M.pure () : S Unit) s = (.ok (), s) from rfl)]
    exact bind_panics (h s hio)

theorem overflows (L : Lib) (k : Nat) : ∀ (m : Nat) (s : Sr), k ≤ m → (∀ j, s.writer.io j = none) →
    ((serF L program k).ser [c!"Node"] (value m) s).1 = .panic c!"stack overflow" := by
  induction k with
  | zero => intro m s _ _; rfl
  | succ k ih =>
    rintro (_ | m) s hk hio
    · omega
    · refine impl_panics (a := d.attrs) (rn := serRootName d.attrs d.name) (acc := {})
        (inner := serFieldsBy L (serF L program k) d.attrs (.struct [.vec [value m]]) d.fields [.vec [value m]]) (fun s hio => ?_) s hio
      refine bind_panics ?_
      have h := ih m { s with startName := some (FieldDef.renamedLabel { ident := c!"node", ty := .vec (.struct [c!"Node"]) } d.attrs), skip := false }
        (by omega) hio
      exact bind_panics (f := fun _ => serItemsBy L (serF L program k) [c!"Node"] (setFlags (some _) false) []) h

theorem hasTy (m : Nat) : HasTy program (.struct [c!"Node"]) (value m) := by
  induction m with
  | zero =>
    refine .struct _ d _ rfl rfl fun i f v hf hv => ?_
    rcases i with _ | i
    · cases hf; cases hv; exact .vec _ _ (fun _ h => by cases h)
    · cases hf
  | succ m ih =>
    refine .struct _ d _ rfl rfl fun i f v hf hv => ?_
    rcases i with _ | i
    · cases hf; cases hv; exact .vec _ _ (fun _ h => by rw [List.mem_singleton.mp h]; exact ih)
    · cases hf

theorem program_cases {p : Path} {t : TypeDef} (h : program p = some t) : p = [c!"Node"] ∧ t = .struct d := by
  unfold program at h
  split at h
  · cases h; exact ⟨by assumption, rfl⟩
  · cases h

theorem serOk : SerOk program := by
  constructor
  · intro p d' hp f hf
    cases (program_cases hp).2
    simp only [d, List.mem_cons, List.not_mem_nil, or_false] at hf
    subst hf
    trivial
  · intro p d' hp
    cases (program_cases hp).2
  · intro p d' hp
    cases (program_cases hp).2

end Nested

open Nested in
/-- C84, a type that contains itself: a value nested `m` levels deep needs as many frames — with fewer the program is killed, with more
it is written. -/
theorem C84_overflow (L : Lib) (m : Nat) (c : Config) :
    (∀ k, k ≤ m → toStringF L program k c [c!"Node"] (value m) = .panic c!"stack overflow") ∧
    ∀ k, m < k → toStringF L program k c [c!"Node"] (value m) = toStringWithConfig L program c [c!"Node"] (value m) := by
  refine ⟨fun k hk => ?_, fun k hk => (C84_enough L program k _ _ (nests m k hk)).2 c⟩
  have h := overflows L k m (Sr.new {}) hk (fun _ => rfl)
  unfold toStringF
  cases hr : (serF L program k).ser [c!"Node"] (value m) (Sr.new {}) with
  | mk r s =>
    rw [hr] at h
    cases h
    rfl

open Nested in
/-- C84: a document that can be read on a stack can be written back on the same stack, and the other way round. -/
theorem C84_same (L : Lib) (m k : Nat) (s : Str) (c : Config) (hdoc : IsDoc (L.parse s) (nest m)) :
    Overflows L program k [c!"Node"] s ↔ toStringF L program k c [c!"Node"] (value m) = .panic c!"stack overflow" := by
  obtain ⟨hret, h1, h2⟩ := C82_overflow L m s hdoc
  obtain ⟨h3, h4⟩ := C84_overflow L m c
  by_cases hk : k ≤ m
  · exact ⟨fun _ => h3 k hk, fun _ => h1 k hk⟩
  · have hk : m < k := by omega
    constructor
    · rintro ⟨N, hN⟩
      have := (h2 k hk (.panic c!"stack overflow") (by simp)).mp ⟨N, hN N (Nat.le_refl _)⟩
      obtain ⟨n, hn⟩ := this
      obtain ⟨-, n', hn'⟩ := hret
      have h1 := (C27_budget_irrelevant L program [c!"Node"] s).1 n (max n n') (Nat.le_max_left ..) (by rw [hn]; simp)
      have h2 := (C27_budget_irrelevant L program [c!"Node"] s).1 n' (max n n') (Nat.le_max_right ..) (by rw [hn']; simp)
      rw [hn] at h1
      rw [hn', h1] at h2
      cases h2
    · intro h
      rw [h4 k hk] at h
      obtain ⟨x, hx⟩ := (C41_ok (L := L) serOk (hasTy m)).2.1 c
      rw [hx] at h
      cases h

/-! ### Examples -/

open Nested in
/-- No number of frames is enough for all values of the type. -/
example (L : Lib) (k : Nat) : ∃ v, HasTy program (.struct [c!"Node"]) v ∧ toStringF L program k {} [c!"Node"] v = .panic c!"stack overflow" ∧
    ∃ s, toStringWithConfig L program {} [c!"Node"] v = .ok s :=
  ⟨value k, hasTy k, (C84_overflow L k {}).1 k (Nat.le_refl _), (C41_ok serOk (hasTy k)).2.1 {}⟩

namespace Sample
open Tests

def innermost : FTy → Option Path
  | .struct q => some q
  | .opt t | .vec t => innermost t
  | .simple _ => none

theorem innermost_eq {t : FTy} {q : Path} (h : t.Leads q) : innermost t = some q := by
  induction h with
  | here => rfl
  | opt _ ih | vec _ ih => exact ih

theorem acyclicSer : ∀ p t q, env2 p = some t → t.Contains q → depth2 q < depth2 p := by
  intro p t q h hq
  rcases env2_cases h with ⟨rfl, rfl⟩ | ⟨rfl, rfl⟩ | ⟨rfl, rfl⟩
  · obtain ⟨f, hf, hc⟩ := hq
    have hc := innermost_eq hc
    simp only [author, List.mem_cons, List.not_mem_nil, or_false] at hf
    rcases hf with rfl | rfl <;> cases hc
  · obtain ⟨v, hv, hc⟩ := hq
    simp only [color2, List.mem_cons, List.not_mem_nil, or_false] at hv
    rcases hc with ⟨t, ht, hc⟩ | ⟨fds, ht, hc⟩
    · have hc := innermost_eq hc
      rcases hv with rfl | rfl | rfl | rfl <;> cases ht <;> cases hc <;> decide
    · rcases hv with rfl | rfl | rfl | rfl <;> cases ht
  · obtain ⟨f, hf, hc⟩ := hq
    have hc := innermost_eq hc
    simp only [book, List.mem_cons, List.not_mem_nil, or_false] at hf
    rcases hf with rfl | rfl | rfl | rfl | rfl | rfl | rfl | rfl | rfl <;> cases hc <;> decide

/-- The sample program needs three frames for any value. -/
example (v : Val) (c : Config) : toStringF lib env2 3 c [c!"Book"] v = toStringWithConfig lib env2 c [c!"Book"] v :=
  C84_acyclic _ _ _ acyclicSer _ _ _ (by decide) _

end Sample

end Yaserde
