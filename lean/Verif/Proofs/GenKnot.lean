import Verif.Proofs.GenWhole
import Verif.Proofs.GenEnum
/-
The printed implementations of all the types of a program, calling each other, against the interpreter.
-/

set_option autoImplicit false

namespace Yaserde.Rs

theorem Same.of_loc {m : D Val} (h : Loc m) : Same m m := by
  intro rd hp
  obtain ⟨k, hk⟩ := h.from_ rd
  have h2 := (hk rd ⟨rfl, fun _ _ => rfl⟩).2
  rcases hm : m rd with ⟨r, rd'⟩
  rw [hm] at h2
  cases r with
  | ok v => exact ⟨Good.adv hp (h2 trivial), rfl⟩
  | err e => exact ⟨Good.adv hp (h2 trivial), rfl⟩
  | panic e => rfl
  | diverge => rfl

/-- The types of the program are as the macro accepts them. -/
structure EnvOk (env : Env) : Prop where
  structs : ∀ p d, env p = some (.struct d) → StructOk d
  enums : ∀ p d, env p = some (.enum d) → EnumOk d

theorem same_deser (L : Lib) {env : Env} (henv : EnvOk env) (hL : ∀ x, Proper (Rd.new (L.parse x))) :
    ∀ (n : Nat) (p : Path), Same (deserGen L env n p) (deser L env n p)
  | 0, _ => fun _ _ => rfl
  | n + 1, p => by
    have ih := same_deser L henv hL n
    unfold deserGen deser
    cases he : env p with
    | none => intro rd hp; rfl
    | some td =>
      cases td with
      | struct d => exact same_struct L _ _ ih hL (henv.structs p d he)
      | enum d => exact same_enum L _ _ ih (henv.enums p d he)
      | prim d => exact Same.of_loc (Loc.primDeser d)

end Yaserde.Rs
