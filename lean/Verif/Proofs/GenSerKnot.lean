import Verif.Proofs.GenSerEnum
import Verif.Proofs.GenMono
/-
All types of a program together: the printed `serialize` functions call each other.
-/

set_option autoImplicit false

namespace Yaserde.Rs

/-- Programs for which the printed code compiles. -/
structure EnvSer (env : Env) : Prop where
  structs : ∀ p d, env p = some (.struct d) → ∀ f ∈ d.fields, FieldSer f
  enums : ∀ p d, env p = some (.enum d) → ∀ v ∈ d.variants, VariantSer d.attrs v

/-- Calls may be nested as deep as the value is large. -/
theorem gen_eq (L : Lib) {env : Env} (h : EnvSer env) : ∀ (n : Nat),
    (∀ p v, HasTy env (.struct p) v → sizeOf v < n → serGen L env n p v = serTy L env p v) ∧
    (∀ p v, HasTy env (.struct p) v → sizeOf v < n → attrsGen L env n p v [] [] = attrsOf L env p v)
  | 0 => ⟨fun _ _ _ hz => absurd hz (by omega), fun _ _ _ hz => absurd hz (by omega)⟩
  | n + 1 => by
    obtain ⟨hs, ha⟩ := gen_eq L h n
    have size : ∀ {vs : List Val}, sizeOf (Val.struct vs) < n + 1 → ∀ x ∈ vs, sizeOf x < n := by
      intro vs hz x hx
      have := List.sizeOf_lt_of_mem hx
      simp at hz
      omega
    constructor
    · intro p v hv hz
      unfold serGen
      cases hp : env p with
      | none =>
        rcases hv with _ | _ | _ | _ | _ | _ | _ | _ | ⟨_, d', fs, hp', hlen, hf⟩ | ⟨_, d', i, vd, hp', hvd, hsh⟩ |
          ⟨_, d', i, vd, t, x, hp', hvd, hsh, hx⟩ | ⟨_, d', i, vd, fds, fs, hp', hvd, hsh, hlen, hx⟩ | ⟨_, d', _, hp', hd⟩ <;>
          rw [hp] at hp' <;> cases hp'
      | some td =>
        cases td with
        | struct d =>
          rcases hv with _ | _ | _ | _ | _ | _ | _ | _ | ⟨_, d', fs, hp', hlen, hf⟩ | ⟨_, d', i, vd, hp', hvd, hsh⟩ |
            ⟨_, d', i, vd, t, x, hp', hvd, hsh, hx⟩ | ⟨_, d', i, vd, fds, fs, hp', hvd, hsh, hlen, hx⟩ | ⟨_, d', _, hp', hd⟩ <;>
            rw [hp] at hp' <;> cases hp'
          rw [serTy.eq_def, hp]
          exact run_serStruct hs ha hlen.symm (h.structs p d hp) hf (size hz)
        | enum d => exact run_serEnum hs hp (h.enums p d hp) hv hz
        | prim d => rw [serTy.eq_def, hp]
    · intro p v hv hz
      unfold attrsGen
      cases hp : env p with
      | none =>
        rcases hv with _ | _ | _ | _ | _ | _ | _ | _ | ⟨_, d', fs, hp', hlen, hf⟩ | ⟨_, d', i, vd, hp', hvd, hsh⟩ |
          ⟨_, d', i, vd, t, x, hp', hvd, hsh, hx⟩ | ⟨_, d', i, vd, fds, fs, hp', hvd, hsh, hlen, hx⟩ | ⟨_, d', _, hp', hd⟩ <;>
          rw [hp] at hp' <;> cases hp'
      | some td =>
        cases td with
        | struct d =>
          rcases hv with _ | _ | _ | _ | _ | _ | _ | _ | ⟨_, d', fs, hp', hlen, hf⟩ | ⟨_, d', i, vd, hp', hvd, hsh⟩ |
            ⟨_, d', i, vd, t, x, hp', hvd, hsh, hx⟩ | ⟨_, d', i, vd, fds, fs, hp', hvd, hsh, hlen, hx⟩ | ⟨_, d', _, hp', hd⟩ <;>
            rw [hp] at hp' <;> cases hp'
          rw [attrsOf.eq_def, hp]
          exact run_attrsStruct hs ha hlen.symm (fun f hf => (h.structs p d hp f hf).1) hf (size hz)
        | enum d => exact run_attrsEnum hp (h.enums p d hp) hv
        | prim d => rw [attrsOf.eq_def, hp]

/-! ### More budget -/

/-- `y` does what `x` does, wherever `x` comes to an end. -/
def LeS (x y : S Unit) : Prop := ∀ t, (x t).1 ≠ .diverge → y t = x t

theorem liftS_mono {x y : S Unit} (h : LeS x y) (t : Sr) (hd : (liftS x t).1 ≠ .diverge) : liftS y t = liftS x t := by
  have h1 := h t
  unfold liftS at hd ⊢
  rcases hx : x t with ⟨r, t'⟩
  rw [hx] at hd h1
  cases r with
  | diverge => exact absurd rfl hd
  | _ => rw [h1 (by simp)]

theorem contentOf_mono (L : Lib) {x y : S Unit} (h : LeS x y) (hd : contentOf L x ≠ .diverge) : contentOf L y = contentOf L x := by
  have h1 := h { writer := {}, skip := true, startName := none }
  unfold contentOf at hd ⊢
  rcases hx : x { writer := {}, skip := true, startName := none } with ⟨r, t'⟩
  rw [hx] at hd h1
  cases r with
  | diverge => exact absurd rfl hd
  | _ => rw [h1 (by simp)]

section mono
variable (L : Lib) {ser ser' : Path → Val → S Unit} {attrs attrs' : Path → Val → List Attr → NsMap → Res (List Attr × NsMap)}
  (hs : ∀ p v, LeS (ser p v) (ser' p v)) (ha : ∀ p v as m, attrs p v as m ≠ .diverge → attrs' p v as m = attrs p v as m)
include hs ha

theorem callOps_mono (o : Op) (l : List RV) (hd : callOps L ser attrs o l ≠ .diverge) : callOps L ser' attrs' o l = callOps L ser attrs o l := by
  unfold callOps at hd ⊢
  split
  · dsimp only at hd ⊢
    rw [contentOf_mono L (hs _ _)]
    intro h
    rw [h] at hd
    exact hd rfl
  · dsimp only at hd ⊢
    split
    · rename_i h1
      rw [h1] at hd
      dsimp only at hd
      rw [ha]
      intro h
      rw [h] at hd
      exact hd rfl
    · rfl
  · rfl

theorem serOps_mono (o : Op) (l : List RV) (t : Sr) (hd : (serOps L ser attrs o l t).1 ≠ .diverge) :
    serOps L ser' attrs' o l t = serOps L ser attrs o l t := by
  revert hd
  unfold serOps
  split
  · exact fun _ => rfl
  · exact fun _ => rfl
  · exact fun _ => rfl
  · exact fun _ => rfl
  · exact fun _ => rfl
  · exact fun _ => rfl
  · exact fun hd => liftS_mono (hs _ _) _ hd
  · exact fun _ => rfl
  · intro hd
    dsimp only at hd ⊢
    rw [callOps_mono L hs ha _ _ hd]

theorem runSer_mono (b : Ex) (v : Val) : LeS (runSer L ser attrs b v) (runSer L ser' attrs' b v) := by
  intro t hd
  have h1 := LeE.eval L (serOps_mono L hs ha) (Nat.le_refl 0) b (t, (Store.empty.set .self (.val v)).set .writer .ser)
  unfold runSer at hd ⊢
  rcases hx : eval L (serOps L ser attrs) 0 b (t, (Store.empty.set .self (.val v)).set .writer .ser) with ⟨o, s⟩
  rw [hx] at hd h1
  cases o with
  | diverge => exact absurd rfl hd
  | _ => rw [h1 (by simp)]

theorem runAttrs_mono (b : Ex) (v : Val) (as : List Attr) (m : NsMap) (hd : runAttrs L ser attrs b v as m ≠ .diverge) :
    runAttrs L ser' attrs' b v as m = runAttrs L ser attrs b v as m := by
  have h1 := LeE.eval (σ := Unit) L (ops := fun o l t => (callOps L ser attrs o l, t)) (ops' := fun o l t => (callOps L ser' attrs' o l, t))
    (fun o l t hd => by dsimp only at hd ⊢; rw [callOps_mono L hs ha _ _ hd]) (Nat.le_refl 0) b
    ((), ((Store.empty.set .self (.val v)).set .source_attributes (.vec (as.map .attr))).set .source_namespace (.nss m))
  unfold runAttrs at hd ⊢
  rcases hx : eval (σ := Unit) L (fun o l t => (callOps L ser attrs o l, t)) 0 b
    ((), ((Store.empty.set .self (.val v)).set .source_attributes (.vec (as.map .attr))).set .source_namespace (.nss m)) with ⟨o, s⟩
  rw [hx] at hd h1
  cases o with
  | diverge => exact absurd rfl hd
  | _ => rw [h1 (by simp)]

end mono

theorem gen_mono (L : Lib) (env : Env) : ∀ {n m : Nat}, n ≤ m →
    (∀ p v, LeS (serGen L env n p v) (serGen L env m p v)) ∧
    (∀ p v as ns, attrsGen L env n p v as ns ≠ .diverge → attrsGen L env m p v as ns = attrsGen L env n p v as ns)
  | 0, _, _ => ⟨fun _ _ _ hd => by unfold serGen at hd; exact absurd rfl hd, fun _ _ _ _ hd => by unfold attrsGen at hd; exact absurd rfl hd⟩
  | n + 1, 0, hm => absurd hm (by omega)
  | n + 1, m + 1, hm => by
    obtain ⟨hs, ha⟩ := gen_mono L env (n := n) (m := m) (by omega)
    constructor
    · intro p v
      unfold serGen
      cases env p with
      | none => exact fun _ _ => rfl
      | some td =>
        cases td with
        | struct d => exact runSer_mono L hs ha _ _
        | enum d => exact runSer_mono L hs ha _ _
        | prim d => exact fun _ _ => rfl
    · intro p v as ns hd
      unfold attrsGen at hd ⊢
      cases he : env p with
      | none => rfl
      | some td =>
        rw [he] at hd
        cases td with
        | struct d => exact runAttrs_mono L hs ha _ _ _ _ hd
        | enum d => exact runAttrs_mono L hs ha _ _ _ _ hd
        | prim d => rfl

end Yaserde.Rs
