import Verif.Model.Basic

namespace Ratel

namespace Res

/-- The result is not a value: what `?` passes on unchanged. -/
def cast {α β : Type} (r : Res α) (h : ∀ a, r ≠ .ok a) : Res β :=
  match r, h with
  | .ok a, h => absurd rfl (h a)
  | .err e, _ => .err e
  | .panic, _ => .panic
  | .hang, _ => .hang
  | .pending, _ => .pending

end Res

namespace M

variable {σ α β : Type}

@[simp] theorem pure_apply (a : α) (s : σ) : (Pure.pure a : M σ α) s = (.ok a, s) := rfl

theorem bind_apply (m : M σ α) (f : α → M σ β) (s : σ) :
    (m >>= f) s = match m s with
      | (.ok a, s') => f a s'
      | (.err e, s') => (.err e, s')
      | (.panic, s') => (.panic, s')
      | (.hang, s') => (.hang, s')
      | (.pending, s') => (.pending, s') := rfl

theorem bind_ok {m : M σ α} {f : α → M σ β} {s s' : σ} {a : α} (h : m s = (.ok a, s')) : (m >>= f) s = f a s' := by
  rw [bind_apply, h]

theorem bind_err {m : M σ α} {f : α → M σ β} {s s' : σ} {e : ErrKind} (h : m s = (.err e, s')) :
    (m >>= f) s = (.err e, s') := by
  rw [bind_apply, h]

theorem bind_panic {m : M σ α} {f : α → M σ β} {s s' : σ} (h : m s = (.panic, s')) : (m >>= f) s = (.panic, s') := by
  rw [bind_apply, h]

theorem bind_hang {m : M σ α} {f : α → M σ β} {s s' : σ} (h : m s = (.hang, s')) : (m >>= f) s = (.hang, s') := by
  rw [bind_apply, h]

theorem bind_pending {m : M σ α} {f : α → M σ β} {s s' : σ} (h : m s = (.pending, s')) : (m >>= f) s = (.pending, s') := by
  rw [bind_apply, h]

/-- A sequence returns a value exactly when both parts do. -/
theorem bind_eq_ok {m : M σ α} {f : α → M σ β} {s s' : σ} {b : β} :
    (m >>= f) s = (.ok b, s') ↔ ∃ a s₁, m s = (.ok a, s₁) ∧ f a s₁ = (.ok b, s') := by
  rw [bind_apply]
  rcases h : m s with ⟨r, s₁⟩
  cases r <;> simp [and_assoc]

/-- A sequence panics exactly when one of its parts does. -/
theorem bind_eq_panic {m : M σ α} {f : α → M σ β} {s s' : σ} :
    (m >>= f) s = (.panic, s') ↔ m s = (.panic, s') ∨ ∃ a s₁, m s = (.ok a, s₁) ∧ f a s₁ = (.panic, s') := by
  rw [bind_apply]
  rcases h : m s with ⟨r, s₁⟩
  cases r <;> simp [and_assoc]

/-- A sequence spins exactly when one of its parts does. -/
theorem bind_eq_hang {m : M σ α} {f : α → M σ β} {s s' : σ} :
    (m >>= f) s = (.hang, s') ↔ m s = (.hang, s') ∨ ∃ a s₁, m s = (.ok a, s₁) ∧ f a s₁ = (.hang, s') := by
  rw [bind_apply]
  rcases h : m s with ⟨r, s₁⟩
  cases r <;> simp [and_assoc]

theorem bind_congr' {m : M σ α} {f g : α → M σ β} {s : σ} (h : ∀ a s₁, m s = (.ok a, s₁) → f a s₁ = g a s₁) :
    (m >>= f) s = (m >>= g) s := by
  rw [bind_apply, bind_apply]
  rcases hm : m s with ⟨r, s₁⟩
  cases r with
  | ok a => exact h a s₁ hm
  | _ => rfl

@[simp] theorem fail_apply (e : ErrKind) (s : σ) : (M.fail e : M σ α) s = (.err e, s) := rfl

@[simp] theorem panic_apply (s : σ) : (M.panic : M σ α) s = (.panic, s) := rfl

theorem map_eq_bind (f : α → β) (m : M σ α) : f <$> m = m >>= fun a => Pure.pure (f a) := rfl

@[simp] theorem pure_bind' (a : α) (f : α → M σ β) : (Pure.pure a : M σ α) >>= f = f a := rfl

@[simp] theorem bind_assoc' {γ : Type} (m : M σ α) (f : α → M σ β) (g : β → M σ γ) :
    (m >>= f) >>= g = m >>= fun a => f a >>= g := by
  funext s
  simp only [bind_apply]
  rcases m s with ⟨r, s₁⟩
  cases r <;> rfl

end M

end Ratel
