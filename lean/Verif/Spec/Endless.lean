/-
Executions that go on for ever.
-/
import Verif.Model.Live
import Verif.Spec.Open

namespace Ratel.Spec

/-- The first `n` steps of an endless execution. -/
def firstOf (σ : Nat → OStep) (n : Nat) : List OStep := (List.range n).map σ

/-- An endless execution with connections below `N` in which every task gets its turn again and again, and every socket answers a write
of the broker again and again: it takes at least one byte, or fails. Ctrl-c is not pressed. -/
structure Endless (N : Nat) (σ : Nat → OStep) : Prop where
  few : ∀ n (c : Nat), σ n = .task (.read c) → c < N
  read : ∀ c : Nat, c < N → ∀ n, ∃ m, n ≤ m ∧ σ m = .task (.read c)
  write : ∀ c : Nat, c < N → ∀ n, ∃ m, n ≤ m ∧ σ m = .task (.write c)
  handler : ∀ n, ∃ m now, n ≤ m ∧ σ m = .task (.handler now)
  answer : ∀ c : Nat, c < N → ∀ n, ∃ m o, n ≤ m ∧ σ m = .answer c o
  noStop : ∀ n, σ n ≠ .task .ctrlC

end Ratel.Spec
