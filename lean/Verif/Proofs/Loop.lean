/-
Loops given by their body: what it means that a loop ends, or that it never does.
-/

namespace Ratel

variable {X Y : Type}

/-- The state after `n` rounds of a loop, or the result if it has ended by then. -/
def loopN (f : X → X ⊕ Y) : Nat → X → X ⊕ Y
  | 0, x => .inl x
  | n + 1, x =>
    match f x with
    | .inl y => loopN f n y
    | .inr r => .inr r

/-- The loop never ends. -/
def Spins (f : X → X ⊕ Y) (x : X) : Prop := ∀ n, ∃ y, loopN f n x = .inl y

/-- The loop ends with result `r`. -/
def Ends (f : X → X ⊕ Y) (x : X) (r : Y) : Prop := ∃ n, loopN f n x = .inr r

theorem spins_of_fixed {f : X → X ⊕ Y} {x : X} (h : f x = .inl x) : Spins f x := by
  intro n
  refine ⟨x, ?_⟩
  induction n with
  | zero => rfl
  | succ n ih => simp [loopN, h, ih]

theorem spins_step {f : X → X ⊕ Y} {x y : X} (h : f x = .inl y) (hy : Spins f y) : Spins f x := by
  intro n
  cases n with
  | zero => exact ⟨x, rfl⟩
  | succ n => simpa [loopN, h] using hy n

theorem ends_now {f : X → X ⊕ Y} {x : X} {r : Y} (h : f x = .inr r) : Ends f x r := ⟨1, by simp [loopN, h]⟩

theorem ends_step {f : X → X ⊕ Y} {x y : X} {r : Y} (h : f x = .inl y) (hy : Ends f y r) : Ends f x r := by
  obtain ⟨n, hn⟩ := hy
  exact ⟨n + 1, by simpa [loopN, h] using hn⟩

theorem loopN_add {f : X → X ⊕ Y} {x : X} {r : Y} {n : Nat} (h : loopN f n x = .inr r) (m : Nat) :
    loopN f (n + m) x = .inr r := by
  induction n generalizing x with
  | zero => simp [loopN] at h
  | succ n ih =>
    rw [Nat.add_right_comm]
    simp only [loopN] at h ⊢
    cases hf : f x with
    | inl y => simp only [hf] at h ⊢; exact ih h
    | inr r' => simpa [hf] using h

/-- A loop does not both end and spin, and it ends in one way only. -/
theorem not_spins_of_ends {f : X → X ⊕ Y} {x : X} {r : Y} (h : Ends f x r) : ¬ Spins f x := by
  obtain ⟨n, hn⟩ := h
  intro hs
  obtain ⟨y, hy⟩ := hs n
  rw [hn] at hy
  cases hy

theorem ends_unique {f : X → X ⊕ Y} {x : X} {r r' : Y} (h : Ends f x r) (h' : Ends f x r') : r = r' := by
  obtain ⟨n, hn⟩ := h
  obtain ⟨m, hm⟩ := h'
  have h1 := loopN_add hn m
  have h2 := loopN_add hm n
  rw [Nat.add_comm, h1] at h2
  cases h2
  rfl

end Ratel
