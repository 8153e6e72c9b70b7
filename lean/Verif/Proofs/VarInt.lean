/-
Facts about the wire format's length field.
-/
import Verif.Proofs.Bytes
import Verif.Proofs.DecoderPanic

namespace Ratel

theorem byteNat {n : Nat} (h : n < 256) : (Spec.byte n).toNat = n := by
  unfold Spec.byte
  rw [UInt8.toNat_ofNat']
  omega

/-- The minimal field is a field. -/
theorem lengthField_varInt (n : Nat) : Spec.LengthField (Spec.varInt n) n := by
  induction n using Nat.strongRecOn with
  | ind n ih =>
    rw [Spec.varInt]
    by_cases h : n < 128
    · simp only [h, ↓reduceIte]
      have := Spec.LengthField.last (Spec.byte n) (by rw [byteNat (by omega)]; exact h)
      rwa [byteNat (by omega)] at this
    · simp only [h, ↓reduceIte]
      have h2 := Spec.LengthField.more (Spec.byte (n % 128 + 128)) _ _ (by rw [byteNat (by omega)]; omega) (ih (n / 128) (by omega))
      rw [byteNat (by omega)] at h2
      rwa [show n % 128 + 128 - 128 + 128 * (n / 128) = n by omega] at h2

theorem length_varInt_le (k n : Nat) (h : n < 128 ^ (k + 1)) : (Spec.varInt n).length ≤ k + 1 := by
  induction k generalizing n with
  | zero => rw [Spec.varInt]; simp at h; simp [h]
  | succ k ih =>
    rw [Spec.varInt]
    split
    · simp
    · have := ih (n / 128) (by rw [Nat.pow_succ] at h; omega)
      simp only [List.length_cons]
      omega

theorem length_varInt_small {n : Nat} (h : n < 2097152) : (Spec.varInt n).length ≤ 3 := length_varInt_le 2 n h

/-- Four-byte fields. -/
theorem varInt_four {n : Nat} (h1 : 2097152 ≤ n) (h2 : n ≤ 268435455) :
    ∃ b₀ b₁ b₂ b₃, Spec.varInt n = [b₀, b₁, b₂, b₃] ∧ 128 ≤ b₀.toNat ∧ 128 ≤ b₁.toNat ∧ 128 ≤ b₂.toNat := by
  refine ⟨Spec.byte (n % 128 + 128), Spec.byte (n / 128 % 128 + 128), Spec.byte (n / 128 / 128 % 128 + 128),
    Spec.byte (n / 128 / 128 / 128), ?_, ?_, ?_, ?_⟩
  · rw [Spec.varInt, if_neg (by omega), Spec.varInt, if_neg (by omega), Spec.varInt, if_neg (by omega), Spec.varInt,
      if_pos (by omega)]
  all_goals rw [byteNat (by omega)]; omega

end Ratel
