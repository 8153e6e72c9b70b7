import Verif.Model.WriteStream
import Verif.Model.ReadStream
import Verif.Spec.Wire

namespace Ratel

/-- Facts about all bytes, by checking all 256. -/
theorem forall_u8 {P : UInt8 → Prop} (h : ∀ n : Fin 256, P (UInt8.ofNat n)) (b : UInt8) : P b := by
  have := h ⟨b.toNat, b.toNat_lt⟩
  simpa using this

theorem u8_and_127 : ∀ b : UInt8, (b &&& 127).toNat = b.toNat % 128 := by
  apply forall_u8; decide +kernel

theorem u8_and_128 : ∀ b : UInt8, (b &&& 128 = 0) ↔ b.toNat < 128 := by
  apply forall_u8; decide +kernel

theorem byte_toNat {n : Nat} (h : n < 256) : (Spec.byte n).toNat = n := by
  simp [Spec.byte]; omega

theorem u8_or_128 {n : Nat} (h : n < 128) : UInt8.ofNat n ||| 128 = Spec.byte (n + 128) := by
  have : ∀ n : Fin 128, UInt8.ofNat n ||| 128 = Spec.byte (n + 128) := by decide +kernel
  exact this ⟨n, h⟩

theorem u16Bytes_eq (n : UInt16) : u16Bytes n = Spec.twoBytes n.toNat := rfl

theorem u16OfBytes_twoBytes (n : UInt16) : u16OfBytes (Spec.byte (n.toNat / 256)) (Spec.byte (n.toNat % 256)) = n := by
  unfold u16OfBytes
  have h := n.toNat_lt
  rw [byte_toNat (by omega), byte_toNat (by omega)]
  have : n.toNat / 256 * 256 + n.toNat % 256 = n.toNat := by omega
  rw [this]
  simp

theorem twoBytes_of_u16OfBytes (hi lo : UInt8) : Spec.twoBytes (u16OfBytes hi lo).toNat = [hi, lo] := by
  have h1 := hi.toNat_lt
  have h2 := lo.toNat_lt
  have : (u16OfBytes hi lo).toNat = hi.toNat * 256 + lo.toNat := by
    unfold u16OfBytes
    simp
    omega
  simp only [Spec.twoBytes, Spec.byte, this]
  congr
  · rw [show (hi.toNat * 256 + lo.toNat) / 256 = hi.toNat by omega]; simp
  · rw [show (hi.toNat * 256 + lo.toNat) % 256 = lo.toNat by omega]; simp

theorem strBytes_eq (s : String) : strBytes s = Spec.utf8 s := rfl

theorem strLen_eq (s : String) : strLen s = (Spec.utf8 s).length := rfl

end Ratel
