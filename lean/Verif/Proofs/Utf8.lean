import Verif.Model.Basic

namespace Ratel

theorem toByteArray_data_toList (a : ByteArray) : a.data.toList.toByteArray = a := by
  apply ByteArray.ext
  simp

theorem fromUtf8_strBytes (s : String) : fromUtf8 (strBytes s) = some s := by
  unfold fromUtf8 strBytes String.fromUTF8?
  rw [toByteArray_data_toList]
  simp [s.isValidUTF8, String.fromUTF8]

theorem strBytes_of_fromUtf8 {b : List UInt8} {s : String} (h : fromUtf8 b = some s) : strBytes s = b := by
  unfold fromUtf8 String.fromUTF8? at h
  split at h
  · cases h
    simp [strBytes, String.fromUTF8]
  · cases h
theorem fromUtf8_none {b : List UInt8} (h : ∀ s, strBytes s ≠ b) : fromUtf8 b = none := by
  cases hb : fromUtf8 b with
  | none => rfl
  | some s => exact absurd (strBytes_of_fromUtf8 hb) (h s)

end Ratel
