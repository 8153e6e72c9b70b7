/-
C10, exactly: the byte strings the decoder accepts, and as what.
-/
import Verif.Proofs.Language
import Verif.Props.Codec

namespace Ratel

open Decoder

/-- C10, exactly. The decoder returns a packet and leaves a rest if and only if the bytes are a first byte, a length field of at most
three bytes, a body that with the first byte is well formed and says this packet, and that rest; where the announced length must be
that of the body for PUBLISH, SUBSCRIBE and UNSUBSCRIBE and may be anything for the others. (In builds without overflow checks, as long
as fewer than 2^64 bytes are to come.) -/
theorem C10_language (pr : Profile) (bytes : List UInt8) (fin : Ending) (p : ControlPacket) (rest : List UInt8) (fin' : Ending)
    (hb : pr.overflowChecks = true ∨ bytes.length < 2 ^ 64) :
    decoded pr bytes fin = (.ok p, ⟨rest, fin'⟩) ↔ fin' = fin ∧ ∃ first lf n body, bytes = first :: lf ++ body ++ rest
      ∧ Spec.LengthField lf n ∧ lf.length ≤ 3 ∧ Spec.WellFormed first.toNat body p ∧ (Spec.Measured p → n = body.length) := by
  constructor
  · intro h
    obtain ⟨first, lf, n, body, hlf, hl, ht, hw, hf⟩ := readPacket_took h
    refine ⟨ht.fin, first, lf, n, body, ht.bytes, hlf, hl, hw, fun hm => (hf ?_).symm⟩
    cases p with
    | publish q => trivial
    | subscribe q => exact hb
    | unsubscribe q => exact hb
    | _ => exact hm.elim
  · rintro ⟨rfl, first, lf, n, body, rfl, hlf, hl, hw, hm⟩
    exact PReads.run (Plain.laws.readWhole pr hlf hl hw hm) rest fin'

/-- A CONNECT with the reserved flag and all will flags set, an absurd length, and a wrong protocol. -/
example : decoded ⟨true⟩ [0x1F, 99, 0, 1, 0x58, 200, 0x3F, 0, 60, 0, 1, 0x63, 7] .eof
    = (.ok (.connect ⟨.mqtt3, "c", 60, true, none, none, none⟩), ⟨[7], .eof⟩) := by
  refine (C10_language ⟨true⟩ _ _ _ _ _ (.inl rfl)).mpr ⟨rfl, 0x1F, [99], 99, [0, 1, 0x58, 200, 0x3F, 0, 60, 0, 1, 0x63], rfl,
    .last 99 (by decide), by decide, ?_, fun h => h.elim⟩
  refine ⟨by decide, rfl, rfl, ?_, by simp, by simp, "X", 200, 0x3F, ?_, by decide +kernel, by decide, by decide, by decide⟩
    <;> unfold Spec.Fits <;> decide +kernel

end Ratel
