/-
As long as the bytes fit into the buffer, a packet is put there whole, whatever the socket does.
-/
import Verif.Proofs.WriteStream

namespace Ratel

open Encoder

/-- If `bs` fits, `m` appends `bs` to the buffer, does not touch the socket and succeeds. -/
def Puts (m : M WStream Unit) (bs : List UInt8) : Prop :=
  ∀ s : WStream, s.buf.len + bs.length < s.buf.cap →
    m s = (.ok (), { s with buf := { s.buf with data := s.buf.data ++ bs } })

/-- `m` does so for some bytes. -/
def WriteFits (m : M WStream Unit) : Prop := ∃ bs, Puts m bs

namespace WriteFits

theorem seq {m : M WStream Unit} {k : Unit → M WStream Unit} (hm : WriteFits m) (hk : WriteFits (k ())) : WriteFits (m >>= k) := by
  obtain ⟨a, ha⟩ := hm
  obtain ⟨b, hb⟩ := hk
  refine ⟨a ++ b, fun s hs => ?_⟩
  rw [List.length_append] at hs
  rw [M.bind_ok (ha s (by omega)), hb _ (by simp only [BytesMut.len, List.length_append] at hs ⊢; omega)]
  simp

theorem pure : WriteFits (Pure.pure ()) := ⟨[], fun s _ => by simp⟩

variable (al : Alloc)

theorem bufPut_fits (n : Nat) (bs : List UInt8) (h : bs.length = n) (hn : bs ≠ []) :
    WriteFits (WStream.writeBufferIfTooSmall al n >>= fun _ => WStream.bufPut al bs) := by
  have := List.length_pos_iff.mpr hn
  refine ⟨bs, fun s hs => ?_⟩
  have h1 : WStream.writeBufferIfTooSmall al n s = (.ok (), s) := by
    unfold WStream.writeBufferIfTooSmall
    rw [if_neg (by omega)]
  rw [M.bind_ok h1]
  unfold WStream.bufPut BytesMut.put BytesMut.reserve
  rw [if_pos (by omega)]

theorem putBytes_fits (bs : List UInt8) : WriteFits (WStream.putBytes al bs) := by
  refine ⟨bs, fun s hs => ?_⟩
  rw [WStream.putBytes]
  by_cases h0 : bs.length = 0
  · simp [List.eq_nil_of_length_eq_zero h0]
  · have hw : ¬ bs.length > s.buf.cap := by omega
    have h1 : WStream.writeBufferIfTooSmall al bs.length s = (.ok (), s) := by
      unfold WStream.writeBufferIfTooSmall
      rw [if_neg (by omega)]
    simp only [h0, ↓reduceDIte, hw, ↓reduceIte, h1, List.take_length, List.drop_length]
    rw [WStream.putBytes]
    simp only [List.length_nil, ↓reduceDIte]
    unfold BytesMut.put BytesMut.reserve
    rw [if_pos (by omega)]

theorem putU8_fits (b : UInt8) : WriteFits (WStream.putU8 al b) := bufPut_fits al 1 [b] rfl (by simp)

theorem putU16_fits (n : UInt16) : WriteFits (WStream.putU16 al n) := bufPut_fits al 2 (u16Bytes n) rfl (by simp [u16Bytes])

theorem remainingLength (n : Nat) :
    letI := WStream.sink al
    WriteFits (encodeRemainingLength n) := by
  letI := WStream.sink al
  induction n using Nat.strongRecOn with
  | _ n ih =>
    rw [encodeRemainingLength]
    refine (putU8_fits al _).seq ?_
    split
    · exact WriteFits.pure
    · exact ih _ (by omega)

theorem withPacketId (b : UInt8) (i : UInt16) :
    letI := WStream.sink al
    WriteFits (writePacketWithPacketId b i) :=
  letI := WStream.sink al
  (putU8_fits al _).seq ((remainingLength al _).seq (putU16_fits al _))

theorem returnCodes (cs : List SubAckReturnCode) :
    letI := WStream.sink al
    WriteFits (writeReturnCodes cs) := by
  letI := WStream.sink al
  induction cs with
  | nil => exact WriteFits.pure
  | cons c cs ih => exact (putU8_fits al _).seq ih

theorem body (p : ControlPacket) (hp : (Spec.serverBytes p).isSome = true) :
    letI := WStream.sink al
    WriteFits (writeBody p) := by
  letI := WStream.sink al
  cases p with
  | connAck p => exact (putU8_fits al _).seq ((remainingLength al _).seq ((putU8_fits al _).seq (putU8_fits al _)))
  | publish p =>
    refine (putU8_fits al _).seq ((remainingLength al _).seq ?_)
    refine WriteFits.seq ((putU16_fits al _).seq (putBytes_fits al _)) ?_
    cases p.packetId with
    | none => exact putBytes_fits al _
    | some i => exact (putU16_fits al i).seq (putBytes_fits al _)
  | pubAck i => exact withPacketId al _ _
  | pubRec i => exact withPacketId al _ _
  | pubRel i => exact withPacketId al _ _
  | pubComp i => exact withPacketId al _ _
  | subAck p => exact (putU8_fits al _).seq ((remainingLength al _).seq ((putU16_fits al _).seq (returnCodes al _)))
  | unsubAck i => exact withPacketId al _ _
  | pingResp => exact (putU8_fits al _).seq (remainingLength al _)
  | connect | subscribe | unsubscribe | pingReq | disconnect => simp [Spec.serverBytes] at hp

end WriteFits

/-- A packet that fits is put into the buffer whole. -/
theorem writeBody_puts (al : Alloc) (p : ControlPacket) (hp : Spec.ServerPacket p) (bs : List UInt8)
    (hbs : Spec.serverBytes p = some bs) :
    letI := WStream.sink al
    Puts (writeBody p) bs := by
  letI := WStream.sink al
  obtain ⟨cs, hcs⟩ := WriteFits.body al p (by rw [hbs]; rfl)
  have h := (WStream.laws (fun _ => True) al).writeBody p hp bs hbs ⟨⟨0, cs.length + 1, []⟩, [], []⟩
    ⟨by simp [WStream.Wf, BytesMut.len], fun _ _ => trivial⟩
  rw [hcs ⟨⟨0, cs.length + 1, []⟩, [], []⟩ (by simp [BytesMut.len])] at h
  have : cs = bs := by simpa [WStream.out] using h.1
  exact this ▸ hcs

/-- What is put stays, and the room left for more is what it was, minus the packet, whatever the final write does. -/
theorem writePacket_fits (al : Alloc) (p : ControlPacket) (hp : Spec.ServerPacket p) (bs : List UInt8)
    (hbs : Spec.serverBytes p = some bs) (s : WStream) (hs : s.buf.len + bs.length < s.buf.cap) :
    letI := WStream.sink al
    let s' := ((writePacket p : M WStream Unit) s).2
    s'.out = s.out ++ bs ∧ s.buf.cap + s'.buf.len ≤ s'.buf.cap + s.buf.len + bs.length ∧ s'.buf.len ≤ s'.buf.cap := by
  letI := WStream.sink al
  have hb : (writeBody p : M WStream Unit) s = _ := writeBody_puts al p hp bs hbs s hs
  have hw : (writePacket p : M WStream Unit) s
      = WStream.writeBuf al { s with buf := { s.buf with data := s.buf.data ++ bs } } := by
    unfold writePacket
    rw [M.bind_ok hb]
    rfl
  simp only [hw]
  clear hw hb
  rcases s with ⟨⟨off, cap, data⟩, wire, script⟩
  simp only [BytesMut.len] at hs
  unfold WStream.writeBuf
  simp only
  split
  · simp [WStream.out, BytesMut.len]; omega
  · cases script with
    | nil => simp [WStream.out, BytesMut.len]; omega
    | cons o r =>
      cases o with
      | fail => simp [WStream.out, BytesMut.len]; omega
      | accept k =>
        refine ⟨by simp [WStream.out, BytesMut.advance_data], ?_, BytesMut.advance_wf al _ _ (by simp [BytesMut.len]; omega)⟩
        simp only [BytesMut.advance]
        split
        · simp [BytesMut.len]; omega
        · simp only [BytesMut.splitTo, BytesMut.len, List.length_drop, List.length_append]
          omega

end Ratel
