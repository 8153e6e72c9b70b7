/-
src/mqtt/transport/packet_decoder.rs, written against any byte source.
-/
import Verif.Model.Packets
import Verif.Model.ReadStream

namespace Ratel.Decoder

open ByteSource

variable {σ : Type} [ByteSource σ]

/-- `get_string` (src/mqtt/transport/mqtt_bytes_stream.rs:198-216). -/
def getString : M σ String := do
  let stringSize ← getU16
  let strBuf ← getBytes stringSize.toNat
  match fromUtf8 strBuf with
  | some str => pure str
  | none => M.fail .invalidData

/-- `a -= b` on `u64` (packet_decoder.rs:178-182, 237, 259, 275, 288): panics with overflow checks, wraps without. -/
def subU64 (pr : Profile) (a b : Nat) : M σ Nat := fun s =>
  if b ≤ a then (.ok (a - b), s)
  else if pr.overflowChecks then (.panic, s)
  else (.ok (a + 2 ^ 64 - b), s)

/-- The loop of `decode_remaining_length` (packet_decoder.rs:49-65). `remaining_length` and `multiplier` never exceed
`128^4`, so `u64` arithmetic does not overflow (proved in C02). -/
def decodeRemainingLengthLoop (remainingLength multiplier : Nat) (hm : 0 < multiplier) : M σ Nat := do
  let byte ← getU8
  let remainingLength := remainingLength + (byte &&& 127).toNat * multiplier
  let multiplier' := multiplier * 128
  if h : multiplier' > 128 * 128 * 128 then
    M.fail .invalidData
  else
    if byte &&& 128 = 0 then
      pure remainingLength
    else
      decodeRemainingLengthLoop remainingLength multiplier' (by omega)
termination_by 128 * 128 * 128 + 1 - multiplier
decreasing_by omega

/-- `u64` arithmetic that panics when the exact result does not fit. -/
def checkedU64 (n : Nat) : M σ Nat := fun s => if n < 2 ^ 64 then (.ok n, s) else (.panic, s)

/-- The same loop with every `u64` operation checked (packet_decoder.rs:51-52); C02 proves that no check ever fails. -/
def decodeRemainingLengthLoopChecked (remainingLength multiplier : Nat) (hm : 0 < multiplier) : M σ Nat := do
  let byte ← getU8
  let product ← checkedU64 ((byte &&& 127).toNat * multiplier)
  let remainingLength ← checkedU64 (remainingLength + product)
  let _ ← checkedU64 (multiplier * 128)
  let multiplier' := multiplier * 128
  if h : multiplier' > 128 * 128 * 128 then
    M.fail .invalidData
  else
    if byte &&& 128 = 0 then
      pure remainingLength
    else
      decodeRemainingLengthLoopChecked remainingLength multiplier' (by omega)
termination_by 128 * 128 * 128 + 1 - multiplier
decreasing_by omega

/-- `decode_remaining_length` (packet_decoder.rs:45-68). -/
def decodeRemainingLength : M σ Nat := decodeRemainingLengthLoop 0 1 (by decide)

/-- `validate_first_byte` (packet_decoder.rs:308-317). -/
def validateFirstByte (actual expected : UInt8) : M σ Unit :=
  if actual = expected then pure () else M.fail .invalidData

/-- `decode_packet_with_packet_id` (packet_decoder.rs:297-306). -/
def decodePacketWithPacketId (firstByte expectedFirstByte : UInt8) : M σ UInt16 := do
  validateFirstByte firstByte expectedFirstByte
  getU16

/-- `if connect_flags.contains(..) { Some(buffer.get_string().await?) } else { None }` (packet_decoder.rs:128-139). -/
def getStringIf (present : Bool) : M σ (Option String) :=
  if present then do
    let s ← getString
    pure (some s)
  else pure none

/-- `decode_connect` (packet_decoder.rs:96-152). Protocol name and level are read and ignored; the will flags (lines 105-108)
are defined but never consulted. -/
def decodeConnect : M σ ControlPacket := do
  let _protocolName ← getString
  let _protocolLevel ← getU8
  let connectFlags ← getU8
  let cleanSession : Bool := connectFlags &&& 0b00000010 ≠ 0
  let keepAliveSeconds ← getU16
  let clientId ← getString
  let userName ← getStringIf (connectFlags &&& 0b10000000 ≠ 0)
  let password ← getStringIf (connectFlags &&& 0b01000000 ≠ 0)
  pure (.connect
    { version := .mqtt3
      clientId := clientId
      keepAliveSeconds := keepAliveSeconds
      cleanSession := cleanSession
      willMessage := none
      userName := userName
      password := password })

/-- The packet id of a PUBLISH, present when QoS > 0, and the remaining length after it (packet_decoder.rs:181-186). -/
def publishPacketId (pr : Profile) (qos : QoS) (remainingLength : Nat) : M σ (Option UInt16 × Nat) :=
  if qos.gtAtMostOnce then do
    let remainingLength ← subU64 pr remainingLength 2
    let packetId ← getU16
    pure (some packetId, remainingLength)
  else pure (none, remainingLength)

/-- `decode_publish` (packet_decoder.rs:154-193). `QoS::from_bits` panics on 3 (line 174). -/
def decodePublish (pr : Profile) (firstByte : UInt8) (remainingLength : Nat) : M σ ControlPacket := do
  let dup : Bool := firstByte &&& 0b00001000 ≠ 0
  let retain : Bool := firstByte &&& 0b00000001 ≠ 0
  match QoS.fromBits ((firstByte &&& 0b00000110) >>> 1) with
  | none => M.panic
  | some qos => do
    let topic ← getString
    let remainingLength ← subU64 pr remainingLength (strLen topic)
    let remainingLength ← subU64 pr remainingLength 2
    let idAndLength ← publishPacketId pr qos remainingLength
    let body ← getBytes idAndLength.2
    pure (.publish
      { packetId := idAndLength.1
        dup := dup
        message := { topic := topic, payload := body, qos := qos, retain := retain } })

/-- `decode_pub_ack` (packet_decoder.rs:195-202). -/
def decodePubAck (firstByte : UInt8) : M σ ControlPacket := do
  let packetId ← decodePacketWithPacketId firstByte 0b01000000
  pure (.pubAck packetId)

/-- `decode_pub_rec` (packet_decoder.rs:204-211). -/
def decodePubRec (firstByte : UInt8) : M σ ControlPacket := do
  let packetId ← decodePacketWithPacketId firstByte 0b01010000
  pure (.pubRec packetId)

/-- `decode_pub_rel` (packet_decoder.rs:213-220). -/
def decodePubRel (firstByte : UInt8) : M σ ControlPacket := do
  let packetId ← decodePacketWithPacketId firstByte 0b01100010
  pure (.pubRel packetId)

/-- `decode_pub_comp` (packet_decoder.rs:222-229). -/
def decodePubComp (firstByte : UInt8) : M σ ControlPacket := do
  let packetId ← decodePacketWithPacketId firstByte 0b01110000
  pure (.pubComp packetId)

/-- The payload loop of `decode_subscribe` (packet_decoder.rs:249-263). `fuel` bounds the recursion; every round reads at
least three bytes, so `avail + 1` rounds are never used up (`subscribeLoop_fuel` in Proofs/Decoder). -/
def subscribeLoop (pr : Profile) : Nat → Nat → List Subscription → M σ (List Subscription)
  | 0, _, _ => fun s => (.hang, s)
  | fuel + 1, remainingLength, subscriptions =>
    if remainingLength > 0 then do
      let topic ← getString
      let qos ← getU8
      if qos > 2 then M.fail .invalidData
      else do
        let remainingLength ← subU64 pr remainingLength (strLen topic + 3)
        match QoS.fromBits qos with
        | none => M.panic
        | some q => subscribeLoop pr fuel remainingLength (subscriptions ++ [{ topic := topic, qos := q }])
    else pure subscriptions

/-- `decode_subscribe` (packet_decoder.rs:231-267). -/
def decodeSubscribe (pr : Profile) (firstByte : UInt8) (remainingLength : Nat) : M σ ControlPacket := do
  let packetId ← decodePacketWithPacketId firstByte 0b10000010
  let remainingLength ← subU64 pr remainingLength 2
  if remainingLength = 0 then M.fail .invalidData
  else do
    let subscriptions ← fun s => subscribeLoop pr (avail s + 1) remainingLength [] s
    pure (.subscribe { packetId := packetId, subscriptions := subscriptions })

/-- The payload loop of `decode_unsubscribe` (packet_decoder.rs:285-291); `fuel` as in `subscribeLoop`. -/
def unsubscribeLoop (pr : Profile) : Nat → Nat → List String → M σ (List String)
  | 0, _, _ => fun s => (.hang, s)
  | fuel + 1, remainingLength, topics =>
    if remainingLength > 0 then do
      let topic ← getString
      let remainingLength ← subU64 pr remainingLength (strLen topic + 2)
      unsubscribeLoop pr fuel remainingLength (topics ++ [topic])
    else pure topics

/-- `decode_unsubscribe` (packet_decoder.rs:269-295). -/
def decodeUnsubscribe (pr : Profile) (firstByte : UInt8) (remainingLength : Nat) : M σ ControlPacket := do
  let packetId ← decodePacketWithPacketId firstByte 0b10100010
  let remainingLength ← subU64 pr remainingLength 2
  if remainingLength = 0 then M.fail .invalidData
  else do
    let topics ← fun s => unsubscribeLoop pr (avail s + 1) remainingLength [] s
    pure (.unsubscribe { packetId := packetId, topics := topics })

/-- The `match packet_type` of `read_packet` (packet_decoder.rs:75-91; type constants packets/mod.rs:38-51).
All other packet types hit `unimplemented!()`. -/
def decodeBody (pr : Profile) (firstByte : UInt8) (remainingLength : Nat) : M σ ControlPacket :=
  let packetType := firstByte >>> 4
  if packetType = packetTypeConnect then decodeConnect
  else if packetType = packetTypePublish then decodePublish pr firstByte remainingLength
  else if packetType = packetTypePubAck then decodePubAck firstByte
  else if packetType = packetTypePubRec then decodePubRec firstByte
  else if packetType = packetTypePubRel then decodePubRel firstByte
  else if packetType = packetTypePubComp then decodePubComp firstByte
  else if packetType = packetTypeSubscribe then decodeSubscribe pr firstByte remainingLength
  else if packetType = packetTypeUnsubscribe then decodeUnsubscribe pr firstByte remainingLength
  else if packetType = packetTypePingReq then pure .pingReq
  else if packetType = packetTypeDisconnect then pure .disconnect
  else M.panic

/-- `read_packet` (packet_decoder.rs:70-94). -/
def readPacket (pr : Profile) : M σ ControlPacket := do
  let firstByte ← getU8
  let remainingLength ← decodeRemainingLength
  decodeBody pr firstByte remainingLength

end Ratel.Decoder
