/-
src/mqtt/transport/packet_encoder.rs, written against any byte sink.
-/
import Verif.Model.Packets
import Verif.Model.WriteStream

namespace Ratel.Encoder

open ByteSink

variable {σ : Type} [ByteSink σ]

/-- `put_string` (src/mqtt/transport/mqtt_bytes_stream.rs:290-295): the length is cast with `as u16`, i.e. truncated. -/
def putString (string : String) : M σ Unit := do
  putU16 (UInt16.ofNat (strLen string))
  putBytes (strBytes string)

/-- `encode_remaining_length` (packet_encoder.rs:29-48). -/
def encodeRemainingLength (remainingLength : Nat) : M σ Unit := do
  let encodedByte : UInt8 := UInt8.ofNat (remainingLength % 128)
  let rest := remainingLength / 128
  let encodedByte := if rest > 0 then encodedByte ||| 128 else encodedByte
  putU8 encodedByte
  if _h : rest = 0 then pure () else encodeRemainingLength rest
termination_by remainingLength
decreasing_by omega

/-- `write_conn_ack` (packet_encoder.rs:72-87). -/
def writeConnAck (packet : ConnAckPacket) : M σ Unit := do
  putU8 (packetTypeConnAck <<< 4)
  encodeRemainingLength 2
  putU8 (if packet.sessionPresent then 1 else 0)
  putU8 packet.returnCode.toByte

/-- `write_publish` (packet_encoder.rs:89-137). -/
def writePublish (packet : PublishPacket) : M σ Unit := do
  let firstByte : UInt8 := packetTypePublish <<< 4
  let firstByte := if packet.dup then firstByte ||| 0b00001000 else firstByte
  let firstByte := firstByte ||| (packet.message.qos.toByte <<< 1)
  let firstByte := if packet.message.retain then firstByte ||| 0b00000001 else firstByte
  putU8 firstByte
  let remainingLength := strLen packet.message.topic + 2
  let remainingLength := if packet.message.qos.gtAtMostOnce then remainingLength + 2 else remainingLength
  let remainingLength := remainingLength + packet.message.payload.length
  encodeRemainingLength remainingLength
  putString packet.message.topic
  match packet.packetId with
  | some packetId => putU16 packetId
  | none => pure ()
  putBytes packet.message.payload

/-- `write_packet_with_packet_id` (packet_encoder.rs:217-232). -/
def writePacketWithPacketId (firstByte : UInt8) (packetId : UInt16) : M σ Unit := do
  putU8 firstByte
  encodeRemainingLength 2
  putU16 packetId

/-- `write_pub_ack` (packet_encoder.rs:139-145). -/
def writePubAck (packetId : UInt16) : M σ Unit := writePacketWithPacketId (packetTypePubAck <<< 4) packetId

/-- `write_pub_rec` (packet_encoder.rs:147-153). -/
def writePubRec (packetId : UInt16) : M σ Unit := writePacketWithPacketId (packetTypePubRec <<< 4) packetId

/-- `write_pub_rel` (packet_encoder.rs:155-163). -/
def writePubRel (packetId : UInt16) : M σ Unit := writePacketWithPacketId ((packetTypePubRel <<< 4) ||| 0b10) packetId

/-- `write_pub_comp` (packet_encoder.rs:165-171). -/
def writePubComp (packetId : UInt16) : M σ Unit := writePacketWithPacketId (packetTypePubComp <<< 4) packetId

/-- The return-code loop of `write_sub_ack` (packet_encoder.rs:190-192). -/
def writeReturnCodes : List SubAckReturnCode → M σ Unit
  | [] => pure ()
  | c :: cs => do
    putU8 c.toByte
    writeReturnCodes cs

/-- `write_sub_ack` (packet_encoder.rs:173-195). -/
def writeSubAck (packet : SubAckPacket) : M σ Unit := do
  putU8 (packetTypeSubAck <<< 4)
  encodeRemainingLength (2 + packet.returnCodes.length)
  putU16 packet.packetId
  writeReturnCodes packet.returnCodes

/-- `write_unsub_ack` (packet_encoder.rs:197-205). -/
def writeUnsubAck (packetId : UInt16) : M σ Unit := writePacketWithPacketId (packetTypeUnsubAck <<< 4) packetId

/-- `write_ping_resp` (packet_encoder.rs:207-215). -/
def writePingResp : M σ Unit := do
  putU8 (packetTypePingResp <<< 4)
  encodeRemainingLength 0

/-- The `match packet` of `write_packet` (packet_encoder.rs:54-65); other packets hit `unimplemented!()`. -/
def writeBody : ControlPacket → M σ Unit
  | .connAck p => writeConnAck p
  | .publish p => writePublish p
  | .pubAck i => writePubAck i
  | .pubRec i => writePubRec i
  | .pubRel i => writePubRel i
  | .pubComp i => writePubComp i
  | .subAck p => writeSubAck p
  | .unsubAck i => writeUnsubAck i
  | .pingResp => writePingResp
  | _ => M.panic

/-- `write_packet` (packet_encoder.rs:50-70). -/
def writePacket (packet : ControlPacket) : M σ Unit := do
  writeBody packet
  finishPacket

end Ratel.Encoder
