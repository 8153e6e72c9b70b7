/-
The records `get_string` makes (src/mqtt/transport/mqtt_bytes_stream.rs:198-203): the decoder of `Verif/Model/Decoder.lean` again, with a list of the
records made so far. Functions that read no text are those of `Verif/Model/Decoder.lean`.
-/
import Verif.Model.Decoder
import Verif.Model.Logging

namespace Ratel.Tracing

open ByteSource Decoder

/-- One of the three records of `get_string`. -/
inductive Note where
  /-- line 199 -/
  | parsing
  /-- line 201 -/
  | size (n : Nat)
  /-- line 202 -/
  | buffer
  deriving DecidableEq, Repr

/-- `{:#04x}`: at least two digits after `0x`. -/
def hex (n : Nat) : List Char := "0x".toList ++ (if n < 16 then ['0'] else []) ++ Fmt.numeral 14 n

/-- The message of the record (lines 199, 201, 202). All are of level TRACE. -/
def Note.message : Note → List Char
  | parsing => "Parsing string size".toList
  | size n => "String size: ".toList ++ Fmt.decimal n ++ " (".toList ++ hex n ++ ")".toList
  | buffer => "Parsing string buf".toList

/-- `module_path!()`. -/
def path : List Char := "ratelmq::mqtt::transport::mqtt_bytes_stream".toList

/-- The source and the records made. -/
abbrev T (σ α : Type) : Type := M (σ × List Note) α

variable {σ : Type}

/-- No record is made. -/
def quiet {α : Type} (x : M σ α) : T σ α := fun sl => ((x sl.1).1, ((x sl.1).2, sl.2))

/-- A record is made. -/
def note (n : Note) : T σ Unit := fun sl => (.ok (), (sl.1, sl.2 ++ [n]))

variable [ByteSource σ]

/-- `get_string` (mqtt_bytes_stream.rs:198-216). -/
def getString : T σ String := do
  note .parsing
  let stringSize ← quiet getU16
  note (.size stringSize.toNat)
  note .buffer
  let strBuf ← quiet (getBytes stringSize.toNat)
  match fromUtf8 strBuf with
  | some str => pure str
  | none => M.fail .invalidData

/-- packet_decoder.rs:128-139. -/
def getStringIf (present : Bool) : T σ (Option String) :=
  if present then do
    let s ← getString
    pure (some s)
  else pure none

/-- `decode_connect` (packet_decoder.rs:96-152). -/
def decodeConnect : T σ ControlPacket := do
  let _protocolName ← getString
  let _protocolLevel ← quiet getU8
  let connectFlags ← quiet getU8
  let cleanSession : Bool := connectFlags &&& 0b00000010 ≠ 0
  let keepAliveSeconds ← quiet getU16
  let clientId ← getString
  let userName ← getStringIf (connectFlags &&& 0b10000000 ≠ 0)
  let password ← getStringIf (connectFlags &&& 0b01000000 ≠ 0)
  pure (.connect
    { version := .mqtt3
      clientId := clientId
      keepAliveSeconds := keepAliveSeconds
      cleanSession := cleanSession
      willMessage := none
      userName := userName
      password := password })

/-- `decode_publish` (packet_decoder.rs:154-193). -/
def decodePublish (pr : Profile) (firstByte : UInt8) (remainingLength : Nat) : T σ ControlPacket := do
  let dup : Bool := firstByte &&& 0b00001000 ≠ 0
  let retain : Bool := firstByte &&& 0b00000001 ≠ 0
  match QoS.fromBits ((firstByte &&& 0b00000110) >>> 1) with
  | none => M.panic
  | some qos => do
    let topic ← getString
    let remainingLength ← quiet (subU64 pr remainingLength (strLen topic))
    let remainingLength ← quiet (subU64 pr remainingLength 2)
    let idAndLength ← quiet (publishPacketId pr qos remainingLength)
    let body ← quiet (getBytes idAndLength.2)
    pure (.publish
      { packetId := idAndLength.1
        dup := dup
        message := { topic := topic, payload := body, qos := qos, retain := retain } })

/-- The payload loop of `decode_subscribe` (packet_decoder.rs:249-263). -/
def subscribeLoop (pr : Profile) : Nat → Nat → List Subscription → T σ (List Subscription)
  | 0, _, _ => fun s => (.hang, s)
  | fuel + 1, remainingLength, subscriptions =>
    if remainingLength > 0 then do
      let topic ← getString
      let qos ← quiet getU8
      if qos > 2 then M.fail .invalidData
      else do
        let remainingLength ← quiet (subU64 pr remainingLength (strLen topic + 3))
        match QoS.fromBits qos with
        | none => M.panic
        | some q => subscribeLoop pr fuel remainingLength (subscriptions ++ [{ topic := topic, qos := q }])
    else pure subscriptions

/-- `decode_subscribe` (packet_decoder.rs:231-267). -/
def decodeSubscribe (pr : Profile) (firstByte : UInt8) (remainingLength : Nat) : T σ ControlPacket := do
  let packetId ← quiet (decodePacketWithPacketId firstByte 0b10000010)
  let remainingLength ← quiet (subU64 pr remainingLength 2)
  if remainingLength = 0 then M.fail .invalidData
  else do
    let subscriptions ← fun sl => subscribeLoop pr (avail sl.1 + 1) remainingLength [] sl
    pure (.subscribe { packetId := packetId, subscriptions := subscriptions })

/-- The payload loop of `decode_unsubscribe` (packet_decoder.rs:285-291). -/
def unsubscribeLoop (pr : Profile) : Nat → Nat → List String → T σ (List String)
  | 0, _, _ => fun s => (.hang, s)
  | fuel + 1, remainingLength, topics =>
    if remainingLength > 0 then do
      let topic ← getString
      let remainingLength ← quiet (subU64 pr remainingLength (strLen topic + 2))
      unsubscribeLoop pr fuel remainingLength (topics ++ [topic])
    else pure topics

/-- `decode_unsubscribe` (packet_decoder.rs:269-295). -/
def decodeUnsubscribe (pr : Profile) (firstByte : UInt8) (remainingLength : Nat) : T σ ControlPacket := do
  let packetId ← quiet (decodePacketWithPacketId firstByte 0b10100010)
  let remainingLength ← quiet (subU64 pr remainingLength 2)
  if remainingLength = 0 then M.fail .invalidData
  else do
    let topics ← fun sl => unsubscribeLoop pr (avail sl.1 + 1) remainingLength [] sl
    pure (.unsubscribe { packetId := packetId, topics := topics })

/-- The `match packet_type` of `read_packet` (packet_decoder.rs:75-91). -/
def decodeBody (pr : Profile) (firstByte : UInt8) (remainingLength : Nat) : T σ ControlPacket :=
  let packetType := firstByte >>> 4
  if packetType = packetTypeConnect then decodeConnect
  else if packetType = packetTypePublish then decodePublish pr firstByte remainingLength
  else if packetType = packetTypeSubscribe then decodeSubscribe pr firstByte remainingLength
  else if packetType = packetTypeUnsubscribe then decodeUnsubscribe pr firstByte remainingLength
  else quiet (Decoder.decodeBody pr firstByte remainingLength)

/-- `read_packet` (packet_decoder.rs:70-94). -/
def readPacket (pr : Profile) : T σ ControlPacket := do
  let firstByte ← quiet getU8
  let remainingLength ← quiet decodeRemainingLength
  decodeBody pr firstByte remainingLength

end Ratel.Tracing

namespace Ratel.Sys

/-- The records of `get_string` in a step of a read task (listener.rs:88-131). They come before those of `readRecords`. -/
def readNotes (env : Env) (s : Sys) (c : ConnId) : List Tracing.Note :=
  letI := RStream.source env.alloc
  match (s.conns c).outbox, (s.conns c).phase with
  | none, .first => ((Tracing.readPacket env.profile : Tracing.T RStream ControlPacket) ((s.conns c).rd, [])).2.2
  | none, .running _ => ((Tracing.readPacket env.profile : Tracing.T RStream ControlPacket) ((s.conns c).rd, [])).2.2
  | _, _ => []

end Ratel.Sys
