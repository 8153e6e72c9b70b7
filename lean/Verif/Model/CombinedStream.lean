/-
`MqttBytesStream`: src/mqtt/transport/mqtt_bytes_stream.rs:7-11, 23-176, a reader and a writer on one `TcpStream`. The broker itself uses the
two halves (`Model/ReadStream`, `Model/WriteStream`); this type is public, too.
-/
import Verif.Model.ReadStream
import Verif.Model.WriteStream

namespace Ratel

/-- `MqttBytesStream` (mqtt_bytes_stream.rs:7-11): the two buffers, what the socket will still deliver (`segs`, then `fin`), and what it has
taken (`wire`) and will answer to writes (`script`). -/
structure BStream where
  readBuffer : BytesMut
  writeBuffer : BytesMut
  segs : List (List UInt8)
  fin : Ending
  wire : List UInt8
  script : List WriteOutcome
  deriving DecidableEq, Repr

namespace BStream

/-- `MqttBytesStream::new(read_buffer_size, write_buffer_size, tcp_stream)` (mqtt_bytes_stream.rs:24-34). -/
def new (readBufferSize writeBufferSize : Nat) (segs : List (List UInt8)) (fin : Ending) (script : List WriteOutcome) : BStream :=
  ⟨BytesMut.withCapacity readBufferSize, BytesMut.withCapacity writeBufferSize, segs, fin, [], script⟩

/-- Number of bytes the socket will still deliver. -/
def incoming (s : BStream) : Nat := s.segs.flatten.length

/-- tokio `tcp_stream.read_buf(&mut read_buffer)` (mqtt_bytes_stream.rs:95), as in `RStream.readBuf`. -/
def readBuf (al : Alloc) : M BStream Nat := fun s =>
  let buf := if s.readBuffer.cap = s.readBuffer.len then s.readBuffer.reserve al 64 else s.readBuffer
  match RStream.dropEmpty s.segs with
  | seg :: rest =>
    let k := min seg.length (buf.cap - buf.len)
    (.ok k, { s with readBuffer := { buf with data := buf.data ++ seg.take k }, segs := seg.drop k :: rest })
  | [] =>
    match s.fin with
    | .eof => (.ok 0, { s with readBuffer := buf, segs := [] })
    | .ioError => (.err .other, { s with readBuffer := buf, segs := [] })
    | .silence => (.pending, { s with readBuffer := buf, segs := [] })

/-- A read that returns `k` takes `k` bytes off the socket. -/
theorem readBuf_incoming (al : Alloc) (s : BStream) (k : Nat) (s' : BStream)
    (h : readBuf al s = (.ok k, s')) : s'.incoming + k = s.incoming := by
  unfold readBuf at h
  have hf := RStream.flatten_dropEmpty s.segs
  revert h
  cases hd : RStream.dropEmpty s.segs with
  | nil =>
    rw [hd] at hf
    cases hfin : s.fin <;> simp [incoming, ← hf]
    rintro rfl rfl; simp
  | cons seg rest =>
    rw [hd] at hf
    simp only [incoming, ← hf]
    rintro ⟨⟩
    simp
    omega

/-- `wait_for_data(bytes)` (mqtt_bytes_stream.rs:93-117). -/
def waitForData (al : Alloc) (bytes : Nat) (s : BStream) : Res Unit × BStream :=
  if s.readBuffer.len < bytes then
    match _h : readBuf al s with
    | (.ok k, s') =>
      if k = 0 then (.err .connectionReset, s')
      else waitForData al bytes s'
    | (.err e, s') => (.err e, s')
    | (.panic, s') => (.panic, s')
    | (.hang, s') => (.hang, s')
    | (.pending, s') => (.pending, s')
  else (.ok (), s)
termination_by s.incoming
decreasing_by
  have := readBuf_incoming al s k s' _h
  omega

/-- `get_u8` (mqtt_bytes_stream.rs:38-42). -/
def getU8 (al : Alloc) : M BStream UInt8 := do
  let _ ← (waitForData al 1 : M BStream Unit)
  fun s => match s.readBuffer.data with
    | b :: _ => (.ok b, { s with readBuffer := s.readBuffer.advance al 1 })
    | [] => (.panic, s)

/-- `get_u16` (mqtt_bytes_stream.rs:44-48). -/
def getU16 (al : Alloc) : M BStream UInt16 := do
  let _ ← (waitForData al 2 : M BStream Unit)
  fun s => match s.readBuffer.data with
    | hi :: lo :: _ => (.ok (u16OfBytes hi lo), { s with readBuffer := s.readBuffer.advance al 2 })
    | _ => (.panic, s)

/-- The number of bytes one round of the loop of `get_bytes` waits for (mqtt_bytes_stream.rs:77-83). -/
def roundSize (s : BStream) (remaining : Nat) : Nat :=
  if remaining > s.readBuffer.cap then s.readBuffer.cap else remaining

/-- The loop of `get_bytes` (mqtt_bytes_stream.rs:75-88), as in `RStream.getBytesLoop`. -/
def getBytesLoop (al : Alloc) (remaining : Nat) (bytes : List UInt8) (s : BStream) : Res (List UInt8) × BStream :=
  if remaining = 0 then (.ok bytes, s)
  else
    let w := s.roundSize remaining
    if w = 0 then (.hang, s)
    else
      match waitForData al w s with
      | (.ok _, s') =>
        getBytesLoop al (remaining - w) (bytes ++ s'.readBuffer.data.take w) { s' with readBuffer := s'.readBuffer.splitTo w }
      | (.err e, s') => (.err e, s')
      | (.panic, s') => (.panic, s')
      | (.hang, s') => (.hang, s')
      | (.pending, s') => (.pending, s')
termination_by remaining

/-- `get_bytes(size)` (mqtt_bytes_stream.rs:70-91). -/
def getBytes (al : Alloc) (size : Nat) : M BStream (List UInt8) := fun s =>
  if size > isizeMax then (.panic, s) else getBytesLoop al size [] s

/-- `get_string` (mqtt_bytes_stream.rs:50-68). -/
def getString (al : Alloc) : M BStream String := do
  let stringSize ← getU16 al
  let strBuf ← getBytes al stringSize.toNat
  match fromUtf8 strBuf with
  | some str => pure str
  | none => M.fail .invalidData

/-- tokio `tcp_stream.write_buf(&mut write_buffer)` (mqtt_bytes_stream.rs:164, 171), as in `WStream.writeBuf`. -/
def writeBuf (al : Alloc) : M BStream Unit := fun s =>
  if s.writeBuffer.data = [] then (.ok (), s)
  else match s.script with
    | [] => (.pending, s)
    | .fail :: r => (.err .other, { s with script := r })
    | .accept k :: r =>
      let n := min (k + 1) s.writeBuffer.len
      (.ok (), { s with writeBuffer := s.writeBuffer.advance al n, wire := s.wire ++ s.writeBuffer.data.take n, script := r })

/-- `write_buffer_if_too_small(size)` (mqtt_bytes_stream.rs:169-175). -/
def writeBufferIfTooSmall (al : Alloc) (size : Nat) : M BStream Unit := fun s =>
  if s.writeBuffer.len + size ≥ s.writeBuffer.cap then writeBuf al s else (.ok (), s)

/-- `write_buffer.put…(bytes)`. -/
def bufPut (al : Alloc) (bytes : List UInt8) : M BStream Unit := fun s =>
  (.ok (), { s with writeBuffer := s.writeBuffer.put al bytes })

/-- `put_u8` (mqtt_bytes_stream.rs:121-126). -/
def putU8 (al : Alloc) (n : UInt8) : M BStream Unit := do
  writeBufferIfTooSmall al 1
  bufPut al [n]

/-- `put_u16` (mqtt_bytes_stream.rs:128-133). -/
def putU16 (al : Alloc) (n : UInt16) : M BStream Unit := do
  writeBufferIfTooSmall al 2
  bufPut al (u16Bytes n)

/-- `put_bytes` (mqtt_bytes_stream.rs:142-161), as in `WStream.putBytes`. -/
def putBytes (al : Alloc) (bytes : List UInt8) (s : BStream) : Res Unit × BStream :=
  if _h0 : bytes.length = 0 then (.ok (), s)
  else
    let w := if bytes.length > s.writeBuffer.cap then s.writeBuffer.cap else bytes.length
    if _hw : w = 0 then (.hang, s)
    else
      match writeBufferIfTooSmall al w s with
      | (.ok _, s') => putBytes al (bytes.drop w) { s' with writeBuffer := s'.writeBuffer.put al (bytes.take w) }
      | (.err e, s') => (.err e, s')
      | (.panic, s') => (.panic, s')
      | (.hang, s') => (.hang, s')
      | (.pending, s') => (.pending, s')
termination_by bytes.length
decreasing_by
  simp only [List.length_drop]
  omega

/-- `put_string` (mqtt_bytes_stream.rs:135-140). -/
def putString (al : Alloc) (string : String) : M BStream Unit := do
  putU16 al (UInt16.ofNat (strLen string))
  (putBytes al (strBytes string) : M BStream Unit)

/-- `finish_packet` (mqtt_bytes_stream.rs:163-167). -/
def finishPacket (al : Alloc) : M BStream Unit := writeBuf al

end BStream

/-- Calls of the public functions of the three stream types. -/
inductive StreamOp where
  | getU8
  | getU16
  | getString
  | getBytes (size : Nat)
  | putU8 (n : UInt8)
  | putU16 (n : UInt16)
  | putString (s : String)
  | putBytes (bytes : List UInt8)
  | finishPacket
  deriving DecidableEq, Repr

/-- What a call returns. -/
inductive StreamVal where
  | byte (n : UInt8)
  | word (n : UInt16)
  | text (s : String)
  | bytes (bs : List UInt8)
  | unit
  deriving DecidableEq, Repr

namespace StreamOp

/-- The results of a call, as a `StreamVal`. -/
def ret {σ α : Type} (m : M σ α) (f : α → StreamVal) : M σ StreamVal := do
  let a ← m
  pure (f a)

/-- The call, on a stream. -/
def call (al : Alloc) : StreamOp → M BStream StreamVal
  | .getU8 => ret (BStream.getU8 al) .byte
  | .getU16 => ret (BStream.getU16 al) .word
  | .getString => ret (BStream.getString al) .text
  | .getBytes n => ret (BStream.getBytes al n) .bytes
  | .putU8 n => ret (BStream.putU8 al n) fun _ => .unit
  | .putU16 n => ret (BStream.putU16 al n) fun _ => .unit
  | .putString s => ret (BStream.putString al s) fun _ => .unit
  | .putBytes bs => ret (BStream.putBytes al bs : M BStream Unit) fun _ => .unit
  | .finishPacket => ret (BStream.finishPacket al) fun _ => .unit

/-- Calls one after the other, whatever each returns. -/
def calls (al : Alloc) : List StreamOp → BStream → List (Res StreamVal) × BStream
  | [], s => ([], s)
  | op :: ops, s =>
    let (r, s') := op.call al s
    let (rs, s'') := calls al ops s'
    (r :: rs, s'')

end StreamOp

end Ratel
