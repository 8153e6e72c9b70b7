/-
`MqttBytesWriteStream`: src/mqtt/transport/mqtt_bytes_stream.rs:13-16, 268-331.
-/
import Verif.Model.BytesMut

namespace Ratel

/-- A sink of bytes offering the primitives the encoder uses. -/
class ByteSink (σ : Type) where
  putU8 : UInt8 → M σ Unit
  putU16 : UInt16 → M σ Unit
  putBytes : List UInt8 → M σ Unit
  finishPacket : M σ Unit

/-- Outcome of one `write` on the socket with a non-empty buffer: some bytes are accepted (`accept k`: `k + 1` bytes, or all if
there are fewer), or the operating system reports an error. -/
inductive WriteOutcome where
  | accept (k : Nat)
  | fail
  deriving DecidableEq, Repr

/-- `MqttBytesWriteStream` (mqtt_bytes_stream.rs:13-16): its buffer, the bytes the socket has taken so far, and what the socket
will answer to the next writes. When the script is exhausted the socket accepts nothing any more (the peer does not read). -/
structure WStream where
  buf : BytesMut
  wire : List UInt8
  script : List WriteOutcome
  deriving DecidableEq, Repr

/-- The two bytes of `put_u16`, big-endian. -/
def u16Bytes (n : UInt16) : List UInt8 := [UInt8.ofNat (n.toNat / 256), UInt8.ofNat (n.toNat % 256)]

namespace WStream

/-- `MqttBytesWriteStream::new(buffer_size, write_stream)` (mqtt_bytes_stream.rs:269-274). -/
def new (bufferSize : Nat) (script : List WriteOutcome) : WStream :=
  ⟨BytesMut.withCapacity bufferSize, [], script⟩

/-- tokio `write_stream.write_buf(&mut write_buffer)` (mqtt_bytes_stream.rs:319, 326): one write; nothing if the buffer is empty;
the accepted bytes are removed from the buffer by `advance`. -/
def writeBuf (al : Alloc) : M WStream Unit := fun s =>
  if s.buf.data = [] then (.ok (), s)
  else match s.script with
    | [] => (.pending, s)
    | .fail :: r => (.err .other, { s with script := r })
    | .accept k :: r =>
      let n := min (k + 1) s.buf.len
      (.ok (), ⟨s.buf.advance al n, s.wire ++ s.buf.data.take n, r⟩)

/-- `write_buffer_if_too_small(size)` (mqtt_bytes_stream.rs:324-330). -/
def writeBufferIfTooSmall (al : Alloc) (size : Nat) : M WStream Unit := fun s =>
  if s.buf.len + size ≥ s.buf.cap then writeBuf al s else (.ok (), s)

/-- `write_buffer.put…(bytes)`. -/
def bufPut (al : Alloc) (bytes : List UInt8) : M WStream Unit := fun s =>
  (.ok (), { s with buf := s.buf.put al bytes })

/-- `put_u8` (mqtt_bytes_stream.rs:276-281). -/
def putU8 (al : Alloc) (n : UInt8) : M WStream Unit := do
  writeBufferIfTooSmall al 1
  bufPut al [n]

/-- `put_u16` (mqtt_bytes_stream.rs:283-288). -/
def putU16 (al : Alloc) (n : UInt16) : M WStream Unit := do
  writeBufferIfTooSmall al 2
  bufPut al (u16Bytes n)

/-- The loop of `put_bytes` (mqtt_bytes_stream.rs:298-313); `bytes` are those not yet written, so `remaining_size` is
`bytes.length`. A round that writes zero bytes needs `capacity() = 0`, hence an empty buffer, and changes nothing: `hang`
(justified by `putBytes_hang_iff_spins` in Proofs/WriteStream). -/
def putBytes (al : Alloc) (bytes : List UInt8) (s : WStream) : Res Unit × WStream :=
  if _h0 : bytes.length = 0 then (.ok (), s)
  else
    let w := if bytes.length > s.buf.cap then s.buf.cap else bytes.length
    if _hw : w = 0 then (.hang, s)
    else
      match writeBufferIfTooSmall al w s with
      | (.ok _, s') => putBytes al (bytes.drop w) { s' with buf := s'.buf.put al (bytes.take w) }
      | (.err e, s') => (.err e, s')
      | (.panic, s') => (.panic, s')
      | (.hang, s') => (.hang, s')
      | (.pending, s') => (.pending, s')
termination_by bytes.length
decreasing_by
  simp only [List.length_drop]
  omega

/-- One execution of the body of the loop of `put_bytes`, literally (mqtt_bytes_stream.rs:300-312). -/
def putBytesRound (al : Alloc) : List UInt8 × WStream → (List UInt8 × WStream) ⊕ (Res Unit × WStream)
  | (bytes, s) =>
    if bytes.length > 0 then
      let w := if bytes.length > s.buf.cap then s.buf.cap else bytes.length
      match writeBufferIfTooSmall al w s with
      | (.ok _, s') => .inl (bytes.drop w, { s' with buf := s'.buf.put al (bytes.take w) })
      | (.err e, s') => .inr (.err e, s')
      | (.panic, s') => .inr (.panic, s')
      | (.hang, s') => .inr (.hang, s')
      | (.pending, s') => .inr (.pending, s')
    else .inr (.ok (), s)

/-- `finish_packet` (mqtt_bytes_stream.rs:318-322): a single `write_buf`, no loop, no flush. -/
def finishPacket (al : Alloc) : M WStream Unit := writeBuf al

end WStream

/-- The buffered stream as a byte sink. -/
@[reducible] def WStream.sink (al : Alloc) : ByteSink WStream where
  putU8 := WStream.putU8 al
  putU16 := WStream.putU16 al
  putBytes := WStream.putBytes al
  finishPacket := WStream.finishPacket al

/-- The reference sink: bytes are appended to a list. -/
@[reducible] def listSink : ByteSink (List UInt8) where
  putU8 b := fun s => (.ok (), s ++ [b])
  putU16 n := fun s => (.ok (), s ++ u16Bytes n)
  putBytes bs := fun s => (.ok (), s ++ bs)
  finishPacket := fun s => (.ok (), s)

end Ratel
