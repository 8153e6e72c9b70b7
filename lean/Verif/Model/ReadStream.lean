/-
`MqttBytesReadStream`: src/mqtt/transport/mqtt_bytes_stream.rs:18-21, 178-266.
(`MqttBytesStream`, lines 7-176, is in Model/CombinedStream.)
-/
import Verif.Model.BytesMut

namespace Ratel

/-- How the incoming byte stream of a TCP connection ends, once all segments were read: the peer closes, the operating
system reports an error, or nothing ever arrives again. -/
inductive Ending where
  | eof
  | ioError
  | silence
  deriving DecidableEq, Repr

/-- A source of bytes offering the three primitives the decoder uses. -/
class ByteSource (σ : Type) where
  getU8 : M σ UInt8
  getU16 : M σ UInt16
  getBytes : Nat → M σ (List UInt8)
  /-- Number of bytes still to come; only used to bound the recursion of the two payload loops. -/
  avail : σ → Nat

/-- Big-endian `get_u16`. -/
def u16OfBytes (hi lo : UInt8) : UInt16 := UInt16.ofNat (hi.toNat * 256 + lo.toNat)

/-- `MqttBytesReadStream` (mqtt_bytes_stream.rs:18-21): its buffer, and what the socket will still deliver:
`segs`, the pieces in which data becomes readable (any fragmentation), then `fin`. -/
structure RStream where
  buf : BytesMut
  segs : List (List UInt8)
  fin : Ending
  deriving DecidableEq, Repr

namespace RStream

/-- `MqttBytesReadStream::new(buffer_size, read_stream)` (mqtt_bytes_stream.rs:179-184). -/
def new (bufferSize : Nat) (segs : List (List UInt8)) (fin : Ending) : RStream :=
  ⟨BytesMut.withCapacity bufferSize, segs, fin⟩

/-- Number of bytes the socket will still deliver. -/
def incoming (s : RStream) : Nat := s.segs.flatten.length

/-- Empty segments carry no data: a read never returns for them. -/
def dropEmpty : List (List UInt8) → List (List UInt8)
  | [] :: rest => dropEmpty rest
  | segs => segs

/-- tokio `read_stream.read_buf(&mut read_buffer)` (mqtt_bytes_stream.rs:243): `BytesMut::chunk_mut` reserves 64 bytes when the
view is full, then at most the free part of the view is filled with what has arrived. `ok 0` means end of file. -/
def readBuf (al : Alloc) : M RStream Nat := fun s =>
  let buf := if s.buf.cap = s.buf.len then s.buf.reserve al 64 else s.buf
  match dropEmpty s.segs with
  | seg :: rest =>
    let k := min seg.length (buf.cap - buf.len)
    (.ok k, ⟨{ buf with data := buf.data ++ seg.take k }, seg.drop k :: rest, s.fin⟩)
  | [] =>
    match s.fin with
    | .eof => (.ok 0, ⟨buf, [], s.fin⟩)
    | .ioError => (.err .other, ⟨buf, [], s.fin⟩)
    | .silence => (.pending, ⟨buf, [], s.fin⟩)

theorem flatten_dropEmpty (l : List (List UInt8)) : (dropEmpty l).flatten = l.flatten := by
  fun_induction dropEmpty l <;> simp_all

/-- A read that returns `k` takes `k` bytes off the socket. -/
theorem readBuf_incoming (al : Alloc) (s : RStream) (k : Nat) (s' : RStream)
    (h : readBuf al s = (.ok k, s')) : s'.incoming + k = s.incoming := by
  unfold readBuf at h
  have hf := flatten_dropEmpty s.segs
  revert h
  cases hd : dropEmpty s.segs with
  | nil =>
    rw [hd] at hf
    cases hfin : s.fin <;> simp [incoming, ← hf]
    rintro rfl rfl; simp
  | cons seg rest =>
    rw [hd] at hf
    simp only [incoming, ← hf]
    rintro ⟨⟩
    simp
    omega

/-- `wait_for_data(bytes)` (mqtt_bytes_stream.rs:241-265). Both end-of-file branches (lines 249-260) give `ConnectionReset`. -/
def waitForData (al : Alloc) (bytes : Nat) (s : RStream) : Res Unit × RStream :=
  if s.buf.len < bytes then
    match _h : readBuf al s with
    | (.ok k, s') =>
      if k = 0 then (.err .connectionReset, s')
      else waitForData al bytes s'
    | (.err e, s') => (.err e, s')
    | (.panic, s') => (.panic, s')
    | (.hang, s') => (.hang, s')
    | (.pending, s') => (.pending, s')
  else (.ok (), s)
termination_by s.incoming
decreasing_by
  have := readBuf_incoming al s k s' _h
  omega

/-- `get_u8` (mqtt_bytes_stream.rs:186-190); `BytesMut::get_u8` panics on an empty buffer. -/
def getU8 (al : Alloc) : M RStream UInt8 := do
  let _ ← (waitForData al 1 : M RStream Unit)
  fun s => match s.buf.data with
    | b :: _ => (.ok b, { s with buf := s.buf.advance al 1 })
    | [] => (.panic, s)

/-- `get_u16` (mqtt_bytes_stream.rs:192-196). -/
def getU16 (al : Alloc) : M RStream UInt16 := do
  let _ ← (waitForData al 2 : M RStream Unit)
  fun s => match s.buf.data with
    | hi :: lo :: _ => (.ok (u16OfBytes hi lo), { s with buf := s.buf.advance al 2 })
    | _ => (.panic, s)

/-- The number of bytes one round of the loop of `get_bytes` waits for (mqtt_bytes_stream.rs:225-231). -/
def roundSize (s : RStream) (remaining : Nat) : Nat :=
  if remaining > s.buf.cap then s.buf.cap else remaining

/-- The loop of `get_bytes` (mqtt_bytes_stream.rs:223-236). When a round waits for zero bytes it changes nothing and awaits
nothing, so the loop spins for ever: `hang` (justified by `getBytes_hang_iff_spins` in Proofs/ReadStream). -/
def getBytesLoop (al : Alloc) (remaining : Nat) (bytes : List UInt8) (s : RStream) :
    Res (List UInt8) × RStream :=
  if remaining = 0 then (.ok bytes, s)
  else
    let w := s.roundSize remaining
    if w = 0 then (.hang, s)
    else
      match waitForData al w s with
      | (.ok _, s') =>
        getBytesLoop al (remaining - w) (bytes ++ s'.buf.data.take w) { s' with buf := s'.buf.splitTo w }
      | (.err e, s') => (.err e, s')
      | (.panic, s') => (.panic, s')
      | (.hang, s') => (.hang, s')
      | (.pending, s') => (.pending, s')
termination_by remaining

/-- `get_bytes(size)` (mqtt_bytes_stream.rs:218-239): `BytesMut::with_capacity(size)` panics above `isize::MAX`. -/
def getBytes (al : Alloc) (size : Nat) : M RStream (List UInt8) := fun s =>
  if size > isizeMax then (.panic, s) else getBytesLoop al size [] s

/-- One execution of the body of the loop of `get_bytes`, literally (mqtt_bytes_stream.rs:225-235), including the case where it
waits for nothing. Left: the loop goes on with this state; right: the function has ended. -/
def getBytesRound (al : Alloc) : Nat × List UInt8 × RStream → (Nat × List UInt8 × RStream) ⊕ (Res (List UInt8) × RStream)
  | (remaining, bytes, s) =>
    if remaining > 0 then
      let w := s.roundSize remaining
      match waitForData al w s with
      | (.ok _, s') => .inl (remaining - w, bytes ++ s'.buf.data.take w, { s' with buf := s'.buf.splitTo w })
      | (.err e, s') => .inr (.err e, s')
      | (.panic, s') => .inr (.panic, s')
      | (.hang, s') => .inr (.hang, s')
      | (.pending, s') => .inr (.pending, s')
    else .inr (.ok bytes, s)

end RStream

/-- The buffered stream as a byte source. The allocation behaviour `al` is fixed. -/
@[reducible] def RStream.source (al : Alloc) : ByteSource RStream where
  getU8 := RStream.getU8 al
  getU16 := RStream.getU16 al
  getBytes := RStream.getBytes al
  avail s := s.buf.len + s.incoming

/-- The unfragmented, unbuffered reference source: all remaining bytes at once, then the ending. -/
structure Plain where
  bytes : List UInt8
  fin : Ending
  deriving DecidableEq, Repr

namespace Plain

/-- Fewer bytes left than asked for. -/
def short {α : Type} : M Plain α := fun s =>
  match s.fin with
  | .eof => (.err .connectionReset, s)
  | .ioError => (.err .other, s)
  | .silence => (.pending, s)

instance : ByteSource Plain where
  getU8 := fun s => match s.bytes with
    | b :: r => (.ok b, { s with bytes := r })
    | [] => short s
  getU16 := fun s => match s.bytes with
    | hi :: lo :: r => (.ok (u16OfBytes hi lo), { s with bytes := r })
    | _ => short s
  getBytes := fun n s =>
    if n > isizeMax then (.panic, s)
    else if n ≤ s.bytes.length then (.ok (s.bytes.take n), { s with bytes := s.bytes.drop n })
    else short s
  avail s := s.bytes.length

end Plain

end Ratel
