/-
`bytes::BytesMut` as used by src/mqtt/transport/mqtt_bytes_stream.rs (an external crate; Cargo.toml:17 `bytes = "1.0.1"`).
-/
import Verif.Model.Basic

namespace Ratel

/-- What the `bytes` crate leaves open or changed between 1.x releases. Every theorem is for every `Alloc`.
* `clearOnFullAdvance`: newer releases implement `advance(len)` as `clear()`, which keeps the view in place.
* `moveOverlapping`: older releases move the data to the front of the allocation also when it overlaps its new place.
* `growTo off len additional`: capacity chosen when `reserve` has to grow the allocation.
* `growOff off len additional`: bytes that then lie before the view: those that did, or none if the data was copied to a new vector. -/
structure Alloc where
  clearOnFullAdvance : Bool
  moveOverlapping : Bool
  growTo : Nat → Nat → Nat → Nat
  growOff : Nat → Nat → Nat → Nat

/-- A `BytesMut` view: `off` bytes of the allocation lie before the view and are lost to `capacity()` until reclaimed,
`cap` is `capacity()`, `data` the readable bytes (`len() = data.length ≤ cap`). -/
structure BytesMut where
  off : Nat
  cap : Nat
  data : List UInt8
  deriving DecidableEq, Repr

namespace BytesMut

/-- `BytesMut::with_capacity(n)` (mqtt_bytes_stream.rs:181, 271). -/
def withCapacity (n : Nat) : BytesMut := ⟨0, n, []⟩

/-- `len()`. -/
def len (b : BytesMut) : Nat := b.data.length

/-- `split_to(n)`, remaining part: the view moves forward by `n`, so does the lost prefix (mqtt_bytes_stream.rs:234). -/
def splitTo (b : BytesMut) (n : Nat) : BytesMut := ⟨b.off + n, b.cap - n, b.data.drop n⟩

/-- `advance(n)`, called by `get_u8`/`get_u16` and by `write_buf` (mqtt_bytes_stream.rs:189, 195, 319, 326). -/
def advance (al : Alloc) (b : BytesMut) (n : Nat) : BytesMut :=
  if al.clearOnFullAdvance ∧ n = b.len then ⟨b.off, b.cap, []⟩ else b.splitTo n

/-- `reserve(additional)`: nothing if there is room; otherwise move the data to the front of the allocation when that
makes enough room and at least `len` bytes were already consumed (or the release does not mind); otherwise grow. -/
def reserve (al : Alloc) (b : BytesMut) (additional : Nat) : BytesMut :=
  if additional ≤ b.cap - b.len then b
  else if b.len + additional ≤ b.off + b.cap ∧ (b.len ≤ b.off ∨ al.moveOverlapping) then ⟨0, b.off + b.cap, b.data⟩
  else ⟨al.growOff b.off b.len additional, max (b.len + additional) (al.growTo b.off b.len additional), b.data⟩

/-- `put_u8`, `put_u16`, `put`: `reserve` then copy (mqtt_bytes_stream.rs:279, 286, 310). -/
def put (al : Alloc) (b : BytesMut) (src : List UInt8) : BytesMut :=
  let b' := b.reserve al src.length
  { b' with data := b'.data ++ src }

end BytesMut

end Ratel
