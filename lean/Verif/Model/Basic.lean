/-
Outcomes and the small monad in which the transport code is modelled.
-/

namespace Ratel

/-- `std::io::ErrorKind`, as far as the code distinguishes kinds:
`ConnectionReset` (src/mqtt/transport/mqtt_bytes_stream.rs:250-259),
`InvalidData` (mqtt_bytes_stream.rs:206-212, packet_decoder.rs:55-58, 242-245, 253-256, 278-281, 312-315),
`other`: whatever the operating system reports for the socket. -/
inductive ErrKind where
  | connectionReset
  | invalidData
  | other
  deriving DecidableEq, Repr

/-- What a piece of the asynchronous transport code can end in.
* `ok a`: `Ok(a)`.
* `err e`: `Err(e)` (propagated by `?`).
* `panic`: the task panics (`unwrap`, `unimplemented!`, `panic!`, arithmetic overflow, capacity overflow).
* `hang`: a loop repeats for ever without awaiting anything that could change its state.
* `pending`: the task is parked for ever (the peer neither sends, reads nor closes). -/
inductive Res (α : Type) where
  | ok (a : α)
  | err (e : ErrKind)
  | panic
  | hang
  | pending
  deriving DecidableEq, Repr

/-- Code that may end in any `Res` and that mutates a state `σ` through `&mut`.
The state is returned in every case: after an `Err` the code goes on using it. -/
def M (σ α : Type) : Type := σ → Res α × σ

namespace M

/-- `Ok(a)`. -/
def pure {σ α : Type} (a : α) : M σ α := fun s => (.ok a, s)

/-- Sequencing with `.await?`: every outcome but `ok` ends the function. -/
def bind {σ α β : Type} (m : M σ α) (f : α → M σ β) : M σ β := fun s =>
  match m s with
  | (.ok a, s') => f a s'
  | (.err e, s') => (.err e, s')
  | (.panic, s') => (.panic, s')
  | (.hang, s') => (.hang, s')
  | (.pending, s') => (.pending, s')

instance {σ : Type} : Monad (M σ) where
  pure := M.pure
  bind := M.bind

/-- `return Err(..)`. -/
def fail {σ α : Type} (e : ErrKind) : M σ α := fun s => (.err e, s)

/-- `panic!`, `unimplemented!`, overflow. -/
def panic {σ α : Type} : M σ α := fun s => (.panic, s)

end M

/-- Build profile: are arithmetic overflow checks on (`cargo build`) or off
(`cargo build --release`, /repo/Dockerfile:19)? -/
structure Profile where
  overflowChecks : Bool
  deriving DecidableEq, Repr

/-- `isize::MAX` on a 64-bit target: `Vec::with_capacity` (hence `BytesMut::with_capacity`) panics above it. -/
def isizeMax : Nat := 2 ^ 63 - 1

/-- `std::str::from_utf8(bytes)`: the text, or `none` when the bytes are not well-formed UTF-8.
Lean's `String` is by construction a byte array that is the UTF-8 encoding of a list of Unicode scalar values,
which is what Rust's `str` is. (mqtt_bytes_stream.rs:205-215) -/
def fromUtf8 (b : List UInt8) : Option String := String.fromUTF8? b.toByteArray

/-- `string.as_bytes()`. (mqtt_bytes_stream.rs:292) -/
def strBytes (s : String) : List UInt8 := s.toByteArray.data.toList

/-- `string.len()`: number of bytes. (packet_encoder.rs:115, packet_decoder.rs:178) -/
def strLen (s : String) : Nat := (strBytes s).length

end Ratel
