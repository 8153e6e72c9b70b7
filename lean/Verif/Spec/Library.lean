/-
What the public types that the broker does not use itself are to do: a stream as a reader and a writer side by side; a collection of sessions.
-/
import Verif.Model.CombinedStream
import Verif.Model.SessionService
import Verif.Model.Decoder
import Verif.Model.Encoder

namespace Ratel.Spec

/-- Calls one after the other on a reader and a writer that have nothing to do with each other. -/
def separately (al : Alloc) : List StreamOp → RStream → WStream → List (Res StreamVal) × RStream × WStream
  | [], rd, wr => ([], rd, wr)
  | op :: ops, rd, wr =>
    let read (m : M RStream StreamVal) := let (r, rd') := m rd; let (rs, x) := separately al ops rd' wr; (r :: rs, x)
    let write (m : M WStream Unit) := let (r, wr') := StreamOp.ret m (fun _ => .unit) wr; let (rs, x) := separately al ops rd wr'; (r :: rs, x)
    match op with
    | .getU8 => read (StreamOp.ret (RStream.getU8 al) .byte)
    | .getU16 => read (StreamOp.ret (RStream.getU16 al) .word)
    | .getString => letI := RStream.source al; read (StreamOp.ret Decoder.getString .text)
    | .getBytes n => read (StreamOp.ret (RStream.getBytes al n) .bytes)
    | .putU8 n => write (WStream.putU8 al n)
    | .putU16 n => write (WStream.putU16 al n)
    | .putString s => letI := WStream.sink al; write (Encoder.putString s)
    | .putBytes bs => write (WStream.putBytes al bs)
    | .finishPacket => write (WStream.finishPacket al)

/-- Changes to a collection of sessions. -/
inductive SessionChange where
  | insert (s : Session)
  | delete (id : ClientId)
  deriving DecidableEq, Repr

/-- The session of a client: the one inserted last, unless deleted since. -/
def sessionOf (id : ClientId) (changes : List SessionChange) : Option Session :=
  changes.foldl (fun found ch => match ch with
    | .insert s => if s.clientId = id then some s else found
    | .delete id' => if id' = id then none else found) none

end Ratel.Spec
