/-
What the broker gets to read of a connection, however long it lasts.
-/
import Verif.Spec.Fields
import Verif.Spec.Fair
import Verif.Props.Streams

namespace Ratel.Spec

open Sys

/-- Reading so many packets from the connection, through its buffer of 4096 bytes, gives `ps`. -/
def Receives (env : Env) (peer : Peer) (ps : List ControlPacket) : Prop :=
  (received env.alloc env.profile 4096 peer.segs peer.fin ps.length).1 = .ok ps

/-- Reading from the connection goes round a loop for ever at some packet. -/
def Spinning (env : Env) (peer : Peer) : Prop := ∃ k, (received env.alloc env.profile 4096 peer.segs peer.fin k).1 = .hang

/-- The packets up to the first one with a text or payload that does not fit into the window it comes in. -/
def fitting (size left : Nat) : List ClientPacket → List ClientPacket
  | [] => []
  | c :: cs => match windows size left (fields c) with
    | some left => c :: fitting size left cs
    | none => []

end Ratel.Spec
