/-
A packet as a sequence of fields, and the windows of a read buffer. Written from the MQTT 3.1.1 packet formats.
-/
import Verif.Spec.Wire

namespace Ratel.Spec

/-- A field of a packet: a one-byte number, a two-byte number, or so many bytes of text or payload. -/
inductive Field where
  | one
  | two
  | bytes (n : Nat)
  deriving DecidableEq, Repr

/-- A text with its length in front. -/
def strFields (s : String) : List Field := [.two, .bytes (utf8 s).length]

/-- The fields after the remaining length (no will). -/
def restFields : ClientPacket → List Field
  | .connect c => strFields c.protocolName ++ [.one, .one, .two] ++ strFields c.clientId
      ++ (c.userName.elim [] strFields) ++ (c.password.elim [] strFields)
  | .publish p => strFields p.message.topic ++ (p.packetId.elim [] fun _ => [.two]) ++ [.bytes p.message.payload.length]
  | .pubAck _ | .pubRec _ | .pubRel _ | .pubComp _ => [.two]
  | .subscribe _ fs => .two :: fs.flatMap fun (f, _) => strFields f ++ [.one]
  | .unsubscribe _ fs => .two :: fs.flatMap strFields
  | .pingReq => []
  | .disconnect => []

/-- All fields of a packet: type and flags, the bytes of the remaining length, the rest. -/
def fields (c : ClientPacket) : List Field :=
  .one :: ((varInt (clientRest c).length).map fun _ => Field.one) ++ restFields c

/-- A buffer of `size` bytes is filled window after window. Reading a field uses up its bytes of the window. A number that does not
fit into what is left of the window starts a new one; text and payload must fit. -/
def window (size left : Nat) : Field → Option Nat
  | .one => some (if 1 ≤ left then left - 1 else size - 1)
  | .two => some (if 2 ≤ left then left - 2 else size - 2)
  | .bytes n => if n ≤ left then some (left - n) else none

/-- What is left of the window after several fields; `none` if one does not fit. -/
def windows (size left : Nat) : List Field → Option Nat
  | [] => some left
  | f :: fs => (window size left f).bind fun left => windows size left fs

end Ratel.Spec
