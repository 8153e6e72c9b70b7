/-
What a client expects to read.
-/
import Verif.Spec.Answers

namespace Ratel.Spec

/-- The verdict on a CONNECT as a client sees it. -/
def verdict : Login → ConnAckReturnCode
  | .accepted => .accepted
  | _ => .notAuthorized

/-- `ws` is what a client that has sent a CONNECT, judged so, and then `ps` may have read so far: nothing; or first the CONNACK with the
verdict; and after it, if it was accepted, messages and, in the order of the requests and without gaps, answers to the requests among `ps`;
if it was refused, nothing more. -/
def Expected (judged : Login) (ps ws : List ControlPacket) : Prop :=
  ws = [] ∨ ∃ rest, ws = .connAck ⟨false, verdict judged⟩ :: rest ∧ rest.filter notMessage <+: ps.filterMap answerOf
    ∧ (judged ≠ .accepted → rest = [])

end Ratel.Spec
