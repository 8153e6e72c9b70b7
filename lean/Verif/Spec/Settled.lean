/-
Words for clients that have settled on their subscriptions.
-/
import Verif.Spec.View
import Verif.Spec.Wire

namespace Ratel.Spec

/-- The messages among some events. -/
def publishedIn (evs : List ClientEvent) : List PublishPacket :=
  evs.filterMap fun
    | .controlPacket _ (.publish q) _ => some q
    | _ => none

/-- The filters a client holds after some packets that follow its CONNECT, repetitions included. -/
noncomputable def heldAfter (ps : List ControlPacket) : List String := ((View.mk true []).after (ps.map .mine)).filters

/-- How many copies of a message the filters call for. -/
noncomputable def calledFor (filters : List String) (q : PublishPacket) : Nat := (filters.map fun f => ways f q.message.topic).sum

/-- A client has settled on its subscriptions: its CONNECT is accepted and no other connection uses its client id; the packets after the CONNECT
begin with `ps`, and among these and all that is still to come there is no DISCONNECT, among what is still to come no SUBSCRIBE or
UNSUBSCRIBE either; and it has read the CONNACK and the acknowledgements of all that `ps` asks for. `now` is what the clients have done so
far, `then'` all they will have done, `seen` what the client has received. -/
structure Settled (env : Env) (now then' : ConnId → Sys.Peer) (seen : List UInt8) (d : ConnId) (p : ConnectPacket) (ps : List ControlPacket) :
    Prop where
  sent : Decodes env.profile (then' d).segs.flatten (then' d).fin (.connect p :: ps)
  accepted : login env.auth p = .accepted
  own : OwnIds env then' (· ≠ d)
  read : ∃ xs : List ControlPacket, xs ≠ [] ∧ (∀ x ∈ xs, ServerPacket x) ∧ (xs.flatMap fun x => (serverBytes x).getD []) <+: seen
    ∧ (ps.filterMap ackOf).length ≤ (acksIn (xs.map .controlPacket)).length
  works : ∀ o ∈ (now d).script, o ≠ .fail
  stays : ∀ qs, Decodes env.profile (then' d).segs.flatten (then' d).fin (.connect p :: ps ++ qs) →
    .disconnect ∉ ps ++ qs ∧ ∀ x ∈ qs, ackOf x = none

end Ratel.Spec
