/-
The broker as one client sees it: a machine that knows nothing but that client's own subscriptions.
-/
import Verif.Spec.Order
import Verif.Spec.Isolation

namespace Ratel.Spec

/-- What the machine remembers: whether the client is connected, and the filters it has subscribed to, repetitions included. -/
structure View where
  online : Bool
  filters : List String

/-- What the machine is given: the client's packets after its CONNECT, and the messages of others. -/
inductive Sight where
  | mine (p : ControlPacket)
  | theirs (q : PublishPacket)

namespace View

/-- The client's copies of a message: as many as its filters call for, while it is connected. -/
noncomputable def copies (v : View) (q : PublishPacket) : List ServerEvent :=
  if v.online then List.replicate ((v.filters.map fun f => ways f q.message.topic).sum) (.controlPacket (.publish q)) else []

/-- One input: the new state and what the client is sent. A DISCONNECT takes away one subscription per filter. -/
noncomputable def step (v : View) : Sight → View × List ServerEvent
  | .theirs q => (v, v.copies q)
  | .mine (.publish q) => (v, v.copies q)
  | .mine (.subscribe s) =>
    (⟨v.online, v.filters ++ s.subscriptions.map fun x => x.topic⟩,
      [.controlPacket (.subAck ⟨s.packetId, s.subscriptions.map fun _ => .successQoS0⟩)])
  | .mine (.unsubscribe u) => (⟨v.online, u.topics.foldl List.erase v.filters⟩, [.controlPacket (.unsubAck u.packetId)])
  | .mine .pingReq => (v, [if v.online then .controlPacket .pingResp else .disconnect])
  | .mine .disconnect => (⟨false, v.filters.eraseDups.foldl List.erase v.filters⟩, [])
  | .mine _ => (v, [])

/-- The state after some inputs. -/
noncomputable def after (v : View) (xs : List Sight) : View := xs.foldl (fun v x => (v.step x).1) v

/-- What the client is sent. -/
noncomputable def outputs : View → List Sight → List ServerEvent
  | _, [] => []
  | v, x :: xs => (v.step x).2 ++ outputs (v.step x).1 xs

end View

/-- The client's own packets among some inputs. -/
def mineOf (xs : List Sight) : List ControlPacket :=
  xs.filterMap fun
    | .mine p => some p
    | .theirs _ => none

/-- The messages of others among some inputs. -/
def theirsOf (xs : List Sight) : List PublishPacket :=
  xs.filterMap fun
    | .mine _ => none
    | .theirs q => some q

/-- What the client on connection `d` sees of an event: its own packets and the messages of others. -/
def sightOf (d : ConnId) : ClientEvent → Option Sight
  | .controlPacket _ p tx => if tx = d then some (.mine p) else match p with | .publish q => some (.theirs q) | _ => none
  | _ => none

/-- The answer to a CONNECT that is accepted. -/
def welcome : ServerEvent := .controlPacket (.connAck ⟨false, .accepted⟩)

end Ratel.Spec
