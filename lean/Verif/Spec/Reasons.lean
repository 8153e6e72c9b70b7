/-
The reasons for which a connection is sent something.
-/
import Verif.Spec.Broker

namespace Ratel.Spec

/-- A message published among these events is called for on connection `d`: when it was published, a client reached there held a subscription whose filter
matches its topic. -/
def Wanted (auth : IdentityProvider) (evs : List ClientEvent) (d : ConnId) (m : PublishPacket) : Prop :=
  ∃ pre id tx post, evs = pre ++ .controlPacket id (.publish m) tx :: post
    ∧ ∃ c f, (c, f) ∈ held pre ∧ ReachedOn auth pre c d ∧ Matches f m.message.topic

/-- A login that suffices: none at all, or a right one. -/
def GoodLogin (auth : IdentityProvider) (p : ConnectPacket) : Prop :=
  p.userName = none ∨ ∃ u pw, p.userName = some u ∧ p.password = some pw ∧ auth u pw = .ok ()

/-- A login with a wrong password or an unknown user. -/
def BadLogin (auth : IdentityProvider) (p : ConnectPacket) : Prop :=
  ∃ u pw e, p.userName = some u ∧ p.password = some pw ∧ auth u pw = .error e

/-- There is a reason among these events to send this to connection `d`. -/
inductive Reason (auth : IdentityProvider) (evs : List ClientEvent) (d : ConnId) : ServerEvent → Prop
  /-- a message it has subscribed to -/
  | message (m : PublishPacket) : Wanted auth evs d m → Reason auth evs d (.controlPacket (.publish m))
  /-- it has logged in -/
  | welcome (p : ConnectPacket) (a : SocketAddr) : .connected p a d ∈ evs → GoodLogin auth p →
      Reason auth evs d (.controlPacket (.connAck ⟨false, .accepted⟩))
  /-- it has failed to -/
  | refusal (p : ConnectPacket) (a : SocketAddr) : .connected p a d ∈ evs → BadLogin auth p →
      Reason auth evs d (.controlPacket (.connAck ⟨false, .notAuthorized⟩))
  /-- and is to be disconnected -/
  | dismissal (p : ConnectPacket) (a : SocketAddr) : .connected p a d ∈ evs → BadLogin auth p → Reason auth evs d .disconnect
  /-- it has subscribed -/
  | subscribed (id : ClientId) (i : UInt16) (fs : List Subscription) : .controlPacket id (.subscribe ⟨i, fs⟩) d ∈ evs →
      Reason auth evs d (.controlPacket (.subAck ⟨i, List.replicate fs.length .successQoS0⟩))
  /-- it has unsubscribed -/
  | unsubscribed (id : ClientId) (i : UInt16) (ts : List String) : .controlPacket id (.unsubscribe ⟨i, ts⟩) d ∈ evs →
      Reason auth evs d (.controlPacket (.unsubAck i))
  /-- it has sent a ping while there was a session of that name -/
  | ping (id : ClientId) (pre post : List ClientEvent) (tx : ConnId) : evs = pre ++ .controlPacket id .pingReq d :: post → ReachedOn auth pre id tx →
      Reason auth evs d (.controlPacket .pingResp)
  /-- or while there was none -/
  | stray (id : ClientId) (pre post : List ClientEvent) : evs = pre ++ .controlPacket id .pingReq d :: post → (∀ tx, ¬ ReachedOn auth pre id tx) →
      Reason auth evs d .disconnect

end Ratel.Spec
