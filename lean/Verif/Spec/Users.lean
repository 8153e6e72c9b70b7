/-
Sessions and the users they belong to.
-/
import Verif.Spec.System

namespace Ratel.Spec

/-- The CONNECT on connection `d` names user `u` (`none`: no user at all). -/
def ClaimsUser (evs : List ClientEvent) (d : ConnId) (u : Option String) : Prop := ∃ p addr, .connected p addr d ∈ evs ∧ p.userName = u

/-- No client id is used with two different users. -/
def OneUserPerId (evs : List ClientEvent) : Prop := ∀ p addr c p' addr' c', .connected p addr c ∈ evs → .connected p' addr' c' ∈ evs →
  p.clientId = p'.clientId → p.userName = p'.userName

/-- A subscription to filter `f` asked for on connection `e`. -/
def AsksFor (evs : List ClientEvent) (e : ConnId) (f : String) : Prop :=
  ∃ id s, .controlPacket id (.subscribe s) e ∈ evs ∧ ∃ x ∈ s.subscriptions, x.topic = f

/-- A client that logs in as `user` and subscribes to "t". -/
def owner (user pw : String) : List ClientPacket := [.connect ⟨"MQTT", 4, true, 60, "s", none, some user, some pw⟩, .subscribe 1 [("t", .atMostOnce)]]

end Ratel.Spec
