/-
Which neighbouring events may change places without anybody noticing.
-/
import Verif.Spec.Isolation
import Verif.Spec.System

namespace Ratel.Spec

/-- The topic an event publishes on. -/
def topicOf : ClientEvent → Option String
  | .controlPacket _ (.publish q) _ => some q.message.topic
  | _ => none

/-- After the events `pre`, connection `d` would hear a message on the topic. -/
def HearsTopic (auth : IdentityProvider) (pre : List ClientEvent) (topic : String) (d : ConnId) : Prop :=
  ∃ c f, (c, f) ∈ held pre ∧ Matches f topic ∧ ReachedOn auth pre c d

/-- After the events `pre`, the event concerns connection `d`: it came from there, or is a message for it. -/
def Involves (auth : IdentityProvider) (pre : List ClientEvent) (ev : ClientEvent) (d : ConnId) : Prop :=
  From d ev ∨ ∃ t, topicOf ev = some t ∧ HearsTopic auth pre t d

/-- After the events `pre`, the event may change who hears a message on the topic: somebody with a matching subscription comes or goes, or somebody
subscribes to or unsubscribes from a matching filter. -/
def MayChange (pre : List ClientEvent) (topic : String) : ClientEvent → Prop
  | .connected p _ _ => ∃ f, (p.clientId, f) ∈ held pre ∧ Matches f topic
  | .controlPacket _ (.subscribe s) _ => ∃ x ∈ s.subscriptions, Matches x.topic topic
  | .controlPacket _ (.unsubscribe u) _ => ∃ f ∈ u.topics, Matches f topic
  | .controlPacket id .disconnect _ => ∃ f, (id, f) ∈ held pre ∧ Matches f topic
  | .connectionLost id => ∃ f, (id, f) ∈ held pre ∧ Matches f topic
  | _ => False

/-- Two events that have nothing to do with each other: of different clients, concerning different connections, and neither is a message whose
receivers the other may change. -/
structure Independent (auth : IdentityProvider) (pre : List ClientEvent) (a b : ClientEvent) : Prop where
  clients : clientOf a ≠ clientOf b
  conns : ∀ d, ¬ (Involves auth pre a d ∧ Involves auth pre b d)
  left : ∀ t, topicOf a = some t → ¬ MayChange pre t b
  right : ∀ t, topicOf b = some t → ¬ MayChange pre t a

/-- The same events in another order: neighbours that have nothing to do with each other have changed places, any number of times. -/
inductive SameUpToRaces (auth : IdentityProvider) : List ClientEvent → List ClientEvent → Prop
  | refl (evs : List ClientEvent) : SameUpToRaces auth evs evs
  | swap (evs pre post : List ClientEvent) (a b : ClientEvent) :
    SameUpToRaces auth evs (pre ++ a :: b :: post) → Independent auth pre a b → SameUpToRaces auth evs (pre ++ b :: a :: post)

end Ratel.Spec
