/-
What MQTT 3.1.1 asks of topic names and filters (4.7.1, 4.7.3), and a scene with a subscriber and two publishers.
-/
import Verif.Spec.System

namespace Ratel.Spec

/-- A topic filter the standard allows: not empty, no null character; '#' only alone in the last level, '+' only alone in a level. -/
structure ValidFilter (f : String) : Prop where
  nonempty : f ≠ ""
  noNull : Char.ofNat 0 ∉ f.toList
  hash : ∀ ls, Levels f ls → ∀ pre l post, ls = pre ++ l :: post → '#' ∈ l.toList → l = "#" ∧ post = []
  plus : ∀ ls, Levels f ls → ∀ l ∈ ls, '+' ∈ l.toList → l = "+"

/-- A wildcard where none may be. -/
def MisplacedWildcard (f : String) : Prop :=
  ∃ ls, Levels f ls ∧ ((∃ pre l post, ls = pre ++ l :: post ∧ '#' ∈ l.toList ∧ (l ≠ "#" ∨ post ≠ []))
    ∨ ∃ l ∈ ls, '+' ∈ l.toList ∧ l ≠ "+")

/-- A topic name the standard allows: not empty, no null character, no wildcards. -/
def ValidTopic (t : String) : Prop := t ≠ "" ∧ Char.ofNat 0 ∉ t.toList ∧ PlainTopic t

/-- Connect, subscribe to one filter. -/
def oneFilter (f : String) (q : QoS) : List ClientPacket := [hello "s", .subscribe 1 [(f, q)]]

/-- Connect, publish. -/
def messages (id : String) (qs : List PublishPacket) : List ClientPacket := hello id :: qs.map .publish

/-- Connection 0 subscribes to filter `f`, then connection 1 publishes `qs₁`, connection 2 `qs₂`. -/
def sceneEvents (peers : ConnId → Sys.Peer) (f : String) (q : QoS) (qs₁ qs₂ : List PublishPacket) : List ClientEvent :=
  [.connected ⟨.mqtt3, "s", 60, true, none, none, none⟩ (peers 0).addr 0,
    .controlPacket "s" (.subscribe ⟨1, [⟨f, q⟩]⟩) 0,
    .connected ⟨.mqtt3, "p", 60, true, none, none, none⟩ (peers 1).addr 1]
  ++ qs₁.map (fun m => .controlPacket "p" (.publish m) 1)
  ++ [.connected ⟨.mqtt3, "q", 60, true, none, none, none⟩ (peers 2).addr 2]
  ++ qs₂.map (fun m => .controlPacket "q" (.publish m) 2)

/-- The connections send what the scene says, in legal packets and not too much; the filter matches the topic of all messages. -/
structure Scene (peers : ConnId → Sys.Peer) (f : String) (q : QoS) (qs₁ qs₂ : List PublishPacket) : Prop where
  bytes₀ : (peers 0).segs.flatten = clientBytes (oneFilter f q)
  bytes₁ : (peers 1).segs.flatten = clientBytes (messages "p" qs₁)
  bytes₂ : (peers 2).segs.flatten = clientBytes (messages "q" qs₂)
  short₀ : (clientBytes (oneFilter f q)).length < 4096
  short₁ : (clientBytes (messages "p" qs₁)).length < 4096
  short₂ : (clientBytes (messages "q" qs₂)).length < 4096
  few : qs₁.length + qs₂.length ≤ 30
  legal : ∀ m ∈ qs₁ ++ qs₂, LegalPublish m
  wanted : ∀ m ∈ qs₁ ++ qs₂, PlainTopic m.message.topic ∧ Matches f m.message.topic

open Classical in
/-- Every message is on a plain topic and matched by at most one subscription of the clients reached on connection `d` at that point. -/
def OneEach (auth : IdentityProvider) (evs : List ClientEvent) (d : ConnId) : Prop :=
  ∀ pre id q tx post, evs = pre ++ .controlPacket id (.publish q) tx :: post → PlainTopic q.message.topic
    ∧ (held pre).countP (fun e => decide (ReachedOn auth pre e.1 d ∧ Matches e.2 q.message.topic)) ≤ 1

end Ratel.Spec
