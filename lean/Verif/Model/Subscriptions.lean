/-
src/broker/messaging/subscriptions_repository.rs
-/
import Verif.Model.AssocMap
import Verif.Model.Packets

namespace Ratel

/-- `str::split("/")` on the characters (subscriptions_repository.rs:30, 54, 83): the pieces between separators; always at least
one piece. -/
def splitSlashChars : List Char → List (List Char)
  | [] => [[]]
  | c :: cs =>
    if c = '/' then [] :: splitSlashChars cs
    else match splitSlashChars cs with
      | [] => [[c]]
      | p :: ps => (c :: p) :: ps

/-- `topic.split("/").collect()` (subscriptions_repository.rs:30, 54, 83). -/
def splitTopic (topic : String) : List String := (splitSlashChars topic.toList).map String.ofList

/-- `SubscriptionNode` (subscriptions_repository.rs:126-130). -/
inductive Node where
  | mk (children : List (String × Node)) (clients : List ClientId)

namespace Node

/-- `node.children`. -/
def children : Node → AssocMap Node
  | mk ch _ => ch

/-- `node.clients`. -/
def clients : Node → List ClientId
  | mk _ cl => cl

/-- `SubscriptionNode::new()` (subscriptions_repository.rs:132-139). -/
def new : Node := mk [] []

/-- The walk shared by `subscribe` and `unsubscribe`: descend through `segments`, creating missing nodes with
`entry(..).or_insert(SubscriptionNode::new())`, then update the `clients` of the node reached
(subscriptions_repository.rs:24-37, 48-65). A `&mut` walk becomes a function returning the new tree. -/
def modifyAt : List String → (List ClientId → List ClientId) → Node → Node
  | [], f, mk ch cl => mk ch (f cl)
  | seg :: segs, f, mk ch cl => mk (AssocMap.upsert new (modifyAt segs f) ch seg) cl

mutual
/-- `remove_client` (subscriptions_repository.rs:114-123): removes the first occurrence of the client in the node
(`position` then `remove`), then recurses into every child. -/
def removeClient (clientId : ClientId) : Node → Node
  | mk ch cl => mk (removeClientChildren clientId ch) (cl.erase clientId)

/-- `node.children.iter_mut().for_each(|c| Self::remove_client(c.1, client_id))` (subscriptions_repository.rs:120-122). -/
def removeClientChildren (clientId : ClientId) : List (String × Node) → List (String × Node)
  | [] => []
  | (k, n) :: r => (k, removeClient clientId n) :: removeClientChildren clientId r
end

end Node

/-- `SubscriptionsRepository` (subscriptions_repository.rs:8-10). -/
structure SubscriptionsRepository where
  root : Node

namespace SubscriptionsRepository

/-- subscriptions_repository.rs:13-17. -/
def new : SubscriptionsRepository := ⟨Node.new⟩

/-- `subscribe` (subscriptions_repository.rs:19-41): the client is appended at the filter's node; the answer is always
`SuccessQoS0`. -/
def subscribe (r : SubscriptionsRepository) (clientId : ClientId) (subscription : Subscription) :
    SubAckReturnCode × SubscriptionsRepository :=
  (.successQoS0, ⟨r.root.modifyAt (splitTopic subscription.topic) (· ++ [clientId])⟩)

/-- `unsubscribe` (subscriptions_repository.rs:43-69): for each topic, the first occurrence of the client at the filter's node is
removed (`position` then `remove`). -/
def unsubscribe (r : SubscriptionsRepository) (clientId : ClientId) (topics : List String) : SubscriptionsRepository :=
  topics.foldl (fun r topic => ⟨r.root.modifyAt (splitTopic topic) (·.erase clientId)⟩) r

/-- `disconnected` (subscriptions_repository.rs:71-73). -/
def disconnected (r : SubscriptionsRepository) (clientId : ClientId) : SubscriptionsRepository :=
  ⟨r.root.removeClient clientId⟩

/-- `connections_lost` (subscriptions_repository.rs:75-77). -/
def connectionsLost (r : SubscriptionsRepository) (clientId : ClientId) : SubscriptionsRepository :=
  ⟨r.root.removeClient clientId⟩

/-- `if let Some(direct) = node.children.get(segment) { descendant_nodes.push(direct) }; … get("+") …`
(subscriptions_repository.rs:88-94). -/
def descendants (segment : String) (node : Node) : List Node :=
  (node.children.get? segment).toList ++ (node.children.get? "+").toList

/-- `if let Some(node) = node.children.get("#") { … push all its clients … }` (subscriptions_repository.rs:96-100). -/
def hashClients (node : Node) : List ClientId :=
  match node.children.get? "#" with
  | some n => n.clients
  | none => []

/-- The loop over the segments (subscriptions_repository.rs:84-103), with its two accumulators. -/
def walk : List String → List Node → List ClientId → List Node × List ClientId
  | [], nodes, clientIds => (nodes, clientIds)
  | segment :: segments, nodes, clientIds =>
    walk segments (nodes.flatMap (descendants segment)) (clientIds ++ nodes.flatMap hashClients)

/-- `subscribed_clients` (subscriptions_repository.rs:79-112). It never returns `None`. -/
def subscribedClients (r : SubscriptionsRepository) (topic : String) : Option (List ClientId) :=
  let (nodes, clientIds) := walk (splitTopic topic) [r.root] []
  some (clientIds ++ nodes.flatMap Node.clients)

end SubscriptionsRepository

end Ratel
