/-
The repository's own tests, run on the model. All 39 tests of /repo are here: tests/read_packets.rs (15), tests/write_packets.rs
(10), src/broker/messaging/subscriptions_repository.rs:141-342 (12), src/broker/session/session_repository.rs:65-107 (2).

These are tests, not proofs: `#guard` evaluates the model and fails the build if the answer is not the expected one. They prove
nothing about the properties; they are evidence that the model was transcribed faithfully, since each expected value below is the
one the repository's authors assert about the Rust code.
-/
import Verif.Model.Decoder
import Verif.Model.Encoder
import Verif.Model.Session
import Verif.Model.Subscriptions

namespace Ratel
namespace RepoTests

/-- Two allocators: the one with in-place `clear` that grows to the minimum, and the older one that doubles. -/
def allocs : List Alloc := [⟨true, false, fun _ len add => len + add, fun off _ _ => off⟩,
  ⟨false, true, fun off len add => 2 * (off + len) + add, fun _ _ _ => 0⟩]

/-- Ways in which the bytes may arrive: at once (as in the tests), byte by byte, and in two halves. -/
def arrivals (bytes : List UInt8) : List (List (List UInt8)) :=
  [[bytes], bytes.map fun b => [b], [bytes.take (bytes.length / 2), bytes.drop (bytes.length / 2)]]

/-- `read_packet(DATA)` (tests/read_packets.rs:285-300): buffer of 4096 bytes, the socket stays open. In both build profiles,
for both allocators and for three fragmentations. -/
def reads (bytes : List UInt8) (p : ControlPacket) : Bool :=
  allocs.all fun al => [true, false].all fun chk => (arrivals bytes).all fun segs =>
    letI := RStream.source al
    (Decoder.readPacket ⟨chk⟩ (RStream.new 4096 segs .silence)).1 = .ok p

/-- `write_packet(packet)` (tests/write_packets.rs:134-152): buffer of 4096 bytes, a socket that takes everything. -/
def writes (p : ControlPacket) (bytes : List UInt8) : Bool :=
  allocs.all fun al =>
    letI := WStream.sink al
    let (r, s) := (Encoder.writePacket p : M WStream Unit) (WStream.new 4096 [.accept 4095])
    r = .ok () && s.wire = bytes

/-- `subscribe(&mut repo, topic, client_id)` (subscriptions_repository.rs:334-340), repeatedly, including its assertion. -/
def repo : List (String × ClientId) → SubscriptionsRepository :=
  List.foldl (fun r (topic, client) => (r.subscribe client ⟨topic, .atMostOnce⟩).2) SubscriptionsRepository.new

/-- `assert(repo.subscribed_clients(..), Some(expected))` (subscriptions_repository.rs:321-332): equal after sorting. -/
def clients (r : SubscriptionsRepository) (topic : String) (expected : List ClientId) : Bool :=
  let sort (l : List ClientId) := l.mergeSort fun a b => decide (a ≤ b)
  (r.subscribedClients topic).map sort = some (sort expected)

/-! ## tests/read_packets.rs -/

-- it_read_connect_min (tests/read_packets.rs:10)
#guard reads
  [0x10, 0x23, 0x00, 0x04, 0x4d, 0x51, 0x54, 0x54, 0x04, 0x02, 0x00, 0x3c, 0x00, 0x17, 0x6d, 0x6f, 0x73, 0x71, 0x2d, 0x6e,
   0x73, 0x36, 0x73, 0x7a, 0x33, 0x6b, 0x33, 0x6c, 0x62, 0x66, 0x4d, 0x31, 0x49, 0x66, 0x62, 0x63, 0x52]
  (.connect ⟨.mqtt3, "mosq-ns6sz3k3lbfM1IfbcR", 60, true, none, none, none⟩)

-- it_read_connect_user_name (tests/read_packets.rs:36)
#guard reads
  [0x10, 0x28, 0x00, 0x04, 0x4d, 0x51, 0x54, 0x54, 0x04, 0x82, 0x00, 0x3c, 0x00, 0x17, 0x6d, 0x6f, 0x73, 0x71, 0x2d, 0x6e,
   0x79, 0x6f, 0x31, 0x38, 0x6c, 0x39, 0x4c, 0x59, 0x52, 0x76, 0x56, 0x61, 0x65, 0x73, 0x45, 0x76, 0x6b, 0x00, 0x03, 0x61,
   0x73, 0x64]
  (.connect ⟨.mqtt3, "mosq-nyo18l9LYRvVaesEvk", 60, true, none, some "asd", none⟩)

-- it_read_connect_password (tests/read_packets.rs:54)
#guard reads
  [0x10, 0x37, 0x00, 0x04, 0x4d, 0x51, 0x54, 0x54, 0x04, 0xc2, 0x00, 0x3c, 0x00, 0x17, 0x6d, 0x6f, 0x73, 0x71, 0x2d, 0x76,
   0x6b, 0x44, 0x62, 0x4f, 0x6d, 0x71, 0x74, 0x37, 0x31, 0x35, 0x6a, 0x43, 0x30, 0x56, 0x56, 0x30, 0x72, 0x00, 0x08, 0x75,
   0x73, 0x65, 0x72, 0x6e, 0x61, 0x6d, 0x65, 0x00, 0x08, 0x70, 0x61, 0x73, 0x73, 0x77, 0x6f, 0x72, 0x64]
  (.connect ⟨.mqtt3, "mosq-vkDbOmqt715jC0VV0r", 60, true, none, some "username", some "password"⟩)

-- it_read_disconnect (tests/read_packets.rs:73)
#guard reads
  [0xe0, 0x00]
  (.disconnect)

-- it_read_publish_qos_0 (tests/read_packets.rs:85)
#guard reads
  [0x30, 0x10, 0x00, 0x05, 0x61, 0x2f, 0x62, 0x2f, 0x63, 0x74, 0x65, 0x73, 0x74, 0x20, 0x62, 0x6f, 0x64, 0x79]
  (.publish ⟨none, false, ⟨"a/b/c", strBytes "test body", .atMostOnce, false⟩⟩)

-- it_read_publish_qos_greater_than_0 (tests/read_packets.rs:107)
#guard reads
  [0x3d, 0x12, 0x00, 0x05, 0x61, 0x2f, 0x62, 0x2f, 0x63, 0x12, 0x23, 0x74, 0x65, 0x73, 0x74, 0x20, 0x62, 0x6f, 0x64, 0x79]
  (.publish ⟨some 0x1223, true, ⟨"a/b/c", strBytes "test body", .exactlyOnce, true⟩⟩)

-- it_read_pub_ack (tests/read_packets.rs:129)
#guard reads
  [0x40, 0x02, 0x00, 0x02]
  (.pubAck 0x02)

-- it_read_pub_rec (tests/read_packets.rs:143)
#guard reads
  [0x50, 0x02, 0x12, 0x34]
  (.pubRec 0x1234)

-- it_read_pub_rel (tests/read_packets.rs:157)
#guard reads
  [0x62, 0x02, 0x00, 0x67]
  (.pubRel 0x67)

-- it_read_pub_comp (tests/read_packets.rs:171)
#guard reads
  [0x70, 0x02, 0xcd, 0x12]
  (.pubComp 0xcd12)

-- it_read_subscribe_one (tests/read_packets.rs:185)
#guard reads
  [0x82, 0x0a, 0x00, 0x01, 0x00, 0x05, 0x61, 0x2f, 0x62, 0x2f, 0x63, 0x00]
  (.subscribe ⟨1, [⟨"a/b/c", .atMostOnce⟩]⟩)

-- it_read_subscribe_many (tests/read_packets.rs:205)
#guard reads
  [0x82, 0x1a, 0x00, 0x01, 0x00, 0x05, 0x61, 0x2f, 0x62, 0x2f, 0x63, 0x00, 0x00, 0x05, 0x7a, 0x2f, 0x78, 0x2f, 0x63, 0x01,
   0x00, 0x05, 0x71, 0x2f, 0x77, 0x2f, 0x65, 0x02]
  (.subscribe ⟨1, [⟨"a/b/c", .atMostOnce⟩, ⟨"z/x/c", .atLeastOnce⟩, ⟨"q/w/e", .exactlyOnce⟩]⟩)

-- it_read_unsubscribe_one (tests/read_packets.rs:230)
#guard reads
  [0xa2, 0x09, 0x00, 0x02, 0x00, 0x05, 0x61, 0x2f, 0x62, 0x2f, 0x63]
  (.unsubscribe ⟨2, ["a/b/c"]⟩)

-- it_read_unsubscribe_many (tests/read_packets.rs:247)
#guard reads
  [0xa2, 0x17, 0x00, 0x02, 0x00, 0x05, 0x61, 0x2f, 0x62, 0x2f, 0x63, 0x00, 0x05, 0x7a, 0x2f, 0x78, 0x2f, 0x63, 0x00, 0x05,
   0x71, 0x2f, 0x77, 0x2f, 0x65]
  (.unsubscribe ⟨2, ["a/b/c", "z/x/c", "q/w/e"]⟩)

-- it_read_ping_req (tests/read_packets.rs:272)
#guard reads
  [0xc0, 0x00]
  (.pingReq)

/-! ## tests/write_packets.rs -/

-- it_write_conn_ack (tests/write_packets.rs:16)
#guard writes (.connAck ⟨false, .accepted⟩)
  [0x20, 0x02, 0x00, 0x00]

-- it_write_publish_qos_0 (tests/write_packets.rs:24)
#guard writes (.publish ⟨none, false, ⟨"a/b/c", strBytes "test body", .atMostOnce, false⟩⟩)
  [0x30, 0x10, 0x00, 0x05, 0x61, 0x2f, 0x62, 0x2f, 0x63, 0x74, 0x65, 0x73, 0x74, 0x20, 0x62, 0x6f, 0x64, 0x79]

-- it_write_publish_qos_greater_than_0 (tests/write_packets.rs:42)
#guard writes (.publish ⟨some 0x1223, true, ⟨"a/b/c", strBytes "test body", .exactlyOnce, true⟩⟩)
  [0x3d, 0x12, 0x00, 0x05, 0x61, 0x2f, 0x62, 0x2f, 0x63, 0x12, 0x23, 0x74, 0x65, 0x73, 0x74, 0x20, 0x62, 0x6f, 0x64, 0x79]

-- it_write_pub_ack (tests/write_packets.rs:62)
#guard writes (.pubAck 0x02)
  [0x40, 0x02, 0x00, 0x02]

-- it_write_pub_rec (tests/write_packets.rs:72)
#guard writes (.pubRec 0x1234)
  [0x50, 0x02, 0x12, 0x34]

-- it_write_pubrel (tests/write_packets.rs:82)
#guard writes (.pubRel 0x67)
  [0x62, 0x02, 0x00, 0x67]

-- it_write_pub_comp (tests/write_packets.rs:92)
#guard writes (.pubComp 0xcd12)
  [0x70, 0x02, 0xcd, 0x12]

-- it_write_sub_ack (tests/write_packets.rs:102)
#guard writes (.subAck ⟨0xa3c9, [.failure, .successQoS0, .successQoS1, .successQoS2]⟩)
  [0x90, 0x06, 0xa3, 0xc9, 0x80, 0x00, 0x01, 0x02]

-- it_write_unsub_ack (tests/write_packets.rs:118)
#guard writes (.unsubAck 6)
  [0xb0, 0x02, 0x00, 0x06]

-- it_write_ping_resp (tests/write_packets.rs:128)
#guard writes (.pingResp)
  [0xd0, 0x00]

/-! ## subscriptions_repository.rs -/

-- test_subscribe_no_wildcard (subscriptions_repository.rs:148)
#guard (SubscriptionsRepository.new.subscribe "client 1" ⟨"asd/zxc/qwe", .atMostOnce⟩).1 = .successQoS0

-- test_subscribed_clients_no_wildcards_matching (subscriptions_repository.rs:159)
#guard clients (repo [("a/b/c", "c1"), ("a/b/c", "c2")])
  "a/b/c" ["c1", "c2"]

-- test_subscribed_clients_no_wildcards_not_matching (subscriptions_repository.rs:172)
#guard clients (repo [("a", "c1"), ("a/b", "c2"), ("a/b/c/d", "c3")])
  "a/b/c" []

-- test_subscribed_clients_no_wildcards_combined (subscriptions_repository.rs:183)
#guard clients (repo [("a/b/c", "c1"), ("a/b/d", "c2"), ("a/b/c/d", "c3"), ("a/b", "c4")])
  "a/b/c" ["c1"]

-- test_subscribed_clients_wildcard_plus_matching (subscriptions_repository.rs:198)
#guard clients (repo [("+/b/c", "c1"), ("a/+/c", "c2"), ("a/b/+", "c3"), ("+/b/+", "c4"), ("+/+/+", "c5")])
  "a/b/c" ["c1", "c2", "c3", "c4", "c5"]

-- test_subscribed_clients_wildcard_plus_not_matching (subscriptions_repository.rs:220)
#guard clients (repo [("+/+/+/+", "c1"), ("+/+", "c2"), ("+", "c3"), ("a/+", "c4"), ("a/+/d", "c5")])
  "a/b/c" []

-- test_subscribed_clients_wildcard_plus_combined (subscriptions_repository.rs:233)
#guard clients (repo [("a/b/+", "c1"), ("+/b/+", "c2"), ("+/+/+", "c3"), ("+/+/+/+", "cx"), ("+/+", "cx")])
  "a/b/c" ["c1", "c2", "c3"]

-- test_subscribed_clients_wildcard_hash_matching (subscriptions_repository.rs:249)
#guard clients (repo [("a/#", "c1"), ("a/b/#", "c2")])
  "a/b/c" ["c1", "c2"]

-- test_subscribed_clients_wildcard_hash_not_matching (subscriptions_repository.rs:262)
#guard clients (repo [("a/b/c/#", "c1"), ("a/d/#", "c2"), ("b/#", "c3")])
  "a/b/c" []

-- test_subscribed_clients_wildcard_hash_combined (subscriptions_repository.rs:273)
#guard clients (repo [("a/#", "c1"), ("a/d/#", "c2"), ("b/#", "c3")])
  "a/b/c" ["c1"]

-- test_subscribed_clients_combined (subscriptions_repository.rs:287)
#guard clients (repo [("a/b/c", "c1"), ("a/b/d", "cx"), ("a/+/+", "c2"), ("a/+/d", "cy"), ("a/#", "c3"), ("a/d/#", "cz")])
  "a/b/c" ["c1", "c2", "c3"]

-- test_disconnect_remove_client (subscriptions_repository.rs:306)
#guard clients ((repo [("a", "c1"), ("a/b/c", "c1"), ("a/+/+", "c1"), ("a/#", "c1")]).disconnected "c1")
  "a" []

-- test_disconnect_remove_client (subscriptions_repository.rs:306)
#guard clients ((repo [("a", "c1"), ("a/b/c", "c1"), ("a/+/+", "c1"), ("a/#", "c1")]).disconnected "c1")
  "a/b" []

-- test_disconnect_remove_client (subscriptions_repository.rs:306)
#guard clients ((repo [("a", "c1"), ("a/b/c", "c1"), ("a/+/+", "c1"), ("a/#", "c1")]).disconnected "c1")
  "a/b/c" []

/-! ## session_repository.rs -/

-- test_in_memory_exists_true (session_repository.rs:85)
#guard (SessionRepository.default.insert ⟨"client-1", 0, false, 0, 0, 0⟩).exists "client-1" = true

-- test_in_memory_exists_false (session_repository.rs:98)
#guard SessionRepository.default.exists "client-1" = false

end RepoTests
end Ratel
