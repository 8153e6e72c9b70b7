/-
MQTT 3.1.1 wire format, written from the standard (sections 2 and 3) in terms of plain numbers. Only the packet data types are
shared with the model.
-/
import Verif.Model.Packets

namespace Ratel.Spec

/-- A byte from a number. -/
def byte (n : Nat) : UInt8 := UInt8.ofNat n

/-- Minimal "remaining length" field (2.2.3): base-128 digits, least significant first, top bit set on all but the last. -/
def varInt (n : Nat) : List UInt8 :=
  if n < 128 then [byte n] else byte (n % 128 + 128) :: varInt (n / 128)

/-- `bs` is a "remaining length" field of value `n`, minimal or not (2.2.3). -/
inductive LengthField : List UInt8 → Nat → Prop
  | last (b : UInt8) (h : b.toNat < 128) : LengthField [b] b.toNat
  | more (b : UInt8) (bs : List UInt8) (n : Nat) (h : 128 ≤ b.toNat) (hbs : LengthField bs n) :
      LengthField (b :: bs) (b.toNat - 128 + 128 * n)

/-- Big-endian two-byte integer (1.5.2). -/
def twoBytes (n : Nat) : List UInt8 := [byte (n / 256), byte (n % 256)]

/-- UTF-8 bytes of a string. -/
def utf8 (s : String) : List UInt8 := s.toByteArray.data.toList

/-- UTF-8 string field (1.5.3). -/
def str (s : String) : List UInt8 := twoBytes (utf8 s).length ++ utf8 s

/-- A field that is there or not. -/
def optional {α : Type} (f : α → List UInt8) : Option α → List UInt8
  | some a => f a
  | none => []

/-- A packet: first byte, remaining length, the rest (2.1). -/
def packet (first : Nat) (rest : List UInt8) : List UInt8 := byte first :: varInt rest.length ++ rest

/-- A packet with some, not necessarily minimal, remaining-length field `lf`. -/
def packetWith (lf : List UInt8) (first : Nat) (rest : List UInt8) : List UInt8 := byte first :: lf ++ rest

/-- QoS as a number (4.3). -/
def qosNum : QoS → Nat
  | .atMostOnce => 0
  | .atLeastOnce => 1
  | .exactlyOnce => 2

/-- CONNACK return codes (3.2.2.3). -/
def connAckNum : ConnAckReturnCode → Nat
  | .accepted => 0
  | .unacceptableProtocolVersion => 1
  | .identifierRejected => 2
  | .serverUnavailable => 3
  | .badUserNameOrPassword => 4
  | .notAuthorized => 5

/-- SUBACK return codes (3.9.3). -/
def subAckNum : SubAckReturnCode → Nat
  | .successQoS0 => 0
  | .successQoS1 => 1
  | .successQoS2 => 2
  | .failure => 128

/-- First byte of a PUBLISH (3.3.1). -/
def publishFirst (p : PublishPacket) : Nat :=
  48 + (if p.dup then 8 else 0) + 2 * qosNum p.message.qos + (if p.message.retain then 1 else 0)

/-- Variable header and payload of a PUBLISH (3.3.2, 3.3.3). -/
def publishRest (p : PublishPacket) : List UInt8 :=
  str p.message.topic ++ optional (fun i => twoBytes i.toNat) p.packetId ++ p.message.payload

/-- A PUBLISH that can be put on the wire: the topic fits its length field and a packet id is there exactly when QoS > 0
(3.3.2.2). -/
structure LegalPublish (p : PublishPacket) : Prop where
  topic : (utf8 p.message.topic).length < 65536
  id : p.packetId.isSome = true ↔ p.message.qos ≠ .atMostOnce

/-- Bytes of the packets a server sends (3.2, 3.3, 3.4, 3.5, 3.6, 3.7, 3.9, 3.11, 3.13). -/
def serverBytes : ControlPacket → Option (List UInt8)
  | .connAck p => some (packet 0x20 [byte (if p.sessionPresent then 1 else 0), byte (connAckNum p.returnCode)])
  | .publish p => some (packet (publishFirst p) (publishRest p))
  | .pubAck i => some (packet 0x40 (twoBytes i.toNat))
  | .pubRec i => some (packet 0x50 (twoBytes i.toNat))
  | .pubRel i => some (packet 0x62 (twoBytes i.toNat))
  | .pubComp i => some (packet 0x70 (twoBytes i.toNat))
  | .subAck p => some (packet 0x90 (twoBytes p.packetId.toNat ++ p.returnCodes.map fun c => byte (subAckNum c)))
  | .unsubAck i => some (packet 0xB0 (twoBytes i.toNat))
  | .pingResp => some (packet 0xD0 [])
  | _ => none

/-- The packets a server may send at all. -/
def ServerPacket (p : ControlPacket) : Prop :=
  match p with
  | .publish q => LegalPublish q
  | .connAck _ | .pubAck _ | .pubRec _ | .pubRel _ | .pubComp _ | .subAck _ | .unsubAck _ | .pingResp => True
  | _ => False

/-- A CONNECT as a client means it (3.1). -/
structure Connect where
  protocolName : String
  protocolLevel : UInt8
  cleanSession : Bool
  keepAlive : UInt16
  clientId : String
  /-- will topic, will message, QoS, retain -/
  will : Option (String × List UInt8 × QoS × Bool)
  userName : Option String
  password : Option String

/-- Connect flags (3.1.2.3). -/
def connectFlags (c : Connect) : Nat :=
  (if c.userName.isSome then 128 else 0) + (if c.password.isSome then 64 else 0)
  + (match c.will with | some (_, _, q, r) => (if r then 32 else 0) + 8 * qosNum q + 4 | none => 0)
  + (if c.cleanSession then 2 else 0)

/-- Variable header and payload of a CONNECT (3.1.2, 3.1.3). -/
def connectRest (c : Connect) : List UInt8 :=
  str c.protocolName ++ [c.protocolLevel, byte (connectFlags c)] ++ twoBytes c.keepAlive.toNat ++ str c.clientId
  ++ optional (fun w => str w.1 ++ twoBytes w.2.1.length ++ w.2.1) c.will ++ optional str c.userName
  ++ optional str c.password

/-- What a client can send. -/
inductive ClientPacket where
  | connect (c : Connect)
  | publish (p : PublishPacket)
  | pubAck (id : UInt16)
  | pubRec (id : UInt16)
  | pubRel (id : UInt16)
  | pubComp (id : UInt16)
  | subscribe (id : UInt16) (filters : List (String × QoS))
  | unsubscribe (id : UInt16) (filters : List String)
  | pingReq
  | disconnect

/-- First byte (2.2). -/
def clientFirst : ClientPacket → Nat
  | .connect _ => 0x10
  | .publish p => publishFirst p
  | .pubAck _ => 0x40
  | .pubRec _ => 0x50
  | .pubRel _ => 0x62
  | .pubComp _ => 0x70
  | .subscribe _ _ => 0x82
  | .unsubscribe _ _ => 0xA2
  | .pingReq => 0xC0
  | .disconnect => 0xE0

/-- Everything after the fixed header. -/
def clientRest : ClientPacket → List UInt8
  | .connect c => connectRest c
  | .publish p => publishRest p
  | .pubAck i | .pubRec i | .pubRel i | .pubComp i => twoBytes i.toNat
  | .subscribe i fs => twoBytes i.toNat ++ fs.flatMap fun (f, q) => str f ++ [byte (qosNum q)]
  | .unsubscribe i fs => twoBytes i.toNat ++ fs.flatMap str
  | .pingReq => []
  | .disconnect => []

/-- The string fits its two-byte length. -/
def Fits (s : String) : Prop := (utf8 s).length < 65536

/-- Legal client packets (field sizes, packet id rules, non-empty SUBSCRIBE and UNSUBSCRIBE). -/
def Legal : ClientPacket → Prop
  | .connect c => Fits c.protocolName ∧ Fits c.clientId ∧ (∀ u ∈ c.userName, Fits u) ∧ (∀ p ∈ c.password, Fits p)
      ∧ (∀ w ∈ c.will, Fits w.1 ∧ w.2.1.length < 65536)
  | .publish p => LegalPublish p
  | .subscribe _ fs => fs ≠ [] ∧ ∀ f ∈ fs, Fits f.1
  | .unsubscribe _ fs => fs ≠ [] ∧ ∀ f ∈ fs, Fits f
  | _ => True

/-- No will in a CONNECT. -/
def NoWill : ClientPacket → Prop
  | .connect c => c.will = none
  | _ => True

/-- The packet value a server should see. The protocol name and level have no counterpart in it. -/
def meaning : ClientPacket → ControlPacket
  | .connect c => .connect
      { version := .mqtt3, clientId := c.clientId, keepAliveSeconds := c.keepAlive, cleanSession := c.cleanSession
        willMessage := c.will.map fun (t, m, q, r) => { topic := t, payload := m, qos := q, retain := r }
        userName := c.userName, password := c.password }
  | .publish p => .publish p
  | .pubAck i => .pubAck i
  | .pubRec i => .pubRec i
  | .pubRel i => .pubRel i
  | .pubComp i => .pubComp i
  | .subscribe i fs => .subscribe { packetId := i, subscriptions := fs.map fun (f, q) => { topic := f, qos := q } }
  | .unsubscribe i fs => .unsubscribe { packetId := i, topics := fs }
  | .pingReq => .pingReq
  | .disconnect => .disconnect

/-- Layout of a CONNECT body with the given connect flags, as far as a reader without will support reads it. -/
def connectBody (name : String) (level flags : UInt8) (c : ConnectPacket) : List UInt8 :=
  str name ++ [level, flags] ++ twoBytes c.keepAliveSeconds.toNat ++ str c.clientId ++ optional str c.userName
  ++ optional str c.password

/-- `first` and `body` are, flags and fields alike, a well-formed packet saying `p`. For CONNECT the will flags are left open; the
low bits of the first byte are reserved for SUBSCRIBE, UNSUBSCRIBE and the acknowledgements. -/
def WellFormed (first : Nat) (body : List UInt8) : ControlPacket → Prop
  | .connect c => first / 16 = 1 ∧ c.version = .mqtt3 ∧ c.willMessage = none ∧ Fits c.clientId
      ∧ (∀ u ∈ c.userName, Fits u) ∧ (∀ p ∈ c.password, Fits p)
      ∧ ∃ name level flags, Fits name ∧ body = connectBody name level flags c
        ∧ (c.cleanSession = true ↔ flags.toNat / 2 % 2 = 1) ∧ (c.userName.isSome = true ↔ flags.toNat / 128 % 2 = 1)
        ∧ (c.password.isSome = true ↔ flags.toNat / 64 % 2 = 1)
  | .publish p => first = publishFirst p ∧ body = publishRest p ∧ LegalPublish p
  | .pubAck i => first = 0x40 ∧ body = twoBytes i.toNat
  | .pubRec i => first = 0x50 ∧ body = twoBytes i.toNat
  | .pubRel i => first = 0x62 ∧ body = twoBytes i.toNat
  | .pubComp i => first = 0x70 ∧ body = twoBytes i.toNat
  | .subscribe p => first = 0x82 ∧ p.subscriptions ≠ [] ∧ (∀ f ∈ p.subscriptions, Fits f.topic)
      ∧ body = twoBytes p.packetId.toNat ++ p.subscriptions.flatMap fun f => str f.topic ++ [byte (qosNum f.qos)]
  | .unsubscribe p => first = 0xA2 ∧ p.topics ≠ [] ∧ (∀ f ∈ p.topics, Fits f)
      ∧ body = twoBytes p.packetId.toNat ++ p.topics.flatMap str
  | .pingReq => first / 16 = 12 ∧ body = []
  | .disconnect => first / 16 = 14 ∧ body = []
  | _ => False

/-- Packets that only their announced length delimits. -/
def Measured : ControlPacket → Prop
  | .publish _ | .subscribe _ | .unsubscribe _ => True
  | _ => False

end Ratel.Spec
