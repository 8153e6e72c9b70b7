/-
Packet types: src/mqtt/packets/*.rs, src/mqtt/message.rs, src/mqtt/subscription.rs, src/mqtt/events.rs
-/
import Verif.Model.Basic

namespace Ratel

/-- Packet type constants (src/mqtt/packets/mod.rs:38-51). -/
def packetTypeConnect : UInt8 := 1
@[inherit_doc packetTypeConnect] def packetTypeConnAck : UInt8 := 2
@[inherit_doc packetTypeConnect] def packetTypePublish : UInt8 := 3
@[inherit_doc packetTypeConnect] def packetTypePubAck : UInt8 := 4
@[inherit_doc packetTypeConnect] def packetTypePubRec : UInt8 := 5
@[inherit_doc packetTypeConnect] def packetTypePubRel : UInt8 := 6
@[inherit_doc packetTypeConnect] def packetTypePubComp : UInt8 := 7
@[inherit_doc packetTypeConnect] def packetTypeSubscribe : UInt8 := 8
@[inherit_doc packetTypeConnect] def packetTypeSubAck : UInt8 := 9
@[inherit_doc packetTypeConnect] def packetTypeUnsubscribe : UInt8 := 10
@[inherit_doc packetTypeConnect] def packetTypeUnsubAck : UInt8 := 11
@[inherit_doc packetTypeConnect] def packetTypePingReq : UInt8 := 12
@[inherit_doc packetTypeConnect] def packetTypePingResp : UInt8 := 13
@[inherit_doc packetTypeConnect] def packetTypeDisconnect : UInt8 := 14

/-- `pub type ClientId = String` (src/mqtt/packets/mod.rs:54). -/
abbrev ClientId := String

/-- src/mqtt/packets/mod.rs:56-66. -/
inductive ProtocolVersion where
  | mqtt3
  | mqtt5
  deriving DecidableEq, Repr

/-- src/mqtt/packets/mod.rs:68-73. -/
inductive QoS where
  | atMostOnce
  | atLeastOnce
  | exactlyOnce
  deriving DecidableEq, Repr

/-- `qos as u8` (discriminants at src/mqtt/packets/mod.rs:70-72; used at packet_encoder.rs:108). -/
def QoS.toByte : QoS → UInt8
  | .atMostOnce => 0
  | .atLeastOnce => 1
  | .exactlyOnce => 2

/-- `qos > QoS::AtMostOnce` under the derived `PartialOrd` (packets/mod.rs:68; packet_encoder.rs:117, packet_decoder.rs:181). -/
def QoS.gtAtMostOnce : QoS → Bool
  | .atMostOnce => false
  | .atLeastOnce => true
  | .exactlyOnce => true

/-- `QoS::from_bits`; `none` is `panic!("Invalid QoS")` (src/mqtt/packets/mod.rs:85-94). -/
def QoS.fromBits (bits : UInt8) : Option QoS :=
  if bits = 0 then some .atMostOnce
  else if bits = 1 then some .atLeastOnce
  else if bits = 2 then some .exactlyOnce
  else none

/-- src/mqtt/message.rs:4-10. The payload `BytesMut` is its bytes. -/
structure Message where
  topic : String
  payload : List UInt8
  qos : QoS
  retain : Bool
  deriving DecidableEq, Repr

/-- src/mqtt/packets/connect.rs:5-16. -/
structure ConnectPacket where
  version : ProtocolVersion
  clientId : ClientId
  keepAliveSeconds : UInt16
  cleanSession : Bool
  willMessage : Option Message
  userName : Option String
  password : Option String
  deriving DecidableEq, Repr

/-- src/mqtt/packets/connack.rs:1-9. -/
inductive ConnAckReturnCode where
  | accepted
  | unacceptableProtocolVersion
  | identifierRejected
  | serverUnavailable
  | badUserNameOrPassword
  | notAuthorized
  deriving DecidableEq, Repr

/-- `return_code as u8` (src/mqtt/packets/connack.rs:3-8; packet_encoder.rs:84). -/
def ConnAckReturnCode.toByte : ConnAckReturnCode → UInt8
  | .accepted => 0
  | .unacceptableProtocolVersion => 1
  | .identifierRejected => 2
  | .serverUnavailable => 3
  | .badUserNameOrPassword => 4
  | .notAuthorized => 5

/-- src/mqtt/packets/connack.rs:17-21. -/
structure ConnAckPacket where
  sessionPresent : Bool
  returnCode : ConnAckReturnCode
  deriving DecidableEq, Repr

/-- src/mqtt/packets/publish.rs:5-11. -/
structure PublishPacket where
  packetId : Option UInt16
  dup : Bool
  message : Message
  deriving DecidableEq, Repr

/-- src/mqtt/subscription.rs:5-9. -/
structure Subscription where
  topic : String
  qos : QoS
  deriving DecidableEq, Repr

/-- src/mqtt/packets/subscribe.rs:3-8. -/
structure SubscribePacket where
  packetId : UInt16
  subscriptions : List Subscription
  deriving DecidableEq, Repr

/-- src/mqtt/packets/suback.rs:3-9. -/
inductive SubAckReturnCode where
  | successQoS0
  | successQoS1
  | successQoS2
  | failure
  deriving DecidableEq, Repr

/-- `return_code as u8` (src/mqtt/packets/suback.rs:5-8; packet_encoder.rs:191). -/
def SubAckReturnCode.toByte : SubAckReturnCode → UInt8
  | .successQoS0 => 0x00
  | .successQoS1 => 0x01
  | .successQoS2 => 0x02
  | .failure => 0x80

/-- src/mqtt/packets/suback.rs:17-22. -/
structure SubAckPacket where
  packetId : UInt16
  returnCodes : List SubAckReturnCode
  deriving DecidableEq, Repr

/-- src/mqtt/packets/unsubscribe.rs:1-6. -/
structure UnsubscribePacket where
  packetId : UInt16
  topics : List String
  deriving DecidableEq, Repr

/-- src/mqtt/packets/mod.rs:102-118. `PubAck`, `PubRec`, `PubRel`, `PubComp`, `UnsubAck` carry only a packet id
(puback.rs:1-4, pubrec.rs:1-4, pubrel.rs:1-4, pubcomp.rs:1-4, unsuback.rs:1-4); `Disconnect` carries nothing
(disconnect.rs:6-7). -/
inductive ControlPacket where
  | connect (p : ConnectPacket)
  | connAck (p : ConnAckPacket)
  | publish (p : PublishPacket)
  | pubAck (packetId : UInt16)
  | pubRec (packetId : UInt16)
  | pubRel (packetId : UInt16)
  | pubComp (packetId : UInt16)
  | subscribe (p : SubscribePacket)
  | subAck (p : SubAckPacket)
  | unsubscribe (p : UnsubscribePacket)
  | unsubAck (packetId : UInt16)
  | pingReq
  | pingResp
  | disconnect
  deriving DecidableEq, Repr

/-- Identity of a connection. It stands for the connection's `Sender<ServerEvent>`: all clones of the sender made at
src/mqtt/listener.rs:72 feed the one queue of that connection. -/
abbrev ConnId := Nat

/-- `std::net::SocketAddr`; only `.ip()` is used (client_packet_handler.rs:150). -/
structure SocketAddr where
  ip : Nat
  port : Nat
  deriving DecidableEq, Repr

/-- src/mqtt/events.rs:5-11. -/
inductive ClientEvent where
  | connected (c : ConnectPacket) (addr : SocketAddr) (tx : ConnId)
  | controlPacket (clientId : ClientId) (p : ControlPacket) (tx : ConnId)
  | disconnected (clientId : ClientId)
  | connectionLost (clientId : ClientId)
  deriving DecidableEq, Repr

/-- src/mqtt/events.rs:13-17. -/
inductive ServerEvent where
  | controlPacket (p : ControlPacket)
  | disconnect
  deriving DecidableEq, Repr

end Ratel
