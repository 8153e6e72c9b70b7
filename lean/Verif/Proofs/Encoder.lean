/-
The encoder appends exactly the bytes of the wire format, for any lawful byte sink.
-/
import Verif.Model.Encoder
import Verif.Proofs.Monad
import Verif.Proofs.Bytes

namespace Ratel

/-- Started in a state satisfying `P`, `m` appends exactly `bs` to the output and ends in `Q`; or it stops early (I/O error, or the
socket never accepts more) after appending a prefix of `bs`, in a state satisfying `I`. It neither panics nor spins. -/
def Emits {σ : Type} (out : σ → List UInt8) (I P : σ → Prop) (m : M σ Unit) (bs : List UInt8) (Q : σ → Prop) : Prop :=
  ∀ s, P s →
    match m s with
    | (.ok _, s') => out s' = out s ++ bs ∧ Q s'
    | (.err _, s') => (∃ pre, pre <+: bs ∧ out s' = out s ++ pre) ∧ I s'
    | (.pending, s') => (∃ pre, pre <+: bs ∧ out s' = out s ++ pre) ∧ I s'
    | (.panic, _) => False
    | (.hang, _) => False

/-- What the encoder needs of a sink: `I` holds always, `N` after something was put; `putBytes` needs `N`; `E` holds
when a put stops early. -/
structure SinkLaws (σ : Type) [ByteSink σ] (out : σ → List UInt8) (E I N : σ → Prop) : Prop where
  weaken : ∀ s, N s → I s
  putU8 : ∀ b, Emits out E I (ByteSink.putU8 b) [b] N
  putU16 : ∀ n, Emits out E I (ByteSink.putU16 n) (Spec.twoBytes n.toNat) N
  putBytes : ∀ bs, Emits out E N (ByteSink.putBytes bs) bs N
  finishPacket : Emits out E I ByteSink.finishPacket [] I

namespace Emits

variable {σ : Type} {out : σ → List UInt8} {I P Q R P' Q' : σ → Prop}

theorem seq {m : M σ Unit} {k : Unit → M σ Unit} {a b : List UInt8} (hm : Emits out I P m a Q)
    (hk : Emits out I Q (k ()) b R) : Emits out I P (m >>= k) (a ++ b) R := by
  intro s hs
  have h1 := hm s hs
  rw [M.bind_apply]
  rcases hms : m s with ⟨r, s₁⟩
  rw [hms] at h1
  cases r with
  | ok u =>
    obtain ⟨ho, hq⟩ := h1
    have h2 := hk s₁ hq
    simp only
    rcases hks : k () s₁ with ⟨r, s₂⟩
    rw [hks] at h2
    cases r with
    | ok _ => exact ⟨by rw [h2.1, ho, List.append_assoc], h2.2⟩
    | err e =>
      obtain ⟨⟨pre, hp, hpo⟩, hI⟩ := h2
      exact ⟨⟨a ++ pre, (List.prefix_append_right_inj a).mpr hp, by rw [hpo, ho, List.append_assoc]⟩, hI⟩
    | pending =>
      obtain ⟨⟨pre, hp, hpo⟩, hI⟩ := h2
      exact ⟨⟨a ++ pre, (List.prefix_append_right_inj a).mpr hp, by rw [hpo, ho, List.append_assoc]⟩, hI⟩
    | panic => exact h2
    | hang => exact h2
  | err e =>
    obtain ⟨⟨pre, hp, hpo⟩, hI⟩ := h1
    exact ⟨⟨pre, hp.trans (List.prefix_append a b), hpo⟩, hI⟩
  | pending =>
    obtain ⟨⟨pre, hp, hpo⟩, hI⟩ := h1
    exact ⟨⟨pre, hp.trans (List.prefix_append a b), hpo⟩, hI⟩
  | panic => exact h1
  | hang => exact h1

theorem pure : Emits out I P (Pure.pure () : M σ Unit) [] P := by
  intro s hs
  simp [hs]

theorem conseq {m : M σ Unit} {a : List UInt8} (h : Emits out I P m a Q) (hp : ∀ s, P' s → P s) (hq : ∀ s, Q s → Q' s) :
    Emits out I P' m a Q' := by
  intro s hs
  have := h s (hp s hs)
  rcases hms : m s with ⟨r, s₁⟩
  rw [hms] at this
  cases r with
  | ok _ => exact ⟨this.1, hq _ this.2⟩
  | err e => exact this
  | pending => exact this
  | panic => exact this
  | hang => exact this

theorem congr {m : M σ Unit} {a b : List UInt8} (h : Emits out I P m a Q) (hab : a = b) : Emits out I P m b Q := hab ▸ h

end Emits

namespace SinkLaws

open Emits Encoder

variable {σ : Type} [ByteSink σ] {out : σ → List UInt8} {E I N : σ → Prop}

theorem putU8' (L : SinkLaws σ out E I N) (b : UInt8) : Emits out E N (ByteSink.putU8 b) [b] N :=
  (L.putU8 b).conseq L.weaken fun _ h => h

theorem putU16' (L : SinkLaws σ out E I N) (n : UInt16) : Emits out E N (ByteSink.putU16 n) (Spec.twoBytes n.toNat) N :=
  (L.putU16 n).conseq L.weaken fun _ h => h

theorem remainingLength (L : SinkLaws σ out E I N) (n : Nat) : Emits out E N (encodeRemainingLength n) (Spec.varInt n) N := by
  induction n using Nat.strongRecOn with
  | ind n ih =>
    rw [encodeRemainingLength, Spec.varInt]
    by_cases h : n < 128
    · have h0 : n / 128 = 0 := by omega
      simp only [h, ↓reduceIte, h0]
      refine ((L.putU8' _).seq Emits.pure).congr ?_
      simp [Spec.byte, Nat.mod_eq_of_lt h]
    · have h0 : ¬ n / 128 = 0 := by omega
      simp only [h, ↓reduceIte, h0, ↓reduceDIte, Nat.pos_of_ne_zero h0]
      refine ((L.putU8' _).seq (ih (n / 128) (by omega))).congr ?_
      rw [u8_or_128 (by omega)]
      simp

theorem string (L : SinkLaws σ out E I N) (s : String) (hs : (Spec.utf8 s).length < 65536) :
    Emits out E N (putString s) (Spec.str s) N := by
  unfold putString
  refine ((L.putU16' _).seq (L.putBytes _)).congr ?_
  simp only [Spec.str, strLen_eq, strBytes_eq]
  rw [UInt16.toNat_ofNat']
  simp [Nat.mod_eq_of_lt hs]

theorem withPacketId (L : SinkLaws σ out E I N) (b : UInt8) (i : UInt16) :
    Emits out E I (writePacketWithPacketId b i) (b :: Spec.varInt 2 ++ Spec.twoBytes i.toNat) N := by
  unfold writePacketWithPacketId
  exact ((L.putU8 b).seq ((L.remainingLength 2).seq (L.putU16' i))).congr (by simp)

theorem returnCodes (L : SinkLaws σ out E I N) (cs : List SubAckReturnCode) :
    Emits out E N (writeReturnCodes cs) (cs.map fun c => Spec.byte (Spec.subAckNum c)) N := by
  induction cs with
  | nil => exact Emits.pure
  | cons c cs ih =>
    refine ((L.putU8' _).seq ih).congr ?_
    cases c <;> rfl

/-- First byte of a PUBLISH, as the encoder computes it. -/
theorem publish_first (d r : Bool) (q : QoS) :
    (let b : UInt8 := packetTypePublish <<< 4
     let b := if d then b ||| 0b00001000 else b
     let b := b ||| (q.toByte <<< 1)
     if r then b ||| 0b00000001 else b)
    = Spec.byte (48 + (if d then 8 else 0) + 2 * Spec.qosNum q + (if r then 1 else 0)) := by
  cases d <;> cases r <;> cases q <;> decide

theorem publish_length (p : PublishPacket) (hp : Spec.LegalPublish p) :
    ((if p.message.qos.gtAtMostOnce = true then strLen p.message.topic + 2 + 2 else strLen p.message.topic + 2)
      + p.message.payload.length) = (Spec.publishRest p).length := by
  have hid := hp.id
  rcases p with ⟨pid, dup, ⟨topic, payload, qos, retain⟩⟩
  cases pid <;> cases qos <;>
    simp [QoS.gtAtMostOnce, Spec.publishRest, Spec.optional, Spec.str, Spec.twoBytes, strLen_eq] at hid ⊢ <;> omega

theorem publish (L : SinkLaws σ out E I N) (p : PublishPacket) (hp : Spec.LegalPublish p) :
    Emits out E I (writePublish p) (Spec.packet (Spec.publishFirst p) (Spec.publishRest p)) N := by
  unfold writePublish
  simp only
  have hid : Emits out E N
      (match p.packetId with
        | some packetId => do
          ByteSink.putU16 packetId
          ByteSink.putBytes p.message.payload
        | none => ByteSink.putBytes p.message.payload)
      ((match p.packetId with | some i => Spec.twoBytes i.toNat | none => []) ++ p.message.payload) N := by
    cases p.packetId with
    | none => exact (L.putBytes _).congr (by simp)
    | some i => exact (L.putU16' i).seq (L.putBytes _)
  refine ((L.putU8 _).seq ((L.remainingLength _).seq ((L.string _ hp.topic).seq hid))).congr ?_
  rw [publish_length p hp]
  have := publish_first p.dup p.message.retain p.message.qos
  simp only at this
  simp only [Spec.packet, Spec.publishRest, Spec.publishFirst, ← this]
  simp only [List.append_assoc, List.cons_append]
  cases p.packetId <;> rfl

/-- The body of `write_packet` appends exactly the bytes of the packet. -/
theorem writeBody (L : SinkLaws σ out E I N) (p : ControlPacket) (hp : Spec.ServerPacket p) (bs : List UInt8)
    (hbs : Spec.serverBytes p = some bs) : Emits out E I (Encoder.writeBody p) bs N := by
  cases p with
  | connAck p =>
    cases hbs
    unfold Encoder.writeBody writeConnAck
    refine ((L.putU8 _).seq ((L.remainingLength 2).seq ((L.putU8' _).seq (L.putU8' _)))).congr ?_
    rcases p with ⟨sp, rc⟩
    cases sp <;> cases rc <;> rfl
  | publish p => cases hbs; exact L.publish p hp
  | pubAck i => cases hbs; exact L.withPacketId _ i
  | pubRec i => cases hbs; exact L.withPacketId _ i
  | pubRel i => cases hbs; exact L.withPacketId _ i
  | pubComp i => cases hbs; exact L.withPacketId _ i
  | unsubAck i => cases hbs; exact L.withPacketId _ i
  | subAck p =>
    cases hbs
    unfold Encoder.writeBody writeSubAck
    refine ((L.putU8 _).seq ((L.remainingLength _).seq ((L.putU16' _).seq (L.returnCodes _)))).congr ?_
    simp only [Spec.packet, Spec.twoBytes, List.length_append, List.length_map, List.length_cons, List.length_nil]
    simp
    rfl
  | pingResp =>
    cases hbs
    unfold Encoder.writeBody writePingResp
    exact ((L.putU8 _).seq (L.remainingLength _)).congr (by simp [Spec.packet]; rfl)
  | connect | subscribe | unsubscribe | pingReq | disconnect => exact absurd hp (by simp [Spec.ServerPacket])

/-- `write_packet` appends exactly the bytes of the packet. -/
theorem writePacket (L : SinkLaws σ out E I N) (p : ControlPacket) (hp : Spec.ServerPacket p) (bs : List UInt8)
    (hbs : Spec.serverBytes p = some bs) : Emits out E I (Encoder.writePacket p) bs I :=
  (((L.writeBody p hp bs hbs).conseq (fun _ h => h) L.weaken).seq L.finishPacket).congr (by simp)

theorem string_any (L : SinkLaws σ out E I N) (s : String) : ∃ bs, Emits out E N (putString s) bs N :=
  ⟨_, (L.putU16' _).seq (L.putBytes _)⟩

/-- Even a PUBLISH that is not legal is written as some finite byte string. -/
theorem publish_any (L : SinkLaws σ out E I N) (p : PublishPacket) : ∃ bs, Emits out E I (writePublish p) bs N := by
  unfold writePublish
  simp only
  have hid : ∃ bs, Emits out E N
      (match p.packetId with
        | some packetId => do
          ByteSink.putU16 packetId
          ByteSink.putBytes p.message.payload
        | none => ByteSink.putBytes p.message.payload) bs N := by
    cases p.packetId with
    | none => exact ⟨_, L.putBytes _⟩
    | some i => exact ⟨_, (L.putU16' i).seq (L.putBytes _)⟩
  obtain ⟨b1, h1⟩ := L.string_any p.message.topic
  obtain ⟨b2, h2⟩ := hid
  exact ⟨_, (L.putU8 _).seq ((L.remainingLength _).seq (h1.seq h2))⟩

/-- Every packet of a supported type, legal or not, is written as some finite byte string. -/
theorem writePacket_any (L : SinkLaws σ out E I N) (p : ControlPacket) (hp : (Spec.serverBytes p).isSome = true) :
    ∃ bs, Emits out E I (Encoder.writePacket p) bs I := by
  cases p with
  | publish p =>
    obtain ⟨bs, h⟩ := L.publish_any p
    exact ⟨_, (h.conseq (fun _ h => h) L.weaken).seq L.finishPacket⟩
  | connAck | pubAck | pubRec | pubRel | pubComp | subAck | unsubAck | pingResp => refine ⟨_, L.writePacket _ ?_ _ rfl⟩; trivial
  | connect | subscribe | unsubscribe | pingReq | disconnect => simp [Spec.serverBytes] at hp

end SinkLaws

/-- The list sink is lawful. -/
theorem listSink_laws : @SinkLaws (List UInt8) listSink id (fun _ => False) (fun _ => True) (fun _ => True) :=
  letI := listSink
  { weaken := fun _ _ => trivial
    putU8 := fun b s _ => by simp [ByteSink.putU8]
    putU16 := fun n s _ => by simp [ByteSink.putU16, u16Bytes_eq]
    putBytes := fun bs s _ => by simp [ByteSink.putBytes]
    finishPacket := fun s _ => by simp [ByteSink.finishPacket] }

end Ratel
