/-
Every well-formed packet is accepted: the converse of `readPacket_took`.
-/
import Verif.Proofs.DecoderInv

namespace Ratel

open Decoder

namespace SourceLaws

variable {σ : Type} [ByteSource σ] {total : σ → List UInt8} {fin : σ → Ending} {room : σ → Nat → Prop}

theorem bool_eq_decide {b : Bool} {p : Prop} [Decidable p] (h : b = true ↔ p) : decide p = b := by
  cases b
  · simp at h; simp [h]
  · simp at h; simp [h]

variable (L : SourceLaws σ total fin room)

include L

/-- A CONNECT with any flags. -/
theorem readAnyConnect {first : Nat} {body : List UInt8} {c : ConnectPacket} (h : Spec.WellFormed first body (.connect c)) :
    Reads total fin room decodeConnect body (.connect c) := by
  obtain ⟨_, hv, hw, hi, hu, hp, name, level, flags, hn, rfl, hc, hu', hp'⟩ := h
  obtain ⟨_, f1, f2, f3, _⟩ := first_table flags
  rw [bool_eq_decide hc] at f1
  rw [bool_eq_decide hu'] at f2
  rw [bool_eq_decide hp'] at f3
  have hr : Spec.connectBody name level flags c = Spec.str name ++ ([level] ++ ([flags]
      ++ (Spec.twoBytes c.keepAliveSeconds.toNat ++ (Spec.str c.clientId
      ++ (Spec.optional Spec.str c.userName ++ Spec.optional Spec.str c.password))))) := by
    simp [Spec.connectBody]
  unfold decodeConnect
  rw [hr]
  refine (L.readString _ hn).bind ((L.readU8 _).bind ((L.readU8 _).bind ((L.readU16 _).bind ((L.readString _ hi).bind ?_))))
  rw [f2, f3]
  refine (L.readStringIf _ hu).bind ((L.readStringIf _ hp).bind_nil ?_)
  rw [f1]
  obtain ⟨v, i, k, cl, w, u, pw⟩ := c
  cases hv
  cases hw
  exact Reads.pure _

omit L in
theorem decodeBody_type (pr : Profile) (rl : Nat) (first : UInt8) :
    (first.toNat / 16 = 1 → decodeBody (σ := σ) pr first rl = decodeConnect)
    ∧ (first.toNat / 16 = 12 → decodeBody (σ := σ) pr first rl = Pure.pure .pingReq)
    ∧ (first.toNat / 16 = 14 → decodeBody (σ := σ) pr first rl = Pure.pure .disconnect) := by
  have ht := (first_table first).1
  have hk : ∀ k : UInt8, first.toNat / 16 = k.toNat → first >>> 4 = k := fun k h => UInt8.toNat_inj.mp (ht.trans h)
  refine ⟨fun h => ?_, fun h => ?_, fun h => ?_⟩
  · unfold decodeBody
    rw [hk 1 h]
    rfl
  · unfold decodeBody
    rw [hk 12 h]
    rfl
  · unfold decodeBody
    rw [hk 14 h]
    rfl

omit L [ByteSource σ] in
theorem first_byte {first : UInt8} {n : Nat} (h : first.toNat = n) : first = Spec.byte n := by
  subst h
  simp [Spec.byte]

/-- The body of a well-formed packet, with the announced length right where it matters. -/
theorem readWellFormed (pr : Profile) {first : UInt8} {body : List UInt8} {p : ControlPacket}
    (h : Spec.WellFormed first.toNat body p) {n : Nat} (hn : Spec.Measured p → n = body.length) (hs : n ≤ isizeMax) :
    Reads total fin room (decodeBody pr first n) body p := by
  have hb := decodeBody_first (σ := σ) pr n
  have ht := decodeBody_type (σ := σ) pr n first
  cases p with
  | connect c =>
    rw [ht.1 h.1]
    exact L.readAnyConnect h
  | publish q =>
    obtain ⟨h1, h2, h3⟩ := h
    rw [first_byte h1]
    obtain rfl := hn trivial
    subst h2
    exact L.readBody pr (.publish q) h3 trivial hs
  | subscribe s =>
    obtain ⟨h1, h2, h3, h4⟩ := h
    rw [first_byte h1]
    obtain rfl := hn trivial
    have he : Spec.clientRest (.subscribe s.packetId (s.subscriptions.map fun f => (f.topic, f.qos))) = body := by
      rw [h4, Spec.clientRest, List.flatMap_map]
    have := L.readBody pr (.subscribe s.packetId (s.subscriptions.map fun f => (f.topic, f.qos)))
      ⟨by simpa using h2, by simpa using h3⟩ trivial (by rw [he]; exact hs)
    rw [he] at this
    have hm : Spec.meaning (.subscribe s.packetId (s.subscriptions.map fun f => (f.topic, f.qos))) = .subscribe s := by
      have : s.subscriptions.map ((fun x : String × QoS => { topic := x.1, qos := x.2 : Subscription }) ∘ fun f => (f.topic, f.qos))
          = s.subscriptions := List.map_id s.subscriptions
      simp [Spec.meaning, this]
    rwa [hm] at this
  | unsubscribe s =>
    obtain ⟨h1, h2, h3, h4⟩ := h
    rw [first_byte h1]
    obtain rfl := hn trivial
    have he : Spec.clientRest (.unsubscribe s.packetId s.topics) = body := by
      rw [h4, Spec.clientRest]
    have := L.readBody pr (.unsubscribe s.packetId s.topics) ⟨h2, h3⟩ trivial (by rw [he]; exact hs)
    rwa [he] at this
  | pubAck i =>
    obtain ⟨h1, rfl⟩ := h
    rw [show first = 0x40 from first_byte h1, hb.2.1]
    exact (L.readPacketId _ i).bind_nil (f := fun i => Pure.pure (ControlPacket.pubAck i)) (Reads.pure _)
  | pubRec i =>
    obtain ⟨h1, rfl⟩ := h
    rw [show first = 0x50 from first_byte h1, hb.2.2.1]
    exact (L.readPacketId _ i).bind_nil (f := fun i => Pure.pure (ControlPacket.pubRec i)) (Reads.pure _)
  | pubRel i =>
    obtain ⟨h1, rfl⟩ := h
    rw [show first = 0x62 from first_byte h1, hb.2.2.2.1]
    exact (L.readPacketId _ i).bind_nil (f := fun i => Pure.pure (ControlPacket.pubRel i)) (Reads.pure _)
  | pubComp i =>
    obtain ⟨h1, rfl⟩ := h
    rw [show first = 0x70 from first_byte h1, hb.2.2.2.2.1]
    exact (L.readPacketId _ i).bind_nil (f := fun i => Pure.pure (ControlPacket.pubComp i)) (Reads.pure _)
  | pingReq =>
    obtain ⟨h1, rfl⟩ := h
    rw [ht.2.1 h1]
    exact Reads.pure _
  | disconnect =>
    obtain ⟨h1, rfl⟩ := h
    rw [ht.2.2 h1]
    exact Reads.pure _
  | connAck | subAck | unsubAck | pingResp => exact h.elim

/-- A well-formed packet with a length field of at most three bytes. -/
theorem readWhole (pr : Profile) {first : UInt8} {lf body : List UInt8} {n : Nat} {p : ControlPacket} (hlf : Spec.LengthField lf n)
    (hl : lf.length ≤ 3) (h : Spec.WellFormed first.toNat body p) (hn : Spec.Measured p → n = body.length) :
    Reads total fin room (Decoder.readPacket pr) (first :: lf ++ body) p := by
  have hs := lengthField_small hlf hl
  unfold Decoder.readPacket
  rw [List.cons_append]
  refine (L.readU8 _).bind ((L.readLength lf _ hlf hl).bind (L.readWellFormed pr h hn ?_))
  unfold isizeMax
  omega

end SourceLaws

end Ratel
