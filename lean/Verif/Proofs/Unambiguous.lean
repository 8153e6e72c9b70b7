/-
The bytes a server sends determine its packets.
-/
import Verif.Props.Streams

namespace Ratel

open Spec

theorem byte_inj {m n : Nat} (hm : m < 256) (hn : n < 256) (h : byte m = byte n) : m = n := by
  rw [← byteNat hm, ← byteNat hn, h]

/-- A length field determines where it ends. -/
theorem varInt_unique (m n : Nat) (a b : List UInt8) (h : varInt m ++ a = varInt n ++ b) : m = n ∧ a = b := by
  induction m using Nat.strongRecOn generalizing n with
  | _ m ih =>
    rw [varInt, varInt.eq_def n] at h
    by_cases hm : m < 128
    · by_cases hn : n < 128
      · simp only [hm, hn, ↓reduceIte, List.cons_append, List.nil_append, List.cons.injEq] at h
        exact ⟨byte_inj (by omega) (by omega) h.1, h.2⟩
      · simp only [hm, hn, ↓reduceIte, List.cons_append, List.nil_append, List.cons.injEq] at h
        have := byte_inj (by omega) (by omega) h.1
        omega
    · by_cases hn : n < 128
      · simp only [hm, hn, ↓reduceIte, List.cons_append, List.nil_append, List.cons.injEq] at h
        have := byte_inj (by omega) (by omega) h.1
        omega
      · simp only [hm, hn, ↓reduceIte, List.cons_append, List.cons.injEq] at h
        have h1 := byte_inj (by omega) (by omega) h.1
        obtain ⟨h2, h3⟩ := ih (m / 128) (by omega) (n / 128) h.2
        exact ⟨by omega, h3⟩

/-- A packet determines where it ends. -/
theorem packet_unique {f g : Nat} {r s a b : List UInt8} (hf : f < 256) (hg : g < 256) (h : packet f r ++ a = packet g s ++ b) :
    f = g ∧ r = s ∧ a = b := by
  simp only [packet, List.cons_append, List.append_assoc, List.cons.injEq] at h
  obtain ⟨h1, h2⟩ := varInt_unique _ _ _ _ h.2
  obtain ⟨h3, h4⟩ := List.append_inj h2 h1
  exact ⟨byte_inj hf hg h.1, h3, h4⟩

theorem twoBytes_inj {i j : UInt16} (h : twoBytes i.toNat = twoBytes j.toNat) : i = j := by
  simp only [twoBytes, List.cons.injEq, and_true] at h
  rw [← u16OfBytes_twoBytes i, ← u16OfBytes_twoBytes j, h.1, h.2]

theorem utf8_inj {s t : String} (h : utf8 s = utf8 t) : s = t := by
  unfold utf8 at h
  have h1 : s.toByteArray.data = t.toByteArray.data := Array.toList_inj.mp h
  exact String.toByteArray_inj.mp (ByteArray.ext h1)

theorem str_unique {s t : String} {a b : List UInt8} (hs : (utf8 s).length < 65536) (ht : (utf8 t).length < 65536)
    (h : str s ++ a = str t ++ b) : s = t ∧ a = b := by
  simp only [str, twoBytes, List.cons_append, List.nil_append, List.cons.injEq] at h
  have h1 := byte_inj (by omega) (by omega) h.1
  have h2 := byte_inj (by omega) (by omega) h.2.1
  obtain ⟨h3, h4⟩ := List.append_inj h.2.2 (by omega)
  exact ⟨utf8_inj h3, h4⟩

theorem publishFirst_range (p : PublishPacket) : 48 ≤ publishFirst p ∧ publishFirst p < 62 := by
  unfold publishFirst qosNum
  constructor
  · omega
  · split <;> cases p.message.qos <;> simp <;> split <;> omega

theorem publishFirst_inj {p q : PublishPacket} (h : publishFirst p = publishFirst q) :
    p.dup = q.dup ∧ p.message.qos = q.message.qos ∧ p.message.retain = q.message.retain := by
  unfold publishFirst qosNum at h
  revert h
  cases p.dup <;> cases q.dup <;> cases p.message.qos <;> cases q.message.qos <;> cases p.message.retain <;> cases q.message.retain <;> simp

theorem publishRest_inj {p q : PublishPacket} (hp : LegalPublish p) (hq : LegalPublish q) (hqos : p.message.qos = q.message.qos)
    (h : publishRest p = publishRest q) : p.packetId = q.packetId ∧ p.message.topic = q.message.topic ∧ p.message.payload = q.message.payload := by
  simp only [publishRest, List.append_assoc] at h
  obtain ⟨h1, h2⟩ := str_unique hp.topic hq.topic h
  have hid : p.packetId.isSome = q.packetId.isSome := by
    rw [Bool.eq_iff_iff, hp.id, hq.id, hqos]
  cases hpi : p.packetId with
  | none =>
    cases hqi : q.packetId with
    | none => rw [hpi, hqi] at h2; exact ⟨rfl, h1, h2⟩
    | some j => rw [hpi, hqi] at hid; cases hid
  | some i =>
    cases hqi : q.packetId with
    | none => rw [hpi, hqi] at hid; cases hid
    | some j =>
      rw [hpi, hqi] at h2
      obtain ⟨h3, h4⟩ := List.append_inj h2 rfl
      exact ⟨by rw [twoBytes_inj h3], h1, h4⟩

theorem connAckNum_inj {a b : ConnAckReturnCode} (h : byte (connAckNum a) = byte (connAckNum b)) : a = b := by
  revert h
  cases a <;> cases b <;> decide

theorem subAckNum_inj {a b : SubAckReturnCode} (h : byte (subAckNum a) = byte (subAckNum b)) : a = b := by
  revert h
  cases a <;> cases b <;> decide

/-- First byte and rest of a packet a server sends. -/
def serverParts : ControlPacket → Nat × List UInt8
  | .connAck p => (0x20, [byte (if p.sessionPresent then 1 else 0), byte (connAckNum p.returnCode)])
  | .publish p => (publishFirst p, publishRest p)
  | .pubAck i => (0x40, twoBytes i.toNat)
  | .pubRec i => (0x50, twoBytes i.toNat)
  | .pubRel i => (0x62, twoBytes i.toNat)
  | .pubComp i => (0x70, twoBytes i.toNat)
  | .subAck p => (0x90, twoBytes p.packetId.toNat ++ p.returnCodes.map fun c => byte (subAckNum c))
  | .unsubAck i => (0xB0, twoBytes i.toNat)
  | .pingResp => (0xD0, [])
  | _ => (0, [])

theorem serverBytes_parts {p : ControlPacket} (hp : ServerPacket p) :
    (serverBytes p).getD [] = packet (serverParts p).1 (serverParts p).2 ∧ (serverParts p).1 < 256 := by
  cases p with
  | publish q => exact ⟨rfl, by have := (publishFirst_range q).2; simp only [serverParts]; omega⟩
  | connect | subscribe | unsubscribe | pingReq | disconnect => exact hp.elim
  | _ => exact ⟨rfl, by simp [serverParts]⟩

theorem serverParts_inj {p q : ControlPacket} (hp : ServerPacket p) (hq : ServerPacket q) (h : serverParts p = serverParts q) : p = q := by
  have hr := publishFirst_range
  have hpub : ∀ (a : PublishPacket) (q : ControlPacket), ServerPacket (.publish a) → ServerPacket q → serverParts (.publish a) = serverParts q →
      ControlPacket.publish a = q := by
    intro a q ha hq h
    have hra := hr a
    cases q with
    | publish b =>
      simp only [serverParts, Prod.mk.injEq] at h
      obtain ⟨h1, h2, h3⟩ := publishFirst_inj h.1
      obtain ⟨h4, h5, h6⟩ := publishRest_inj ha hq h2 h.2
      rcases a with ⟨i, d, ⟨t, pl, qos, r⟩⟩
      rcases b with ⟨i', d', ⟨t', pl', qos', r'⟩⟩
      simp only at h1 h2 h3 h4 h5 h6
      subst h1; subst h2; subst h3; subst h4; subst h5; subst h6
      rfl
    | connect | subscribe | unsubscribe | pingReq | disconnect => exact hq.elim
    | _ =>
      simp only [serverParts, Prod.mk.injEq] at h
      omega
  cases p with
  | publish a => exact hpub a q hp hq h
  | connect | subscribe | unsubscribe | pingReq | disconnect => exact hp.elim
  | connAck a =>
    cases q with
    | publish b => exact (hpub b _ hq hp h.symm).symm
    | connect | subscribe | unsubscribe | pingReq | disconnect => exact hq.elim
    | connAck b =>
      simp only [serverParts, Prod.mk.injEq, List.cons.injEq, and_true, true_and] at h
      rcases a with ⟨sp, rc⟩
      rcases b with ⟨sp', rc'⟩
      have h2 : rc = rc' := connAckNum_inj h.2
      have h1 : sp = sp' := by
        have key : ∀ x y : Bool, byte (if x then 1 else 0) = byte (if y then 1 else 0) → x = y := by decide
        exact key _ _ h.1
      rw [h1, h2]
    | _ => simp [serverParts] at h
  | subAck a =>
    cases q with
    | publish b => exact (hpub b _ hq hp h.symm).symm
    | connect | subscribe | unsubscribe | pingReq | disconnect => exact hq.elim
    | subAck b =>
      simp only [serverParts, Prod.mk.injEq, true_and] at h
      obtain ⟨h1, h2⟩ := List.append_inj h rfl
      rcases a with ⟨i, rc⟩
      rcases b with ⟨i', rc'⟩
      have e1 : i = i' := twoBytes_inj h1
      have e2 : rc = rc' := (List.map_inj_right fun _ _ => subAckNum_inj).mp h2
      rw [e1, e2]
    | _ => simp [serverParts] at h
  | pingResp =>
    cases q with
    | publish b => exact (hpub b _ hq hp h.symm).symm
    | connect | subscribe | unsubscribe | pingReq | disconnect => exact hq.elim
    | pingResp => rfl
    | _ => simp [serverParts] at h
  | _ i =>
    cases q with
    | publish b => exact (hpub b _ hq hp h.symm).symm
    | connect | subscribe | unsubscribe | pingReq | disconnect => exact hq.elim
    | connAck | subAck | pingResp => simp [serverParts] at h
    | _ j =>
      simp only [serverParts, Prod.mk.injEq] at h
      first
        | exact absurd h.1 (by decide)
        | rw [twoBytes_inj h.2]

/-- Complete packets at the beginning of what a server sends are the first packets it sends. -/
theorem wireOf_prefix {xs ys : List ControlPacket} (hx : ∀ p ∈ xs, ServerPacket p) (hy : ∀ p ∈ ys, ServerPacket p)
    (h : wireOf xs <+: wireOf ys) : xs <+: ys := by
  induction xs generalizing ys with
  | nil => exact List.nil_prefix
  | cons x xs ih =>
    obtain ⟨hxp, hxb⟩ := serverBytes_parts (hx x List.mem_cons_self)
    cases ys with
    | nil =>
      have := h.length_le
      simp only [wireOf, List.flatMap_cons, hxp, packet] at this
      simp at this
    | cons y ys =>
      obtain ⟨hyp, hyb⟩ := serverBytes_parts (hy y List.mem_cons_self)
      obtain ⟨t, ht⟩ := h
      simp only [wireOf, List.flatMap_cons, hxp, hyp, List.append_assoc] at ht
      obtain ⟨h1, h2, h3⟩ := packet_unique hxb hyb ht
      obtain rfl := serverParts_inj (hx x List.mem_cons_self) (hy y List.mem_cons_self) (Prod.ext h1 h2)
      exact List.cons_prefix_cons.mpr ⟨rfl, ih (fun p hp => hx p (List.mem_cons_of_mem _ hp)) (fun p hp => hy p (List.mem_cons_of_mem _ hp))
        ⟨t, h3⟩⟩

end Ratel
