/-
What is read is no larger than the read buffer.
-/
import Verif.Spec.Sizes
import Verif.Proofs.Sim
import Verif.Proofs.Utf8
import Verif.Props.Streams

namespace Ratel

open Decoder RStream Spec

/-- The stream is well-formed, and `T` bytes are allocated for its buffer. -/
def Sane (T : Nat) (s : RStream) : Prop := s.Wf ∧ AllocIs T s

/-- Whatever `m` gives on such a stream has the property, and the stream stays like that. -/
def Gives {α : Type} (T : Nat) (P : α → Prop) (m : M RStream α) : Prop := ∀ s a s', Sane T s → m s = (.ok a, s') → P a ∧ Sane T s'

namespace Gives

variable {α β : Type} {T : Nat} {P : α → Prop} {Q : β → Prop}

theorem bind {m : M RStream α} {k : α → M RStream β} (h : Gives T P m) (hk : ∀ a, P a → Gives T Q (k a)) : Gives T Q (m >>= k) := by
  intro s b s' hs hm
  obtain ⟨a, s₁, h1, h2⟩ := M.bind_eq_ok.mp hm
  obtain ⟨h3, h4⟩ := h s a s₁ hs h1
  exact hk a h3 s₁ b s' h4 h2

theorem pure {a : α} (h : P a) : Gives T P (Pure.pure a) := by
  intro s b s' hs hm
  cases hm
  exact ⟨h, hs⟩

theorem fail (e : ErrKind) : Gives T P (M.fail e) := by
  intro s b s' hs hm
  cases hm

theorem panic : Gives T P (M.panic : M RStream α) := by
  intro s b s' hs hm
  cases hm

/-- Where the same is read from the plain bytes. -/
theorem sim {m : M RStream α} {m' : M Plain α} (h : Sim (AllocIs T) (AllocIs T) True m m') : Gives T (fun _ => True) m := by
  intro s a s' hs hm
  have := h s ⟨s.total, s.fin⟩ ⟨rfl, rfl, hs.1⟩ hs.2
  rw [hm] at this
  obtain ⟨_, _, h1, h2⟩ := this
  exact ⟨trivial, h1.wf, h2⟩

variable (al : Alloc) (hT : 66 ≤ T)

include hT

theorem getBytes (n : Nat) : Gives T (fun bs => bs.length ≤ T) (RStream.getBytes al n) := by
  intro s bs s' hs hm
  refine ⟨?_, (sim (Sim.getBytes al (closed_alloc T hT) n) s bs s' hs hm).2⟩
  have ha : s.buf.off + s.buf.cap = T := hs.2
  unfold RStream.getBytes at hm
  split at hm
  · cases hm
  · by_cases hc : n ≤ s.buf.cap
    · by_cases ht : n ≤ s.total.length
      · obtain ⟨s₁, h1, hcon⟩ := getBytesLoop_ok al s hs.1 n [] hc ht
        rw [h1] at hm
        cases hm
        simp only [List.nil_append, List.length_take]
        omega
      · obtain ⟨s₁, h1⟩ := getBytesLoop_short al s hs.1 n [] (by omega) (by omega)
        rw [h1] at hm
        simp only [Prod.mk.injEq] at hm
        exact absurd hm.1 (endRes_ne_ok _ _)
    · by_cases ht : s.buf.cap ≤ s.total.length
      · obtain ⟨s₁, h1⟩ := getBytesLoop_hang al s hs.1 n [] (by omega) ht
        rw [h1] at hm
        cases hm
      · obtain ⟨s₁, h1⟩ := getBytesLoop_short al s hs.1 n [] (by omega) (by omega)
        rw [h1] at hm
        simp only [Prod.mk.injEq] at hm
        exact absurd hm.1 (endRes_ne_ok _ _)

theorem getU8 : Gives T (fun _ => True) (RStream.getU8 al) := sim (Sim.getU8 al (closed_alloc T hT))

theorem getU16 : Gives T (fun _ => True) (RStream.getU16 al) := sim (Sim.getU16 al (closed_alloc T hT))

theorem getString : letI := RStream.source al; Gives T (fun t => (utf8 t).length ≤ T) (Decoder.getString : M RStream String) := by
  letI := RStream.source al
  unfold Decoder.getString
  refine (Gives.getU16 al hT).bind fun n _ => (Gives.getBytes al hT n.toNat).bind fun bs hbs => ?_
  cases hu : fromUtf8 bs with
  | none => exact Gives.fail _
  | some t =>
    refine Gives.pure ?_
    have := strBytes_of_fromUtf8 hu
    show (strBytes t).length ≤ T
    rw [this]
    exact hbs

omit hT in
theorem subU64 (pr : Profile) (a b : Nat) : Gives T (fun _ => True) (Decoder.subU64 pr a b : M RStream Nat) := sim (Sim.subU64 pr a b)

theorem getStringIf (c : Bool) :
    letI := RStream.source al
    Gives T (fun o : Option String => ∀ t ∈ o, (utf8 t).length ≤ T) (Decoder.getStringIf c : M RStream (Option String)) := by
  letI := RStream.source al
  unfold Decoder.getStringIf
  split
  · exact (Gives.getString al hT).bind fun t ht => Gives.pure (by simpa using ht)
  · exact Gives.pure (by simp)

theorem withPacketId (a b : UInt8) :
    letI := RStream.source al
    Gives T (fun _ => True) (decodePacketWithPacketId a b : M RStream UInt16) := sim (Sim.withPacketId al (closed_alloc T hT) a b)

theorem connect : letI := RStream.source al; Gives T (PartsUpTo T) (decodeConnect : M RStream ControlPacket) := by
  letI := RStream.source al
  unfold decodeConnect
  refine (Gives.getString al hT).bind fun _ _ => (Gives.getU8 al hT).bind fun _ _ => (Gives.getU8 al hT).bind fun fl _ => ?_
  refine (Gives.getU16 al hT).bind fun _ _ => (Gives.getString al hT).bind fun id hid => ?_
  refine (Gives.getStringIf al hT _).bind fun u hu => (Gives.getStringIf al hT _).bind fun p hp => Gives.pure ⟨?_, Nat.zero_le _⟩
  intro t ht
  simp only [texts, List.mem_cons, List.mem_append, Option.mem_toList] at ht
  rcases ht with rfl | ht | ht
  · exact hid
  · exact hu t ht
  · exact hp t ht

theorem publishPacketId (pr : Profile) (q : QoS) (rl : Nat) :
    letI := RStream.source al
    Gives T (fun _ => True) (Decoder.publishPacketId pr q rl : M RStream _) := sim (Sim.publishPacketId al (closed_alloc T hT) pr q rl)

theorem publish (pr : Profile) (fb : UInt8) (rl : Nat) :
    letI := RStream.source al
    Gives T (PartsUpTo T) (decodePublish pr fb rl : M RStream ControlPacket) := by
  letI := RStream.source al
  unfold decodePublish
  cases QoS.fromBits ((fb &&& 0b00000110) >>> 1) with
  | none => exact Gives.panic
  | some q =>
    refine (Gives.getString al hT).bind fun t ht => (Gives.subU64 pr _ _).bind fun _ _ => (Gives.subU64 pr _ _).bind fun _ _ => ?_
    refine (Gives.publishPacketId al hT _ _ _).bind fun x _ => (Gives.getBytes al hT _).bind fun bs hbs => Gives.pure ⟨?_, hbs⟩
    intro u hu
    simp only [texts, List.mem_singleton] at hu
    rw [hu]
    exact ht

theorem subscribeLoop (pr : Profile) (fuel rl : Nat) (acc : List Subscription) (hacc : ∀ x ∈ acc, (utf8 x.topic).length ≤ T) :
    letI := RStream.source al
    Gives T (fun l : List Subscription => ∀ x ∈ l, (utf8 x.topic).length ≤ T) (Decoder.subscribeLoop pr fuel rl acc : M RStream _) := by
  letI := RStream.source al
  induction fuel generalizing rl acc with
  | zero =>
    intro s a s' _ h
    simp [Decoder.subscribeLoop] at h
  | succ fuel ih =>
    unfold Decoder.subscribeLoop
    split
    · refine (Gives.getString al hT).bind fun t ht => (Gives.getU8 al hT).bind fun q _ => ?_
      split
      · exact Gives.fail _
      · refine (Gives.subU64 pr _ _).bind fun _ _ => ?_
        cases QoS.fromBits q with
        | none => exact Gives.panic
        | some q =>
          refine ih _ _ fun x hx => ?_
          rcases List.mem_append.mp hx with hx | hx
          · exact hacc x hx
          · rw [List.mem_singleton.mp hx]; exact ht
    · exact Gives.pure hacc

theorem subscribe (pr : Profile) (fb : UInt8) (rl : Nat) :
    letI := RStream.source al
    Gives T (PartsUpTo T) (decodeSubscribe pr fb rl : M RStream ControlPacket) := by
  letI := RStream.source al
  unfold decodeSubscribe
  refine (Gives.withPacketId al hT _ _).bind fun i _ => (Gives.subU64 pr _ _).bind fun n _ => ?_
  split
  · exact Gives.fail _
  · refine Gives.bind (P := fun l : List Subscription => ∀ x ∈ l, (utf8 x.topic).length ≤ T) ?_ fun l hl => Gives.pure ⟨?_, Nat.zero_le _⟩
    · intro s a s' hs hm
      exact Gives.subscribeLoop al hT pr _ _ [] (by simp) s a s' hs hm
    · intro t ht
      simp only [texts, List.mem_map] at ht
      obtain ⟨x, hx, rfl⟩ := ht
      exact hl x hx

theorem unsubscribeLoop (pr : Profile) (fuel rl : Nat) (acc : List String) (hacc : ∀ x ∈ acc, (utf8 x).length ≤ T) :
    letI := RStream.source al
    Gives T (fun l : List String => ∀ x ∈ l, (utf8 x).length ≤ T) (Decoder.unsubscribeLoop pr fuel rl acc : M RStream _) := by
  letI := RStream.source al
  induction fuel generalizing rl acc with
  | zero =>
    intro s a s' _ h
    simp [Decoder.unsubscribeLoop] at h
  | succ fuel ih =>
    unfold Decoder.unsubscribeLoop
    split
    · refine (Gives.getString al hT).bind fun t ht => (Gives.subU64 pr _ _).bind fun _ _ => ih _ _ fun x hx => ?_
      rcases List.mem_append.mp hx with hx | hx
      · exact hacc x hx
      · rw [List.mem_singleton.mp hx]; exact ht
    · exact Gives.pure hacc

theorem unsubscribe (pr : Profile) (fb : UInt8) (rl : Nat) :
    letI := RStream.source al
    Gives T (PartsUpTo T) (decodeUnsubscribe pr fb rl : M RStream ControlPacket) := by
  letI := RStream.source al
  unfold decodeUnsubscribe
  refine (Gives.withPacketId al hT _ _).bind fun i _ => (Gives.subU64 pr _ _).bind fun n _ => ?_
  split
  · exact Gives.fail _
  · refine Gives.bind (P := fun l : List String => ∀ x ∈ l, (utf8 x).length ≤ T) ?_ fun l hl => Gives.pure ⟨hl, Nat.zero_le _⟩
    intro s a s' hs hm
    exact Gives.unsubscribeLoop al hT pr _ _ [] (by simp) s a s' hs hm

omit hT in
theorem empty {p : ControlPacket} (h1 : texts p = []) (h2 : messageIn p = []) : PartsUpTo T p :=
  ⟨by rw [h1]; simp, by rw [h2]; simp⟩

/-- Whatever packet is read, no part of it is larger than the buffer. -/
theorem readPacket (pr : Profile) : letI := RStream.source al; Gives T (PartsUpTo T) (Decoder.readPacket pr : M RStream ControlPacket) := by
  letI := RStream.source al
  unfold Decoder.readPacket
  refine (Gives.getU8 al hT).bind fun fb _ => (sim (Sim.remainingLength al (closed_alloc T hT))).bind fun n _ => ?_
  unfold decodeBody decodePubAck decodePubRec decodePubRel decodePubComp
  dsimp only
  split
  · exact Gives.connect al hT
  split
  · exact Gives.publish al hT pr _ _
  split
  · exact (Gives.withPacketId al hT _ _).bind fun _ _ => Gives.pure (empty rfl rfl)
  split
  · exact (Gives.withPacketId al hT _ _).bind fun _ _ => Gives.pure (empty rfl rfl)
  split
  · exact (Gives.withPacketId al hT _ _).bind fun _ _ => Gives.pure (empty rfl rfl)
  split
  · exact (Gives.withPacketId al hT _ _).bind fun _ _ => Gives.pure (empty rfl rfl)
  split
  · exact Gives.subscribe al hT pr _ _
  split
  · exact Gives.unsubscribe al hT pr _ _
  split
  · exact Gives.pure (empty rfl rfl)
  split
  · exact Gives.pure (empty rfl rfl)
  · exact Gives.panic

end Gives

end Ratel
