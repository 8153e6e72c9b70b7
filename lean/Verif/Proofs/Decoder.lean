/-
Decoding what the wire format prescribes gives back what was meant, for any lawful byte source.
-/
import Verif.Model.Decoder
import Verif.Proofs.Bytes
import Verif.Proofs.Utf8
import Verif.Proofs.ReadStream

namespace Ratel

/-- What the decoder needs of a byte source when the bytes it asks for are there. `room s k`: at least (or exactly) `k` more bytes
can be read without trouble. -/
structure SourceLaws (σ : Type) [ByteSource σ] (total : σ → List UInt8) (fin : σ → Ending) (room : σ → Nat → Prop) : Prop where
  avail : ∀ s, ByteSource.avail s = (total s).length
  getU8 : ∀ s b r k, total s = b :: r → room s (k + 1) →
    ∃ s', ByteSource.getU8 s = (.ok b, s') ∧ total s' = r ∧ fin s' = fin s ∧ room s' k
  getU16 : ∀ s hi lo r k, total s = hi :: lo :: r → room s (k + 2) →
    ∃ s', ByteSource.getU16 s = (.ok (u16OfBytes hi lo), s') ∧ total s' = r ∧ fin s' = fin s ∧ room s' k
  getBytes : ∀ s bs r k, total s = bs ++ r → room s (k + bs.length) → bs.length ≤ isizeMax →
    ∃ s', ByteSource.getBytes bs.length s = (.ok bs, s') ∧ total s' = r ∧ fin s' = fin s ∧ room s' k

/-- `m` reads exactly `bs` and returns `a`, whatever follows. -/
def Reads {σ : Type} (total : σ → List UInt8) (fin : σ → Ending) (room : σ → Nat → Prop) {α : Type} (m : M σ α)
    (bs : List UInt8) (a : α) : Prop :=
  ∀ s r k, total s = bs ++ r → room s (k + bs.length) →
    ∃ s', m s = (.ok a, s') ∧ total s' = r ∧ fin s' = fin s ∧ room s' k

namespace Reads

variable {σ : Type} {total : σ → List UInt8} {fin : σ → Ending} {room : σ → Nat → Prop} {α β : Type}

theorem bind {m : M σ α} {f : α → M σ β} {as bs : List UInt8} {a : α} {b : β} (hm : Reads total fin room m as a)
    (hf : Reads total fin room (f a) bs b) : Reads total fin room (m >>= f) (as ++ bs) b := by
  intro s r k ht hr
  obtain ⟨s₁, h1, ht1, hf1, hr1⟩ := hm s (bs ++ r) (k + bs.length) (by rw [ht, List.append_assoc])
    (by rw [List.length_append] at hr; rwa [show k + bs.length + as.length = k + (as.length + bs.length) by omega])
  obtain ⟨s₂, h2, ht2, hf2, hr2⟩ := hf s₁ r k ht1 hr1
  exact ⟨s₂, by rw [M.bind_ok h1, h2], ht2, hf2.trans hf1, hr2⟩

theorem pure (a : α) : Reads total fin room (Pure.pure a) [] a :=
  fun s _ _ ht hr => ⟨s, rfl, ht, rfl, hr⟩

/-- Followed by a computation that reads nothing. -/
theorem bind_nil {m : M σ α} {f : α → M σ β} {as : List UInt8} {a : α} {b : β} (hm : Reads total fin room m as a)
    (hf : Reads total fin room (f a) [] b) : Reads total fin room (m >>= f) as b := by
  have := hm.bind hf
  rwa [List.append_nil] at this

/-- After a computation that reads nothing. -/
theorem nil_bind {m : M σ α} {f : α → M σ β} {bs : List UInt8} {a : α} {b : β} (hm : Reads total fin room m [] a)
    (hf : Reads total fin room (f a) bs b) : Reads total fin room (m >>= f) bs b := hm.bind (as := []) hf

end Reads

namespace SourceLaws

variable {σ : Type} [ByteSource σ] {total : σ → List UInt8} {fin : σ → Ending} {room : σ → Nat → Prop}
variable (L : SourceLaws σ total fin room)

open Decoder

include L

theorem readU8 (b : UInt8) : Reads total fin room ByteSource.getU8 [b] b :=
  fun s r k ht hr => L.getU8 s b r k ht hr

theorem readU16 (n : UInt16) : Reads total fin room ByteSource.getU16 (Spec.twoBytes n.toNat) n := by
  intro s r k ht hr
  have := L.getU16 s _ _ r k ht hr
  rwa [u16OfBytes_twoBytes] at this

theorem readBytes (bs : List UInt8) (n : Nat) (hn : bs.length = n) (hi : n ≤ isizeMax) :
    Reads total fin room (ByteSource.getBytes n) bs bs := by
  subst hn
  exact fun s r k ht hr => L.getBytes s bs r k ht hr hi

theorem readString (t : String) (h : Spec.Fits t) : Reads total fin room getString (Spec.str t) t := by
  unfold Spec.Fits at h
  have hu := L.readU16 (UInt16.ofNat (Spec.utf8 t).length)
  have hn : (UInt16.ofNat (Spec.utf8 t).length).toNat = (Spec.utf8 t).length := by simp; omega
  rw [hn] at hu
  unfold getString Spec.str
  refine hu.bind ?_
  refine (L.readBytes (Spec.utf8 t) _ (by rw [hn]) (by rw [hn]; unfold isizeMax; omega)).bind_nil ?_
  rw [← strBytes_eq, fromUtf8_strBytes]
  exact Reads.pure _

theorem readStringIf (o : Option String) (h : ∀ t ∈ o, Spec.Fits t) :
    Reads total fin room (getStringIf o.isSome) (Spec.optional Spec.str o) o := by
  unfold getStringIf
  cases o with
  | none => exact Reads.pure _
  | some t => exact (L.readString t (h t rfl)).bind_nil (Reads.pure _)

omit L [ByteSource σ] in
theorem readSub (pr : Profile) (a b : Nat) (h : b ≤ a) : Reads total fin room (subU64 pr a b : M σ Nat) [] (a - b) := by
  intro s r k ht hr
  exact ⟨s, by simp [subU64, h], ht, rfl, hr⟩

theorem readLengthLoop (rl mult : Nat) (hm : 0 < mult) (bs : List UInt8) (n : Nat) (h : Spec.LengthField bs n)
    (hb : mult * 128 ^ bs.length ≤ 128 ^ 3) :
    Reads total fin room (decodeRemainingLengthLoop rl mult hm) bs (rl + mult * n) := by
  induction h generalizing rl mult with
  | last b hlt =>
    rw [decodeRemainingLengthLoop]
    refine (L.readU8 b).bind_nil ?_
    have h1 : ¬ mult * 128 > 128 * 128 * 128 := by simp at hb; omega
    have h2 : b &&& 128 = 0 := (u8_and_128 b).mpr hlt
    simp only [h1, ↓reduceDIte, h2, ↓reduceIte, u8_and_127, Nat.mod_eq_of_lt hlt, Nat.mul_comm]
    exact Reads.pure _
  | more b bs n hge hbs ih =>
    rw [decodeRemainingLengthLoop]
    refine (L.readU8 b).bind (bs := bs) ?_
    have hpos : 1 ≤ 128 ^ bs.length := Nat.pow_pos (by omega)
    simp only [List.length_cons, Nat.pow_succ] at hb
    have hb' : mult * 128 * 128 ^ bs.length ≤ 128 ^ 3 := by
      rw [Nat.mul_assoc, Nat.mul_comm 128]; exact hb
    have h1 : ¬ mult * 128 > 128 * 128 * 128 := by
      have := Nat.le_mul_of_pos_right (mult * 128) hpos
      omega
    have h2 : ¬ b &&& 128 = 0 := fun h => by have := (u8_and_128 b).mp h; omega
    have hlt := b.toNat_lt
    simp only [h1, ↓reduceDIte, h2, ↓reduceIte, u8_and_127]
    have := ih (rl + b.toNat % 128 * mult) (mult * 128) (by omega) hb'
    have he : rl + b.toNat % 128 * mult + mult * 128 * n = rl + mult * (b.toNat - 128 + 128 * n) := by
      rw [show b.toNat % 128 = b.toNat - 128 by omega, Nat.mul_add, Nat.mul_assoc, Nat.mul_comm mult (b.toNat - 128)]
      omega
    rwa [he] at this

theorem readLength (bs : List UInt8) (n : Nat) (h : Spec.LengthField bs n) (hb : bs.length ≤ 3) :
    Reads total fin room decodeRemainingLength bs n := by
  have := L.readLengthLoop 0 1 (by decide) bs n h (by
    rw [Nat.one_mul]; exact Nat.pow_le_pow_right (by omega) hb)
  unfold decodeRemainingLength
  simpa using this

theorem readPacketId (fb : UInt8) (i : UInt16) :
    Reads total fin room (decodePacketWithPacketId fb fb) (Spec.twoBytes i.toNat) i := by
  unfold decodePacketWithPacketId validateFirstByte
  simp only [↓reduceIte]
  exact L.readU16 i

omit L [ByteSource σ] in
theorem flags_table : ∀ (u p c : Bool),
    let b := Spec.byte ((if u then 128 else 0) + (if p then 64 else 0) + 0 + (if c then 2 else 0))
    (decide (b &&& 2 ≠ 0), decide (b &&& 128 ≠ 0), decide (b &&& 64 ≠ 0)) = (c, u, p) := by
  decide +kernel

theorem readConnect (c : Spec.Connect) (hl : Spec.Legal (.connect c)) (hw : c.will = none) :
    Reads total fin room decodeConnect (Spec.connectRest c) (Spec.meaning (.connect c)) := by
  obtain ⟨hn, hi, hu, hp, _⟩ := hl
  have hf := flags_table c.userName.isSome c.password.isSome c.cleanSession
  simp only [Prod.mk.injEq] at hf
  obtain ⟨hf1, hf2, hf3⟩ := hf
  have hfb : Spec.byte (Spec.connectFlags c)
      = Spec.byte ((if c.userName.isSome then 128 else 0) + (if c.password.isSome then 64 else 0) + 0
        + (if c.cleanSession then 2 else 0)) := by
    simp [Spec.connectFlags, hw]
  rw [← hfb] at hf1 hf2 hf3
  unfold decodeConnect
  have hr : Spec.connectRest c = Spec.str c.protocolName ++ ([c.protocolLevel] ++ ([Spec.byte (Spec.connectFlags c)]
      ++ (Spec.twoBytes c.keepAlive.toNat ++ (Spec.str c.clientId
      ++ (Spec.optional Spec.str c.userName ++ Spec.optional Spec.str c.password))))) := by
    simp [Spec.connectRest, hw, Spec.optional]
  rw [hr]
  refine (L.readString _ hn).bind ((L.readU8 _).bind ((L.readU8 _).bind ((L.readU16 _).bind ((L.readString _ hi).bind ?_))))
  rw [hf2, hf3]
  refine (L.readStringIf _ hu).bind ((L.readStringIf _ hp).bind_nil ?_)
  rw [hf1]
  simp only [Spec.meaning, hw]
  exact Reads.pure _

omit L [ByteSource σ] in
theorem publish_table : ∀ (d r : Bool) (q : QoS),
    let b := Spec.byte (48 + (if d then 8 else 0) + 2 * Spec.qosNum q + (if r then 1 else 0))
    (decide (b &&& 8 ≠ 0), decide (b &&& 1 ≠ 0), QoS.fromBits ((b &&& 6) >>> 1), b >>> 4) = (d, r, some q, 3) := by
  intro d r q
  cases d <;> cases r <;> cases q <;> decide +kernel

theorem readPublish (pr : Profile) (p : PublishPacket) (hl : Spec.LegalPublish p)
    (hs : (Spec.publishRest p).length ≤ isizeMax) :
    Reads total fin room (decodePublish pr (Spec.byte (Spec.publishFirst p)) (Spec.publishRest p).length)
      (Spec.publishRest p) (.publish p) := by
  have ht := publish_table p.dup p.message.retain p.message.qos
  simp only [Prod.mk.injEq] at ht
  obtain ⟨h1, h2, h3, _⟩ := ht
  have hfb : Spec.byte (Spec.publishFirst p) = Spec.byte (48 + (if p.dup then 8 else 0) + 2 * Spec.qosNum p.message.qos
      + (if p.message.retain then 1 else 0)) := rfl
  rw [← hfb] at h1 h2 h3
  have hstr : (Spec.str p.message.topic).length = (Spec.utf8 p.message.topic).length + 2 := by
    simp [Spec.str, Spec.twoBytes]
  have hlen : (Spec.publishRest p).length = (Spec.utf8 p.message.topic).length + 2
      + (Spec.optional (fun i : UInt16 => Spec.twoBytes i.toNat) p.packetId).length + p.message.payload.length := by
    simp only [Spec.publishRest, List.length_append, hstr]
  unfold decodePublish
  simp only [h1, h2, h3]
  rw [hlen] at hs
  rw [hlen]
  unfold Spec.publishRest
  rw [List.append_assoc]
  refine (L.readString _ hl.topic).bind ?_
  refine (readSub pr _ _ ?_).nil_bind ?_
  · rw [strLen_eq]; omega
  refine (readSub pr _ _ ?_).nil_bind ?_
  · rw [strLen_eq]; omega
  have hid := hl.id
  rcases hp : p with ⟨pid, dup, msg⟩
  rw [hp] at hid hs
  have hid' : pid.isSome = true ↔ msg.qos ≠ .atMostOnce := hid
  clear hid
  unfold publishPacketId
  simp only
  simp only [] at hs
  cases pid with
  | none =>
    have hq : msg.qos = .atMostOnce := by
      cases h : msg.qos <;> simp [h] at hid' ⊢
    simp only [hq, QoS.gtAtMostOnce, Bool.false_eq_true, ↓reduceIte, Spec.optional, List.nil_append, List.length_nil] at hs ⊢
    refine (Reads.pure _).nil_bind ?_
    refine (L.readBytes _ _ ?_ ?_).bind_nil ?_
    · simp only [strLen_eq]; omega
    · simp only [strLen_eq]; omega
    · have : msg = { topic := msg.topic, payload := msg.payload, qos := .atMostOnce, retain := msg.retain } := by
        rw [← hq]
      rw [← this]
      exact Reads.pure _
  | some i =>
    have hq : msg.qos.gtAtMostOnce = true := by
      cases h : msg.qos <;> simp [h, QoS.gtAtMostOnce] at hid' ⊢
    have h2 : (Spec.twoBytes i.toNat).length = 2 := rfl
    simp only [hq, ↓reduceIte]
    simp only [Spec.optional, h2] at hs ⊢
    have h4 : (Spec.utf8 msg.topic).length + 2 + 2 + msg.payload.length - strLen msg.topic - 2 - 2 = msg.payload.length := by
      rw [strLen_eq]; omega
    refine Reads.bind (a := (some i, msg.payload.length)) ?_ ?_
    · have := (readSub (total := total) (fin := fin) (room := room) pr
        ((Spec.utf8 msg.topic).length + 2 + 2 + msg.payload.length - strLen msg.topic - 2) 2
        (by rw [strLen_eq]; omega)).nil_bind (f := fun rl => ByteSource.getU16 >>= fun id => Pure.pure (some id, rl))
        ((L.readU16 i).bind_nil (Reads.pure _))
      rwa [h4] at this
    · refine (L.readBytes _ _ rfl ?_).bind_nil (Reads.pure _)
      omega

omit L [ByteSource σ] in
theorem length_str (t : String) : (Spec.str t).length = strLen t + 2 := by
  simp [Spec.str, Spec.twoBytes, strLen_eq]

omit L [ByteSource σ] in
theorem qos_table (q : QoS) : ¬ Spec.byte (Spec.qosNum q) > 2 ∧ QoS.fromBits (Spec.byte (Spec.qosNum q)) = some q := by
  cases q <;> decide +kernel

/-- The payload of a SUBSCRIBE. -/
def _root_.Ratel.subscribePayload (fs : List (String × QoS)) : List UInt8 :=
  fs.flatMap fun (f, q) => Spec.str f ++ [Spec.byte (Spec.qosNum q)]

theorem readSubscribeLoop (pr : Profile) (fs : List (String × QoS)) (hf : ∀ f ∈ fs, Spec.Fits f.1) (fuel : Nat)
    (hfuel : fs.length < fuel) (acc : List Subscription) :
    Reads total fin room (subscribeLoop pr fuel (subscribePayload fs).length acc) (subscribePayload fs)
      (acc ++ fs.map fun (f, q) => { topic := f, qos := q }) := by
  induction fs generalizing fuel acc with
  | nil =>
    obtain ⟨fuel, rfl⟩ : ∃ n, fuel = n + 1 := ⟨fuel - 1, by simp at hfuel; omega⟩
    simp only [subscribePayload, List.flatMap_nil, List.length_nil, List.map_nil, List.append_nil, subscribeLoop]
    exact Reads.pure _
  | cons f fs ih =>
    obtain ⟨fuel, rfl⟩ : ∃ n, fuel = n + 1 := ⟨fuel - 1, by simp at hfuel; omega⟩
    obtain ⟨f, q⟩ := f
    have hpay : subscribePayload ((f, q) :: fs) = Spec.str f ++ ([Spec.byte (Spec.qosNum q)] ++ subscribePayload fs) := by
      simp [subscribePayload]
    have hlen : (subscribePayload ((f, q) :: fs)).length = strLen f + 3 + (subscribePayload fs).length := by
      rw [hpay, List.length_append, List.length_append, length_str]; simp; omega
    have hq := qos_table q
    rw [hlen, hpay, subscribeLoop]
    have hpos : strLen f + 3 + (subscribePayload fs).length > 0 := by omega
    simp only [hpos, ↓reduceIte]
    refine (L.readString f (hf _ (List.mem_cons_self))).bind ((L.readU8 _).bind ?_)
    simp only [hq.1, ↓reduceIte]
    refine Reads.nil_bind (readSub pr _ _ (by omega)) ?_
    simp only [hq.2, Nat.add_sub_cancel_left]
    have := ih (fun g hg => hf g (List.mem_cons_of_mem _ hg)) fuel (by simp at hfuel; omega)
      (acc ++ [{ topic := f, qos := q }])
    simpa using this

theorem readUnsubscribeLoop (pr : Profile) (fs : List String) (hf : ∀ f ∈ fs, Spec.Fits f) (fuel : Nat)
    (hfuel : fs.length < fuel) (acc : List String) :
    Reads total fin room (unsubscribeLoop pr fuel (fs.flatMap Spec.str).length acc) (fs.flatMap Spec.str) (acc ++ fs) := by
  induction fs generalizing fuel acc with
  | nil =>
    obtain ⟨fuel, rfl⟩ : ∃ n, fuel = n + 1 := ⟨fuel - 1, by simp at hfuel; omega⟩
    simp only [List.flatMap_nil, List.length_nil, List.append_nil, unsubscribeLoop]
    exact Reads.pure _
  | cons f fs ih =>
    obtain ⟨fuel, rfl⟩ : ∃ n, fuel = n + 1 := ⟨fuel - 1, by simp at hfuel; omega⟩
    have hlen : ((f :: fs).flatMap Spec.str).length = strLen f + 2 + (fs.flatMap Spec.str).length := by
      rw [List.flatMap_cons, List.length_append, length_str]
    rw [hlen, unsubscribeLoop, List.flatMap_cons]
    have hpos : strLen f + 2 + (fs.flatMap Spec.str).length > 0 := by omega
    simp only [hpos, ↓reduceIte]
    refine (L.readString f (hf _ (List.mem_cons_self))).bind ?_
    refine Reads.nil_bind (readSub pr _ _ (by omega)) ?_
    simp only [Nat.add_sub_cancel_left]
    have := ih (fun g hg => hf g (List.mem_cons_of_mem _ hg)) fuel (by simp at hfuel; omega) (acc ++ [f])
    simpa using this

omit L [ByteSource σ] in
theorem length_le_flatMap {α : Type} (f : α → List UInt8) (h : ∀ a, 1 ≤ (f a).length) (l : List α) :
    l.length ≤ (l.flatMap f).length := by
  induction l with
  | nil => simp
  | cons a l ih =>
    have := h a
    rw [List.flatMap_cons, List.length_append, List.length_cons]
    omega

/-- With as many rounds of fuel as bytes are there. -/
theorem readFuelled {α : Type} (m : Nat → M σ α) (bs : List UInt8) (a : α)
    (h : ∀ fuel, bs.length < fuel → Reads total fin room (m fuel) bs a) :
    Reads total fin room (fun s => m (ByteSource.avail s + 1) s) bs a := by
  intro s r k ht hr
  refine h _ ?_ s r k ht hr
  rw [L.avail, ht, List.length_append]
  omega

theorem readSubscribe (pr : Profile) (i : UInt16) (fs : List (String × QoS)) (hl : Spec.Legal (.subscribe i fs)) :
    Reads total fin room (decodeSubscribe pr 0x82 (Spec.clientRest (.subscribe i fs)).length)
      (Spec.clientRest (.subscribe i fs)) (Spec.meaning (.subscribe i fs)) := by
  obtain ⟨hne, hf⟩ := hl
  have hr : Spec.clientRest (.subscribe i fs) = Spec.twoBytes i.toNat ++ subscribePayload fs := rfl
  have hlen : (Spec.clientRest (.subscribe i fs)).length = 2 + (subscribePayload fs).length := by
    rw [hr, List.length_append]; rfl
  have hcount : fs.length ≤ (subscribePayload fs).length :=
    length_le_flatMap _ (fun a => by simp) fs
  have hfs := List.length_pos_iff.mpr hne
  rw [hlen, hr]
  unfold decodeSubscribe
  refine (L.readPacketId _ i).bind ?_
  refine Reads.nil_bind (readSub pr _ _ (by omega)) ?_
  rw [Nat.add_sub_cancel_left]
  have h0 : ¬ (subscribePayload fs).length = 0 := by omega
  simp only [h0, ↓reduceIte]
  refine Reads.bind_nil (a := fs.map fun (f, q) => { topic := f, qos := q }) ?_ (Reads.pure _)
  refine L.readFuelled (fun fuel => subscribeLoop pr fuel (subscribePayload fs).length []) _ _ fun fuel hfuel => ?_
  have := L.readSubscribeLoop pr fs hf fuel (by omega) []
  simpa using this

theorem readUnsubscribe (pr : Profile) (i : UInt16) (fs : List String) (hl : Spec.Legal (.unsubscribe i fs)) :
    Reads total fin room (decodeUnsubscribe pr 0xA2 (Spec.clientRest (.unsubscribe i fs)).length)
      (Spec.clientRest (.unsubscribe i fs)) (Spec.meaning (.unsubscribe i fs)) := by
  obtain ⟨hne, hf⟩ := hl
  have hr : Spec.clientRest (.unsubscribe i fs) = Spec.twoBytes i.toNat ++ fs.flatMap Spec.str := rfl
  have hlen : (Spec.clientRest (.unsubscribe i fs)).length = 2 + (fs.flatMap Spec.str).length := by
    rw [hr, List.length_append]; rfl
  have hcount : fs.length ≤ (fs.flatMap Spec.str).length :=
    length_le_flatMap _ (fun a => by rw [length_str]; omega) fs
  have hfs := List.length_pos_iff.mpr hne
  rw [hlen, hr]
  unfold decodeUnsubscribe
  refine (L.readPacketId _ i).bind ?_
  refine Reads.nil_bind (readSub pr _ _ (by omega)) ?_
  rw [Nat.add_sub_cancel_left]
  have h0 : ¬ (fs.flatMap Spec.str).length = 0 := by omega
  simp only [h0, ↓reduceIte]
  refine Reads.bind_nil (a := fs) ?_ (Reads.pure _)
  refine L.readFuelled (fun fuel => unsubscribeLoop pr fuel (fs.flatMap Spec.str).length []) _ _ fun fuel hfuel => ?_
  have := L.readUnsubscribeLoop pr fs hf fuel (by omega) []
  simpa using this

omit L in
theorem decodeBody_first (pr : Profile) (rl : Nat) :
    decodeBody (σ := σ) pr 0x10 rl = decodeConnect
    ∧ decodeBody (σ := σ) pr 0x40 rl = decodePubAck 0x40
    ∧ decodeBody (σ := σ) pr 0x50 rl = decodePubRec 0x50
    ∧ decodeBody (σ := σ) pr 0x62 rl = decodePubRel 0x62
    ∧ decodeBody (σ := σ) pr 0x70 rl = decodePubComp 0x70
    ∧ decodeBody (σ := σ) pr 0x82 rl = decodeSubscribe pr 0x82 rl
    ∧ decodeBody (σ := σ) pr 0xA2 rl = decodeUnsubscribe pr 0xA2 rl
    ∧ decodeBody (σ := σ) pr 0xC0 rl = Pure.pure .pingReq
    ∧ decodeBody (σ := σ) pr 0xE0 rl = Pure.pure .disconnect := by
  refine ⟨?_, ?_, ?_, ?_, ?_, ?_, ?_, ?_, ?_⟩ <;> · unfold decodeBody; rfl

theorem readBody (pr : Profile) (c : Spec.ClientPacket) (hl : Spec.Legal c) (hw : Spec.NoWill c)
    (hs : (Spec.clientRest c).length ≤ isizeMax) :
    Reads total fin room (decodeBody pr (Spec.byte (Spec.clientFirst c)) (Spec.clientRest c).length)
      (Spec.clientRest c) (Spec.meaning c) := by
  have hb := decodeBody_first (σ := σ) pr (Spec.clientRest c).length
  cases c with
  | connect c => rw [show Spec.byte (Spec.clientFirst (.connect c)) = 0x10 from rfl, hb.1]; exact L.readConnect c hl hw
  | publish p =>
    have ht := publish_table p.dup p.message.retain p.message.qos
    simp only [Prod.mk.injEq] at ht
    have h3 : Spec.byte (Spec.publishFirst p) >>> 4 = 3 := ht.2.2.2
    have := L.readPublish pr p hl hs
    unfold decodeBody
    simp only [Spec.clientFirst, Spec.clientRest, Spec.meaning, h3]
    exact this
  | pubAck i =>
    rw [show Spec.byte (Spec.clientFirst (.pubAck i)) = 0x40 from rfl, hb.2.1]
    exact (L.readPacketId _ i).bind_nil (f := fun i => Pure.pure (ControlPacket.pubAck i)) (Reads.pure _)
  | pubRec i =>
    rw [show Spec.byte (Spec.clientFirst (.pubRec i)) = 0x50 from rfl, hb.2.2.1]
    exact (L.readPacketId _ i).bind_nil (f := fun i => Pure.pure (ControlPacket.pubRec i)) (Reads.pure _)
  | pubRel i =>
    rw [show Spec.byte (Spec.clientFirst (.pubRel i)) = 0x62 from rfl, hb.2.2.2.1]
    exact (L.readPacketId _ i).bind_nil (f := fun i => Pure.pure (ControlPacket.pubRel i)) (Reads.pure _)
  | pubComp i =>
    rw [show Spec.byte (Spec.clientFirst (.pubComp i)) = 0x70 from rfl, hb.2.2.2.2.1]
    exact (L.readPacketId _ i).bind_nil (f := fun i => Pure.pure (ControlPacket.pubComp i)) (Reads.pure _)
  | subscribe i fs =>
    rw [show Spec.byte (Spec.clientFirst (.subscribe i fs)) = 0x82 from rfl, hb.2.2.2.2.2.1]
    exact L.readSubscribe pr i fs hl
  | unsubscribe i fs =>
    rw [show Spec.byte (Spec.clientFirst (.unsubscribe i fs)) = 0xA2 from rfl, hb.2.2.2.2.2.2.1]
    exact L.readUnsubscribe pr i fs hl
  | pingReq => rw [show Spec.byte (Spec.clientFirst .pingReq) = 0xC0 from rfl, hb.2.2.2.2.2.2.2.1]; exact Reads.pure _
  | disconnect => rw [show Spec.byte (Spec.clientFirst .disconnect) = 0xE0 from rfl, hb.2.2.2.2.2.2.2.2]; exact Reads.pure _

omit L [ByteSource σ] in
/-- A length field of at most three bytes stands for at most 2097151. -/
theorem lengthField_bound {bs : List UInt8} {n : Nat} (h : Spec.LengthField bs n) : n < 128 ^ bs.length := by
  induction h with
  | last b h => simpa using h
  | more b bs n h hbs ih =>
    have := b.toNat_lt
    simp only [List.length_cons, Nat.pow_succ]
    omega

omit L [ByteSource σ] in
theorem lengthField_small {bs : List UInt8} {n : Nat} (h : Spec.LengthField bs n) (hb : bs.length ≤ 3) : n < 2097152 := by
  have h1 := lengthField_bound h
  have h2 : 128 ^ bs.length ≤ 128 ^ 3 := Nat.pow_le_pow_right (by omega) hb
  omega

/-- A legal client packet in the wire format, with a length field of at most three bytes, is decoded as what it means. -/
theorem readPacket (pr : Profile) (c : Spec.ClientPacket) (hl : Spec.Legal c) (hw : Spec.NoWill c) (lf : List UInt8)
    (hlf : Spec.LengthField lf (Spec.clientRest c).length) (hb : lf.length ≤ 3) :
    Reads total fin room (Decoder.readPacket pr)
      (Spec.packetWith lf (Spec.clientFirst c) (Spec.clientRest c)) (Spec.meaning c) := by
  have hs := lengthField_small hlf hb
  unfold Decoder.readPacket Spec.packetWith
  rw [List.cons_append]
  refine (L.readU8 _).bind ((L.readLength lf _ hlf hb).bind (L.readBody pr c hl hw ?_))
  unfold isizeMax
  omega

end SourceLaws

/-- The plain source is lawful, with unlimited room. -/
theorem Plain.laws : SourceLaws Plain Plain.bytes Plain.fin (fun _ _ => True) where
  avail _ := rfl
  getU8 s b r k h _ := ⟨⟨r, s.fin⟩, by simp [ByteSource.getU8, h], rfl, rfl, trivial⟩
  getU16 s hi lo r k h _ := ⟨⟨r, s.fin⟩, by simp [ByteSource.getU16, h], rfl, rfl, trivial⟩
  getBytes s bs r k h _ hi := by
    refine ⟨⟨r, s.fin⟩, ?_, rfl, rfl, trivial⟩
    have : ¬ bs.length > isizeMax := by omega
    simp [ByteSource.getBytes, h, this]

/-- The buffered stream is lawful as long as its capacity suffices. -/
theorem RStream.laws (al : Alloc) : @SourceLaws RStream (RStream.source al) RStream.total RStream.fin
    (fun s k => s.Wf ∧ k ≤ s.buf.cap) := by
  letI := RStream.source al
  constructor
  · intro s
    have := incoming_eq s
    simp only [ByteSource.avail]
    omega
  · intro s b r k h hr
    obtain ⟨s', h1, hc⟩ := getU8_ok al s hr.1 b r h
    have hb := hc.bytes
    rw [h] at hb
    have := hc.cap
    exact ⟨s', h1, by simpa using hb.symm, hc.fin, hc.wf, by simp at this; omega⟩
  · intro s hi lo r k h hr
    obtain ⟨s', h1, hc⟩ := getU16_ok al s hr.1 hi lo r h
    have hb := hc.bytes
    rw [h] at hb
    have := hc.cap
    exact ⟨s', h1, by simpa using hb.symm, hc.fin, hc.wf, by simp at this; omega⟩
  · intro s bs r k h hr hi
    obtain ⟨s', h1, hc⟩ := getBytesLoop_ok al s hr.1 bs.length [] (by omega) (by rw [h]; simp)
    have ht : s.total.take bs.length = bs := by rw [h]; simp
    rw [ht] at h1 hc
    have hb := hc.bytes
    rw [h] at hb
    have := hc.cap
    refine ⟨s', ?_, (List.append_cancel_left hb).symm, hc.fin, hc.wf, by omega⟩
    have : ¬ bs.length > isizeMax := by omega
    simp only [ByteSource.getBytes, RStream.getBytes, this, ↓reduceIte]
    exact h1

end Ratel
