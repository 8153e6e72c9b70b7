/-
Reading legal packets from a tape: exactly when they are read and when the reader spins.
-/
import Verif.Spec.Fields
import Verif.Proofs.Decoder
import Verif.Proofs.Window

namespace Ratel

open Spec (Field windows window)

theorem windows_append (T left : Nat) (fs gs : List Field) :
    windows T left (fs ++ gs) = (windows T left fs).bind fun l => windows T l gs := by
  induction fs generalizing left with
  | nil => rfl
  | cons f fs ih =>
    simp only [List.cons_append, windows]
    cases window T left f with
    | none => rfl
    | some l => simp [ih]

/-- `m` reads exactly `bs`, consisting of the fields `fs`, and returns `a` if every field fits; otherwise it spins. -/
def TReads (T : Nat) {α : Type} (m : M (Tape T) α) (bs : List UInt8) (fs : List Field) (a : α) : Prop :=
  ∀ r fin left,
    match windows T left fs with
    | some left' => m ⟨bs ++ r, fin, left⟩ = (.ok a, ⟨r, fin, left'⟩)
    | none => (m ⟨bs ++ r, fin, left⟩).1 = .hang

namespace TReads

variable {T : Nat} {α β : Type}

theorem bind {m : M (Tape T) α} {f : α → M (Tape T) β} {as bs : List UInt8} {fs gs : List Field} {a : α} {b : β}
    (hm : TReads T m as fs a) (hf : TReads T (f a) bs gs b) : TReads T (m >>= f) (as ++ bs) (fs ++ gs) b := by
  intro r fin left
  have h1 := hm (bs ++ r) fin left
  rw [windows_append]
  cases hw : windows T left fs with
  | none =>
    rw [hw] at h1
    simp only [Option.bind_none, List.append_assoc]
    rcases hms : m ⟨as ++ (bs ++ r), fin, left⟩ with ⟨x, t⟩
    rw [hms] at h1
    cases h1
    rw [M.bind_hang hms]
  | some l =>
    rw [hw] at h1
    simp only [Option.bind_some, List.append_assoc]
    rw [M.bind_ok h1]
    exact hf r fin l

theorem pure (a : α) : TReads T (Pure.pure a) [] [] a := fun _ _ _ => rfl

theorem bind_nil {m : M (Tape T) α} {f : α → M (Tape T) β} {as : List UInt8} {fs : List Field} {a : α} {b : β}
    (hm : TReads T m as fs a) (hf : TReads T (f a) [] [] b) : TReads T (m >>= f) as fs b := by
  have := hm.bind hf
  rwa [List.append_nil, List.append_nil] at this

theorem nil_bind {m : M (Tape T) α} {f : α → M (Tape T) β} {bs : List UInt8} {gs : List Field} {a : α} {b : β}
    (hm : TReads T m [] [] a) (hf : TReads T (f a) bs gs b) : TReads T (m >>= f) bs gs b := hm.bind (as := []) (fs := []) hf

theorem congr {m : M (Tape T) α} {bs : List UInt8} {fs gs : List Field} {a : α} (h : TReads T m bs fs a) (he : fs = gs) :
    TReads T m bs gs a := he ▸ h

open Decoder

theorem readU8 (b : UInt8) : TReads T ByteSource.getU8 [b] [.one] b := fun _ _ _ => rfl

theorem readU16 (n : UInt16) : TReads T ByteSource.getU16 (Spec.twoBytes n.toNat) [.two] n := by
  intro r fin left
  have h : (ByteSource.getU16 : M (Tape T) _) ⟨Spec.twoBytes n.toNat ++ r, fin, left⟩ = (.ok (u16OfBytes _ _), _) := rfl
  simp only [windows, window, Option.bind_some]
  rw [h, u16OfBytes_twoBytes]
  rfl

theorem readBytes (bs : List UInt8) (n : Nat) (hn : bs.length = n) (hi : n ≤ isizeMax) :
    TReads T (ByteSource.getBytes n) bs [.bytes n] bs := by
  subst hn
  intro r fin left
  have hbig : ¬ bs.length > isizeMax := by omega
  simp only [windows, window]
  by_cases h : bs.length ≤ left
  · simp [h, ByteSource.getBytes, hbig]
  · have h2 : left ≤ bs.length + r.length := by omega
    simp [h, ByteSource.getBytes, hbig, h2]

theorem readString (t : String) (h : Spec.Fits t) : TReads T getString (Spec.str t) (Spec.strFields t) t := by
  unfold Spec.Fits at h
  have hu := readU16 (T := T) (UInt16.ofNat (Spec.utf8 t).length)
  have hn : (UInt16.ofNat (Spec.utf8 t).length).toNat = (Spec.utf8 t).length := by simp; omega
  rw [hn] at hu
  unfold getString Spec.str Spec.strFields
  refine hu.bind (gs := [.bytes (Spec.utf8 t).length]) ?_
  rw [hn]
  refine (readBytes (Spec.utf8 t) _ rfl (by unfold isizeMax; omega)).bind_nil ?_
  rw [← strBytes_eq, fromUtf8_strBytes]
  exact TReads.pure _

theorem readStringIf (o : Option String) (h : ∀ t ∈ o, Spec.Fits t) :
    TReads T (getStringIf o.isSome) (Spec.optional Spec.str o) (o.elim [] Spec.strFields) o := by
  unfold getStringIf
  cases o with
  | none => exact TReads.pure _
  | some t => exact (readString t (h t rfl)).bind_nil (TReads.pure _)

theorem readSub (pr : Profile) (a b : Nat) (h : b ≤ a) : TReads T (subU64 pr a b) [] [] (a - b) := by
  intro r fin left
  show subU64 pr a b _ = _
  simp [subU64, h]

theorem readLengthLoop (rl mult : Nat) (hm : 0 < mult) (bs : List UInt8) (n : Nat) (h : Spec.LengthField bs n)
    (hb : mult * 128 ^ bs.length ≤ 128 ^ 3) :
    TReads T (decodeRemainingLengthLoop rl mult hm) bs (bs.map fun _ => Field.one) (rl + mult * n) := by
  induction h generalizing rl mult with
  | last b hlt =>
    rw [decodeRemainingLengthLoop]
    refine (readU8 b).bind_nil ?_
    have h1 : ¬ mult * 128 > 128 * 128 * 128 := by simp at hb; omega
    have h2 : b &&& 128 = 0 := (u8_and_128 b).mpr hlt
    simp only [h1, ↓reduceDIte, h2, ↓reduceIte, u8_and_127, Nat.mod_eq_of_lt hlt, Nat.mul_comm]
    exact TReads.pure _
  | more b bs n hge hbs ih =>
    rw [decodeRemainingLengthLoop]
    refine (readU8 b).bind (bs := bs) (gs := bs.map fun _ => Field.one) ?_
    have hpos : 1 ≤ 128 ^ bs.length := Nat.pow_pos (by omega)
    simp only [List.length_cons, Nat.pow_succ] at hb
    have hb' : mult * 128 * 128 ^ bs.length ≤ 128 ^ 3 := by
      rw [Nat.mul_assoc, Nat.mul_comm 128]; exact hb
    have h1 : ¬ mult * 128 > 128 * 128 * 128 := by
      have := Nat.le_mul_of_pos_right (mult * 128) hpos
      omega
    have h2 : ¬ b &&& 128 = 0 := fun h => by have := (u8_and_128 b).mp h; omega
    have hlt := b.toNat_lt
    simp only [h1, ↓reduceDIte, h2, ↓reduceIte, u8_and_127]
    have := ih (rl + b.toNat % 128 * mult) (mult * 128) (by omega) hb'
    have he : rl + b.toNat % 128 * mult + mult * 128 * n = rl + mult * (b.toNat - 128 + 128 * n) := by
      rw [show b.toNat % 128 = b.toNat - 128 by omega, Nat.mul_add, Nat.mul_assoc, Nat.mul_comm mult (b.toNat - 128)]
      omega
    rwa [he] at this

theorem readLength (bs : List UInt8) (n : Nat) (h : Spec.LengthField bs n) (hb : bs.length ≤ 3) :
    TReads T decodeRemainingLength bs (bs.map fun _ => Field.one) n := by
  have := readLengthLoop (T := T) 0 1 (by decide) bs n h (by
    rw [Nat.one_mul]; exact Nat.pow_le_pow_right (by omega) hb)
  unfold decodeRemainingLength
  simpa using this

theorem readPacketId (fb : UInt8) (i : UInt16) :
    TReads T (decodePacketWithPacketId fb fb) (Spec.twoBytes i.toNat) [.two] i := by
  unfold decodePacketWithPacketId validateFirstByte
  simp only [↓reduceIte]
  exact readU16 i

theorem readConnect (c : Spec.Connect) (hl : Spec.Legal (.connect c)) (hw : c.will = none) :
    TReads T decodeConnect (Spec.connectRest c) (Spec.restFields (.connect c)) (Spec.meaning (.connect c)) := by
  obtain ⟨hn, hi, hu, hp, _⟩ := hl
  have hf := SourceLaws.flags_table c.userName.isSome c.password.isSome c.cleanSession
  simp only [Prod.mk.injEq] at hf
  obtain ⟨hf1, hf2, hf3⟩ := hf
  have hfb : Spec.byte (Spec.connectFlags c)
      = Spec.byte ((if c.userName.isSome then 128 else 0) + (if c.password.isSome then 64 else 0) + 0
        + (if c.cleanSession then 2 else 0)) := by
    simp [Spec.connectFlags, hw]
  rw [← hfb] at hf1 hf2 hf3
  unfold decodeConnect
  have hr : Spec.connectRest c = Spec.str c.protocolName ++ ([c.protocolLevel] ++ ([Spec.byte (Spec.connectFlags c)]
      ++ (Spec.twoBytes c.keepAlive.toNat ++ (Spec.str c.clientId
      ++ (Spec.optional Spec.str c.userName ++ Spec.optional Spec.str c.password))))) := by
    simp [Spec.connectRest, hw, Spec.optional]
  have hfs : Spec.restFields (.connect c) = Spec.strFields c.protocolName ++ ([.one] ++ ([.one] ++ ([.two]
      ++ (Spec.strFields c.clientId ++ (c.userName.elim [] Spec.strFields ++ c.password.elim [] Spec.strFields))))) := by
    simp [Spec.restFields]
  rw [hr, hfs]
  refine (readString _ hn).bind ((readU8 _).bind ((readU8 _).bind ((readU16 _).bind ((readString _ hi).bind ?_))))
  rw [hf2, hf3]
  refine (readStringIf _ hu).bind ((readStringIf _ hp).bind_nil ?_)
  rw [hf1]
  simp only [Spec.meaning, hw]
  exact TReads.pure _

theorem readPublish (pr : Profile) (p : PublishPacket) (hl : Spec.LegalPublish p)
    (hs : (Spec.publishRest p).length ≤ isizeMax) :
    TReads T (decodePublish pr (Spec.byte (Spec.publishFirst p)) (Spec.publishRest p).length)
      (Spec.publishRest p) (Spec.restFields (.publish p)) (.publish p) := by
  have ht := SourceLaws.publish_table p.dup p.message.retain p.message.qos
  simp only [Prod.mk.injEq] at ht
  obtain ⟨h1, h2, h3, _⟩ := ht
  have hfb : Spec.byte (Spec.publishFirst p) = Spec.byte (48 + (if p.dup then 8 else 0) + 2 * Spec.qosNum p.message.qos
      + (if p.message.retain then 1 else 0)) := rfl
  rw [← hfb] at h1 h2 h3
  have hstr : (Spec.str p.message.topic).length = (Spec.utf8 p.message.topic).length + 2 := by
    simp [Spec.str, Spec.twoBytes]
  have hlen : (Spec.publishRest p).length = (Spec.utf8 p.message.topic).length + 2
      + (Spec.optional (fun i : UInt16 => Spec.twoBytes i.toNat) p.packetId).length + p.message.payload.length := by
    simp only [Spec.publishRest, List.length_append, hstr]
  unfold decodePublish
  simp only [h1, h2, h3]
  rw [hlen] at hs
  rw [hlen]
  unfold Spec.publishRest
  rw [show Spec.restFields (.publish p) = Spec.strFields p.message.topic ++ ((p.packetId.elim [] fun _ => [.two])
    ++ [.bytes p.message.payload.length]) by simp [Spec.restFields], List.append_assoc]
  refine (readString _ hl.topic).bind ?_
  refine (readSub pr _ _ ?_).nil_bind ?_
  · rw [strLen_eq]; omega
  refine (readSub pr _ _ ?_).nil_bind ?_
  · rw [strLen_eq]; omega
  have hid := hl.id
  rcases hp : p with ⟨pid, dup, msg⟩
  rw [hp] at hid hs
  have hid' : pid.isSome = true ↔ msg.qos ≠ .atMostOnce := hid
  clear hid
  unfold publishPacketId
  simp only
  simp only [] at hs
  cases pid with
  | none =>
    have hq : msg.qos = .atMostOnce := by
      cases h : msg.qos <;> simp [h] at hid' ⊢
    simp only [hq, QoS.gtAtMostOnce, Bool.false_eq_true, ↓reduceIte, Spec.optional, List.nil_append, List.length_nil,
      Option.elim_none] at hs ⊢
    refine (TReads.pure _).nil_bind ?_
    have he : (Spec.utf8 msg.topic).length + 2 + 0 + msg.payload.length - strLen msg.topic - 2 = msg.payload.length := by
      rw [strLen_eq]; omega
    dsimp only
    rw [he]
    refine (readBytes _ _ rfl (by omega)).bind_nil ?_
    have : msg = { topic := msg.topic, payload := msg.payload, qos := .atMostOnce, retain := msg.retain } := by
      rw [← hq]
    rw [← this]
    exact TReads.pure _
  | some i =>
    have hq : msg.qos.gtAtMostOnce = true := by
      cases h : msg.qos <;> simp [h, QoS.gtAtMostOnce] at hid' ⊢
    have h2 : (Spec.twoBytes i.toNat).length = 2 := rfl
    simp only [hq, ↓reduceIte]
    simp only [Spec.optional, h2, Option.elim_some] at hs ⊢
    have h4 : (Spec.utf8 msg.topic).length + 2 + 2 + msg.payload.length - strLen msg.topic - 2 - 2 = msg.payload.length := by
      rw [strLen_eq]; omega
    refine TReads.bind (a := (some i, msg.payload.length)) ?_ ?_
    · have := (readSub (T := T) pr
        ((Spec.utf8 msg.topic).length + 2 + 2 + msg.payload.length - strLen msg.topic - 2) 2
        (by rw [strLen_eq]; omega)).nil_bind (f := fun rl => ByteSource.getU16 >>= fun id => Pure.pure (some id, rl))
        ((readU16 i).bind_nil (TReads.pure _))
      rwa [h4] at this
    · refine (readBytes _ _ rfl ?_).bind_nil (TReads.pure _)
      omega

/-- The fields of the filters of a SUBSCRIBE. -/
def filterFields (fs : List (String × QoS)) : List Field := fs.flatMap fun (f, _) => Spec.strFields f ++ [.one]

theorem readSubscribeLoop (pr : Profile) (fs : List (String × QoS)) (hf : ∀ f ∈ fs, Spec.Fits f.1) (fuel : Nat)
    (hfuel : fs.length < fuel) (acc : List Subscription) :
    TReads T (subscribeLoop pr fuel (subscribePayload fs).length acc) (subscribePayload fs) (filterFields fs)
      (acc ++ fs.map fun (f, q) => { topic := f, qos := q }) := by
  induction fs generalizing fuel acc with
  | nil =>
    obtain ⟨fuel, rfl⟩ : ∃ n, fuel = n + 1 := ⟨fuel - 1, by simp at hfuel; omega⟩
    simp only [subscribePayload, List.flatMap_nil, List.length_nil, List.map_nil, List.append_nil, subscribeLoop]
    exact TReads.pure _
  | cons f fs ih =>
    obtain ⟨fuel, rfl⟩ : ∃ n, fuel = n + 1 := ⟨fuel - 1, by simp at hfuel; omega⟩
    obtain ⟨f, q⟩ := f
    have hpay : subscribePayload ((f, q) :: fs) = Spec.str f ++ ([Spec.byte (Spec.qosNum q)] ++ subscribePayload fs) := by
      simp [subscribePayload]
    have hfs : filterFields ((f, q) :: fs) = Spec.strFields f ++ ([.one] ++ filterFields fs) := by
      simp [filterFields]
    have hlen : (subscribePayload ((f, q) :: fs)).length = strLen f + 3 + (subscribePayload fs).length := by
      rw [hpay, List.length_append, List.length_append, SourceLaws.length_str]; simp; omega
    have hq := SourceLaws.qos_table q
    rw [hlen, hpay, hfs, subscribeLoop]
    have hpos : strLen f + 3 + (subscribePayload fs).length > 0 := by omega
    simp only [hpos, ↓reduceIte]
    refine (readString f (hf _ (List.mem_cons_self))).bind ((readU8 _).bind ?_)
    simp only [hq.1, ↓reduceIte]
    refine TReads.nil_bind (readSub pr _ _ (by omega)) ?_
    simp only [hq.2, Nat.add_sub_cancel_left]
    have := ih (fun g hg => hf g (List.mem_cons_of_mem _ hg)) fuel (by simp at hfuel; omega)
      (acc ++ [{ topic := f, qos := q }])
    simpa using this

theorem readUnsubscribeLoop (pr : Profile) (fs : List String) (hf : ∀ f ∈ fs, Spec.Fits f) (fuel : Nat)
    (hfuel : fs.length < fuel) (acc : List String) :
    TReads T (unsubscribeLoop pr fuel (fs.flatMap Spec.str).length acc) (fs.flatMap Spec.str) (fs.flatMap Spec.strFields)
      (acc ++ fs) := by
  induction fs generalizing fuel acc with
  | nil =>
    obtain ⟨fuel, rfl⟩ : ∃ n, fuel = n + 1 := ⟨fuel - 1, by simp at hfuel; omega⟩
    simp only [List.flatMap_nil, List.length_nil, List.append_nil, unsubscribeLoop]
    exact TReads.pure _
  | cons f fs ih =>
    obtain ⟨fuel, rfl⟩ : ∃ n, fuel = n + 1 := ⟨fuel - 1, by simp at hfuel; omega⟩
    have hlen : ((f :: fs).flatMap Spec.str).length = strLen f + 2 + (fs.flatMap Spec.str).length := by
      rw [List.flatMap_cons, List.length_append, SourceLaws.length_str]
    rw [hlen, unsubscribeLoop, List.flatMap_cons, List.flatMap_cons]
    have hpos : strLen f + 2 + (fs.flatMap Spec.str).length > 0 := by omega
    simp only [hpos, ↓reduceIte]
    refine (readString f (hf _ (List.mem_cons_self))).bind ?_
    refine TReads.nil_bind (readSub pr _ _ (by omega)) ?_
    simp only [Nat.add_sub_cancel_left]
    have := ih (fun g hg => hf g (List.mem_cons_of_mem _ hg)) fuel (by simp at hfuel; omega) (acc ++ [f])
    simpa using this

theorem readFuelled {α : Type} (m : Nat → M (Tape T) α) (bs : List UInt8) (fs : List Field) (a : α)
    (h : ∀ fuel, bs.length < fuel → TReads T (m fuel) bs fs a) :
    TReads T (fun s => m (ByteSource.avail s + 1) s) bs fs a := by
  intro r fin left
  refine h _ ?_ r fin left
  show bs.length < (bs ++ r).length + 1
  rw [List.length_append]
  omega

theorem readSubscribe (pr : Profile) (i : UInt16) (fs : List (String × QoS)) (hl : Spec.Legal (.subscribe i fs)) :
    TReads T (decodeSubscribe pr 0x82 (Spec.clientRest (.subscribe i fs)).length)
      (Spec.clientRest (.subscribe i fs)) (Spec.restFields (.subscribe i fs)) (Spec.meaning (.subscribe i fs)) := by
  obtain ⟨hne, hf⟩ := hl
  have hr : Spec.clientRest (.subscribe i fs) = Spec.twoBytes i.toNat ++ subscribePayload fs := rfl
  have hlen : (Spec.clientRest (.subscribe i fs)).length = 2 + (subscribePayload fs).length := by
    rw [hr, List.length_append]; rfl
  have hcount : fs.length ≤ (subscribePayload fs).length :=
    SourceLaws.length_le_flatMap _ (fun a => by simp) fs
  have hfs := List.length_pos_iff.mpr hne
  rw [hlen, hr]
  unfold decodeSubscribe
  refine (readPacketId _ i).bind (gs := filterFields fs) ?_
  refine TReads.nil_bind (readSub pr _ _ (by omega)) ?_
  rw [Nat.add_sub_cancel_left]
  have h0 : ¬ (subscribePayload fs).length = 0 := by omega
  simp only [h0, ↓reduceIte]
  refine TReads.bind_nil (a := fs.map fun (f, q) => { topic := f, qos := q }) ?_ (TReads.pure _)
  refine readFuelled (fun fuel => subscribeLoop pr fuel (subscribePayload fs).length []) _ _ _ fun fuel hfuel => ?_
  have := readSubscribeLoop (T := T) pr fs hf fuel (by omega) []
  simpa using this

theorem readUnsubscribe (pr : Profile) (i : UInt16) (fs : List String) (hl : Spec.Legal (.unsubscribe i fs)) :
    TReads T (decodeUnsubscribe pr 0xA2 (Spec.clientRest (.unsubscribe i fs)).length)
      (Spec.clientRest (.unsubscribe i fs)) (Spec.restFields (.unsubscribe i fs)) (Spec.meaning (.unsubscribe i fs)) := by
  obtain ⟨hne, hf⟩ := hl
  have hr : Spec.clientRest (.unsubscribe i fs) = Spec.twoBytes i.toNat ++ fs.flatMap Spec.str := rfl
  have hlen : (Spec.clientRest (.unsubscribe i fs)).length = 2 + (fs.flatMap Spec.str).length := by
    rw [hr, List.length_append]; rfl
  have hcount : fs.length ≤ (fs.flatMap Spec.str).length :=
    SourceLaws.length_le_flatMap _ (fun a => by rw [SourceLaws.length_str]; omega) fs
  have hfs := List.length_pos_iff.mpr hne
  rw [hlen, hr]
  unfold decodeUnsubscribe
  refine (readPacketId _ i).bind (gs := fs.flatMap Spec.strFields) ?_
  refine TReads.nil_bind (readSub pr _ _ (by omega)) ?_
  rw [Nat.add_sub_cancel_left]
  have h0 : ¬ (fs.flatMap Spec.str).length = 0 := by omega
  simp only [h0, ↓reduceIte]
  refine TReads.bind_nil (a := fs) ?_ (TReads.pure _)
  refine readFuelled (fun fuel => unsubscribeLoop pr fuel (fs.flatMap Spec.str).length []) _ _ _ fun fuel hfuel => ?_
  have := readUnsubscribeLoop (T := T) pr fs hf fuel (by omega) []
  simpa using this

theorem readBody (pr : Profile) (c : Spec.ClientPacket) (hl : Spec.Legal c) (hw : Spec.NoWill c)
    (hs : (Spec.clientRest c).length ≤ isizeMax) :
    TReads T (decodeBody pr (Spec.byte (Spec.clientFirst c)) (Spec.clientRest c).length)
      (Spec.clientRest c) (Spec.restFields c) (Spec.meaning c) := by
  have hb := SourceLaws.decodeBody_first (σ := Tape T) pr (Spec.clientRest c).length
  cases c with
  | connect c => rw [show Spec.byte (Spec.clientFirst (.connect c)) = 0x10 from rfl, hb.1]; exact readConnect c hl hw
  | publish p =>
    have ht := SourceLaws.publish_table p.dup p.message.retain p.message.qos
    simp only [Prod.mk.injEq] at ht
    have h3 : Spec.byte (Spec.publishFirst p) >>> 4 = 3 := ht.2.2.2
    have := readPublish (T := T) pr p hl hs
    unfold decodeBody
    simp only [Spec.clientFirst, Spec.clientRest, Spec.meaning, h3]
    exact this
  | pubAck i =>
    rw [show Spec.byte (Spec.clientFirst (.pubAck i)) = 0x40 from rfl, hb.2.1]
    exact (readPacketId _ i).bind_nil (f := fun i => Pure.pure (ControlPacket.pubAck i)) (TReads.pure _)
  | pubRec i =>
    rw [show Spec.byte (Spec.clientFirst (.pubRec i)) = 0x50 from rfl, hb.2.2.1]
    exact (readPacketId _ i).bind_nil (f := fun i => Pure.pure (ControlPacket.pubRec i)) (TReads.pure _)
  | pubRel i =>
    rw [show Spec.byte (Spec.clientFirst (.pubRel i)) = 0x62 from rfl, hb.2.2.2.1]
    exact (readPacketId _ i).bind_nil (f := fun i => Pure.pure (ControlPacket.pubRel i)) (TReads.pure _)
  | pubComp i =>
    rw [show Spec.byte (Spec.clientFirst (.pubComp i)) = 0x70 from rfl, hb.2.2.2.2.1]
    exact (readPacketId _ i).bind_nil (f := fun i => Pure.pure (ControlPacket.pubComp i)) (TReads.pure _)
  | subscribe i fs =>
    rw [show Spec.byte (Spec.clientFirst (.subscribe i fs)) = 0x82 from rfl, hb.2.2.2.2.2.1]
    exact readSubscribe pr i fs hl
  | unsubscribe i fs =>
    rw [show Spec.byte (Spec.clientFirst (.unsubscribe i fs)) = 0xA2 from rfl, hb.2.2.2.2.2.2.1]
    exact readUnsubscribe pr i fs hl
  | pingReq => rw [show Spec.byte (Spec.clientFirst .pingReq) = 0xC0 from rfl, hb.2.2.2.2.2.2.2.1]; exact TReads.pure _
  | disconnect => rw [show Spec.byte (Spec.clientFirst .disconnect) = 0xE0 from rfl, hb.2.2.2.2.2.2.2.2]; exact TReads.pure _

/-- A legal client packet is read if its fields fit the windows; otherwise the reader spins. -/
theorem readPacket (pr : Profile) (c : Spec.ClientPacket) (hl : Spec.Legal c) (hw : Spec.NoWill c)
    (hlf : Spec.LengthField (Spec.varInt (Spec.clientRest c).length) (Spec.clientRest c).length)
    (hb : (Spec.varInt (Spec.clientRest c).length).length ≤ 3) :
    TReads T (Decoder.readPacket pr) (Spec.packet (Spec.clientFirst c) (Spec.clientRest c)) (Spec.fields c)
      (Spec.meaning c) := by
  have hs := SourceLaws.lengthField_small hlf hb
  unfold Decoder.readPacket Spec.packet Spec.fields
  rw [List.cons_append, List.cons_append]
  refine (readU8 _).bind ((readLength _ _ hlf hb).bind (readBody pr c hl hw ?_))
  unfold isizeMax
  omega

end TReads

end Ratel
