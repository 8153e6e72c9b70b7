/-
Decoding from the buffered, fragmented stream gives what decoding from the plain byte list gives, or spins.
-/
import Verif.Model.Decoder
import Verif.Proofs.ReadStream

namespace Ratel

open RStream

/-- The stream and the byte list hold the same remaining bytes. -/
structure Rel (s : RStream) (p : Plain) : Prop where
  bytes : s.total = p.bytes
  fin : s.fin = p.fin
  wf : s.Wf

/-- `m` on the stream behaves as `m'` on the bytes, unless it spins, which is only possible if `H`. `J` is assumed of the
stream's buffer, `K` holds afterwards. -/
def Sim {α : Type} (J K : RStream → Prop) (H : Prop) (m : M RStream α) (m' : M Plain α) : Prop :=
  ∀ s p, Rel s p → J s →
    match m s with
    | (.ok a, s') => ∃ p', m' p = (.ok a, p') ∧ Rel s' p' ∧ K s'
    | (.err e, _) => ∃ p', m' p = (.err e, p')
    | (.panic, _) => ∃ p', m' p = (.panic, p')
    | (.pending, _) => ∃ p', m' p = (.pending, p')
    | (.hang, _) => H

/-- `J` survives reading, and excludes spinning unless `H`. -/
structure Closed (J : RStream → Prop) (H : Prop) : Prop where
  consumed : ∀ s bs s', Consumed s bs s' → J s → J s'
  hang : ∀ s, J s → s.buf.cap ≤ s.total.length → H

theorem closed_true : Closed (fun _ => True) True := ⟨fun _ _ _ _ _ => trivial, fun _ _ _ => trivial⟩

/-- Fewer bytes remain than the buffer can take. -/
def Small (s : RStream) : Prop := s.total.length < s.buf.cap

theorem closed_small : Closed Small False where
  consumed := by
    intro s bs s' h hs
    have h1 := h.cap
    have h2 := congrArg List.length h.bytes
    simp only [List.length_append] at h2
    unfold Small at *
    omega
  hang := by
    intro s hs h
    unfold Small at hs
    omega

/-- The allocation behind the buffer has `T` bytes. -/
def AllocIs (T : Nat) (s : RStream) : Prop := s.buf.off + s.buf.cap = T

theorem closed_alloc (T : Nat) (hT : 66 ≤ T) : Closed (AllocIs T) True :=
  ⟨fun _ _ _ h hs => h.alloc T hT hs, fun _ _ _ => trivial⟩

/-- `J`, and fewer than `k` bytes remain. -/
def Below (J : RStream → Prop) (k : Nat) (s : RStream) : Prop := J s ∧ s.total.length < k

theorem Closed.below {J : RStream → Prop} {H : Prop} (C : Closed J H) (k : Nat) : Closed (Below J k) H where
  consumed := by
    intro s bs s' h hs
    refine ⟨C.consumed _ _ _ h hs.1, ?_⟩
    have h2 := congrArg List.length h.bytes
    have h3 := hs.2
    simp only [List.length_append] at h2
    omega
  hang := fun s hs h => C.hang s hs.1 h

theorem avail_eq (al : Alloc) (s : RStream) :
    @ByteSource.avail _ (RStream.source al) s = s.total.length := by
  have := incoming_eq s
  simp only [ByteSource.avail]
  omega

theorem avail_rel (al : Alloc) {s : RStream} {p : Plain} (hr : Rel s p) :
    @ByteSource.avail _ (RStream.source al) s = ByteSource.avail p := by
  rw [avail_eq, hr.bytes]
  rfl

namespace Sim

variable {α β : Type} {J K L : RStream → Prop} {H : Prop}

theorem bind {m : M RStream α} {m' : M Plain α} {k : α → M RStream β} {k' : α → M Plain β} (h : Sim J K H m m')
    (hk : ∀ a, Sim K L H (k a) (k' a)) : Sim J L H (m >>= k) (m' >>= k') := by
  intro s p hr hj
  have h1 := h s p hr hj
  rw [M.bind_apply]
  rcases hm : m s with ⟨r, s₁⟩
  rw [hm] at h1
  cases r with
  | ok a =>
    obtain ⟨p₁, hp, hr₁, hj₁⟩ := h1
    rw [M.bind_ok hp]
    exact hk a s₁ p₁ hr₁ hj₁
  | err e => obtain ⟨p₁, hp⟩ := h1; exact ⟨p₁, M.bind_err hp⟩
  | panic => obtain ⟨p₁, hp⟩ := h1; exact ⟨p₁, M.bind_panic hp⟩
  | pending => obtain ⟨p₁, hp⟩ := h1; exact ⟨p₁, M.bind_pending hp⟩
  | hang => exact h1

theorem pure (a : α) : Sim J J H (Pure.pure a) (Pure.pure a) := fun _ p hr hj => ⟨p, rfl, hr, hj⟩

theorem fail (e : ErrKind) : Sim J K H (M.fail e : M RStream α) (M.fail e) := fun _ p _ _ => ⟨p, rfl⟩

theorem panic : Sim J K H (M.panic : M RStream α) M.panic := fun _ p _ _ => ⟨p, rfl⟩

theorem weaken {m : M RStream α} {m' : M Plain α} (h : Sim J K H m m') (hk : ∀ s, K s → L s) : Sim J L H m m' := by
  intro s p hr hj
  have := h s p hr hj
  rcases hm : m s with ⟨r, s₁⟩
  rw [hm] at this
  cases r with
  | ok a => obtain ⟨p', h1, h2, h3⟩ := this; exact ⟨p', h1, h2, hk _ h3⟩
  | err e => exact this
  | panic => exact this
  | pending => exact this
  | hang => exact this

theorem map {m : M RStream α} {m' : M Plain α} (f : α → β) (h : Sim J J H m m') : Sim J J H (f <$> m) (f <$> m') := by
  rw [M.map_eq_bind, M.map_eq_bind]
  exact h.bind fun _ => Sim.pure _

theorem endRes_short {s : RStream} {p : Plain} (hr : Rel s p) (s' : RStream) (m' : Res α × Plain)
    (h : m' = Plain.short p) :
    match ((endRes s.fin : Res α), s') with
    | (.ok a, s') => ∃ p', m' = (.ok a, p') ∧ Rel s' p' ∧ K s'
    | (.err e, _) => ∃ p', m' = (.err e, p')
    | (.panic, _) => ∃ p', m' = (.panic, p')
    | (.pending, _) => ∃ p', m' = (.pending, p')
    | (.hang, _) => H := by
  subst h
  have hf := hr.fin
  unfold Plain.short
  cases h : p.fin <;> rw [h] at hf <;> simp [hf, endRes]

theorem getU8 (al : Alloc) (C : Closed J H) : Sim J J H (RStream.getU8 al) (ByteSource.getU8 : M Plain UInt8) := by
  intro s p hr hj
  cases hb : p.bytes with
  | nil =>
    obtain ⟨s', h⟩ := getU8_short al s hr.wf (by rw [hr.bytes, hb]; simp)
    rw [h]
    exact endRes_short hr s' _ (by simp [ByteSource.getU8, hb])
  | cons b r =>
    obtain ⟨s', h, hc⟩ := getU8_ok al s hr.wf b r (by rw [hr.bytes, hb])
    rw [h]
    refine ⟨⟨r, p.fin⟩, by simp [ByteSource.getU8, hb], ⟨?_, hc.fin.trans hr.fin, hc.wf⟩, C.consumed _ _ _ hc hj⟩
    have := hc.bytes
    rw [hr.bytes, hb] at this
    simpa using this.symm

theorem getU8_below (al : Alloc) (C : Closed J H) (k : Nat) :
    Sim (Below J (k + 1)) (Below J k) H (RStream.getU8 al) (ByteSource.getU8 : M Plain UInt8) := by
  intro s p hr hj
  cases hb : p.bytes with
  | nil =>
    obtain ⟨s', h⟩ := getU8_short al s hr.wf (by rw [hr.bytes, hb]; simp)
    rw [h]
    exact endRes_short hr s' _ (by simp [ByteSource.getU8, hb])
  | cons b r =>
    obtain ⟨s', h, hc⟩ := getU8_ok al s hr.wf b r (by rw [hr.bytes, hb])
    rw [h]
    have hb' := hc.bytes
    refine ⟨⟨r, p.fin⟩, by simp [ByteSource.getU8, hb], ⟨?_, hc.fin.trans hr.fin, hc.wf⟩, C.consumed _ _ _ hc hj.1, ?_⟩
    · rw [hr.bytes, hb] at hb'
      simpa using hb'.symm
    · have h2 := congrArg List.length hb'
      have h3 := hj.2
      simp only [List.length_append, List.length_singleton] at h2
      omega

theorem getU16_below (al : Alloc) (C : Closed J H) (k : Nat) :
    Sim (Below J (k + 1)) (Below J k) H (RStream.getU16 al) (ByteSource.getU16 : M Plain UInt16) := by
  intro s p hr hj
  match hb : p.bytes with
  | [] =>
    obtain ⟨s', h⟩ := getU16_short al s hr.wf (by rw [hr.bytes, hb]; simp)
    rw [h]
    exact endRes_short hr s' _ (by simp [ByteSource.getU16, hb])
  | [_] =>
    obtain ⟨s', h⟩ := getU16_short al s hr.wf (by rw [hr.bytes, hb]; simp)
    rw [h]
    exact endRes_short hr s' _ (by simp [ByteSource.getU16, hb])
  | hi :: lo :: r =>
    obtain ⟨s', h, hc⟩ := getU16_ok al s hr.wf hi lo r (by rw [hr.bytes, hb])
    rw [h]
    have hb' := hc.bytes
    refine ⟨⟨r, p.fin⟩, by simp [ByteSource.getU16, hb], ⟨?_, hc.fin.trans hr.fin, hc.wf⟩, C.consumed _ _ _ hc hj.1, ?_⟩
    · rw [hr.bytes, hb] at hb'
      simpa using hb'.symm
    · have h2 := congrArg List.length hb'
      have h3 := hj.2
      simp only [List.length_append, List.length_cons, List.length_nil] at h2
      omega

theorem getU16 (al : Alloc) (C : Closed J H) : Sim J J H (RStream.getU16 al) (ByteSource.getU16 : M Plain UInt16) := by
  intro s p hr hj
  match hb : p.bytes with
  | [] =>
    obtain ⟨s', h⟩ := getU16_short al s hr.wf (by rw [hr.bytes, hb]; simp)
    rw [h]
    exact endRes_short hr s' _ (by simp [ByteSource.getU16, hb])
  | [_] =>
    obtain ⟨s', h⟩ := getU16_short al s hr.wf (by rw [hr.bytes, hb]; simp)
    rw [h]
    exact endRes_short hr s' _ (by simp [ByteSource.getU16, hb])
  | hi :: lo :: r =>
    obtain ⟨s', h, hc⟩ := getU16_ok al s hr.wf hi lo r (by rw [hr.bytes, hb])
    rw [h]
    refine ⟨⟨r, p.fin⟩, by simp [ByteSource.getU16, hb], ⟨?_, hc.fin.trans hr.fin, hc.wf⟩, C.consumed _ _ _ hc hj⟩
    have := hc.bytes
    rw [hr.bytes, hb] at this
    simpa using this.symm

theorem getBytes (al : Alloc) (C : Closed J H) (n : Nat) :
    Sim J J H (RStream.getBytes al n) (ByteSource.getBytes n : M Plain (List UInt8)) := by
  intro s p hr hj
  unfold RStream.getBytes
  by_cases hbig : n > isizeMax
  · simp only [hbig, ↓reduceIte]
    exact ⟨p, by simp [ByteSource.getBytes, hbig]⟩
  · simp only [hbig, ↓reduceIte]
    by_cases hcap : n ≤ s.buf.cap
    · by_cases ht : n ≤ s.total.length
      · obtain ⟨s', h, hc⟩ := getBytesLoop_ok al s hr.wf n [] hcap ht
        rw [h]
        have ht' : n ≤ p.bytes.length := by rw [← hr.bytes]; exact ht
        refine ⟨⟨p.bytes.drop n, p.fin⟩, ?_, ⟨?_, hc.fin.trans hr.fin, hc.wf⟩, C.consumed _ _ _ hc hj⟩
        · simp [ByteSource.getBytes, hbig, ht', hr.bytes]
        · have := hc.bytes
          rw [hr.bytes] at this
          conv at this => lhs; rw [← List.take_append_drop n p.bytes]
          exact (List.append_cancel_left this).symm
      · obtain ⟨s', h⟩ := getBytesLoop_short al s hr.wf n [] (by omega) (by omega)
        rw [h]
        refine endRes_short hr s' _ ?_
        have ht' : ¬ n ≤ p.bytes.length := by rw [← hr.bytes]; exact ht
        simp [ByteSource.getBytes, hbig, ht']
    · by_cases ht : s.buf.cap ≤ s.total.length
      · obtain ⟨s', h⟩ := getBytesLoop_hang al s hr.wf n [] (by omega) ht
        rw [h]
        exact C.hang s hj ht
      · obtain ⟨s', h⟩ := getBytesLoop_short al s hr.wf n [] (by omega) (by omega)
        rw [h]
        refine endRes_short hr s' _ ?_
        have ht' : ¬ n ≤ p.bytes.length := by rw [← hr.bytes]; omega
        simp [ByteSource.getBytes, hbig, ht']

section Decoder

open Decoder

variable (al : Alloc) (C : Closed J H)

include C

theorem getString : letI := RStream.source al; Sim J J H (Decoder.getString : M RStream String) (Decoder.getString : M Plain String) := by
  letI := RStream.source al
  unfold Decoder.getString
  refine (Sim.getU16 al C).bind fun n => (Sim.getBytes al C n.toNat).bind fun b => ?_
  cases fromUtf8 b with
  | none => exact Sim.fail _
  | some s => exact Sim.pure _

theorem getString_below (k : Nat) :
    letI := RStream.source al
    Sim (Below J (k + 1)) (Below J k) H (Decoder.getString : M RStream String) (Decoder.getString : M Plain String) := by
  letI := RStream.source al
  unfold Decoder.getString
  refine (Sim.getU16_below al C k).bind fun n => (Sim.getBytes al (C.below k) n.toNat).bind fun b => ?_
  cases fromUtf8 b with
  | none => exact Sim.fail _
  | some s => exact Sim.pure _

omit C in
theorem subU64 (pr : Profile) (a b : Nat) : Sim J J H (Decoder.subU64 pr a b : M RStream Nat) (Decoder.subU64 pr a b : M Plain Nat) := by
  intro s p hr hj
  unfold Decoder.subU64
  by_cases h : b ≤ a
  · simp [h, hr, hj]
  · by_cases ho : pr.overflowChecks = true
    · simp [h, ho]
    · simp [h, ho, hr, hj]

theorem remainingLengthLoop (rl mu : Nat) (hm : 0 < mu) :
    letI := RStream.source al
    Sim J J H (decodeRemainingLengthLoop rl mu hm : M RStream Nat) (decodeRemainingLengthLoop rl mu hm : M Plain Nat) := by
  letI := RStream.source al
  rw [decodeRemainingLengthLoop, decodeRemainingLengthLoop]
  refine (Sim.getU8 al C).bind fun b => ?_
  simp only
  split
  · exact Sim.fail _
  · split
    · exact Sim.pure _
    · exact remainingLengthLoop _ _ _
termination_by 128 * 128 * 128 + 1 - mu
decreasing_by omega

theorem remainingLength :
    letI := RStream.source al
    Sim J J H (decodeRemainingLength : M RStream Nat) (decodeRemainingLength : M Plain Nat) := remainingLengthLoop al C _ _ _

theorem withPacketId (a b : UInt8) :
    letI := RStream.source al
    Sim J J H (decodePacketWithPacketId a b : M RStream UInt16) (decodePacketWithPacketId a b : M Plain UInt16) := by
  letI := RStream.source al
  unfold decodePacketWithPacketId validateFirstByte
  refine Sim.bind ?_ fun _ => Sim.getU16 al C
  split
  · exact Sim.pure _
  · exact Sim.fail _

theorem getStringIf (c : Bool) :
    letI := RStream.source al
    Sim J J H (Decoder.getStringIf c : M RStream (Option String)) (Decoder.getStringIf c : M Plain (Option String)) := by
  letI := RStream.source al
  unfold Decoder.getStringIf
  split
  · exact (Sim.getString al C).bind fun _ => Sim.pure _
  · exact Sim.pure _

theorem connect :
    letI := RStream.source al
    Sim J J H (decodeConnect : M RStream ControlPacket) (decodeConnect : M Plain ControlPacket) := by
  letI := RStream.source al
  unfold decodeConnect
  refine (Sim.getString al C).bind fun _ => (Sim.getU8 al C).bind fun _ => (Sim.getU8 al C).bind fun fl => ?_
  refine (Sim.getU16 al C).bind fun _ => (Sim.getString al C).bind fun _ => ?_
  exact (Sim.getStringIf al C _).bind fun _ => (Sim.getStringIf al C _).bind fun _ => Sim.pure _

theorem publishPacketId (pr : Profile) (q : QoS) (rl : Nat) :
    letI := RStream.source al
    Sim J J H (Decoder.publishPacketId pr q rl : M RStream _) (Decoder.publishPacketId pr q rl : M Plain _) := by
  letI := RStream.source al
  unfold Decoder.publishPacketId
  split
  · exact (Sim.subU64 pr _ _).bind fun _ => (Sim.getU16 al C).bind fun _ => Sim.pure _
  · exact Sim.pure _

theorem publish (pr : Profile) (fb : UInt8) (rl : Nat) :
    letI := RStream.source al
    Sim J J H (decodePublish pr fb rl : M RStream ControlPacket) (decodePublish pr fb rl : M Plain ControlPacket) := by
  letI := RStream.source al
  unfold decodePublish
  cases QoS.fromBits ((fb &&& 0b00000110) >>> 1) with
  | none => exact Sim.panic
  | some q =>
    refine (Sim.getString al C).bind fun t => (Sim.subU64 pr _ _).bind fun _ => (Sim.subU64 pr _ _).bind fun _ => ?_
    exact (Sim.publishPacketId al C _ _ _).bind fun x => (Sim.getBytes al C _).bind fun _ => Sim.pure _

theorem subscribeLoop (pr : Profile) (fuel rl : Nat) (acc : List Subscription) :
    letI := RStream.source al
    Sim (Below J fuel) J H (Decoder.subscribeLoop pr fuel rl acc : M RStream _)
      (Decoder.subscribeLoop pr fuel rl acc : M Plain _) := by
  letI := RStream.source al
  induction fuel generalizing rl acc with
  | zero => intro s p hr hj; exact absurd hj.2 (by omega)
  | succ fuel ih =>
    unfold Decoder.subscribeLoop
    split
    · refine (Sim.getString al (C.below _)).bind fun t => (Sim.getU8_below al C fuel).bind fun q => ?_
      split
      · exact Sim.fail _
      · refine (Sim.subU64 pr _ _).bind fun _ => ?_
        cases QoS.fromBits q with
        | none => exact Sim.panic
        | some q => exact ih _ _
    · exact (Sim.pure _).weaken fun _ h => h.1

theorem subscribe (pr : Profile) (fb : UInt8) (rl : Nat) :
    letI := RStream.source al
    Sim J J H (decodeSubscribe pr fb rl : M RStream ControlPacket) (decodeSubscribe pr fb rl : M Plain ControlPacket) := by
  letI := RStream.source al
  unfold decodeSubscribe
  refine (Sim.withPacketId al C _ _).bind fun i => (Sim.subU64 pr _ _).bind fun n => ?_
  split
  · exact Sim.fail _
  · refine Sim.bind ?_ fun _ => Sim.pure _
    intro s p hr hj
    have h := Sim.subscribeLoop al C pr (ByteSource.avail s + 1) n [] s p hr ⟨hj, by rw [avail_eq al s]; omega⟩
    dsimp only
    rw [avail_rel al hr] at h ⊢
    exact h

theorem unsubscribeLoop (pr : Profile) (fuel rl : Nat) (acc : List String) :
    letI := RStream.source al
    Sim (Below J fuel) J H (Decoder.unsubscribeLoop pr fuel rl acc : M RStream _)
      (Decoder.unsubscribeLoop pr fuel rl acc : M Plain _) := by
  letI := RStream.source al
  induction fuel generalizing rl acc with
  | zero => intro s p hr hj; exact absurd hj.2 (by omega)
  | succ fuel ih =>
    unfold Decoder.unsubscribeLoop
    split
    · exact (Sim.getString_below al C fuel).bind fun t => (Sim.subU64 pr _ _).bind fun _ => ih _ _
    · exact (Sim.pure _).weaken fun _ h => h.1

theorem unsubscribe (pr : Profile) (fb : UInt8) (rl : Nat) :
    letI := RStream.source al
    Sim J J H (decodeUnsubscribe pr fb rl : M RStream ControlPacket)
      (decodeUnsubscribe pr fb rl : M Plain ControlPacket) := by
  letI := RStream.source al
  unfold decodeUnsubscribe
  refine (Sim.withPacketId al C _ _).bind fun i => (Sim.subU64 pr _ _).bind fun n => ?_
  split
  · exact Sim.fail _
  · refine Sim.bind ?_ fun _ => Sim.pure _
    intro s p hr hj
    have h := Sim.unsubscribeLoop al C pr (ByteSource.avail s + 1) n [] s p hr ⟨hj, by rw [avail_eq al s]; omega⟩
    dsimp only
    rw [avail_rel al hr] at h ⊢
    exact h

theorem body (pr : Profile) (fb : UInt8) (rl : Nat) :
    letI := RStream.source al
    Sim J J H (decodeBody pr fb rl : M RStream ControlPacket) (decodeBody pr fb rl : M Plain ControlPacket) := by
  letI := RStream.source al
  unfold decodeBody
  simp only
  split
  · exact Sim.connect al C
  split
  · exact Sim.publish al C _ _ _
  split
  · exact (Sim.withPacketId al C _ _).bind fun _ => Sim.pure _
  split
  · exact (Sim.withPacketId al C _ _).bind fun _ => Sim.pure _
  split
  · exact (Sim.withPacketId al C _ _).bind fun _ => Sim.pure _
  split
  · exact (Sim.withPacketId al C _ _).bind fun _ => Sim.pure _
  split
  · exact Sim.subscribe al C _ _ _
  split
  · exact Sim.unsubscribe al C _ _ _
  split
  · exact Sim.pure _
  split
  · exact Sim.pure _
  · exact Sim.panic

/-- Reading a packet from the stream and from the plain bytes. -/
theorem readPacket (pr : Profile) :
    letI := RStream.source al
    Sim J J H (Decoder.readPacket pr : M RStream ControlPacket) (Decoder.readPacket pr : M Plain ControlPacket) := by
  letI := RStream.source al
  unfold Decoder.readPacket
  exact (Sim.getU8 al C).bind fun _ => (Sim.remainingLength al C).bind fun _ => Sim.body al C _ _ _

end Decoder

end Sim

end Ratel
