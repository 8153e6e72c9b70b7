/-
Particular malformed packets, and messages larger than the read buffer.
-/
import Verif.Proofs.DecoderPanic
import Verif.Proofs.Sim

namespace Ratel

open Decoder

theorem checkedU64_bind {σ α : Type} {n : Nat} (h : n < 2 ^ 64) (f : Nat → M σ α) : (checkedU64 n >>= f) = f n := by
  funext s
  exact M.bind_ok (a := n) (s' := s) (by simp [checkedU64, h])

/-- Checking the arithmetic of the length loop makes no difference. -/
theorem checked_loop {σ : Type} [ByteSource σ] (rl mult : Nat) (hm : 0 < mult) (h1 : rl < mult) (h2 : mult ≤ 128 ^ 3) :
    (decodeRemainingLengthLoopChecked rl mult hm : M σ Nat) = decodeRemainingLengthLoop rl mult hm := by
  rw [decodeRemainingLengthLoopChecked, decodeRemainingLengthLoop]
  refine congrArg (ByteSource.getU8 >>= ·) (funext fun b => ?_)
  have hb : (b &&& 127).toNat < 128 := by rw [u8_and_127]; omega
  have hp : (b &&& 127).toNat * mult ≤ 127 * mult := Nat.mul_le_mul_right _ (by omega)
  rw [checkedU64_bind (by omega), checkedU64_bind (by omega), checkedU64_bind (by omega)]
  dsimp only
  split
  · rfl
  · split
    · rfl
    · exact checked_loop _ _ _ (by omega) (by omega)
termination_by 128 * 128 * 128 + 1 - mult
decreasing_by omega

/-- On the plain source: `m` reads `bs` and returns `a`. -/
abbrev PReads {α : Type} (m : M Plain α) (bs : List UInt8) (a : α) : Prop :=
  Reads Plain.bytes Plain.fin (fun _ _ => True) m bs a

theorem PReads.run {α : Type} {m : M Plain α} {bs : List UInt8} {a : α} (h : PReads m bs a) (r : List UInt8) (fin : Ending) :
    m ⟨bs ++ r, fin⟩ = (.ok a, ⟨r, fin⟩) := by
  obtain ⟨⟨b', f'⟩, h1, h2, h3, _⟩ := h ⟨bs ++ r, fin⟩ r 0 rfl trivial
  simp only at h2 h3
  rw [h1, h2, h3]

/-- A string field whose bytes are not UTF-8. -/
theorem getString_bad (bs : List UInt8) (hl : bs.length < 65536) (hb : fromUtf8 bs = none) (r : List UInt8) (fin : Ending) :
    getString (⟨Spec.twoBytes bs.length ++ bs ++ r, fin⟩ : Plain) = (.err .invalidData, ⟨r, fin⟩) := by
  unfold getString
  have hn : (UInt16.ofNat bs.length).toNat = bs.length := by simp; omega
  have hu : PReads ByteSource.getU16 (Spec.twoBytes bs.length) (UInt16.ofNat bs.length) := by
    have := Plain.laws.readU16 (UInt16.ofNat bs.length)
    rwa [hn] at this
  rw [List.append_assoc, M.bind_ok (hu.run (bs ++ r) fin), hn]
  have hg := (Plain.laws.readBytes bs bs.length rfl (by unfold isizeMax; omega))
  rw [M.bind_ok (PReads.run hg r fin), hb]
  rfl

/-- What is malformed about one entry of a SUBSCRIBE payload. -/
inductive BadFilter : List UInt8 → Prop
  | qos (t : String) (h : Spec.Fits t) (q : UInt8) (hq : 2 < q.toNat) : BadFilter (Spec.str t ++ [q])
  | utf8 (bs : List UInt8) (hl : bs.length < 65536) (hb : fromUtf8 bs = none) : BadFilter (Spec.twoBytes bs.length ++ bs)

theorem subscribeLoop_bad (pr : Profile) (fs : List (String × QoS)) (hf : ∀ f ∈ fs, Spec.Fits f.1) (bad : List UInt8)
    (hbad : BadFilter bad) (r : List UInt8) (fin : Ending) (fuel : Nat) (hfuel : fs.length < fuel) (n : Nat)
    (hn : (subscribePayload fs).length < n) (acc : List Subscription) :
    subscribeLoop pr fuel n acc (⟨subscribePayload fs ++ bad ++ r, fin⟩ : Plain) = (.err .invalidData, ⟨r, fin⟩) := by
  induction fs generalizing fuel acc n with
  | nil =>
    obtain ⟨fuel, rfl⟩ : ∃ n, fuel = n + 1 := ⟨fuel - 1, by simp at hfuel; omega⟩
    have hpos : n > 0 := by omega
    simp only [subscribePayload, List.flatMap_nil, List.nil_append, subscribeLoop, hpos, ↓reduceIte]
    cases hbad with
    | qos t ht q hq =>
      rw [List.append_assoc, M.bind_ok (PReads.run (Plain.laws.readString t ht) _ fin)]
      rw [M.bind_ok (PReads.run (Plain.laws.readU8 q) _ fin)]
      have : q > 2 := by
        rw [gt_iff_lt, UInt8.lt_iff_toNat_lt]; exact hq
      simp only [this, ↓reduceIte]
      rfl
    | utf8 bs hl hb => exact M.bind_err (getString_bad bs hl hb r fin)
  | cons f fs ih =>
    obtain ⟨fuel, rfl⟩ : ∃ n, fuel = n + 1 := ⟨fuel - 1, by simp at hfuel; omega⟩
    obtain ⟨f, q⟩ := f
    have hpay : subscribePayload ((f, q) :: fs) = Spec.str f ++ ([Spec.byte (Spec.qosNum q)] ++ subscribePayload fs) := by
      simp [subscribePayload]
    have hlen : (subscribePayload ((f, q) :: fs)).length = strLen f + 3 + (subscribePayload fs).length := by
      rw [hpay, List.length_append, List.length_append, SourceLaws.length_str]; simp; omega
    have hq := SourceLaws.qos_table q
    rw [hlen] at hn
    rw [hpay, subscribeLoop]
    have hpos : n > 0 := by omega
    simp only [hpos, ↓reduceIte, List.append_assoc]
    rw [M.bind_ok (PReads.run (Plain.laws.readString f (hf _ (List.mem_cons_self))) _ fin)]
    rw [M.bind_ok (PReads.run (Plain.laws.readU8 _) _ fin)]
    simp only [hq.1, ↓reduceIte]
    rw [M.bind_ok (s' := ⟨subscribePayload fs ++ (bad ++ r), fin⟩) (a := n - (strLen f + 3))
      (by simp [subU64, show strLen f + 3 ≤ n by omega])]
    simp only [hq.2]
    have := ih (fun g hg => hf g (List.mem_cons_of_mem _ hg)) fuel (by simp at hfuel; omega) (n - (strLen f + 3)) (by omega)
      (acc ++ [{ topic := f, qos := q }])
    rwa [List.append_assoc] at this

theorem unsubscribeLoop_bad (pr : Profile) (fs : List String) (hf : ∀ f ∈ fs, Spec.Fits f) (bad : List UInt8)
    (hl : bad.length < 65536) (hb : fromUtf8 bad = none) (r : List UInt8) (fin : Ending) (fuel : Nat) (hfuel : fs.length < fuel)
    (n : Nat) (hn : (fs.flatMap Spec.str).length < n) (acc : List String) :
    unsubscribeLoop pr fuel n acc (⟨fs.flatMap Spec.str ++ (Spec.twoBytes bad.length ++ bad) ++ r, fin⟩ : Plain)
      = (.err .invalidData, ⟨r, fin⟩) := by
  induction fs generalizing fuel acc n with
  | nil =>
    obtain ⟨fuel, rfl⟩ : ∃ n, fuel = n + 1 := ⟨fuel - 1, by simp at hfuel; omega⟩
    have hpos : n > 0 := by omega
    simp only [List.flatMap_nil, List.nil_append, unsubscribeLoop, hpos, ↓reduceIte]
    exact M.bind_err (getString_bad bad hl hb r fin)
  | cons f fs ih =>
    obtain ⟨fuel, rfl⟩ : ∃ n, fuel = n + 1 := ⟨fuel - 1, by simp at hfuel; omega⟩
    rw [List.flatMap_cons, List.length_append, SourceLaws.length_str] at hn
    rw [List.flatMap_cons, unsubscribeLoop]
    have hpos : n > 0 := by omega
    simp only [hpos, ↓reduceIte]
    rw [show Spec.str f ++ fs.flatMap Spec.str ++ (Spec.twoBytes bad.length ++ bad) ++ r
      = Spec.str f ++ (fs.flatMap Spec.str ++ (Spec.twoBytes bad.length ++ bad) ++ r) by simp only [List.append_assoc]]
    rw [M.bind_ok (PReads.run (Plain.laws.readString f (hf _ (List.mem_cons_self))) _ fin)]
    rw [M.bind_ok (s' := ⟨fs.flatMap Spec.str ++ (Spec.twoBytes bad.length ++ bad) ++ r, fin⟩) (a := n - (strLen f + 2))
      (by simp [subU64, show strLen f + 2 ≤ n by omega])]
    exact ih (fun g hg => hf g (List.mem_cons_of_mem _ hg)) fuel (by simp at hfuel; omega) (n - (strLen f + 2)) (by omega)
      (acc ++ [f])

/-- The fixed header of any packet. -/
theorem readPacket_header (pr : Profile) (first : UInt8) (lf : List UInt8) (n : Nat) (hlf : Spec.LengthField lf n)
    (hl : lf.length ≤ 3) (r : List UInt8) (fin : Ending) :
    readPacket pr (⟨first :: lf ++ r, fin⟩ : Plain) = decodeBody pr first n ⟨r, fin⟩ := by
  unfold readPacket
  rw [show first :: lf ++ r = [first] ++ (lf ++ r) by simp]
  rw [M.bind_ok (PReads.run (Plain.laws.readU8 first) _ fin), M.bind_ok (PReads.run (Plain.laws.readLength lf n hlf hl) _ fin)]

/-- A SUBSCRIBE with a malformed entry, whatever comes before it and after it. -/
theorem subscribe_bad (pr : Profile) (lf : List UInt8) (n : Nat) (hlf : Spec.LengthField lf n) (hl : lf.length ≤ 3) (i : UInt16)
    (fs : List (String × QoS)) (hf : ∀ f ∈ fs, Spec.Fits f.1) (bad : List UInt8) (hbad : BadFilter bad)
    (hn : 2 + (subscribePayload fs).length < n) (r : List UInt8) (fin : Ending) :
    readPacket pr (⟨0x82 :: lf ++ (Spec.twoBytes i.toNat ++ (subscribePayload fs ++ bad ++ r)), fin⟩ : Plain)
      = (.err .invalidData, ⟨r, fin⟩) := by
  rw [readPacket_header pr _ lf n hlf hl, (SourceLaws.decodeBody_first pr n).2.2.2.2.2.1]
  unfold decodeSubscribe
  rw [M.bind_ok (PReads.run (Plain.laws.readPacketId _ i) _ fin)]
  rw [M.bind_ok (s' := ⟨subscribePayload fs ++ bad ++ r, fin⟩) (a := n - 2) (by simp [subU64, show 2 ≤ n by omega])]
  have h0 : ¬ n - 2 = 0 := by omega
  simp only [h0, ↓reduceIte]
  have hcount : fs.length ≤ (subscribePayload fs).length := SourceLaws.length_le_flatMap _ (fun a => by simp) fs
  refine M.bind_err (subscribeLoop_bad pr fs hf bad hbad r fin _ ?_ (n - 2) (by omega) [])
  simp only [ByteSource.avail, List.length_append]
  omega

/-- An UNSUBSCRIBE with a filter that is not UTF-8. -/
theorem unsubscribe_bad (pr : Profile) (lf : List UInt8) (n : Nat) (hlf : Spec.LengthField lf n) (hl : lf.length ≤ 3) (i : UInt16)
    (fs : List String) (hf : ∀ f ∈ fs, Spec.Fits f) (bad : List UInt8) (hbl : bad.length < 65536) (hbad : fromUtf8 bad = none)
    (hn : 2 + (fs.flatMap Spec.str).length < n) (r : List UInt8) (fin : Ending) :
    readPacket pr (⟨0xA2 :: lf ++ (Spec.twoBytes i.toNat
        ++ (fs.flatMap Spec.str ++ (Spec.twoBytes bad.length ++ bad) ++ r)), fin⟩ : Plain)
      = (.err .invalidData, ⟨r, fin⟩) := by
  rw [readPacket_header pr _ lf n hlf hl, (SourceLaws.decodeBody_first pr n).2.2.2.2.2.2.1]
  unfold decodeUnsubscribe
  rw [M.bind_ok (PReads.run (Plain.laws.readPacketId _ i) _ fin)]
  rw [M.bind_ok (s' := ⟨fs.flatMap Spec.str ++ (Spec.twoBytes bad.length ++ bad) ++ r, fin⟩) (a := n - 2)
    (by simp [subU64, show 2 ≤ n by omega])]
  have h0 : ¬ n - 2 = 0 := by omega
  simp only [h0, ↓reduceIte]
  have hcount : fs.length ≤ (fs.flatMap Spec.str).length :=
    SourceLaws.length_le_flatMap _ (fun a => by rw [SourceLaws.length_str]; omega) fs
  refine M.bind_err (unsubscribeLoop_bad pr fs hf bad hbl hbad r fin _ ?_ (n - 2) (by omega) [])
  simp only [ByteSource.avail, List.length_append]
  omega

/-- SUBSCRIBE and UNSUBSCRIBE with nothing after the packet id. -/
theorem noPayload_bad (pr : Profile) (first : UInt8) (hfirst : first = 0x82 ∨ first = 0xA2) (lf : List UInt8)
    (hlf : Spec.LengthField lf 2) (hl : lf.length ≤ 3) (i : UInt16) (r : List UInt8) (fin : Ending) :
    readPacket pr (⟨first :: lf ++ (Spec.twoBytes i.toNat ++ r), fin⟩ : Plain) = (.err .invalidData, ⟨r, fin⟩) := by
  rw [readPacket_header pr _ lf 2 hlf hl]
  rcases hfirst with rfl | rfl
  · rw [(SourceLaws.decodeBody_first pr 2).2.2.2.2.2.1]
    unfold decodeSubscribe
    rw [M.bind_ok (PReads.run (Plain.laws.readPacketId _ i) _ fin)]
    rw [M.bind_ok (s' := ⟨r, fin⟩) (a := 0) (by simp [subU64])]
    rfl
  · rw [(SourceLaws.decodeBody_first pr 2).2.2.2.2.2.2.1]
    unfold decodeUnsubscribe
    rw [M.bind_ok (PReads.run (Plain.laws.readPacketId _ i) _ fin)]
    rw [M.bind_ok (s' := ⟨r, fin⟩) (a := 0) (by simp [subU64])]
    rfl

/-- A PUBLISH, QoS 0 to 2, whose topic is not UTF-8. -/
theorem publish_bad (pr : Profile) (first : UInt8) (ht : first.toNat / 16 = 3) (hq : first.toNat / 2 % 4 ≠ 3) (lf : List UInt8)
    (n : Nat) (hlf : Spec.LengthField lf n) (hl : lf.length ≤ 3) (bad : List UInt8) (hbl : bad.length < 65536)
    (hbad : fromUtf8 bad = none) (r : List UInt8) (fin : Ending) :
    readPacket pr (⟨first :: lf ++ (Spec.twoBytes bad.length ++ bad ++ r), fin⟩ : Plain) = (.err .invalidData, ⟨r, fin⟩) := by
  rw [readPacket_header pr _ lf n hlf hl]
  have h3 : first >>> 4 = 3 := UInt8.toNat_inj.mp (by rw [(first_table first).1, ht]; rfl)
  have hb : decodeBody (σ := Plain) pr first n = decodePublish pr first n := by
    unfold decodeBody
    simp only [h3]
    rfl
  rw [hb]
  unfold decodePublish
  cases hf : QoS.fromBits ((first &&& 0b00000110) >>> 1) with
  | none =>
    have := fromBits_none hf
    rw [(first_table first).2.2.2.2.2.2] at this
    omega
  | some q => exact M.bind_err (getString_bad bad hbl hbad r fin)

theorem Sim.ok {α : Type} {J K : RStream → Prop} {H : Prop} {m : M RStream α} {m' : M Plain α} (h : Sim J K H m m')
    {s : RStream} {p : Plain} (hr : Rel s p) (hj : J s) {a : α} {s' : RStream} (hm : m s = (.ok a, s')) :
    ∃ p', m' p = (.ok a, p') ∧ Rel s' p' ∧ K s' := by
  have := h s p hr hj
  rwa [hm] at this

/-- A message larger than the allocation behind the read buffer is never received: the reader spins. -/
theorem bigPublish_hang (al : Alloc) (pr : Profile) (T : Nat) (hT : 66 ≤ T) (q : PublishPacket) (hl : Spec.LegalPublish q)
    (lf : List UInt8) (hlf : Spec.LengthField lf (Spec.publishRest q).length) (hlen : lf.length ≤ 3)
    (hbig : T < q.message.payload.length) (s : RStream) (hw : s.Wf) (ha : AllocIs T s) (r : List UInt8)
    (ht : s.total = Spec.packetWith lf (Spec.publishFirst q) (Spec.publishRest q) ++ r) :
    letI := RStream.source al
    ∃ s', (readPacket pr : M RStream ControlPacket) s = (.hang, s') := by
  letI := RStream.source al
  have C := closed_alloc T hT
  have hsmall := SourceLaws.lengthField_small hlf hlen
  have hplain := PReads.run (Plain.laws.readPacket pr (.publish q) hl trivial lf hlf hlen) r s.fin
  have hr : Rel s ⟨Spec.packetWith lf (Spec.publishFirst q) (Spec.publishRest q) ++ r, s.fin⟩ := ⟨ht, rfl, hw⟩
  have hsim := Sim.readPacket al C pr s _ hr ha
  have hplain' : readPacket pr (⟨Spec.packetWith lf (Spec.publishFirst q) (Spec.publishRest q) ++ r, s.fin⟩ : Plain)
      = (.ok (.publish q), ⟨r, s.fin⟩) := hplain
  rw [hplain'] at hsim
  rcases hres : (readPacket pr : M RStream ControlPacket) s with ⟨res, s'⟩
  rw [hres] at hsim
  cases res with
  | hang => exact ⟨s', rfl⟩
  | err e => obtain ⟨_, h⟩ := hsim; simp at h
  | panic => obtain ⟨_, h⟩ := hsim; simp at h
  | pending => obtain ⟨_, h⟩ := hsim; simp at h
  | ok pkt =>
    exfalso
    unfold readPacket at hres
    obtain ⟨b, s₁, h1, hres⟩ := M.bind_eq_ok.mp hres
    obtain ⟨n, s₂, h2, hres⟩ := M.bind_eq_ok.mp hres
    obtain ⟨p₁, e1, r1, a1⟩ := (Sim.getU8 al C).ok hr ha h1
    have f1 := PReads.run (Plain.laws.readU8 (Spec.byte (Spec.publishFirst q))) (lf ++ Spec.publishRest q ++ r) s.fin
    rw [show Spec.packetWith lf (Spec.publishFirst q) (Spec.publishRest q) ++ r
      = [Spec.byte (Spec.publishFirst q)] ++ (lf ++ Spec.publishRest q ++ r) by simp [Spec.packetWith]] at e1
    rw [f1] at e1
    obtain ⟨rfl, rfl⟩ : Spec.byte (Spec.publishFirst q) = b ∧ _ = p₁ := by simpa using e1
    obtain ⟨p₂, e2, r2, a2⟩ := (Sim.remainingLength al C).ok r1 a1 h2
    rw [PReads.run (Plain.laws.readLength lf _ hlf hlen)] at e2
    obtain ⟨rfl, rfl⟩ : (Spec.publishRest q).length = n ∧ _ = p₂ := by simpa using e2
    have ht := SourceLaws.publish_table q.dup q.message.retain q.message.qos
    simp only [Prod.mk.injEq] at ht
    have h3 : Spec.byte (Spec.publishFirst q) >>> 4 = 3 := ht.2.2.2
    have h4 : QoS.fromBits ((Spec.byte (Spec.publishFirst q) &&& 6) >>> 1) = some q.message.qos := ht.2.2.1
    have hb : decodeBody (σ := RStream) pr (Spec.byte (Spec.publishFirst q)) (Spec.publishRest q).length
        = decodePublish pr (Spec.byte (Spec.publishFirst q)) (Spec.publishRest q).length := by
      unfold decodeBody
      simp only [h3]
      rfl
    rw [hb] at hres
    unfold decodePublish at hres
    simp only [h4] at hres
    obtain ⟨t, s₃, h5, hres⟩ := M.bind_eq_ok.mp hres
    obtain ⟨p₃, e3, r3, a3⟩ := (Sim.getString al C).ok r2 a2 h5
    have hrest : Spec.publishRest q ++ r = Spec.str q.message.topic
        ++ (Spec.optional (fun i : UInt16 => Spec.twoBytes i.toNat) q.packetId ++ q.message.payload ++ r) := by
      simp [Spec.publishRest]
    rw [hrest, PReads.run (Plain.laws.readString _ hl.topic)] at e3
    obtain ⟨rfl, rfl⟩ : q.message.topic = t ∧ _ = p₃ := by simpa using e3
    have hlr : (Spec.publishRest q).length = strLen q.message.topic + 2
        + (Spec.optional (fun i : UInt16 => Spec.twoBytes i.toNat) q.packetId).length + q.message.payload.length := by
      simp only [Spec.publishRest, List.length_append, SourceLaws.length_str]
    obtain ⟨n₁, s₄, h6, hres⟩ := M.bind_eq_ok.mp hres
    obtain ⟨rfl, rfl⟩ : (Spec.publishRest q).length - strLen q.message.topic = n₁ ∧ s₃ = s₄ := by
      unfold subU64 at h6
      rw [if_pos (by omega)] at h6
      simpa using h6
    obtain ⟨n₂, s₅, h7, hres⟩ := M.bind_eq_ok.mp hres
    obtain ⟨rfl, rfl⟩ : (Spec.publishRest q).length - strLen q.message.topic - 2 = n₂ ∧ s₃ = s₅ := by
      unfold subU64 at h7
      rw [if_pos (by omega)] at h7
      simpa using h7
    obtain ⟨⟨oi, n₃⟩, s₆, h8, hres⟩ := M.bind_eq_ok.mp hres
    obtain ⟨p₄, e4, r4, a4⟩ := (Sim.publishPacketId al C _ _ _).ok r3 a3 h8
    obtain ⟨bs, s₇, h9, hres⟩ := M.bind_eq_ok.mp hres
    -- what is asked for is more than the buffer will ever hold
    have hask : n₃ = q.message.payload.length ∧ q.message.payload.length ≤ p₄.bytes.length := by
      unfold publishPacketId at e4
      have hid := hl.id
      cases hp : q.packetId with
      | none =>
        have hq : q.message.qos = .atMostOnce := by
          cases h : q.message.qos <;> simp [h, hp] at hid ⊢
        rw [hp] at hlr e4
        simp only [Spec.optional, List.length_nil] at hlr
        simp only [hq, QoS.gtAtMostOnce, Bool.false_eq_true, ↓reduceIte, Spec.optional, List.nil_append] at e4
        obtain ⟨⟨_, rfl⟩, rfl⟩ : (none = oi ∧ _ = n₃) ∧ _ = p₄ := by simpa using e4
        refine ⟨by omega, ?_⟩
        simp
      | some i =>
        have hq : q.message.qos.gtAtMostOnce = true := by
          cases h : q.message.qos <;> simp [h, hp, QoS.gtAtMostOnce] at hid ⊢
        rw [hp] at hlr e4
        simp only [Spec.optional, show (Spec.twoBytes i.toNat).length = 2 from rfl] at hlr
        simp only [hq, ↓reduceIte, Spec.optional] at e4
        obtain ⟨n₄, p₅, g1, e4⟩ := M.bind_eq_ok.mp e4
        unfold subU64 at g1
        rw [if_pos (by omega)] at g1
        obtain ⟨rfl, rfl⟩ : _ = n₄ ∧ _ = p₅ := by simpa using g1
        obtain ⟨j, p₆, g2, e4⟩ := M.bind_eq_ok.mp e4
        rw [PReads.run (Plain.laws.readU16 i)] at g2
        obtain ⟨rfl, rfl⟩ : i = j ∧ _ = p₆ := by simpa using g2
        obtain ⟨⟨_, rfl⟩, rfl⟩ : (some i = oi ∧ _ = n₃) ∧ _ = p₄ := by simpa using e4
        refine ⟨by omega, ?_⟩
        simp
    obtain ⟨rfl, hav⟩ := hask
    have hcap : s₆.buf.cap ≤ T := by unfold AllocIs at a4; omega
    have htot : q.message.payload.length ≤ s₆.total.length := by rw [r4.bytes]; exact hav
    obtain ⟨s₈, h10⟩ := RStream.getBytesLoop_hang al s₆ r4.wf q.message.payload.length [] (by omega) (by omega)
    have hi : ¬ q.message.payload.length > isizeMax := by unfold isizeMax; omega
    have h9 : RStream.getBytes al q.message.payload.length s₆ = (.ok bs, s₇) := h9
    unfold RStream.getBytes at h9
    rw [if_neg hi, h10] at h9
    simp at h9

end Ratel
