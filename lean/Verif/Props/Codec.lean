/-
C01–C12: what the wire format promises of the packet encoder and decoder. The format itself is in Spec/Wire.
-/
import Verif.Proofs.Reject
import Verif.Proofs.VarInt
import Verif.Proofs.Encoder

namespace Ratel

open Decoder Encoder

/-! ### Vocabulary -/

/-- What writing a packet into an unbounded list of bytes gives. -/
def encoded (p : ControlPacket) : Res Unit × List UInt8 :=
  letI := listSink
  (writePacket p : M (List UInt8) Unit) []

/-- What reading one packet from the given bytes gives: the outcome, and the bytes left. -/
def decoded (pr : Profile) (bytes : List UInt8) (fin : Ending) : Res ControlPacket × Plain := readPacket pr ⟨bytes, fin⟩

/-- What reading a length field from the given bytes gives. -/
def decodedLength (bytes : List UInt8) (fin : Ending) : Res Nat × Plain := decodeRemainingLength ⟨bytes, fin⟩

/-- Reading `k` packets in a row. -/
def readMany {σ : Type} [ByteSource σ] (pr : Profile) : Nat → M σ (List ControlPacket)
  | 0 => pure []
  | k + 1 => do
    let p ← readPacket pr
    let ps ← readMany pr k
    pure (p :: ps)

/-- Bytes the server's length encoder produces. -/
def encodedLength (n : Nat) : Res Unit × List UInt8 :=
  letI := listSink
  (encodeRemainingLength n : M (List UInt8) Unit) []

theorem encoded_eq (p : ControlPacket) (hp : Spec.ServerPacket p) (bs : List UInt8) (hbs : Spec.serverBytes p = some bs) :
    encoded p = (.ok (), bs) := by
  letI := listSink
  have h := listSink_laws.writePacket p hp bs hbs [] trivial
  show (writePacket p : M (List UInt8) Unit) [] = _
  rcases hw : (writePacket p : M (List UInt8) Unit) [] with ⟨r, s⟩
  rw [hw] at h
  cases r with
  | ok _ => simp only [id, List.nil_append, and_true] at h; rw [h]
  | err _ => exact h.2.elim
  | pending => exact h.2.elim
  | panic => exact h.elim
  | hang => exact h.elim

theorem encodedLength_eq (n : Nat) : encodedLength n = (.ok (), Spec.varInt n) := by
  letI := listSink
  have h := listSink_laws.remainingLength n [] trivial
  show (encodeRemainingLength n : M (List UInt8) Unit) [] = _
  rcases hw : (encodeRemainingLength n : M (List UInt8) Unit) [] with ⟨r, s⟩
  rw [hw] at h
  cases r with
  | ok _ => simp only [id, List.nil_append, and_true] at h; rw [h]
  | err _ => exact h.2.elim
  | pending => exact h.2.elim
  | panic => exact h.elim
  | hang => exact h.elim

/-! ### C01 -/

/-- C01. A length below 2^21 written by the server is read back, and nothing after it is touched. -/
theorem C01_length_round_trip (n : Nat) (h : n < 2097152) (rest : List UInt8) (fin : Ending) :
    ∃ bs, encodedLength n = (.ok (), bs) ∧ decodedLength (bs ++ rest) fin = (.ok n, ⟨rest, fin⟩) :=
  ⟨_, encodedLength_eq n,
    PReads.run (Plain.laws.readLength _ n (lengthField_varInt n) (length_varInt_small h)) rest fin⟩

example : encodedLength 321 = (.ok (), [193, 2]) := by rw [encodedLength_eq, Spec.varInt, Spec.varInt]; rfl
example : ∃ bs, encodedLength 2097151 = (.ok (), bs) ∧ decodedLength (bs ++ [7]) .eof = (.ok 2097151, ⟨[7], .eof⟩) :=
  C01_length_round_trip _ (by decide) _ _

/-! ### C02 -/

/-- C02. Reading a length field: the value of a field of one to three bytes, at most 2097151; or four bytes are used up and the
field is rejected; or the stream ended within the first three bytes of a field. -/
theorem C02_length_bounded (bytes : List UInt8) (fin : Ending) :
    (∃ lf n r, bytes = lf ++ r ∧ Spec.LengthField lf n ∧ 1 ≤ lf.length ∧ lf.length ≤ 3 ∧ n ≤ 2097151
      ∧ decodedLength bytes fin = (.ok n, ⟨r, fin⟩))
    ∨ (∃ f r, bytes = f ++ r ∧ f.length = 4 ∧ decodedLength bytes fin = (.err .invalidData, ⟨r, fin⟩))
    ∨ (bytes.length ≤ 3 ∧ (∀ b ∈ bytes, 128 ≤ b.toNat) ∧
        decodedLength bytes fin = (match fin with
          | .eof => .err .connectionReset
          | .ioError => .err .other
          | .silence => .pending, ⟨[], fin⟩)) := by
  rcases decodeLength_cases bytes fin with ⟨lf, n, r, h1, h2, h3, h4, h5⟩ | ⟨b₀, b₁, b₂, b₃, r, h1, _, _, _, h5⟩ | ⟨h1, h2, h3⟩
  · have := SourceLaws.lengthField_small h2 h4
    exact .inl ⟨lf, n, r, h1, h2, h3, h4, by omega, h5⟩
  · exact .inr (.inl ⟨[b₀, b₁, b₂, b₃], r, by simp [h1], rfl, h5⟩)
  · refine .inr (.inr ⟨h1, h2, ?_⟩)
    unfold decodedLength
    rw [h3]
    cases fin <;> rfl

/-- C02. No `u64` operation of the length decoder ever overflows: checking every one of them for overflow makes no difference, on
any byte source. -/
theorem C02_length_no_overflow {σ : Type} [ByteSource σ] :
    (decodeRemainingLengthLoopChecked 0 1 (by decide) : M σ Nat) = decodeRemainingLength :=
  checked_loop 0 1 _ (by decide) (by decide)

example : decodedLength [0xFF, 0xFF, 0x7F, 9] .eof = (.ok 2097151, ⟨[9], .eof⟩) :=
  PReads.run (Plain.laws.readLength [0xFF, 0xFF, 0x7F] 2097151
    (.more 0xFF _ _ (by decide) (.more 0xFF _ _ (by decide) (.last 0x7F (by decide)))) (by decide)) [9] .eof

/-! ### C03 -/

/-- C03 is violated: every length that needs four bytes, though legal, is rejected. -/
theorem C03_lengths_accepted_fails (n : Nat) (h1 : 2097152 ≤ n) (h2 : n ≤ 268435455) (rest : List UInt8) (fin : Ending) :
    decodedLength (Spec.varInt n ++ rest) fin = (.err .invalidData, ⟨rest, fin⟩) := by
  obtain ⟨b₀, b₁, b₂, b₃, hv, g0, g1, g2⟩ := varInt_four h1 h2
  rw [hv]
  unfold decodedLength decodeRemainingLength
  simp only [List.cons_append, List.nil_append]
  rw [lengthLoop_step]
  simp only [show ¬ b₀.toNat < 128 by omega, ↓reduceIte, show ¬ 1 * 128 > 128 * 128 * 128 by omega]
  rw [lengthLoop_step]
  simp only [show ¬ b₁.toNat < 128 by omega, ↓reduceIte, show ¬ 1 * 128 * 128 > 128 * 128 * 128 by omega]
  rw [lengthLoop_step]
  simp only [show ¬ b₂.toNat < 128 by omega, ↓reduceIte, show ¬ 1 * 128 * 128 * 128 > 128 * 128 * 128 by omega]
  rw [lengthLoop_step]
  simp

/-- C03, the part that holds: lengths below 2^21, minimally encoded or with redundant bytes. Missing: the rest of the legal range,
up to 268435455. -/
theorem C03_lengths_accepted_partial (n : Nat) (_h : n < 2097152) (lf : List UInt8) (hlf : Spec.LengthField lf n) (hl : lf.length ≤ 3)
    (rest : List UInt8) (fin : Ending) : decodedLength (lf ++ rest) fin = (.ok n, ⟨rest, fin⟩) :=
  PReads.run (Plain.laws.readLength _ n hlf hl) rest fin

example : decodedLength (Spec.varInt 2097152 ++ []) .eof = (.err .invalidData, ⟨[], .eof⟩) :=
  C03_lengths_accepted_fails _ (by decide) (by decide) _ _
example : Spec.varInt 268435455 = [0xFF, 0xFF, 0xFF, 0x7F] := by
  rw [Spec.varInt, Spec.varInt, Spec.varInt, Spec.varInt]; rfl

/-! ### C04 -/

/-- C04. What the server writes for a packet is exactly the byte string the standard prescribes. -/
theorem C04_wire_format (p : ControlPacket) (hp : Spec.ServerPacket p) :
    ∃ bs, Spec.serverBytes p = some bs ∧ encoded p = (.ok (), bs) := by
  cases p with
  | publish q => exact ⟨_, rfl, encoded_eq _ hp _ rfl⟩
  | connAck | pubAck | pubRec | pubRel | pubComp | subAck | unsubAck | pingResp => exact ⟨_, rfl, encoded_eq _ hp _ rfl⟩
  | connect | subscribe | unsubscribe | pingReq | disconnect => exact hp.elim

/-- A PUBLISH used as a concrete case: topic "a/b", payload 01 02, QoS 1, retain, packet id 258. -/
def samplePublish : PublishPacket :=
  { packetId := some 258, dup := false, message := { topic := "a/b", payload := [1, 2], qos := .atLeastOnce, retain := true } }

theorem samplePublish_legal : Spec.LegalPublish samplePublish := ⟨by decide +kernel, by decide⟩

example : Spec.serverBytes (.publish samplePublish) = some [0x33, 9, 0, 3, 0x61, 0x2F, 0x62, 1, 2, 1, 2] := by
  decide +kernel
example : encoded (.subAck { packetId := 10, returnCodes := [.successQoS0, .failure] })
    = (.ok (), [0x90, 4, 0, 10, 0, 0x80]) := by
  obtain ⟨bs, h1, h2⟩ := C04_wire_format (.subAck { packetId := 10, returnCodes := [.successQoS0, .failure] }) trivial
  rw [h2]
  cases h1
  decide +kernel

/-! ### C05 -/

theorem decoded_publish (pr : Profile) (p : PublishPacket) (hp : Spec.LegalPublish p)
    (hs : (Spec.publishRest p).length < 2097152) (rest : List UInt8) (fin : Ending) :
    decoded pr (Spec.packet (Spec.publishFirst p) (Spec.publishRest p) ++ rest) fin = (.ok (.publish p), ⟨rest, fin⟩) :=
  PReads.run (Plain.laws.readPacket pr (.publish p) hp trivial (Spec.varInt _) (lengthField_varInt _) (length_varInt_small hs))
    rest fin

/-- C05. A PUBLISH written by the server is read back unchanged, whatever follows it. -/
theorem C05_publish_round_trip (pr : Profile) (p : PublishPacket) (hp : Spec.LegalPublish p)
    (hs : (Spec.publishRest p).length < 2097152) (rest : List UInt8) (fin : Ending) :
    ∃ bs, encoded (.publish p) = (.ok (), bs) ∧ decoded pr (bs ++ rest) fin = (.ok (.publish p), ⟨rest, fin⟩) :=
  ⟨_, encoded_eq (.publish p) hp _ rfl, decoded_publish pr p hp hs rest fin⟩

example : Spec.LegalPublish samplePublish ∧ (Spec.publishRest samplePublish).length < 2097152 :=
  ⟨samplePublish_legal, by decide +kernel⟩

/-! ### C06 -/

/-- C06. Whatever bytes were accepted as a PUBLISH, what the server writes for it decodes to the same PUBLISH; and if the length
field received was minimal, the bytes written are the bytes received. -/
theorem C06_relay_faithful (pr : Profile) (bytes : List UInt8) (fin : Ending) (p : PublishPacket) (p' : Plain)
    (h : decoded pr bytes fin = (.ok (.publish p), p')) :
    ∃ first lf body bs, bytes = first :: lf ++ body ++ p'.bytes ∧ Spec.LengthField lf body.length
      ∧ encoded (.publish p) = (.ok (), bs)
      ∧ (∀ pr' rest fin', decoded pr' (bs ++ rest) fin' = (.ok (.publish p), ⟨rest, fin'⟩))
      ∧ (lf = Spec.varInt body.length → bs = first :: lf ++ body) := by
  obtain ⟨first, lf, n, body, hlf, hl, ht, hw, hf⟩ := readPacket_took h
  obtain rfl := hf trivial
  obtain ⟨h1, rfl, h3⟩ := hw
  have hs := SourceLaws.lengthField_small hlf hl
  refine ⟨first, lf, _, _, ?_, hlf, encoded_eq (.publish p) h3 _ rfl, fun pr' rest fin' => decoded_publish pr' p h3 hs rest fin', ?_⟩
  · exact ht.bytes
  · intro hm
    have : Spec.byte (Spec.publishFirst p) = first := by
      apply UInt8.toNat_inj.mp
      rw [← h1, byteNat (by have := first.toNat_lt; omega)]
    rw [hm]
    unfold Spec.packet
    rw [this]

/-- A non-minimal length field is accepted and relayed minimally. -/
example : decoded ⟨true⟩ ([0x33, 0x89, 0, 0, 3, 0x61, 0x2F, 0x62, 1, 2, 1, 2] ++ []) .eof = (.ok (.publish samplePublish), ⟨[], .eof⟩) :=
  PReads.run (Plain.laws.readPacket ⟨true⟩ (.publish samplePublish) samplePublish_legal trivial [0x89, 0]
    (.more 0x89 _ _ (by decide) (.last 0 (by decide))) (by decide)) [] .eof

/-! ### C07 -/

/-- C07. A legal client packet (CONNECT without will) in the prescribed layout is decoded as what it means, and exactly the bytes
after it are left. -/
theorem C07_client_packets (pr : Profile) (c : Spec.ClientPacket) (hl : Spec.Legal c) (hw : Spec.NoWill c)
    (hs : (Spec.clientRest c).length < 2097152) (rest : List UInt8) (fin : Ending) :
    decoded pr (Spec.packet (Spec.clientFirst c) (Spec.clientRest c) ++ rest) fin = (.ok (Spec.meaning c), ⟨rest, fin⟩) :=
  PReads.run (Plain.laws.readPacket pr c hl hw (Spec.varInt _) (lengthField_varInt _) (length_varInt_small hs)) rest fin

/-- A CONNECT with user name and password. -/
def sampleConnect : Spec.Connect :=
  { protocolName := "MQTT", protocolLevel := 4, cleanSession := true, keepAlive := 60, clientId := "c1", will := none
    userName := some "u", password := some "pw" }

example : Spec.Legal (.connect sampleConnect) ∧ Spec.NoWill (.connect sampleConnect)
    ∧ (Spec.clientRest (.connect sampleConnect)).length < 2097152 := by
  refine ⟨⟨?_, ?_, ?_, ?_, ?_⟩, rfl, by decide +kernel⟩ <;> simp only [sampleConnect, Spec.Fits] <;> decide +kernel

example : Spec.packet 0x10 (Spec.clientRest (.connect sampleConnect))
    = [0x10, 21, 0, 4, 0x4D, 0x51, 0x54, 0x54, 4, 0xC2, 0, 60, 0, 2, 0x63, 0x31, 0, 1, 0x75, 0, 2, 0x70, 0x77] := by
  decide +kernel

example : Spec.Legal (.subscribe 1 [("a/+", .atLeastOnce), ("#", .atMostOnce)]) := by
  refine ⟨by decide, ?_⟩
  unfold Spec.Fits
  decide +kernel

/-! ### C08 -/

/-- C08. The bytes of any sequence of such packets, back to back, decode to exactly that sequence. -/
theorem C08_framing (pr : Profile) (cs : List Spec.ClientPacket)
    (hc : ∀ c ∈ cs, Spec.Legal c ∧ Spec.NoWill c ∧ (Spec.clientRest c).length < 2097152) (rest : List UInt8) (fin : Ending) :
    (readMany pr cs.length : M Plain _)
        ⟨(cs.flatMap fun c => Spec.packet (Spec.clientFirst c) (Spec.clientRest c)) ++ rest, fin⟩
      = (.ok (cs.map Spec.meaning), ⟨rest, fin⟩) := by
  induction cs with
  | nil => rfl
  | cons c cs ih =>
    obtain ⟨h1, h2, h3⟩ := hc c List.mem_cons_self
    have hd := C07_client_packets pr c h1 h2 h3
      ((cs.flatMap fun c => Spec.packet (Spec.clientFirst c) (Spec.clientRest c)) ++ rest) fin
    unfold decoded at hd
    simp only [List.length_cons, readMany, List.flatMap_cons, List.append_assoc]
    rw [M.bind_ok hd, M.bind_ok (ih fun c h => hc c (List.mem_cons_of_mem _ h))]
    rfl

example : ∀ c ∈ [Spec.ClientPacket.connect sampleConnect, .pingReq, .publish samplePublish, .disconnect],
    Spec.Legal c ∧ Spec.NoWill c ∧ (Spec.clientRest c).length < 2097152 := by
  intro c hc
  simp only [List.mem_cons, List.not_mem_nil, or_false] at hc
  rcases hc with rfl | rfl | rfl | rfl
  · refine ⟨⟨?_, ?_, ?_, ?_, ?_⟩, rfl, by decide +kernel⟩ <;> simp only [sampleConnect, Spec.Fits] <;> decide +kernel
  · exact ⟨trivial, trivial, by decide⟩
  · exact ⟨samplePublish_legal, trivial, by decide +kernel⟩
  · exact ⟨trivial, trivial, by decide⟩

/-! ### C09 -/

/-- C09 is violated: no CONNECT that carries a will is ever decoded as what it means. -/
theorem C09_will_decoded_fails (pr : Profile) (c : Spec.Connect) (hw : c.will ≠ none) (lf : List UInt8) (rest : List UInt8)
    (fin : Ending) :
    (decoded pr (Spec.packetWith lf 0x10 (Spec.connectRest c) ++ rest) fin).1 ≠ .ok (Spec.meaning (.connect c)) := by
  intro h
  rcases hd : decoded pr (Spec.packetWith lf 0x10 (Spec.connectRest c) ++ rest) fin with ⟨r, p'⟩
  rw [hd] at h
  cases h
  obtain ⟨first, lf', n, body, _, _, _, hwf, _⟩ := readPacket_took hd
  have := hwf.2.2.1
  cases hc : c.will with
  | none => exact hw hc
  | some w => simp [hc] at this

/-- C09, the part that holds: a CONNECT without a will is decoded with its user name and password. Missing: everything about
wills. -/
theorem C09_will_decoded_partial (pr : Profile) (c : Spec.Connect) (hl : Spec.Legal (.connect c)) (hw : c.will = none)
    (hs : (Spec.connectRest c).length < 2097152) (rest : List UInt8) (fin : Ending) :
    decoded pr (Spec.packet 0x10 (Spec.connectRest c) ++ rest) fin = (.ok (Spec.meaning (.connect c)), ⟨rest, fin⟩) :=
  C07_client_packets pr (.connect c) hl hw hs rest fin

/-- A legal CONNECT with a will. -/
example : Spec.Legal (.connect { sampleConnect with will := some ("w", [1], .atLeastOnce, false) }) := by
  refine ⟨?_, ?_, ?_, ?_, ?_⟩ <;> simp only [sampleConnect, Spec.Fits] <;> decide +kernel

/-! ### C10 -/

/-- C10. Whatever the decoder accepts is a well-formed packet: the bytes consumed are a first byte, a length field and a body, and
that first byte and that body are, flags, QoS codes, UTF-8 strings and all, what the standard prescribes for the packet returned. -/
theorem C10_only_well_formed (pr : Profile) (bytes : List UInt8) (fin : Ending) (p : ControlPacket) (p' : Plain)
    (h : decoded pr bytes fin = (.ok p, p')) :
    ∃ first lf n body, bytes = first :: lf ++ body ++ p'.bytes ∧ Spec.LengthField lf n ∧ Spec.WellFormed first.toNat body p := by
  obtain ⟨first, lf, n, body, hlf, _, ht, hw, _⟩ := readPacket_took h
  exact ⟨first, lf, n, body, ht.bytes, hlf, hw⟩

/-- C10, wrong flags: an acknowledgement, SUBSCRIBE or UNSUBSCRIBE type with any other first byte than the prescribed one. -/
theorem C10_wrong_flags (pr : Profile) (first : UInt8) (rest : List UInt8) (fin : Ending)
    (ht : first.toNat / 16 ∈ [4, 5, 6, 7, 8, 10]) (hf : first ∉ [0x40, 0x50, 0x62, 0x70, 0x82, 0xA2]) (p : ControlPacket) :
    (decoded pr (first :: rest) fin).1 ≠ .ok p := by
  intro h
  rcases hd : decoded pr (first :: rest) fin with ⟨r, p'⟩
  rw [hd] at h
  cases h
  obtain ⟨first', lf, n, body, _, _, hb, hw, _⟩ := readPacket_took hd
  obtain rfl : first = first' := by
    have := hb.bytes
    simp only [List.cons_append, List.cons.injEq] at this
    exact this.1
  have hlt := first.toNat_lt
  have hne : ∀ k : Nat, k < 256 → first.toNat = k → first = UInt8.ofNat k := by
    intro k hk he
    apply UInt8.toNat_inj.mp
    rw [he, UInt8.toNat_ofNat']
    omega
  cases p with
  | connect c => have := hw.1; simp only [List.mem_cons, List.not_mem_nil, or_false] at ht; omega
  | publish q =>
    have h1 := hw.1
    have h2 : Spec.publishFirst q / 16 = 3 := by
      unfold Spec.publishFirst Spec.qosNum
      cases q.dup <;> cases q.message.retain <;> cases q.message.qos <;> rfl
    simp only [List.mem_cons, List.not_mem_nil, or_false] at ht
    omega
  | pubAck i => exact hf (by rw [hne _ (by decide) hw.1]; decide)
  | pubRec i => exact hf (by rw [hne _ (by decide) hw.1]; decide)
  | pubRel i => exact hf (by rw [hne _ (by decide) hw.1]; decide)
  | pubComp i => exact hf (by rw [hne _ (by decide) hw.1]; decide)
  | subscribe q => exact hf (by rw [hne _ (by decide) hw.1]; decide)
  | unsubscribe q => exact hf (by rw [hne _ (by decide) hw.1]; decide)
  | pingReq => have := hw.1; simp only [List.mem_cons, List.not_mem_nil, or_false] at ht; omega
  | disconnect => have := hw.1; simp only [List.mem_cons, List.not_mem_nil, or_false] at ht; omega
  | connAck | subAck | unsubAck | pingResp => exact hw.elim

/-- C10, no payload: SUBSCRIBE and UNSUBSCRIBE that end after the packet id. -/
theorem C10_no_payload (pr : Profile) (first : UInt8) (hfirst : first = 0x82 ∨ first = 0xA2) (lf : List UInt8)
    (hlf : Spec.LengthField lf 2) (hl : lf.length ≤ 3) (i : UInt16) (rest : List UInt8) (fin : Ending) :
    decoded pr (first :: lf ++ (Spec.twoBytes i.toNat ++ rest)) fin = (.err .invalidData, ⟨rest, fin⟩) :=
  noPayload_bad pr first hfirst lf hlf hl i rest fin

/-- C10, bad QoS: after any number of good entries, an entry with QoS above 2, anything following. -/
theorem C10_bad_qos (pr : Profile) (lf : List UInt8) (n : Nat) (hlf : Spec.LengthField lf n) (hl : lf.length ≤ 3) (i : UInt16)
    (good : List (String × QoS)) (hg : ∀ f ∈ good, Spec.Fits f.1) (t : String) (ht : Spec.Fits t) (q : UInt8) (hq : 2 < q.toNat)
    (hn : (Spec.clientRest (.subscribe i good)).length < n) (rest : List UInt8) (fin : Ending) :
    decoded pr (0x82 :: lf ++ (Spec.clientRest (.subscribe i good) ++ (Spec.str t ++ [q]) ++ rest)) fin
      = (.err .invalidData, ⟨rest, fin⟩) := by
  have := subscribe_bad pr lf n hlf hl i good hg _ (.qos t ht q hq) (by simp [Spec.clientRest, subscribePayload, Spec.twoBytes] at hn ⊢; omega) rest fin
  simpa [decoded, Spec.clientRest, subscribePayload] using this

/-- C10, bad text: a filter that is not UTF-8, in a SUBSCRIBE after any number of good entries. -/
theorem C10_bad_utf8_subscribe (pr : Profile) (lf : List UInt8) (n : Nat) (hlf : Spec.LengthField lf n) (hl : lf.length ≤ 3) (i : UInt16)
    (good : List (String × QoS)) (hg : ∀ f ∈ good, Spec.Fits f.1) (bad : List UInt8) (hbl : bad.length < 65536)
    (hb : ∀ s, Spec.utf8 s ≠ bad) (hn : (Spec.clientRest (.subscribe i good)).length < n) (rest : List UInt8) (fin : Ending) :
    decoded pr (0x82 :: lf ++ (Spec.clientRest (.subscribe i good) ++ (Spec.twoBytes bad.length ++ bad) ++ rest)) fin
      = (.err .invalidData, ⟨rest, fin⟩) := by
  have := subscribe_bad pr lf n hlf hl i good hg _ (.utf8 bad hbl (fromUtf8_none hb)) (by simp [Spec.clientRest, subscribePayload, Spec.twoBytes] at hn ⊢; omega) rest fin
  simpa [decoded, Spec.clientRest, subscribePayload] using this

/-- …in an UNSUBSCRIBE. -/
theorem C10_bad_utf8_unsubscribe (pr : Profile) (lf : List UInt8) (n : Nat) (hlf : Spec.LengthField lf n) (hl : lf.length ≤ 3) (i : UInt16)
    (good : List String) (hg : ∀ f ∈ good, Spec.Fits f) (bad : List UInt8) (hbl : bad.length < 65536)
    (hb : ∀ s, Spec.utf8 s ≠ bad) (hn : (Spec.clientRest (.unsubscribe i good)).length < n) (rest : List UInt8) (fin : Ending) :
    decoded pr (0xA2 :: lf ++ (Spec.clientRest (.unsubscribe i good) ++ (Spec.twoBytes bad.length ++ bad) ++ rest)) fin
      = (.err .invalidData, ⟨rest, fin⟩) := by
  have := unsubscribe_bad pr lf n hlf hl i good hg _ hbl (fromUtf8_none hb) (by simp [Spec.clientRest, Spec.twoBytes] at hn ⊢; omega) rest fin
  simpa [decoded, Spec.clientRest] using this

/-- …as the topic of a PUBLISH. -/
theorem C10_bad_utf8_publish (pr : Profile) (first : UInt8) (ht : first.toNat / 16 = 3) (hq : first.toNat / 2 % 4 ≠ 3)
    (lf : List UInt8) (n : Nat) (hlf : Spec.LengthField lf n) (hl : lf.length ≤ 3) (bad : List UInt8) (hbl : bad.length < 65536)
    (hb : ∀ s, Spec.utf8 s ≠ bad) (rest : List UInt8) (fin : Ending) :
    decoded pr (first :: lf ++ (Spec.twoBytes bad.length ++ bad ++ rest)) fin = (.err .invalidData, ⟨rest, fin⟩) :=
  publish_bad pr first ht hq lf n hlf hl bad hbl (fromUtf8_none hb) rest fin

example : decoded ⟨false⟩ [0x82, 6, 0, 1, 0, 1, 0x61, 3] .eof = (.err .invalidData, ⟨[], .eof⟩) :=
  C10_bad_qos ⟨false⟩ [6] 6 (.last 6 (by decide)) (by decide) 1 [] (by simp) "a" (by unfold Spec.Fits; decide +kernel) 3 (by decide) (by decide) [] .eof
/-- C0 80 is not UTF-8. -/
example : ∀ s, Spec.utf8 s ≠ [0xC0, 0x80] := by
  intro s h
  have := fromUtf8_strBytes s
  rw [strBytes_eq, h] at this
  revert this
  rw [show fromUtf8 [0xC0, 0x80] = none by decide +kernel]
  simp

/-! ### C11 -/

/-- C11 is violated, in both build profiles: a PUBLISH header with QoS 3 makes the decoder panic. -/
theorem C11_never_panics_fails (pr : Profile) (rest : List UInt8) (fin : Ending) :
    (decoded pr ([0x36, 0] ++ rest) fin).1 = .panic := by
  unfold decoded
  rw [show [0x36, 0] ++ rest = (0x36 : UInt8) :: [0] ++ rest by rfl,
    readPacket_header pr 0x36 [0] 0 (.last 0 (by decide)) (by decide)]
  unfold decodeBody decodePublish
  rfl

/-- C11: a packet type the decoder does not implement. -/
theorem C11_unsupported_type_fails (pr : Profile) (rest : List UInt8) (fin : Ending) :
    (decoded pr ([0xF0, 0] ++ rest) fin).1 = .panic := by
  unfold decoded
  rw [show [0xF0, 0] ++ rest = (0xF0 : UInt8) :: [0] ++ rest by rfl,
    readPacket_header pr 0xF0 [0] 0 (.last 0 (by decide)) (by decide)]
  unfold decodeBody
  rfl

/-- C11: a PUBLISH that claims to be shorter than its topic. -/
theorem C11_short_publish_fails (pr : Profile) (rest : List UInt8) (fin : Ending) :
    (decoded pr ([0x30, 0, 0, 0] ++ rest) fin).1 = .panic := by
  unfold decoded
  rw [show [0x30, 0, 0, 0] ++ rest = (0x30 : UInt8) :: [0] ++ ([0, 0] ++ rest) by rfl,
    readPacket_header pr 0x30 [0] 0 (.last 0 (by decide)) (by decide)]
  have hs : PReads Decoder.getString [0, 0] "" := by
    have := Plain.laws.readString "" (by unfold Spec.Fits; decide +kernel)
    rwa [show Spec.str "" = [0, 0] by decide +kernel] at this
  have hb : decodeBody (σ := Plain) pr 0x30 0 = decodePublish pr 0x30 0 := by unfold decodeBody; rfl
  rw [hb]
  unfold decodePublish
  rw [show QoS.fromBits (((0x30 : UInt8) &&& 0b00000110) >>> 1) = some .atMostOnce by decide]
  dsimp only
  rw [M.bind_ok (hs.run rest fin)]
  have h0 : strLen "" = 0 := by decide +kernel
  rw [h0]
  rcases pr with ⟨_ | _⟩
  · rfl
  · rfl

/-- C11, the part that holds: these are the only ways to make the decoder panic – a packet type it does not implement; a PUBLISH
with QoS 3; a PUBLISH announced shorter than its topic and packet id; and, in builds with overflow checks, a SUBSCRIBE or
UNSUBSCRIBE whose fields run past its announced length. Missing: that these do not panic either. -/
theorem C11_never_panics_partial (pr : Profile) (bytes : List UInt8) (fin : Ending) (h : (decoded pr bytes fin).1 = .panic) :
    ∃ first lf n r, bytes = first :: lf ++ r ∧ Spec.LengthField lf n ∧
      (first.toNat / 16 ∈ [0, 2, 9, 11, 13, 15]
      ∨ (first.toNat / 16 = 3 ∧ first.toNat / 2 % 4 = 3)
      ∨ (first.toNat / 16 = 3 ∧ ∃ t r', r = Spec.str t ++ r'
          ∧ n < (Spec.str t).length + (if first.toNat / 2 % 4 = 0 then 0 else 2))
      ∨ (first.toNat / 16 ∈ [8, 10] ∧ pr.overflowChecks = true ∧ ∃ body r', r = body ++ r' ∧ n < body.length)) := by
  rcases hd : decoded pr bytes fin with ⟨r, p'⟩
  rw [hd] at h
  cases h
  obtain ⟨first, lf, n, r, h1, h2, _, h4⟩ := readPacket_panic hd
  exact ⟨first, lf, n, r, h1, h2, h4⟩

/-! ### C12 -/

/-- C12 is violated: a PINGREQ announcing `n` bytes of payload is accepted without consuming them, so they are taken for the next
packet. -/
theorem C12_boundaries_fails (pr : Profile) (lf payload : List UInt8) (hlf : Spec.LengthField lf payload.length) (hl : lf.length ≤ 3)
    (fin : Ending) : decoded pr (0xC0 :: lf ++ payload) fin = (.ok .pingReq, ⟨payload, fin⟩) := by
  unfold decoded
  rw [readPacket_header pr 0xC0 lf _ hlf hl, (SourceLaws.decodeBody_first pr _).2.2.2.2.2.2.2.1]
  rfl

/-- Such a PINGREQ can smuggle in a PUBLISH. -/
example : (readMany ⟨true⟩ 2 : M Plain _) ⟨0xC0 :: [11] ++ [0x33, 9, 0, 3, 0x61, 0x2F, 0x62, 1, 2, 1, 2], .eof⟩
    = (.ok [.pingReq, .publish samplePublish], ⟨[], .eof⟩) := by
  have h1 := C12_boundaries_fails ⟨true⟩ [11] [0x33, 9, 0, 3, 0x61, 0x2F, 0x62, 1, 2, 1, 2] (.last 11 (by decide)) (by decide) .eof
  have h2 : decoded ⟨true⟩ ([0x33, 9, 0, 3, 0x61, 0x2F, 0x62, 1, 2, 1, 2] ++ []) .eof = (.ok (.publish samplePublish), ⟨[], .eof⟩) :=
    PReads.run (Plain.laws.readPacket ⟨true⟩ (.publish samplePublish) samplePublish_legal trivial [9] (.last 9 (by decide)) (by decide)) [] .eof
  unfold decoded at h1 h2
  rw [List.append_nil] at h2
  unfold readMany readMany readMany
  rw [M.bind_ok h1, M.bind_assoc', M.bind_ok h2]
  rfl

/-- C12, the part that holds: a PUBLISH, and (with overflow checks, or when fewer than 2^64 bytes are still to come) a SUBSCRIBE or
UNSUBSCRIBE, is returned only after consuming exactly the number of bytes announced. Missing: the other packet types, which ignore
the announced length. -/
theorem C12_boundaries_partial (pr : Profile) (bytes : List UInt8) (fin : Ending) (p : ControlPacket) (p' : Plain)
    (h : decoded pr bytes fin = (.ok p, p')) (hb : pr.overflowChecks = true ∨ bytes.length < 2 ^ 64)
    (hp : (∃ q, p = .publish q) ∨ (∃ q, p = .subscribe q) ∨ (∃ q, p = .unsubscribe q)) :
    ∃ first lf body, bytes = first :: lf ++ body ++ p'.bytes ∧ Spec.LengthField lf body.length := by
  obtain ⟨first, lf, n, body, hlf, _, ht, _, hf⟩ := readPacket_took h
  obtain rfl : body.length = n := by
    apply hf
    rcases hp with ⟨q, rfl⟩ | ⟨q, rfl⟩ | ⟨q, rfl⟩
    · trivial
    · exact hb
    · exact hb
  exact ⟨first, lf, body, ht.bytes, hlf⟩

end Ratel
