/-
C90: what happens where the read buffer ends.
-/
import Verif.Props.Streams
import Verif.Proofs.Boundary

namespace Ratel

open Decoder Encoder

/-- The bytes of a sequence of packets. -/
def sentBytes (cs : List Spec.ClientPacket) : List UInt8 := cs.flatMap fun c => Spec.packet (Spec.clientFirst c) (Spec.clientRest c)

/-- A field of `len` bytes before which the connection carried `start` bytes contains the end of the 4096-byte buffer. -/
def Straddles (start len : Nat) : Prop := start < 4096 ∧ 4096 < start + len

instance (start len : Nat) : Decidable (Straddles start len) := inferInstanceAs (Decidable (_ ∧ _))

theorem readMany_reads {σ : Type} [ByteSource σ] {total : σ → List UInt8} {fin : σ → Ending} {room : σ → Nat → Prop}
    (L : SourceLaws σ total fin room) (pr : Profile) (cs : List Spec.ClientPacket)
    (hc : ∀ c ∈ cs, Spec.Legal c ∧ Spec.NoWill c ∧ (Spec.clientRest c).length < 2097152) :
    Reads total fin room (readMany pr cs.length : M σ _) (sentBytes cs) (cs.map Spec.meaning) := by
  induction cs with
  | nil => exact Reads.pure _
  | cons c cs ih =>
    obtain ⟨h1, h2, h3⟩ := hc c List.mem_cons_self
    have ih := ih fun c h => hc c (List.mem_cons_of_mem _ h)
    simp only [List.length_cons, readMany, sentBytes, List.flatMap_cons, List.map_cons]
    refine (L.readPacket pr c h1 h2 (Spec.varInt _) (lengthField_varInt _) (length_varInt_small h3)).bind ?_
    exact ih.bind_nil (f := fun ps => (pure (Spec.meaning c :: ps) : M σ _)) (Reads.pure _)

/-- The next packet spins after `k` packets. -/
theorem readMany_hang {σ : Type} [ByteSource σ] (pr : Profile) (k : Nat) (s s' : σ) (ps : List ControlPacket)
    (h : (readMany pr k : M σ _) s = (.ok ps, s')) (hh : ((readPacket pr : M σ _) s').1 = .hang) :
    ((readMany pr (k + 1) : M σ _) s).1 = .hang := by
  induction k generalizing s ps with
  | zero =>
    cases h
    rcases hm : (readPacket pr : M σ _) s' with ⟨r, s₁⟩
    rw [hm] at hh
    cases hh
    unfold readMany
    rw [M.bind_hang hm]
  | succ k ih =>
    rw [readMany] at h
    obtain ⟨p, s₁, h1, h⟩ := M.bind_eq_ok.mp h
    obtain ⟨ps', s₂, h2, h⟩ := M.bind_eq_ok.mp h
    cases h
    have := ih s₁ ps' h2
    unfold readMany
    rw [M.bind_ok h1]
    rcases hk : (readMany pr (k + 1) : M σ _) s₁ with ⟨r, s₃⟩
    rw [hk] at this
    cases this
    rw [M.bind_hang hk]

/-- C90 is violated: after any legal packets, a legal PUBLISH, however small, whose topic or payload contains the end of the first
4096 bytes of the connection is never received: the reader spins. This holds however the bytes are split if the library's
`advance` leaves an emptied buffer where it is, and for every version of the library if the bytes are there at once. -/
theorem C90_small_messages_fails (al : Alloc) (pr : Profile) (cs : List Spec.ClientPacket)
    (hc : ∀ c ∈ cs, Spec.Legal c ∧ Spec.NoWill c ∧ (Spec.clientRest c).length < 2097152)
    (q : PublishPacket) (hl : Spec.LegalPublish q) (hs : (Spec.publishRest q).length < 2097152)
    (segs : List (List UInt8)) (fin : Ending) (rest : List UInt8)
    (hsegs : segs.flatten = sentBytes cs ++ (Spec.packet (Spec.publishFirst q) (Spec.publishRest q) ++ rest))
    (hsplit : al.clearOnFullAdvance = false ∨ ∃ all, segs = [all])
    (hend : Straddles ((sentBytes cs).length + 1 + (Spec.varInt (Spec.publishRest q).length).length + 2)
          (Spec.utf8 q.message.topic).length
      ∨ Straddles ((sentBytes cs ++ Spec.packet (Spec.publishFirst q) (Spec.publishRest q)).length - q.message.payload.length)
          q.message.payload.length) :
    (received al pr 4096 segs fin (cs.length + 1)).1 = .hang := by
  letI := RStream.source al
  have hpl : (Spec.packet (Spec.publishFirst q) (Spec.publishRest q)).length
      = 1 + (Spec.varInt (Spec.publishRest q).length).length + (Spec.publishRest q).length := by
    simp [Spec.packet]; omega
  have hrl : (Spec.publishRest q).length = (Spec.utf8 q.message.topic).length + 2
      + (Spec.optional (fun i : UInt16 => Spec.twoBytes i.toNat) q.packetId).length + q.message.payload.length := by
    simp only [Spec.publishRest, List.length_append, SourceLaws.length_str, strLen_eq]
  have hlf := lengthField_varInt (Spec.publishRest q).length
  have hlen := length_varInt_small hs
  -- the state at the beginning, `k` bytes before only `c` bytes of the buffer are left
  have hstart : ∀ k c, k + c = 4096 →
      4096 ≤ (sentBytes cs ++ (Spec.packet (Spec.publishFirst q) (Spec.publishRest q) ++ rest)).length →
      RStream.Ahead al c (RStream.new 4096 segs fin) k := by
    intro k c hkc hbig
    refine ⟨by simp [RStream.Wf, RStream.new, BytesMut.withCapacity, BytesMut.len], by simp [RStream.new, BytesMut.withCapacity, hkc], ?_⟩
    rcases hsplit with h | ⟨all, rfl⟩
    · exact .inl h
    · refine .inr (.inr ⟨rfl, all, rfl, ?_⟩)
      rw [← hsegs] at hbig
      simpa [RStream.new, BytesMut.withCapacity] using hbig
  have htot : (RStream.new 4096 segs fin).total
      = sentBytes cs ++ (Spec.packet (Spec.publishFirst q) (Spec.publishRest q) ++ rest) := by
    simpa [RStream.total, RStream.new, BytesMut.withCapacity] using hsegs
  unfold Straddles at hend
  rcases hend with ⟨h1, h2⟩ | ⟨h1, h2⟩
  · obtain ⟨c, hcdef⟩ : ∃ c, (sentBytes cs).length + 1 + (Spec.varInt (Spec.publishRest q).length).length + 2 + c = 4096 :=
      ⟨4096 - ((sentBytes cs).length + 1 + (Spec.varInt (Spec.publishRest q).length).length + 2), by omega⟩
    have hc0 : 0 < c := by omega
    obtain ⟨s', hr, ht, _, hroom⟩ := readMany_reads (RStream.lawsAhead al c hc0) pr cs hc (RStream.new 4096 segs fin) _
      (1 + (Spec.varInt (Spec.publishRest q).length).length + 2) htot
      (hstart _ c (by omega) (by simp only [List.length_append]; omega))
    obtain ⟨s'', hh⟩ := RStream.topic_beyond al pr c hc0 q hl _ hlf hlen (by omega) s' rest ht hroom
    exact readMany_hang pr cs.length _ s' _ hr (by rw [hh])
  · rw [List.length_append, hpl] at h1 h2
    obtain ⟨c, hcdef⟩ : ∃ c, (sentBytes cs).length + (1 + (Spec.varInt (Spec.publishRest q).length).length
        + ((Spec.publishRest q).length - q.message.payload.length)) + c = 4096 :=
      ⟨4096 - ((sentBytes cs).length + (1 + (Spec.varInt (Spec.publishRest q).length).length
        + ((Spec.publishRest q).length - q.message.payload.length))), by omega⟩
    have hc0 : 0 < c := by omega
    obtain ⟨s', hr, ht, _, hroom⟩ := readMany_reads (RStream.lawsAhead al c hc0) pr cs hc (RStream.new 4096 segs fin) _
      (1 + (Spec.varInt (Spec.publishRest q).length).length + ((Spec.publishRest q).length - q.message.payload.length)) htot
      (hstart _ c (by omega) (by simp only [List.length_append]; omega))
    obtain ⟨s'', hh⟩ := RStream.payload_beyond al pr c hc0 q hl _ hlf hlen (by omega) s' rest ht hroom
    exact readMany_hang pr cs.length _ s' _ hr (by rw [hh])

/-- The message of the repository's own test (tests/read_packets.rs:86-89): `test body` on topic `a/b/c`, 18 bytes in all. -/
def testMessage : PublishPacket :=
  { packetId := none, dup := false,
    message := { topic := "a/b/c", payload := Spec.utf8 "test body", qos := .atMostOnce, retain := false } }

theorem testMessage_legal : Spec.LegalPublish testMessage := ⟨by decide +kernel, by decide⟩

theorem testMessage_rest : Spec.publishRest testMessage
    = [0, 5, 0x61, 0x2f, 0x62, 0x2f, 0x63, 0x74, 0x65, 0x73, 0x74, 0x20, 0x62, 0x6f, 0x64, 0x79] := by decide +kernel

theorem testMessage_packet : Spec.packet (Spec.publishFirst testMessage) (Spec.publishRest testMessage)
    = [0x30, 0x10, 0, 5, 0x61, 0x2f, 0x62, 0x2f, 0x63, 0x74, 0x65, 0x73, 0x74, 0x20, 0x62, 0x6f, 0x64, 0x79] := by
  unfold Spec.packet
  rw [testMessage_rest]
  simp only [List.length_cons, List.length_nil]
  rw [Spec.varInt]
  rfl

theorem sentBytes_replicate (n : Nat) (c : Spec.ClientPacket) :
    (sentBytes (List.replicate n c)).length = n * (Spec.packet (Spec.clientFirst c) (Spec.clientRest c)).length := by
  induction n with
  | zero => simp [sentBytes]
  | succ n ih =>
    have : sentBytes (List.replicate (n + 1) c)
        = Spec.packet (Spec.clientFirst c) (Spec.clientRest c) ++ sentBytes (List.replicate n c) := by
      simp [sentBytes, List.replicate_succ]
    rw [this, List.length_append, ih, Nat.add_mul]
    omega

/-- C90 is violated by ordinary traffic: a client that sends the 18-byte message of the repository's own test 228 times has lost its
connection; in every build, and for every way of splitting the bytes (or, if the library resets emptied buffers, when they come at
once). -/
theorem C90_test_message_fails (al : Alloc) (pr : Profile) (segs : List (List UInt8)) (fin : Ending)
    (hsegs : segs.flatten = sentBytes (List.replicate 228 (.publish testMessage)))
    (hsplit : al.clearOnFullAdvance = false ∨ ∃ all, segs = [all]) :
    (received al pr 4096 segs fin 228).1 = .hang := by
  have hlen : (sentBytes (List.replicate 227 (.publish testMessage))).length = 4086 := by
    rw [sentBytes_replicate]
    show 227 * (Spec.packet (Spec.publishFirst testMessage) (Spec.publishRest testMessage)).length = 4086
    rw [testMessage_packet]
    rfl
  have hsmall : (Spec.publishRest testMessage).length < 2097152 := by rw [testMessage_rest]; decide
  have hpay : testMessage.message.payload.length = 9 := by decide +kernel
  have key := C90_small_messages_fails al pr (List.replicate 227 (.publish testMessage))
    (by
      intro c hc
      rw [List.eq_of_mem_replicate hc]
      exact ⟨testMessage_legal, trivial, hsmall⟩)
    testMessage testMessage_legal hsmall segs fin []
    (by
      rw [hsegs, List.append_nil]
      have : List.replicate 228 (Spec.ClientPacket.publish testMessage)
          = List.replicate 227 (.publish testMessage) ++ [.publish testMessage] :=
        List.replicate_succ' (n := 227) (a := Spec.ClientPacket.publish testMessage)
      rw [this]
      simp only [sentBytes, List.flatMap_append, List.flatMap_cons, List.flatMap_nil, List.append_nil]
      rfl)
    hsplit
    (by
      right
      rw [List.length_append, hlen, testMessage_packet, hpay]
      decide)
  rwa [List.length_replicate] at key

/-- Packets without any text or payload. -/
def Bare : Spec.ClientPacket → Prop
  | .pubAck _ | .pubRec _ | .pubRel _ | .pubComp _ | .pingReq | .disconnect => True
  | _ => False

theorem bare_legal {c : Spec.ClientPacket} (h : Bare c) :
    Spec.Legal c ∧ Spec.NoWill c ∧ (Spec.clientRest c).length < 2097152 := by
  cases c <;> first | exact h.elim | simp [Spec.Legal, Spec.NoWill, Spec.clientRest, Spec.twoBytes]

/-- A bare packet is received in every state of the buffer. -/
theorem readBare (al : Alloc) (pr : Profile) (c : Spec.ClientPacket) (h : Bare c) (s : RStream) (hw : s.Wf) (r : List UInt8)
    (ht : s.total = Spec.packet (Spec.clientFirst c) (Spec.clientRest c) ++ r) :
    letI := RStream.source al
    ∃ s', (readPacket pr : M RStream _) s = (.ok (Spec.meaning c), s') ∧ s'.Wf ∧ s'.total = r ∧ s'.fin = s.fin := by
  letI := RStream.source al
  obtain ⟨hl, hn, hs⟩ := bare_legal h
  have hlf := lengthField_varInt (Spec.clientRest c).length
  have hplain := PReads.run (Plain.laws.readPacket pr c hl hn _ hlf (length_varInt_small hs)) r s.fin
  have hsim := Sim.readPacket al closed_true pr s ⟨_, s.fin⟩ ⟨ht, rfl, hw⟩ trivial
  have hnh : ((readPacket pr : M RStream _) s).1 ≠ .hang := by
    obtain ⟨s₁, h1, hcon⟩ := RStream.getU8_ok al s hw (Spec.byte (Spec.clientFirst c))
      (Spec.varInt (Spec.clientRest c).length ++ Spec.clientRest c ++ r) (by rw [ht]; simp [Spec.packet])
    have hb := SourceLaws.decodeBody_first (σ := RStream) pr
    unfold readPacket
    have hfirst : ((ByteSource.getU8 : M RStream UInt8)) s = (.ok (Spec.byte (Spec.clientFirst c)), s₁) := h1
    rw [M.bind_ok hfirst]
    refine NoHang.bind (NoHang.remainingLengthLoop al 0 1 (by decide)) (fun rl => ?_) s₁
    cases c with
    | pubAck i =>
      rw [show Spec.byte (Spec.clientFirst (.pubAck i)) = 0x40 from rfl, (hb rl).2.1]
      exact (NoHang.packetId al _ _).bind fun _ => NoHang.pure _
    | pubRec i =>
      rw [show Spec.byte (Spec.clientFirst (.pubRec i)) = 0x50 from rfl, (hb rl).2.2.1]
      exact (NoHang.packetId al _ _).bind fun _ => NoHang.pure _
    | pubRel i =>
      rw [show Spec.byte (Spec.clientFirst (.pubRel i)) = 0x62 from rfl, (hb rl).2.2.2.1]
      exact (NoHang.packetId al _ _).bind fun _ => NoHang.pure _
    | pubComp i =>
      rw [show Spec.byte (Spec.clientFirst (.pubComp i)) = 0x70 from rfl, (hb rl).2.2.2.2.1]
      exact (NoHang.packetId al _ _).bind fun _ => NoHang.pure _
    | pingReq =>
      rw [show Spec.byte (Spec.clientFirst .pingReq) = 0xC0 from rfl, (hb rl).2.2.2.2.2.2.2.1]
      exact NoHang.pure _
    | disconnect =>
      rw [show Spec.byte (Spec.clientFirst .disconnect) = 0xE0 from rfl, (hb rl).2.2.2.2.2.2.2.2]
      exact NoHang.pure _
    | connect _ => exact h.elim
    | publish _ => exact h.elim
    | subscribe _ _ => exact h.elim
    | unsubscribe _ _ => exact h.elim
  have hplain' : (readPacket pr : M Plain _) ⟨Spec.packet (Spec.clientFirst c) (Spec.clientRest c) ++ r, s.fin⟩
      = (.ok (Spec.meaning c), ⟨r, s.fin⟩) := hplain
  rw [hplain'] at hsim
  rcases hm : (readPacket pr : M RStream _) s with ⟨res, s'⟩
  rw [hm] at hsim hnh
  cases res with
  | ok a =>
    obtain ⟨p', h1, h2, _⟩ := hsim
    cases h1
    exact ⟨s', rfl, h2.wf, h2.bytes, h2.fin⟩
  | err e => obtain ⟨p', h1⟩ := hsim; cases h1
  | panic => obtain ⟨p', h1⟩ := hsim; cases h1
  | pending => obtain ⟨p', h1⟩ := hsim; cases h1
  | hang => exact absurd rfl hnh

theorem readMany_add {σ : Type} [ByteSource σ] (pr : Profile) (k n : Nat) (s s' : σ) (ps qs : List ControlPacket)
    (h : (readMany pr k : M σ _) s = (.ok ps, s')) (hn : ((readMany pr n : M σ _) s').1 = .ok qs) :
    ((readMany pr (k + n) : M σ _) s).1 = .ok (ps ++ qs) := by
  induction k generalizing s ps with
  | zero =>
    cases h
    rw [Nat.zero_add]
    exact hn
  | succ k ih =>
    rw [readMany] at h
    obtain ⟨p, s₁, h1, h⟩ := M.bind_eq_ok.mp h
    obtain ⟨ps', s₂, h2, h⟩ := M.bind_eq_ok.mp h
    cases h
    have := ih s₁ ps' h2
    rw [show k + 1 + n = k + n + 1 by omega, readMany, M.bind_ok h1]
    rcases hk : (readMany pr (k + n) : M σ _) s₁ with ⟨r, s₃⟩
    rw [hk] at this
    cases this
    rw [M.bind_ok hk]
    rfl

/-- C90, the part that holds: whatever has been received before on the connection, and however long it has lasted, packets without
text or payload are received, whatever the fragmentation and the library, and whatever follows. Missing: texts and payloads. -/
theorem C90_bare_partial (al : Alloc) (pr : Profile) (size : Nat) (segs : List (List UInt8)) (fin : Ending) (k : Nat)
    (ps : List ControlPacket) (hok : (received al pr size segs fin k).1 = .ok ps)
    (bare : List Spec.ClientPacket) (hb : ∀ c ∈ bare, Bare c) (rest : List UInt8)
    (hrest : unread (received al pr size segs fin k).2 = sentBytes bare ++ rest) :
    (received al pr size segs fin (k + bare.length)).1 = .ok (ps ++ bare.map Spec.meaning) := by
  letI := RStream.source al
  have hbare : ∀ (bare : List Spec.ClientPacket), (∀ c ∈ bare, Bare c) → ∀ s : RStream, s.Wf → s.total = sentBytes bare ++ rest →
      ∃ s', (readMany pr bare.length : M RStream _) s = (.ok (bare.map Spec.meaning), s') := by
    intro bare
    induction bare with
    | nil => intro _ s _ _; exact ⟨s, rfl⟩
    | cons c bare ih =>
      intro hb s hw ht
      obtain ⟨s₁, h1, hw1, ht1, _⟩ := readBare al pr c (hb c List.mem_cons_self) s hw (sentBytes bare ++ rest)
        (by rw [ht]; simp [sentBytes])
      obtain ⟨s₂, h2⟩ := ih (fun c h => hb c (List.mem_cons_of_mem _ h)) s₁ hw1 ht1
      refine ⟨s₂, ?_⟩
      simp only [List.length_cons, readMany]
      rw [M.bind_ok h1, M.bind_ok h2]
      rfl
  have hsim := readMany_sim al closed_true pr k (RStream.new size segs fin) _ (rel_new size segs fin) trivial
  unfold received at *
  rcases hm : (readMany pr k : M RStream _) (RStream.new size segs fin) with ⟨r, s'⟩
  rw [hm] at hsim hok hrest
  cases hok
  obtain ⟨p', _, hrel, _⟩ := hsim
  obtain ⟨s'', h⟩ := hbare bare hb s' hrel.wf hrest
  exact readMany_add pr k bare.length _ s' ps _ hm (by rw [h])

/-- C90, the part that holds, from the beginning of a connection: legal packets within the first 4096 bytes, then any number of
packets without text or payload, are all received. -/
theorem C90_small_messages_partial (al : Alloc) (pr : Profile) (cs bare : List Spec.ClientPacket)
    (hc : ∀ c ∈ cs, Spec.Legal c ∧ Spec.NoWill c ∧ (Spec.clientRest c).length < 2097152) (hb : ∀ c ∈ bare, Bare c)
    (hlen : (sentBytes cs).length ≤ 4096) (segs : List (List UInt8)) (fin : Ending) (rest : List UInt8)
    (hsegs : segs.flatten = sentBytes (cs ++ bare) ++ rest) :
    (received al pr 4096 segs fin (cs.length + bare.length)).1 = .ok (cs.map Spec.meaning ++ bare.map Spec.meaning) := by
  have hsplit : sentBytes (cs ++ bare) ++ rest = sentBytes cs ++ (sentBytes bare ++ rest) := by simp [sentBytes]
  rw [hsplit] at hsegs
  have hok := C15_large_messages_partial al pr cs hc segs fin (sentBytes bare ++ rest) hlen hsegs
  have hplain := C08_framing pr cs hc (sentBytes bare ++ rest) fin
  refine C90_bare_partial al pr 4096 segs fin cs.length _ hok bare hb rest ?_
  rcases C13_fragmentation al pr 4096 segs fin cs.length with h | ⟨_, h⟩
  · rw [hok] at h; cases h
  · rw [h _ hok, hsegs]
    have : (readMany pr cs.length : M Plain _) ⟨sentBytes cs ++ (sentBytes bare ++ rest), fin⟩
        = (.ok (cs.map Spec.meaning), ⟨sentBytes bare ++ rest, fin⟩) := hplain
    rw [this]

/-- A client that pings any number of times. -/
example (al : Alloc) (pr : Profile) (fin : Ending) (n : Nat) :
    (received al pr 4096 [sentBytes (List.replicate n .pingReq)] fin n).1 = .ok (List.replicate n .pingReq) := by
  have h := C90_small_messages_partial al pr [] (List.replicate n .pingReq) (by simp)
    (fun c hc => by rw [List.eq_of_mem_replicate hc]; trivial) (by simp [sentBytes])
    [sentBytes (List.replicate n .pingReq)] fin [] (by simp)
  simpa [List.map_replicate, Spec.meaning] using h

end Ratel
