/-
C13–C18, C70: what the buffered streams over TCP promise. Fragmentation of reads, partial and failing writes, buffer sizes and
the allocation behaviour of the buffer are all universally quantified.
-/
import Verif.Props.Codec
import Verif.Proofs.WriteStream
import Verif.Proofs.WriteFits
import Verif.Proofs.FullWrites

namespace Ratel

open Decoder Encoder

/-! ### Vocabulary -/

/-- What reading `k` packets from a new connection gives, when the client's bytes arrive in the pieces `segs`. -/
def received (al : Alloc) (pr : Profile) (size : Nat) (segs : List (List UInt8)) (fin : Ending) (k : Nat) :
    Res (List ControlPacket) × RStream :=
  letI := RStream.source al
  (readMany pr k : M RStream _) (RStream.new size segs fin)

/-- Bytes the client sent that were not consumed yet: those in the buffer, then those that did not arrive yet. -/
def unread (s : RStream) : List UInt8 := s.buf.data ++ s.segs.flatten

/-- Writing a sequence of packets, stopping at the first that does not succeed. -/
def writeAll (al : Alloc) : List ControlPacket → M WStream Unit
  | [] => pure ()
  | p :: ps => do
    letI := WStream.sink al
    (writePacket p : M WStream Unit)
    writeAll al ps

/-- What the connection's write loop does (src/mqtt/listener.rs:134-147): write one packet after the other, whatever the result. -/
def writeOn (al : Alloc) : List ControlPacket → WStream → WStream
  | [], s => s
  | p :: ps, s =>
    letI := WStream.sink al
    writeOn al ps ((writePacket p : M WStream Unit) s).2

/-- Bytes handed to the socket, then bytes still buffered. -/
def allBytes (s : WStream) : List UInt8 := s.wire ++ s.buf.data

/-- The concatenated wire encodings. -/
def wireOf (ps : List ControlPacket) : List UInt8 := ps.flatMap fun p => (Spec.serverBytes p).getD []

theorem readMany_sim {J : RStream → Prop} {H : Prop} (al : Alloc) (C : Closed J H) (pr : Profile) (k : Nat) :
    letI := RStream.source al
    Sim J J H (readMany pr k : M RStream _) (readMany pr k : M Plain _) := by
  letI := RStream.source al
  induction k with
  | zero => exact Sim.pure _
  | succ k ih => exact (Sim.readPacket al C pr).bind fun _ => ih.bind fun _ => Sim.pure _

theorem rel_new (size : Nat) (segs : List (List UInt8)) (fin : Ending) : Rel (RStream.new size segs fin) ⟨segs.flatten, fin⟩ :=
  ⟨by simp [RStream.total, RStream.new, BytesMut.withCapacity], rfl, by simp [RStream.Wf, RStream.new, BytesMut.withCapacity, BytesMut.len]⟩

/-! ### C13 -/

/-- C13. However TCP splits the bytes, reading any number of packets has the same outcome as if all bytes had been there at once, and
leaves the same bytes unread; unless the reader spins. -/
theorem C13_fragmentation (al : Alloc) (pr : Profile) (size : Nat) (segs : List (List UInt8)) (fin : Ending) (k : Nat) :
    (received al pr size segs fin k).1 = .hang
    ∨ ((received al pr size segs fin k).1 = ((readMany pr k : M Plain _) ⟨segs.flatten, fin⟩).1
      ∧ ∀ ps, (received al pr size segs fin k).1 = .ok ps →
          unread (received al pr size segs fin k).2 = ((readMany pr k : M Plain _) ⟨segs.flatten, fin⟩).2.bytes) := by
  have h := readMany_sim al closed_true pr k (RStream.new size segs fin) _ (rel_new size segs fin) trivial
  unfold received
  letI := RStream.source al
  rcases hm : (readMany pr k : M RStream _) (RStream.new size segs fin) with ⟨r, s'⟩
  rw [hm] at h
  cases r with
  | ok a =>
    obtain ⟨p', h1, h2, _⟩ := h
    exact .inr ⟨by rw [h1], fun _ _ => by rw [h1]; exact h2.bytes⟩
  | err e => obtain ⟨p', h1⟩ := h; exact .inr ⟨by rw [h1], fun _ h => by cases h⟩
  | panic => obtain ⟨p', h1⟩ := h; exact .inr ⟨by rw [h1], fun _ h => by cases h⟩
  | pending => obtain ⟨p', h1⟩ := h; exact .inr ⟨by rw [h1], fun _ h => by cases h⟩
  | hang => exact .inl rfl

/-- C13. When the bytes of the connection fit the buffer the exception does not arise: two ways of splitting the same bytes are
indistinguishable. -/
theorem C13_fragmentation_small (al al' : Alloc) (pr : Profile) (size size' : Nat) (segs segs' : List (List UInt8)) (fin : Ending) (k : Nat)
    (hs : segs.flatten = segs'.flatten) (h1 : segs.flatten.length < size) (h2 : segs.flatten.length < size') :
    (received al pr size segs fin k).1 = (received al' pr size' segs' fin k).1 := by
  have key : ∀ (al : Alloc) (size : Nat) (segs : List (List UInt8)), segs.flatten.length < size →
      (received al pr size segs fin k).1 = ((readMany pr k : M Plain _) ⟨segs.flatten, fin⟩).1 := by
    intro al size segs hlt
    have h := readMany_sim al closed_small pr k (RStream.new size segs fin) _ (rel_new size segs fin)
      (by simpa [Small, RStream.total, RStream.new, BytesMut.withCapacity] using hlt)
    unfold received
    letI := RStream.source al
    rcases hm : (readMany pr k : M RStream _) (RStream.new size segs fin) with ⟨r, s'⟩
    rw [hm] at h
    cases r with
    | ok a => obtain ⟨p', h1, h2, _⟩ := h; rw [h1]
    | err e => obtain ⟨p', h1⟩ := h; rw [h1]
    | panic => obtain ⟨p', h1⟩ := h; rw [h1]
    | pending => obtain ⟨p', h1⟩ := h; rw [h1]
    | hang => exact h.elim
  rw [key al size segs h1, key al' size' segs' (hs ▸ h2), hs]

example : ([[0xC0], [], [0, 0xE0], [0]] : List (List UInt8)).flatten = [[0xC0, 0, 0xE0, 0]].flatten := rfl

/-! ### C14 and C15 -/

/-- The read loop's buffer size (src/mqtt/listener.rs:65). -/
def bufferSize : Nat := 4096

/-- A legal PUBLISH whose payload does not fit the buffer, after any packets at all, makes the reader spin, however the bytes are
split; unless an earlier packet did already. -/
theorem big_spins (al : Alloc) (pr : Profile) (prior : List UInt8) (k : Nat) (ps : List ControlPacket) (fin : Ending) (rest : List UInt8)
    (q : PublishPacket) (hl : Spec.LegalPublish q) (lf : List UInt8) (hlf : Spec.LengthField lf (Spec.publishRest q).length)
    (hlen : lf.length ≤ 3) (hbig : bufferSize < q.message.payload.length)
    (hprior : (readMany pr k : M Plain _) ⟨prior ++ (Spec.packetWith lf (Spec.publishFirst q) (Spec.publishRest q) ++ rest), fin⟩
      = (.ok ps, ⟨Spec.packetWith lf (Spec.publishFirst q) (Spec.publishRest q) ++ rest, fin⟩))
    (segs : List (List UInt8))
    (hsegs : segs.flatten = prior ++ (Spec.packetWith lf (Spec.publishFirst q) (Spec.publishRest q) ++ rest)) :
    (received al pr bufferSize segs fin k).1 = .hang
    ∨ ∃ s, received al pr bufferSize segs fin k = (.ok ps, s)
        ∧ letI := RStream.source al; ((readPacket pr : M RStream ControlPacket) s).1 = .hang := by
  have C := closed_alloc bufferSize (by decide)
  have h := readMany_sim al C pr k (RStream.new bufferSize segs fin) _ (rel_new bufferSize segs fin)
    (by simp [AllocIs, RStream.new, BytesMut.withCapacity])
  unfold received
  letI := RStream.source al
  rw [hsegs, hprior] at h
  rcases hm : (readMany pr k : M RStream _) (RStream.new bufferSize segs fin) with ⟨r, s'⟩
  rw [hm] at h
  cases r with
  | ok a =>
    obtain ⟨p', h1, h2, h3⟩ := h
    cases h1
    obtain ⟨s'', hh⟩ := bigPublish_hang al pr bufferSize (by decide) q hl lf hlf hlen hbig s' h2.wf h3 rest h2.bytes
    exact .inr ⟨s', rfl, by rw [hh]⟩
  | err e => obtain ⟨p', h1⟩ := h; cases h1
  | panic => obtain ⟨p', h1⟩ := h; cases h1
  | pending => obtain ⟨p', h1⟩ := h; cases h1
  | hang => exact .inl rfl

/-- C15 is violated: whatever legal packets came before, a legal PUBLISH with a payload above 4096 bytes is never received, however
its bytes are split and whatever follows; the reader spins. -/
theorem C15_large_messages_fails (al : Alloc) (pr : Profile) (cs : List Spec.ClientPacket)
    (hc : ∀ c ∈ cs, Spec.Legal c ∧ Spec.NoWill c ∧ (Spec.clientRest c).length < 2097152)
    (q : PublishPacket) (hl : Spec.LegalPublish q) (hs : (Spec.publishRest q).length < 2097152)
    (hbig : 4096 < q.message.payload.length) (segs : List (List UInt8)) (fin : Ending) (rest : List UInt8)
    (hsegs : segs.flatten = (cs.flatMap fun c => Spec.packet (Spec.clientFirst c) (Spec.clientRest c))
      ++ (Spec.packet (Spec.publishFirst q) (Spec.publishRest q) ++ rest)) :
    (received al pr 4096 segs fin (cs.length + 1)).1 = .hang := by
  have key := big_spins al pr _ cs.length _ fin rest q hl (Spec.varInt _) (lengthField_varInt _) (length_varInt_small hs) hbig
    (C08_framing pr cs hc _ fin) segs hsegs
  have hsplit : ∀ (σ : Type) [ByteSource σ] (k : Nat) (s : σ),
      ((readMany pr k : M σ _) s).1 = .hang
      ∨ (∃ ps s', (readMany pr k : M σ _) s = (.ok ps, s') ∧ ((readPacket pr : M σ _) s').1 = .hang) →
      ((readMany pr (k + 1) : M σ _) s).1 = .hang := by
    intro σ _ k
    induction k with
    | zero =>
      rintro s (h | ⟨ps, s', h1, h2⟩)
      · cases h
      · cases h1
        rcases hm : (readPacket pr : M σ _) s with ⟨r, s₁⟩
        rw [hm] at h2
        cases h2
        unfold readMany
        rw [M.bind_hang hm]
    | succ k ih =>
      intro s h
      unfold readMany
      rcases hm : (readPacket pr : M σ _) s with ⟨r, s₁⟩
      have h' : ((do let p ← readPacket pr; let ps ← readMany pr k; pure (p :: ps) : M σ (List ControlPacket)) s).1 = .hang
          ∨ ∃ ps s', (do let p ← readPacket pr; let ps ← readMany pr k; pure (p :: ps) : M σ (List ControlPacket)) s = (.ok ps, s')
              ∧ ((readPacket pr : M σ _) s').1 = .hang := h
      cases r with
      | ok a =>
        rw [M.bind_ok hm] at h' ⊢
        have : ((readMany pr k : M σ _) s₁).1 = .hang
            ∨ (∃ ps s', (readMany pr k : M σ _) s₁ = (.ok ps, s') ∧ ((readPacket pr : M σ _) s').1 = .hang) := by
          rcases hk : (readMany pr k : M σ _) s₁ with ⟨r, s₂⟩
          cases r with
          | ok as =>
            rw [M.bind_ok hk] at h'
            rcases h' with h' | ⟨ps, s', h1, h2⟩
            · cases h'
            · cases h1; exact .inr ⟨_, _, rfl, h2⟩
          | hang => exact .inl rfl
          | err e => rw [M.bind_err hk] at h'; rcases h' with h' | ⟨ps, s', h1, h2⟩ <;> simp at *
          | panic => rw [M.bind_panic hk] at h'; rcases h' with h' | ⟨ps, s', h1, h2⟩ <;> simp at *
          | pending => rw [M.bind_pending hk] at h'; rcases h' with h' | ⟨ps, s', h1, h2⟩ <;> simp at *
        have := ih s₁ this
        rcases hk : (readMany pr (k + 1) : M σ _) s₁ with ⟨r, s₂⟩
        rw [hk] at this
        cases this
        rw [M.bind_hang hk]
      | hang => rw [M.bind_hang hm]
      | err e => rw [M.bind_err hm] at h'; rcases h' with h' | ⟨ps, s', h1, h2⟩ <;> simp at *
      | panic => rw [M.bind_panic hm] at h'; rcases h' with h' | ⟨ps, s', h1, h2⟩ <;> simp at *
      | pending => rw [M.bind_pending hm] at h'; rcases h' with h' | ⟨ps, s', h1, h2⟩ <;> simp at *
  letI := RStream.source al
  refine hsplit RStream cs.length (RStream.new 4096 segs fin) ?_
  rcases key with h | ⟨s, h1, h2⟩
  · exact .inl h
  · exact .inr ⟨_, s, h1, h2⟩

/-- 5000 zero bytes. -/
def bigPayload : List UInt8 := List.replicate 5000 0

theorem bigPayload_length : bigPayload.length = 5000 := List.length_replicate

/-- A legal PUBLISH with a payload of 5000 bytes. -/
def bigPublish : PublishPacket :=
  { packetId := none, dup := false, message := { topic := "t", payload := bigPayload, qos := .atMostOnce, retain := false } }

theorem bigPublish_legal : Spec.LegalPublish bigPublish := ⟨by decide +kernel, by decide⟩

theorem bigPublish_rest : Spec.publishRest bigPublish = [0, 1, 0x74] ++ bigPayload := by
  unfold Spec.publishRest bigPublish
  rw [show Spec.str "t" = [0, 1, 0x74] by decide +kernel]
  rfl

example : 4096 < bigPublish.message.payload.length ∧ (Spec.publishRest bigPublish).length < 2097152 := by
  rw [bigPublish_rest]; simp [bigPublish, bigPayload_length]

/-- C15, the part that holds: as long as the bytes of the connection so far fit the 4096-byte buffer, packets are received
whatever the fragmentation, and whatever follows them. Missing: everything past the first 4096 bytes of a connection, and every
larger message. -/
theorem C15_large_messages_partial (al : Alloc) (pr : Profile) (cs : List Spec.ClientPacket)
    (hc : ∀ c ∈ cs, Spec.Legal c ∧ Spec.NoWill c ∧ (Spec.clientRest c).length < 2097152)
    (segs : List (List UInt8)) (fin : Ending) (rest : List UInt8)
    (hlen : (cs.flatMap fun c => Spec.packet (Spec.clientFirst c) (Spec.clientRest c)).length ≤ 4096)
    (hsegs : segs.flatten = (cs.flatMap fun c => Spec.packet (Spec.clientFirst c) (Spec.clientRest c)) ++ rest) :
    (received al pr 4096 segs fin cs.length).1 = .ok (cs.map Spec.meaning) := by
  letI := RStream.source al
  have key : ∀ cs : List Spec.ClientPacket,
      (∀ c ∈ cs, Spec.Legal c ∧ Spec.NoWill c ∧ (Spec.clientRest c).length < 2097152) →
      Reads RStream.total RStream.fin (fun s k => s.Wf ∧ k ≤ s.buf.cap) (readMany pr cs.length : M RStream _)
        (cs.flatMap fun c => Spec.packet (Spec.clientFirst c) (Spec.clientRest c)) (cs.map Spec.meaning) := by
    intro cs
    induction cs with
    | nil => intro _ s r k ht hr; exact ⟨s, rfl, by simpa using ht, rfl, by simpa using hr⟩
    | cons c cs ih =>
      intro hc
      obtain ⟨h1, h2, h3⟩ := hc c List.mem_cons_self
      have ih := ih fun c h => hc c (List.mem_cons_of_mem _ h)
      simp only [List.length_cons, readMany, List.flatMap_cons, List.map_cons]
      refine ((RStream.laws al).readPacket pr c h1 h2 (Spec.varInt _) (lengthField_varInt _) (length_varInt_small h3)).bind ?_
      have := ih.bind (f := fun ps => (pure (Spec.meaning c :: ps) : M RStream _)) (bs := [])
        (b := Spec.meaning c :: cs.map Spec.meaning) (fun s r k ht hr => ⟨s, rfl, by simpa using ht, rfl, by simpa using hr⟩)
      simpa using this
  obtain ⟨s', h, _⟩ := key cs hc (RStream.new 4096 segs fin) rest 0
    (by simpa [RStream.total, RStream.new, BytesMut.withCapacity] using hsegs)
    ⟨by simp [RStream.Wf, RStream.new, BytesMut.withCapacity, BytesMut.len],
      by simpa [RStream.new, BytesMut.withCapacity] using hlen⟩
  unfold received
  rw [h]

/-- C14 is violated: there is a byte stream (one legal PUBLISH) on which the reader spins, in every build, under every allocation
policy, however it is split. -/
theorem C14_reader_progress_fails :
    ∃ bytes, ∀ al pr segs fin, segs.flatten = bytes → (received al pr 4096 segs fin 1).1 = .hang := by
  refine ⟨Spec.packet (Spec.publishFirst bigPublish) (Spec.publishRest bigPublish), fun al pr segs fin h => ?_⟩
  exact C15_large_messages_fails al pr [] (by simp) bigPublish bigPublish_legal (by rw [bigPublish_rest]; simp [bigPayload_length])
    (by simp [bigPublish, bigPayload_length]) segs fin [] (by simpa using h)

/-- C14, the part that holds: while the client has sent fewer bytes than the buffer holds, reading any number of packets, well-formed
or not, never spins. Missing: longer streams. -/
theorem C14_reader_progress_partial (al : Alloc) (pr : Profile) (size : Nat) (segs : List (List UInt8)) (fin : Ending) (k : Nat)
    (h : segs.flatten.length < size) : (received al pr size segs fin k).1 ≠ .hang := by
  have h := readMany_sim al closed_small pr k (RStream.new size segs fin) _ (rel_new size segs fin)
    (by simpa [Small, RStream.total, RStream.new, BytesMut.withCapacity] using h)
  unfold received
  letI := RStream.source al
  rcases hm : (readMany pr k : M RStream _) (RStream.new size segs fin) with ⟨r, s'⟩
  rw [hm] at h
  cases r with
  | hang => exact h.elim
  | ok | err | panic | pending => simp

example : ([[0x30], [0xFF, 0xFF]] : List (List UInt8)).flatten.length < 4096 := by decide

/-! ### C16 and C17 -/

theorem WStream.wfq_new (n : Nat) (script : List WriteOutcome) : WStream.WfQ (fun _ => True) (WStream.new n script) :=
  ⟨WStream.new_wf n script, fun _ _ => trivial⟩

theorem writeAll_emits (al : Alloc) (Q : WriteOutcome → Prop) (ps : List ControlPacket) (hp : ∀ p ∈ ps, Spec.ServerPacket p) :
    Emits WStream.out (WStream.WfQ Q) (WStream.WfQ Q) (writeAll al ps) (wireOf ps) (WStream.WfQ Q) := by
  letI := WStream.sink al
  induction ps with
  | nil => exact Emits.pure
  | cons p ps ih =>
    have h1 := hp p List.mem_cons_self
    have ih := ih fun p h => hp p (List.mem_cons_of_mem _ h)
    obtain ⟨bs, hbs, _⟩ := C04_wire_format p h1
    have := ((WStream.laws Q al).writePacket p h1 bs hbs).seq (k := fun _ => writeAll al ps) ih
    refine this.congr ?_
    simp [wireOf, hbs]

/-- C16. Whatever the socket does (`script`: how many bytes each write accepts, which writes fail, when it stops accepting), writing
packets one after the other keeps exactly their concatenated wire encodings in socket and buffer: all of it when every write
returned, a beginning of it if a write failed or never returns. Stopping `script` at any point gives the state at that moment. -/
theorem C16_writer_faithful (al : Alloc) (size : Nat) (script : List WriteOutcome) (ps : List ControlPacket)
    (hp : ∀ p ∈ ps, Spec.ServerPacket p) :
    match writeAll al ps (WStream.new size script) with
    | (.ok _, s) => allBytes s = wireOf ps
    | (.err _, s) => allBytes s <+: wireOf ps
    | (.pending, s) => allBytes s <+: wireOf ps
    | (.panic, _) => False
    | (.hang, _) => False := by
  have h := writeAll_emits al (fun _ => True) ps hp (WStream.new size script) (WStream.wfq_new size script)
  have ho : WStream.out (WStream.new size script) = [] := rfl
  rcases hw : writeAll al ps (WStream.new size script) with ⟨r, s⟩
  rw [hw, ho] at h
  cases r with
  | ok _ => exact h.1
  | err _ => obtain ⟨⟨pre, h1, h2⟩, _⟩ := h; show s.out <+: _; rw [h2]; exact h1
  | pending => obtain ⟨⟨pre, h1, h2⟩, _⟩ := h; show s.out <+: _; rw [h2]; exact h1
  | panic => exact h
  | hang => exact h

example : wireOf [.pingResp, .unsubAck 7] = [0xD0, 0, 0xB0, 2, 0, 7] := by decide +kernel

theorem writeOn_wf (al : Alloc) (ps : List ControlPacket) (hp : ∀ p ∈ ps, (Spec.serverBytes p).isSome = true) (s : WStream)
    (hs : WStream.WfQ (fun _ => True) s) : WStream.WfQ (fun _ => True) (writeOn al ps s) := by
  letI := WStream.sink al
  induction ps generalizing s with
  | nil => exact hs
  | cons p ps ih =>
    refine ih (fun p h => hp p (List.mem_cons_of_mem _ h)) _ ?_
    obtain ⟨bs, h⟩ := (WStream.laws (fun _ => True) al).writePacket_any p (hp p List.mem_cons_self)
    have h := h s hs
    rcases hw : (writePacket p : M WStream Unit) s with ⟨r, s'⟩
    rw [hw] at h
    cases r with
    | ok _ => exact h.2
    | err _ => exact h.2
    | pending => exact h.2
    | panic => exact h.elim
    | hang => exact h.elim

/-- C17. After any earlier writes, successful or not, writing a packet of a kind the server sends (legal or not) ends: it neither
spins nor panics, whatever the socket does. -/
theorem C17_writer_terminates (al : Alloc) (size : Nat) (script : List WriteOutcome) (ps : List ControlPacket) (p : ControlPacket)
    (hp : ∀ q ∈ ps ++ [p], (Spec.serverBytes q).isSome = true) :
    letI := WStream.sink al
    ((writePacket p : M WStream Unit) (writeOn al ps (WStream.new size script))).1 ≠ .hang
    ∧ ((writePacket p : M WStream Unit) (writeOn al ps (WStream.new size script))).1 ≠ .panic := by
  letI := WStream.sink al
  have hs := writeOn_wf al ps (fun q h => hp q (by simp [h])) _ (WStream.wfq_new size script)
  obtain ⟨bs, h⟩ := (WStream.laws (fun _ => True) al).writePacket_any p (hp p (by simp))
  have h := h _ hs
  rcases hw : (writePacket p : M WStream Unit) (writeOn al ps (WStream.new size script)) with ⟨r, s'⟩
  rw [hw] at h
  cases r with
  | ok _ | err _ | pending => simp
  | panic => exact h.elim
  | hang => exact h.elim

/-- Any PUBLISH is of such a kind, even one with a topic too long for its length field. -/
example (q : PublishPacket) : ∀ r ∈ [ControlPacket.pingResp] ++ [.publish q], (Spec.serverBytes r).isSome = true := by
  simp [Spec.serverBytes]

/-! ### C18 -/

theorem putU8_buffered (al : Alloc) (b : UInt8) (cap : Nat) (data wire : List UInt8) (script : List WriteOutcome)
    (h : data.length + 1 < cap) :
    WStream.putU8 al b ⟨⟨0, cap, data⟩, wire, script⟩ = (.ok (), ⟨⟨0, cap, data ++ [b]⟩, wire, script⟩) := by
  have h1 : ¬ data.length + 1 ≥ cap := by omega
  have h2 : 1 ≤ cap - data.length := by omega
  have h3 : WStream.writeBufferIfTooSmall al 1 ⟨⟨0, cap, data⟩, wire, script⟩ = (.ok (), ⟨⟨0, cap, data⟩, wire, script⟩) := by
    simp [WStream.writeBufferIfTooSmall, BytesMut.len, h1]
  unfold WStream.putU8
  rw [M.bind_ok h3]
  unfold WStream.bufPut
  simp [BytesMut.len, h1, BytesMut.put, BytesMut.reserve, h2]

theorem putU16_buffered (al : Alloc) (n : UInt16) (cap : Nat) (data wire : List UInt8) (script : List WriteOutcome)
    (h : data.length + 2 < cap) :
    WStream.putU16 al n ⟨⟨0, cap, data⟩, wire, script⟩ = (.ok (), ⟨⟨0, cap, data ++ u16Bytes n⟩, wire, script⟩) := by
  have h1 : ¬ data.length + 2 ≥ cap := by omega
  have h2 : 2 ≤ cap - data.length := by omega
  have h3 : WStream.writeBufferIfTooSmall al 2 ⟨⟨0, cap, data⟩, wire, script⟩ = (.ok (), ⟨⟨0, cap, data⟩, wire, script⟩) := by
    simp [WStream.writeBufferIfTooSmall, BytesMut.len, h1]
  unfold WStream.putU16
  rw [M.bind_ok h3]
  unfold WStream.bufPut
  simp [BytesMut.len, h1, BytesMut.put, BytesMut.reserve, h2, u16Bytes]

theorem writePingResp_buffered (al : Alloc) (cap : Nat) (data wire : List UInt8) (script : List WriteOutcome)
    (h : data.length + 2 < cap) :
    letI := WStream.sink al
    (writeBody .pingResp : M WStream Unit) ⟨⟨0, cap, data⟩, wire, script⟩
      = (.ok (), ⟨⟨0, cap, data ++ [0xD0, 0]⟩, wire, script⟩) := by
  letI := WStream.sink al
  show (writePingResp : M WStream Unit) _ = _
  unfold writePingResp
  have h1 : (ByteSink.putU8 (packetTypePingResp <<< 4) : M WStream Unit) ⟨⟨0, cap, data⟩, wire, script⟩
    = (.ok (), ⟨⟨0, cap, data ++ [0xD0]⟩, wire, script⟩) := putU8_buffered al _ _ _ _ _ (by omega)
  rw [M.bind_ok h1, encodeRemainingLength]
  have h2 : (ByteSink.putU8 0 : M WStream Unit) ⟨⟨0, cap, data ++ [0xD0]⟩, wire, script⟩
    = (.ok (), ⟨⟨0, cap, data ++ [0xD0] ++ [0]⟩, wire, script⟩) := putU8_buffered al _ _ _ _ _ (by simp; omega)
  simp only [Nat.zero_div, Nat.zero_mod, gt_iff_lt, Nat.lt_irrefl, ↓reduceIte, ↓reduceDIte]
  rw [show UInt8.ofNat 0 = 0 by rfl, M.bind_ok h2]
  simp

/-- C18 is violated: writing a PINGRESP to a socket that takes one byte at a time reports success with the second byte still in the
buffer. Nothing will ever write it unless another packet follows. -/
theorem C18_packet_reaches_socket_fails (al : Alloc) (more : List WriteOutcome) :
    ∃ s, writeAll al [.pingResp] (WStream.new 4096 (.accept 0 :: more)) = (.ok (), s)
      ∧ s.wire = [0xD0] ∧ s.buf.data = [0] ∧ s.script = more := by
  letI := WStream.sink al
  have h : (writeBody .pingResp : M WStream Unit) (WStream.new 4096 (.accept 0 :: more)) = _ :=
    writePingResp_buffered al 4096 [] [] (.accept 0 :: more) (by decide)
  have hf : (ByteSink.finishPacket : M WStream Unit) ⟨⟨0, 4096, [] ++ [0xD0, 0]⟩, [], .accept 0 :: more⟩
      = (.ok (), ⟨BytesMut.advance al ⟨0, 4096, [0xD0, 0]⟩ 1, [0xD0], more⟩) := rfl
  refine ⟨⟨BytesMut.advance al ⟨0, 4096, [0xD0, 0]⟩ 1, [0xD0], more⟩, ?_, rfl,
    (BytesMut.advance_data al ⟨0, 4096, [0xD0, 0]⟩ 1).trans rfl, rfl⟩
  · unfold writeAll writeAll writePacket
    rw [M.bind_assoc', M.bind_ok h, M.bind_ok hf]
    rfl

/-- C18, the part that holds: when every write the socket performs accepts all it is offered, a packet whose writing returned
successfully is on the socket. Missing: partial writes. -/
theorem C18_packet_reaches_socket_partial (al : Alloc) (size : Nat) (script : List WriteOutcome) (ps : List ControlPacket)
    (hp : ∀ p ∈ ps, Spec.ServerPacket p) (hscript : ∀ o ∈ script, ∃ k, o = .accept k ∧ (wireOf ps).length ≤ k + 1)
    (s : WStream) (h : writeAll al ps (WStream.new size script) = (.ok (), s)) : s.wire = wireOf ps ∧ s.buf.data = [] := by
  letI := WStream.sink al
  generalize hN : (wireOf ps).length = N at hscript
  have key : ∀ (ps : List ControlPacket), (∀ p ∈ ps, Spec.ServerPacket p) → ∀ s₀ s : WStream,
      WStream.WfQ (fun o => ∃ k, o = .accept k ∧ N ≤ k + 1) s₀ → s₀.buf.data = [] → s₀.wire.length + (wireOf ps).length ≤ N →
      writeAll al ps s₀ = (.ok (), s) → s.wire = s₀.wire ++ wireOf ps ∧ s.buf.data = [] := by
    intro ps
    induction ps with
    | nil => intro _ s₀ s _ he _ h; cases h; exact ⟨by simp [wireOf], he⟩
    | cons p ps ih =>
      intro hp s₀ s hwf he hlen h
      obtain ⟨bs, hbs, _⟩ := C04_wire_format p (hp p List.mem_cons_self)
      have hw : wireOf (p :: ps) = bs ++ wireOf ps := by simp [wireOf, hbs]
      rw [hw] at hlen ⊢
      unfold writeAll writePacket at h
      obtain ⟨u, s₂, h1, h2⟩ := M.bind_eq_ok.mp h
      obtain ⟨u', s₁, h3, h4⟩ := M.bind_eq_ok.mp h1
      have hb := (WStream.laws (fun o => ∃ k, o = .accept k ∧ N ≤ k + 1) al).writeBody p (hp p List.mem_cons_self) bs hbs s₀ hwf
      have hfin := (WStream.laws (fun o => ∃ k, o = .accept k ∧ N ≤ k + 1) al).finishPacket s₁
      rw [h3] at hb
      obtain ⟨hout, hwf1, hne⟩ := hb
      have hfin := hfin hwf1
      rw [h4] at hfin
      have hs2 : s₂.wire = s₀.wire ++ bs ∧ s₂.buf.data = [] := by
        have h4 : WStream.writeBuf al s₁ = (.ok u, s₂) := h4
        unfold WStream.writeBuf at h4
        simp only [hne, ↓reduceIte] at h4
        rcases s₁ with ⟨buf, wire, script⟩
        cases script with
        | nil => cases h4
        | cons o r =>
          obtain ⟨k, rfl, hk⟩ := hwf1.2 o List.mem_cons_self
          simp only [WStream.out, he, List.append_nil] at hout
          have hl := congrArg List.length hout
          simp only [List.length_append] at hl hlen
          have hmin : min (k + 1) buf.len = buf.len := by
            have : buf.data.length = buf.len := rfl
            omega
          simp only [hmin] at h4
          cases h4
          refine ⟨?_, ?_⟩
          · rw [show buf.len = buf.data.length from rfl, List.take_length]; exact hout
          · simp [BytesMut.advance_data, BytesMut.len]
      have := ih (fun p h => hp p (List.mem_cons_of_mem _ h)) s₂ s hfin.2 hs2.2
        (by rw [hs2.1]; simp only [List.length_append] at hlen ⊢; omega) h2
      rw [hs2.1] at this
      exact ⟨by rw [this.1, List.append_assoc], this.2⟩
  have := key ps hp (WStream.new size script) s ⟨WStream.new_wf size script, hscript⟩ rfl (by simp [WStream.new, hN]) h
  simpa [WStream.new] using this

example : (wireOf [.pingResp]).length ≤ 1 + 1 := by decide +kernel

/-- C18 is violated by every packet shorter than the buffer and every socket that takes only a part of it: the write reports success, and
the rest stays in the buffer. -/
theorem C18_short_write_fails (al : Alloc) (size k : Nat) (more : List WriteOutcome) (p : ControlPacket) (hp : Spec.ServerPacket p)
    (bs : List UInt8) (hbs : Spec.serverBytes p = some bs) (hshort : k + 1 < bs.length) (hfit : bs.length < size) :
    ∃ s, writeAll al [p] (WStream.new size (.accept k :: more)) = (.ok (), s)
      ∧ s.wire = bs.take (k + 1) ∧ s.buf.data = bs.drop (k + 1) ∧ s.script = more := by
  letI := WStream.sink al
  have hb : (writeBody p : M WStream Unit) (WStream.new size (.accept k :: more)) = _ :=
    writeBody_puts al p hp bs hbs _ (by simpa [WStream.new, BytesMut.withCapacity, BytesMut.len] using hfit)
  have hne : bs ≠ [] := by rintro rfl; simp at hshort
  have hmin : min (k + 1) bs.length = k + 1 := by omega
  have hf : (ByteSink.finishPacket : M WStream Unit) ⟨⟨0, size, bs⟩, [], .accept k :: more⟩
      = (.ok (), ⟨BytesMut.advance al ⟨0, size, bs⟩ (k + 1), bs.take (k + 1), more⟩) := by
    show WStream.writeBuf al _ = _
    simp [WStream.writeBuf, hne, BytesMut.len, hmin]
  refine ⟨⟨BytesMut.advance al ⟨0, size, bs⟩ (k + 1), bs.take (k + 1), more⟩, ?_, rfl, BytesMut.advance_data al _ _, rfl⟩
  unfold writeAll writeAll writePacket
  rw [M.bind_assoc', M.bind_ok hb]
  simp only [WStream.new, BytesMut.withCapacity, List.nil_append]
  rw [M.bind_ok hf]
  rfl

/-- A SUBACK to a socket that takes three bytes. -/
example : Spec.serverBytes (.subAck ⟨7, [.failure]⟩) = some [0x90, 3, 0, 7, 0x80] := by decide +kernel

/-- C18, the part that holds, for packets of any length: when every write the socket performs accepts as many bytes as the buffer was made
for, which is all it is ever offered, a packet whose writing returned successfully is on the socket. Missing: shorter writes. -/
theorem C18_full_writes_partial (al : Alloc) (size : Nat) (hsize : 2 ≤ size) (script : List WriteOutcome) (ps : List ControlPacket)
    (hp : ∀ p ∈ ps, Spec.ServerPacket p) (hscript : ∀ o ∈ script, ∃ k, o = .accept k ∧ size ≤ k + 1)
    (s : WStream) (h : writeAll al ps (WStream.new size script) = (.ok (), s)) : s.wire = wireOf ps ∧ s.buf.data = [] := by
  letI := WStream.sink al
  have key : ∀ (ps : List ControlPacket) (s₀ : WStream), WStream.Roomy size [] s₀ → s₀.buf.data = [] →
      writeAll al ps s₀ = (.ok (), s) → s.buf.data = [] := by
    intro ps
    induction ps with
    | nil => intro s₀ _ he h; cases h; exact he
    | cons p ps ih =>
      intro s₀ hs he h
      unfold writeAll at h
      obtain ⟨u, s₁, h1, h2⟩ := M.bind_eq_ok.mp h
      have := WStream.writePacket_roomy al hsize p hs
      rw [h1] at this
      exact ih s₁ this.2.1 (this.2.2 rfl) h2
  have h1 := key ps _ ⟨WStream.new_wf size script, by simp [WStream.new, BytesMut.withCapacity], hscript, List.nil_prefix⟩ rfl h
  have h2 := C16_writer_faithful al size script ps hp
  rw [h] at h2
  simp only [allBytes, h1, List.append_nil] at h2
  exact ⟨h2, h1⟩

/-- A PUBLISH of any length the protocol allows, to a socket that takes 4096 bytes at a time. -/
example (al : Alloc) (q : PublishPacket) (n : Nat) (s : WStream) (hq : Spec.ServerPacket (.publish q))
    (h : writeAll al [.publish q] (WStream.new 4096 (List.replicate n (.accept 4095))) = (.ok (), s)) : s.wire = wireOf [.publish q] :=
  (C18_full_writes_partial al 4096 (by decide) _ _ (by simpa using hq) (fun o ho => ⟨4095, List.eq_of_mem_replicate ho, by decide⟩) s h).1

/-! ### C70 -/

/-- C70 is violated. The write loop is to send a PUBLISH with a payload of 5000 bytes, then a PINGRESP; the first write fails. The
socket gets the header of the PUBLISH directly followed by the PINGRESP, which the client therefore takes for payload. -/
theorem C70_failed_write_fails (al : Alloc) :
    (writeOn al [.publish bigPublish, .pingResp] (WStream.new 4096 [.fail, .accept 4096])).wire
      = [0x30, 0x8B, 0x27, 0, 1, 0x74] ++ [0xD0, 0]
    ∧ ∃ payload, (Spec.serverBytes (.publish bigPublish)) = some ([0x30, 0x8B, 0x27, 0, 1, 0x74] ++ payload) ∧ payload.length = 5000 := by
  letI := WStream.sink al
  have hlen : strLen "t" = 1 := by decide +kernel
  have hbytes : strBytes "t" = [0x74] := by decide +kernel
  have hbody : (writeBody (.publish bigPublish) : M WStream Unit) (WStream.new 4096 [.fail, .accept 4096])
      = (.err .other, ⟨⟨0, 4096, [0x30, 0x8B, 0x27, 0, 1, 0x74]⟩, [], [.accept 4096]⟩) := by
    show (writePublish bigPublish : M WStream Unit) _ = _
    unfold writePublish
    simp only [bigPublish, hlen, bigPayload_length]
    have h1 : (ByteSink.putU8 0x30 : M WStream Unit) (WStream.new 4096 [.fail, .accept 4096])
        = (.ok (), ⟨⟨0, 4096, [0x30]⟩, [], [.fail, .accept 4096]⟩) := putU8_buffered al _ _ _ _ _ (by decide)
    have h2 : (ByteSink.putU8 0x8B : M WStream Unit) ⟨⟨0, 4096, [0x30]⟩, [], [.fail, .accept 4096]⟩
        = (.ok (), ⟨⟨0, 4096, [0x30, 0x8B]⟩, [], [.fail, .accept 4096]⟩) := putU8_buffered al _ _ _ _ _ (by decide)
    have h3 : (ByteSink.putU8 0x27 : M WStream Unit) ⟨⟨0, 4096, [0x30, 0x8B]⟩, [], [.fail, .accept 4096]⟩
        = (.ok (), ⟨⟨0, 4096, [0x30, 0x8B, 0x27]⟩, [], [.fail, .accept 4096]⟩) := putU8_buffered al _ _ _ _ _ (by decide)
    have h4 : (ByteSink.putU16 1 : M WStream Unit) ⟨⟨0, 4096, [0x30, 0x8B, 0x27]⟩, [], [.fail, .accept 4096]⟩
        = (.ok (), ⟨⟨0, 4096, [0x30, 0x8B, 0x27, 0, 1]⟩, [], [.fail, .accept 4096]⟩) := putU16_buffered al _ _ _ _ _ (by decide)
    have h5 : (ByteSink.putBytes [0x74] : M WStream Unit) ⟨⟨0, 4096, [0x30, 0x8B, 0x27, 0, 1]⟩, [], [.fail, .accept 4096]⟩
        = (.ok (), ⟨⟨0, 4096, [0x30, 0x8B, 0x27, 0, 1, 0x74]⟩, [], [.fail, .accept 4096]⟩) := by
      show WStream.putBytes al _ _ = _
      rw [WStream.putBytes]
      simp [WStream.writeBufferIfTooSmall, BytesMut.len, BytesMut.put, BytesMut.reserve]
      rw [WStream.putBytes]
      simp
    have h6 : (ByteSink.putBytes bigPayload : M WStream Unit)
          ⟨⟨0, 4096, [0x30, 0x8B, 0x27, 0, 1, 0x74]⟩, [], [.fail, .accept 4096]⟩
        = (.err .other, ⟨⟨0, 4096, [0x30, 0x8B, 0x27, 0, 1, 0x74]⟩, [], [.accept 4096]⟩) := by
      show WStream.putBytes al _ _ = _
      rw [WStream.putBytes]
      simp [WStream.writeBufferIfTooSmall, WStream.writeBuf, BytesMut.len, bigPayload_length]
    have hrl : (encodeRemainingLength 5003 : M WStream Unit) ⟨⟨0, 4096, [0x30]⟩, [], [.fail, .accept 4096]⟩
        = (.ok (), ⟨⟨0, 4096, [0x30, 0x8B, 0x27]⟩, [], [.fail, .accept 4096]⟩) := by
      rw [encodeRemainingLength]
      simp only [show (5003 / 128 : Nat) = 39 by rfl, show (5003 % 128 : Nat) = 11 by rfl]
      rw [show (if (39 : Nat) > 0 then UInt8.ofNat 11 ||| 128 else UInt8.ofNat 11) = 0x8B by decide, M.bind_ok h2]
      simp only [show ¬ (39 : Nat) = 0 by decide, ↓reduceDIte]
      rw [encodeRemainingLength]
      simp only [show (39 / 128 : Nat) = 0 by rfl, show (39 % 128 : Nat) = 39 by rfl]
      rw [show (if (0 : Nat) > 0 then UInt8.ofNat 39 ||| 128 else UInt8.ofNat 39) = 0x27 by decide, M.bind_ok h3]
      rfl
    have hstr : (putString "t" : M WStream Unit) ⟨⟨0, 4096, [0x30, 0x8B, 0x27]⟩, [], [.fail, .accept 4096]⟩
        = (.ok (), ⟨⟨0, 4096, [0x30, 0x8B, 0x27, 0, 1, 0x74]⟩, [], [.fail, .accept 4096]⟩) := by
      unfold putString
      rw [hlen, hbytes, show UInt16.ofNat 1 = 1 by rfl, M.bind_ok h4, h5]
    have hlast : ∀ x : M WStream Unit, x = (ByteSink.putBytes bigPayload : M WStream Unit) →
        (do ByteSink.putU8 0x30; encodeRemainingLength 5003; putString "t"; x : M WStream Unit) (WStream.new 4096 [.fail, .accept 4096])
        = (.err .other, ⟨⟨0, 4096, [0x30, 0x8B, 0x27, 0, 1, 0x74]⟩, [], [.accept 4096]⟩) := by
      rintro x rfl
      rw [M.bind_ok h1, M.bind_ok hrl, M.bind_ok hstr, h6]
    exact hlast _ rfl
  have hp : (writePacket (.publish bigPublish) : M WStream Unit) (WStream.new 4096 [.fail, .accept 4096])
      = (.err .other, ⟨⟨0, 4096, [0x30, 0x8B, 0x27, 0, 1, 0x74]⟩, [], [.accept 4096]⟩) := by
    unfold writePacket
    rw [M.bind_err hbody]
  refine ⟨?_, bigPayload, ?_, bigPayload_length⟩
  · have hping := writePingResp_buffered al 4096 [0x30, 0x8B, 0x27, 0, 1, 0x74] [] [.accept 4096] (by decide)
    have hq : ((writePacket .pingResp : M WStream Unit) ⟨⟨0, 4096, [0x30, 0x8B, 0x27, 0, 1, 0x74]⟩, [], [.accept 4096]⟩).2.wire
        = [0x30, 0x8B, 0x27, 0, 1, 0x74] ++ [0xD0, 0] := by
      unfold writePacket
      rw [M.bind_ok hping]
      rfl
    unfold writeOn
    rw [hp]
    exact hq
  · show some (Spec.packet (Spec.publishFirst bigPublish) (Spec.publishRest bigPublish)) = _
    unfold Spec.packet
    rw [bigPublish_rest]
    simp only [List.length_append, bigPayload_length, List.length_cons, List.length_nil]
    rw [Spec.varInt, Spec.varInt]
    rfl

/-- C70, the part that holds: on a connection on which fewer bytes are sent than the buffer holds, nothing is lost or cut, whichever
writes fail and however little the others take: socket and buffer together always hold exactly the packets. Missing: longer
connections, see `C70_pieces_partial`. -/
theorem C70_failed_write_partial (al : Alloc) (size : Nat) (script : List WriteOutcome) (ps : List ControlPacket)
    (hp : ∀ p ∈ ps, Spec.ServerPacket p) (hfit : (wireOf ps).length < size) :
    allBytes (writeOn al ps (WStream.new size script)) = wireOf ps := by
  have key : ∀ (ps : List ControlPacket), (∀ p ∈ ps, Spec.ServerPacket p) → ∀ s : WStream,
      s.buf.len + (wireOf ps).length < s.buf.cap → allBytes (writeOn al ps s) = allBytes s ++ wireOf ps := by
    intro ps
    induction ps with
    | nil => intro _ s _; simp [writeOn, wireOf]
    | cons p ps ih =>
      intro hp s hs
      obtain ⟨bs, hbs, _⟩ := C04_wire_format p (hp p List.mem_cons_self)
      have hw : wireOf (p :: ps) = bs ++ wireOf ps := by simp [wireOf, hbs]
      rw [hw, List.length_append] at hs
      obtain ⟨h1, h2, h3⟩ := writePacket_fits al p (hp p List.mem_cons_self) bs hbs s (by omega)
      rw [writeOn, ih (fun p h => hp p (List.mem_cons_of_mem _ h)) _ (by omega), hw, ← List.append_assoc]
      exact congrArg (· ++ wireOf ps) h1
  simpa [WStream.new, allBytes, BytesMut.withCapacity] using
    key ps hp (WStream.new size script) (by simpa [WStream.new, BytesMut.withCapacity, BytesMut.len] using hfit)

/-- Every write may fail. -/
example (al : Alloc) (n : Nat) :
    allBytes (writeOn al [.pingResp, .unsubAck 7] (WStream.new 4096 (List.replicate n .fail))) = [0xD0, 0, 0xB0, 2, 0, 7] := by
  rw [C70_failed_write_partial al 4096 _ _ (by simp [Spec.ServerPacket]) (by decide +kernel)]
  decide +kernel

/-- The results of the writes of the write loop. -/
def writeResults (al : Alloc) : List ControlPacket → WStream → List (Res Unit)
  | [], _ => []
  | p :: ps, s =>
    letI := WStream.sink al
    ((writePacket p : M WStream Unit) s).1 :: writeResults al ps ((writePacket p : M WStream Unit) s).2

/-- The bytes are a sequence of pieces, one for each packet: the whole packet if its write succeeded, else a beginning of it. -/
def PiecesOf : List ControlPacket → List (Res Unit) → List UInt8 → Prop
  | [], [], bs => bs = []
  | p :: ps, r :: rs, bs => ∃ piece rest, bs = piece ++ rest
      ∧ (if r = .ok () then some piece = Spec.serverBytes p else ∃ more, Spec.serverBytes p = some (piece ++ more))
      ∧ PiecesOf ps rs rest
  | _, _, _ => False

/-- C70, what holds of every connection: whatever the socket does and however much is sent, socket and buffer together hold one
piece for each packet, in order: the packet itself if its write was reported as successful, otherwise a beginning of it. No packet is
damaged unless its own write failed. -/
theorem C70_pieces_partial (al : Alloc) (size : Nat) (script : List WriteOutcome) (ps : List ControlPacket)
    (hp : ∀ p ∈ ps, Spec.ServerPacket p) :
    PiecesOf ps (writeResults al ps (WStream.new size script)) (allBytes (writeOn al ps (WStream.new size script))) := by
  letI := WStream.sink al
  have key : ∀ (ps : List ControlPacket), (∀ p ∈ ps, Spec.ServerPacket p) → ∀ s : WStream, WStream.WfQ (fun _ => True) s →
      ∃ rest, allBytes (writeOn al ps s) = allBytes s ++ rest ∧ PiecesOf ps (writeResults al ps s) rest := by
    intro ps
    induction ps with
    | nil => intro _ s _; exact ⟨[], by simp [writeOn], rfl⟩
    | cons p ps ih =>
      intro hp s hs
      obtain ⟨bs, hbs, _⟩ := C04_wire_format p (hp p List.mem_cons_self)
      have h := (WStream.laws (fun _ => True) al).writePacket p (hp p List.mem_cons_self) bs hbs s hs
      simp only [writeOn, writeResults]
      rcases hw : (writePacket p : M WStream Unit) s with ⟨r, s'⟩
      rw [hw] at h
      have hnext : ∀ piece, allBytes s' = allBytes s ++ piece → WStream.WfQ (fun _ => True) s' →
          (if r = .ok () then some piece = Spec.serverBytes p else ∃ more, Spec.serverBytes p = some (piece ++ more)) →
          ∃ rest, allBytes (writeOn al ps s') = allBytes s ++ rest ∧ PiecesOf (p :: ps) (r :: writeResults al ps s') rest := by
        intro piece h1 h2 h3
        obtain ⟨rest, h4, h5⟩ := ih (fun p h => hp p (List.mem_cons_of_mem _ h)) s' h2
        exact ⟨piece ++ rest, by rw [h4, h1, List.append_assoc], piece, rest, rfl, h3, h5⟩
      cases r with
      | ok _ => exact hnext bs h.1 h.2 (by simp [hbs])
      | err e =>
        obtain ⟨⟨pre, ⟨more, hm⟩, ho⟩, hI⟩ := h
        exact hnext pre ho hI (by simp only [reduceCtorEq, ↓reduceIte]; exact ⟨more, by rw [hbs, hm]⟩)
      | pending =>
        obtain ⟨⟨pre, ⟨more, hm⟩, ho⟩, hI⟩ := h
        exact hnext pre ho hI (by simp only [reduceCtorEq, ↓reduceIte]; exact ⟨more, by rw [hbs, hm]⟩)
      | panic => exact h.elim
      | hang => exact h.elim
  obtain ⟨rest, h1, h2⟩ := key ps hp (WStream.new size script) (WStream.wfq_new size script)
  rw [h1]
  exact h2

/-- In the witness of `C70_failed_write_fails` the second write succeeds. -/
example (al : Alloc) : Spec.ServerPacket (.publish bigPublish) ∧
    PiecesOf [.pingResp] (writeResults al [.pingResp] (WStream.new 4096 [])) [0xD0, 0] :=
  ⟨⟨by decide +kernel, by decide⟩, by
    have := C70_pieces_partial al 4096 [] [.pingResp] (by simp [Spec.ServerPacket])
    rwa [C70_failed_write_partial al 4096 _ _ (by simp [Spec.ServerPacket]) (by decide +kernel),
      show wireOf [.pingResp] = [0xD0, 0] by decide +kernel] at this⟩

end Ratel
