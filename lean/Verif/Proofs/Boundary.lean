/-
The end of the read buffer: while the first bytes of a connection, as many as the buffer was made for, are consumed, the capacity
left is exactly what was not consumed; a text or payload that reaches beyond makes the reader spin.
-/
import Verif.Proofs.Reject

namespace Ratel

open Decoder

namespace RStream

/-- Consuming bytes shrinks the capacity by exactly as much: the library does not reset emptied buffers, or the buffer is full, or
it is about to be filled at once. -/
def Steady (al : Alloc) (s : RStream) : Prop :=
  al.clearOnFullAdvance = false ∨ s.buf.len = s.buf.cap ∨ (s.buf.data = [] ∧ ∃ x, s.segs = [x] ∧ s.buf.cap ≤ x.length)

theorem wait_steady (al : Alloc) (n : Nat) (s : RStream) (hwf : s.Wf) (h0 : 0 < n) (hn : n ≤ s.total.length) (hc : n ≤ s.buf.cap)
    (hs : Steady al s) :
    ∃ s', waitForData al n s = (.ok (), s') ∧ s'.total = s.total ∧ s'.fin = s.fin ∧ s'.Wf ∧ n ≤ s'.buf.len
      ∧ s'.buf.cap = s.buf.cap ∧ (al.clearOnFullAdvance = false ∨ s'.buf.len = s'.buf.cap) := by
  obtain ⟨s', h1, h2, h3, h4, h5, h6, _, _⟩ := waitForData_ok al n s hwf hn
  refine ⟨s', h1, h2, h3, h4, h5, (h6 hc).2, ?_⟩
  rcases hs with hs | hs | ⟨hd, x, hx, hl⟩
  · exact .inl hs
  · refine .inr ?_
    have hlt : ¬ s.buf.len < n := by omega
    rw [waitForData, if_neg hlt] at h1
    cases h1
    exact hs
  · refine .inr ?_
    have hlen : s.buf.len = 0 := by simp [BytesMut.len, hd]
    have hlt : s.buf.len < n := by omega
    have hroom : ¬ s.buf.cap = s.buf.len := by omega
    have hxne : x ≠ [] := by intro h; subst h; simp at hl; omega
    have hdrop : dropEmpty s.segs = [x] := by
      rw [hx]
      cases x with
      | nil => exact absurd rfl hxne
      | cons a l => rfl
    have hread : readBuf al s
        = (.ok s.buf.cap, ⟨{ s.buf with data := x.take s.buf.cap }, [x.drop s.buf.cap], s.fin⟩) := by
      unfold readBuf
      have hk : min x.length (s.buf.cap - s.buf.len) = s.buf.cap := by omega
      simp only [if_neg hroom, hdrop, hk, hd, List.nil_append]
    have h1' := h1
    unfold waitForData at h1'
    rw [if_pos hlt] at h1'
    have hcne : ¬ s.buf.cap = 0 := by omega
    have hfull : ((⟨{ s.buf with data := x.take s.buf.cap }, [x.drop s.buf.cap], s.fin⟩ : RStream)).buf.len = s.buf.cap := by
      simp [BytesMut.len, Nat.min_eq_left hl]
    split at h1'
    · rename_i k s'' hk
      rw [hread] at hk
      cases hk
      rw [if_neg hcne, waitForData, if_neg (by rw [hfull]; omega)] at h1'
      cases h1'
      exact hfull
    all_goals (rename_i hk; rw [hread] at hk; cases hk)

/-- The stream can still be read for `k` bytes before just `c` bytes of capacity are left. -/
def Ahead (al : Alloc) (c : Nat) (s : RStream) (k : Nat) : Prop := s.Wf ∧ s.buf.cap = k + c ∧ Steady al s

theorem advance_ahead (al : Alloc) (c k n : Nat) (hc : 0 < c) (s : RStream) (hwf : s.Wf) (hn : n ≤ s.buf.len)
    (hcap : s.buf.cap = k + n + c) (hs : al.clearOnFullAdvance = false ∨ s.buf.len = s.buf.cap) :
    Ahead al c { s with buf := s.buf.advance al n } k := by
  have hnc : ¬ (al.clearOnFullAdvance = true ∧ n = s.buf.len) := by
    rintro ⟨h1, h2⟩
    rcases hs with hs | hs
    · rw [hs] at h1; cases h1
    · omega
  refine ⟨BytesMut.advance_wf al _ _ hwf, ?_, ?_⟩
  · simp only [BytesMut.advance, if_neg hnc, BytesMut.splitTo]; omega
  · rcases hs with hs | hs
    · exact .inl hs
    · refine .inr (.inl ?_)
      show (s.buf.advance al n).data.length = (s.buf.advance al n).cap
      have : s.buf.data.length = s.buf.len := rfl
      simp only [BytesMut.advance, if_neg hnc, BytesMut.splitTo, List.length_drop]
      omega

theorem splitTo_ahead (al : Alloc) (c k n : Nat) (s : RStream) (hwf : s.Wf) (hcap : s.buf.cap = k + n + c)
    (hs : al.clearOnFullAdvance = false ∨ s.buf.len = s.buf.cap) : Ahead al c { s with buf := s.buf.splitTo n } k := by
  refine ⟨?_, ?_, ?_⟩
  · simp only [Wf, BytesMut.splitTo, BytesMut.len, List.length_drop] at *; omega
  · simp only [BytesMut.splitTo]; omega
  · rcases hs with hs | hs
    · exact .inl hs
    · refine .inr (.inl ?_)
      simp only [BytesMut.splitTo, BytesMut.len, List.length_drop] at hs ⊢
      omega

/-- The buffered stream is lawful before the end of the buffer, and consumes it byte by byte. -/
theorem lawsAhead (al : Alloc) (c : Nat) (hc : 0 < c) :
    @SourceLaws RStream (RStream.source al) RStream.total RStream.fin (Ahead al c) := by
  letI := RStream.source al
  constructor
  · exact (RStream.laws al).avail
  · rintro s b r k h ⟨hwf, hcap, hst⟩
    obtain ⟨s₁, h1, ht, hf, hw, hl, hce, hst'⟩ := wait_steady al 1 s hwf (by omega) (by simp [h]) (by omega) hst
    obtain ⟨s', h2, hcon⟩ := getU8_ok al s hwf b r h
    have hb : ∃ r', s₁.buf.data = b :: r' := by
      cases hd : s₁.buf.data with
      | nil => simp [BytesMut.len, hd] at hl
      | cons x r' =>
        rw [h] at ht
        simp [total, hd] at ht
        exact ⟨r', by rw [ht.1]⟩
    obtain ⟨r', hb⟩ := hb
    have h3 : getU8 al s = (.ok b, { s₁ with buf := s₁.buf.advance al 1 }) := by
      unfold getU8
      refine (M.bind_ok h1).trans ?_
      simp [hb]
    rw [h2] at h3
    cases h3
    have hbs := hcon.bytes
    rw [h] at hbs
    exact ⟨_, h2, by simpa using hbs.symm, hcon.fin, advance_ahead al c k 1 hc s₁ hw hl (by omega) hst'⟩
  · rintro s hi lo r k h ⟨hwf, hcap, hst⟩
    obtain ⟨s₁, h1, ht, hf, hw, hl, hce, hst'⟩ := wait_steady al 2 s hwf (by omega) (by simp [h]) (by omega) hst
    obtain ⟨s', h2, hcon⟩ := getU16_ok al s hwf hi lo r h
    have hb : ∃ r', s₁.buf.data = hi :: lo :: r' := by
      match hd : s₁.buf.data with
      | [] => simp [BytesMut.len, hd] at hl
      | [x] => simp [BytesMut.len, hd] at hl
      | x :: y :: r' =>
        rw [h] at ht
        simp [total, hd] at ht
        exact ⟨r', by rw [ht.1, ht.2.1]⟩
    obtain ⟨r', hb⟩ := hb
    have h3 : getU16 al s = (.ok (u16OfBytes hi lo), { s₁ with buf := s₁.buf.advance al 2 }) := by
      unfold getU16
      refine (M.bind_ok h1).trans ?_
      simp [hb]
    rw [h2] at h3
    cases h3
    have hbs := hcon.bytes
    rw [h] at hbs
    exact ⟨_, h2, by simpa using hbs.symm, hcon.fin, advance_ahead al c k 2 hc s₁ hw hl (by omega) hst'⟩
  · rintro s bs r k h ⟨hwf, hcap, hst⟩ hi
    have hi' : ¬ bs.length > isizeMax := by omega
    by_cases h0 : bs.length = 0
    · have hbs : bs = [] := List.eq_nil_of_length_eq_zero h0
      subst hbs
      refine ⟨s, ?_, by simpa using h, rfl, hwf, by simpa using hcap, hst⟩
      simp only [ByteSource.getBytes, RStream.getBytes, hi', ↓reduceIte]
      rw [getBytesLoop]
      simp
    · obtain ⟨s₁, h1, ht, hf, hw, hl, hce, hst'⟩ :=
        wait_steady al bs.length s hwf (by omega) (by simp [h]) (by omega) hst
      have htake : s₁.buf.data.take bs.length = bs := by
        have h2 : s₁.buf.data.take bs.length = s₁.total.take bs.length := by rw [total, List.take_append_of_le_length hl]
        rw [h2, ht, h]
        simp
      refine ⟨{ s₁ with buf := s₁.buf.splitTo bs.length }, ?_, ?_, hf, splitTo_ahead al c k bs.length s₁ hw (by omega) hst'⟩
      · simp only [ByteSource.getBytes, RStream.getBytes, hi', ↓reduceIte]
        rw [getBytesLoop]
        have hr : s.roundSize bs.length = bs.length := by unfold roundSize; split <;> omega
        simp only [h0, ↓reduceIte, hr, h1, Nat.sub_self]
        rw [getBytesLoop]
        simp [htake]
      · have hb := (splitTo_consumed s₁ hw bs.length hl).bytes
        rw [htake, ht, h] at hb
        exact (List.append_cancel_left hb).symm

/-- Asking for more than the capacity left. -/
theorem getBytes_ahead (al : Alloc) (c n : Nat) (s : RStream) (h : Ahead al c s 0) (hn : c < n) (hi : n ≤ isizeMax)
    (ht : n ≤ s.total.length) : ∃ s', RStream.getBytes al n s = (.hang, s') := by
  obtain ⟨hw, hcap, _⟩ := h
  obtain ⟨s', h1⟩ := getBytesLoop_hang al s hw n [] (by omega) (by omega)
  refine ⟨s', ?_⟩
  unfold RStream.getBytes
  rw [if_neg (by omega), h1]

/-- A PUBLISH whose topic reaches beyond the buffer. -/
theorem topic_beyond (al : Alloc) (pr : Profile) (c : Nat) (hc : 0 < c) (q : PublishPacket) (hl : Spec.LegalPublish q)
    (lf : List UInt8) (hlf : Spec.LengthField lf (Spec.publishRest q).length) (hlen : lf.length ≤ 3)
    (hbig : c < (Spec.utf8 q.message.topic).length) (s : RStream) (r : List UInt8)
    (ht : s.total = Spec.packetWith lf (Spec.publishFirst q) (Spec.publishRest q) ++ r) (hr : Ahead al c s (1 + lf.length + 2)) :
    letI := RStream.source al
    ∃ s', (readPacket pr : M RStream ControlPacket) s = (.hang, s') := by
  letI := RStream.source al
  have L := lawsAhead al c hc
  have htop := hl.topic
  unfold Spec.Fits at htop
  obtain ⟨s₁, h1, t1, _, r1⟩ := L.readU8 (Spec.byte (Spec.publishFirst q)) s (lf ++ Spec.publishRest q ++ r) (lf.length + 2)
    (by rw [ht]; simp [Spec.packetWith]) (by simpa [Nat.add_comm, Nat.add_left_comm] using hr)
  obtain ⟨s₂, h2, t2, _, r2⟩ := L.readLength lf _ hlf hlen s₁ (Spec.publishRest q ++ r) 2 (by rw [t1]; simp)
    (by rwa [Nat.add_comm] at r1)
  have hn : (UInt16.ofNat (Spec.utf8 q.message.topic).length).toNat = (Spec.utf8 q.message.topic).length := by simp; omega
  obtain ⟨s₃, h3, t3, _, r3⟩ := L.readU16 (UInt16.ofNat (Spec.utf8 q.message.topic).length) s₂
    (Spec.utf8 q.message.topic ++ (Spec.optional (fun i : UInt16 => Spec.twoBytes i.toNat) q.packetId ++ q.message.payload ++ r)) 0
    (by rw [t2, hn]; simp [Spec.publishRest, Spec.str]) (by simpa [Spec.twoBytes] using r2)
  obtain ⟨s₄, h4⟩ := getBytes_ahead al c (Spec.utf8 q.message.topic).length s₃ r3 hbig (by unfold isizeMax; omega) (by rw [t3]; simp)
  refine ⟨s₄, ?_⟩
  have htab := SourceLaws.publish_table q.dup q.message.retain q.message.qos
  simp only [Prod.mk.injEq] at htab
  have h5 : Spec.byte (Spec.publishFirst q) >>> 4 = 3 := htab.2.2.2
  have h6 : QoS.fromBits ((Spec.byte (Spec.publishFirst q) &&& 6) >>> 1) = some q.message.qos := htab.2.2.1
  unfold readPacket
  rw [M.bind_ok h1, M.bind_ok h2]
  have hb : decodeBody (σ := RStream) pr (Spec.byte (Spec.publishFirst q)) (Spec.publishRest q).length
      = decodePublish pr (Spec.byte (Spec.publishFirst q)) (Spec.publishRest q).length := by
    unfold decodeBody
    simp only [h5]
    rfl
  rw [hb]
  unfold decodePublish
  simp only [h6]
  refine M.bind_hang ?_
  unfold getString
  rw [M.bind_ok h3, hn]
  exact M.bind_hang h4

/-- A PUBLISH whose payload reaches beyond the buffer. -/
theorem payload_beyond (al : Alloc) (pr : Profile) (c : Nat) (hc : 0 < c) (q : PublishPacket) (hl : Spec.LegalPublish q)
    (lf : List UInt8) (hlf : Spec.LengthField lf (Spec.publishRest q).length) (hlen : lf.length ≤ 3)
    (hbig : c < q.message.payload.length) (s : RStream) (r : List UInt8)
    (ht : s.total = Spec.packetWith lf (Spec.publishFirst q) (Spec.publishRest q) ++ r)
    (hr : Ahead al c s (1 + lf.length + ((Spec.publishRest q).length - q.message.payload.length))) :
    letI := RStream.source al
    ∃ s', (readPacket pr : M RStream ControlPacket) s = (.hang, s') := by
  letI := RStream.source al
  have L := lawsAhead al c hc
  have hsmall := SourceLaws.lengthField_small hlf hlen
  have htop := hl.topic
  unfold Spec.Fits at htop
  have hlr : (Spec.publishRest q).length = (Spec.str q.message.topic).length
      + (Spec.optional (fun i : UInt16 => Spec.twoBytes i.toNat) q.packetId).length + q.message.payload.length := by
    simp only [Spec.publishRest, List.length_append]
  have hstr := SourceLaws.length_str q.message.topic
  have hdiff : (Spec.publishRest q).length - q.message.payload.length = (Spec.str q.message.topic).length
      + (Spec.optional (fun i : UInt16 => Spec.twoBytes i.toNat) q.packetId).length := by omega
  rw [hdiff] at hr
  obtain ⟨s₁, h1, t1, _, r1⟩ := L.readU8 (Spec.byte (Spec.publishFirst q)) s (lf ++ Spec.publishRest q ++ r)
    (lf.length + ((Spec.str q.message.topic).length
      + (Spec.optional (fun i : UInt16 => Spec.twoBytes i.toNat) q.packetId).length))
    (by rw [ht]; simp [Spec.packetWith]) (by
      rw [Nat.add_comm 1, Nat.add_assoc] at hr
      simpa [Nat.add_comm, Nat.add_left_comm] using hr)
  obtain ⟨s₂, h2, t2, _, r2⟩ := L.readLength lf _ hlf hlen s₁ (Spec.publishRest q ++ r) _ (by rw [t1]; simp)
    (by rwa [Nat.add_comm] at r1)
  obtain ⟨s₃, h3, t3, _, r3⟩ := L.readString q.message.topic hl.topic s₂
    (Spec.optional (fun i : UInt16 => Spec.twoBytes i.toNat) q.packetId ++ q.message.payload ++ r) _
    (by rw [t2]; simp [Spec.publishRest]) (by rwa [Nat.add_comm] at r2)
  have htab := SourceLaws.publish_table q.dup q.message.retain q.message.qos
  simp only [Prod.mk.injEq] at htab
  have h5 : Spec.byte (Spec.publishFirst q) >>> 4 = 3 := htab.2.2.2
  have h6 : QoS.fromBits ((Spec.byte (Spec.publishFirst q) &&& 6) >>> 1) = some q.message.qos := htab.2.2.1
  have hid := hl.id
  have hpid : ∃ s₄, (publishPacketId pr q.message.qos ((Spec.publishRest q).length - strLen q.message.topic - 2) : M RStream _) s₃
        = (.ok (q.packetId, q.message.payload.length), s₄)
      ∧ s₄.total = q.message.payload ++ r ∧ Ahead al c s₄ 0 := by
    unfold publishPacketId
    cases hp : q.packetId with
    | none =>
      have hq : q.message.qos = .atMostOnce := by
        cases h : q.message.qos <;> simp [h, hp] at hid ⊢
      rw [hp] at hlr t3 r3
      simp only [Spec.optional, List.length_nil, List.nil_append] at hlr t3 r3
      refine ⟨s₃, ?_, t3, r3⟩
      simp only [hq, QoS.gtAtMostOnce, Bool.false_eq_true, ↓reduceIte]
      rw [show (Spec.publishRest q).length - strLen q.message.topic - 2 = q.message.payload.length by omega]
      rfl
    | some i =>
      have hq : q.message.qos.gtAtMostOnce = true := by
        cases h : q.message.qos <;> simp [h, hp, QoS.gtAtMostOnce] at hid ⊢
      rw [hp] at hlr t3 r3
      simp only [Spec.optional, show (Spec.twoBytes i.toNat).length = 2 from rfl] at hlr t3 r3
      obtain ⟨s₄, h4, t4, _, r4⟩ := L.readU16 i s₃ (q.message.payload ++ r) 0 (by rw [t3]; simp)
        (by simpa [Spec.twoBytes] using r3)
      refine ⟨s₄, ?_, t4, r4⟩
      simp only [hq, ↓reduceIte]
      rw [M.bind_ok (a := q.message.payload.length) (s' := s₃) (by
        unfold subU64
        rw [if_pos (by omega)]
        rw [show (Spec.publishRest q).length - strLen q.message.topic - 2 - 2 = q.message.payload.length by omega]),
        M.bind_ok h4]
      rfl
  obtain ⟨s₄, h4, t4, r4⟩ := hpid
  obtain ⟨s₅, h7⟩ := getBytes_ahead al c q.message.payload.length s₄ r4 hbig (by unfold isizeMax; omega) (by rw [t4]; simp)
  refine ⟨s₅, ?_⟩
  unfold readPacket
  rw [M.bind_ok h1, M.bind_ok h2]
  have hb : decodeBody (σ := RStream) pr (Spec.byte (Spec.publishFirst q)) (Spec.publishRest q).length
      = decodePublish pr (Spec.byte (Spec.publishFirst q)) (Spec.publishRest q).length := by
    unfold decodeBody
    simp only [h5]
    rfl
  rw [hb]
  unfold decodePublish
  simp only [h6]
  rw [M.bind_ok h3]
  rw [M.bind_ok (a := (Spec.publishRest q).length - strLen q.message.topic) (s' := s₃) (by
    unfold subU64; rw [if_pos (by omega)])]
  rw [M.bind_ok (a := (Spec.publishRest q).length - strLen q.message.topic - 2) (s' := s₃) (by
    unfold subU64; rw [if_pos (by omega)])]
  rw [M.bind_ok h4]
  exact M.bind_hang h7

theorem waitForData_noHang (al : Alloc) (w : Nat) (s : RStream) : (waitForData al w s).1 ≠ .hang := by
  fun_induction waitForData al w s with
  | case5 s hlt s'' heq =>
    unfold readBuf at heq
    cases hd : dropEmpty s.segs <;> cases hfin : s.fin <;> simp [hd, hfin] at heq
  | case2 s hlt k s'' heq hk ih => exact ih
  | _ => simp

end RStream

/-- A computation that never spins. -/
def NoHang {σ α : Type} (m : M σ α) : Prop := ∀ s, (m s).1 ≠ .hang

namespace NoHang

variable {σ α β : Type}

theorem pure (a : α) : NoHang (Pure.pure a : M σ α) := fun _ h => by cases h

theorem fail (e : ErrKind) : NoHang (M.fail e : M σ α) := fun _ h => by cases h

theorem bind {m : M σ α} {f : α → M σ β} (hm : NoHang m) (hf : ∀ a, NoHang (f a)) : NoHang (m >>= f) := by
  intro s
  have h := hm s
  rcases hr : m s with ⟨r, s'⟩
  rw [hr] at h
  cases r with
  | ok a => rw [M.bind_ok hr]; exact hf a s'
  | err e => rw [M.bind_err hr]; simp
  | panic => rw [M.bind_panic hr]; simp
  | hang => exact absurd rfl h
  | pending => rw [M.bind_pending hr]; simp

theorem getU8 (al : Alloc) : NoHang (RStream.getU8 al) := by
  refine NoHang.bind (fun s => RStream.waitForData_noHang al 1 s) fun _ s => ?_
  cases s.buf.data <;> simp

theorem getU16 (al : Alloc) : NoHang (RStream.getU16 al) := by
  refine NoHang.bind (fun s => RStream.waitForData_noHang al 2 s) fun _ s => ?_
  match s.buf.data with
  | [] => simp
  | [_] => simp
  | _ :: _ :: _ => simp

theorem remainingLengthLoop (al : Alloc) (rl mu : Nat) (hm : 0 < mu) :
    letI := RStream.source al
    NoHang (decodeRemainingLengthLoop rl mu hm : M RStream Nat) := by
  letI := RStream.source al
  fun_induction decodeRemainingLengthLoop (σ := RStream) rl mu hm with
  | case1 rl mu hm ih =>
    refine (getU8 al).bind fun b => ?_
    dsimp only
    split
    · exact fail _
    · split
      · exact pure _
      · exact ih _ ‹_›

theorem packetId (al : Alloc) (a b : UInt8) :
    letI := RStream.source al
    NoHang (decodePacketWithPacketId a b : M RStream UInt16) := by
  letI := RStream.source al
  unfold decodePacketWithPacketId validateFirstByte
  refine NoHang.bind ?_ fun _ => getU16 al
  split
  · exact pure _
  · exact fail _

end NoHang

end Ratel
