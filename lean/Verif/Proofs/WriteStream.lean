/-
The buffered writer is a lawful byte sink.
-/
import Verif.Proofs.Encoder
import Verif.Proofs.Loop

namespace Ratel

namespace BytesMut

theorem len_reserve (al : Alloc) (b : BytesMut) (n : Nat) : (b.reserve al n).data = b.data := by
  unfold reserve
  split
  · rfl
  · split <;> rfl

theorem cap_reserve (al : Alloc) (b : BytesMut) (n : Nat) (h : b.len ≤ b.cap) : b.len + n ≤ (b.reserve al n).cap := by
  unfold reserve
  split
  · omega
  · split
    · simp only; omega
    · simp only; omega

theorem put_data (al : Alloc) (b : BytesMut) (bs : List UInt8) : (b.put al bs).data = b.data ++ bs := by
  simp [put, len_reserve]

theorem put_wf (al : Alloc) (b : BytesMut) (bs : List UInt8) (h : b.len ≤ b.cap) : (b.put al bs).len ≤ (b.put al bs).cap := by
  have := cap_reserve al b bs.length h
  simp only [put, len, len_reserve, List.length_append] at *
  omega

theorem advance_data (al : Alloc) (b : BytesMut) (n : Nat) : (b.advance al n).data = b.data.drop n := by
  unfold advance
  split
  · rename_i h
    rw [h.2, len]
    simp
  · rfl

theorem advance_wf (al : Alloc) (b : BytesMut) (n : Nat) (h : b.len ≤ b.cap) :
    (b.advance al n).len ≤ (b.advance al n).cap := by
  unfold advance
  split
  · simp [len]
  · simp only [splitTo, len, List.length_drop] at *
    omega

end BytesMut

namespace WStream

/-- All bytes put so far: taken by the socket, then buffered. -/
def out (s : WStream) : List UInt8 := s.wire ++ s.buf.data

/-- The buffer is within its capacity. -/
def Wf (s : WStream) : Prop := s.buf.len ≤ s.buf.cap

/-- …and every answer the socket still has in store satisfies `Q`. -/
def WfQ (Q : WriteOutcome → Prop) (s : WStream) : Prop := Wf s ∧ ∀ o ∈ s.script, Q o

/-- …and the buffer is not empty. -/
def WfNe (Q : WriteOutcome → Prop) (s : WStream) : Prop := WfQ Q s ∧ s.buf.data ≠ []

section

variable (Q : WriteOutcome → Prop)

theorem writeBuf_emits (al : Alloc) : Emits out (WfQ Q) (WfQ Q) (writeBuf al) [] (WfQ Q) := by
  intro s hs
  unfold writeBuf
  by_cases he : s.buf.data = []
  · simp only [he, ↓reduceIte]
    simp [hs]
  · simp only [he, ↓reduceIte]
    rcases s with ⟨buf, wire, script⟩
    cases script with
    | nil => exact ⟨⟨[], by simp, by simp⟩, hs⟩
    | cons o r =>
      cases o with
      | fail => exact ⟨⟨[], by simp, by simp [out]⟩, hs.1, fun o ho => hs.2 o (List.mem_cons_of_mem _ ho)⟩
      | accept k =>
        refine ⟨?_, BytesMut.advance_wf al _ _ hs.1, fun o ho => hs.2 o (List.mem_cons_of_mem _ ho)⟩
        simp [out, BytesMut.advance_data]

theorem writeBufferIfTooSmall_emits (al : Alloc) (n : Nat) : Emits out (WfQ Q) (WfQ Q) (writeBufferIfTooSmall al n) [] (WfQ Q) := by
  intro s hs
  unfold writeBufferIfTooSmall
  by_cases h : s.buf.len + n ≥ s.buf.cap
  · simp only [h, ↓reduceIte]
    exact writeBuf_emits Q al s hs
  · simp only [h, ↓reduceIte]
    simp [hs]

theorem bufPut_emits (al : Alloc) (bs : List UInt8) (hbs : bs ≠ []) : Emits out (WfQ Q) (WfQ Q) (bufPut al bs) bs (WfNe Q) := by
  intro s hs
  unfold bufPut
  refine ⟨by simp [out, BytesMut.put_data], ⟨BytesMut.put_wf al _ _ hs.1, hs.2⟩, ?_⟩
  simp [BytesMut.put_data, hbs]

theorem putBytes_emits (al : Alloc) (bs : List UInt8) : Emits out (WfQ Q) (WfNe Q) (putBytes al bs) bs (WfNe Q) := by
  intro s hs
  fun_induction putBytes al bs s with
  | case1 bytes s h0 =>
    have : bytes = [] := List.eq_nil_of_length_eq_zero h0
    simp [this, hs]
  | case2 bytes s h0 w hw =>
    exfalso
    have : 1 ≤ s.buf.len := List.length_pos_iff.mpr hs.2
    have h := hs.1.1
    unfold Wf at h
    simp only [w] at hw
    split at hw <;> omega
  | case3 bytes s h0 w hw _ s' hr ih =>
    have h1 := writeBufferIfTooSmall_emits Q al w s hs.1
    rw [hr] at h1
    have hne : bytes.take w ≠ [] := by
      intro hc
      rw [List.take_eq_nil_iff] at hc
      rcases hc with hc | hc
      · exact hw hc
      · simp [hc] at h0
    have h2 := bufPut_emits Q al (bytes.take w) hne s' h1.2
    unfold bufPut at h2
    have h3 := ih h2.2
    have ho : out { s' with buf := s'.buf.put al (bytes.take w) } = out s ++ bytes.take w := by
      rw [h2.1, h1.1]; simp
    rw [ho] at h3
    rcases hp : putBytes al (bytes.drop w) { s' with buf := s'.buf.put al (bytes.take w) } with ⟨r, s''⟩
    rw [hp] at h3
    cases r with
    | ok _ => exact ⟨by rw [h3.1, List.append_assoc, List.take_append_drop], h3.2⟩
    | err e =>
      obtain ⟨⟨pre, hpre, ho⟩, hI⟩ := h3
      refine ⟨⟨bytes.take w ++ pre, ?_, by rw [ho, List.append_assoc]⟩, hI⟩
      conv => rhs; rw [← List.take_append_drop w bytes]
      exact (List.prefix_append_right_inj _).mpr hpre
    | pending =>
      obtain ⟨⟨pre, hpre, ho⟩, hI⟩ := h3
      refine ⟨⟨bytes.take w ++ pre, ?_, by rw [ho, List.append_assoc]⟩, hI⟩
      conv => rhs; rw [← List.take_append_drop w bytes]
      exact (List.prefix_append_right_inj _).mpr hpre
    | panic => exact h3
    | hang => exact h3
  | case4 bytes s h0 w hw e s' hr =>
    have h1 := writeBufferIfTooSmall_emits Q al w s hs.1
    rw [hr] at h1
    obtain ⟨⟨pre, hpre, ho⟩, hI⟩ := h1
    exact ⟨⟨pre, hpre.trans (List.nil_prefix), ho⟩, hI⟩
  | case5 bytes s h0 w hw s' hr =>
    have h1 := writeBufferIfTooSmall_emits Q al w s hs.1
    rw [hr] at h1
    exact h1
  | case6 bytes s h0 w hw s' hr =>
    have h1 := writeBufferIfTooSmall_emits Q al w s hs.1
    rw [hr] at h1
    exact h1
  | case7 bytes s h0 w hw s' hr =>
    have h1 := writeBufferIfTooSmall_emits Q al w s hs.1
    rw [hr] at h1
    obtain ⟨⟨pre, hpre, ho⟩, hI⟩ := h1
    exact ⟨⟨pre, hpre.trans (List.nil_prefix), ho⟩, hI⟩

/-- The buffered writer is a lawful sink. -/
theorem laws (al : Alloc) : @SinkLaws WStream (WStream.sink al) out (WfQ Q) (WfQ Q) (WfNe Q) :=
  letI := WStream.sink al
  { weaken := fun _ h => h.1
    putU8 := fun b => ((writeBufferIfTooSmall_emits Q al 1).seq (bufPut_emits Q al [b] (by simp))).congr (by simp)
    putU16 := fun n => ((writeBufferIfTooSmall_emits Q al 2).seq (bufPut_emits Q al (u16Bytes n) (by simp [u16Bytes]))).congr
      (by simp [u16Bytes_eq])
    putBytes := putBytes_emits Q al
    finishPacket := writeBuf_emits Q al }

end

theorem new_wf (n : Nat) (script : List WriteOutcome) : Wf (WStream.new n script) := by
  simp [Wf, WStream.new, BytesMut.withCapacity, BytesMut.len]

theorem writeBuf_ne_hang (al : Alloc) (s s' : WStream) : writeBuf al s ≠ (.hang, s') := by
  unfold writeBuf
  split
  · simp
  · cases s.script with
    | nil => simp
    | cons o r => cases o <;> simp

theorem writeBufferIfTooSmall_ne_hang (al : Alloc) (n : Nat) (s s' : WStream) :
    writeBufferIfTooSmall al n s ≠ (.hang, s') := by
  unfold writeBufferIfTooSmall
  split
  · exact writeBuf_ne_hang al s s'
  · simp

/-- The modelled loop spins exactly when the literal loop body of `put_bytes` repeats for ever, and otherwise ends as it does. -/
theorem putBytes_hang_iff_spins (al : Alloc) (bs : List UInt8) (s : WStream) (hwf : s.Wf) :
    ((putBytes al bs s).1 = .hang ↔ Spins (putBytesRound al) (bs, s))
    ∧ ((putBytes al bs s).1 ≠ .hang → Ends (putBytesRound al) (bs, s) (putBytes al bs s)) := by
  fun_induction putBytes al bs s with
  | case1 bytes s h0 =>
    have he : putBytesRound al (bytes, s) = .inr (.ok (), s) := by simp [putBytesRound, h0]
    exact ⟨⟨fun h => by simp at h, fun h => absurd h (not_spins_of_ends (ends_now he))⟩, fun _ => ends_now he⟩
  | case2 bytes s h0 w hw =>
    have hc : s.buf.cap = 0 := by
      simp only [w] at hw
      split at hw <;> omega
    have hd : s.buf.data = [] := by
      unfold Wf at hwf
      exact List.eq_nil_of_length_eq_zero (by have : s.buf.data.length = s.buf.len := rfl; omega)
    have he : putBytesRound al (bytes, s) = .inl (bytes, s) := by
      have hp : bytes.length > 0 := by omega
      have hg : bytes.length > s.buf.cap := by omega
      simp only [putBytesRound, hp, hg, ↓reduceIte]
      simp [hc, writeBufferIfTooSmall, writeBuf, hd, BytesMut.put, BytesMut.reserve]
      rcases s with ⟨⟨off, cap, data⟩, wire, script⟩
      simp at hd hc ⊢
      exact ⟨hc.symm, hd⟩
    exact ⟨⟨fun _ => spins_of_fixed he, fun _ => rfl⟩, fun h => absurd rfl h⟩
  | case3 bytes s h0 w hw u s' heq ih =>
    have hp : bytes.length > 0 := by omega
    have he : putBytesRound al (bytes, s) = .inl (bytes.drop w, { s' with buf := s'.buf.put al (bytes.take w) }) := by
      have heq' : writeBufferIfTooSmall al (if bytes.length > s.buf.cap then s.buf.cap else bytes.length) s = (.ok u, s') := heq
      simp only [putBytesRound, hp, ↓reduceIte, heq']
      rfl
    have h1 := writeBufferIfTooSmall_emits (fun _ => True) al w s ⟨hwf, fun _ _ => trivial⟩
    rw [heq] at h1
    have ih := ih (BytesMut.put_wf al _ _ h1.2.1)
    refine ⟨⟨fun h => spins_step he (ih.1.mp h), fun h => ?_⟩, fun h => ends_step he (ih.2 h)⟩
    exact Classical.byContradiction fun hne => not_spins_of_ends (ends_step he (ih.2 hne)) h
  | case4 bytes s h0 w hw e s' heq =>
    have hp : bytes.length > 0 := by omega
    have he : putBytesRound al (bytes, s) = .inr (.err e, s') := by
      have heq' : writeBufferIfTooSmall al (if bytes.length > s.buf.cap then s.buf.cap else bytes.length) s = (.err e, s') := heq
      simp only [putBytesRound, hp, ↓reduceIte, heq']
    exact ⟨⟨fun h => by simp at h, fun h => absurd h (not_spins_of_ends (ends_now he))⟩, fun _ => ends_now he⟩
  | case5 bytes s h0 w hw s' heq =>
    have hp : bytes.length > 0 := by omega
    have he : putBytesRound al (bytes, s) = .inr (.panic, s') := by
      have heq' : writeBufferIfTooSmall al (if bytes.length > s.buf.cap then s.buf.cap else bytes.length) s = (.panic, s') := heq
      simp only [putBytesRound, hp, ↓reduceIte, heq']
    exact ⟨⟨fun h => by simp at h, fun h => absurd h (not_spins_of_ends (ends_now he))⟩, fun _ => ends_now he⟩
  | case6 bytes s h0 w hw s' heq => exact absurd heq (writeBufferIfTooSmall_ne_hang al w s s')
  | case7 bytes s h0 w hw s' heq =>
    have hp : bytes.length > 0 := by omega
    have he : putBytesRound al (bytes, s) = .inr (.pending, s') := by
      have heq' : writeBufferIfTooSmall al (if bytes.length > s.buf.cap then s.buf.cap else bytes.length) s = (.pending, s') := heq
      simp only [putBytesRound, hp, ↓reduceIte, heq']
    exact ⟨⟨fun h => by simp at h, fun h => absurd h (not_spins_of_ends (ends_now he))⟩, fun _ => ends_now he⟩

end WStream

end Ratel
