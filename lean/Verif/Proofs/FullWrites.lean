/-
A socket that takes as many bytes at a time as the write buffer holds: nothing stays in the buffer.
-/
import Verif.Proofs.WriteNoErr

namespace Ratel

open Encoder

namespace WStream

/-- The allocation of the buffer has kept its size, every answer of the socket takes that many bytes, and what was on the wire is. -/
structure Roomy (size : Nat) (before : List UInt8) (s : WStream) : Prop where
  wf : s.buf.len ≤ s.buf.cap
  total : s.buf.off + s.buf.cap = size
  takes : ∀ o ∈ s.script, ∃ k, o = .accept k ∧ size ≤ k + 1
  wire : before <+: s.wire

variable {size : Nat} {before : List UInt8}

theorem Roomy.put {s : WStream} (h : Roomy size before s) (al : Alloc) (bs : List UInt8)
    (hr : s.buf.len + bs.length < s.buf.cap ∨ s.buf.data = [] ∧ bs.length ≤ size) :
    Roomy size before { s with buf := s.buf.put al bs } := by
  obtain ⟨h1, h2, h3, h4⟩ := h
  refine ⟨BytesMut.put_wf al _ _ h1, ?_, h3, h4⟩
  show (s.buf.reserve al bs.length).off + (s.buf.reserve al bs.length).cap = size
  unfold BytesMut.reserve
  split
  · exact h2
  · rename_i hn
    rcases hr with hr | ⟨he, hb⟩
    · omega
    · have hl : s.buf.len = 0 := by simp [BytesMut.len, he]
      rw [if_pos ⟨by omega, .inl (by omega)⟩]
      simp only; omega

theorem writeBuf_roomy (al : Alloc) {s : WStream} (h : Roomy size before s) :
    (∀ e, (writeBuf al s).1 ≠ .err e) ∧ Roomy size before (writeBuf al s).2 ∧ ((writeBuf al s).1 = .ok () → (writeBuf al s).2.buf.data = []) := by
  unfold writeBuf
  by_cases he : s.buf.data = []
  · simp only [he, ↓reduceIte]; exact ⟨by simp, h, fun _ => trivial⟩
  · simp only [he, ↓reduceIte]
    rcases s with ⟨buf, wire, script⟩
    obtain ⟨h1, h2, h3, h4⟩ := h
    cases script with
    | nil => exact ⟨by simp, ⟨h1, h2, h3, h4⟩, fun h => by cases h⟩
    | cons o r =>
      obtain ⟨k, rfl, hk⟩ := h3 o List.mem_cons_self
      have hmin : min (k + 1) buf.len = buf.len := by simp only at h1 h2; omega
      simp only [hmin]
      refine ⟨by simp, ⟨BytesMut.advance_wf al _ _ h1, ?_, fun o ho => h3 o (List.mem_cons_of_mem _ ho), h4.trans (List.prefix_append _ _)⟩, fun _ => ?_⟩
      · unfold BytesMut.advance
        split
        · exact h2
        · simp only [BytesMut.splitTo] at h1 h2 ⊢; omega
      · rw [BytesMut.advance_data]; simp [BytesMut.len]

theorem ifTooSmall_roomy (al : Alloc) (n : Nat) {s : WStream} (h : Roomy size before s) :
    (∀ e, (writeBufferIfTooSmall al n s).1 ≠ .err e) ∧ Roomy size before (writeBufferIfTooSmall al n s).2
    ∧ ((writeBufferIfTooSmall al n s).1 = .ok () →
        (writeBufferIfTooSmall al n s).2.buf.len + n < (writeBufferIfTooSmall al n s).2.buf.cap ∨ (writeBufferIfTooSmall al n s).2.buf.data = []) := by
  unfold writeBufferIfTooSmall
  split
  · obtain ⟨h1, h2, h3⟩ := writeBuf_roomy al h
    exact ⟨h1, h2, fun e => .inr (h3 e)⟩
  · rename_i hn
    exact ⟨by simp, h, fun _ => .inl (by simp only; omega)⟩

theorem ifTooSmall_put (al : Alloc) (bs : List UInt8) (hb : bs.length ≤ size) :
    Steady (Roomy size before) (do writeBufferIfTooSmall al bs.length; bufPut al bs) := by
  intro s hs
  obtain ⟨h1, h2, h3⟩ := ifTooSmall_roomy al bs.length hs
  rw [M.bind_apply]
  rcases hm : writeBufferIfTooSmall al bs.length s with ⟨r, s'⟩
  rw [hm] at h1 h2 h3
  cases r with
  | ok u => exact ⟨by simp [bufPut], h2.put al bs ((h3 rfl).imp_right fun h => ⟨h, hb⟩)⟩
  | err e => exact absurd rfl (h1 e)
  | panic => exact ⟨by simp, h2⟩
  | hang => exact ⟨by simp, h2⟩
  | pending => exact ⟨by simp, h2⟩

theorem putBytes_roomy (al : Alloc) (bs : List UInt8) : Steady (Roomy size before) (putBytes al bs) := by
  intro s hs
  fun_induction putBytes al bs s with
  | case1 bytes s h0 => exact ⟨by simp, hs⟩
  | case2 bytes s h0 w hw => exact ⟨by simp, hs⟩
  | case3 bytes s h0 w hw _ s' hr ih =>
    obtain ⟨_, h2, h3⟩ := ifTooSmall_roomy al w hs
    rw [hr] at h2 h3
    have hc := hs.total
    have hw' : w ≤ bytes.length ∧ w ≤ size := by simp only [w]; split <;> omega
    have hl : (bytes.take w).length = w := by simp; omega
    refine ih (h2.put al _ ((h3 rfl).imp (fun h => by rw [hl]; exact h) fun h => ⟨h, by rw [hl]; exact hw'.2⟩))
  | case4 bytes s h0 w hw e s' hr =>
    have := ifTooSmall_roomy al w hs
    rw [hr] at this
    exact absurd rfl (this.1 e)
  | case5 bytes s h0 w hw s' hr =>
    have := ifTooSmall_roomy al w hs
    rw [hr] at this
    exact ⟨by simp, this.2.1⟩
  | case6 bytes s h0 w hw s' hr =>
    have := ifTooSmall_roomy al w hs
    rw [hr] at this
    exact ⟨by simp, this.2.1⟩
  | case7 bytes s h0 w hw s' hr =>
    have := ifTooSmall_roomy al w hs
    rw [hr] at this
    exact ⟨by simp, this.2.1⟩

theorem roomy (al : Alloc) (h : 2 ≤ size) : @SteadySink WStream (WStream.sink al) (Roomy size before) :=
  letI := WStream.sink al
  { putU8 := fun b => ifTooSmall_put al [b] (by simp; omega)
    putU16 := fun n => ifTooSmall_put al (u16Bytes n) (by simpa [u16Bytes] using h)
    putBytes := putBytes_roomy al
    finishPacket := fun _ hs => ⟨(writeBuf_roomy al hs).1, (writeBuf_roomy al hs).2.1⟩ }

/-- Writing a packet to such a socket. -/
theorem writePacket_roomy (al : Alloc) (h : 2 ≤ size) (p : ControlPacket) {s : WStream} (hs : Roomy size before s) :
    letI := WStream.sink al
    (∀ e, ((writePacket p : M WStream Unit) s).1 ≠ .err e) ∧ Roomy size before ((writePacket p : M WStream Unit) s).2
    ∧ (((writePacket p : M WStream Unit) s).1 = .ok () → ((writePacket p : M WStream Unit) s).2.buf.data = []) := by
  letI := WStream.sink al
  obtain ⟨h1, h2⟩ := (roomy (before := before) al h).writePacket p s hs
  refine ⟨h1, h2, fun hok => ?_⟩
  rcases hm : (writePacket p : M WStream Unit) s with ⟨r, s'⟩
  rw [hm] at hok
  simp only at hok
  subst hok
  unfold writePacket at hm
  obtain ⟨u, s₁, h3, h4⟩ := M.bind_eq_ok.mp hm
  have h5 := ((roomy (before := before) al h).writeBody p s hs).2
  rw [h3] at h5
  have := (writeBuf_roomy al h5).2.2
  have h4' : writeBuf al s₁ = (.ok (), s') := h4
  rw [h4'] at this
  exact this rfl

theorem Roomy.start {s : WStream} (h : Roomy size before s) : Roomy size s.wire s := ⟨h.wf, h.total, h.takes, List.prefix_rfl⟩

end WStream

end Ratel
