/-
A socket that takes one byte at a time: what stays in the write buffer.
-/
import Verif.Proofs.WriteNoErr
import Verif.Proofs.SysWrite

namespace Ratel

open Encoder

namespace WStream

/-- The buffer is within its capacity, and the socket takes one byte at a time. -/
def Slow (s : WStream) : Prop := WfQ (· = .accept 0) s

/-- On such a socket, if the buffer has room for `need + k` bytes, `m` gets at most `k` bytes off the buffer, and each of them makes
the buffer smaller by at most one. It waits only for a socket that takes nothing any more. -/
def Spends {α : Type} (k need : Nat) (m : M WStream α) : Prop := ∀ s, Slow s → need + k ≤ s.buf.cap →
  Slow (m s).2 ∧ s.wire.length ≤ (m s).2.wire.length ∧ (m s).2.wire.length ≤ s.wire.length + k
  ∧ s.buf.cap + s.wire.length ≤ (m s).2.buf.cap + (m s).2.wire.length
  ∧ (m s).2.script.length + (m s).2.wire.length = s.script.length + s.wire.length
  ∧ ((m s).1 = .pending → (m s).2.script = [])

namespace Spends

variable {α β : Type}

theorem bind {k l need : Nat} {m : M WStream α} {f : α → M WStream β} (hm : Spends k need m) (hf : ∀ a, Spends l need (f a)) :
    Spends (k + l) need (m >>= f) := by
  intro s hs hc
  obtain ⟨h1, h2, h3, h4, h5, h6⟩ := hm s hs (by omega)
  rw [M.bind_apply]
  rcases hms : m s with ⟨r, s₁⟩
  rw [hms] at h1 h2 h3 h4 h5 h6
  simp only at h1 h2 h3 h4 h5
  cases r with
  | ok a =>
    obtain ⟨g1, g2, g3, g4, g5, g6⟩ := hf a s₁ h1 (by omega)
    dsimp only
    exact ⟨g1, by omega, by omega, by omega, by omega, g6⟩
  | pending => exact ⟨h1, h2, by simp only; omega, h4, h5, fun _ => h6 rfl⟩
  | err _ | panic | hang => exact ⟨h1, h2, by simp only; omega, h4, h5, fun h => by cases h⟩

theorem pure {need : Nat} (a : α) : Spends 0 need (Pure.pure a : M WStream α) := fun _ hs _ =>
  ⟨hs, Nat.le_refl _, Nat.le_refl _, Nat.le_refl _, rfl, fun h => by cases h⟩

theorem panic {need : Nat} : Spends 0 need (M.panic : M WStream α) := fun _ hs _ =>
  ⟨hs, Nat.le_refl _, Nat.le_refl _, Nat.le_refl _, rfl, fun h => by cases h⟩

theorem mono {k l need : Nat} {m : M WStream α} (h : Spends k need m) (hl : k ≤ l) : Spends l need m := fun s hs hc =>
  let ⟨h1, h2, h3, h4, h5⟩ := h s hs (by omega)
  ⟨h1, h2, by omega, h4, h5⟩

variable (al : Alloc) (need : Nat)

theorem writeBuf : Spends 1 need (WStream.writeBuf al) := by
  intro s hs _
  unfold WStream.writeBuf
  by_cases he : s.buf.data = []
  · simp only [he, ↓reduceIte]; exact ⟨hs, Nat.le_refl _, by omega, Nat.le_refl _, trivial, by simp⟩
  · simp only [he, ↓reduceIte]
    rcases s with ⟨buf, wire, script⟩
    have hl : 1 ≤ buf.len := List.length_pos_iff.mpr he
    cases script with
    | nil => exact ⟨hs, Nat.le_refl _, by simp, Nat.le_refl _, rfl, fun _ => rfl⟩
    | cons o r =>
      have ho : o = .accept 0 := hs.2 o List.mem_cons_self
      subst ho
      have hmin : min (0 + 1) buf.len = 1 := by omega
      simp only [hmin]
      have hlt : (buf.data.take 1).length = 1 := by
        rw [List.length_take]
        have : buf.data.length = buf.len := rfl
        omega
      refine ⟨⟨BytesMut.advance_wf al _ _ hs.1, fun o ho => hs.2 o (List.mem_cons_of_mem _ ho)⟩, ?_, ?_, ?_, ?_, fun h => by cases h⟩
      · simp
      · simp only [List.length_append, hlt]; omega
      · simp only [List.length_append, hlt]
        unfold BytesMut.advance
        split
        · simp only; omega
        · simp only [BytesMut.splitTo]; omega
      · simp only [List.length_append, hlt, List.length_cons]; omega

theorem ifTooSmall (n : Nat) : Spends 1 need (writeBufferIfTooSmall al n) := by
  intro s hs hc
  unfold writeBufferIfTooSmall
  split
  · exact writeBuf al need s hs hc
  · exact ⟨hs, Nat.le_refl _, by simp, Nat.le_refl _, rfl, fun h => by cases h⟩

theorem bufPut (bs : List UInt8) : Spends 0 need (WStream.bufPut al bs) := by
  intro s hs _
  unfold WStream.bufPut
  refine ⟨⟨BytesMut.put_wf al _ _ hs.1, hs.2⟩, Nat.le_refl _, Nat.le_refl _, ?_, rfl, fun h => by cases h⟩
  have : s.buf.cap ≤ (s.buf.put al bs).cap := by
    show s.buf.cap ≤ (s.buf.reserve al bs.length).cap
    unfold BytesMut.reserve
    split
    · exact Nat.le_refl _
    · split
      · simp only; omega
      · simp only; omega
  simp only
  omega

theorem putU8 (b : UInt8) : Spends 1 need (WStream.putU8 al b) := (ifTooSmall al need 1).bind fun _ => bufPut al need [b]

theorem putU16 (n : UInt16) : Spends 1 need (WStream.putU16 al n) := (ifTooSmall al need 2).bind fun _ => bufPut al need (u16Bytes n)

theorem putBytes {bs : List UInt8} (h : bs.length ≤ need) : Spends 1 need (WStream.putBytes al bs) := by
  by_cases h0 : bs.length = 0
  · intro s hs _
    rw [WStream.putBytes, dif_pos h0]
    exact ⟨hs, Nat.le_refl _, by simp, Nat.le_refl _, rfl, fun h => by cases h⟩
  · intro s hs hc
    have := ((ifTooSmall al need bs.length).bind fun _ => bufPut al need bs) s hs hc
    rw [M.bind_apply] at this
    rw [WStream.putBytes, dif_neg h0]
    have hw : (if bs.length > s.buf.cap then s.buf.cap else bs.length) = bs.length := by rw [if_neg (by omega)]
    simp only [hw, h0, ↓reduceDIte]
    rcases hm : writeBufferIfTooSmall al bs.length s with ⟨r, s'⟩
    rw [hm] at this
    cases r with
    | ok u =>
      simp only [List.drop_length, List.take_length]
      rw [WStream.putBytes, dif_pos (by rfl)]
      exact this
    | err _ | panic | hang | pending => exact this

theorem remainingLength {j : Nat} (hj : 1 ≤ j) {n : Nat} (h : n < 128 ^ j) :
    letI := WStream.sink al
    Spends j need (encodeRemainingLength n : M WStream Unit) := by
  letI := WStream.sink al
  induction j generalizing n with
  | zero => omega
  | succ j ih =>
    rw [encodeRemainingLength, Nat.add_comm j 1]
    refine (putU8 al need _).bind fun _ => ?_
    split
    · exact (pure ()).mono (Nat.zero_le _)
    · rename_i hr
      by_cases hj : 1 ≤ j
      · exact ih hj (by rw [Nat.pow_succ] at h; omega)
      · have : j = 0 := by omega
        subst this
        simp at h
        omega

theorem returnCodes (cs : List SubAckReturnCode) :
    letI := WStream.sink al
    Spends cs.length need (writeReturnCodes cs : M WStream Unit) := by
  letI := WStream.sink al
  induction cs with
  | nil => exact pure ()
  | cons c cs ih =>
    rw [List.length_cons, Nat.add_comm]
    exact (putU8 al need _).bind fun _ => ih

end Spends

/-- A small packet: a CONNACK, a SUBACK with one return code, or a PUBLISH with at most 1000 bytes of topic and 1000 bytes of payload. -/
inductive Small : ControlPacket → Prop
  | connAck (p : ConnAckPacket) : Small (.connAck p)
  | subAck (i : UInt16) (c : SubAckReturnCode) : Small (.subAck ⟨i, [c]⟩)
  | publish (p : PublishPacket) (ht : (strBytes p.message.topic).length ≤ 1000) (hp : p.message.payload.length ≤ 1000) : Small (.publish p)

/-- At most eight bytes of the buffer get to the socket while a small packet is written. -/
theorem Small.spends (al : Alloc) {p : ControlPacket} (h : Small p) :
    letI := WStream.sink al
    Spends 8 1000 (writePacket p : M WStream Unit) := by
  letI := WStream.sink al
  have hfin : Spends 1 1000 (ByteSink.finishPacket : M WStream Unit) := Spends.writeBuf al 1000
  have u8 : ∀ b, Spends 1 1000 (ByteSink.putU8 b : M WStream Unit) := Spends.putU8 al 1000
  have u16 : ∀ b, Spends 1 1000 (ByteSink.putU16 b : M WStream Unit) := Spends.putU16 al 1000
  have bytes : ∀ bs : List UInt8, bs.length ≤ 1000 → Spends 1 1000 (ByteSink.putBytes bs : M WStream Unit) := fun bs h => Spends.putBytes al 1000 h
  have hbody : Spends 7 1000 (writeBody p : M WStream Unit) := by
    cases h with
    | connAck p =>
      exact ((u8 _).bind fun _ => (Spends.remainingLength al 1000 (j := 1) (by decide) (by decide)).bind fun _ => (u8 _).bind fun _ => u8 _).mono (by decide)
    | subAck i c =>
      exact ((u8 _).bind fun _ => (Spends.remainingLength al 1000 (j := 1) (by decide) (by simp)).bind fun _ => (u16 _).bind fun _ =>
        Spends.returnCodes al 1000 _).mono (by simp)
    | publish p ht hp =>
      have hl : strLen p.message.topic ≤ 1000 := ht
      have rl : ∀ n, n ≤ 2004 → Spends 2 1000 (encodeRemainingLength n : M WStream Unit) := fun n hn =>
        Spends.remainingLength al 1000 (j := 2) (by decide) (by omega)
      refine ((u8 _).bind fun _ => (rl _ ?_).bind fun _ => Spends.bind (l := 2) ((u16 _).bind fun _ => bytes _ ht) fun _ => ?_).mono (l := 7) (k := 1 + (2 + (1 + 1 + 2))) (by decide)
      · split <;> omega
      · cases p.packetId with
        | none => exact (bytes _ hp).mono (by decide)
        | some i => exact (u16 i).bind fun _ => bytes _ hp
  exact hbody.bind fun _ => hfin

/-- Writing a small packet. -/
theorem slow_one (al : Alloc) {p : ControlPacket} (h : Small p) (hp : Spec.ServerPacket p) {bs : List UInt8} (hb : Spec.serverBytes p = some bs)
    {s : WStream} (hs : Slow s) (hc : 2016 ≤ s.buf.cap + s.buf.len) (hl : 8 < s.script.length) :
    letI := WStream.sink al
    Slow ((writePacket p : M WStream Unit) s).2 ∧ ((writePacket p : M WStream Unit) s).2.out = s.out ++ bs
    ∧ ((writePacket p : M WStream Unit) s).2.wire.length ≤ s.wire.length + 8
    ∧ s.buf.cap + s.buf.len + bs.length ≤ ((writePacket p : M WStream Unit) s).2.buf.cap + ((writePacket p : M WStream Unit) s).2.buf.len + 16
    ∧ s.script.length ≤ ((writePacket p : M WStream Unit) s).2.script.length + 8 := by
  letI := WStream.sink al
  have hwf : s.buf.len ≤ s.buf.cap := hs.1
  obtain ⟨h1, h2, h3, h4, h5, h6⟩ := h.spends al s hs (by omega)
  have he := (laws (· = .accept 0) al).writePacket p hp bs hb s hs
  have hn := ((steady al).writePacket p s (fun o ho h => by rw [hs.2 o ho] at h; cases h)).1
  rcases hm : (writePacket p : M WStream Unit) s with ⟨r, s'⟩
  rw [hm] at h1 h2 h3 h4 h5 h6 he hn
  simp only at h1 h2 h3 h4 h5
  cases r with
  | ok u =>
    have ho := he.1
    refine ⟨h1, ho, h3, ?_, by simp only; omega⟩
    have hlen := congrArg List.length ho
    simp only [out, List.length_append] at hlen
    simp only [BytesMut.len]
    omega
  | err e => exact absurd rfl (hn e)
  | panic => exact he.elim
  | hang => exact he.elim
  | pending =>
    have := h6 rfl
    simp only at this
    rw [this] at h5
    simp only [List.length_nil] at h5
    omega

/-- Writing any number of small packets of at least 16 bytes. -/
theorem slow_many (al : Alloc) (ps : List ControlPacket)
    (h : ∀ p ∈ ps, Small p ∧ Spec.ServerPacket p ∧ ∃ bs, Spec.serverBytes p = some bs ∧ 16 ≤ bs.length)
    {s : WStream} (hs : Slow s) (hc : 2016 ≤ s.buf.cap + s.buf.len) (hl : 8 * ps.length < s.script.length) :
    Slow (writeOn al ps s) ∧ (writeOn al ps s).wire.length ≤ s.wire.length + 8 * ps.length
    ∧ s.script.length ≤ (writeOn al ps s).script.length + 8 * ps.length := by
  letI := WStream.sink al
  induction ps generalizing s with
  | nil => exact ⟨hs, Nat.le_refl _, Nat.le_refl _⟩
  | cons p ps ih =>
    simp only [List.length_cons] at hl ⊢
    obtain ⟨a1, a2, bs, a3, a4⟩ := h p List.mem_cons_self
    obtain ⟨b1, b2, b3, b4, b5⟩ := slow_one al a1 a2 a3 hs hc (by omega)
    obtain ⟨c1, c2, c3⟩ := ih (fun q hq => h q (List.mem_cons_of_mem _ hq)) b1 (by omega) (by omega)
    simp only [writeOn]
    exact ⟨c1, by omega, by omega⟩

/-- CONNACK, SUBACK, and `n` times the same message. -/
theorem slow_all (al : Alloc) {script : List WriteOutcome} (hscript : ∀ o ∈ script, o = .accept 0) (n : Nat) (hl : 8 * (n + 2) < script.length)
    {p : ControlPacket} (hp : Small p) (hsp : Spec.ServerPacket p) {bs : List UInt8} (hb : Spec.serverBytes p = some bs) (hbs : 16 ≤ bs.length) :
    (writeOn al (.connAck ⟨false, .accepted⟩ :: .subAck ⟨1, [.successQoS0]⟩ :: List.replicate n p) (WStream.new 4096 script)).wire.length ≤ 8 * (n + 2)
    ∧ (writeOn al (.connAck ⟨false, .accepted⟩ :: .subAck ⟨1, [.successQoS0]⟩ :: List.replicate n p) (WStream.new 4096 script)).script ≠ [] := by
  letI := WStream.sink al
  have hs : Slow (WStream.new 4096 script) := ⟨new_wf _ _, hscript⟩
  have h1 : (WStream.new 4096 script).buf.cap + (WStream.new 4096 script).buf.len = 4096 := rfl
  have h2 : (WStream.new 4096 script).wire.length = 0 := rfl
  have h3 : (WStream.new 4096 script).script.length = script.length := rfl
  simp only [writeOn]
  generalize WStream.new 4096 script = s at *
  obtain ⟨a1, _, a3, a4, a5⟩ := slow_one al (.connAck ⟨false, .accepted⟩) trivial rfl hs (by omega) (by omega)
  generalize ((writePacket (.connAck ⟨false, .accepted⟩) : M WStream Unit) s).2 = s at *
  obtain ⟨b1, _, b3, b4, b5⟩ := slow_one al (.subAck 1 .successQoS0) trivial rfl a1 (by omega) (by omega)
  generalize ((writePacket (.subAck ⟨1, [.successQoS0]⟩) : M WStream Unit) s).2 = s at *
  obtain ⟨_, c2, c3⟩ := slow_many al (List.replicate n p) (fun q hq => by
    rw [List.eq_of_mem_replicate hq]; exact ⟨hp, hsp, bs, hb, hbs⟩) b1 (by omega) (by rw [List.length_replicate]; omega)
  rw [List.length_replicate] at c2 c3
  refine ⟨by omega, fun he => ?_⟩
  rw [he, List.length_nil] at c3
  omega

end WStream

end Ratel
