/-
A socket that reports no error makes no write fail.
-/
import Verif.Proofs.WriteStream

namespace Ratel

open Encoder

/-- From a state satisfying `J`, `m` does not fail with an error, and `J` holds afterwards. -/
def Steady {σ α : Type} (J : σ → Prop) (m : M σ α) : Prop := ∀ s, J s → (∀ e, (m s).1 ≠ .err e) ∧ J (m s).2

namespace Steady

variable {σ : Type} {J : σ → Prop}

theorem bind {α β : Type} {m : M σ α} {k : α → M σ β} (hm : Steady J m) (hk : ∀ a, Steady J (k a)) : Steady J (m >>= k) := by
  intro s hs
  have h1 := hm s hs
  rw [M.bind_apply]
  rcases hms : m s with ⟨r, s₁⟩
  rw [hms] at h1
  cases r with
  | ok a => exact hk a s₁ h1.2
  | err e => exact absurd rfl (h1.1 e)
  | panic => exact ⟨by simp, h1.2⟩
  | hang => exact ⟨by simp, h1.2⟩
  | pending => exact ⟨by simp, h1.2⟩

theorem pure {α : Type} (a : α) : Steady J (Pure.pure a : M σ α) := fun _ hs => ⟨by simp, hs⟩

theorem panic {α : Type} : Steady J (M.panic : M σ α) := fun _ hs => ⟨by simp [M.panic], hs⟩

end Steady

/-- The four primitives are steady. -/
structure SteadySink (σ : Type) [ByteSink σ] (J : σ → Prop) : Prop where
  putU8 : ∀ b, Steady J (ByteSink.putU8 b : M σ Unit)
  putU16 : ∀ n, Steady J (ByteSink.putU16 n : M σ Unit)
  putBytes : ∀ bs, Steady J (ByteSink.putBytes bs : M σ Unit)
  finishPacket : Steady J (ByteSink.finishPacket : M σ Unit)

namespace SteadySink

variable {σ : Type} [ByteSink σ] {J : σ → Prop}

theorem encodeRemainingLength (L : SteadySink σ J) (n : Nat) : Steady J (encodeRemainingLength n : M σ Unit) := by
  induction n using Nat.strongRecOn with
  | _ n ih =>
    rw [Encoder.encodeRemainingLength]
    refine (L.putU8 _).bind fun _ => ?_
    split
    · exact Steady.pure _
    · exact ih _ (by omega)

theorem writeReturnCodes (L : SteadySink σ J) (cs : List SubAckReturnCode) : Steady J (writeReturnCodes cs : M σ Unit) := by
  induction cs with
  | nil => exact Steady.pure _
  | cons c cs ih => exact (L.putU8 _).bind fun _ => ih

theorem writeWithId (L : SteadySink σ J) (b : UInt8) (i : UInt16) : Steady J (writePacketWithPacketId b i : M σ Unit) :=
  (L.putU8 _).bind fun _ => (L.encodeRemainingLength _).bind fun _ => L.putU16 _

theorem writeBody (L : SteadySink σ J) (p : ControlPacket) : Steady J (writeBody p : M σ Unit) := by
  cases p with
  | connAck p => exact (L.putU8 _).bind fun _ => (L.encodeRemainingLength _).bind fun _ => (L.putU8 _).bind fun _ => L.putU8 _
  | publish p =>
    refine (L.putU8 _).bind fun _ => (L.encodeRemainingLength _).bind fun _ => ?_
    refine Steady.bind ((L.putU16 _).bind fun _ => L.putBytes _) fun _ => ?_
    cases p.packetId with
    | none => exact L.putBytes _
    | some i => exact (L.putU16 i).bind fun _ => L.putBytes _
  | pubAck i => exact L.writeWithId _ _
  | pubRec i => exact L.writeWithId _ _
  | pubRel i => exact L.writeWithId _ _
  | pubComp i => exact L.writeWithId _ _
  | subAck p =>
    exact (L.putU8 _).bind fun _ => (L.encodeRemainingLength _).bind fun _ => (L.putU16 _).bind fun _ => L.writeReturnCodes _
  | unsubAck i => exact L.writeWithId _ _
  | pingResp => exact (L.putU8 _).bind fun _ => L.encodeRemainingLength _
  | _ => exact Steady.panic

theorem writePacket (L : SteadySink σ J) (p : ControlPacket) : Steady J (writePacket p : M σ Unit) :=
  (L.writeBody p).bind fun _ => L.finishPacket

end SteadySink

/-- The socket will not report an error. -/
def WStream.NoFail (s : WStream) : Prop := ∀ o ∈ s.script, o ≠ .fail

namespace WStream

theorem writeBuf_steady (al : Alloc) : Steady NoFail (writeBuf al) := by
  intro s hs
  unfold writeBuf
  by_cases he : s.buf.data = []
  · simp only [he, ↓reduceIte]; exact ⟨by simp, hs⟩
  · simp only [he, ↓reduceIte]
    rcases s with ⟨buf, wire, script⟩
    cases script with
    | nil => exact ⟨by simp, hs⟩
    | cons o r =>
      cases o with
      | fail => exact absurd rfl (hs .fail List.mem_cons_self)
      | accept k => exact ⟨by simp, fun o ho => hs o (List.mem_cons_of_mem _ ho)⟩

theorem writeBufferIfTooSmall_steady (al : Alloc) (n : Nat) : Steady NoFail (writeBufferIfTooSmall al n) := by
  intro s hs
  unfold writeBufferIfTooSmall
  split
  · exact writeBuf_steady al s hs
  · exact ⟨by simp, hs⟩

theorem bufPut_steady (al : Alloc) (bs : List UInt8) : Steady NoFail (bufPut al bs) := fun _ hs => ⟨by simp [bufPut], hs⟩

theorem putBytes_steady (al : Alloc) (bs : List UInt8) : Steady NoFail (putBytes al bs) := by
  intro s hs
  fun_induction putBytes al bs s with
  | case1 bytes s h0 => exact ⟨by simp, hs⟩
  | case2 bytes s h0 w hw => exact ⟨by simp, hs⟩
  | case3 bytes s h0 w hw _ s' hr ih =>
    have := writeBufferIfTooSmall_steady al w s hs
    rw [hr] at this
    exact ih this.2
  | case4 bytes s h0 w hw e s' hr =>
    have := writeBufferIfTooSmall_steady al w s hs
    rw [hr] at this
    exact absurd rfl (this.1 e)
  | case5 bytes s h0 w hw s' hr =>
    have := writeBufferIfTooSmall_steady al w s hs
    rw [hr] at this
    exact ⟨by simp, this.2⟩
  | case6 bytes s h0 w hw s' hr =>
    have := writeBufferIfTooSmall_steady al w s hs
    rw [hr] at this
    exact ⟨by simp, this.2⟩
  | case7 bytes s h0 w hw s' hr =>
    have := writeBufferIfTooSmall_steady al w s hs
    rw [hr] at this
    exact ⟨by simp, this.2⟩

theorem steady (al : Alloc) : @SteadySink WStream (WStream.sink al) NoFail :=
  letI := WStream.sink al
  { putU8 := fun b => (writeBufferIfTooSmall_steady al 1).bind fun _ => bufPut_steady al [b]
    putU16 := fun n => (writeBufferIfTooSmall_steady al 2).bind fun _ => bufPut_steady al (u16Bytes n)
    putBytes := putBytes_steady al
    finishPacket := writeBuf_steady al }

end WStream

end Ratel
