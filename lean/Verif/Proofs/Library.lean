/-
`MqttBytesStream` is `MqttBytesReadStream` and `MqttBytesWriteStream` side by side; `SessionService` is a map.
-/
import Verif.Spec.Library
import Verif.Proofs.Later
import Verif.Proofs.Sessions

namespace Ratel

open Spec

namespace BStream

/-- The reading half. -/
def reader (s : BStream) : RStream := ⟨s.readBuffer, s.segs, s.fin⟩

/-- The writing half. -/
def writer (s : BStream) : WStream := ⟨s.writeBuffer, s.wire, s.script⟩

/-- Two halves put together. -/
def join (rd : RStream) (wr : WStream) : BStream := ⟨rd.buf, wr.buf, rd.segs, rd.fin, wr.wire, wr.script⟩

/-- A computation that is one on the reading half. -/
def OnReader {α : Type} (m : M BStream α) (m' : M RStream α) : Prop := ∀ rd wr, m (join rd wr) = ((m' rd).1, join (m' rd).2 wr)

/-- A computation that is one on the writing half. -/
def OnWriter {α : Type} (m : M BStream α) (m' : M WStream α) : Prop := ∀ rd wr, m (join rd wr) = ((m' wr).1, join rd (m' wr).2)

variable {α β : Type}

theorem OnReader.bind {m : M BStream α} {m' : M RStream α} {f : α → M BStream β} {f' : α → M RStream β} (h : OnReader m m')
    (hf : ∀ a, OnReader (f a) (f' a)) : OnReader (m >>= f) (m' >>= f') := by
  intro rd wr
  rw [M.bind_apply, M.bind_apply, h rd wr]
  obtain ⟨r, rd'⟩ := m' rd
  cases r with
  | ok a => exact hf a rd' wr
  | _ => rfl

theorem OnWriter.bind {m : M BStream α} {m' : M WStream α} {f : α → M BStream β} {f' : α → M WStream β} (h : OnWriter m m')
    (hf : ∀ a, OnWriter (f a) (f' a)) : OnWriter (m >>= f) (m' >>= f') := by
  intro rd wr
  rw [M.bind_apply, M.bind_apply, h rd wr]
  obtain ⟨r, wr'⟩ := m' wr
  cases r with
  | ok a => exact hf a rd wr'
  | _ => rfl

theorem OnReader.pure (a : α) : OnReader (Pure.pure a) (Pure.pure a) := fun _ _ => rfl
theorem OnWriter.pure (a : α) : OnWriter (Pure.pure a) (Pure.pure a) := fun _ _ => rfl
theorem OnReader.fail (e : ErrKind) : OnReader (M.fail e : M BStream α) (M.fail e) := fun _ _ => rfl

theorem OnReader.ret {m : M BStream α} {m' : M RStream α} (h : OnReader m m') (f : α → StreamVal) : OnReader (StreamOp.ret m f) (StreamOp.ret m' f) :=
  h.bind fun _ => .pure _

theorem OnWriter.ret {m : M BStream α} {m' : M WStream α} (h : OnWriter m m') (f : α → StreamVal) : OnWriter (StreamOp.ret m f) (StreamOp.ret m' f) :=
  h.bind fun _ => .pure _

/-! ### Reading -/

theorem on_readBuf (al : Alloc) : OnReader (readBuf al) (RStream.readBuf al) := by
  intro rd wr
  unfold readBuf RStream.readBuf join
  simp only
  cases RStream.dropEmpty rd.segs with
  | cons seg rest => rfl
  | nil => cases rd.fin <;> rfl

theorem waitForData_unfold (al : Alloc) (n : Nat) (s : BStream) : waitForData al n s =
    if s.readBuffer.len < n then
      match readBuf al s with
      | (.ok k, s') => if k = 0 then (.err .connectionReset, s') else waitForData al n s'
      | (.err e, s') => (.err e, s')
      | (.panic, s') => (.panic, s')
      | (.hang, s') => (.hang, s')
      | (.pending, s') => (.pending, s')
    else (.ok (), s) := by
  rw [waitForData]
  split
  · split <;> rename_i h <;> simp only [h]
  · rfl

theorem on_waitForData (al : Alloc) (n : Nat) : OnReader (waitForData al n) (RStream.waitForData al n) := by
  intro rd wr
  have key : ∀ (m : Nat) (rd : RStream), rd.incoming ≤ m →
      waitForData al n (join rd wr) = ((RStream.waitForData al n rd).1, join (RStream.waitForData al n rd).2 wr) := by
    intro m
    induction m with
    | zero =>
      intro rd hm
      rw [waitForData_unfold, RStream.waitForData_unfold, on_readBuf al rd wr]
      by_cases hl : rd.buf.len < n
      · rw [if_pos hl, if_pos (show (join rd wr).readBuffer.len < n from hl)]
        cases hr : RStream.readBuf al rd with
        | mk r rd' =>
          cases r with
          | ok k =>
            have := RStream.readBuf_incoming al rd k rd' hr
            simp only
            rw [if_pos (show k = 0 by omega), if_pos (show k = 0 by omega)]
          | _ => rfl
      · rw [if_neg hl, if_neg (show ¬ (join rd wr).readBuffer.len < n from hl)]
    | succ m ih =>
      intro rd hm
      rw [waitForData_unfold, RStream.waitForData_unfold, on_readBuf al rd wr]
      by_cases hl : rd.buf.len < n
      · rw [if_pos hl, if_pos (show (join rd wr).readBuffer.len < n from hl)]
        cases hr : RStream.readBuf al rd with
        | mk r rd' =>
          cases r with
          | ok k =>
            have := RStream.readBuf_incoming al rd k rd' hr
            simp only
            by_cases hk : k = 0
            · rw [if_pos hk, if_pos hk]
            · rw [if_neg hk, if_neg hk]
              exact ih rd' (by omega)
          | _ => rfl
      · rw [if_neg hl, if_neg (show ¬ (join rd wr).readBuffer.len < n from hl)]
  exact key _ rd (Nat.le_refl _)

theorem on_getU8 (al : Alloc) : OnReader (getU8 al) (RStream.getU8 al) := by
  refine (on_waitForData al 1).bind fun _ rd wr => ?_
  simp only [join]
  cases rd.buf.data <;> rfl

theorem on_getU16 (al : Alloc) : OnReader (getU16 al) (RStream.getU16 al) := by
  refine (on_waitForData al 2).bind fun _ rd wr => ?_
  simp only [join]
  cases h : rd.buf.data with
  | nil => rfl
  | cons a l => cases l <;> rfl

theorem on_getBytesLoop (al : Alloc) (n : Nat) (acc : List UInt8) : OnReader (getBytesLoop al n acc) (RStream.getBytesLoop al n acc) := by
  induction n using Nat.strongRecOn generalizing acc with
  | ind n ih =>
    intro rd wr
    rw [getBytesLoop, RStream.getBytesLoop]
    by_cases h0 : n = 0
    · rw [if_pos h0, if_pos h0]
    · rw [if_neg h0, if_neg h0]
      have hs : (join rd wr).roundSize n = rd.roundSize n := rfl
      simp only [hs]
      by_cases hw : rd.roundSize n = 0
      · rw [if_pos hw, if_pos hw]
      · rw [if_neg hw, if_neg hw, on_waitForData al (rd.roundSize n) rd wr]
        obtain ⟨r, rd'⟩ := RStream.waitForData al (rd.roundSize n) rd
        cases r with
        | ok k => exact ih (n - rd.roundSize n) (by omega) _ { rd' with buf := rd'.buf.splitTo (rd.roundSize n) } wr
        | _ => rfl

theorem on_getBytes (al : Alloc) (n : Nat) : OnReader (getBytes al n) (RStream.getBytes al n) := by
  intro rd wr
  unfold getBytes RStream.getBytes
  by_cases h : n > isizeMax
  · rw [if_pos h, if_pos h]
  · rw [if_neg h, if_neg h]; exact on_getBytesLoop al n [] rd wr

theorem on_getString (al : Alloc) : OnReader (getString al) (@Decoder.getString _ (RStream.source al)) := by
  refine (on_getU16 al).bind fun k => (on_getBytes al k.toNat).bind fun bs => ?_
  cases fromUtf8 bs with
  | some s => exact .pure s
  | none => exact .fail _

/-! ### Writing -/

theorem on_writeBuf (al : Alloc) : OnWriter (writeBuf al) (WStream.writeBuf al) := by
  intro rd wr
  unfold writeBuf WStream.writeBuf join
  simp only
  by_cases h : wr.buf.data = []
  · rw [if_pos h, if_pos h]
  · rw [if_neg h, if_neg h]
    cases hs : wr.script with
    | nil => simp only [hs]
    | cons o r => cases o <;> rfl

theorem on_ifTooSmall (al : Alloc) (n : Nat) : OnWriter (writeBufferIfTooSmall al n) (WStream.writeBufferIfTooSmall al n) := by
  intro rd wr
  unfold writeBufferIfTooSmall WStream.writeBufferIfTooSmall
  by_cases h : wr.buf.len + n ≥ wr.buf.cap
  · rw [if_pos h, if_pos (show (join rd wr).writeBuffer.len + n ≥ (join rd wr).writeBuffer.cap from h)]
    exact on_writeBuf al rd wr
  · rw [if_neg h, if_neg (show ¬ (join rd wr).writeBuffer.len + n ≥ (join rd wr).writeBuffer.cap from h)]

theorem on_bufPut (al : Alloc) (bs : List UInt8) : OnWriter (bufPut al bs) (WStream.bufPut al bs) := fun _ _ => rfl

theorem on_putU8 (al : Alloc) (n : UInt8) : OnWriter (putU8 al n) (WStream.putU8 al n) := (on_ifTooSmall al 1).bind fun _ => on_bufPut al [n]

theorem on_putU16 (al : Alloc) (n : UInt16) : OnWriter (putU16 al n) (WStream.putU16 al n) :=
  (on_ifTooSmall al 2).bind fun _ => on_bufPut al (u16Bytes n)

theorem on_putBytes (al : Alloc) (bs : List UInt8) : OnWriter (putBytes al bs) (WStream.putBytes al bs) := by
  have key : ∀ (m : Nat) (bs : List UInt8), bs.length ≤ m → OnWriter (putBytes al bs) (WStream.putBytes al bs) := by
    intro m
    induction m with
    | zero =>
      intro bs hm rd wr
      rw [putBytes, WStream.putBytes, dif_pos (show bs.length = 0 by omega), dif_pos (show bs.length = 0 by omega)]
    | succ m ih =>
      intro bs hm rd wr
      rw [putBytes, WStream.putBytes]
      by_cases h0 : bs.length = 0
      · rw [dif_pos h0, dif_pos h0]
      · rw [dif_neg h0, dif_neg h0]
        have hc : (join rd wr).writeBuffer.cap = wr.buf.cap := rfl
        simp only [hc]
        generalize hw : (if bs.length > wr.buf.cap then wr.buf.cap else bs.length) = w
        by_cases hw0 : w = 0
        · rw [dif_pos hw0, dif_pos hw0]
        · rw [dif_neg hw0, dif_neg hw0, on_ifTooSmall al w rd wr]
          obtain ⟨r, wr'⟩ := WStream.writeBufferIfTooSmall al w wr
          cases r with
          | ok k => exact ih (bs.drop w) (by rw [List.length_drop]; omega) rd { wr' with buf := wr'.buf.put al (bs.take w) }
          | _ => rfl
  exact key _ bs (Nat.le_refl _)

theorem on_putString (al : Alloc) (s : String) : OnWriter (putString al s) (@Encoder.putString _ (WStream.sink al) s) :=
  (on_putU16 al _).bind fun _ => on_putBytes al _

/-! ### Calls -/

theorem calls_separately (al : Alloc) (ops : List StreamOp) (rd : RStream) (wr : WStream) :
    StreamOp.calls al ops (join rd wr)
      = ((separately al ops rd wr).1, join (separately al ops rd wr).2.1 (separately al ops rd wr).2.2) := by
  induction ops generalizing rd wr with
  | nil => rfl
  | cons op ops ih =>
    unfold StreamOp.calls separately
    cases op with
    | getU8 => simp only [StreamOp.call, (on_getU8 al).ret .byte rd wr, ih]
    | getU16 => simp only [StreamOp.call, (on_getU16 al).ret .word rd wr, ih]
    | getString => simp only [StreamOp.call, (on_getString al).ret .text rd wr, ih]
    | getBytes n => simp only [StreamOp.call, (on_getBytes al n).ret .bytes rd wr, ih]
    | putU8 n => simp only [StreamOp.call, (on_putU8 al n).ret (fun _ => .unit) rd wr, ih]
    | putU16 n => simp only [StreamOp.call, (on_putU16 al n).ret (fun _ => .unit) rd wr, ih]
    | putString s => simp only [StreamOp.call, (on_putString al s).ret (fun _ => .unit) rd wr, ih]
    | putBytes bs => simp only [StreamOp.call, (on_putBytes al bs).ret (fun _ => .unit) rd wr, ih]
    | finishPacket => simp only [StreamOp.call, finishPacket, WStream.finishPacket, (on_writeBuf al).ret (fun _ => .unit) rd wr, ih]

end BStream

end Ratel
