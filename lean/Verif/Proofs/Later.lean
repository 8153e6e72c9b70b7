/-
Input that comes later, and answers of the socket that come later, make no difference to a read or a write that does not wait for them.
-/
import Verif.Model.Open
import Verif.Proofs.DecoderPanic
import Verif.Proofs.WriteStream

namespace Ratel

/-- Unless it waits, `m` does the same in the state with more to come, and leaves that. -/
def Later {σ α : Type} (W : σ → Prop) (E : σ → σ) (m : M σ α) : Prop :=
  ∀ s, W s → (m s).1 ≠ .pending → m (E s) = ((m s).1, E (m s).2) ∧ ∀ a, (m s).1 = .ok a → W (m s).2

namespace Later

variable {σ α β : Type} {W : σ → Prop} {E : σ → σ}

theorem bind {m : M σ α} {k : α → M σ β} (h : Later W E m) (hk : ∀ a, Later W E (k a)) : Later W E (m >>= k) := by
  intro s hw hp
  have h1 := h s hw
  rcases hm : m s with ⟨r, s₁⟩
  rw [hm] at h1
  cases r with
  | ok a =>
    obtain ⟨h2, h3⟩ := h1 (by simp)
    rw [M.bind_ok hm] at hp ⊢
    rw [M.bind_ok h2]
    exact hk a s₁ (h3 a rfl) hp
  | err e => rw [M.bind_err hm, M.bind_err (h1 (by simp)).1]; exact ⟨rfl, fun _ h => by cases h⟩
  | panic => rw [M.bind_panic hm, M.bind_panic (h1 (by simp)).1]; exact ⟨rfl, fun _ h => by cases h⟩
  | hang => rw [M.bind_hang hm, M.bind_hang (h1 (by simp)).1]; exact ⟨rfl, fun _ h => by cases h⟩
  | pending => rw [M.bind_pending hm] at hp; exact absurd rfl hp

theorem pure (a : α) : Later W E (Pure.pure a : M σ α) := fun _ hw _ => ⟨rfl, fun _ _ => hw⟩

theorem fail (e : ErrKind) : Later W E (M.fail e : M σ α) := fun _ _ _ => ⟨rfl, fun _ h => by cases h⟩

theorem panic : Later W E (M.panic : M σ α) := fun _ _ _ => ⟨rfl, fun _ h => by cases h⟩

theorem hang : Later W E (fun s => (.hang, s) : M σ α) := fun _ _ _ => ⟨rfl, fun _ h => by cases h⟩

end Later

/-- The primitives of a byte source do not care about what comes later. -/
structure LaterSource (σ : Type) [ByteSource σ] (W : σ → Prop) (E : σ → σ) : Prop where
  shrinks : Shrinks σ W
  avail : ∀ s, ByteSource.avail s ≤ ByteSource.avail (E s)
  getU8 : Later W E (ByteSource.getU8 : M σ _)
  getU16 : Later W E (ByteSource.getU16 : M σ _)
  getBytes : ∀ n, Later W E (ByteSource.getBytes n : M σ _)

namespace LaterSource

open Decoder

variable {σ : Type} [ByteSource σ] {W : σ → Prop} {E : σ → σ} (L : LaterSource σ W E)

include L

theorem getString : Later W E (Decoder.getString : M σ _) := by
  unfold Decoder.getString
  refine L.getU16.bind fun n => (L.getBytes n.toNat).bind fun b => ?_
  cases fromUtf8 b with
  | none => exact Later.fail _
  | some s => exact Later.pure _

omit L [ByteSource σ] in
theorem subU64 (pr : Profile) (a b : Nat) : Later W E (Decoder.subU64 pr a b : M σ _) := by
  intro s hw _
  unfold Decoder.subU64
  split
  · exact ⟨rfl, fun _ _ => hw⟩
  · split
    · exact ⟨rfl, fun _ h => by cases h⟩
    · exact ⟨rfl, fun _ _ => hw⟩

theorem remainingLengthLoop (rl mu : Nat) (hm : 0 < mu) : Later W E (decodeRemainingLengthLoop rl mu hm : M σ _) := by
  rw [decodeRemainingLengthLoop]
  refine L.getU8.bind fun b => ?_
  simp only
  split
  · exact Later.fail _
  · split
    · exact Later.pure _
    · exact remainingLengthLoop _ _ _
termination_by 128 * 128 * 128 + 1 - mu
decreasing_by omega

theorem withPacketId (a b : UInt8) : Later W E (decodePacketWithPacketId a b : M σ _) := by
  unfold decodePacketWithPacketId validateFirstByte
  refine Later.bind ?_ fun _ => L.getU16
  split
  · exact Later.pure _
  · exact Later.fail _

theorem getStringIf (c : Bool) : Later W E (Decoder.getStringIf c : M σ _) := by
  unfold Decoder.getStringIf
  split
  · exact L.getString.bind fun _ => Later.pure _
  · exact Later.pure _

theorem connect : Later W E (decodeConnect : M σ _) := by
  unfold decodeConnect
  refine L.getString.bind fun _ => L.getU8.bind fun _ => L.getU8.bind fun fl => ?_
  refine L.getU16.bind fun _ => L.getString.bind fun _ => ?_
  exact (L.getStringIf _).bind fun _ => (L.getStringIf _).bind fun _ => Later.pure _

theorem publishPacketId (pr : Profile) (q : QoS) (rl : Nat) : Later W E (Decoder.publishPacketId pr q rl : M σ _) := by
  unfold Decoder.publishPacketId
  split
  · exact (subU64 pr _ _).bind fun _ => L.getU16.bind fun _ => Later.pure _
  · exact Later.pure _

theorem publish (pr : Profile) (fb : UInt8) (rl : Nat) : Later W E (decodePublish pr fb rl : M σ _) := by
  unfold decodePublish
  cases QoS.fromBits ((fb &&& 0b00000110) >>> 1) with
  | none => exact Later.panic
  | some q =>
    refine L.getString.bind fun t => (subU64 pr _ _).bind fun _ => (subU64 pr _ _).bind fun _ => ?_
    exact (L.publishPacketId _ _ _).bind fun x => (L.getBytes _).bind fun _ => Later.pure _

theorem subscribeLoop (pr : Profile) (fuel rl : Nat) (acc : List Subscription) :
    Later W E (Decoder.subscribeLoop pr fuel rl acc : M σ _) := by
  induction fuel generalizing rl acc with
  | zero => exact Later.hang
  | succ fuel ih =>
    unfold Decoder.subscribeLoop
    split
    · refine L.getString.bind fun t => L.getU8.bind fun q => ?_
      split
      · exact Later.fail _
      · refine (subU64 pr _ _).bind fun _ => ?_
        cases QoS.fromBits q with
        | none => exact Later.panic
        | some q => exact ih _ _
    · exact Later.pure _

theorem unsubscribeLoop (pr : Profile) (fuel rl : Nat) (acc : List String) :
    Later W E (Decoder.unsubscribeLoop pr fuel rl acc : M σ _) := by
  induction fuel generalizing rl acc with
  | zero => exact Later.hang
  | succ fuel ih =>
    unfold Decoder.unsubscribeLoop
    split
    · exact L.getString.bind fun t => (subU64 pr _ _).bind fun _ => ih _ _
    · exact Later.pure _

theorem subscribe (pr : Profile) (fb : UInt8) (rl : Nat) : Later W E (decodeSubscribe pr fb rl : M σ _) := by
  unfold decodeSubscribe
  refine (L.withPacketId _ _).bind fun _ => (subU64 pr _ _).bind fun rl => ?_
  split
  · exact Later.fail _
  · refine Later.bind ?_ fun _ => Later.pure _
    intro s hw hp
    have hav := L.avail s
    have e := L.shrinks.subscribeLoop_fuel pr (ByteSource.avail s + 1) (ByteSource.avail (E s) + 1) rl [] s hw (by omega) (by omega)
    simp only [e] at hp ⊢
    exact L.subscribeLoop pr _ rl [] s hw hp

theorem unsubscribe (pr : Profile) (fb : UInt8) (rl : Nat) : Later W E (decodeUnsubscribe pr fb rl : M σ _) := by
  unfold decodeUnsubscribe
  refine (L.withPacketId _ _).bind fun _ => (subU64 pr _ _).bind fun rl => ?_
  split
  · exact Later.fail _
  · refine Later.bind ?_ fun _ => Later.pure _
    intro s hw hp
    have hav := L.avail s
    have e := L.shrinks.unsubscribeLoop_fuel pr (ByteSource.avail s + 1) (ByteSource.avail (E s) + 1) rl [] s hw (by omega) (by omega)
    simp only [e] at hp ⊢
    exact L.unsubscribeLoop pr _ rl [] s hw hp

theorem readPacket (pr : Profile) : Later W E (Decoder.readPacket pr : M σ _) := by
  refine L.getU8.bind fun fb => (L.remainingLengthLoop 0 1 (by decide)).bind fun rl => ?_
  unfold decodeBody
  simp only
  repeat' split
  all_goals first
    | exact L.connect
    | exact L.publish _ _ _
    | exact (L.withPacketId _ _).bind fun _ => Later.pure _
    | exact L.subscribe _ _ _
    | exact L.unsubscribe _ _ _
    | exact Later.pure _
    | exact Later.panic

end LaterSource

/-! ### The read stream -/

namespace RStream

theorem dropEmpty_append {a b : List (List UInt8)} {seg : List UInt8} {rest : List (List UInt8)} (h : dropEmpty a = seg :: rest) :
    dropEmpty (a ++ b) = seg :: (rest ++ b) := by
  induction a with
  | nil => simp [dropEmpty] at h
  | cons x a ih =>
    cases x with
    | nil => simpa [dropEmpty] using ih (by simpa [dropEmpty] using h)
    | cons y x =>
      simp only [dropEmpty, List.cons.injEq] at h
      obtain ⟨rfl, rfl⟩ := h
      rfl

variable {more : List (List UInt8)} {fin : Ending}

theorem later_of_ne {s : RStream} (h : s.fin ≠ .silence) : s.later more fin = s := if_neg h

theorem later_buf (s : RStream) : (s.later more fin).buf = s.buf := by
  unfold later; split <;> rfl

theorem later_with {s : RStream} (b : BytesMut) : (RStream.mk b s.segs s.fin).later more fin = { s.later more fin with buf := b } := by
  unfold later; split <;> simp_all

theorem later_readBuf (al : Alloc) : Later (fun _ => True) (later more fin) (readBuf al) := by
  intro s _ hp
  refine ⟨?_, fun _ _ => trivial⟩
  by_cases hf : s.fin = .silence
  · have e : s.later more fin = ⟨s.buf, s.segs ++ more, fin⟩ := if_pos hf
    rw [e]
    unfold readBuf at hp ⊢
    simp only at hp ⊢
    generalize (if s.buf.cap = s.buf.len then s.buf.reserve al 64 else s.buf) = buf at hp ⊢
    cases hd : dropEmpty s.segs with
    | nil => rw [hd] at hp; simp [hf] at hp
    | cons seg rest =>
      rw [dropEmpty_append hd]
      simp [later, hf]
  · rw [later_of_ne hf]
    have : (readBuf al s).2.fin = s.fin := by
      unfold readBuf
      simp only
      cases dropEmpty s.segs with
      | nil => cases h : s.fin <;> simp
      | cons seg rest => rfl
    rw [later_of_ne (by rw [this]; exact hf)]

theorem waitForData_unfold (al : Alloc) (n : Nat) (s : RStream) : waitForData al n s =
    if s.buf.len < n then
      match readBuf al s with
      | (.ok k, s') => if k = 0 then (.err .connectionReset, s') else waitForData al n s'
      | (.err e, s') => (.err e, s')
      | (.panic, s') => (.panic, s')
      | (.hang, s') => (.hang, s')
      | (.pending, s') => (.pending, s')
    else (.ok (), s) := by
  rw [waitForData]
  split
  · split <;> rename_i h <;> simp only [h]
  · rfl

theorem later_waitForData (al : Alloc) (n : Nat) : Later (fun _ => True) (later more fin) (waitForData al n : M RStream Unit) := by
  intro s _ hp
  refine ⟨?_, fun _ _ => trivial⟩
  induction h : s.incoming using Nat.strongRecOn generalizing s with
  | _ m ih =>
    rw [waitForData_unfold al n s] at hp ⊢
    rw [waitForData_unfold al n (s.later more fin), later_buf]
    by_cases hl : s.buf.len < n
    · simp only [hl, ↓reduceIte] at hp ⊢
      have hr := later_readBuf (more := more) (fin := fin) al s trivial
      rcases hb : readBuf al s with ⟨r, s'⟩
      rw [hb] at hr hp
      cases r with
      | ok k =>
        have hr := (hr (by simp)).1
        simp only [hr]
        simp only at hp
        by_cases hk : k = 0
        · simp [hk]
        · simp only [hk, ↓reduceIte] at hp ⊢
          have hi := readBuf_incoming al s k s' hb
          exact ih s'.incoming (by omega) s' hp rfl
      | err e => have hr := (hr (by simp)).1; simp only [hr]
      | panic => have hr := (hr (by simp)).1; simp only [hr]
      | hang => have hr := (hr (by simp)).1; simp only [hr]
      | pending => exact absurd rfl hp
    · simp only [hl, ↓reduceIte]

theorem later_getBytesLoop (al : Alloc) (n : Nat) (acc : List UInt8) :
    Later (fun _ => True) (later more fin) (getBytesLoop al n acc : M RStream (List UInt8)) := by
  intro s _ hp
  refine ⟨?_, fun _ _ => trivial⟩
  induction h : n using Nat.strongRecOn generalizing s acc n with
  | _ m ih =>
    subst h
    rw [getBytesLoop] at hp ⊢
    rw [getBytesLoop]
    by_cases h0 : n = 0
    · simp [h0]
    · simp only [h0, ↓reduceIte] at hp ⊢
      have hw : (s.later more fin).roundSize n = s.roundSize n := by simp only [roundSize, later_buf]
      rw [hw]
      by_cases h1 : s.roundSize n = 0
      · simp [h1]
      · simp only [h1, ↓reduceIte] at hp ⊢
        have hr := later_waitForData (more := more) (fin := fin) al (s.roundSize n) s trivial
        rcases hb : waitForData al (s.roundSize n) s with ⟨r, s'⟩
        rw [hb] at hr hp
        cases r with
        | ok k =>
          have hr := (hr (by simp)).1
          simp only [hr]
          simp only at hp
          have := ih (n - s.roundSize n) (by omega) _ _ _ hp rfl
          rw [later_with] at this
          rw [later_buf]
          exact this
        | err e => have hr := (hr (by simp)).1; simp only [hr]
        | panic => have hr := (hr (by simp)).1; simp only [hr]
        | hang => have hr := (hr (by simp)).1; simp only [hr]
        | pending => exact absurd rfl hp

/-- What does not touch what comes can be done before or after it comes. -/
theorem later_of (W : RStream → Prop) {α : Type} (m : M RStream α) (f : BytesMut → Res α × BytesMut)
    (hm : ∀ s, m s = ((f s.buf).1, { s with buf := (f s.buf).2 })) (hw : ∀ s a, W s → (m s).1 = .ok a → W (m s).2) :
    Later W (later more fin) m := by
  intro s h _
  refine ⟨?_, fun a ha => hw s a h ha⟩
  rw [hm, hm, later_buf]
  simp only [later_with]

theorem later_source (al : Alloc) : @LaterSource RStream (source al) Wf (later more fin) := by
  letI := source al
  have S := shrinks al
  have weaken : ∀ {α : Type} {m : M RStream α}, Later (fun _ => True) (later more fin) m →
      (∀ s a s', s.Wf → m s = (.ok a, s') → s'.Wf) → Later Wf (later more fin) m := by
    intro α m h1 h2 s hw hp
    refine ⟨(h1 s trivial hp).1, fun a ha => h2 s a _ hw ?_⟩
    rw [← ha]
  refine ⟨S, fun s => ?_, weaken ?_ fun s a s' hw h => (S.getU8 s a s' hw h).1, weaken ?_ fun s a s' hw h => (S.getU16 s a s' hw h).1,
    fun n => weaken ?_ fun s a s' hw h => (S.getBytes n s a s' hw h).1⟩
  · simp only [ByteSource.avail, later_buf, incoming]
    unfold later
    split <;> simp
  · refine (later_waitForData al 1).bind fun _ => later_of _ _
      (fun b => match b.data with
        | x :: _ => (.ok x, b.advance al 1)
        | [] => (.panic, b)) ?_ fun _ _ _ _ => trivial
    intro s
    cases s.buf.data <;> rfl
  · refine (later_waitForData al 2).bind fun _ => later_of _ _
      (fun b => match b.data with
        | hi :: lo :: _ => (.ok (u16OfBytes hi lo), b.advance al 2)
        | _ => (.panic, b)) ?_ fun _ _ _ _ => trivial
    intro s
    match s.buf.data with
    | [] => rfl
    | [_] => rfl
    | _ :: _ :: _ => rfl
  · intro s _ hp
    simp only [ByteSource.getBytes, getBytes] at hp ⊢
    split
    · exact ⟨rfl, fun _ _ => trivial⟩
    · rename_i h
      rw [if_neg h] at hp
      exact later_getBytesLoop al n [] s trivial hp

/-- Reading a packet that is there does not depend on what comes after. -/
theorem readPacket_later (env : Env) (s : RStream) (hw : s.Wf)
    (hp : (@Decoder.readPacket _ (source env.alloc) env.profile s).1 ≠ .pending) :
    @Decoder.readPacket _ (source env.alloc) env.profile (s.later more fin)
      = ((@Decoder.readPacket _ (source env.alloc) env.profile s).1,
        (@Decoder.readPacket _ (source env.alloc) env.profile s).2.later more fin) :=
  letI := source env.alloc
  ((later_source (more := more) (fin := fin) env.alloc).readPacket env.profile s hw hp).1

theorem readPacket_wf (env : Env) (s : RStream) (hw : s.Wf) (p : ControlPacket)
    (hp : (@Decoder.readPacket _ (source env.alloc) env.profile s).1 = .ok p) :
    (@Decoder.readPacket _ (source env.alloc) env.profile s).2.Wf :=
  letI := source env.alloc
  ((later_source (more := []) (fin := .eof) env.alloc).readPacket env.profile s hw (by rw [hp]; simp)).2 p hp

end RStream

/-! ### The write stream -/

/-- The primitives of a sink do not care about what comes later. -/
structure LaterSink (σ : Type) [ByteSink σ] (E : σ → σ) : Prop where
  putU8 : ∀ b, Later (fun _ => True) E (ByteSink.putU8 b : M σ Unit)
  putU16 : ∀ n, Later (fun _ => True) E (ByteSink.putU16 n : M σ Unit)
  putBytes : ∀ bs, Later (fun _ => True) E (ByteSink.putBytes bs : M σ Unit)
  finishPacket : Later (fun _ => True) E (ByteSink.finishPacket : M σ Unit)

namespace LaterSink

open Encoder

variable {σ : Type} [ByteSink σ] {E : σ → σ}

theorem encodeRemainingLength (L : LaterSink σ E) (n : Nat) : Later (fun _ => True) E (encodeRemainingLength n : M σ Unit) := by
  induction n using Nat.strongRecOn with
  | _ n ih =>
    rw [Encoder.encodeRemainingLength]
    refine (L.putU8 _).bind fun _ => ?_
    split
    · exact Later.pure _
    · exact ih _ (by omega)

theorem writeReturnCodes (L : LaterSink σ E) (cs : List SubAckReturnCode) : Later (fun _ => True) E (writeReturnCodes cs : M σ Unit) := by
  induction cs with
  | nil => exact Later.pure _
  | cons c cs ih => exact (L.putU8 _).bind fun _ => ih

theorem writeWithId (L : LaterSink σ E) (b : UInt8) (i : UInt16) : Later (fun _ => True) E (writePacketWithPacketId b i : M σ Unit) :=
  (L.putU8 _).bind fun _ => (L.encodeRemainingLength _).bind fun _ => L.putU16 _

theorem writePacket (L : LaterSink σ E) (p : ControlPacket) : Later (fun _ => True) E (writePacket p : M σ Unit) := by
  refine Later.bind ?_ fun _ => L.finishPacket
  cases p with
  | connAck p => exact (L.putU8 _).bind fun _ => (L.encodeRemainingLength _).bind fun _ => (L.putU8 _).bind fun _ => L.putU8 _
  | publish p =>
    refine (L.putU8 _).bind fun _ => (L.encodeRemainingLength _).bind fun _ => ?_
    refine Later.bind ((L.putU16 _).bind fun _ => L.putBytes _) fun _ => ?_
    cases p.packetId with
    | none => exact L.putBytes _
    | some i => exact (L.putU16 i).bind fun _ => L.putBytes _
  | pubAck i => exact L.writeWithId _ _
  | pubRec i => exact L.writeWithId _ _
  | pubRel i => exact L.writeWithId _ _
  | pubComp i => exact L.writeWithId _ _
  | subAck p =>
    exact (L.putU8 _).bind fun _ => (L.encodeRemainingLength _).bind fun _ => (L.putU16 _).bind fun _ => L.writeReturnCodes _
  | unsubAck i => exact L.writeWithId _ _
  | pingResp => exact (L.putU8 _).bind fun _ => L.encodeRemainingLength _
  | _ => exact Later.panic

end LaterSink

namespace WStream

variable {more : List WriteOutcome}

theorem later_writeBuf (al : Alloc) : Later (fun _ => True) (later more) (writeBuf al) := by
  intro s _ hp
  refine ⟨?_, fun _ _ => trivial⟩
  unfold writeBuf at hp ⊢
  simp only [later]
  by_cases hd : s.buf.data = []
  · simp [hd]
  · simp only [hd, ↓reduceIte] at hp ⊢
    match hs : s.script with
    | [] => rw [hs] at hp; simp at hp
    | .fail :: r => simp
    | .accept k :: r => simp

theorem later_writeBufferIfTooSmall (al : Alloc) (n : Nat) : Later (fun _ => True) (later more) (writeBufferIfTooSmall al n) := by
  intro s _ hp
  unfold writeBufferIfTooSmall at hp ⊢
  have e : (s.later more).buf = s.buf := rfl
  rw [e]
  by_cases hd : s.buf.len + n ≥ s.buf.cap
  · simp only [hd, ↓reduceIte] at hp ⊢
    exact later_writeBuf al s trivial hp
  · simp [hd]

theorem later_bufPut (al : Alloc) (bs : List UInt8) : Later (fun _ => True) (later more) (bufPut al bs) :=
  fun _ _ _ => ⟨rfl, fun _ _ => trivial⟩

theorem later_putBytes (al : Alloc) (bs : List UInt8) : Later (fun _ => True) (later more) (putBytes al bs : M WStream Unit) := by
  intro s _ hp
  refine ⟨?_, fun _ _ => trivial⟩
  induction h : bs.length using Nat.strongRecOn generalizing s bs with
  | _ m ih =>
    rw [putBytes] at hp ⊢
    rw [putBytes]
    have e : (s.later more).buf = s.buf := rfl
    rw [e]
    by_cases h0 : bs.length = 0
    · simp [h0]
    · simp only [h0, ↓reduceDIte] at hp ⊢
      generalize hw : (if bs.length > s.buf.cap then s.buf.cap else bs.length) = w at hp ⊢
      by_cases h1 : w = 0
      · simp [h1]
      · simp only [h1, ↓reduceDIte] at hp ⊢
        have hr := later_writeBufferIfTooSmall (more := more) al w s trivial
        rcases hb : writeBufferIfTooSmall al w s with ⟨r, s'⟩
        rw [hb] at hr hp
        cases r with
        | ok k =>
          have hr := (hr (by simp)).1
          simp only [hr]
          simp only at hp
          exact ih (bs.drop w).length (by simp only [List.length_drop]; omega) _ _ hp rfl
        | err e => have hr := (hr (by simp)).1; simp only [hr]
        | panic => have hr := (hr (by simp)).1; simp only [hr]
        | hang => have hr := (hr (by simp)).1; simp only [hr]
        | pending => exact absurd rfl hp

theorem later_sink (al : Alloc) : @LaterSink WStream (sink al) (later more) := by
  letI := sink al
  exact ⟨fun _ => (later_writeBufferIfTooSmall al 1).bind fun _ => later_bufPut al _,
    fun _ => (later_writeBufferIfTooSmall al 2).bind fun _ => later_bufPut al _, fun _ => later_putBytes al _, later_writeBuf al⟩

/-- A write that comes to an end does not depend on what the socket does afterwards. -/
theorem writePacket_later (al : Alloc) (p : ControlPacket) (s : WStream) (hp : (@Encoder.writePacket _ (sink al) p s).1 ≠ .pending) :
    @Encoder.writePacket _ (sink al) p (s.later more)
      = ((@Encoder.writePacket _ (sink al) p s).1, (@Encoder.writePacket _ (sink al) p s).2.later more) :=
  letI := sink al
  ((later_sink (more := more) al).writePacket p s trivial hp).1

end WStream

end Ratel
