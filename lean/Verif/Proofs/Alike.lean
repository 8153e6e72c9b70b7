/-
Two byte sources that behave alike: the decoder behaves alike on both, including panics, waiting for ever and spinning.
-/
import Verif.Model.Decoder
import Verif.Proofs.Monad

namespace Ratel

/-- From related states both computations have the same result; after a success the states are related again. -/
def Alike {σ τ : Type} (R : σ → τ → Prop) {α : Type} (m : M σ α) (m' : M τ α) : Prop :=
  ∀ s t, R s t → (m s).1 = (m' t).1 ∧ ∀ a, (m s).1 = .ok a → R (m s).2 (m' t).2

/-- The primitives behave alike. -/
structure AlikeLaws (σ τ : Type) [ByteSource σ] [ByteSource τ] (R : σ → τ → Prop) : Prop where
  avail : ∀ s t, R s t → ByteSource.avail s = ByteSource.avail t
  getU8 : Alike R (ByteSource.getU8 : M σ _) (ByteSource.getU8 : M τ _)
  getU16 : Alike R (ByteSource.getU16 : M σ _) (ByteSource.getU16 : M τ _)
  getBytes : ∀ n, Alike R (ByteSource.getBytes n : M σ _) (ByteSource.getBytes n : M τ _)

namespace Alike

variable {σ τ : Type} {R : σ → τ → Prop} {α β : Type}

theorem bind {m : M σ α} {m' : M τ α} {k : α → M σ β} {k' : α → M τ β} (h : Alike R m m') (hk : ∀ a, Alike R (k a) (k' a)) :
    Alike R (m >>= k) (m' >>= k') := by
  intro s t hr
  obtain ⟨h1, h2⟩ := h s t hr
  rcases hm : m s with ⟨r, s₁⟩
  rcases hm' : m' t with ⟨r', t₁⟩
  rw [hm, hm'] at h1 h2
  simp only at h1
  subst h1
  cases r with
  | ok a =>
    rw [M.bind_ok hm, M.bind_ok hm']
    exact hk a s₁ t₁ (h2 a rfl)
  | err e => rw [M.bind_err hm, M.bind_err hm']; exact ⟨rfl, fun _ h => by cases h⟩
  | panic => rw [M.bind_panic hm, M.bind_panic hm']; exact ⟨rfl, fun _ h => by cases h⟩
  | pending => rw [M.bind_pending hm, M.bind_pending hm']; exact ⟨rfl, fun _ h => by cases h⟩
  | hang => rw [M.bind_hang hm, M.bind_hang hm']; exact ⟨rfl, fun _ h => by cases h⟩

theorem pure (a : α) : Alike R (Pure.pure a : M σ α) (Pure.pure a : M τ α) := fun _ _ hr => ⟨rfl, fun _ _ => hr⟩

theorem fail (e : ErrKind) : Alike R (M.fail e : M σ α) (M.fail e : M τ α) := fun _ _ _ => ⟨rfl, fun _ h => by cases h⟩

theorem panic : Alike R (M.panic : M σ α) (M.panic : M τ α) := fun _ _ _ => ⟨rfl, fun _ h => by cases h⟩

end Alike

namespace AlikeLaws

open Decoder

variable {σ τ : Type} [ByteSource σ] [ByteSource τ] {R : σ → τ → Prop} (L : AlikeLaws σ τ R)

include L

theorem getString : Alike R (Decoder.getString : M σ _) (Decoder.getString : M τ _) := by
  unfold Decoder.getString
  refine L.getU16.bind fun n => (L.getBytes n.toNat).bind fun b => ?_
  cases fromUtf8 b with
  | none => exact Alike.fail _
  | some s => exact Alike.pure _

omit L [ByteSource σ] [ByteSource τ] in
theorem subU64 (pr : Profile) (a b : Nat) : Alike R (Decoder.subU64 pr a b : M σ _) (Decoder.subU64 pr a b : M τ _) := by
  intro s t hr
  unfold Decoder.subU64
  split
  · exact ⟨rfl, fun _ _ => hr⟩
  · split
    · exact ⟨rfl, fun _ h => by cases h⟩
    · exact ⟨rfl, fun _ _ => hr⟩

theorem remainingLengthLoop (rl mu : Nat) (hm : 0 < mu) :
    Alike R (decodeRemainingLengthLoop rl mu hm : M σ _) (decodeRemainingLengthLoop rl mu hm : M τ _) := by
  rw [decodeRemainingLengthLoop, decodeRemainingLengthLoop]
  refine L.getU8.bind fun b => ?_
  simp only
  split
  · exact Alike.fail _
  · split
    · exact Alike.pure _
    · exact remainingLengthLoop _ _ _
termination_by 128 * 128 * 128 + 1 - mu
decreasing_by omega

theorem withPacketId (a b : UInt8) :
    Alike R (decodePacketWithPacketId a b : M σ _) (decodePacketWithPacketId a b : M τ _) := by
  unfold decodePacketWithPacketId validateFirstByte
  refine Alike.bind ?_ fun _ => L.getU16
  split
  · exact Alike.pure _
  · exact Alike.fail _

theorem getStringIf (c : Bool) : Alike R (Decoder.getStringIf c : M σ _) (Decoder.getStringIf c : M τ _) := by
  unfold Decoder.getStringIf
  split
  · exact L.getString.bind fun _ => Alike.pure _
  · exact Alike.pure _

theorem connect : Alike R (decodeConnect : M σ _) (decodeConnect : M τ _) := by
  unfold decodeConnect
  refine L.getString.bind fun _ => L.getU8.bind fun _ => L.getU8.bind fun fl => ?_
  refine L.getU16.bind fun _ => L.getString.bind fun _ => ?_
  exact (L.getStringIf _).bind fun _ => (L.getStringIf _).bind fun _ => Alike.pure _

theorem publishPacketId (pr : Profile) (q : QoS) (rl : Nat) :
    Alike R (Decoder.publishPacketId pr q rl : M σ _) (Decoder.publishPacketId pr q rl : M τ _) := by
  unfold Decoder.publishPacketId
  split
  · exact (subU64 pr _ _).bind fun _ => L.getU16.bind fun _ => Alike.pure _
  · exact Alike.pure _

theorem publish (pr : Profile) (fb : UInt8) (rl : Nat) :
    Alike R (decodePublish pr fb rl : M σ _) (decodePublish pr fb rl : M τ _) := by
  unfold decodePublish
  cases QoS.fromBits ((fb &&& 0b00000110) >>> 1) with
  | none => exact Alike.panic
  | some q =>
    refine L.getString.bind fun t => (subU64 pr _ _).bind fun _ => (subU64 pr _ _).bind fun _ => ?_
    exact (L.publishPacketId _ _ _).bind fun x => (L.getBytes _).bind fun _ => Alike.pure _

theorem subscribeLoop (pr : Profile) (fuel rl : Nat) (acc : List Subscription) :
    Alike R (Decoder.subscribeLoop pr fuel rl acc : M σ _) (Decoder.subscribeLoop pr fuel rl acc : M τ _) := by
  induction fuel generalizing rl acc with
  | zero => exact fun s t hr => ⟨rfl, fun _ h => by cases h⟩
  | succ fuel ih =>
    unfold Decoder.subscribeLoop
    split
    · refine L.getString.bind fun t => L.getU8.bind fun q => ?_
      split
      · exact Alike.fail _
      · refine (subU64 pr _ _).bind fun _ => ?_
        cases QoS.fromBits q with
        | none => exact Alike.panic
        | some q => exact ih _ _
    · exact Alike.pure _

theorem unsubscribeLoop (pr : Profile) (fuel rl : Nat) (acc : List String) :
    Alike R (Decoder.unsubscribeLoop pr fuel rl acc : M σ _) (Decoder.unsubscribeLoop pr fuel rl acc : M τ _) := by
  induction fuel generalizing rl acc with
  | zero => exact fun s t hr => ⟨rfl, fun _ h => by cases h⟩
  | succ fuel ih =>
    unfold Decoder.unsubscribeLoop
    split
    · exact L.getString.bind fun t => (subU64 pr _ _).bind fun _ => ih _ _
    · exact Alike.pure _

/-- Loops with as many rounds of fuel as bytes are there. -/
theorem fuelled {α : Type} (m : Nat → M σ α) (m' : Nat → M τ α) (h : ∀ fuel, Alike R (m fuel) (m' fuel)) :
    Alike R (fun s => m (ByteSource.avail s + 1) s) (fun t => m' (ByteSource.avail t + 1) t) := by
  intro s t hr
  dsimp only
  rw [L.avail s t hr]
  exact h _ s t hr

theorem subscribe (pr : Profile) (fb : UInt8) (rl : Nat) :
    Alike R (decodeSubscribe pr fb rl : M σ _) (decodeSubscribe pr fb rl : M τ _) := by
  unfold decodeSubscribe
  refine (L.withPacketId _ _).bind fun i => (subU64 pr _ _).bind fun n => ?_
  split
  · exact Alike.fail _
  · exact (L.fuelled _ _ fun fuel => L.subscribeLoop pr fuel n []).bind fun _ => Alike.pure _

theorem unsubscribe (pr : Profile) (fb : UInt8) (rl : Nat) :
    Alike R (decodeUnsubscribe pr fb rl : M σ _) (decodeUnsubscribe pr fb rl : M τ _) := by
  unfold decodeUnsubscribe
  refine (L.withPacketId _ _).bind fun i => (subU64 pr _ _).bind fun n => ?_
  split
  · exact Alike.fail _
  · exact (L.fuelled _ _ fun fuel => L.unsubscribeLoop pr fuel n []).bind fun _ => Alike.pure _

theorem body (pr : Profile) (fb : UInt8) (rl : Nat) :
    Alike R (decodeBody pr fb rl : M σ _) (decodeBody pr fb rl : M τ _) := by
  unfold decodeBody
  simp only
  split
  · exact L.connect
  split
  · exact L.publish _ _ _
  split
  · exact (L.withPacketId _ _).bind fun _ => Alike.pure _
  split
  · exact (L.withPacketId _ _).bind fun _ => Alike.pure _
  split
  · exact (L.withPacketId _ _).bind fun _ => Alike.pure _
  split
  · exact (L.withPacketId _ _).bind fun _ => Alike.pure _
  split
  · exact L.subscribe _ _ _
  split
  · exact L.unsubscribe _ _ _
  split
  · exact Alike.pure _
  split
  · exact Alike.pure _
  · exact Alike.panic

/-- Reading a packet from sources that behave alike. -/
theorem readPacket (pr : Profile) : Alike R (Decoder.readPacket pr : M σ _) (Decoder.readPacket pr : M τ _) := by
  unfold Decoder.readPacket
  exact L.getU8.bind fun _ => (L.remainingLengthLoop _ _ _).bind fun _ => L.body _ _ _

end AlikeLaws

end Ratel
