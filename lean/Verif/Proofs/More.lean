/-
Two byte sources of which one yields at least what the other yields: the decoder reads from it at least what it reads from the other.
-/
import Verif.Model.Decoder
import Verif.Proofs.Monad

namespace Ratel

/-- From related states, when the one computation succeeds so does the other, with the same result, and the states are related again. -/
def More {σ τ : Type} (R : σ → τ → Prop) {α : Type} (m : M σ α) (m' : M τ α) : Prop :=
  ∀ s t, R s t → ∀ a s', m s = (.ok a, s') → ∃ t', m' t = (.ok a, t') ∧ R s' t'

/-- This holds of the primitives. -/
structure MoreLaws (σ τ : Type) [ByteSource σ] [ByteSource τ] (R : σ → τ → Prop) : Prop where
  avail : ∀ s t, R s t → ByteSource.avail s ≤ ByteSource.avail t
  getU8 : More R (ByteSource.getU8 : M σ _) (ByteSource.getU8 : M τ _)
  getU16 : More R (ByteSource.getU16 : M σ _) (ByteSource.getU16 : M τ _)
  getBytes : ∀ n, More R (ByteSource.getBytes n : M σ _) (ByteSource.getBytes n : M τ _)

namespace More

variable {σ τ : Type} {R : σ → τ → Prop} {α β : Type}

theorem bind {m : M σ α} {m' : M τ α} {k : α → M σ β} {k' : α → M τ β} (h : More R m m') (hk : ∀ a, More R (k a) (k' a)) :
    More R (m >>= k) (m' >>= k') := by
  intro s t hr b s' hb
  obtain ⟨a, s₁, h1, h2⟩ := M.bind_eq_ok.mp hb
  obtain ⟨t₁, h3, h4⟩ := h s t hr a s₁ h1
  rw [M.bind_ok h3]
  exact hk a s₁ t₁ h4 b s' h2

theorem pure (a : α) : More R (Pure.pure a : M σ α) (Pure.pure a : M τ α) := by
  intro s t hr b s' h
  cases h
  exact ⟨t, rfl, hr⟩

theorem fail (e : ErrKind) : More R (M.fail e : M σ α) (M.fail e : M τ α) := by
  intro s t _ b s' h
  cases h

theorem panic : More R (M.panic : M σ α) (M.panic : M τ α) := by
  intro s t _ b s' h
  cases h

end More

namespace MoreLaws

open Decoder

variable {σ τ : Type} [ByteSource σ] [ByteSource τ] {R : σ → τ → Prop} (L : MoreLaws σ τ R)

include L

theorem getString : More R (Decoder.getString : M σ _) (Decoder.getString : M τ _) := by
  unfold Decoder.getString
  refine L.getU16.bind fun n => (L.getBytes n.toNat).bind fun b => ?_
  cases fromUtf8 b with
  | none => exact More.fail _
  | some s => exact More.pure _

omit L [ByteSource σ] [ByteSource τ] in
theorem subU64 (pr : Profile) (a b : Nat) : More R (Decoder.subU64 pr a b : M σ _) (Decoder.subU64 pr a b : M τ _) := by
  unfold Decoder.subU64
  split
  · exact More.pure _
  · split
    · exact More.panic
    · exact More.pure _

theorem remainingLengthLoop (rl mu : Nat) (hm : 0 < mu) :
    More R (decodeRemainingLengthLoop rl mu hm : M σ _) (decodeRemainingLengthLoop rl mu hm : M τ _) := by
  rw [decodeRemainingLengthLoop, decodeRemainingLengthLoop]
  refine L.getU8.bind fun b => ?_
  simp only
  split
  · exact More.fail _
  · split
    · exact More.pure _
    · exact remainingLengthLoop _ _ _
termination_by 128 * 128 * 128 + 1 - mu
decreasing_by omega

theorem withPacketId (a b : UInt8) :
    More R (decodePacketWithPacketId a b : M σ _) (decodePacketWithPacketId a b : M τ _) := by
  unfold decodePacketWithPacketId validateFirstByte
  refine More.bind ?_ fun _ => L.getU16
  split
  · exact More.pure _
  · exact More.fail _

theorem getStringIf (c : Bool) : More R (Decoder.getStringIf c : M σ _) (Decoder.getStringIf c : M τ _) := by
  unfold Decoder.getStringIf
  split
  · exact L.getString.bind fun _ => More.pure _
  · exact More.pure _

theorem connect : More R (decodeConnect : M σ _) (decodeConnect : M τ _) := by
  unfold decodeConnect
  refine L.getString.bind fun _ => L.getU8.bind fun _ => L.getU8.bind fun fl => ?_
  refine L.getU16.bind fun _ => L.getString.bind fun _ => ?_
  exact (L.getStringIf _).bind fun _ => (L.getStringIf _).bind fun _ => More.pure _

theorem publishPacketId (pr : Profile) (q : QoS) (rl : Nat) :
    More R (Decoder.publishPacketId pr q rl : M σ _) (Decoder.publishPacketId pr q rl : M τ _) := by
  unfold Decoder.publishPacketId
  split
  · exact (subU64 pr _ _).bind fun _ => L.getU16.bind fun _ => More.pure _
  · exact More.pure _

theorem publish (pr : Profile) (fb : UInt8) (rl : Nat) :
    More R (decodePublish pr fb rl : M σ _) (decodePublish pr fb rl : M τ _) := by
  unfold decodePublish
  cases QoS.fromBits ((fb &&& 0b00000110) >>> 1) with
  | none => exact More.panic
  | some q =>
    refine L.getString.bind fun t => (subU64 pr _ _).bind fun _ => (subU64 pr _ _).bind fun _ => ?_
    exact (L.publishPacketId _ _ _).bind fun x => (L.getBytes _).bind fun _ => More.pure _

theorem subscribeLoop (pr : Profile) {fuel fuel' : Nat} (hf : fuel ≤ fuel') (rl : Nat) (acc : List Subscription) :
    More R (Decoder.subscribeLoop pr fuel rl acc : M σ _) (Decoder.subscribeLoop pr fuel' rl acc : M τ _) := by
  induction fuel generalizing fuel' rl acc with
  | zero => exact fun s t _ a s' h => by cases h
  | succ fuel ih =>
    obtain ⟨fuel', rfl⟩ : ∃ k, fuel' = k + 1 := ⟨fuel' - 1, by omega⟩
    unfold Decoder.subscribeLoop
    split
    · refine L.getString.bind fun t => L.getU8.bind fun q => ?_
      split
      · exact More.fail _
      · refine (subU64 pr _ _).bind fun _ => ?_
        cases QoS.fromBits q with
        | none => exact More.panic
        | some q => exact ih (by omega) _ _
    · exact More.pure _

theorem unsubscribeLoop (pr : Profile) {fuel fuel' : Nat} (hf : fuel ≤ fuel') (rl : Nat) (acc : List String) :
    More R (Decoder.unsubscribeLoop pr fuel rl acc : M σ _) (Decoder.unsubscribeLoop pr fuel' rl acc : M τ _) := by
  induction fuel generalizing fuel' rl acc with
  | zero => exact fun s t _ a s' h => by cases h
  | succ fuel ih =>
    obtain ⟨fuel', rfl⟩ : ∃ k, fuel' = k + 1 := ⟨fuel' - 1, by omega⟩
    unfold Decoder.unsubscribeLoop
    split
    · exact L.getString.bind fun t => (subU64 pr _ _).bind fun _ => ih (by omega) _ _
    · exact More.pure _

/-- Loops with as many rounds of fuel as bytes are there. -/
theorem fuelled {α : Type} (m : Nat → M σ α) (m' : Nat → M τ α) (h : ∀ fuel fuel', fuel ≤ fuel' → More R (m fuel) (m' fuel')) :
    More R (fun s => m (ByteSource.avail s + 1) s) (fun t => m' (ByteSource.avail t + 1) t) := by
  intro s t hr
  exact h _ _ (Nat.add_le_add_right (L.avail s t hr) 1) s t hr

theorem subscribe (pr : Profile) (fb : UInt8) (rl : Nat) :
    More R (decodeSubscribe pr fb rl : M σ _) (decodeSubscribe pr fb rl : M τ _) := by
  unfold decodeSubscribe
  refine (L.withPacketId _ _).bind fun i => (subU64 pr _ _).bind fun n => ?_
  split
  · exact More.fail _
  · exact (L.fuelled _ _ fun _ _ hf => L.subscribeLoop pr hf n []).bind fun _ => More.pure _

theorem unsubscribe (pr : Profile) (fb : UInt8) (rl : Nat) :
    More R (decodeUnsubscribe pr fb rl : M σ _) (decodeUnsubscribe pr fb rl : M τ _) := by
  unfold decodeUnsubscribe
  refine (L.withPacketId _ _).bind fun i => (subU64 pr _ _).bind fun n => ?_
  split
  · exact More.fail _
  · exact (L.fuelled _ _ fun _ _ hf => L.unsubscribeLoop pr hf n []).bind fun _ => More.pure _

theorem body (pr : Profile) (fb : UInt8) (rl : Nat) :
    More R (decodeBody pr fb rl : M σ _) (decodeBody pr fb rl : M τ _) := by
  unfold decodeBody
  simp only
  split
  · exact L.connect
  split
  · exact L.publish _ _ _
  split
  · exact (L.withPacketId _ _).bind fun _ => More.pure _
  split
  · exact (L.withPacketId _ _).bind fun _ => More.pure _
  split
  · exact (L.withPacketId _ _).bind fun _ => More.pure _
  split
  · exact (L.withPacketId _ _).bind fun _ => More.pure _
  split
  · exact L.subscribe _ _ _
  split
  · exact L.unsubscribe _ _ _
  split
  · exact More.pure _
  split
  · exact More.pure _
  · exact More.panic

/-- Reading a packet. -/
theorem readPacket (pr : Profile) : More R (Decoder.readPacket pr : M σ _) (Decoder.readPacket pr : M τ _) := by
  unfold Decoder.readPacket
  exact L.getU8.bind fun _ => (L.remainingLengthLoop _ _ _).bind fun _ => L.body _ _ _

end MoreLaws

namespace RStream

/-- The same stream, on which more comes, and which ends in another way. -/
def followed (more : List (List UInt8)) (fin : Ending) (s : RStream) : RStream := ⟨s.buf, s.segs ++ more, fin⟩

variable (al : Alloc) (more : List (List UInt8)) (fin : Ending)

theorem dropEmpty_followed {l : List (List UInt8)} {seg : List UInt8} {rest : List (List UInt8)} (h : dropEmpty l = seg :: rest) :
    dropEmpty (l ++ more) = seg :: rest ++ more := by
  fun_induction dropEmpty l with
  | case1 rest ih => exact ih h
  | case2 l hl =>
    subst h
    cases seg with
    | nil => exact absurd rfl (hl rest)
    | cons b seg => rfl

/-- The relation between the two. -/
def Followed (s t : RStream) : Prop := t = followed more fin s

theorem readBuf_followed {s s' : RStream} {k : Nat} (h : readBuf al s = (.ok k, s')) (hk : k ≠ 0) :
    readBuf al (followed more fin s) = (.ok k, followed more fin s') := by
  unfold readBuf at *
  cases hd : dropEmpty s.segs with
  | nil =>
    rw [hd] at h
    cases hf : s.fin <;> rw [hf] at h <;> simp at h
    exact absurd h.1.symm hk
  | cons seg rest =>
    rw [hd] at h
    have hd' : dropEmpty (followed more fin s).segs = seg :: rest ++ more := dropEmpty_followed more hd
    rw [hd']
    simp only [List.cons_append, Prod.mk.injEq, Res.ok.injEq] at h ⊢
    obtain ⟨rfl, rfl⟩ := h
    exact ⟨rfl, rfl⟩

theorem waitForData_followed (n : Nat) : More (Followed more fin) (waitForData al n) (waitForData al n) := by
  rintro s t rfl a s' h
  fun_induction waitForData al n s with
  | case1 => cases h
  | case2 s hlt k s₁ hr hk ih =>
    obtain ⟨t', h1, h2⟩ := ih h
    refine ⟨t', ?_, h2⟩
    rw [waitForData, if_pos (show (followed more fin s).buf.len < n from hlt)]
    have := readBuf_followed al more fin hr hk
    split
    · rename_i k' s'' heq
      rw [this] at heq
      simp only [Prod.mk.injEq, Res.ok.injEq] at heq
      obtain ⟨rfl, rfl⟩ := heq
      rw [if_neg hk]
      exact h1
    all_goals (rename_i heq; rw [this] at heq; simp at heq)
  | case3 | case4 | case5 | case6 => cases h
  | case7 s hlt =>
    cases h
    refine ⟨_, ?_, rfl⟩
    rw [waitForData, if_neg (show ¬ (followed more fin s').buf.len < n from hlt)]

theorem getBytesLoop_followed (n : Nat) (bytes : List UInt8) : More (Followed more fin) (getBytesLoop al n bytes) (getBytesLoop al n bytes) := by
  rintro s t rfl a s' h
  fun_induction getBytesLoop al n bytes s with
  | case1 bytes s =>
    cases h
    exact ⟨_, by rw [getBytesLoop, if_pos rfl], rfl⟩
  | case2 => cases h
  | case3 n bytes s hn w hw u s₁ hr ih =>
    obtain ⟨t₁, h1, h2⟩ := waitForData_followed al more fin w s _ rfl _ _ hr
    obtain rfl : t₁ = followed more fin s₁ := h2
    obtain ⟨t', h3, h4⟩ := ih h
    refine ⟨t', ?_, h4⟩
    rw [getBytesLoop, if_neg hn]
    simp only
    rw [if_neg (show ¬ (followed more fin s).roundSize n = 0 from hw), show (followed more fin s).roundSize n = w from rfl, h1]
    exact h3
  | case4 | case5 | case6 | case7 => cases h

/-- What can be read from a stream can be read from it when more follows. -/
theorem followed_laws : @MoreLaws RStream RStream (RStream.source al) (RStream.source al) (Followed more fin) :=
  letI := RStream.source al
  { avail := by
      rintro s t rfl
      show s.buf.len + s.incoming ≤ (followed more fin s).buf.len + (followed more fin s).incoming
      simp [followed, incoming]
    getU8 := (waitForData_followed al more fin 1).bind fun _ => by
      rintro s t rfl a s' h
      rcases s with ⟨⟨off, cap, data⟩, segs, f⟩
      cases data with
      | nil => cases h
      | cons b data => cases h; exact ⟨_, rfl, rfl⟩
    getU16 := (waitForData_followed al more fin 2).bind fun _ => by
      rintro s t rfl a s' h
      rcases s with ⟨⟨off, cap, data⟩, segs, f⟩
      rcases data with _ | ⟨b, _ | ⟨b', data⟩⟩
      · cases h
      · cases h
      · cases h; exact ⟨_, rfl, rfl⟩
    getBytes := fun n => by
      rintro s t rfl a s' h
      simp only [ByteSource.getBytes, getBytes] at h ⊢
      split at h
      · cases h
      · rename_i hn
        rw [if_neg hn]
        exact getBytesLoop_followed al more fin n [] s _ rfl a s' h }

end RStream

end Ratel
