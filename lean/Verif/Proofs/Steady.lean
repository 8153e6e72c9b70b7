/-
The decoder's verdict on the bytes that are there does not change when more come.
-/
import Verif.Proofs.DecoderPanic

namespace Ratel

open Decoder

/-- What a reader finds, if it finds it in bytes that are followed by silence: a value, that the bytes are malformed, or a panic. -/
inductive Verdict {α : Type} : Res α → Prop
  | ok (a : α) : Verdict (.ok a)
  | malformed : Verdict (.err .invalidData)
  | panic : Verdict .panic

/-- `m`, reading `b` followed by silence, either waits, in which case `m'` finds the end if there is one; or it reaches a verdict, which
`m'` also reaches when more bytes follow, and the same bytes are left. -/
structure Agree {α : Type} (more : List UInt8) (fin : Ending) (m m' : M Plain α) (b : List UInt8) : Prop where
  kind : (m ⟨b, .silence⟩).1 = .pending ∨ Verdict (m ⟨b, .silence⟩).1
  silent : (m ⟨b, .silence⟩).2.fin = .silence
  keeps : Verdict (m ⟨b, .silence⟩).1 → m' ⟨b ++ more, fin⟩ = ((m ⟨b, .silence⟩).1, ⟨(m ⟨b, .silence⟩).2.bytes ++ more, fin⟩)
  ends : (m ⟨b, .silence⟩).1 = .pending → more = [] → (m' ⟨b, fin⟩).1 = (Plain.short ⟨[], fin⟩).1

namespace Agree

variable {α β : Type} {more : List UInt8} {fin : Ending}

theorem bind {m m' : M Plain α} {f f' : α → M Plain β} {b : List UInt8} (hm : Agree more fin m m' b)
    (hf : ∀ a b', m ⟨b, .silence⟩ = (.ok a, ⟨b', .silence⟩) → Agree more fin (f a) (f' a) b') : Agree more fin (m >>= f) (m' >>= f') b := by
  obtain ⟨h1, h2, h3, h4⟩ := hm
  rcases hr : m ⟨b, .silence⟩ with ⟨r, b', fn⟩
  rw [hr] at h1 h2 h3 h4
  cases h2
  cases r with
  | ok a =>
    have hm' := h3 (.ok a)
    obtain ⟨k1, k2, k3, k4⟩ := hf a b' hr
    refine ⟨?_, ?_, ?_, ?_⟩ <;> rw [M.bind_ok hr]
    · exact k1
    · exact k2
    · rw [M.bind_ok hm']; exact k3
    · intro hp hmore
      subst hmore
      simp only [List.append_nil] at hm'
      rw [M.bind_ok hm']
      exact k4 hp rfl
  | err e =>
    have hv : Verdict (.err e : Res α) := h1.resolve_left (fun h => by cases h)
    have hm' := h3 hv
    have he : Verdict (.err e : Res β) := by cases hv; exact .malformed
    refine ⟨?_, ?_, ?_, ?_⟩ <;> rw [M.bind_err hr]
    · exact .inr he
    · intro _
      rw [M.bind_err hm']
    · intro h; cases h
  | panic =>
    have hm' := h3 .panic
    refine ⟨?_, ?_, ?_, ?_⟩ <;> rw [M.bind_panic hr]
    · exact .inr .panic
    · intro _
      rw [M.bind_panic hm']
    · intro h; cases h
  | hang => exact absurd h1 (by rintro (h | h) <;> cases h)
  | pending =>
    refine ⟨?_, ?_, ?_, ?_⟩ <;> rw [M.bind_pending hr]
    · exact .inl rfl
    · intro h; cases h
    · intro _ hmore
      have hs := h4 rfl hmore
      rcases hr' : m' ⟨b, fin⟩ with ⟨r', p'⟩
      rw [hr'] at hs
      cases fin <;> cases hs
      · rw [M.bind_err hr']; rfl
      · rw [M.bind_err hr']; rfl
      · rw [M.bind_pending hr']; rfl

theorem pure (a : α) (b : List UInt8) : Agree more fin (Pure.pure a) (Pure.pure a) b :=
  ⟨.inr (.ok a), rfl, fun _ => rfl, fun h => by cases h⟩

theorem panic (b : List UInt8) : Agree more fin (M.panic : M Plain α) M.panic b :=
  ⟨.inr .panic, rfl, fun _ => rfl, fun h => by cases h⟩

theorem fail (b : List UInt8) : Agree more fin (M.fail .invalidData : M Plain α) (M.fail .invalidData) b :=
  ⟨.inr .malformed, rfl, fun _ => rfl, fun h => by cases h⟩

theorem waits {m m' : M Plain α} {b : List UInt8} (h : m ⟨b, .silence⟩ = (.pending, ⟨b, .silence⟩))
    (h' : ∀ fin, (m' ⟨b, fin⟩).1 = (Plain.short ⟨[], fin⟩).1) : Agree more fin m m' b := by
  refine ⟨?_, ?_, ?_, ?_⟩ <;> rw [h]
  · exact .inl rfl
  · intro h; cases h
  · exact fun _ _ => h' fin

theorem short_fst (b : List UInt8) (fin : Ending) : (Plain.short ⟨b, fin⟩ : Res α × Plain).1 = (Plain.short ⟨[], fin⟩).1 := by
  cases fin <;> rfl

theorem getU8 (b : List UInt8) : Agree more fin ByteSource.getU8 ByteSource.getU8 b := by
  cases b with
  | nil => exact waits rfl (short_fst _)
  | cons x r => exact ⟨.inr (.ok x), rfl, fun _ => rfl, fun h => by cases h⟩

theorem getU16 (b : List UInt8) : Agree more fin ByteSource.getU16 ByteSource.getU16 b := by
  match b with
  | [] => exact waits rfl (short_fst _)
  | [_] => exact waits rfl (short_fst _)
  | x :: y :: r => exact ⟨.inr (.ok _), rfl, fun _ => rfl, fun h => by cases h⟩

theorem getBytes (n : Nat) (b : List UInt8) : Agree more fin (ByteSource.getBytes n) (ByteSource.getBytes n) b := by
  by_cases h1 : n > isizeMax
  · have h : ∀ p : Plain, ByteSource.getBytes n p = (.panic, p) := fun p => by simp [ByteSource.getBytes, h1]
    refine ⟨?_, ?_, ?_, ?_⟩ <;> rw [h]
    · exact .inr .panic
    · intro _; rw [h]
    · intro h; cases h
  · by_cases h2 : n ≤ b.length
    · have h : ∀ more fin, ByteSource.getBytes n (⟨b ++ more, fin⟩ : Plain) = (.ok (b.take n), ⟨b.drop n ++ more, fin⟩) := by
        intro more fin
        simp only [ByteSource.getBytes, if_neg h1]
        rw [if_pos (by rw [List.length_append]; omega), List.take_append_of_le_length h2, List.drop_append_of_le_length h2]
      have h0 := h [] .silence
      simp only [List.append_nil] at h0
      refine ⟨?_, ?_, ?_, ?_⟩ <;> rw [h0]
      · exact .inr (.ok _)
      · exact fun _ => h more fin
      · intro h; cases h
    · have h : ∀ fin, ByteSource.getBytes n (⟨b, fin⟩ : Plain) = Plain.short ⟨b, fin⟩ := by
        intro fin
        simp only [ByteSource.getBytes, if_neg h1, if_neg h2]
      exact waits (h _) fun fin => by rw [h, short_fst]

theorem subU64 (pr : Profile) (x y : Nat) (b : List UInt8) : Agree more fin (Decoder.subU64 pr x y) (Decoder.subU64 pr x y) b := by
  by_cases h1 : y ≤ x
  · have h : ∀ p : Plain, Decoder.subU64 pr x y p = (.ok (x - y), p) := fun p => by simp [Decoder.subU64, h1]
    refine ⟨?_, ?_, ?_, ?_⟩ <;> rw [h]
    · exact .inr (.ok _)
    · intro _; rw [h]
    · intro h; cases h
  · cases hc : pr.overflowChecks with
    | true =>
      have h : ∀ p : Plain, Decoder.subU64 pr x y p = (.panic, p) := fun p => by simp [Decoder.subU64, h1, hc]
      refine ⟨?_, ?_, ?_, ?_⟩ <;> rw [h]
      · exact .inr .panic
      · intro _; rw [h]
      · intro h; cases h
    | false =>
      have h : ∀ p : Plain, Decoder.subU64 pr x y p = (.ok (x + 2 ^ 64 - y), p) := fun p => by
        unfold Decoder.subU64
        rw [if_neg h1, hc, if_neg (by decide)]
      refine ⟨?_, ?_, ?_, ?_⟩ <;> rw [h]
      · exact .inr (.ok _)
      · intro _; rw [h]
      · intro h; cases h

theorem getString (b : List UInt8) : Agree more fin Decoder.getString Decoder.getString b := by
  refine (getU16 b).bind fun _ _ _ => (getBytes _ _).bind fun bs _ _ => ?_
  cases fromUtf8 bs with
  | none => exact fail _
  | some t => exact pure t _

theorem getStringIf (x : Bool) (b : List UInt8) : Agree more fin (Decoder.getStringIf x) (Decoder.getStringIf x) b := by
  unfold Decoder.getStringIf
  split
  · exact (getString b).bind fun _ _ _ => pure _ _
  · exact pure _ _

theorem lengthLoop (rl mult : Nat) (hm : 0 < mult) (b : List UInt8) :
    Agree more fin (decodeRemainingLengthLoop rl mult hm) (decodeRemainingLengthLoop rl mult hm) b := by
  rw [decodeRemainingLengthLoop]
  refine (getU8 b).bind fun x b' _ => ?_
  dsimp only
  split
  · exact fail _
  · split
    · exact pure _ _
    · exact lengthLoop _ _ _ _
termination_by 128 * 128 * 128 + 1 - mult
decreasing_by omega

theorem withPacketId (fb e : UInt8) (b : List UInt8) :
    Agree more fin (decodePacketWithPacketId fb e) (decodePacketWithPacketId fb e) b := by
  refine Agree.bind ?_ fun _ _ _ => getU16 _
  unfold validateFirstByte
  split
  · exact pure _ _
  · exact fail _

theorem subscribeLoop (pr : Profile) (fuel fuel' rl : Nat) (acc : List Subscription) (b : List UInt8) (h : b.length < fuel)
    (h' : b.length + more.length < fuel') :
    Agree more fin (Decoder.subscribeLoop pr fuel rl acc) (Decoder.subscribeLoop pr fuel' rl acc) b := by
  induction fuel generalizing fuel' rl acc b with
  | zero => omega
  | succ fuel ih =>
    obtain ⟨fuel', rfl⟩ : ∃ n, fuel' = n + 1 := ⟨fuel' - 1, by omega⟩
    rw [Decoder.subscribeLoop, Decoder.subscribeLoop]
    split
    · refine (getString b).bind fun t b₁ h1 => (getU8 b₁).bind fun q b₂ h2 => ?_
      have l1 : b₁.length < b.length := (Plain.shrinks.getString trivial h1).2
      have l2 : b₂.length < b₁.length := (Plain.shrinks.getU8 _ _ _ trivial h2).2
      split
      · exact fail _
      · refine (subU64 _ _ _ _).bind fun _ b₃ h3 => ?_
        have h3 := subU64_state h3
        cases h3
        cases QoS.fromBits q with
        | none => exact panic _
        | some q => exact ih _ _ _ _ (by omega) (by omega)
    · exact pure _ _

theorem unsubscribeLoop (pr : Profile) (fuel fuel' rl : Nat) (acc : List String) (b : List UInt8) (h : b.length < fuel)
    (h' : b.length + more.length < fuel') :
    Agree more fin (Decoder.unsubscribeLoop pr fuel rl acc) (Decoder.unsubscribeLoop pr fuel' rl acc) b := by
  induction fuel generalizing fuel' rl acc b with
  | zero => omega
  | succ fuel ih =>
    obtain ⟨fuel', rfl⟩ : ∃ n, fuel' = n + 1 := ⟨fuel' - 1, by omega⟩
    rw [Decoder.unsubscribeLoop, Decoder.unsubscribeLoop]
    split
    · refine (getString b).bind fun t b₁ h1 => ?_
      have l1 : b₁.length < b.length := (Plain.shrinks.getString trivial h1).2
      refine (subU64 _ _ _ _).bind fun _ b₃ h3 => ?_
      have h3 := subU64_state h3
      cases h3
      exact ih _ _ _ _ (by omega) (by omega)
    · exact pure _ _

/-- A loop that gets as many rounds as there are bytes. -/
theorem counted {F : Nat → M Plain α} {b : List UInt8}
    (h : ∀ fuel fuel', b.length < fuel → b.length + more.length < fuel' → Agree more fin (F fuel) (F fuel') b) :
    Agree more fin (fun s => F (ByteSource.avail s + 1) s) (fun s => F (ByteSource.avail s + 1) s) b := by
  have e : ∀ p : Plain, ByteSource.avail p = p.bytes.length := fun _ => rfl
  refine ⟨?_, ?_, ?_, ?_⟩
  · exact (h (b.length + 1) (b.length + more.length + 1) (by omega) (by omega)).kind
  · exact (h (b.length + 1) (b.length + more.length + 1) (by omega) (by omega)).silent
  · intro hv
    have := (h (b.length + 1) (b.length + more.length + 1) (by omega) (by omega)).keeps hv
    simp only [e, List.length_append]
    exact this
  · intro hp hm
    subst hm
    exact (h (b.length + 1) (b.length + 1) (by omega) (by simp)).ends hp rfl

theorem readPacket (pr : Profile) (b : List UInt8) : Agree more fin (Decoder.readPacket pr) (Decoder.readPacket pr) b := by
  refine (getU8 b).bind fun fb b₁ _ => (lengthLoop _ _ _ b₁).bind fun n b₂ _ => ?_
  unfold decodeBody
  dsimp only
  repeat' split
  · exact (getString _).bind fun _ _ _ => (getU8 _).bind fun _ _ _ => (getU8 _).bind fun _ _ _ => (getU16 _).bind fun _ _ _ =>
      (getString _).bind fun _ _ _ => (getStringIf _ _).bind fun _ _ _ => (getStringIf _ _).bind fun _ _ _ => pure _ _
  · unfold decodePublish
    dsimp only
    split
    · exact panic _
    · refine (getString _).bind fun _ _ _ => (subU64 _ _ _ _).bind fun _ _ _ => (subU64 _ _ _ _).bind fun _ _ _ =>
        Agree.bind ?_ fun _ _ _ => (getBytes _ _).bind fun _ _ _ => pure _ _
      unfold publishPacketId
      split
      · exact (subU64 _ _ _ _).bind fun _ _ _ => (getU16 _).bind fun _ _ _ => pure _ _
      · exact pure _ _
  · exact (withPacketId _ _ _).bind fun _ _ _ => pure _ _
  · exact (withPacketId _ _ _).bind fun _ _ _ => pure _ _
  · exact (withPacketId _ _ _).bind fun _ _ _ => pure _ _
  · exact (withPacketId _ _ _).bind fun _ _ _ => pure _ _
  · refine (withPacketId _ _ _).bind fun _ _ _ => (subU64 _ _ _ _).bind fun _ _ _ => ?_
    split
    · exact fail _
    · exact Agree.bind (counted fun f f' h h' => subscribeLoop pr f f' _ _ _ h h') fun _ _ _ => pure _ _
  · refine (withPacketId _ _ _).bind fun _ _ _ => (subU64 _ _ _ _).bind fun _ _ _ => ?_
    split
    · exact fail _
    · exact Agree.bind (counted fun f f' h h' => unsubscribeLoop pr f f' _ _ _ h h') fun _ _ _ => pure _ _
  · exact pure _ _
  · exact pure _ _
  · exact panic _

end Agree

end Ratel
