/-
For how many bytes the decoder waits.
-/
import Verif.Props.Codec
import Verif.Proofs.Language

namespace Ratel

open Decoder

/-- `m` waits only while fewer than `n` bytes are there, and takes at most `n`. -/
structure Waits {α : Type} (n : Nat) (m : M Plain α) : Prop where
  pending : ∀ s s', m s = (.pending, s') → s.bytes.length < n
  ok : ∀ s a s', m s = (.ok a, s') → s.bytes.length ≤ s'.bytes.length + n

theorem not_short {α : Type} {s s' : Plain} {a : α} (h : Plain.short s = (.ok a, s')) : False := by
  unfold Plain.short at h
  split at h <;> cases h

theorem getString_ok {s s' : Plain} {t : String} (h : (Decoder.getString : M Plain String) s = (.ok t, s')) :
    s.bytes.length = s'.bytes.length + (strLen t + 2) ∧ strLen t < 65536 := by
  obtain ⟨n, s₁, h1, h2⟩ := M.bind_eq_ok.mp h
  obtain ⟨bs, s₂, h3, h4⟩ := M.bind_eq_ok.mp h2
  have e1 : s.bytes.length = s₁.bytes.length + 2 := by
    obtain ⟨bytes, fin⟩ := s
    match bytes, h1 with
    | [], h1 => exact (not_short h1).elim
    | [_], h1 => exact (not_short h1).elim
    | hi :: lo :: r, h1 =>
      simp only [ByteSource.getU16, Prod.mk.injEq, Res.ok.injEq] at h1
      rw [← h1.2]
      rfl
  have e2 : s₁.bytes.length = s₂.bytes.length + bs.length ∧ bs.length < 65536 := by
    obtain ⟨bytes, fin⟩ := s₁
    simp only [ByteSource.getBytes] at h3
    split at h3
    · cases h3
    · split at h3
      · simp only [Prod.mk.injEq, Res.ok.injEq] at h3
        have hn := n.toNat_lt
        rw [← h3.1, ← h3.2]
        simp only [List.length_take, List.length_drop]
        omega
      · exact (not_short h3).elim
  cases hu : fromUtf8 bs with
  | none => rw [hu] at h4; cases h4
  | some u =>
    rw [hu] at h4
    simp only [M.pure_apply, Prod.mk.injEq, Res.ok.injEq] at h4
    obtain ⟨rfl, rfl⟩ := h4
    have := strBytes_of_fromUtf8 hu
    rw [strLen, this]
    omega

namespace Waits

variable {α β : Type} {n k : Nat}

theorem mono {m : M Plain α} (h : Waits n m) (hk : n ≤ k) : Waits k m :=
  ⟨fun s s' hm => Nat.lt_of_lt_of_le (h.pending s s' hm) hk, fun s a s' hm => Nat.le_trans (h.ok s a s' hm) (by omega)⟩

theorem bind {m : M Plain α} {f : α → M Plain β} (hm : Waits n m) (hf : ∀ a, Waits k (f a)) : Waits (n + k) (m >>= f) where
  pending s s' h := by
    rw [M.bind_apply] at h
    rcases hms : m s with ⟨r, s₁⟩
    rw [hms] at h
    cases r with
    | ok a =>
      have h1 := hm.ok s a s₁ hms
      have h2 := (hf a).pending s₁ s' h
      omega
    | pending => have := hm.pending s s₁ hms; omega
    | _ => cases h
  ok s b s' h := by
    obtain ⟨a, s₁, h1, h2⟩ := M.bind_eq_ok.mp h
    have h3 := hm.ok s a s₁ h1
    have h4 := (hf a).ok s₁ b s' h2
    omega

theorem pure (a : α) : Waits 0 (Pure.pure a : M Plain α) where
  pending s s' h := by cases h
  ok s b s' h := by cases h; exact Nat.le_refl _

theorem fail (e : ErrKind) : Waits n (M.fail e : M Plain α) := ⟨fun _ _ h => (by cases h), fun _ _ _ h => (by cases h)⟩

theorem panic : Waits n (M.panic : M Plain α) := ⟨fun _ _ h => (by cases h), fun _ _ _ h => (by cases h)⟩

theorem getU8 : Waits 1 (ByteSource.getU8 : M Plain UInt8) where
  pending s s' h := by
    obtain ⟨bytes, fin⟩ := s
    cases bytes with
    | nil => simp
    | cons b r => cases h
  ok s a s' h := by
    obtain ⟨bytes, fin⟩ := s
    cases bytes with
    | nil => exact (not_short h).elim
    | cons b r => cases h; exact Nat.le_refl _

theorem getU16 : Waits 2 (ByteSource.getU16 : M Plain UInt16) where
  pending s s' h := by
    obtain ⟨bytes, fin⟩ := s
    match bytes, h with
    | [], _ => simp
    | [_], _ => simp
    | hi :: lo :: r, h => cases h
  ok s a s' h := by
    obtain ⟨bytes, fin⟩ := s
    match bytes, h with
    | [], h => exact (not_short h).elim
    | [_], h => exact (not_short h).elim
    | hi :: lo :: r, h => cases h; exact Nat.le_refl _

theorem getBytes (n : Nat) : Waits n (ByteSource.getBytes n : M Plain (List UInt8)) where
  pending s s' h := by
    obtain ⟨bytes, fin⟩ := s
    simp only [ByteSource.getBytes] at h
    split at h
    · cases h
    · split at h
      · cases h
      · simp only; omega
  ok s a s' h := by
    obtain ⟨bytes, fin⟩ := s
    simp only [ByteSource.getBytes] at h
    split at h
    · cases h
    · split at h
      · simp only [Prod.mk.injEq, Res.ok.injEq] at h
        rw [← h.2]
        simp only [List.length_drop]
        omega
      · exact (not_short h).elim

theorem getString : Waits 65537 (Decoder.getString : M Plain String) := by
  refine (getU16.bind (k := 65535) fun n => ?_).mono (by decide)
  have hn := n.toNat_lt
  refine ((getBytes n.toNat).bind (k := 0) fun bs => ?_).mono (by omega)
  cases fromUtf8 bs with
  | none => exact fail _
  | some t => exact pure t

theorem getStringIf (b : Bool) : Waits 65537 (Decoder.getStringIf b : M Plain _) := by
  unfold Decoder.getStringIf
  split
  · exact (getString.bind fun _ => pure _)
  · exact (pure _).mono (by decide)

theorem subU64 (pr : Profile) (a b : Nat) : Waits 0 (Decoder.subU64 pr a b : M Plain Nat) where
  pending s s' h := by
    unfold Decoder.subU64 at h
    split at h
    · cases h
    · split at h <;> cases h
  ok s c s' h := by
    rw [subU64_state h]
    exact Nat.le_refl _

/-- After a subtraction that was checked, the rest depends on its result. -/
theorem checked {pr : Profile} (hpr : pr.overflowChecks = true) {a b : Nat} {f : Nat → M Plain β} (hf : b ≤ a → Waits n (f (a - b))) :
    Waits n (Decoder.subU64 pr a b >>= f) := by
  by_cases hb : b ≤ a
  · have h : ∀ s, (Decoder.subU64 pr a b >>= f) s = f (a - b) s := fun s => by
      rw [M.bind_ok (s' := s) (a := a - b) (by simp [Decoder.subU64, hb])]
    exact ⟨fun s s' hs => (hf hb).pending s s' (by rw [← h]; exact hs), fun s x s' hs => (hf hb).ok s x s' (by rw [← h]; exact hs)⟩
  · have h : ∀ s, (Decoder.subU64 pr a b >>= f) s = (.panic, s) := fun s => by
      rw [M.bind_apply]
      simp [Decoder.subU64, hb, hpr]
    exact ⟨fun s s' hs => (by rw [h] at hs; cases hs), fun s x s' hs => (by rw [h] at hs; cases hs)⟩

/-- After a text that was read, the rest may depend on its length. -/
theorem afterString {m : Nat} {f : String → M Plain β} (hm : 65537 ≤ m) (hf : ∀ t, strLen t < 65536 → ∃ k, strLen t + 2 + k ≤ m ∧ Waits k (f t)) :
    Waits m (Decoder.getString >>= f) where
  pending s s' h := by
    rw [M.bind_apply] at h
    rcases hms : (Decoder.getString : M Plain String) s with ⟨r, s₁⟩
    rw [hms] at h
    cases r with
    | ok t =>
      have h4 := getString_ok hms
      obtain ⟨k, h1, h2⟩ := hf t h4.2
      have h3 := h2.pending s₁ s' h
      omega
    | pending => have := getString.pending s s₁ hms; omega
    | _ => cases h
  ok s b s' h := by
    obtain ⟨t, s₁, h1, h2⟩ := M.bind_eq_ok.mp h
    have h5 := getString_ok h1
    obtain ⟨k, h3, h4⟩ := hf t h5.2
    have h6 := h4.ok s₁ b s' h2
    omega

theorem hang : Waits n (fun s => (.hang, s) : M Plain α) := ⟨fun _ _ h => (by cases h), fun _ _ _ h => (by cases h)⟩

theorem withPacketId (a b : UInt8) : Waits 2 (decodePacketWithPacketId a b : M Plain UInt16) := by
  unfold decodePacketWithPacketId validateFirstByte
  refine (bind (n := 0) ?_ fun _ => getU16).mono (by decide)
  split
  · exact pure _
  · exact fail _

theorem connect : Waits 262152 (decodeConnect : M Plain ControlPacket) := by
  unfold decodeConnect
  refine (getString.bind fun _ => getU8.bind fun _ => getU8.bind fun fl => getU16.bind fun _ => getString.bind fun _ =>
    (getStringIf _).bind fun _ => (getStringIf _).bind fun _ => pure _).mono ?_
  decide

theorem publish {pr : Profile} (hpr : pr.overflowChecks = true) (fb : UInt8) (rl : Nat) :
    Waits (rl + 65538) (decodePublish pr fb rl : M Plain ControlPacket) := by
  unfold decodePublish
  cases QoS.fromBits ((fb &&& 0b00000110) >>> 1) with
  | none => exact panic
  | some q =>
    refine afterString (by omega) fun t ht => ⟨rl - strLen t - 2, by omega, ?_⟩
    refine checked hpr fun h1 => checked hpr fun h2 => ?_
    unfold publishPacketId
    split
    · rw [M.bind_assoc']
      refine checked hpr fun h3 => ?_
      rw [M.bind_assoc']
      refine (getU16.bind (k := rl - strLen t - 2 - 2) fun i => ?_).mono (by omega)
      exact (getBytes _).bind fun _ => pure _
    · exact (getBytes _).bind fun _ => pure _

theorem subscribeLoop {pr : Profile} (hpr : pr.overflowChecks = true) (fuel rl : Nat) (acc : List Subscription) :
    Waits (rl + 65538) (Decoder.subscribeLoop pr fuel rl acc : M Plain _) := by
  induction fuel generalizing rl acc with
  | zero => exact hang
  | succ fuel ih =>
    unfold Decoder.subscribeLoop
    split
    · rename_i hrl
      refine afterString (by omega) fun t ht => ⟨rl + 65538 - strLen t - 2, by omega, ?_⟩
      refine (getU8.bind (k := rl + 65538 - strLen t - 3) fun q => ?_).mono (by omega)
      split
      · exact fail _
      · refine checked hpr fun h1 => ?_
        cases QoS.fromBits q with
        | none => exact panic
        | some q => exact (ih _ _).mono (by omega)
    · exact (pure _).mono (by omega)

/-- A loop started with as much fuel as there are bytes. -/
theorem fuelled {f : Nat → M Plain α} (h : ∀ k, Waits n (f k)) : Waits n (fun s => f (ByteSource.avail s + 1) s) :=
  ⟨fun s s' hs => (h _).pending s s' hs, fun s a s' hs => (h _).ok s a s' hs⟩

theorem subscribe {pr : Profile} (hpr : pr.overflowChecks = true) (fb : UInt8) (rl : Nat) :
    Waits (rl + 65538) (decodeSubscribe pr fb rl : M Plain ControlPacket) := by
  unfold decodeSubscribe
  refine ((withPacketId _ _).bind (k := rl + 65536) fun i => checked hpr fun h1 => ?_).mono (by omega)
  split
  · exact fail _
  · exact ((fuelled fun k => subscribeLoop hpr k _ []).bind fun _ => pure _).mono (by omega)

theorem unsubscribeLoop {pr : Profile} (hpr : pr.overflowChecks = true) (fuel rl : Nat) (acc : List String) :
    Waits (rl + 65538) (Decoder.unsubscribeLoop pr fuel rl acc : M Plain _) := by
  induction fuel generalizing rl acc with
  | zero => exact hang
  | succ fuel ih =>
    unfold Decoder.unsubscribeLoop
    split
    · refine afterString (by omega) fun t ht => ⟨rl + 65538 - strLen t - 2, by omega, ?_⟩
      exact checked hpr fun h1 => (ih _ _).mono (by omega)
    · exact (pure _).mono (by omega)

theorem unsubscribe {pr : Profile} (hpr : pr.overflowChecks = true) (fb : UInt8) (rl : Nat) :
    Waits (rl + 65538) (decodeUnsubscribe pr fb rl : M Plain ControlPacket) := by
  unfold decodeUnsubscribe
  refine ((withPacketId _ _).bind (k := rl + 65536) fun i => checked hpr fun h1 => ?_).mono (by omega)
  split
  · exact fail _
  · exact ((fuelled fun k => unsubscribeLoop hpr k _ []).bind fun _ => pure _).mono (by omega)

theorem body {pr : Profile} (hpr : pr.overflowChecks = true) (fb : UInt8) (rl : Nat) :
    Waits (if fb.toNat / 16 = 1 then 262152 else rl + 65538) (decodeBody pr fb rl : M Plain ControlPacket) := by
  by_cases h : fb.toNat / 16 = 1
  · rw [if_pos h, (SourceLaws.decodeBody_type (σ := Plain) pr rl fb).1 h]
    exact connect
  · rw [if_neg h]
    have h1 : ¬ fb >>> 4 = packetTypeConnect := by
      intro h2
      have := (first_table fb).1
      rw [h2] at this
      exact h this.symm
    have hid : ∀ (a b : UInt8) (f : UInt16 → ControlPacket),
        Waits (rl + 65538) (decodePacketWithPacketId a b >>= fun i => Pure.pure (f i) : M Plain ControlPacket) :=
      fun a b f => ((withPacketId a b).bind fun _ => pure _).mono (by omega)
    unfold decodeBody decodePubAck decodePubRec decodePubRel decodePubComp
    dsimp only
    rw [if_neg h1]
    split
    · exact publish hpr _ _
    split
    · exact hid _ _ _
    split
    · exact hid _ _ _
    split
    · exact hid _ _ _
    split
    · exact hid _ _ _
    split
    · exact subscribe hpr _ _
    split
    · exact unsubscribe hpr _ _
    split
    · exact (pure _).mono (by omega)
    split
    · exact (pure _).mono (by omega)
    · exact panic

end Waits

/-! ### Builds without overflow checks -/

theorem getString_none : (Decoder.getString : M Plain String) ⟨[], .silence⟩ = (.pending, ⟨[], .silence⟩) := rfl

/-- With more announced than there is, the loop reads filter after filter and then waits. -/
theorem subscribeLoop_wait (pr : Profile) (fs : List (String × QoS)) (hf : ∀ f ∈ fs, Spec.Fits f.1) (fuel : Nat) (hfuel : fs.length < fuel)
    (n : Nat) (hn : (subscribePayload fs).length < n) (acc : List Subscription) :
    subscribeLoop pr fuel n acc (⟨subscribePayload fs, .silence⟩ : Plain) = (.pending, ⟨[], .silence⟩) := by
  induction fs generalizing fuel acc n with
  | nil =>
    obtain ⟨fuel, rfl⟩ : ∃ n, fuel = n + 1 := ⟨fuel - 1, by simp at hfuel; omega⟩
    have hpos : n > 0 := by omega
    simp only [subscribePayload, List.flatMap_nil, subscribeLoop, hpos, ↓reduceIte]
    rw [M.bind_apply, getString_none]
  | cons f fs ih =>
    obtain ⟨fuel, rfl⟩ : ∃ n, fuel = n + 1 := ⟨fuel - 1, by simp at hfuel; omega⟩
    obtain ⟨f, q⟩ := f
    have hpay : subscribePayload ((f, q) :: fs) = Spec.str f ++ ([Spec.byte (Spec.qosNum q)] ++ subscribePayload fs) := by
      simp [subscribePayload]
    have hlen : (subscribePayload ((f, q) :: fs)).length = strLen f + 3 + (subscribePayload fs).length := by
      rw [hpay, List.length_append, List.length_append, SourceLaws.length_str]; simp; omega
    have hq := SourceLaws.qos_table q
    rw [hlen] at hn
    rw [hpay, subscribeLoop]
    have hpos : n > 0 := by omega
    simp only [hpos, ↓reduceIte]
    rw [M.bind_ok (PReads.run (Plain.laws.readString f (hf _ (List.mem_cons_self))) _ _)]
    rw [M.bind_ok (PReads.run (Plain.laws.readU8 _) _ _)]
    simp only [hq.1, ↓reduceIte]
    rw [M.bind_ok (s' := ⟨subscribePayload fs, .silence⟩) (a := n - (strLen f + 3)) (by simp [subU64, show strLen f + 3 ≤ n by omega])]
    simp only [hq.2]
    exact ih (fun g hg => hf g (List.mem_cons_of_mem _ hg)) fuel (by simp at hfuel; omega) (n - (strLen f + 3)) (by omega) _

theorem unsubscribeLoop_wait (pr : Profile) (fs : List String) (hf : ∀ f ∈ fs, Spec.Fits f) (fuel : Nat) (hfuel : fs.length < fuel)
    (n : Nat) (hn : (fs.flatMap Spec.str).length < n) (acc : List String) :
    unsubscribeLoop pr fuel n acc (⟨fs.flatMap Spec.str, .silence⟩ : Plain) = (.pending, ⟨[], .silence⟩) := by
  induction fs generalizing fuel acc n with
  | nil =>
    obtain ⟨fuel, rfl⟩ : ∃ n, fuel = n + 1 := ⟨fuel - 1, by simp at hfuel; omega⟩
    have hpos : n > 0 := by omega
    simp only [List.flatMap_nil, unsubscribeLoop, hpos, ↓reduceIte]
    rw [M.bind_apply, getString_none]
  | cons f fs ih =>
    obtain ⟨fuel, rfl⟩ : ∃ n, fuel = n + 1 := ⟨fuel - 1, by simp at hfuel; omega⟩
    rw [List.flatMap_cons, List.length_append, SourceLaws.length_str] at hn
    rw [List.flatMap_cons, unsubscribeLoop]
    have hpos : n > 0 := by omega
    simp only [hpos, ↓reduceIte]
    rw [M.bind_ok (PReads.run (Plain.laws.readString f (hf _ (List.mem_cons_self))) _ _)]
    rw [M.bind_ok (s' := ⟨fs.flatMap Spec.str, .silence⟩) (a := n - (strLen f + 2)) (by simp [subU64, show strLen f + 2 ≤ n by omega])]
    exact ih (fun g hg => hf g (List.mem_cons_of_mem _ hg)) fuel (by simp at hfuel; omega) (n - (strLen f + 2)) (by omega) _

end Ratel
