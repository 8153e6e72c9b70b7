/-
Why the decoder panics; that its payload loops never run out of rounds; how the length field can go wrong.
-/
import Verif.Proofs.DecoderInv

namespace Ratel

open Decoder

theorem connect_ne_panic {p p' : Plain} : (decodeConnect p : Res ControlPacket × Plain) ≠ (.panic, p') := by
  intro h
  unfold decodeConnect at h
  rw [M.bind_eq_panic] at h
  rcases h with h | ⟨_, _, _, h⟩
  · exact getString_ne_panic h
  rw [M.bind_eq_panic] at h
  rcases h with h | ⟨_, _, _, h⟩
  · exact getU8_ne_panic h
  rw [M.bind_eq_panic] at h
  rcases h with h | ⟨_, _, _, h⟩
  · exact getU8_ne_panic h
  rw [M.bind_eq_panic] at h
  rcases h with h | ⟨_, _, _, h⟩
  · exact getU16_ne_panic h
  rw [M.bind_eq_panic] at h
  rcases h with h | ⟨_, _, _, h⟩
  · exact getString_ne_panic h
  rw [M.bind_eq_panic] at h
  rcases h with h | ⟨_, _, _, h⟩
  · exact getStringIf_ne_panic h
  rw [M.bind_eq_panic] at h
  rcases h with h | ⟨_, _, _, h⟩
  · exact getStringIf_ne_panic h
  simp at h

theorem packetIdThen_ne_panic {fb e : UInt8} {f : UInt16 → ControlPacket} {p p' : Plain} :
    ((decodePacketWithPacketId fb e >>= fun i => pure (f i) : M Plain ControlPacket) p) ≠ (.panic, p') := by
  intro h
  rw [M.bind_eq_panic] at h
  rcases h with h | ⟨_, _, _, h⟩
  · exact packetId_ne_panic h
  · simp at h

theorem publish_panic {pr : Profile} {fb : UInt8} {n : Nat} (hn : n < 2 ^ 32) {p p' : Plain}
    (h : decodePublish pr fb n p = (.panic, p')) :
    fb.toNat / 2 % 4 = 3
    ∨ ∃ t r, p.bytes = Spec.str t ++ r ∧ n < (Spec.str t).length + (if fb.toNat / 2 % 4 = 0 then 0 else 2) := by
  unfold decodePublish at h
  have tab := (first_table fb).2.2.2.2.2.2
  cases hq : QoS.fromBits ((fb &&& 0b00000110) >>> 1) with
  | none =>
    have := fromBits_none hq
    left
    omega
  | some qos =>
  right
  simp only [hq] at h
  have hq' := fromBits_some hq
  rw [tab] at hq'
  rw [M.bind_eq_panic] at h
  rcases h with h | ⟨t, p₁, h1, h⟩
  · exact absurd h getString_ne_panic
  obtain ⟨t1, f1⟩ := getString_took h1
  have hstr := SourceLaws.length_str t
  refine ⟨t, p₁.bytes, t1.bytes, ?_⟩
  rw [hstr]
  rw [M.bind_eq_panic] at h
  rcases h with h | ⟨n₁, p₂, h2, h⟩
  · have := (subU64_panic h).1
    omega
  obtain ⟨rfl, s1⟩ := subU64_ok h2
  rw [M.bind_eq_panic] at h
  rcases h with h | ⟨n₂, p₃, h3, h⟩
  · have := (subU64_panic h).1
    omega
  obtain ⟨rfl, s2⟩ := subU64_ok h3
  have hfit : strLen t < 65536 := f1
  rw [M.bind_eq_panic] at h
  rcases h with h | ⟨⟨pid, n₃⟩, p₄, h4, h⟩
  · unfold publishPacketId at h
    cases hg : qos.gtAtMostOnce with
    | false => simp [hg] at h
    | true =>
      simp only [hg, ↓reduceIte] at h
      have hqz : ¬ fb.toNat / 2 % 4 = 0 := by
        rw [hq']; cases qos <;> simp [QoS.gtAtMostOnce, Spec.qosNum] at hg ⊢
      simp only [hqz, ↓reduceIte]
      rw [M.bind_eq_panic] at h
      rcases h with h | ⟨n₄, p₅, h6, h⟩
      · have := (subU64_panic h).1
        omega
      rw [M.bind_eq_panic] at h
      rcases h with h | ⟨_, _, _, h⟩
      · exact absurd h getU16_ne_panic
      · simp at h
  · rw [M.bind_eq_panic] at h
    rcases h with h | ⟨_, _, _, h⟩
    · have hbig := getBytes_panic h
      simp only at hbig
      unfold isizeMax at hbig
      unfold publishPacketId at h4
      cases hg : qos.gtAtMostOnce with
      | false =>
        simp only [hg, Bool.false_eq_true, ↓reduceIte, M.pure_apply, Prod.mk.injEq, Res.ok.injEq] at h4
        obtain ⟨⟨rfl, rfl⟩, rfl⟩ := h4
        split <;> omega
      | true =>
        have hqz : ¬ fb.toNat / 2 % 4 = 0 := by
          rw [hq']; cases qos <;> simp [QoS.gtAtMostOnce, Spec.qosNum] at hg ⊢
        simp only [hqz, ↓reduceIte]
        simp only [hg, ↓reduceIte] at h4
        rw [M.bind_eq_ok] at h4
        obtain ⟨n₄, p₅, h6, h4⟩ := h4
        obtain ⟨rfl, s3⟩ := subU64_ok h6
        rw [M.bind_eq_ok] at h4
        obtain ⟨i, p₆, h7, h4⟩ := h4
        simp only [M.pure_apply, Prod.mk.injEq, Res.ok.injEq] at h4
        obtain ⟨⟨rfl, rfl⟩, rfl⟩ := h4
        omega
    · simp at h

theorem subscribeLoop_panic {pr : Profile} {fuel rl : Nat} {acc : List Subscription} {p p' : Plain}
    (h : subscribeLoop pr fuel rl acc p = (.panic, p')) :
    pr.overflowChecks = true ∧ ∃ body p'', Took p body p'' ∧ rl < body.length := by
  induction fuel generalizing rl acc p with
  | zero => simp [subscribeLoop] at h
  | succ fuel ih =>
    unfold subscribeLoop at h
    split at h
    · rw [M.bind_eq_panic] at h
      rcases h with h | ⟨t, p₁, h1, h⟩
      · exact absurd h getString_ne_panic
      obtain ⟨t1, f1⟩ := getString_took h1
      rw [M.bind_eq_panic] at h
      rcases h with h | ⟨qb, p₂, h2, h⟩
      · exact absurd h getU8_ne_panic
      have t2 := getU8_took h2
      have hlen : (Spec.str t ++ [qb]).length = strLen t + 3 := by
        rw [List.length_append, SourceLaws.length_str]; simp
      split at h
      · simp at h
      · rename_i hgt
        rw [M.bind_eq_panic] at h
        rcases h with h | ⟨n₁, p₃, h3, h⟩
        · have := subU64_panic h
          exact ⟨this.2, _, _, t1.trans t2, by omega⟩
        obtain ⟨rfl, s1⟩ := subU64_ok h3
        cases hq : QoS.fromBits qb with
        | none => exact absurd ((gt_two_iff qb).mpr (fromBits_none hq)) hgt
        | some q =>
          simp only [hq] at h
          obtain ⟨hc, body, p'', t3, hl⟩ := ih h
          refine ⟨hc, _, _, (t1.trans t2).trans t3, ?_⟩
          rw [List.length_append]
          omega
    · simp at h

theorem unsubscribeLoop_panic {pr : Profile} {fuel rl : Nat} {acc : List String} {p p' : Plain}
    (h : unsubscribeLoop pr fuel rl acc p = (.panic, p')) :
    pr.overflowChecks = true ∧ ∃ body p'', Took p body p'' ∧ rl < body.length := by
  induction fuel generalizing rl acc p with
  | zero => simp [unsubscribeLoop] at h
  | succ fuel ih =>
    unfold unsubscribeLoop at h
    split at h
    · rw [M.bind_eq_panic] at h
      rcases h with h | ⟨t, p₁, h1, h⟩
      · exact absurd h getString_ne_panic
      obtain ⟨t1, f1⟩ := getString_took h1
      have hlen := SourceLaws.length_str t
      rw [M.bind_eq_panic] at h
      rcases h with h | ⟨n₁, p₃, h3, h⟩
      · have := subU64_panic h
        exact ⟨this.2, _, _, t1, by omega⟩
      obtain ⟨rfl, s1⟩ := subU64_ok h3
      obtain ⟨hc, body, p'', t3, hl⟩ := ih h
      refine ⟨hc, _, _, t1.trans t3, ?_⟩
      rw [List.length_append]
      omega
    · simp at h

theorem subscribe_panic {pr : Profile} {fb : UInt8} {n : Nat} {p p' : Plain}
    (h : decodeSubscribe pr fb n p = (.panic, p')) :
    pr.overflowChecks = true ∧ ∃ body p'', Took p body p'' ∧ n < body.length := by
  unfold decodeSubscribe at h
  rw [M.bind_eq_panic] at h
  rcases h with h | ⟨i, p₁, h1, h⟩
  · exact absurd h packetId_ne_panic
  have t1 := (packetId_took h1).2
  have h2 : (Spec.twoBytes i.toNat).length = 2 := rfl
  rw [M.bind_eq_panic] at h
  rcases h with h | ⟨n₁, p₃, h3, h⟩
  · have := subU64_panic h
    exact ⟨this.2, _, _, t1, by omega⟩
  obtain ⟨rfl, s1⟩ := subU64_ok h3
  split at h
  · simp at h
  · replace h := M.bind_eq_panic.mp h
    rcases h with h | ⟨_, _, _, h⟩
    · obtain ⟨hc, body, p'', t3, hl⟩ := subscribeLoop_panic h
      refine ⟨hc, _, _, t1.trans t3, ?_⟩
      rw [List.length_append]
      omega
    · simp at h

theorem unsubscribe_panic {pr : Profile} {fb : UInt8} {n : Nat} {p p' : Plain}
    (h : decodeUnsubscribe pr fb n p = (.panic, p')) :
    pr.overflowChecks = true ∧ ∃ body p'', Took p body p'' ∧ n < body.length := by
  unfold decodeUnsubscribe at h
  rw [M.bind_eq_panic] at h
  rcases h with h | ⟨i, p₁, h1, h⟩
  · exact absurd h packetId_ne_panic
  have t1 := (packetId_took h1).2
  have h2 : (Spec.twoBytes i.toNat).length = 2 := rfl
  rw [M.bind_eq_panic] at h
  rcases h with h | ⟨n₁, p₃, h3, h⟩
  · have := subU64_panic h
    exact ⟨this.2, _, _, t1, by omega⟩
  obtain ⟨rfl, s1⟩ := subU64_ok h3
  split at h
  · simp at h
  · replace h := M.bind_eq_panic.mp h
    rcases h with h | ⟨_, _, _, h⟩
    · obtain ⟨hc, body, p'', t3, hl⟩ := unsubscribeLoop_panic h
      refine ⟨hc, _, _, t1.trans t3, ?_⟩
      rw [List.length_append]
      omega
    · simp at h

/-- Every panic of the decoder has one of these causes: a packet type it does not implement; a PUBLISH with QoS 3; a PUBLISH shorter
than its own topic and packet id; in builds with overflow checks, a SUBSCRIBE or UNSUBSCRIBE whose contents run past its length. -/
theorem readPacket_panic {pr : Profile} {p p' : Plain} (h : readPacket pr p = (.panic, p')) :
    ∃ first lf n r, p.bytes = first :: lf ++ r ∧ Spec.LengthField lf n ∧ lf.length ≤ 3 ∧
      (first.toNat / 16 ∈ [0, 2, 9, 11, 13, 15]
      ∨ (first.toNat / 16 = 3 ∧ first.toNat / 2 % 4 = 3)
      ∨ (first.toNat / 16 = 3 ∧ ∃ t r', r = Spec.str t ++ r'
          ∧ n < (Spec.str t).length + (if first.toNat / 2 % 4 = 0 then 0 else 2))
      ∨ (first.toNat / 16 ∈ [8, 10] ∧ pr.overflowChecks = true ∧ ∃ body r', r = body ++ r' ∧ n < body.length)) := by
  unfold readPacket at h
  rw [M.bind_eq_panic] at h
  rcases h with h | ⟨first, p₁, h1, h⟩
  · exact absurd h getU8_ne_panic
  have t1 := getU8_took h1
  rw [M.bind_eq_panic] at h
  rcases h with h | ⟨n, p₂, h2, h⟩
  · exact absurd h lengthLoop_ne_panic
  obtain ⟨lf, hf, t2, hl⟩ := decodeLength_took h2
  have hn := SourceLaws.lengthField_small hf hl
  refine ⟨first, lf, n, p₂.bytes, ?_, hf, hl, ?_⟩
  · have := (t1.trans t2).bytes
    simpa using this
  unfold decodeBody at h
  split at h
  · exact absurd h connect_ne_panic
  split at h
  · rename_i ht
    have := type_eq ht
    rcases publish_panic (by omega) h with h | h
    · exact .inr (.inl ⟨this, h⟩)
    · exact .inr (.inr (.inl ⟨this, h⟩))
  split at h
  · exact absurd h packetIdThen_ne_panic
  split at h
  · exact absurd h packetIdThen_ne_panic
  split at h
  · exact absurd h packetIdThen_ne_panic
  split at h
  · exact absurd h packetIdThen_ne_panic
  split at h
  · rename_i ht
    obtain ⟨hc, body, p'', t3, hlt⟩ := subscribe_panic h
    exact .inr (.inr (.inr ⟨by rw [type_eq ht]; decide, hc, body, _, t3.bytes, hlt⟩))
  split at h
  · rename_i ht
    obtain ⟨hc, body, p'', t3, hlt⟩ := unsubscribe_panic h
    exact .inr (.inr (.inr ⟨by rw [type_eq ht]; decide, hc, body, _, t3.bytes, hlt⟩))
  split at h
  · simp at h
  split at h
  · simp at h
  · rename_i h1 h2 h3 h4 h5 h6 h7 h8 h9 h10
    left
    have hlt := first.toNat_lt
    have e : ∀ k : UInt8, ¬ first >>> 4 = k → first.toNat / 16 ≠ k.toNat := by
      intro k hk he
      rw [← (first_table first).1] at he
      exact hk (UInt8.toNat_inj.mp he)
    have e1 := e _ h1
    have e2 := e _ h2
    have e3 := e _ h3
    have e4 := e _ h4
    have e5 := e _ h5
    have e6 := e _ h6
    have e7 := e _ h7
    have e8 := e _ h8
    have e9 := e _ h9
    have e10 := e _ h10
    simp only [packetTypeConnect, packetTypePublish, packetTypePubAck, packetTypePubRec, packetTypePubRel, packetTypePubComp,
      packetTypeSubscribe, packetTypeUnsubscribe, packetTypePingReq, packetTypeDisconnect, UInt8.reduceToNat] at *
    have h16 : first.toNat / 16 < 16 := by omega
    simp only [List.mem_cons, List.not_mem_nil, or_false]
    omega

/-- Reading makes the source smaller. -/
structure Shrinks (σ : Type) [ByteSource σ] (W : σ → Prop) : Prop where
  getU8 : ∀ s b s', W s → ByteSource.getU8 s = (.ok b, s') → W s' ∧ ByteSource.avail s' < ByteSource.avail s
  getU16 : ∀ s n s', W s → ByteSource.getU16 s = (.ok n, s') → W s' ∧ ByteSource.avail s' < ByteSource.avail s
  getBytes : ∀ k s bs s', W s → ByteSource.getBytes k s = (.ok bs, s') → W s' ∧ ByteSource.avail s' ≤ ByteSource.avail s

theorem subU64_state {σ : Type} {pr : Profile} {a b c : Nat} {s s' : σ} (h : subU64 pr a b s = (.ok c, s')) : s' = s := by
  unfold subU64 at h
  split at h
  · simp at h; exact h.2.symm
  · split at h
    · simp at h
    · simp at h; exact h.2.symm

namespace Shrinks

variable {σ : Type} [ByteSource σ] {W : σ → Prop} (S : Shrinks σ W)

include S

theorem getString {s s' : σ} {t : String} (hw : W s) (h : Decoder.getString s = (.ok t, s')) :
    W s' ∧ ByteSource.avail s' < ByteSource.avail s := by
  unfold Decoder.getString at h
  rw [M.bind_eq_ok] at h
  obtain ⟨n, s₁, h1, h⟩ := h
  rw [M.bind_eq_ok] at h
  obtain ⟨bs, s₂, h2, h⟩ := h
  have a1 := S.getU16 _ _ _ hw h1
  have a2 := S.getBytes _ _ _ _ a1.1 h2
  cases hu : fromUtf8 bs with
  | none => simp [hu] at h
  | some str =>
    simp only [hu, M.pure_apply, Prod.mk.injEq, Res.ok.injEq] at h
    obtain ⟨_, rfl⟩ := h
    exact ⟨a2.1, by omega⟩

/-- The number of rounds the SUBSCRIBE loop is given does not matter once it exceeds the number of bytes to come: it is never used
up. -/
theorem subscribeLoop_fuel (pr : Profile) (f f' rl : Nat) (acc : List Subscription) (s : σ) (hw : W s)
    (hf : ByteSource.avail s < f) (hf' : ByteSource.avail s < f') :
    subscribeLoop pr f rl acc s = subscribeLoop pr f' rl acc s := by
  induction f generalizing f' rl acc s with
  | zero => omega
  | succ f ih =>
    obtain ⟨f', rfl⟩ : ∃ n, f' = n + 1 := ⟨f' - 1, by omega⟩
    unfold subscribeLoop
    split
    · refine M.bind_congr' fun t s₁ h1 => M.bind_congr' fun q s₂ h2 => ?_
      have a1 := S.getString hw h1
      have a2 := S.getU8 _ _ _ a1.1 h2
      split
      · rfl
      · refine M.bind_congr' fun n s₃ h3 => ?_
        have h3 := subU64_state h3
        subst h3
        cases QoS.fromBits q with
        | none => rfl
        | some q => exact ih _ _ _ _ a2.1 (by omega) (by omega)
    · rfl

/-- The same for UNSUBSCRIBE. -/
theorem unsubscribeLoop_fuel (pr : Profile) (f f' rl : Nat) (acc : List String) (s : σ) (hw : W s)
    (hf : ByteSource.avail s < f) (hf' : ByteSource.avail s < f') :
    unsubscribeLoop pr f rl acc s = unsubscribeLoop pr f' rl acc s := by
  induction f generalizing f' rl acc s with
  | zero => omega
  | succ f ih =>
    obtain ⟨f', rfl⟩ : ∃ n, f' = n + 1 := ⟨f' - 1, by omega⟩
    unfold unsubscribeLoop
    split
    · refine M.bind_congr' fun t s₁ h1 => M.bind_congr' fun n s₃ h3 => ?_
      have a1 := S.getString hw h1
      have h3 := subU64_state h3
      subst h3
      exact ih _ _ _ _ a1.1 (by omega) (by omega)
    · rfl

end Shrinks

/-- The plain source shrinks. -/
theorem Plain.shrinks : Shrinks Plain (fun _ => True) where
  getU8 s b s' _ h := ⟨trivial, by have := congrArg List.length (getU8_took h).bytes; simp [ByteSource.avail] at *; omega⟩
  getU16 s n s' _ h := by
    have := congrArg List.length (getU16_took h).bytes
    simp [ByteSource.avail, Spec.twoBytes] at *; omega
  getBytes k s bs s' _ h := by
    have := congrArg List.length (getBytes_took h).1.bytes
    simp [ByteSource.avail] at *; omega

theorem endRes_ne_ok {α : Type} (e : Ending) (a : α) : (RStream.endRes e : Res α) ≠ .ok a := by
  cases e <;> simp [RStream.endRes]

/-- So does the buffered stream. -/
theorem RStream.shrinks (al : Alloc) : @Shrinks RStream (RStream.source al) RStream.Wf := by
  letI := RStream.source al
  have hav : ∀ s : RStream, ByteSource.avail s = s.total.length := by
    intro s
    have h := incoming_eq s
    have : ByteSource.avail s = s.buf.len + s.incoming := rfl
    omega
  have key : ∀ {s s' : RStream} {bs}, Consumed s bs s' →
      s'.Wf ∧ ByteSource.avail s' + bs.length = ByteSource.avail s := by
    intro s s' bs h
    have := congrArg List.length h.bytes
    rw [List.length_append] at this
    exact ⟨h.wf, by rw [hav, hav]; omega⟩
  constructor
  · intro s b s' hw h
    cases ht : s.total with
    | nil =>
      obtain ⟨s₁, h1⟩ := getU8_short al s hw (by simp [ht])
      have : RStream.getU8 al s = _ := h1
      rw [show RStream.getU8 al s = (.ok b, s') from h] at this
      simp only [Prod.mk.injEq] at this
      exact absurd this.1.symm (endRes_ne_ok _ _)
    | cons x r =>
      obtain ⟨s₁, h1, hc⟩ := getU8_ok al s hw x r ht
      rw [show RStream.getU8 al s = (.ok b, s') from h] at h1
      cases h1
      have := key hc
      simp only [List.length_singleton] at this
      exact ⟨this.1, by omega⟩
  · intro s n s' hw h
    match ht : s.total with
    | [] =>
      obtain ⟨s₁, h1⟩ := getU16_short al s hw (by simp [ht])
      rw [show RStream.getU16 al s = (.ok n, s') from h] at h1
      simp only [Prod.mk.injEq] at h1
      exact absurd h1.1.symm (endRes_ne_ok _ _)
    | [_] =>
      obtain ⟨s₁, h1⟩ := getU16_short al s hw (by simp [ht])
      rw [show RStream.getU16 al s = (.ok n, s') from h] at h1
      simp only [Prod.mk.injEq] at h1
      exact absurd h1.1.symm (endRes_ne_ok _ _)
    | x :: y :: r =>
      obtain ⟨s₁, h1, hc⟩ := getU16_ok al s hw x y r ht
      rw [show RStream.getU16 al s = (.ok n, s') from h] at h1
      cases h1
      have := key hc
      simp only [List.length_cons] at this
      exact ⟨this.1, by omega⟩
  · intro k s bs s' hw h
    have h' : RStream.getBytes al k s = (.ok bs, s') := h
    unfold RStream.getBytes at h'
    split at h'
    · simp at h'
    · by_cases hc : s.buf.cap < k ∧ s.buf.cap ≤ s.total.length
      · obtain ⟨s₁, h1⟩ := getBytesLoop_hang al s hw k [] hc.1 hc.2
        rw [h1] at h'
        simp at h'
      · by_cases ht : k ≤ s.total.length
        · obtain ⟨s₁, h1, hcon⟩ := getBytesLoop_ok al s hw k [] (by omega) ht
          rw [h1] at h'
          cases h'
          have := key hcon
          exact ⟨this.1, by omega⟩
        · obtain ⟨s₁, h1⟩ := getBytesLoop_short al s hw k [] (by omega) (by omega)
          rw [h1] at h'
          simp only [Prod.mk.injEq] at h'
          exact absurd h'.1 (endRes_ne_ok _ _)

/-- One round of the length loop on the plain source. -/
theorem lengthLoop_step (rl mult : Nat) (hm : 0 < mult) (p : Plain) :
    decodeRemainingLengthLoop rl mult hm p =
      match p.bytes with
      | [] => Plain.short p
      | b :: r =>
        if mult * 128 > 128 * 128 * 128 then (.err .invalidData, ⟨r, p.fin⟩)
        else if b.toNat < 128 then (.ok (rl + b.toNat % 128 * mult), ⟨r, p.fin⟩)
        else decodeRemainingLengthLoop (rl + b.toNat % 128 * mult) (mult * 128) (by omega) ⟨r, p.fin⟩ := by
  rw [decodeRemainingLengthLoop]
  rcases p with ⟨bytes, fin⟩
  cases bytes with
  | nil => cases fin <;> rfl
  | cons b r =>
    rw [M.bind_ok (s' := ⟨r, fin⟩) (a := b) (by simp [ByteSource.getU8])]
    simp only [← u8_and_128, ← u8_and_127]
    split
    · rfl
    · split <;> rfl

/-- All outcomes of reading a length field: a value from at most three bytes; four bytes used up and rejected; or the stream ends
inside the field. -/
theorem decodeLength_cases (bytes : List UInt8) (fin : Ending) :
    (∃ lf n r, bytes = lf ++ r ∧ Spec.LengthField lf n ∧ 1 ≤ lf.length ∧ lf.length ≤ 3
      ∧ decodeRemainingLength (⟨bytes, fin⟩ : Plain) = (.ok n, ⟨r, fin⟩))
    ∨ (∃ b₀ b₁ b₂ b₃ r, bytes = b₀ :: b₁ :: b₂ :: b₃ :: r ∧ 128 ≤ b₀.toNat ∧ 128 ≤ b₁.toNat ∧ 128 ≤ b₂.toNat
      ∧ decodeRemainingLength (⟨bytes, fin⟩ : Plain) = (.err .invalidData, ⟨r, fin⟩))
    ∨ (bytes.length ≤ 3 ∧ (∀ b ∈ bytes, 128 ≤ b.toNat)
      ∧ decodeRemainingLength (⟨bytes, fin⟩ : Plain) = Plain.short ⟨[], fin⟩) := by
  unfold decodeRemainingLength
  match bytes with
  | [] => exact .inr (.inr ⟨by simp, by simp, by rw [lengthLoop_step]⟩)
  | b₀ :: r₀ =>
    by_cases h0 : b₀.toNat < 128
    · refine .inl ⟨[b₀], b₀.toNat, r₀, rfl, .last _ h0, by simp, by simp, ?_⟩
      rw [lengthLoop_step]
      simp [h0, Nat.mod_eq_of_lt h0]
    · have l0 := b₀.toNat_lt
      rw [lengthLoop_step]
      simp only [h0, ↓reduceIte, show ¬ 1 * 128 > 128 * 128 * 128 by omega]
      match r₀ with
      | [] => exact .inr (.inr ⟨by simp, by simp; omega, by rw [lengthLoop_step]⟩)
      | b₁ :: r₁ =>
        by_cases h1 : b₁.toNat < 128
        · refine .inl ⟨[b₀, b₁], _, r₁, rfl, .more b₀ _ _ (by omega) (.last b₁ h1), by simp, by simp, ?_⟩
          rw [lengthLoop_step]
          simp only [h1, ↓reduceIte, show ¬ 1 * 128 * 128 > 128 * 128 * 128 by omega]
          simp only [Prod.mk.injEq, Res.ok.injEq, and_true]
          omega
        · have l1 := b₁.toNat_lt
          rw [lengthLoop_step]
          simp only [h1, ↓reduceIte, show ¬ 1 * 128 * 128 > 128 * 128 * 128 by omega]
          match r₁ with
          | [] => exact .inr (.inr ⟨by simp, by simp; omega, by rw [lengthLoop_step]⟩)
          | b₂ :: r₂ =>
            by_cases h2 : b₂.toNat < 128
            · refine .inl ⟨[b₀, b₁, b₂], _, r₂, rfl,
                .more b₀ _ _ (by omega) (.more b₁ _ _ (by omega) (.last b₂ h2)), by simp, by simp, ?_⟩
              rw [lengthLoop_step]
              simp only [h2, ↓reduceIte, show ¬ 1 * 128 * 128 * 128 > 128 * 128 * 128 by omega]
              simp only [Prod.mk.injEq, Res.ok.injEq, and_true]
              omega
            · have l2 := b₂.toNat_lt
              rw [lengthLoop_step]
              simp only [h2, ↓reduceIte, show ¬ 1 * 128 * 128 * 128 > 128 * 128 * 128 by omega]
              match r₂ with
              | [] => exact .inr (.inr ⟨by simp, by simp; omega, by rw [lengthLoop_step]⟩)
              | b₃ :: r₃ =>
                refine .inr (.inl ⟨b₀, b₁, b₂, b₃, r₃, rfl, by omega, by omega, by omega, ?_⟩)
                rw [lengthLoop_step]
                simp

end Ratel
