/-
What the decoder accepts, and why it panics, over the plain byte source.
-/
import Verif.Proofs.Decoder

namespace Ratel

open Decoder

/-- `bs` was read. -/
structure Took (p : Plain) (bs : List UInt8) (p' : Plain) : Prop where
  bytes : p.bytes = bs ++ p'.bytes
  fin : p'.fin = p.fin

namespace Took

theorem refl (p : Plain) : Took p [] p := ⟨rfl, rfl⟩

theorem trans {p p' p'' : Plain} {as bs : List UInt8} (h : Took p as p') (h' : Took p' bs p'') : Took p (as ++ bs) p'' :=
  ⟨by rw [h.bytes, h'.bytes, List.append_assoc], h'.fin.trans h.fin⟩

end Took

theorem short_cases {α : Type} (p : Plain) :
    (Plain.short p : Res α × Plain) = (.err .connectionReset, p) ∨ (Plain.short p : Res α × Plain) = (.err .other, p)
    ∨ (Plain.short p : Res α × Plain) = (.pending, p) := by
  unfold Plain.short
  cases p.fin <;> simp

theorem short_ne_ok {α : Type} {p p' : Plain} {a : α} : (Plain.short p : Res α × Plain) ≠ (.ok a, p') := by
  rcases short_cases (α := α) p with h | h | h <;> simp [h]

theorem short_ne_panic {α : Type} {p p' : Plain} : (Plain.short p : Res α × Plain) ≠ (.panic, p') := by
  rcases short_cases (α := α) p with h | h | h <;> simp [h]

theorem short_ne_hang {α : Type} {p p' : Plain} : (Plain.short p : Res α × Plain) ≠ (.hang, p') := by
  rcases short_cases (α := α) p with h | h | h <;> simp [h]

theorem getU8_took {p p' : Plain} {b : UInt8} (h : ByteSource.getU8 p = (.ok b, p')) : Took p [b] p' := by
  rcases p with ⟨bytes, fin⟩
  cases bytes with
  | nil => exact absurd h short_ne_ok
  | cons c r =>
    simp only [ByteSource.getU8, Prod.mk.injEq, Res.ok.injEq] at h
    obtain ⟨rfl, rfl⟩ := h
    exact ⟨rfl, rfl⟩

theorem getU8_ne_panic {p p' : Plain} : (ByteSource.getU8 p : Res UInt8 × Plain) ≠ (.panic, p') := by
  rcases p with ⟨bytes, fin⟩
  cases bytes with
  | nil => exact short_ne_panic
  | cons c r => simp [ByteSource.getU8]

theorem getU16_took {p p' : Plain} {n : UInt16} (h : ByteSource.getU16 p = (.ok n, p')) :
    Took p (Spec.twoBytes n.toNat) p' := by
  rcases p with ⟨bytes, fin⟩
  match bytes with
  | [] => exact absurd h short_ne_ok
  | [_] => exact absurd h short_ne_ok
  | hi :: lo :: r =>
    simp only [ByteSource.getU16, Prod.mk.injEq, Res.ok.injEq] at h
    obtain ⟨rfl, rfl⟩ := h
    exact ⟨by rw [twoBytes_of_u16OfBytes]; rfl, rfl⟩

theorem getU16_ne_panic {p p' : Plain} : (ByteSource.getU16 p : Res UInt16 × Plain) ≠ (.panic, p') := by
  rcases p with ⟨bytes, fin⟩
  match bytes with
  | [] => exact short_ne_panic
  | [_] => exact short_ne_panic
  | hi :: lo :: r => simp [ByteSource.getU16]

theorem getBytes_took {p p' : Plain} {n : Nat} {bs : List UInt8} (h : ByteSource.getBytes n p = (.ok bs, p')) :
    Took p bs p' ∧ bs.length = n ∧ n ≤ isizeMax := by
  simp only [ByteSource.getBytes] at h
  split at h
  · simp at h
  · split at h
    · simp only [Prod.mk.injEq, Res.ok.injEq] at h
      obtain ⟨rfl, rfl⟩ := h
      exact ⟨⟨by simp, rfl⟩, by simp; omega, by omega⟩
    · exact absurd h short_ne_ok

theorem getBytes_panic {p p' : Plain} {n : Nat} (h : ByteSource.getBytes n p = (.panic, p')) : n > isizeMax := by
  simp only [ByteSource.getBytes] at h
  split at h
  · assumption
  · split at h
    · simp at h
    · exact absurd h short_ne_panic

theorem getString_took {p p' : Plain} {t : String} (h : getString p = (.ok t, p')) :
    Took p (Spec.str t) p' ∧ Spec.Fits t := by
  unfold getString at h
  rw [M.bind_eq_ok] at h
  obtain ⟨n, p₁, h1, h⟩ := h
  rw [M.bind_eq_ok] at h
  obtain ⟨bs, p₂, h2, h⟩ := h
  have t1 := getU16_took h1
  obtain ⟨t2, hl, _⟩ := getBytes_took h2
  cases hu : fromUtf8 bs with
  | none => simp [hu] at h
  | some str =>
    simp only [hu, M.pure_apply, Prod.mk.injEq, Res.ok.injEq] at h
    obtain ⟨rfl, rfl⟩ := h
    have hb := strBytes_of_fromUtf8 hu
    rw [strBytes_eq] at hb
    refine ⟨?_, ?_⟩
    · unfold Spec.str
      rw [hb, hl]
      exact t1.trans t2
    · unfold Spec.Fits
      rw [hb, hl]
      exact n.toNat_lt

theorem getString_ne_panic {p p' : Plain} : (getString p : Res String × Plain) ≠ (.panic, p') := by
  intro h
  unfold getString at h
  rw [M.bind_eq_panic] at h
  rcases h with h | ⟨n, p₁, h1, h⟩
  · exact getU16_ne_panic h
  rw [M.bind_eq_panic] at h
  rcases h with h | ⟨bs, p₂, h2, h⟩
  · have h3 := getBytes_panic h
    have := n.toNat_lt
    unfold isizeMax at h3
    omega
  · cases hu : fromUtf8 bs <;> simp [hu] at h

theorem getStringIf_took {p p' : Plain} {b : Bool} {o : Option String} (h : getStringIf b p = (.ok o, p')) :
    Took p (Spec.optional Spec.str o) p' ∧ (∀ t ∈ o, Spec.Fits t) ∧ o.isSome = b := by
  unfold getStringIf at h
  cases b with
  | false =>
    simp only [Bool.false_eq_true, ↓reduceIte, M.pure_apply, Prod.mk.injEq, Res.ok.injEq] at h
    obtain ⟨rfl, rfl⟩ := h
    exact ⟨Took.refl _, by simp, rfl⟩
  | true =>
    simp only [↓reduceIte] at h
    rw [M.bind_eq_ok] at h
    obtain ⟨t, p₁, h1, h⟩ := h
    simp only [M.pure_apply, Prod.mk.injEq, Res.ok.injEq] at h
    obtain ⟨rfl, rfl⟩ := h
    obtain ⟨t1, hf⟩ := getString_took h1
    exact ⟨t1, by simpa using hf, rfl⟩

theorem getStringIf_ne_panic {p p' : Plain} {b : Bool} : (getStringIf b p : Res (Option String) × Plain) ≠ (.panic, p') := by
  intro h
  unfold getStringIf at h
  cases b with
  | false => simp at h
  | true =>
    simp only [↓reduceIte] at h
    rw [M.bind_eq_panic] at h
    rcases h with h | ⟨t, p₁, h1, h⟩
    · exact getString_ne_panic h
    · simp at h

theorem subU64_ok {pr : Profile} {a b c : Nat} {p p' : Plain} (h : subU64 pr a b p = (.ok c, p')) :
    p' = p ∧ ((b ≤ a ∧ c = a - b) ∨ (a < b ∧ pr.overflowChecks = false ∧ c = a + 2 ^ 64 - b)) := by
  unfold subU64 at h
  split at h
  · simp only [Prod.mk.injEq, Res.ok.injEq] at h
    exact ⟨h.2.symm, .inl ⟨by assumption, h.1.symm⟩⟩
  · split at h
    · simp at h
    · simp only [Prod.mk.injEq, Res.ok.injEq] at h
      exact ⟨h.2.symm, .inr ⟨by omega, by simp_all, h.1.symm⟩⟩

theorem subU64_panic {pr : Profile} {a b : Nat} {p p' : Plain} (h : subU64 pr a b p = (.panic, p')) :
    a < b ∧ pr.overflowChecks = true := by
  unfold subU64 at h
  split at h
  · simp at h
  · split at h
    · exact ⟨by omega, by assumption⟩
    · simp at h

theorem length_took {rl mult : Nat} {hm : 0 < mult} {p p' : Plain} {n : Nat}
    (h : decodeRemainingLengthLoop rl mult hm p = (.ok n, p')) :
    ∃ bs k, Spec.LengthField bs k ∧ Took p bs p' ∧ n = rl + mult * k ∧ mult * 128 ^ bs.length ≤ 128 ^ 3 := by
  induction hN : 128 * 128 * 128 + 1 - mult using Nat.strongRecOn generalizing rl mult p with
  | ind N ih =>
  subst hN
  rw [decodeRemainingLengthLoop] at h
  rw [M.bind_eq_ok] at h
  obtain ⟨b, p₁, h1, h⟩ := h
  have t1 := getU8_took h1
  split at h
  · simp at h
  · rename_i hle
    split at h
    · rename_i hb
      simp only [M.pure_apply, Prod.mk.injEq, Res.ok.injEq] at h
      obtain ⟨rfl, rfl⟩ := h
      have hlt := (u8_and_128 b).mp hb
      refine ⟨[b], b.toNat, .last b hlt, t1, ?_, by simp; omega⟩
      rw [u8_and_127, Nat.mod_eq_of_lt hlt, Nat.mul_comm]
    · rename_i hb
      have hge : 128 ≤ b.toNat := Nat.le_of_not_lt fun h => hb ((u8_and_128 b).mpr h)
      obtain ⟨bs, k, hf, t2, hn, hbnd⟩ := ih _ (by omega) h rfl
      refine ⟨b :: bs, _, .more b bs k hge hf, t1.trans t2, ?_, ?_⟩
      · have hlt := b.toNat_lt
        rw [hn, u8_and_127, show b.toNat % 128 = b.toNat - 128 by omega, Nat.mul_add, Nat.mul_assoc,
          Nat.mul_comm mult (b.toNat - 128)]
        omega
      · rw [List.length_cons, Nat.pow_succ, Nat.mul_comm (128 ^ _), ← Nat.mul_assoc]
        exact hbnd

theorem decodeLength_took {p p' : Plain} {n : Nat} (h : decodeRemainingLength p = (.ok n, p')) :
    ∃ lf, Spec.LengthField lf n ∧ Took p lf p' ∧ lf.length ≤ 3 := by
  obtain ⟨bs, k, hf, t, hn, hb⟩ := length_took h
  have : n = k := by omega
  subst this
  refine ⟨bs, hf, t, ?_⟩
  rw [Nat.one_mul] at hb
  exact (Nat.pow_le_pow_iff_right (by omega)).mp hb

theorem lengthLoop_ne_panic {rl mult : Nat} {hm : 0 < mult} {p p' : Plain} :
    (decodeRemainingLengthLoop rl mult hm p : Res Nat × Plain) ≠ (.panic, p') := by
  induction hN : 128 * 128 * 128 + 1 - mult using Nat.strongRecOn generalizing rl mult p with
  | ind N ih =>
  subst hN
  intro h
  rw [decodeRemainingLengthLoop] at h
  rw [M.bind_eq_panic] at h
  rcases h with h | ⟨b, p₁, h1, h⟩
  · exact getU8_ne_panic h
  · split at h
    · simp at h
    · split at h
      · simp at h
      · exact ih _ (by omega) rfl h

theorem packetId_took {fb e : UInt8} {p p' : Plain} {i : UInt16} (h : decodePacketWithPacketId fb e p = (.ok i, p')) :
    fb = e ∧ Took p (Spec.twoBytes i.toNat) p' := by
  unfold decodePacketWithPacketId validateFirstByte at h
  split at h
  · exact ⟨by assumption, getU16_took h⟩
  · simp [M.bind_apply] at h

theorem packetId_ne_panic {fb e : UInt8} {p p' : Plain} :
    (decodePacketWithPacketId fb e p : Res UInt16 × Plain) ≠ (.panic, p') := by
  intro h
  unfold decodePacketWithPacketId validateFirstByte at h
  split at h
  · exact getU16_ne_panic h
  · simp [M.bind_apply] at h

/-- First bytes as numbers. -/
theorem first_table : ∀ b : UInt8, (b >>> 4).toNat = b.toNat / 16
    ∧ decide (b &&& 0b00000010 ≠ 0) = decide (b.toNat / 2 % 2 = 1)
    ∧ decide (b &&& 0b10000000 ≠ 0) = decide (b.toNat / 128 % 2 = 1)
    ∧ decide (b &&& 0b01000000 ≠ 0) = decide (b.toNat / 64 % 2 = 1)
    ∧ decide (b &&& 0b00001000 ≠ 0) = decide (b.toNat / 8 % 2 = 1)
    ∧ decide (b &&& 0b00000001 ≠ 0) = decide (b.toNat % 2 = 1)
    ∧ ((b &&& 0b00000110) >>> 1).toNat = b.toNat / 2 % 4 := by
  apply forall_u8; decide +kernel

theorem fromBits_some {b : UInt8} {q : QoS} (h : QoS.fromBits b = some q) : b.toNat = Spec.qosNum q := by
  unfold QoS.fromBits at h
  split at h
  · cases h; subst_vars; rfl
  split at h
  · cases h; subst_vars; rfl
  split at h
  · cases h; subst_vars; rfl
  · cases h

theorem fromBits_none {b : UInt8} (h : QoS.fromBits b = none) : 2 < b.toNat := by
  unfold QoS.fromBits at h
  split at h
  · simp at h
  split at h
  · simp at h
  split at h
  · simp at h
  · rename_i h0 h1 h2
    have e0 : b.toNat ≠ 0 := fun e => h0 (UInt8.toNat_inj.mp e)
    have e1 : b.toNat ≠ 1 := fun e => h1 (UInt8.toNat_inj.mp e)
    have e2 : b.toNat ≠ 2 := fun e => h2 (UInt8.toNat_inj.mp e)
    omega

theorem connect_took {fb : UInt8} (hfb : fb.toNat / 16 = 1) {p p' : Plain} {pkt : ControlPacket}
    (h : decodeConnect p = (.ok pkt, p')) : ∃ body, Took p body p' ∧ Spec.WellFormed fb.toNat body pkt
      ∧ ∃ c, pkt = .connect c := by
  unfold decodeConnect at h
  rw [M.bind_eq_ok] at h
  obtain ⟨name, p₁, h1, h⟩ := h
  rw [M.bind_eq_ok] at h
  obtain ⟨level, p₂, h2, h⟩ := h
  rw [M.bind_eq_ok] at h
  obtain ⟨flags, p₃, h3, h⟩ := h
  rw [M.bind_eq_ok] at h
  obtain ⟨ka, p₄, h4, h⟩ := h
  rw [M.bind_eq_ok] at h
  obtain ⟨cid, p₅, h5, h⟩ := h
  rw [M.bind_eq_ok] at h
  obtain ⟨user, p₆, h6, h⟩ := h
  rw [M.bind_eq_ok] at h
  obtain ⟨pass, p₇, h7, h⟩ := h
  simp only [M.pure_apply, Prod.mk.injEq, Res.ok.injEq] at h
  obtain ⟨rfl, rfl⟩ := h
  obtain ⟨t1, f1⟩ := getString_took h1
  have t2 := getU8_took h2
  have t3 := getU8_took h3
  have t4 := getU16_took h4
  obtain ⟨t5, f5⟩ := getString_took h5
  obtain ⟨t6, f6, e6⟩ := getStringIf_took h6
  obtain ⟨t7, f7, e7⟩ := getStringIf_took h7
  have tab := first_table flags
  refine ⟨_, t1.trans (t2.trans (t3.trans (t4.trans (t5.trans (t6.trans t7))))), ?_, _, rfl⟩
  refine ⟨hfb, rfl, rfl, f5, f6, f7, name, level, flags, f1, ?_, ?_, ?_, ?_⟩
  · simp [Spec.connectBody]
  · simp only [tab.2.1, decide_eq_true_eq]
  · rw [e6, tab.2.2.1]; simp
  · rw [e7, tab.2.2.2.1]; simp

theorem publishFirst_eq {fb : UInt8} {qos : QoS} (hfb : fb.toNat / 16 = 3) (hq : fb.toNat / 2 % 4 = Spec.qosNum qos)
    (pid : Option UInt16) (t : String) (body : List UInt8) :
    fb.toNat = Spec.publishFirst
      { packetId := pid, dup := decide (fb &&& 0b00001000 ≠ 0),
        message := { topic := t, payload := body, qos := qos, retain := decide (fb &&& 0b00000001 ≠ 0) } } := by
  have tab := first_table fb
  have hlt := fb.toNat_lt
  simp only [Spec.publishFirst, tab.2.2.2.2.1, tab.2.2.2.2.2.1, decide_eq_true_eq, ← hq]
  split <;> split <;> omega

theorem publish_took {pr : Profile} {fb : UInt8} (hfb : fb.toNat / 16 = 3) {n : Nat} (hn : n < 2 ^ 32) {p p' : Plain}
    {pkt : ControlPacket} (h : decodePublish pr fb n p = (.ok pkt, p')) :
    ∃ body, Took p body p' ∧ Spec.WellFormed fb.toNat body pkt ∧ body.length = n ∧ ∃ q, pkt = .publish q := by
  unfold decodePublish at h
  cases hq : QoS.fromBits ((fb &&& 0b00000110) >>> 1) with
  | none => simp [hq] at h
  | some qos =>
  simp only [hq] at h
  have hq' := fromBits_some hq
  rw [(first_table fb).2.2.2.2.2.2] at hq'
  rw [M.bind_eq_ok] at h
  obtain ⟨t, p₁, h1, h⟩ := h
  obtain ⟨t1, f1⟩ := getString_took h1
  rw [M.bind_eq_ok] at h
  obtain ⟨n₁, p₂, h2, h⟩ := h
  obtain ⟨rfl, s1⟩ := subU64_ok h2
  rw [M.bind_eq_ok] at h
  obtain ⟨n₂, p₃, h3, h⟩ := h
  obtain ⟨rfl, s2⟩ := subU64_ok h3
  rw [M.bind_eq_ok] at h
  obtain ⟨⟨pid, n₃⟩, p₄, h4, h⟩ := h
  rw [M.bind_eq_ok] at h
  obtain ⟨body, p₅, h5, h⟩ := h
  simp only [M.pure_apply, Prod.mk.injEq, Res.ok.injEq] at h
  obtain ⟨rfl, rfl⟩ := h
  obtain ⟨t5, l5, i5⟩ := getBytes_took h5
  simp only at l5 i5
  have hstr := SourceLaws.length_str t
  have hfit : strLen t < 65536 := f1
  unfold isizeMax at i5
  unfold publishPacketId at h4
  cases hg : qos.gtAtMostOnce with
  | false =>
    simp only [hg, Bool.false_eq_true, ↓reduceIte, M.pure_apply, Prod.mk.injEq, Res.ok.injEq] at h4
    obtain ⟨⟨rfl, rfl⟩, rfl⟩ := h4
    have hqz : qos = .atMostOnce := by cases qos <;> simp [QoS.gtAtMostOnce] at hg ⊢
    refine ⟨_, t1.trans t5, ⟨publishFirst_eq hfb hq' none t body, by simp [Spec.publishRest, Spec.optional], f1, ?_⟩, ?_, _, rfl⟩
    · simp [hqz]
    · rw [List.length_append, hstr, l5]
      omega
  | true =>
    simp only [hg, ↓reduceIte] at h4
    rw [M.bind_eq_ok] at h4
    obtain ⟨n₄, p₅, h6, h4⟩ := h4
    obtain ⟨rfl, s3⟩ := subU64_ok h6
    rw [M.bind_eq_ok] at h4
    obtain ⟨i, p₆, h7, h4⟩ := h4
    simp only [M.pure_apply, Prod.mk.injEq, Res.ok.injEq] at h4
    obtain ⟨⟨rfl, rfl⟩, rfl⟩ := h4
    have t7 := getU16_took h7
    have hqz : qos ≠ .atMostOnce := by cases qos <;> simp [QoS.gtAtMostOnce] at hg ⊢
    refine ⟨_, t1.trans (t7.trans t5), ⟨publishFirst_eq hfb hq' (some i) t body, by simp [Spec.publishRest, Spec.optional], f1, ?_⟩, ?_,
      _, rfl⟩
    · simp [hqz]
    · rw [List.length_append, List.length_append, hstr, l5]
      have : (Spec.twoBytes i.toNat).length = 2 := rfl
      omega

theorem gt_two_iff : ∀ b : UInt8, b > 2 ↔ 2 < b.toNat := by
  intro b
  exact UInt8.lt_iff_toNat_lt

theorem byte_of_toNat {b : UInt8} {n : Nat} (h : b.toNat = n) : Spec.byte n = b := by
  subst h
  simp [Spec.byte]

theorem subscribeLoop_took {pr : Profile} {fuel rl : Nat} {acc subs : List Subscription} {p p' : Plain}
    (h : subscribeLoop pr fuel rl acc p = (.ok subs, p')) :
    ∃ new, subs = acc ++ new ∧ (rl ≠ 0 → new ≠ []) ∧ (∀ f ∈ new, Spec.Fits f.topic)
      ∧ Took p (new.flatMap fun f => Spec.str f.topic ++ [Spec.byte (Spec.qosNum f.qos)]) p'
      ∧ (∃ k, (new.flatMap fun f => Spec.str f.topic ++ [Spec.byte (Spec.qosNum f.qos)]).length = rl + k * 2 ^ 64
          ∧ (pr.overflowChecks = true → k = 0)) := by
  induction fuel generalizing rl acc p with
  | zero => simp [subscribeLoop] at h
  | succ fuel ih =>
    unfold subscribeLoop at h
    split at h
    · rw [M.bind_eq_ok] at h
      obtain ⟨t, p₁, h1, h⟩ := h
      obtain ⟨t1, f1⟩ := getString_took h1
      rw [M.bind_eq_ok] at h
      obtain ⟨qb, p₂, h2, h⟩ := h
      have t2 := getU8_took h2
      split at h
      · simp at h
      · rw [M.bind_eq_ok] at h
        obtain ⟨n₁, p₃, h3, h⟩ := h
        obtain ⟨rfl, s1⟩ := subU64_ok h3
        cases hq : QoS.fromBits qb with
        | none => simp [hq] at h
        | some q =>
          simp only [hq] at h
          obtain ⟨new, e, _, hf, t3, hl⟩ := ih h
          have hqb := byte_of_toNat (fromBits_some hq)
          refine ⟨{ topic := t, qos := q } :: new, by simp [e], by simp, ?_, ?_, ?_⟩
          · intro f hm
            rcases List.mem_cons.mp hm with rfl | hm
            · exact f1
            · exact hf f hm
          · have := t1.trans (t2.trans t3)
            rw [List.flatMap_cons]
            simp only [hqb, List.append_assoc]
            exact this
          · obtain ⟨k, hk, hl⟩ := hl
            simp only [List.flatMap_cons, List.length_append, SourceLaws.length_str, hk, List.length_singleton]
            rcases s1 with s1 | ⟨s1, s2, s3⟩
            · exact ⟨k, by omega, hl⟩
            · have f2 : strLen t < 65536 := by rw [strLen_eq]; exact f1
              exact ⟨k + 1, by omega, fun hc => by simp [hc] at s2⟩
    · simp only [M.pure_apply, Prod.mk.injEq, Res.ok.injEq] at h
      obtain ⟨rfl, rfl⟩ := h
      exact ⟨[], by simp, by omega, by simp, Took.refl _, 0, by simp; omega, fun _ => rfl⟩

theorem unsubscribeLoop_took {pr : Profile} {fuel rl : Nat} {acc ts : List String} {p p' : Plain}
    (h : unsubscribeLoop pr fuel rl acc p = (.ok ts, p')) :
    ∃ new, ts = acc ++ new ∧ (rl ≠ 0 → new ≠ []) ∧ (∀ f ∈ new, Spec.Fits f)
      ∧ Took p (new.flatMap Spec.str) p'
      ∧ (∃ k, (new.flatMap Spec.str).length = rl + k * 2 ^ 64 ∧ (pr.overflowChecks = true → k = 0)) := by
  induction fuel generalizing rl acc p with
  | zero => simp [unsubscribeLoop] at h
  | succ fuel ih =>
    unfold unsubscribeLoop at h
    split at h
    · rw [M.bind_eq_ok] at h
      obtain ⟨t, p₁, h1, h⟩ := h
      obtain ⟨t1, f1⟩ := getString_took h1
      rw [M.bind_eq_ok] at h
      obtain ⟨n₁, p₃, h3, h⟩ := h
      obtain ⟨rfl, s1⟩ := subU64_ok h3
      obtain ⟨new, e, _, hf, t3, hl⟩ := ih h
      refine ⟨t :: new, by simp [e], by simp, ?_, ?_, ?_⟩
      · intro f hm
        rcases List.mem_cons.mp hm with rfl | hm
        · exact f1
        · exact hf f hm
      · rw [List.flatMap_cons]
        exact t1.trans t3
      · obtain ⟨k, hk, hl⟩ := hl
        simp only [List.flatMap_cons, List.length_append, SourceLaws.length_str, hk]
        rcases s1 with s1 | ⟨s1, s2, s3⟩
        · exact ⟨k, by omega, hl⟩
        · have f2 : strLen t < 65536 := by rw [strLen_eq]; exact f1
          exact ⟨k + 1, by omega, fun hc => by simp [hc] at s2⟩
    · simp only [M.pure_apply, Prod.mk.injEq, Res.ok.injEq] at h
      obtain ⟨rfl, rfl⟩ := h
      exact ⟨[], by simp, by omega, by simp, Took.refl _, 0, by simp; omega, fun _ => rfl⟩

/-- Packets whose announced length is honoured: without overflow checks a SUBSCRIBE or UNSUBSCRIBE would have to be followed by
2^64 bytes for it not to be. -/
def Framed (pr : Profile) (p : Plain) : ControlPacket → Prop
  | .publish _ => True
  | .subscribe _ | .unsubscribe _ => pr.overflowChecks = true ∨ p.bytes.length < 2 ^ 64
  | _ => False

theorem subscribe_took {pr : Profile} {fb : UInt8} {n : Nat} {p p' : Plain} {pkt : ControlPacket}
    (h : decodeSubscribe pr fb n p = (.ok pkt, p')) :
    ∃ body, Took p body p' ∧ Spec.WellFormed fb.toNat body pkt ∧ (Framed pr p pkt → body.length = n)
      ∧ ∃ q, pkt = .subscribe q := by
  unfold decodeSubscribe at h
  rw [M.bind_eq_ok] at h
  obtain ⟨i, p₁, h1, h⟩ := h
  obtain ⟨hfb, t1⟩ := packetId_took h1
  rw [M.bind_eq_ok] at h
  obtain ⟨n₁, p₂, h2, h⟩ := h
  obtain ⟨rfl, s1⟩ := subU64_ok h2
  split at h
  · simp at h
  · rename_i h0
    replace h := M.bind_eq_ok.mp h
    obtain ⟨subs, p₃, h3, h⟩ := h
    obtain ⟨new, e, hne, hf, t3, hl⟩ := subscribeLoop_took h3
    simp only [M.pure_apply, Prod.mk.injEq, Res.ok.injEq] at h
    obtain ⟨rfl, rfl⟩ := h
    simp only [List.nil_append] at e
    subst e
    refine ⟨_, t1.trans t3, ⟨by rw [hfb]; rfl, hne h0, hf, rfl⟩, ?_, _, rfl⟩
    intro hc
    have hc : pr.overflowChecks = true ∨ p.bytes.length < 2 ^ 64 := hc
    obtain ⟨k, hk, hl⟩ := hl
    have h2 : (Spec.twoBytes i.toNat).length = 2 := rfl
    have hb := congrArg List.length (t1.trans t3).bytes
    simp only [List.length_append, h2, hk] at hb ⊢
    rcases hc with hc | hc
    · rcases s1 with s1 | ⟨_, s2, _⟩
      · have := hl hc
        omega
      · simp [hc] at s2
    · rcases s1 with s1 | ⟨_, s2, _⟩ <;> omega

theorem unsubscribe_took {pr : Profile} {fb : UInt8} {n : Nat} {p p' : Plain} {pkt : ControlPacket}
    (h : decodeUnsubscribe pr fb n p = (.ok pkt, p')) :
    ∃ body, Took p body p' ∧ Spec.WellFormed fb.toNat body pkt ∧ (Framed pr p pkt → body.length = n)
      ∧ ∃ q, pkt = .unsubscribe q := by
  unfold decodeUnsubscribe at h
  rw [M.bind_eq_ok] at h
  obtain ⟨i, p₁, h1, h⟩ := h
  obtain ⟨hfb, t1⟩ := packetId_took h1
  rw [M.bind_eq_ok] at h
  obtain ⟨n₁, p₂, h2, h⟩ := h
  obtain ⟨rfl, s1⟩ := subU64_ok h2
  split at h
  · simp at h
  · rename_i h0
    replace h := M.bind_eq_ok.mp h
    obtain ⟨subs, p₃, h3, h⟩ := h
    obtain ⟨new, e, hne, hf, t3, hl⟩ := unsubscribeLoop_took h3
    simp only [M.pure_apply, Prod.mk.injEq, Res.ok.injEq] at h
    obtain ⟨rfl, rfl⟩ := h
    simp only [List.nil_append] at e
    subst e
    refine ⟨_, t1.trans t3, ⟨by rw [hfb]; rfl, hne h0, hf, rfl⟩, ?_, _, rfl⟩
    intro hc
    have hc : pr.overflowChecks = true ∨ p.bytes.length < 2 ^ 64 := hc
    obtain ⟨k, hk, hl⟩ := hl
    have h2 : (Spec.twoBytes i.toNat).length = 2 := rfl
    have hb := congrArg List.length (t1.trans t3).bytes
    simp only [List.length_append, h2, hk] at hb ⊢
    rcases hc with hc | hc
    · rcases s1 with s1 | ⟨_, s2, _⟩
      · have := hl hc
        omega
      · simp [hc] at s2
    · rcases s1 with s1 | ⟨_, s2, _⟩ <;> omega

theorem type_eq {fb k : UInt8} (h : fb >>> 4 = k) : fb.toNat / 16 = k.toNat := by
  rw [← (first_table fb).1, h]

theorem body_took {pr : Profile} {fb : UInt8} {n : Nat} (hn : n < 2 ^ 32) {p p' : Plain} {pkt : ControlPacket}
    (h : decodeBody pr fb n p = (.ok pkt, p')) :
    ∃ body, Took p body p' ∧ Spec.WellFormed fb.toNat body pkt ∧ (Framed pr p pkt → body.length = n) := by
  unfold decodeBody at h
  split at h
  · rename_i ht
    obtain ⟨body, h1, h2, c, rfl⟩ := connect_took (type_eq ht) h
    exact ⟨body, h1, h2, fun hf => absurd hf (by simp [Framed])⟩
  split at h
  · rename_i ht
    obtain ⟨body, h1, h2, h3, _⟩ := publish_took (type_eq ht) hn h
    exact ⟨body, h1, h2, fun _ => h3⟩
  split at h
  · unfold decodePubAck at h
    rw [M.bind_eq_ok] at h
    obtain ⟨i, p₁, h1, h⟩ := h
    obtain ⟨hfb, t1⟩ := packetId_took h1
    simp only [M.pure_apply, Prod.mk.injEq, Res.ok.injEq] at h
    obtain ⟨rfl, rfl⟩ := h
    exact ⟨_, t1, ⟨by rw [hfb]; rfl, rfl⟩, fun hf => absurd hf (by simp [Framed])⟩
  split at h
  · unfold decodePubRec at h
    rw [M.bind_eq_ok] at h
    obtain ⟨i, p₁, h1, h⟩ := h
    obtain ⟨hfb, t1⟩ := packetId_took h1
    simp only [M.pure_apply, Prod.mk.injEq, Res.ok.injEq] at h
    obtain ⟨rfl, rfl⟩ := h
    exact ⟨_, t1, ⟨by rw [hfb]; rfl, rfl⟩, fun hf => absurd hf (by simp [Framed])⟩
  split at h
  · unfold decodePubRel at h
    rw [M.bind_eq_ok] at h
    obtain ⟨i, p₁, h1, h⟩ := h
    obtain ⟨hfb, t1⟩ := packetId_took h1
    simp only [M.pure_apply, Prod.mk.injEq, Res.ok.injEq] at h
    obtain ⟨rfl, rfl⟩ := h
    exact ⟨_, t1, ⟨by rw [hfb]; rfl, rfl⟩, fun hf => absurd hf (by simp [Framed])⟩
  split at h
  · unfold decodePubComp at h
    rw [M.bind_eq_ok] at h
    obtain ⟨i, p₁, h1, h⟩ := h
    obtain ⟨hfb, t1⟩ := packetId_took h1
    simp only [M.pure_apply, Prod.mk.injEq, Res.ok.injEq] at h
    obtain ⟨rfl, rfl⟩ := h
    exact ⟨_, t1, ⟨by rw [hfb]; rfl, rfl⟩, fun hf => absurd hf (by simp [Framed])⟩
  split at h
  · obtain ⟨body, h1, h2, h3, _⟩ := subscribe_took h
    exact ⟨body, h1, h2, h3⟩
  split at h
  · obtain ⟨body, h1, h2, h3, _⟩ := unsubscribe_took h
    exact ⟨body, h1, h2, h3⟩
  split at h
  · rename_i ht
    simp only [M.pure_apply, Prod.mk.injEq, Res.ok.injEq] at h
    obtain ⟨rfl, rfl⟩ := h
    exact ⟨_, Took.refl _, ⟨type_eq ht, rfl⟩, fun hf => absurd hf (by simp [Framed])⟩
  split at h
  · rename_i ht
    simp only [M.pure_apply, Prod.mk.injEq, Res.ok.injEq] at h
    obtain ⟨rfl, rfl⟩ := h
    exact ⟨_, Took.refl _, ⟨type_eq ht, rfl⟩, fun hf => absurd hf (by simp [Framed])⟩
  · simp at h

/-- Everything the decoder accepts is a well-formed packet saying what the decoder returns. -/
theorem readPacket_took {pr : Profile} {p p' : Plain} {pkt : ControlPacket} (h : readPacket pr p = (.ok pkt, p')) :
    ∃ first lf n body, Spec.LengthField lf n ∧ lf.length ≤ 3 ∧ Took p (first :: lf ++ body) p'
      ∧ Spec.WellFormed first.toNat body pkt ∧ (Framed pr p pkt → body.length = n) := by
  unfold readPacket at h
  rw [M.bind_eq_ok] at h
  obtain ⟨first, p₁, h1, h⟩ := h
  have t1 := getU8_took h1
  rw [M.bind_eq_ok] at h
  obtain ⟨n, p₂, h2, h⟩ := h
  obtain ⟨lf, hf, t2, hl⟩ := decodeLength_took h2
  have hn := SourceLaws.lengthField_small hf hl
  obtain ⟨body, t3, hw, hfr⟩ := body_took (by omega) h
  refine ⟨first, lf, n, body, hf, hl, ?_, hw, fun h => hfr ?_⟩
  · have := t1.trans (t2.trans t3)
    simpa using this
  · have hb := congrArg List.length (t1.trans t2).bytes
    rw [List.length_append] at hb
    cases pkt with
    | subscribe q => exact h.imp id fun h => by omega
    | unsubscribe q => exact h.imp id fun h => by omega
    | publish q => trivial
    | _ => exact h

end Ratel
