/-
When the decoder panics, exactly.
-/
import Verif.Proofs.DecoderPanic
import Verif.Proofs.Reject
import Verif.Proofs.Language
import Verif.Spec.Panics

namespace Ratel

open Decoder

theorem sub_fine (pr : Profile) {a b : Nat} (h : b ≤ a) (p : Plain) : (subU64 pr a b p : Res Nat × Plain) = (.ok (a - b), p) := by
  simp [subU64, h]

theorem sub_checked {pr : Profile} (hc : pr.overflowChecks = true) {a b : Nat} (h : a < b) (p : Plain) :
    (subU64 pr a b p : Res Nat × Plain) = (.panic, p) := by
  simp [subU64, hc, show ¬ b ≤ a by omega]

theorem sub_wraps {pr : Profile} (hc : pr.overflowChecks = false) {a b : Nat} (h : a < b) (p : Plain) :
    (subU64 pr a b p : Res Nat × Plain) = (.ok (a + 2 ^ 64 - b), p) := by
  simp [subU64, hc, show ¬ b ≤ a by omega]

theorem getString_run {t : String} (h : Spec.Fits t) (r : List UInt8) (fin : Ending) :
    (getString (⟨Spec.str t ++ r, fin⟩ : Plain)) = (.ok t, ⟨r, fin⟩) := PReads.run (Plain.laws.readString t h) r fin

/-! ### PUBLISH -/

theorem publish_panics {pr : Profile} {fb : UInt8} {n : Nat} (hn : n < 2 ^ 32) {p p' : Plain}
    (h : decodePublish pr fb n p = (.panic, p')) :
    fb.toNat / 2 % 4 = 3
    ∨ fb.toNat / 2 % 4 = 0 ∧ (∃ t r', Spec.Fits t ∧ p.bytes = Spec.str t ++ r' ∧ n < (Spec.str t).length)
    ∨ fb.toNat / 2 % 4 ∈ [1, 2] ∧ ∃ t r', Spec.Fits t ∧ p.bytes = Spec.str t ++ r' ∧ n < (Spec.str t).length + 2
        ∧ (pr.overflowChecks = true ∨ 2 ≤ r'.length) := by
  have tab := (first_table fb).2.2.2.2.2.2
  unfold decodePublish at h
  cases hq : QoS.fromBits ((fb &&& 0b00000110) >>> 1) with
  | none =>
    have := fromBits_none hq
    left
    omega
  | some qos =>
  right
  simp only [hq] at h
  have hq' := fromBits_some hq
  rw [tab] at hq'
  have hdis : fb.toNat / 2 % 4 = 0 ∨ fb.toNat / 2 % 4 ∈ [1, 2] := by rw [hq']; cases qos <;> simp [Spec.qosNum]
  rw [M.bind_eq_panic] at h
  rcases h with h | ⟨t, p₁, h1, h⟩
  · exact absurd h getString_ne_panic
  obtain ⟨t1, f1⟩ := getString_took h1
  have hstr := SourceLaws.length_str t
  have hfit : strLen t < 65536 := f1
  -- shorter than the topic, with overflow checks
  have short : n < strLen t + 2 → pr.overflowChecks = true →
      fb.toNat / 2 % 4 = 0 ∧ (∃ t r', Spec.Fits t ∧ p.bytes = Spec.str t ++ r' ∧ n < (Spec.str t).length)
      ∨ fb.toNat / 2 % 4 ∈ [1, 2] ∧ ∃ t r', Spec.Fits t ∧ p.bytes = Spec.str t ++ r' ∧ n < (Spec.str t).length + 2
        ∧ (pr.overflowChecks = true ∨ 2 ≤ r'.length) := by
    intro hs hc
    rcases hdis with h0 | h0
    · exact .inl ⟨h0, t, _, f1, t1.bytes, by omega⟩
    · exact .inr ⟨h0, t, _, f1, t1.bytes, by omega, .inl hc⟩
  rw [M.bind_eq_panic] at h
  rcases h with h | ⟨n₁, p₂, h2, h⟩
  · have := subU64_panic h
    exact short (by omega) this.2
  obtain ⟨rfl, s1⟩ := subU64_ok h2
  rw [M.bind_eq_panic] at h
  rcases h with h | ⟨n₂, p₃, h3, h⟩
  · have := subU64_panic h
    exact short (by omega) this.2
  obtain ⟨rfl, s2⟩ := subU64_ok h3
  rw [M.bind_eq_panic] at h
  rcases h with h | ⟨⟨pid, n₃⟩, p₄, h4, h⟩
  · unfold publishPacketId at h
    cases hg : qos.gtAtMostOnce with
    | false => simp [hg] at h
    | true =>
      simp only [hg, ↓reduceIte] at h
      have h0 : fb.toNat / 2 % 4 ∈ [1, 2] := by
        rw [hq']; cases qos <;> simp [QoS.gtAtMostOnce, Spec.qosNum] at hg ⊢
      rw [M.bind_eq_panic] at h
      rcases h with h | ⟨n₄, p₅, h6, h⟩
      · have := subU64_panic h
        exact .inr ⟨h0, t, _, f1, t1.bytes, by omega, .inl this.2⟩
      rw [M.bind_eq_panic] at h
      rcases h with h | ⟨_, _, _, h⟩
      · exact absurd h getU16_ne_panic
      · simp at h
  · rw [M.bind_eq_panic] at h
    rcases h with h | ⟨_, _, _, h⟩
    · have hbig := getBytes_panic h
      simp only at hbig
      unfold isizeMax at hbig
      unfold publishPacketId at h4
      cases hg : qos.gtAtMostOnce with
      | false =>
        have h0 : fb.toNat / 2 % 4 = 0 := by
          rw [hq']; cases qos <;> simp [QoS.gtAtMostOnce, Spec.qosNum] at hg ⊢
        simp only [hg, Bool.false_eq_true, ↓reduceIte, M.pure_apply, Prod.mk.injEq, Res.ok.injEq] at h4
        obtain ⟨⟨rfl, rfl⟩, rfl⟩ := h4
        exact .inl ⟨h0, t, _, f1, t1.bytes, by omega⟩
      | true =>
        have h0 : fb.toNat / 2 % 4 ∈ [1, 2] := by
          rw [hq']; cases qos <;> simp [QoS.gtAtMostOnce, Spec.qosNum] at hg ⊢
        simp only [hg, ↓reduceIte] at h4
        rw [M.bind_eq_ok] at h4
        obtain ⟨n₄, p₅, h6, h4⟩ := h4
        obtain ⟨rfl, s3⟩ := subU64_ok h6
        rw [M.bind_eq_ok] at h4
        obtain ⟨i, p₆, h7, h4⟩ := h4
        have t7 := (getU16_took h7).bytes
        simp only [M.pure_apply, Prod.mk.injEq, Res.ok.injEq] at h4
        obtain ⟨⟨rfl, rfl⟩, rfl⟩ := h4
        refine .inr ⟨h0, t, _, f1, t1.bytes, by omega, .inr ?_⟩
        rw [t7, List.length_append]
        simp [Spec.twoBytes]
    · simp at h

theorem publish_panics_of {pr : Profile} {fb : UInt8} {n : Nat} (hn : n < 2 ^ 32) {r : List UInt8} (fin : Ending)
    (h : fb.toNat / 2 % 4 = 3
      ∨ fb.toNat / 2 % 4 = 0 ∧ (∃ t r', Spec.Fits t ∧ r = Spec.str t ++ r' ∧ n < (Spec.str t).length)
      ∨ fb.toNat / 2 % 4 ∈ [1, 2] ∧ ∃ t r', Spec.Fits t ∧ r = Spec.str t ++ r' ∧ n < (Spec.str t).length + 2
          ∧ (pr.overflowChecks = true ∨ 2 ≤ r'.length)) :
    (decodePublish pr fb n (⟨r, fin⟩ : Plain)).1 = .panic := by
  have tab := (first_table fb).2.2.2.2.2.2
  have lens := SourceLaws.length_str
  unfold decodePublish
  cases hq : QoS.fromBits ((fb &&& 0b00000110) >>> 1) with
  | none => rfl
  | some qos =>
  have hq' := fromBits_some hq
  rw [tab] at hq'
  simp only
  obtain ⟨t, r', hf, rfl, hl, hid⟩ : ∃ t r', Spec.Fits t ∧ r = Spec.str t ++ r'
      ∧ n < (Spec.str t).length + (if qos.gtAtMostOnce then 2 else 0)
      ∧ (pr.overflowChecks = true ∨ qos.gtAtMostOnce = false ∨ 2 ≤ r'.length) := by
    rcases h with h | ⟨h0, t, r', hf, he, hl⟩ | ⟨h0, t, r', hf, he, hl, hc⟩
    · rw [hq'] at h; cases qos <;> simp [Spec.qosNum] at h
    · refine ⟨t, r', hf, he, by omega, .inr (.inl ?_)⟩
      rw [hq'] at h0; cases qos <;> simp [Spec.qosNum, QoS.gtAtMostOnce] at h0 ⊢
    · refine ⟨t, r', hf, he, ?_, ?_⟩
      · rw [hq'] at h0; cases qos <;> simp [Spec.qosNum, QoS.gtAtMostOnce] at h0 ⊢ <;> omega
      · rcases hc with hc | hc
        · exact .inl hc
        · exact .inr (.inr hc)
  have hfit : strLen t < 65536 := hf
  rw [lens] at hl
  rw [M.bind_ok (getString_run hf r' fin)]
  have big : ∀ (m : Nat) (f : List UInt8 → M Plain ControlPacket) (p : Plain), m > isizeMax → ((ByteSource.getBytes m >>= f) p).1 = .panic := by
    intro m f p hm
    rw [M.bind_panic (s' := p) (by simp [ByteSource.getBytes, hm])]
  by_cases hc : pr.overflowChecks = true
  · by_cases h1 : n < strLen t
    · rw [M.bind_panic (sub_checked hc h1 _)]
    rw [M.bind_ok (sub_fine pr (by omega) _)]
    by_cases h2 : n - strLen t < 2
    · rw [M.bind_panic (sub_checked hc h2 _)]
    rw [M.bind_ok (sub_fine pr (by omega) _)]
    cases hg : qos.gtAtMostOnce with
    | false => simp only [hg] at hl; simp at hl; omega
    | true =>
      simp only [hg, ↓reduceIte] at hl
      unfold publishPacketId
      simp only [hg, ↓reduceIte, M.bind_assoc']
      rw [M.bind_panic (sub_checked hc (by omega) _)]
  · have hc' : pr.overflowChecks = false := by simpa using hc
    have step : ∀ a b : Nat, ∃ c, (∀ p : Plain, subU64 pr a b p = (.ok c, p)) ∧ (b ≤ a → c = a - b) ∧ (a < b → c = a + 2 ^ 64 - b) := by
      intro a b
      by_cases hab : b ≤ a
      · exact ⟨a - b, fun p => sub_fine pr hab p, fun _ => rfl, fun h => by omega⟩
      · exact ⟨a + 2 ^ 64 - b, fun p => sub_wraps hc' (by omega) p, fun h => absurd h hab, fun _ => rfl⟩
    obtain ⟨a, ha, ha1, ha2⟩ := step n (strLen t)
    obtain ⟨b, hb, hb1, hb2⟩ := step a 2
    rw [M.bind_ok (ha _), M.bind_ok (hb _)]
    unfold publishPacketId
    cases hg : qos.gtAtMostOnce with
    | false =>
      simp only [hg, Bool.false_eq_true, ↓reduceIte, M.pure_bind'] at hl ⊢
      apply big
      unfold isizeMax
      omega
    | true =>
      simp only [hg, ↓reduceIte] at hl
      obtain ⟨c, hcc, hc1, hc2⟩ := step b 2
      simp only [↓reduceIte, M.bind_assoc']
      rw [M.bind_ok (hcc _)]
      have h2 : 2 ≤ r'.length := by
        rcases hid with h | h | h
        · exact absurd h hc
        · rw [hg] at h; cases h
        · exact h
      match r', h2 with
      | x :: y :: r', _ =>
        have h16 : ByteSource.getU16 (⟨x :: y :: r', fin⟩ : Plain) = (.ok (u16OfBytes x y), ⟨r', fin⟩) := rfl
        rw [M.bind_ok h16]
        simp only [M.pure_bind']
        apply big
        unfold isizeMax
        omega

/-! ### SUBSCRIBE -/

/-- The loop over the entries of a SUBSCRIBE panics. -/
theorem subscribeLoop_panics {pr : Profile} {fuel rl : Nat} {acc : List Subscription} {p p' : Plain}
    (h : subscribeLoop pr fuel rl acc p = (.panic, p')) :
    pr.overflowChecks = true ∧ ∃ (fs : List (String × QoS)) (t : String) (q : UInt8) (r' : List UInt8),
      (∀ f ∈ fs, Spec.Fits f.1) ∧ Spec.Fits t ∧ q.toNat ≤ 2 ∧ p.bytes = subscribePayload fs ++ (Spec.str t ++ [q]) ++ r'
      ∧ (subscribePayload fs).length < rl ∧ rl < (subscribePayload fs ++ (Spec.str t ++ [q])).length := by
  induction fuel generalizing rl acc p with
  | zero => simp [subscribeLoop] at h
  | succ fuel ih =>
    unfold subscribeLoop at h
    split at h
    · next hpos =>
      rw [M.bind_eq_panic] at h
      rcases h with h | ⟨t, p₁, h1, h⟩
      · exact absurd h getString_ne_panic
      obtain ⟨t1, f1⟩ := getString_took h1
      rw [M.bind_eq_panic] at h
      rcases h with h | ⟨qb, p₂, h2, h⟩
      · exact absurd h getU8_ne_panic
      have t2 := getU8_took h2
      have hlen : (Spec.str t ++ [qb]).length = strLen t + 3 := by
        rw [List.length_append, SourceLaws.length_str]; simp
      split at h
      · simp at h
      · rename_i hgt
        have hq2 : qb.toNat ≤ 2 := Nat.le_of_not_lt fun h => hgt ((gt_two_iff qb).mpr h)
        rw [M.bind_eq_panic] at h
        rcases h with h | ⟨n₁, p₃, h3, h⟩
        · have := subU64_panic h
          refine ⟨this.2, [], t, qb, p₂.bytes, by simp, f1, hq2, ?_, hpos, ?_⟩
          · have := (t1.trans t2).bytes
            simpa [subscribePayload] using this
          · simp only [subscribePayload, List.flatMap_nil, List.nil_append]
            omega
        obtain ⟨rfl, s1⟩ := subU64_ok h3
        cases hq : QoS.fromBits qb with
        | none => exact absurd ((gt_two_iff qb).mpr (fromBits_none hq)) hgt
        | some q =>
          simp only [hq] at h
          obtain ⟨hc, fs, t', q', r', hfs, hf', hq', hb, hl1, hl2⟩ := ih h
          have hqb : qb = Spec.byte (Spec.qosNum q) := SourceLaws.first_byte (fromBits_some hq)
          have hn₁ : strLen t + 3 ≤ rl ∧ n₁ = rl - (strLen t + 3) := by
            rcases s1 with s1 | ⟨_, hno, _⟩
            · exact s1
            · rw [hc] at hno; cases hno
          have hpay : subscribePayload ((t, q) :: fs) = (Spec.str t ++ [qb]) ++ subscribePayload fs := by
            rw [hqb]; simp [subscribePayload]
          refine ⟨hc, (t, q) :: fs, t', q', r', ?_, hf', hq', ?_, ?_, ?_⟩
          · intro f hf
            rcases List.mem_cons.mp hf with rfl | hf
            · exact f1
            · exact hfs f hf
          · rw [(t1.trans t2).bytes, hb, hpay]
            simp only [List.append_assoc]
          · rw [hpay, List.length_append, hlen]; omega
          · rw [hpay, List.append_assoc, List.length_append, hlen]
            omega
    · simp at h

theorem subscribeLoop_panics_of {pr : Profile} (hc : pr.overflowChecks = true) (fs : List (String × QoS)) (hfs : ∀ f ∈ fs, Spec.Fits f.1)
    {t : String} (ht : Spec.Fits t) {q : UInt8} (hq : q.toNat ≤ 2) (r' : List UInt8) (fin : Ending) {rl : Nat}
    (h1 : (subscribePayload fs).length < rl) (h2 : rl < (subscribePayload fs ++ (Spec.str t ++ [q])).length) {fuel : Nat}
    (hfuel : fs.length < fuel) (acc : List Subscription) :
    (subscribeLoop pr fuel rl acc (⟨subscribePayload fs ++ (Spec.str t ++ [q]) ++ r', fin⟩ : Plain)).1 = .panic := by
  have lens := SourceLaws.length_str
  induction fs generalizing rl fuel acc with
  | nil =>
    obtain ⟨fuel, rfl⟩ : ∃ k, fuel = k + 1 := ⟨fuel - 1, by simp at hfuel; omega⟩
    simp only [subscribePayload, List.flatMap_nil, List.nil_append, List.length_append, List.length_nil, List.length_cons] at h1 h2 ⊢
    rw [lens] at h2
    rw [subscribeLoop, if_pos h1, List.append_assoc, M.bind_ok (getString_run ht _ fin),
      M.bind_ok (PReads.run (Plain.laws.readU8 q) r' fin), if_neg (by rw [gt_two_iff]; omega), M.bind_panic (sub_checked hc (by omega) _)]
  | cons f fs ih =>
    obtain ⟨fuel, rfl⟩ : ∃ k, fuel = k + 1 := ⟨fuel - 1, by simp at hfuel; omega⟩
    obtain ⟨f, g⟩ := f
    have hpay : subscribePayload ((f, g) :: fs) = Spec.str f ++ ([Spec.byte (Spec.qosNum g)] ++ subscribePayload fs) := by
      simp [subscribePayload]
    have hg := SourceLaws.qos_table g
    rw [hpay] at h1 h2 ⊢
    simp only [List.length_append, lens, List.length_cons, List.length_nil] at h1 h2
    rw [subscribeLoop, if_pos (by omega)]
    simp only [List.append_assoc]
    rw [M.bind_ok (getString_run (hfs _ List.mem_cons_self) _ fin), M.bind_ok (PReads.run (Plain.laws.readU8 _) _ fin), if_neg hg.1,
      M.bind_ok (sub_fine pr (show strLen f + 3 ≤ rl by omega) _)]
    simp only [hg.2]
    have := ih (fun x hx => hfs x (List.mem_cons_of_mem _ hx)) (rl := rl - (strLen f + 3)) (by omega)
      (by simp only [List.length_append, lens, List.length_cons, List.length_nil]; omega) (fuel := fuel) (by simp at hfuel; omega)
      (acc ++ [{ topic := f, qos := g }])
    simpa using this

theorem unsubscribeLoop_panics {pr : Profile} {fuel rl : Nat} {acc : List String} {p p' : Plain}
    (h : unsubscribeLoop pr fuel rl acc p = (.panic, p')) :
    pr.overflowChecks = true ∧ ∃ (fs : List String) (t : String) (r' : List UInt8),
      (∀ f ∈ fs, Spec.Fits f) ∧ Spec.Fits t ∧ p.bytes = fs.flatMap Spec.str ++ Spec.str t ++ r'
      ∧ (fs.flatMap Spec.str).length < rl ∧ rl < (fs.flatMap Spec.str ++ Spec.str t).length := by
  induction fuel generalizing rl acc p with
  | zero => simp [unsubscribeLoop] at h
  | succ fuel ih =>
    unfold unsubscribeLoop at h
    split at h
    · next hpos =>
      rw [M.bind_eq_panic] at h
      rcases h with h | ⟨t, p₁, h1, h⟩
      · exact absurd h getString_ne_panic
      obtain ⟨t1, f1⟩ := getString_took h1
      have hlen := SourceLaws.length_str t
      rw [M.bind_eq_panic] at h
      rcases h with h | ⟨n₁, p₃, h3, h⟩
      · have := subU64_panic h
        refine ⟨this.2, [], t, p₁.bytes, by simp, f1, ?_, hpos, ?_⟩
        · simpa using t1.bytes
        · simp only [List.flatMap_nil, List.nil_append]
          omega
      obtain ⟨rfl, s1⟩ := subU64_ok h3
      obtain ⟨hc, fs, t', r', hfs, hf', hb, hl1, hl2⟩ := ih h
      have hn₁ : strLen t + 2 ≤ rl ∧ n₁ = rl - (strLen t + 2) := by
        rcases s1 with s1 | ⟨_, hno, _⟩
        · exact s1
        · rw [hc] at hno; cases hno
      refine ⟨hc, t :: fs, t', r', ?_, hf', ?_, ?_, ?_⟩
      · intro f hf
        rcases List.mem_cons.mp hf with rfl | hf
        · exact f1
        · exact hfs f hf
      · rw [t1.bytes, hb, List.flatMap_cons]
        simp only [List.append_assoc]
      · rw [List.flatMap_cons, List.length_append, hlen]; omega
      · rw [List.flatMap_cons, List.append_assoc, List.length_append, hlen]
        omega
    · simp at h

theorem unsubscribeLoop_panics_of {pr : Profile} (hc : pr.overflowChecks = true) (fs : List String) (hfs : ∀ f ∈ fs, Spec.Fits f)
    {t : String} (ht : Spec.Fits t) (r' : List UInt8) (fin : Ending) {rl : Nat}
    (h1 : (fs.flatMap Spec.str).length < rl) (h2 : rl < (fs.flatMap Spec.str ++ Spec.str t).length) {fuel : Nat}
    (hfuel : fs.length < fuel) (acc : List String) :
    (unsubscribeLoop pr fuel rl acc (⟨fs.flatMap Spec.str ++ Spec.str t ++ r', fin⟩ : Plain)).1 = .panic := by
  have lens := SourceLaws.length_str
  induction fs generalizing rl fuel acc with
  | nil =>
    obtain ⟨fuel, rfl⟩ : ∃ k, fuel = k + 1 := ⟨fuel - 1, by simp at hfuel; omega⟩
    simp only [List.flatMap_nil, List.nil_append, List.length_nil] at h1 h2 ⊢
    rw [lens] at h2
    rw [unsubscribeLoop, if_pos h1, M.bind_ok (getString_run ht _ fin), M.bind_panic (sub_checked hc (by omega) _)]
  | cons f fs ih =>
    obtain ⟨fuel, rfl⟩ : ∃ k, fuel = k + 1 := ⟨fuel - 1, by simp at hfuel; omega⟩
    rw [List.flatMap_cons] at h1 h2 ⊢
    simp only [List.length_append, lens] at h1 h2
    rw [unsubscribeLoop, if_pos (by omega)]
    simp only [List.append_assoc]
    rw [M.bind_ok (getString_run (hfs _ List.mem_cons_self) _ fin), M.bind_ok (sub_fine pr (by omega) _)]
    have := ih (fun x hx => hfs x (List.mem_cons_of_mem _ hx)) (rl := rl - (strLen f + 2)) (by omega)
      (by simp only [List.length_append, lens]; omega) (fuel := fuel) (by simp at hfuel; omega) (acc ++ [f])
    simpa using this

end Ratel
