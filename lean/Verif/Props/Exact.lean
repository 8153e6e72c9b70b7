/-
Exact forms of earlier properties.
-/
import Verif.Proofs.Malformed
import Verif.Proofs.Steady
import Verif.Props.Language

namespace Ratel

open Decoder Spec

/-- The body of the packet makes the decoder panic. -/
theorem body_panics {pr : Profile} {first : UInt8} {n : Nat} (hn : n < 2 ^ 32) (r : List UInt8) (fin : Ending) :
    (decodeBody pr first n (⟨r, fin⟩ : Plain)).1 = .panic ↔ Panics pr.overflowChecks first n r := by
  have lens := SourceLaws.length_str
  constructor
  · intro h
    rcases hd : decodeBody pr first n (⟨r, fin⟩ : Plain) with ⟨res, p'⟩
    rw [hd] at h
    cases h
    have h := hd
    unfold decodeBody at h
    split at h
    · exact absurd h connect_ne_panic
    split at h
    · rename_i ht
      have ht := type_eq ht
      rcases publish_panics hn h with h | ⟨h0, h⟩ | ⟨h0, h⟩
      · exact .inr (.inl ⟨ht, h⟩)
      · exact .inr (.inr (.inl ⟨ht, h0, h⟩))
      · exact .inr (.inr (.inr (.inl ⟨ht, h0, h⟩)))
    split at h
    · exact absurd h packetIdThen_ne_panic
    split at h
    · exact absurd h packetIdThen_ne_panic
    split at h
    · exact absurd h packetIdThen_ne_panic
    split at h
    · exact absurd h packetIdThen_ne_panic
    split at h
    · refine .inr (.inr (.inr (.inr (.inl ?_))))
      unfold decodeSubscribe at h
      rw [M.bind_eq_panic] at h
      rcases h with h | ⟨i, p₁, h1, h⟩
      · exact absurd h packetId_ne_panic
      obtain ⟨rfl, t1⟩ := packetId_took h1
      have hr : r = twoBytes i.toNat ++ p₁.bytes := t1.bytes
      have h2 : (twoBytes i.toNat).length = 2 := rfl
      rw [M.bind_eq_panic] at h
      rcases h with h | ⟨n₁, p₃, h3, h⟩
      · have := subU64_panic h
        exact ⟨rfl, this.2, .inl ⟨this.1, by rw [hr, List.length_append]; omega⟩⟩
      obtain ⟨rfl, s1⟩ := subU64_ok h3
      split at h
      · simp at h
      · replace h := M.bind_eq_panic.mp h
        rcases h with h | ⟨_, _, _, h⟩
        · obtain ⟨hc, fs, t, q, r', hfs, hf, hq, hb, hl1, hl2⟩ := subscribeLoop_panics h
          have hn₁ : 2 ≤ n ∧ n₁ = n - 2 := by
            rcases s1 with s1 | ⟨_, hno, _⟩
            · exact s1
            · rw [hc] at hno; cases hno
          refine ⟨rfl, hc, .inr ⟨i, fs, t, q, r', hfs, hf, hq, ?_, ?_, ?_⟩⟩
          · rw [hr, hb]
            simp only [clientRest, subscribePayload, List.append_assoc]
          · show (twoBytes i.toNat ++ subscribePayload fs).length < n
            rw [List.length_append]; omega
          · show n < (twoBytes i.toNat ++ subscribePayload fs ++ (str t ++ [q])).length
            rw [List.append_assoc, List.length_append]; omega
        · simp at h
    split at h
    · refine .inr (.inr (.inr (.inr (.inr ?_))))
      unfold decodeUnsubscribe at h
      rw [M.bind_eq_panic] at h
      rcases h with h | ⟨i, p₁, h1, h⟩
      · exact absurd h packetId_ne_panic
      obtain ⟨rfl, t1⟩ := packetId_took h1
      have hr : r = twoBytes i.toNat ++ p₁.bytes := t1.bytes
      have h2 : (twoBytes i.toNat).length = 2 := rfl
      rw [M.bind_eq_panic] at h
      rcases h with h | ⟨n₁, p₃, h3, h⟩
      · have := subU64_panic h
        exact ⟨rfl, this.2, .inl ⟨this.1, by rw [hr, List.length_append]; omega⟩⟩
      obtain ⟨rfl, s1⟩ := subU64_ok h3
      split at h
      · simp at h
      · replace h := M.bind_eq_panic.mp h
        rcases h with h | ⟨_, _, _, h⟩
        · obtain ⟨hc, fs, t, r', hfs, hf, hb, hl1, hl2⟩ := unsubscribeLoop_panics h
          have hn₁ : 2 ≤ n ∧ n₁ = n - 2 := by
            rcases s1 with s1 | ⟨_, hno, _⟩
            · exact s1
            · rw [hc] at hno; cases hno
          refine ⟨rfl, hc, .inr ⟨i, fs, t, r', hfs, hf, ?_, ?_, ?_⟩⟩
          · rw [hr, hb]
            simp only [clientRest, List.append_assoc]
          · show (twoBytes i.toNat ++ fs.flatMap str).length < n
            rw [List.length_append]; omega
          · show n < (twoBytes i.toNat ++ fs.flatMap str ++ str t).length
            rw [List.append_assoc, List.length_append]; omega
        · simp at h
    split at h
    · simp at h
    split at h
    · simp at h
    · rename_i h1 h2 h3 h4 h5 h6 h7 h8 h9 h10
      left
      have hlt := first.toNat_lt
      have e : ∀ k : UInt8, ¬ first >>> 4 = k → first.toNat / 16 ≠ k.toNat := by
        intro k hk he
        rw [← (first_table first).1] at he
        exact hk (UInt8.toNat_inj.mp he)
      have e1 := e _ h1
      have e2 := e _ h2
      have e3 := e _ h3
      have e4 := e _ h4
      have e5 := e _ h5
      have e6 := e _ h6
      have e7 := e _ h7
      have e8 := e _ h8
      have e9 := e _ h9
      have e10 := e _ h10
      simp only [packetTypeConnect, packetTypePublish, packetTypePubAck, packetTypePubRec, packetTypePubRel, packetTypePubComp,
        packetTypeSubscribe, packetTypeUnsubscribe, packetTypePingReq, packetTypeDisconnect, UInt8.reduceToNat] at e1 e2 e3 e4 e5 e6 e7 e8 e9 e10
      simp only [List.mem_cons, List.not_mem_nil, or_false]
      omega
  · have hk : ∀ k : UInt8, first.toNat / 16 = k.toNat → first >>> 4 = k :=
      fun k h => UInt8.toNat_inj.mp ((first_table first).1.trans h)
    have hpub : first.toNat / 16 = 3 → decodeBody (σ := Plain) pr first n = decodePublish pr first n := by
      intro h
      unfold decodeBody
      rw [hk 3 h]
      rfl
    rintro (h | ⟨ht, h⟩ | ⟨ht, h⟩ | ⟨ht, h⟩ | ⟨hf, hc, h⟩ | ⟨hf, hc, h⟩)
    · simp only [List.mem_cons, List.not_mem_nil, or_false] at h
      unfold decodeBody
      rcases h with h | h | h | h | h | h
      · rw [hk 0 h]; rfl
      · rw [hk 2 h]; rfl
      · rw [hk 9 h]; rfl
      · rw [hk 11 h]; rfl
      · rw [hk 13 h]; rfl
      · rw [hk 15 h]; rfl
    · rw [hpub ht]
      exact publish_panics_of hn fin (.inl h)
    · rw [hpub ht]
      exact publish_panics_of hn fin (.inr (.inl h))
    · rw [hpub ht]
      exact publish_panics_of hn fin (.inr (.inr h))
    · obtain rfl : first = 0x82 := UInt8.toNat_inj.mp hf
      rw [show decodeBody (σ := Plain) pr 0x82 n = decodeSubscribe pr 0x82 n from rfl]
      unfold decodeSubscribe
      rcases h with ⟨hn2, hr⟩ | ⟨i, fs, t, q, r', hfs, ht, hq, rfl, hl1, hl2⟩
      · match r, hr with
        | x :: y :: r, _ =>
          have h16 : decodePacketWithPacketId 0x82 0x82 (⟨x :: y :: r, fin⟩ : Plain) = (.ok (u16OfBytes x y), ⟨r, fin⟩) := rfl
          rw [M.bind_ok h16, M.bind_panic (sub_checked hc hn2 _)]
      · have e : clientRest (.subscribe i fs) = twoBytes i.toNat ++ subscribePayload fs := rfl
        have h2 : (twoBytes i.toNat).length = 2 := rfl
        rw [e] at hl1 hl2 ⊢
        rw [List.append_assoc, List.length_append] at hl2
        rw [List.length_append] at hl1
        simp only [List.append_assoc]
        rw [M.bind_ok (PReads.run (Plain.laws.readPacketId _ i) _ fin), M.bind_ok (sub_fine pr (show 2 ≤ n by omega) _),
          if_neg (show ¬ n - 2 = 0 by omega)]
        have hloop := subscribeLoop_panics_of hc fs hfs ht hq r' fin (rl := n - 2) (by omega) (by omega)
          (fuel := (subscribePayload fs ++ (str t ++ [q]) ++ r').length + 1)
          (by have := SourceLaws.length_le_flatMap (fun (x : String × QoS) => str x.1 ++ [byte (qosNum x.2)]) (fun a => by simp) fs
              have e2 : (fs.flatMap fun (x : String × QoS) => str x.1 ++ [byte (qosNum x.2)]) = subscribePayload fs := rfl
              rw [e2] at this
              simp only [List.length_append]; omega) []
        simp only [List.append_assoc] at hloop
        rcases hrun : subscribeLoop pr ((subscribePayload fs ++ (str t ++ ([q] ++ r'))).length + 1) (n - 2) []
          (⟨subscribePayload fs ++ (str t ++ ([q] ++ r')), fin⟩ : Plain) with ⟨res, p'⟩
        rw [hrun] at hloop
        cases hloop
        exact congrArg Prod.fst (M.bind_panic (m := fun s => subscribeLoop pr (ByteSource.avail s + 1) (n - 2) [] s) hrun)
    · obtain rfl : first = 0xA2 := UInt8.toNat_inj.mp hf
      rw [show decodeBody (σ := Plain) pr 0xA2 n = decodeUnsubscribe pr 0xA2 n from rfl]
      unfold decodeUnsubscribe
      rcases h with ⟨hn2, hr⟩ | ⟨i, fs, t, r', hfs, ht, rfl, hl1, hl2⟩
      · match r, hr with
        | x :: y :: r, _ =>
          have h16 : decodePacketWithPacketId 0xA2 0xA2 (⟨x :: y :: r, fin⟩ : Plain) = (.ok (u16OfBytes x y), ⟨r, fin⟩) := rfl
          rw [M.bind_ok h16, M.bind_panic (sub_checked hc hn2 _)]
      · have e : clientRest (.unsubscribe i fs) = twoBytes i.toNat ++ fs.flatMap str := rfl
        have h2 : (twoBytes i.toNat).length = 2 := rfl
        rw [e] at hl1 hl2 ⊢
        rw [List.append_assoc, List.length_append] at hl2
        rw [List.length_append] at hl1
        simp only [List.append_assoc]
        rw [M.bind_ok (PReads.run (Plain.laws.readPacketId _ i) _ fin), M.bind_ok (sub_fine pr (show 2 ≤ n by omega) _),
          if_neg (show ¬ n - 2 = 0 by omega)]
        have hloop := unsubscribeLoop_panics_of hc fs hfs ht r' fin (rl := n - 2) (by omega) (by omega)
          (fuel := (fs.flatMap str ++ str t ++ r').length + 1)
          (by have := SourceLaws.length_le_flatMap str (fun a => by rw [lens]; omega) fs
              simp only [List.length_append]; omega) []
        simp only [List.append_assoc] at hloop
        rcases hrun : unsubscribeLoop pr ((fs.flatMap str ++ (str t ++ r')).length + 1) (n - 2) []
          (⟨fs.flatMap str ++ (str t ++ r'), fin⟩ : Plain) with ⟨res, p'⟩
        rw [hrun] at hloop
        cases hloop
        exact congrArg Prod.fst (M.bind_panic (m := fun s => unsubscribeLoop pr (ByteSource.avail s + 1) (n - 2) [] s) hrun)

/-- C11, exactly: the decoder panics if and only if the bytes are a first byte, a length field of at most three bytes, and contents as
listed in `Spec.Panics`. -/
theorem C11_panics_iff (pr : Profile) (bytes : List UInt8) (fin : Ending) :
    (decoded pr bytes fin).1 = .panic ↔
      ∃ first lf n r, bytes = first :: lf ++ r ∧ LengthField lf n ∧ lf.length ≤ 3 ∧ Panics pr.overflowChecks first n r := by
  constructor
  · intro h
    rcases hd : decoded pr bytes fin with ⟨res, p'⟩
    have hd' := hd
    rw [hd] at h
    cases h
    obtain ⟨first, lf, n, r, h1, h2, h3, _⟩ := readPacket_panic hd
    have hb : bytes = first :: lf ++ r := h1
    refine ⟨first, lf, n, r, hb, h2, h3, ?_⟩
    have hn := SourceLaws.lengthField_small h2 h3
    rw [← body_panics (by omega) r fin]
    rw [hb] at hd'
    unfold decoded at hd'
    rw [readPacket_header pr first lf n h2 h3] at hd'
    rw [hd']
  · rintro ⟨first, lf, n, r, rfl, h2, h3, hp⟩
    have hn := SourceLaws.lengthField_small h2 h3
    unfold decoded
    rw [readPacket_header pr first lf n h2 h3, body_panics (by omega) r fin]
    exact hp

-- A SUBSCRIBE that ends within its second entry, in a build with overflow checks.
example : (decoded ⟨true⟩ [0x82, 8, 0, 1, 0, 1, 0x61, 0, 0, 1, 0x62, 0, 7] .silence).1 = .panic := by
  refine (C11_panics_iff _ _ _).mpr ⟨0x82, [8], 8, [0, 1, 0, 1, 0x61, 0, 0, 1, 0x62, 0, 7], rfl, .last 8 (by decide), by decide, ?_⟩
  refine .inr (.inr (.inr (.inr (.inl ⟨rfl, rfl, .inr ⟨1, [("a", .atMostOnce)], "b", 0, [7], ?_, ?_, by decide, ?_, ?_, ?_⟩⟩))))
  · intro f hf
    cases List.mem_singleton.mp hf
    unfold Fits; decide +kernel
  · unfold Fits; decide +kernel
  · decide +kernel
  · decide +kernel
  · decide +kernel

/-! ### The fates of bytes -/

/-- What the decoder does with bytes that have this fate, if nothing follows them for the time being. -/
def fateResult : Fate → Res ControlPacket
  | .packet p _ => .ok p
  | .malformed => .err .invalidData
  | .crash => .panic
  | .waits => .pending

/-- C10, exactly: the decoder finds bytes malformed if and only if they are listed in `Spec.HasFate`. -/
theorem C10_malformed_iff (pr : Profile) (bytes : List UInt8) (fin : Ending) :
    (decoded pr bytes fin).1 = .err .invalidData ↔ HasFate pr.overflowChecks bytes .malformed := by
  constructor
  · intro h
    unfold decoded readPacket at h
    rcases (refuses_bind _ _ _).mp h with h | ⟨first, ⟨r, fin'⟩, h1, hd₀⟩
    · exact absurd h (refuses_u8 _)
    obtain ⟨rfl, hfin⟩ := u8_iff.mp h1
    change fin' = fin at hfin
    subst fin'
    rcases decodeLength_cases r fin with ⟨lf, n, r', rfl, hlf, _, hl, hd⟩ | ⟨b₀, b₁, b₂, b₃, r', rfl, h0, h1, h2, hd⟩ | ⟨_, _, hd⟩
    · rcases (refuses_bind _ _ _).mp hd₀ with h | ⟨n', p', hd', h⟩
      · unfold Refuses at h; rw [hd] at h; cases h
      · rw [hd] at hd'
        cases hd'
        have hn := SourceLaws.lengthField_small hlf hl
        exact .inr ⟨first, lf, n, r', rfl, hlf, hl, (refuses_body pr first n (by omega) r' fin).mp h⟩
    · exact .inl ⟨first, b₀, b₁, b₂, b₃, r', rfl, h0, h1, h2⟩
    · rcases (refuses_bind _ _ _).mp hd₀ with h | ⟨n', p', hd', h⟩
      · unfold Refuses at h; rw [hd] at h; exact absurd h (refuses_short _)
      · rw [hd] at hd'; exact absurd hd' short_ne_ok
  · rintro (⟨first, b₀, b₁, b₂, b₃, r, rfl, h0, h1, h2⟩ | ⟨first, lf, n, r, rfl, hlf, hl, h⟩)
    · unfold decoded readPacket
      refine (refuses_bind _ _ _).mpr (.inr ⟨first, ⟨_, fin⟩, rfl, (refuses_bind _ _ _).mpr (.inl ?_)⟩)
      rcases decodeLength_cases (b₀ :: b₁ :: b₂ :: b₃ :: r) fin with ⟨lf, n, r', hb, hlf, _, hl, hd⟩ | ⟨_, _, _, _, _, _, _, _, _, hd⟩ | ⟨hl, _⟩
      · exfalso
        cases hlf with
        | last b h => cases hb; omega
        | more b bs n h hbs =>
          cases hbs with
          | last b h => cases hb; omega
          | more b bs n h hbs =>
            cases hbs with
            | last b h => cases hb; omega
            | more b bs n h hbs =>
              cases hbs <;> simp at hl
      · unfold Refuses; rw [hd]
      · simp at hl
    · have hn := SourceLaws.lengthField_small hlf hl
      unfold decoded
      rw [readPacket_header pr first lf n hlf hl]
      exact (refuses_body pr first n (by omega) r fin).mpr h

theorem fate_of_kind (pr : Profile) (bytes : List UInt8) :
    (∃ p, (decoded pr bytes .silence).1 = .ok p) ∨ (decoded pr bytes .silence).1 = .err .invalidData
      ∨ (decoded pr bytes .silence).1 = .panic ∨ (decoded pr bytes .silence).1 = .pending := by
  have h := (Agree.readPacket (more := []) (fin := .silence) pr bytes).kind
  unfold decoded
  rcases h with h | h
  · exact .inr (.inr (.inr h))
  · rcases hr : readPacket pr (⟨bytes, .silence⟩ : Plain) with ⟨r, p'⟩
    rw [hr] at h
    cases h with
    | ok a => exact .inl ⟨a, rfl⟩
    | malformed => exact .inr (.inl rfl)
    | panic => exact .inr (.inr (.inl rfl))

/-- C132. Whatever bytes a client sends have exactly one fate, and the decoder acts accordingly. -/
theorem C132_fate (pr : Profile) (bytes : List UInt8) (hb : pr.overflowChecks = true ∨ bytes.length < 2 ^ 64) :
    ∃ f, HasFate pr.overflowChecks bytes f ∧ (∀ f', HasFate pr.overflowChecks bytes f' → f' = f)
      ∧ (decoded pr bytes .silence).1 = fateResult f
      ∧ (∀ p rest, f = .packet p rest → (decoded pr bytes .silence).2.bytes = rest) := by
  have hok : ∀ p rest, decoded pr bytes .silence = (.ok p, ⟨rest, .silence⟩) ↔ HasFate pr.overflowChecks bytes (.packet p rest) := by
    intro p rest
    have := C10_language pr bytes .silence p rest .silence hb
    simp only [true_and] at this
    exact this
  have hbad := C10_malformed_iff pr bytes .silence
  have hpan : (decoded pr bytes .silence).1 = .panic ↔ HasFate pr.overflowChecks bytes .crash := C11_panics_iff pr bytes .silence
  have hsil := (Agree.readPacket (more := []) (fin := .silence) pr bytes).silent
  have hwait : (decoded pr bytes .silence).1 = .pending ↔ HasFate pr.overflowChecks bytes .waits := by
    constructor
    · intro h
      refine ⟨fun p rest hp => ?_, fun hm => ?_, ?_⟩
      · have := (hok p rest).mpr hp
        rw [this] at h; cases h
      · have := hbad.mpr (.inl hm)
        rw [this] at h; cases h
      · rintro ⟨first, lf, n, r, h1, h2, h3, h4 | h4⟩
        · have := hbad.mpr (.inr ⟨first, lf, n, r, h1, h2, h3, h4⟩)
          rw [this] at h; cases h
        · have := hpan.mpr ⟨first, lf, n, r, h1, h2, h3, h4⟩
          rw [this] at h; cases h
    · rintro ⟨h1, h2, h3⟩
      rcases fate_of_kind pr bytes with ⟨p, h⟩ | h | h | h
      · rcases hd : decoded pr bytes .silence with ⟨r, rest, fin⟩
        have hd' : readPacket pr (⟨bytes, .silence⟩ : Plain) = (r, ⟨rest, fin⟩) := hd
        rw [hd] at h
        rw [hd'] at hsil
        cases h
        cases hsil
        exact absurd ((hok p rest).mp hd) (h1 p rest)
      · rcases hbad.mp h with h | ⟨first, lf, n, r, k1, k2, k3, k4⟩
        · exact absurd h h2
        · exact absurd ⟨first, lf, n, r, k1, k2, k3, .inl k4⟩ h3
      · obtain ⟨first, lf, n, r, k1, k2, k3, k4⟩ := hpan.mp h
        exact absurd ⟨first, lf, n, r, k1, k2, k3, .inr k4⟩ h3
      · exact h
  have hres : ∀ f, HasFate pr.overflowChecks bytes f → (decoded pr bytes .silence).1 = fateResult f := by
    intro f hf
    cases f with
    | packet p rest => rw [(hok p rest).mpr hf]; rfl
    | malformed => exact hbad.mpr hf
    | crash => exact hpan.mpr hf
    | waits => exact hwait.mpr hf
  have huniq : ∀ f f', HasFate pr.overflowChecks bytes f → HasFate pr.overflowChecks bytes f' → f' = f := by
    intro f f' hf hf'
    have e := (hres f hf).symm.trans (hres f' hf')
    cases f <;> cases f' <;> first | rfl | (cases e; done) | skip
    next p rest p' rest' =>
      have h1 := (hok p rest).mpr hf
      have h2 := (hok p' rest').mpr hf'
      rw [h1] at h2
      cases h2
      rfl
  rcases fate_of_kind pr bytes with ⟨p, h⟩ | h | h | h
  · rcases hd : decoded pr bytes .silence with ⟨r, rest, fin⟩
    have hd' : readPacket pr (⟨bytes, .silence⟩ : Plain) = (r, ⟨rest, fin⟩) := hd
    rw [hd] at h
    rw [hd'] at hsil
    cases h
    cases hsil
    have hf := (hok p rest).mp hd
    exact ⟨_, hf, fun f' => huniq _ f' hf, rfl, fun p' rest' he => by cases he; rfl⟩
  · have hf := hbad.mp h
    exact ⟨_, hf, fun f' => huniq _ f' hf, h, fun p' rest' he => by cases he⟩
  · have hf := hpan.mp h
    exact ⟨_, hf, fun f' => huniq _ f' hf, h, fun p' rest' he => by cases he⟩
  · have hf := hwait.mp h
    exact ⟨_, hf, fun f' => huniq _ f' hf, h, fun p' rest' he => by cases he⟩

/-- C132. Once the fate of the bytes is known, whatever comes after them does not change it, nor the way the connection ends; and the
bytes that come after are left as they are. -/
theorem C132_final (pr : Profile) (bytes more : List UInt8) (fin : Ending) (h : (decoded pr bytes .silence).1 ≠ .pending) :
    decoded pr (bytes ++ more) fin = ((decoded pr bytes .silence).1, ⟨(decoded pr bytes .silence).2.bytes ++ more, fin⟩) := by
  have := Agree.readPacket (more := more) (fin := fin) pr bytes
  exact this.keeps (this.kind.resolve_left h)

/-- C132. While it is not known, the end of the connection is reported as such, and a failure as such. -/
theorem C132_end (pr : Profile) (bytes : List UInt8) (h : (decoded pr bytes .silence).1 = .pending) :
    (decoded pr bytes .eof).1 = .err .connectionReset ∧ (decoded pr bytes .ioError).1 = .err .other :=
  ⟨(Agree.readPacket (more := []) (fin := .eof) pr bytes).ends h rfl, (Agree.readPacket (more := []) (fin := .ioError) pr bytes).ends h rfl⟩

-- A SUBSCRIBE of which the last byte, the QoS, is still missing; then it comes, and is 3.
example : (decoded ⟨false⟩ [0x82, 6, 0, 1, 0, 1, 0x61] .silence).1 = .pending
    ∧ HasFate false [0x82, 6, 0, 1, 0, 1, 0x61, 3] .malformed := by
  refine ⟨by decide +kernel, .inr ⟨0x82, [6], 6, [0, 1, 0, 1, 0x61, 3], rfl, .last 6 (by decide), by decide, ?_⟩⟩
  refine .inr (.inr (.inr (.inr (.inl ⟨rfl, 1, [], [0, 1, 0x61, 3], by simp, rfl, ?_, .inr ⟨"a", 3, [], ?_, by decide, ?_⟩⟩))))
  · intro gs hg
    rw [List.prefix_nil.mp hg]
    unfold GoesOn
    decide
  · unfold Fits; decide +kernel
  · decide +kernel

end Ratel
