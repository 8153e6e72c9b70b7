/-
When the decoder finds a packet malformed, exactly.
-/
import Verif.Proofs.Panics

namespace Ratel

open Decoder

/-- The reader finds the bytes malformed. -/
def Refuses {α : Type} (m : M Plain α) (p : Plain) : Prop := (m p).1 = .err .invalidData

theorem refuses_bind {α β : Type} (m : M Plain α) (f : α → M Plain β) (p : Plain) :
    Refuses (m >>= f) p ↔ Refuses m p ∨ ∃ a p', m p = (.ok a, p') ∧ Refuses (f a) p' := by
  unfold Refuses
  rcases h : m p with ⟨res, p'⟩
  cases res with
  | ok a =>
    rw [M.bind_ok h]
    refine ⟨fun hf => .inr ⟨a, p', rfl, hf⟩, ?_⟩
    rintro (hf | ⟨_, _, he, hf⟩)
    · cases hf
    · cases he; exact hf
  | err e => rw [M.bind_err h]; simp
  | panic => rw [M.bind_panic h]; simp
  | hang => rw [M.bind_hang h]; simp
  | pending => rw [M.bind_pending h]; simp

theorem refuses_pure {α : Type} (a : α) (p : Plain) : ¬ Refuses (pure a : M Plain α) p := by
  intro h; cases h

theorem refuses_panic {α : Type} (p : Plain) : ¬ Refuses (M.panic : M Plain α) p := by
  intro h; cases h

theorem refuses_fail {α : Type} (p : Plain) : Refuses (M.fail .invalidData : M Plain α) p := rfl

theorem refuses_short {α : Type} (p : Plain) : (Plain.short p : Res α × Plain).1 ≠ .err .invalidData := by
  rcases short_cases (α := α) p with h | h | h <;> simp [h]

theorem refuses_u8 (p : Plain) : ¬ Refuses ByteSource.getU8 p := by
  rcases p with ⟨_ | ⟨b, r⟩, fin⟩
  · exact refuses_short _
  · intro h; cases h

theorem refuses_u16 (p : Plain) : ¬ Refuses ByteSource.getU16 p := by
  rcases p with ⟨_ | ⟨b, _ | ⟨c, r⟩⟩, fin⟩
  · exact refuses_short _
  · exact refuses_short _
  · intro h; cases h

theorem refuses_bytes (n : Nat) (p : Plain) : ¬ Refuses (ByteSource.getBytes n) p := by
  unfold Refuses
  simp only [ByteSource.getBytes]
  split
  · simp
  · split
    · simp
    · exact refuses_short _

theorem refuses_sub (pr : Profile) (a b : Nat) (p : Plain) : ¬ Refuses (subU64 pr a b) p := by
  unfold Refuses subU64
  split
  · simp
  · split <;> simp

theorem u8_iff {b : UInt8} {r : List UInt8} {fin : Ending} {p' : Plain} :
    (ByteSource.getU8 (⟨r, fin⟩ : Plain) = (.ok b, p')) ↔ r = b :: p'.bytes ∧ p'.fin = fin := by
  constructor
  · intro h
    have := getU8_took h
    exact ⟨this.bytes, this.fin⟩
  · rintro ⟨rfl, rfl⟩
    rfl

theorem u16_iff {i : UInt16} {r : List UInt8} {fin : Ending} {p' : Plain} :
    (ByteSource.getU16 (⟨r, fin⟩ : Plain) = (.ok i, p')) ↔ r = Spec.twoBytes i.toNat ++ p'.bytes ∧ p'.fin = fin := by
  constructor
  · intro h
    have := getU16_took h
    exact ⟨this.bytes, this.fin⟩
  · rintro ⟨rfl, rfl⟩
    exact PReads.run (Plain.laws.readU16 i) _ _

theorem string_iff {t : String} {r : List UInt8} {fin : Ending} {p' : Plain} :
    (getString (⟨r, fin⟩ : Plain) = (.ok t, p')) ↔ Spec.Fits t ∧ r = Spec.str t ++ p'.bytes ∧ p'.fin = fin := by
  constructor
  · intro h
    obtain ⟨h1, h2⟩ := getString_took h
    exact ⟨h2, h1.bytes, h1.fin⟩
  · rintro ⟨hf, rfl, rfl⟩
    exact getString_run hf _ _

theorem stringIf_iff {b : Bool} {o : Option String} {r : List UInt8} {fin : Ending} {p' : Plain} :
    (getStringIf b (⟨r, fin⟩ : Plain) = (.ok o, p')) ↔
      (∀ t ∈ o, Spec.Fits t) ∧ o.isSome = b ∧ r = Spec.optional Spec.str o ++ p'.bytes ∧ p'.fin = fin := by
  constructor
  · intro h
    obtain ⟨h1, h2, h3⟩ := getStringIf_took h
    exact ⟨h2, h3, h1.bytes, h1.fin⟩
  · rintro ⟨hf, rfl, rfl, rfl⟩
    exact PReads.run (Plain.laws.readStringIf o hf) _ _

theorem refuses_string (r : List UInt8) (fin : Ending) : Refuses getString (⟨r, fin⟩ : Plain) ↔ Spec.BadText r := by
  constructor
  · intro h
    unfold getString at h
    rw [refuses_bind] at h
    rcases h with h | ⟨n, p₁, h1, h⟩
    · exact absurd h (refuses_u16 _)
    rw [refuses_bind] at h
    rcases h with h | ⟨bs, p₂, h2, h⟩
    · exact absurd h (refuses_bytes _ _)
    have t1 : r = _ := (getU16_took h1).bytes
    obtain ⟨t2, hl, _⟩ := getBytes_took h2
    cases hu : fromUtf8 bs with
    | some s => simp only [hu] at h; exact absurd h (refuses_pure _ _)
    | none =>
      refine ⟨bs, p₂.bytes, by rw [hl]; exact n.toNat_lt, fun s hs => ?_, ?_⟩
      · have := fromUtf8_strBytes s
        rw [strBytes_eq, hs, hu] at this
        cases this
      · rw [t1, t2.bytes, hl, List.append_assoc]
  · rintro ⟨b, r', hl, hb, rfl⟩
    unfold Refuses
    rw [getString_bad b hl (fromUtf8_none hb)]

theorem refuses_stringIf (b : Bool) (r : List UInt8) (fin : Ending) :
    Refuses (getStringIf b) (⟨r, fin⟩ : Plain) ↔ b = true ∧ Spec.BadText r := by
  unfold getStringIf
  cases b with
  | false => simp only [Bool.false_eq_true, ↓reduceIte, false_and, iff_false]; exact refuses_pure _ _
  | true =>
    simp only [↓reduceIte, true_and]
    rw [refuses_bind, refuses_string]
    exact ⟨fun h => h.elim id fun ⟨_, _, _, h⟩ => absurd h (refuses_pure _ _), .inl⟩

/-! ### CONNECT -/

theorem refuses_connect (r : List UInt8) (fin : Ending) : Refuses decodeConnect (⟨r, fin⟩ : Plain) ↔ Spec.BadConnect r := by
  have tab := first_table
  constructor
  · intro h
    unfold decodeConnect at h
    rw [refuses_bind, refuses_string] at h
    rcases h with h | ⟨name, ⟨r₁, _⟩, h1, h⟩
    · exact .inl h
    obtain ⟨f1, rfl, rfl⟩ := string_iff.mp h1
    refine .inr ?_
    rw [refuses_bind] at h
    rcases h with h | ⟨level, ⟨r₂, _⟩, h2, h⟩
    · exact absurd h (refuses_u8 _)
    obtain ⟨rfl, rfl⟩ := u8_iff.mp h2
    rw [refuses_bind] at h
    rcases h with h | ⟨flags, ⟨r₃, _⟩, h3, h⟩
    · exact absurd h (refuses_u8 _)
    obtain ⟨rfl, rfl⟩ := u8_iff.mp h3
    simp only at h
    rw [refuses_bind] at h
    rcases h with h | ⟨keepAlive, ⟨r₄, _⟩, h4, h⟩
    · exact absurd h (refuses_u16 _)
    obtain ⟨rfl, rfl⟩ := u16_iff.mp h4
    refine ⟨name, level, flags, keepAlive, r₄, f1, by simp, ?_⟩
    rw [refuses_bind, refuses_string] at h
    rcases h with h | ⟨id, ⟨r₅, _⟩, h5, h⟩
    · exact .inl h
    obtain ⟨f5, rfl, rfl⟩ := string_iff.mp h5
    refine .inr ⟨id, r₅, f5, rfl, ?_⟩
    rw [refuses_bind, refuses_stringIf, (tab flags).2.2.1] at h
    rcases h with ⟨hu, h⟩ | ⟨user, ⟨r₆, _⟩, h6, h⟩
    · exact .inl ⟨by simpa using hu, h⟩
    obtain ⟨f6, s6, rfl, rfl⟩ := stringIf_iff.mp h6
    rw [refuses_bind, refuses_stringIf, (tab flags).2.2.2.1] at h
    rcases h with ⟨hp, h⟩ | ⟨_, _, _, h⟩
    · exact .inr ⟨by simpa using hp, user, r₆, f6, by rw [s6]; simp, rfl, h⟩
    · exact absurd h (refuses_pure _ _)
  · intro h
    unfold decodeConnect
    rw [refuses_bind, refuses_string]
    rcases h with h | ⟨name, level, flags, keepAlive, r₁, f1, rfl, h⟩
    · exact .inl h
    refine .inr ⟨name, ⟨level :: flags :: (Spec.twoBytes keepAlive.toNat ++ r₁), fin⟩, string_iff.mpr ⟨f1, by simp, rfl⟩, ?_⟩
    rw [refuses_bind]
    refine .inr ⟨level, ⟨flags :: (Spec.twoBytes keepAlive.toNat ++ r₁), fin⟩, u8_iff.mpr ⟨rfl, rfl⟩, ?_⟩
    rw [refuses_bind]
    refine .inr ⟨flags, ⟨Spec.twoBytes keepAlive.toNat ++ r₁, fin⟩, u8_iff.mpr ⟨rfl, rfl⟩, ?_⟩
    simp only
    rw [refuses_bind]
    refine .inr ⟨keepAlive, ⟨r₁, fin⟩, u16_iff.mpr ⟨rfl, rfl⟩, ?_⟩
    rw [refuses_bind, refuses_string]
    rcases h with h | ⟨id, r₂, f2, rfl, h⟩
    · exact .inl h
    refine .inr ⟨id, ⟨r₂, fin⟩, string_iff.mpr ⟨f2, rfl, rfl⟩, ?_⟩
    rw [refuses_bind, refuses_stringIf, (tab flags).2.2.1]
    rcases h with ⟨hu, h⟩ | ⟨hp, user, r₃, f3, s3, rfl, h⟩
    · exact .inl ⟨by simpa using hu, h⟩
    refine .inr ⟨user, ⟨r₃, fin⟩, stringIf_iff.mpr ⟨f3, ?_, rfl, rfl⟩, ?_⟩
    · rw [Bool.eq_iff_iff, s3]; simp
    rw [refuses_bind, refuses_stringIf, (tab flags).2.2.2.1]
    exact .inl ⟨by simpa using hp, h⟩

/-! ### PUBLISH -/

theorem refuses_publish (pr : Profile) (fb : UInt8) (n : Nat) (r : List UInt8) (fin : Ending) :
    Refuses (decodePublish pr fb n) (⟨r, fin⟩ : Plain) ↔ fb.toNat / 2 % 4 ≠ 3 ∧ Spec.BadText r := by
  have tab := (first_table fb).2.2.2.2.2.2
  unfold decodePublish
  cases hq : QoS.fromBits ((fb &&& 0b00000110) >>> 1) with
  | none =>
    have := fromBits_none hq
    have h3 : fb.toNat / 2 % 4 = 3 := by omega
    simp only [h3, ne_eq, not_true_eq_false, false_and, iff_false]
    exact refuses_panic _
  | some qos =>
    have hq' := fromBits_some hq
    rw [tab] at hq'
    have hn3 : fb.toNat / 2 % 4 ≠ 3 := by rw [hq']; cases qos <;> simp [Spec.qosNum]
    simp only [hn3, ne_eq, not_false_eq_true, true_and]
    rw [refuses_bind, refuses_string]
    refine ⟨fun h => h.elim id ?_, .inl⟩
    rintro ⟨t, p₁, _, h⟩
    exfalso
    rw [refuses_bind] at h
    rcases h with h | ⟨_, _, _, h⟩
    · exact refuses_sub _ _ _ _ h
    rw [refuses_bind] at h
    rcases h with h | ⟨_, _, _, h⟩
    · exact refuses_sub _ _ _ _ h
    rw [refuses_bind] at h
    rcases h with h | ⟨_, _, _, h⟩
    · unfold publishPacketId at h
      split at h
      · rw [refuses_bind] at h
        rcases h with h | ⟨_, _, _, h⟩
        · exact refuses_sub _ _ _ _ h
        rw [refuses_bind] at h
        rcases h with h | ⟨_, _, _, h⟩
        · exact refuses_u16 _ h
        · exact refuses_pure _ _ h
      · exact refuses_pure _ _ h
    rw [refuses_bind] at h
    rcases h with h | ⟨_, _, _, h⟩
    · exact refuses_bytes _ _ h
    · exact refuses_pure _ _ h

/-! ### SUBSCRIBE and UNSUBSCRIBE -/

theorem sub_iff {pr : Profile} {a b c : Nat} {p p' : Plain} (ha : a < 2 ^ 64) (hb : b < 2 ^ 64) :
    (subU64 pr a b p = (.ok c, p')) ↔ p' = p ∧ c = (a + 2 ^ 64 - b) % 2 ^ 64 ∧ (pr.overflowChecks = true → b ≤ a) := by
  constructor
  · intro h
    obtain ⟨rfl, h'⟩ := subU64_ok h
    refine ⟨rfl, ?_, fun hc => ?_⟩
    · rcases h' with ⟨h, h2⟩ | ⟨h, _, h2⟩ <;> omega
    · rcases h' with ⟨h, h2⟩ | ⟨h, hno, h2⟩
      · exact h
      · rw [hc] at hno; cases hno
  · rintro ⟨rfl, rfl, h⟩
    by_cases hab : b ≤ a
    · rw [sub_fine pr hab]
      congr 2
      omega
    · have hc : pr.overflowChecks = false := by
        cases hc : pr.overflowChecks with
        | false => rfl
        | true => exact absurd (h hc) hab
      rw [sub_wraps hc (by omega)]
      congr 2
      omega

/-- Going on, in terms of what is left to read. -/
def Left (checks : Bool) (rl l : Nat) : Prop := if checks then l < rl else l % 2 ^ 64 ≠ rl

theorem left_zero (checks : Bool) (rl : Nat) : Left checks rl 0 ↔ 0 < rl := by
  unfold Left
  cases checks <;> simp <;> omega

theorem left_add {checks : Bool} {rl k l : Nat} (hrl : rl < 2 ^ 64) (hk : k < 2 ^ 64) (hle : checks = true → k ≤ rl) :
    Left checks rl (k + l) ↔ Left checks ((rl + 2 ^ 64 - k) % 2 ^ 64) l := by
  unfold Left
  cases checks with
  | true =>
    have := hle rfl
    simp only [↓reduceIte]
    omega
  | false =>
    simp only [Bool.false_eq_true, ↓reduceIte]
    omega

theorem prefix_cons_all {α : Type} {P : List α → Prop} {a : α} {l : List α} :
    (∀ g, g <+: a :: l → P g) ↔ P [] ∧ ∀ g, g <+: l → P (a :: g) := by
  constructor
  · exact fun h => ⟨h [] (List.nil_prefix), fun g hg => h _ (List.cons_prefix_cons.mpr ⟨rfl, hg⟩)⟩
  · rintro ⟨h1, h2⟩ g hg
    cases g with
    | nil => exact h1
    | cons b g =>
      obtain ⟨rfl, hg'⟩ := List.cons_prefix_cons.mp hg
      exact h2 g hg'

theorem length_subscribePayload_cons (t : String) (q : QoS) (fs : List (String × QoS)) :
    (subscribePayload ((t, q) :: fs)).length = (strLen t + 3) + (subscribePayload fs).length := by
  have hpay : subscribePayload ((t, q) :: fs) = Spec.str t ++ ([Spec.byte (Spec.qosNum q)] ++ subscribePayload fs) := by
    simp [subscribePayload]
  rw [hpay, List.length_append, List.length_append, SourceLaws.length_str]
  simp
  omega

theorem refuses_subscribeLoop (pr : Profile) (fuel rl : Nat) (hrl : rl < 2 ^ 64) (acc : List Subscription) (r : List UInt8) (fin : Ending)
    (hfuel : r.length < fuel) :
    Refuses (subscribeLoop pr fuel rl acc) (⟨r, fin⟩ : Plain) ↔
      ∃ (fs : List (String × QoS)) (r' : List UInt8), (∀ f ∈ fs, Spec.Fits f.1) ∧ r = subscribePayload fs ++ r'
        ∧ (∀ gs, gs <+: fs → Left pr.overflowChecks rl (subscribePayload gs).length)
        ∧ (Spec.BadText r' ∨ ∃ t q r'', Spec.Fits t ∧ 2 < q.toNat ∧ r' = Spec.str t ++ q :: r'') := by
  have lens := SourceLaws.length_str
  induction fuel generalizing rl acc r with
  | zero => omega
  | succ fuel ih =>
    rw [subscribeLoop]
    by_cases hpos : rl > 0
    · rw [if_pos hpos]
      constructor
      · intro h
        rw [refuses_bind, refuses_string] at h
        rcases h with h | ⟨t, ⟨r₁, _⟩, h1, h⟩
        · exact ⟨[], r, by simp, rfl, fun gs hg => by rw [List.prefix_nil.mp hg]; exact (left_zero _ _).mpr hpos, .inl h⟩
        obtain ⟨f1, rfl, rfl⟩ := string_iff.mp h1
        have hfit : strLen t < 65536 := f1
        rw [refuses_bind] at h
        rcases h with h | ⟨qb, ⟨r₂, _⟩, h2, h⟩
        · exact absurd h (refuses_u8 _)
        obtain ⟨rfl, rfl⟩ := u8_iff.mp h2
        split at h
        · next hgt =>
          exact ⟨[], _, by simp, rfl, fun gs hg => by rw [List.prefix_nil.mp hg]; exact (left_zero _ _).mpr hpos,
            .inr ⟨t, qb, r₂, f1, (gt_two_iff qb).mp hgt, rfl⟩⟩
        · next hgt =>
          rw [refuses_bind] at h
          rcases h with h | ⟨n₁, ⟨r₃, _⟩, h3, h⟩
          · exact absurd h (refuses_sub _ _ _ _)
          obtain ⟨h3', rfl, hle⟩ := (sub_iff hrl (by omega)).mp h3
          cases h3'
          cases hq : QoS.fromBits qb with
          | none => exact absurd ((gt_two_iff qb).mpr (fromBits_none hq)) hgt
          | some q =>
            simp only [hq] at h
            have hqb : qb = Spec.byte (Spec.qosNum q) := SourceLaws.first_byte (fromBits_some hq)
            simp only [List.length_append, lens, List.length_cons] at hfuel
            obtain ⟨fs, r', hfs, rfl, hgo, hbad⟩ := (ih _ (by omega) _ _ (by omega)).mp h
            refine ⟨(t, q) :: fs, r', ?_, ?_, ?_, hbad⟩
            · intro f hf
              rcases List.mem_cons.mp hf with rfl | hf
              · exact f1
              · exact hfs f hf
            · rw [hqb]; simp [subscribePayload]
            · refine prefix_cons_all.mpr ⟨(left_zero _ _).mpr hpos, fun gs hg => ?_⟩
              rw [length_subscribePayload_cons, left_add hrl (by omega) hle]
              exact hgo gs hg
      · rintro ⟨fs, r', hfs, rfl, hgo, hbad⟩
        cases fs with
        | nil =>
          simp only [subscribePayload, List.flatMap_nil, List.nil_append]
          rw [refuses_bind, refuses_string]
          rcases hbad with h | ⟨t, q, r'', hf, hq, rfl⟩
          · exact .inl h
          · refine .inr ⟨t, ⟨q :: r'', fin⟩, string_iff.mpr ⟨hf, rfl, rfl⟩, ?_⟩
            rw [refuses_bind]
            refine .inr ⟨q, ⟨r'', fin⟩, u8_iff.mpr ⟨rfl, rfl⟩, ?_⟩
            rw [if_pos ((gt_two_iff q).mpr hq)]
            exact refuses_fail _
        | cons f fs =>
          obtain ⟨t, q⟩ := f
          have hf : Spec.Fits t := hfs _ List.mem_cons_self
          have hfit : strLen t < 65536 := hf
          have hg := SourceLaws.qos_table q
          have hpay : subscribePayload ((t, q) :: fs) ++ r' = Spec.str t ++ (Spec.byte (Spec.qosNum q) :: (subscribePayload fs ++ r')) := by
            simp [subscribePayload]
          obtain ⟨h0, hgo⟩ := prefix_cons_all.mp hgo
          rw [hpay] at hfuel ⊢
          simp only [List.length_append, lens, List.length_cons] at hfuel
          have hle : pr.overflowChecks = true → strLen t + 3 ≤ rl := by
            intro hc
            have := hgo [] List.nil_prefix
            rw [length_subscribePayload_cons, hc] at this
            unfold Left at this
            simp only [↓reduceIte] at this
            omega
          rw [refuses_bind]
          refine .inr ⟨t, ⟨Spec.byte (Spec.qosNum q) :: (subscribePayload fs ++ r'), fin⟩, string_iff.mpr ⟨hf, rfl, rfl⟩, ?_⟩
          rw [refuses_bind]
          refine .inr ⟨_, ⟨subscribePayload fs ++ r', fin⟩, u8_iff.mpr ⟨rfl, rfl⟩, ?_⟩
          rw [if_neg hg.1, refuses_bind]
          refine .inr ⟨_, _, (sub_iff hrl (by omega)).mpr ⟨rfl, rfl, hle⟩, ?_⟩
          simp only [hg.2]
          refine (ih _ (by omega) _ _ (by rw [List.length_append]; omega)).mpr
            ⟨fs, r', fun x hx => hfs x (List.mem_cons_of_mem _ hx), rfl, fun gs hgs => ?_, hbad⟩
          have := hgo gs hgs
          rwa [length_subscribePayload_cons, left_add hrl (by omega) hle] at this
    · rw [if_neg hpos]
      refine ⟨fun h => absurd h (refuses_pure _ _), ?_⟩
      rintro ⟨fs, r', hfs, rfl, hgo, hbad⟩
      have := hgo [] List.nil_prefix
      exact absurd ((left_zero _ _).mp this) hpos

theorem refuses_unsubscribeLoop (pr : Profile) (fuel rl : Nat) (hrl : rl < 2 ^ 64) (acc : List String) (r : List UInt8) (fin : Ending)
    (hfuel : r.length < fuel) :
    Refuses (unsubscribeLoop pr fuel rl acc) (⟨r, fin⟩ : Plain) ↔
      ∃ (fs : List String) (r' : List UInt8), (∀ f ∈ fs, Spec.Fits f) ∧ r = fs.flatMap Spec.str ++ r'
        ∧ (∀ gs, gs <+: fs → Left pr.overflowChecks rl (gs.flatMap Spec.str).length) ∧ Spec.BadText r' := by
  have lens := SourceLaws.length_str
  have cons_len : ∀ (t : String) (fs : List String), ((t :: fs).flatMap Spec.str).length = (strLen t + 2) + (fs.flatMap Spec.str).length := by
    intro t fs
    rw [List.flatMap_cons, List.length_append, lens]
  induction fuel generalizing rl acc r with
  | zero => omega
  | succ fuel ih =>
    rw [unsubscribeLoop]
    by_cases hpos : rl > 0
    · rw [if_pos hpos]
      constructor
      · intro h
        rw [refuses_bind, refuses_string] at h
        rcases h with h | ⟨t, ⟨r₁, _⟩, h1, h⟩
        · exact ⟨[], r, by simp, rfl, fun gs hg => by rw [List.prefix_nil.mp hg]; exact (left_zero _ _).mpr hpos, h⟩
        obtain ⟨f1, rfl, rfl⟩ := string_iff.mp h1
        have hfit : strLen t < 65536 := f1
        rw [refuses_bind] at h
        rcases h with h | ⟨n₁, ⟨r₃, _⟩, h3, h⟩
        · exact absurd h (refuses_sub _ _ _ _)
        obtain ⟨h3', rfl, hle⟩ := (sub_iff hrl (by omega)).mp h3
        cases h3'
        simp only [List.length_append, lens] at hfuel
        obtain ⟨fs, r', hfs, rfl, hgo, hbad⟩ := (ih _ (by omega) _ _ (by omega)).mp h
        refine ⟨t :: fs, r', ?_, ?_, ?_, hbad⟩
        · intro f hf
          rcases List.mem_cons.mp hf with rfl | hf
          · exact f1
          · exact hfs f hf
        · rw [List.flatMap_cons, List.append_assoc]
        · refine prefix_cons_all.mpr ⟨(left_zero _ _).mpr hpos, fun gs hg => ?_⟩
          rw [cons_len, left_add hrl (by omega) hle]
          exact hgo gs hg
      · rintro ⟨fs, r', hfs, rfl, hgo, hbad⟩
        cases fs with
        | nil =>
          simp only [List.flatMap_nil, List.nil_append]
          rw [refuses_bind, refuses_string]
          exact .inl hbad
        | cons t fs =>
          have hf : Spec.Fits t := hfs _ List.mem_cons_self
          have hfit : strLen t < 65536 := hf
          obtain ⟨h0, hgo⟩ := prefix_cons_all.mp hgo
          rw [List.flatMap_cons, List.append_assoc] at hfuel ⊢
          rw [List.length_append, lens] at hfuel
          have hle : pr.overflowChecks = true → strLen t + 2 ≤ rl := by
            intro hc
            have := hgo [] List.nil_prefix
            rw [cons_len, hc] at this
            unfold Left at this
            simp only [↓reduceIte] at this
            omega
          rw [refuses_bind]
          refine .inr ⟨t, ⟨fs.flatMap Spec.str ++ r', fin⟩, string_iff.mpr ⟨hf, rfl, rfl⟩, ?_⟩
          rw [refuses_bind]
          refine .inr ⟨_, _, (sub_iff hrl (by omega)).mpr ⟨rfl, rfl, hle⟩, ?_⟩
          refine (ih _ (by omega) _ _ (by omega)).mpr
            ⟨fs, r', fun x hx => hfs x (List.mem_cons_of_mem _ hx), rfl, fun gs hgs => ?_, hbad⟩
          have := hgo gs hgs
          rwa [cons_len, left_add hrl (by omega) hle] at this
    · rw [if_neg hpos]
      refine ⟨fun h => absurd h (refuses_pure _ _), ?_⟩
      rintro ⟨fs, r', hfs, rfl, hgo, hbad⟩
      have := hgo [] List.nil_prefix
      exact absurd ((left_zero _ _).mp this) hpos

/-! ### Whole packets -/

theorem refuses_withId (fb e : UInt8) (p : Plain) : Refuses (decodePacketWithPacketId fb e) p ↔ fb ≠ e := by
  unfold decodePacketWithPacketId validateFirstByte
  rw [refuses_bind]
  by_cases h : fb = e
  · simp only [h, ↓reduceIte, ne_eq, not_true_eq_false, iff_false, not_or]
    exact ⟨refuses_pure _ _, fun ⟨_, _, _, h⟩ => refuses_u16 _ h⟩
  · simp only [h, ↓reduceIte, ne_eq, not_false_eq_true, iff_true]
    exact .inl (refuses_fail _)

theorem refuses_withIdThen (fb e : UInt8) (f : UInt16 → ControlPacket) (p : Plain) :
    Refuses (decodePacketWithPacketId fb e >>= fun i => pure (f i)) p ↔ fb ≠ e := by
  rw [refuses_bind, refuses_withId]
  exact ⟨fun h => h.elim id fun ⟨_, _, _, h⟩ => absurd h (refuses_pure _ _), .inl⟩

theorem withId_iff {e : UInt8} {i : UInt16} {r : List UInt8} {fin : Ending} {p' : Plain} :
    (decodePacketWithPacketId e e (⟨r, fin⟩ : Plain) = (.ok i, p')) ↔ r = Spec.twoBytes i.toNat ++ p'.bytes ∧ p'.fin = fin := by
  constructor
  · intro h
    have := (packetId_took h).2
    exact ⟨this.bytes, this.fin⟩
  · rintro ⟨rfl, rfl⟩
    exact PReads.run (Plain.laws.readPacketId e i) _ _

theorem left_two {checks : Bool} {n l : Nat} (hn : n < 2 ^ 32) (hle : checks = true → 2 ≤ n) :
    Left checks ((n + 2 ^ 64 - 2) % 2 ^ 64) l ↔ Spec.GoesOn checks n (2 + l) := by
  rw [← left_add (show n < 2 ^ 64 by omega) (by omega) hle]
  rfl

theorem refuses_subscribe (pr : Profile) (n : Nat) (hn : n < 2 ^ 32) (r : List UInt8) (fin : Ending) :
    Refuses (decodeSubscribe pr 0x82 n) (⟨r, fin⟩ : Plain) ↔ n = 2 ∧ 2 ≤ r.length ∨
      ∃ (i : UInt16) (fs : List (String × QoS)) (r' : List UInt8), (∀ f ∈ fs, Spec.Fits f.1)
      ∧ r = Spec.clientRest (.subscribe i fs) ++ r'
      ∧ (∀ gs, gs <+: fs → Spec.GoesOn pr.overflowChecks n (Spec.clientRest (.subscribe i gs)).length)
      ∧ (Spec.BadText r' ∨ ∃ t q r'', Spec.Fits t ∧ 2 < q.toNat ∧ r' = Spec.str t ++ q :: r'') := by
  have e : ∀ (i : UInt16) (fs : List (String × QoS)), Spec.clientRest (.subscribe i fs) = Spec.twoBytes i.toNat ++ subscribePayload fs :=
    fun _ _ => rfl
  have el : ∀ (i : UInt16) (fs : List (String × QoS)), (Spec.clientRest (.subscribe i fs)).length = 2 + (subscribePayload fs).length := by
    intro i fs
    rw [e, List.length_append]; rfl
  unfold decodeSubscribe
  rw [refuses_bind, refuses_withId]
  constructor
  · rintro (h | ⟨i, ⟨r₁, _⟩, h1, h⟩)
    · exact absurd rfl h
    obtain ⟨rfl, rfl⟩ := withId_iff.mp h1
    rw [refuses_bind] at h
    rcases h with h | ⟨n₁, p₁, h2, h⟩
    · exact absurd h (refuses_sub _ _ _ _)
    obtain ⟨rfl, hn₁, hle⟩ := (sub_iff (by omega) (by omega)).mp h2
    split at h
    · exact .inl ⟨by omega, by simp [Spec.twoBytes]⟩
    · rcases (refuses_bind _ _ _).mp h with h | ⟨_, _, _, h⟩
      · obtain ⟨fs, r', hfs, hr, hgo, hbad⟩ := (refuses_subscribeLoop pr _ _ (by omega) [] _ _ (Nat.lt_succ_self _)).mp h
        refine .inr ⟨i, fs, r', hfs, ?_, fun gs hg => ?_, hbad⟩
        · rw [e, List.append_assoc]; exact congrArg _ hr
        · rw [el, ← left_two hn hle, ← hn₁]; exact hgo gs hg
      · exact absurd h (refuses_pure _ _)
  · rintro (⟨rfl, hr⟩ | ⟨i, fs, r', hfs, rfl, hgo, hbad⟩)
    · match r, hr with
      | x :: y :: r, _ =>
        refine .inr ⟨u16OfBytes x y, ⟨r, fin⟩, rfl, ?_⟩
        rw [refuses_bind]
        exact .inr ⟨0, ⟨r, fin⟩, (sub_iff (by omega) (by omega)).mpr ⟨rfl, by omega, fun _ => by omega⟩, refuses_fail _⟩
    · have h0 := hgo [] List.nil_prefix
      rw [el] at h0
      have hle : pr.overflowChecks = true → 2 ≤ n := by
        intro hc
        rw [hc] at h0
        simp only [Spec.GoesOn, ↓reduceIte] at h0
        omega
      have hpos := (left_zero _ _).mp ((left_two hn hle).mpr h0)
      refine .inr ⟨i, ⟨subscribePayload fs ++ r', fin⟩, withId_iff.mpr ⟨by rw [e, List.append_assoc], rfl⟩, ?_⟩
      rw [refuses_bind]
      obtain ⟨n₁, hn₁⟩ : ∃ n₁, n₁ = (n + 2 ^ 64 - 2) % 2 ^ 64 := ⟨_, rfl⟩
      refine .inr ⟨n₁, _, (sub_iff (by omega) (by omega)).mpr ⟨rfl, hn₁, hle⟩, ?_⟩
      rw [if_neg (show ¬ n₁ = 0 by omega)]
      refine (refuses_bind _ _ _).mpr (.inl ((refuses_subscribeLoop pr _ _ (by omega) [] _ fin (Nat.lt_succ_self _)).mpr
        ⟨fs, r', hfs, rfl, fun gs hg => ?_, hbad⟩))
      have := hgo gs hg
      rwa [el, ← left_two hn hle, ← hn₁] at this

theorem refuses_unsubscribe (pr : Profile) (n : Nat) (hn : n < 2 ^ 32) (r : List UInt8) (fin : Ending) :
    Refuses (decodeUnsubscribe pr 0xA2 n) (⟨r, fin⟩ : Plain) ↔ n = 2 ∧ 2 ≤ r.length ∨
      ∃ (i : UInt16) (fs : List String) (r' : List UInt8), (∀ f ∈ fs, Spec.Fits f)
      ∧ r = Spec.clientRest (.unsubscribe i fs) ++ r'
      ∧ (∀ gs, gs <+: fs → Spec.GoesOn pr.overflowChecks n (Spec.clientRest (.unsubscribe i gs)).length)
      ∧ Spec.BadText r' := by
  have e : ∀ (i : UInt16) (fs : List String), Spec.clientRest (.unsubscribe i fs) = Spec.twoBytes i.toNat ++ fs.flatMap Spec.str :=
    fun _ _ => rfl
  have el : ∀ (i : UInt16) (fs : List String), (Spec.clientRest (.unsubscribe i fs)).length = 2 + (fs.flatMap Spec.str).length := by
    intro i fs
    rw [e, List.length_append]; rfl
  unfold decodeUnsubscribe
  rw [refuses_bind, refuses_withId]
  constructor
  · rintro (h | ⟨i, ⟨r₁, _⟩, h1, h⟩)
    · exact absurd rfl h
    obtain ⟨rfl, rfl⟩ := withId_iff.mp h1
    rw [refuses_bind] at h
    rcases h with h | ⟨n₁, p₁, h2, h⟩
    · exact absurd h (refuses_sub _ _ _ _)
    obtain ⟨rfl, hn₁, hle⟩ := (sub_iff (by omega) (by omega)).mp h2
    split at h
    · exact .inl ⟨by omega, by simp [Spec.twoBytes]⟩
    · rcases (refuses_bind _ _ _).mp h with h | ⟨_, _, _, h⟩
      · obtain ⟨fs, r', hfs, hr, hgo, hbad⟩ := (refuses_unsubscribeLoop pr _ _ (by omega) [] _ _ (Nat.lt_succ_self _)).mp h
        refine .inr ⟨i, fs, r', hfs, ?_, fun gs hg => ?_, hbad⟩
        · rw [e, List.append_assoc]; exact congrArg _ hr
        · rw [el, ← left_two hn hle, ← hn₁]; exact hgo gs hg
      · exact absurd h (refuses_pure _ _)
  · rintro (⟨rfl, hr⟩ | ⟨i, fs, r', hfs, rfl, hgo, hbad⟩)
    · match r, hr with
      | x :: y :: r, _ =>
        refine .inr ⟨u16OfBytes x y, ⟨r, fin⟩, rfl, ?_⟩
        rw [refuses_bind]
        exact .inr ⟨0, ⟨r, fin⟩, (sub_iff (by omega) (by omega)).mpr ⟨rfl, by omega, fun _ => by omega⟩, refuses_fail _⟩
    · have h0 := hgo [] List.nil_prefix
      rw [el] at h0
      have hle : pr.overflowChecks = true → 2 ≤ n := by
        intro hc
        rw [hc] at h0
        simp only [Spec.GoesOn, ↓reduceIte] at h0
        omega
      have hpos := (left_zero _ _).mp ((left_two hn hle).mpr h0)
      refine .inr ⟨i, ⟨fs.flatMap Spec.str ++ r', fin⟩, withId_iff.mpr ⟨by rw [e, List.append_assoc], rfl⟩, ?_⟩
      rw [refuses_bind]
      obtain ⟨n₁, hn₁⟩ : ∃ n₁, n₁ = (n + 2 ^ 64 - 2) % 2 ^ 64 := ⟨_, rfl⟩
      refine .inr ⟨n₁, _, (sub_iff (by omega) (by omega)).mpr ⟨rfl, hn₁, hle⟩, ?_⟩
      rw [if_neg (show ¬ n₁ = 0 by omega)]
      refine (refuses_bind _ _ _).mpr (.inl ((refuses_unsubscribeLoop pr _ _ (by omega) [] _ fin (Nat.lt_succ_self _)).mpr
        ⟨fs, r', hfs, rfl, fun gs hg => ?_, hbad⟩))
      have := hgo gs hg
      rwa [el, ← left_two hn hle, ← hn₁] at this

theorem refuses_body (pr : Profile) (first : UInt8) (n : Nat) (hn : n < 2 ^ 32) (r : List UInt8) (fin : Ending) :
    Refuses (decodeBody pr first n) (⟨r, fin⟩ : Plain) ↔ Spec.Malformed pr.overflowChecks first n r := by
  have hk : ∀ k : UInt8, first >>> 4 = k → first.toNat / 16 = k.toNat :=
    fun k h => by rw [← (first_table first).1, h]
  have hne : ∀ k : UInt8, ¬ first >>> 4 = k → first.toNat / 16 ≠ k.toNat := by
    intro k hk he
    rw [← (first_table first).1] at he
    exact hk (UInt8.toNat_inj.mp he)
  have hfe : ∀ k : UInt8, first ≠ k ↔ first.toNat ≠ k.toNat := fun k => not_congr UInt8.toNat_inj.symm
  unfold decodeBody Spec.Malformed
  simp only [List.mem_cons, List.not_mem_nil, or_false, not_or]
  split
  · next h =>
    have h := hk _ h
    simp only [packetTypeConnect, UInt8.reduceToNat] at h
    rw [refuses_connect]
    have h1 : first.toNat ≠ 0x82 := by omega
    have h2 : first.toNat ≠ 0xA2 := by omega
    simp [h, h1, h2]
  split
  · next h =>
    have h := hk _ h
    simp only [packetTypePublish, UInt8.reduceToNat] at h
    rw [refuses_publish]
    have h1 : first.toNat ≠ 0x82 := by omega
    have h2 : first.toNat ≠ 0xA2 := by omega
    simp [h, h1, h2]
  split
  · next h =>
    have h := hk _ h
    simp only [packetTypePubAck, UInt8.reduceToNat] at h
    unfold decodePubAck
    rw [refuses_withIdThen, hfe]
    simp only [UInt8.reduceToNat]
    have h1 : first.toNat ≠ 0x82 := by omega
    have h2 : first.toNat ≠ 0xA2 := by omega
    simp only [h, h1, h2]
    simp
    omega
  split
  · next h =>
    have h := hk _ h
    simp only [packetTypePubRec, UInt8.reduceToNat] at h
    unfold decodePubRec
    rw [refuses_withIdThen, hfe]
    simp only [UInt8.reduceToNat]
    have h1 : first.toNat ≠ 0x82 := by omega
    have h2 : first.toNat ≠ 0xA2 := by omega
    simp only [h, h1, h2]
    simp
    omega
  split
  · next h =>
    have h := hk _ h
    simp only [packetTypePubRel, UInt8.reduceToNat] at h
    unfold decodePubRel
    rw [refuses_withIdThen, hfe]
    simp only [UInt8.reduceToNat]
    have h1 : first.toNat ≠ 0x82 := by omega
    have h2 : first.toNat ≠ 0xA2 := by omega
    simp only [h, h1, h2]
    simp
    omega
  split
  · next h =>
    have h := hk _ h
    simp only [packetTypePubComp, UInt8.reduceToNat] at h
    unfold decodePubComp
    rw [refuses_withIdThen, hfe]
    simp only [UInt8.reduceToNat]
    have h1 : first.toNat ≠ 0x82 := by omega
    have h2 : first.toNat ≠ 0xA2 := by omega
    simp only [h, h1, h2]
    simp
    omega
  split
  · next h =>
    have h := hk _ h
    simp only [packetTypeSubscribe, UInt8.reduceToNat] at h
    have h2 : first.toNat ≠ 0xA2 := by omega
    by_cases hf : first = 0x82
    · subst hf
      rw [refuses_subscribe pr n hn]
      simp
    · have h1 : first.toNat ≠ 0x82 := (hfe _).mp hf
      have : Refuses (decodeSubscribe pr first n) (⟨r, fin⟩ : Plain) := by
        unfold decodeSubscribe
        rw [refuses_bind, refuses_withId]
        exact .inl hf
      simp only [this, h, h1, h2]
      simp
      omega
  split
  · next h =>
    have h := hk _ h
    simp only [packetTypeUnsubscribe, UInt8.reduceToNat] at h
    have h2 : first.toNat ≠ 0x82 := by omega
    by_cases hf : first = 0xA2
    · subst hf
      rw [refuses_unsubscribe pr n hn]
      simp
    · have h1 : first.toNat ≠ 0xA2 := (hfe _).mp hf
      have : Refuses (decodeUnsubscribe pr first n) (⟨r, fin⟩ : Plain) := by
        unfold decodeUnsubscribe
        rw [refuses_bind, refuses_withId]
        exact .inl hf
      simp only [this, h, h1, h2]
      simp
      omega
  all_goals
    have e1 := hne _ ‹¬ first >>> 4 = packetTypeConnect›
    have e2 := hne _ ‹¬ first >>> 4 = packetTypePublish›
    have e3 := hne _ ‹¬ first >>> 4 = packetTypePubAck›
    have e4 := hne _ ‹¬ first >>> 4 = packetTypePubRec›
    have e5 := hne _ ‹¬ first >>> 4 = packetTypePubRel›
    have e6 := hne _ ‹¬ first >>> 4 = packetTypePubComp›
    have e7 := hne _ ‹¬ first >>> 4 = packetTypeSubscribe›
    have e8 := hne _ ‹¬ first >>> 4 = packetTypeUnsubscribe›
    simp only [packetTypeConnect, packetTypePublish, packetTypePubAck, packetTypePubRec, packetTypePubRel, packetTypePubComp,
      packetTypeSubscribe, packetTypeUnsubscribe, UInt8.reduceToNat] at e1 e2 e3 e4 e5 e6 e7 e8
    have h1 : first.toNat ≠ 0x82 := by omega
    have h2 : first.toNat ≠ 0xA2 := by omega
    simp only [e1, e2, e3, e4, e5, e6, e7, e8, h1, h2, false_and, or_false, iff_false]
  · split
    · exact refuses_pure _ _
    · split
      · exact refuses_pure _ _
      · exact refuses_panic _

end Ratel
