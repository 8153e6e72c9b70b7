/-
C122: for how many bytes of a packet the broker waits.
-/
import Verif.Proofs.Patience

namespace Ratel

open Decoder Spec

/-! ### C122 -/

/-- C122, the part that holds: in builds with overflow checks, once the announced number of bytes of a packet has come, and 65538 more, it
is no longer waited for: it has been accepted or rejected. For a CONNECT it is 262152 bytes, whatever was announced. Missing: that none
beyond the announced ones are waited for, see `C122_header_fails`. -/
theorem C122_patience_partial (pr : Profile) (hpr : pr.overflowChecks = true) (first : UInt8) (lf : List UInt8) (n : Nat)
    (hlf : LengthField lf n) (hl : lf.length ≤ 3) (r : List UInt8) (fin : Ending)
    (h : (decoded pr (first :: lf ++ r) fin).1 = .pending) :
    r.length < if first.toNat / 16 = 1 then 262152 else n + 65538 := by
  unfold decoded at h
  rw [readPacket_header pr first lf n hlf hl] at h
  exact (Waits.body hpr first n).pending ⟨r, fin⟩ _ (Prod.ext h rfl)

/-- C122 is violated: after a CONNECT announced as empty, or a SUBSCRIBE announced to have one byte after its packet id, more is waited
for. -/
theorem C122_header_fails (pr : Profile) :
    (decoded pr [0x10, 0] .silence).1 = .pending ∧ (decoded pr [0x82, 3, 0, 1, 0] .silence).1 = .pending := by
  constructor
  · have := readPacket_header pr 0x10 [0] 0 (.last 0 (by decide)) (by decide) [] .silence
    rw [(SourceLaws.decodeBody_type (σ := Plain) pr 0 0x10).1 (by decide)] at this
    exact congrArg Prod.fst this
  · have := readPacket_header pr 0x82 [3] 3 (.last 3 (by decide)) (by decide) [0, 1, 0] .silence
    rw [(SourceLaws.decodeBody_first pr 3).2.2.2.2.2.1] at this
    exact congrArg Prod.fst this

/-- C122 is violated much more in builds without overflow checks: if a SUBSCRIBE is announced so that it ends within its first filter, then
whatever filters follow, up to 2⁶³ bytes of them, they are all taken to belong to it, and still more are waited for. -/
theorem C122_subscribe_fails (pr : Profile) (hpr : pr.overflowChecks = false) (lf : List UInt8) (n : Nat) (hlf : LengthField lf n)
    (hl : lf.length ≤ 3) (i : UInt16) (f : String × QoS) (fs : List (String × QoS)) (hf : ∀ g ∈ f :: fs, Fits g.1)
    (h1 : 2 < n) (h2 : n < 2 + (subscribePayload [f]).length) (hfs : (subscribePayload fs).length < 2 ^ 63) :
    decoded pr (0x82 :: lf ++ (twoBytes i.toNat ++ subscribePayload (f :: fs))) .silence = (.pending, ⟨[], .silence⟩) := by
  unfold decoded
  rw [readPacket_header pr _ lf n hlf hl, (SourceLaws.decodeBody_first pr n).2.2.2.2.2.1]
  unfold decodeSubscribe
  rw [M.bind_ok (PReads.run (Plain.laws.readPacketId _ i) _ _)]
  rw [M.bind_ok (s' := ⟨subscribePayload (f :: fs), .silence⟩) (a := n - 2) (by simp [subU64, show 2 ≤ n by omega])]
  have h0 : ¬ n - 2 = 0 := by omega
  simp only [h0, ↓reduceIte]
  have hcount : fs.length ≤ (subscribePayload fs).length := SourceLaws.length_le_flatMap _ (fun a => by simp) fs
  obtain ⟨f, q⟩ := f
  have hpay : subscribePayload ((f, q) :: fs) = Spec.str f ++ ([Spec.byte (Spec.qosNum q)] ++ subscribePayload fs) := by
    simp [subscribePayload]
  have hlen : (subscribePayload [(f, q)]).length = strLen f + 3 := by
    simp [subscribePayload, SourceLaws.length_str]
  have hsl : strLen f < 65536 := hf _ List.mem_cons_self
  have hq := SourceLaws.qos_table q
  have key : ∀ fuel, fs.length < fuel →
      subscribeLoop pr (fuel + 1) (n - 2) [] (⟨subscribePayload ((f, q) :: fs), .silence⟩ : Plain) = (.pending, ⟨[], .silence⟩) := by
    intro fuel hfuel
    rw [hpay, subscribeLoop]
    have hpos : n - 2 > 0 := by omega
    simp only [hpos, ↓reduceIte]
    rw [M.bind_ok (PReads.run (Plain.laws.readString f (hf _ (List.mem_cons_self))) _ _)]
    rw [M.bind_ok (PReads.run (Plain.laws.readU8 _) _ _)]
    simp only [hq.1, ↓reduceIte]
    rw [M.bind_ok (s' := ⟨subscribePayload fs, .silence⟩) (a := n - 2 + 2 ^ 64 - (strLen f + 3))
      (by simp [subU64, hpr, show ¬ strLen f + 3 ≤ n - 2 by omega])]
    simp only [hq.2]
    exact subscribeLoop_wait pr fs (fun g hg => hf g (List.mem_cons_of_mem _ hg)) fuel hfuel _ (by omega) _
  exact M.bind_pending (key _ (by
    rw [hpay]
    simp only [ByteSource.avail, List.length_append, List.length_singleton]
    omega))

/-- The same with an UNSUBSCRIBE. -/
theorem C122_unsubscribe_fails (pr : Profile) (hpr : pr.overflowChecks = false) (lf : List UInt8) (n : Nat) (hlf : LengthField lf n)
    (hl : lf.length ≤ 3) (i : UInt16) (f : String) (fs : List String) (hf : ∀ g ∈ f :: fs, Fits g)
    (h1 : 2 < n) (h2 : n < 2 + (str f).length) (hfs : (fs.flatMap str).length < 2 ^ 63) :
    decoded pr (0xA2 :: lf ++ (twoBytes i.toNat ++ (f :: fs).flatMap str)) .silence = (.pending, ⟨[], .silence⟩) := by
  unfold decoded
  rw [readPacket_header pr _ lf n hlf hl, (SourceLaws.decodeBody_first pr n).2.2.2.2.2.2.1]
  unfold decodeUnsubscribe
  rw [M.bind_ok (PReads.run (Plain.laws.readPacketId _ i) _ _)]
  rw [M.bind_ok (s' := ⟨(f :: fs).flatMap str, .silence⟩) (a := n - 2) (by simp [subU64, show 2 ≤ n by omega])]
  have h0 : ¬ n - 2 = 0 := by omega
  simp only [h0, ↓reduceIte]
  have hcount : fs.length ≤ (fs.flatMap str).length :=
    SourceLaws.length_le_flatMap _ (fun a => by rw [SourceLaws.length_str]; omega) fs
  rw [SourceLaws.length_str] at h2
  have hsl : strLen f < 65536 := hf _ List.mem_cons_self
  have key : ∀ fuel, fs.length < fuel →
      unsubscribeLoop pr (fuel + 1) (n - 2) [] (⟨(f :: fs).flatMap str, .silence⟩ : Plain) = (.pending, ⟨[], .silence⟩) := by
    intro fuel hfuel
    rw [List.flatMap_cons, unsubscribeLoop]
    have hpos : n - 2 > 0 := by omega
    simp only [hpos, ↓reduceIte]
    rw [M.bind_ok (PReads.run (Plain.laws.readString f (hf _ (List.mem_cons_self))) _ _)]
    rw [M.bind_ok (s' := ⟨fs.flatMap str, .silence⟩) (a := n - 2 + 2 ^ 64 - (strLen f + 2))
      (by simp [subU64, hpr, show ¬ strLen f + 2 ≤ n - 2 by omega])]
    exact unsubscribeLoop_wait pr fs (fun g hg => hf g (List.mem_cons_of_mem _ hg)) fuel hfuel _ (by omega) _
  exact M.bind_pending (key _ (by
    rw [List.flatMap_cons]
    simp only [ByteSource.avail, List.length_append, SourceLaws.length_str]
    omega))

-- four bytes announced, and a thousand filters taken
example : LengthField [4] 4 ∧ 2 < 4 ∧ 4 < 2 + (subscribePayload [("a", QoS.atMostOnce)]).length
    ∧ (subscribePayload (List.replicate 1000 ("a", QoS.atMostOnce))).length < 2 ^ 63 :=
  ⟨.last 4 (by decide), by decide, by decide +kernel, by decide +kernel⟩

-- a state in which a SUBSCRIBE is waited for, in a build with overflow checks
example : (decoded ⟨true⟩ (0x82 :: [8] ++ [0, 1, 0, 3]) .silence).1 = .pending := by
  have := readPacket_header ⟨true⟩ 0x82 [8] 8 (.last 8 (by decide)) (by decide) [0, 1, 0, 3] .silence
  rw [(SourceLaws.decodeBody_first ⟨true⟩ 8).2.2.2.2.2.1] at this
  exact congrArg Prod.fst this

end Ratel
