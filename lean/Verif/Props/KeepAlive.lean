/-
C63–C65: keep-alive.
-/
import Verif.Props.Handler

namespace Ratel

open Spec

/-- A rational number with a significand below `2^24` and an exponent between -149 and 0: one that `f32` represents exactly. -/
def F32Exact (x : Rat) : Prop := ∃ (m : Int) (k : Nat), m.natAbs < 2 ^ 24 ∧ k ≤ 149 ∧ x * (2 ^ k : Nat) = m

/-- C63. The `f32` computation `(keep_alive as f32 * 1.5) as i64`: whatever the rounding, as long as it returns exactly representable
results unchanged (IEEE 754), it is `floor(1.5 * keep_alive)`. -/
theorem C63_f32_exact (rnd : Rat → Rat) (hr : ∀ x, F32Exact x → rnd x = x) (k : UInt16) :
    (rnd (rnd (k.toNat : Rat) * rnd (3 / 2))).floor = Session.leewaySeconds k := by
  have hk : k.toNat < 2 ^ 16 := k.toNat_lt
  have h1 : rnd (k.toNat : Rat) = k.toNat :=
    hr _ ⟨k.toNat, 0, by simp; omega, by omega, by rw [Rat.intCast_natCast]; exact Rat.mul_one _⟩
  have h2 : rnd (3 / 2) = 3 / 2 := hr _ ⟨3, 1, by decide, by omega, by decide +kernel⟩
  have h3 : rnd ((k.toNat : Rat) * (3 / 2)) = (k.toNat : Rat) * (3 / 2) := by
    refine hr _ ⟨3 * k.toNat, 1, by simp [Int.natAbs_mul]; omega, by omega, ?_⟩
    rw [Rat.mul_assoc, show (3 / 2 : Rat) * ((2 ^ 1 : Nat) : Rat) = 3 by decide +kernel, Rat.mul_comm, Rat.intCast_mul,
      Rat.intCast_natCast]
    rfl
  rw [h1, h2, h3]
  unfold Session.leewaySeconds
  have hd : (k.toNat * 3 / 2) * 2 ≤ k.toNat * 3 ∧ k.toNat * 3 + 1 ≤ (k.toNat * 3 / 2 + 1) * 2 := by omega
  generalize k.toNat * 3 / 2 = q at hd
  generalize k.toNat = n at hd
  obtain ⟨hd1, hd2⟩ := hd
  have e1 : ((q * 2 : Nat) : Rat) ≤ ((n * 3 : Nat) : Rat) := by exact_mod_cast hd1
  have e2 : ((n * 3 + 1 : Nat) : Rat) ≤ (((q + 1) * 2 : Nat) : Rat) := by exact_mod_cast hd2
  simp only [Rat.natCast_mul, Rat.natCast_add] at e1 e2
  have f1 : Int.ofNat q ≤ ((n : Rat) * (3 / 2)).floor := by
    rw [Rat.le_floor_iff, Int.ofNat_eq_natCast, Rat.intCast_natCast]
    grind
  have f2 : ((n : Rat) * (3 / 2)).floor < Int.ofNat q + 1 := by
    rw [Rat.floor_lt_iff, Int.ofNat_eq_natCast, Rat.intCast_add, Rat.intCast_natCast]
    grind
  omega

theorem int_due (a n d : Int) : a + d ≤ n ↔ n - a ≥ d := by omega
theorem int_still_due {a n l d : Int} (h : n - a ≥ d) (hl : n ≤ l) : l - a ≥ d := by omega
theorem int_not_due (a n d : Int) : ¬ n - a ≥ d ↔ n < a + d := by omega
theorem int_ninety {n : Int} (h : 90000000000 ≤ n) : n - 0 ≥ ((3 * 60 / 2 : Nat) : Int) * 1000000000 := by omega

/-- C63. Expired: exactly if the keep-alive is not zero and at least `floor(1.5 * keep_alive)` seconds have passed since the last
activity. -/
theorem C63_threshold (s : Session) (now : Instant) :
    s.isKeepAliveExpired now = true ↔
      s.keepAliveSeconds ≠ 0 ∧ now - s.lastActivity ≥ ((3 * s.keepAliveSeconds.toNat / 2 : Nat) : Int) * 1000000000 := by
  unfold Session.isKeepAliveExpired Session.leewaySeconds durationSeconds
  rw [show s.keepAliveSeconds.toNat * 3 = 3 * s.keepAliveSeconds.toNat from Nat.mul_comm _ _]
  by_cases h : s.keepAliveSeconds = 0
  · simp [h]
  · simp only [h, ↓reduceIte, decide_eq_true_eq, ne_eq, not_false_eq_true, true_and, Int.ofNat_eq_natCast]
    exact int_due _ _ _

/-- Keep-alive 5: seven seconds. -/
example : (Session.mk "c" 0 false 1 5 0).isKeepAliveExpired 6999999999 = false
    ∧ (Session.mk "c" 0 false 1 5 0).isKeepAliveExpired 7000000000 = true := by decide +kernel
example : ∃ rnd : Rat → Rat, ∀ x, F32Exact x → rnd x = x := ⟨fun x => x, fun _ _ => rfl⟩

/-- C64. Once expired, a session without activity stays expired. -/
theorem C64_stays_expired (s : Session) (now later : Instant) (h : s.isKeepAliveExpired now = true) (hl : now ≤ later) :
    s.isKeepAliveExpired later = true := by
  rw [C63_threshold] at h ⊢
  exact ⟨h.1, int_still_due h.2 hl⟩

/-- C64. After activity at `t` a session is not expired before `t + floor(1.5 k)` seconds, and is from then on. -/
theorem C64_activity (s : Session) (t now : Instant) (hk : s.keepAliveSeconds ≠ 0) :
    (s.setLastActivity t).isKeepAliveExpired now = false
      ↔ now < t + ((3 * s.keepAliveSeconds.toNat / 2 : Nat) : Int) * 1000000000 := by
  rw [← Bool.not_eq_true, C63_threshold]
  simp only [Session.setLastActivity, ne_eq, hk, not_false_eq_true, true_and]
  exact int_not_due _ _ _

/-- C64. Keep-alive 0 never expires. -/
theorem C64_zero_never (s : Session) (now : Instant) (hk : s.keepAliveSeconds = 0) : s.isKeepAliveExpired now = false := by
  rw [← Bool.not_eq_true, C63_threshold]
  simp [hk]

/-- C65 is violated: the broker never asks who is overdue, and if it did the answer would always be "nobody"; time has no influence on
what is done with any packet, so a client silent for any time keeps its session and its messages. -/
theorem C65_enforced_fails :
    (∀ m, (MessagingService.exec .sessionGetExpiredKeepAlive m).1 = ([] : List Session))
    ∧ (∀ auth now now' m id p tx,
        Handler.handle auth now m (.controlPacket id p tx) = Handler.handle auth now' m (.controlPacket id p tx))
    ∧ ∃ m, serve denyAll .new (atZero (victim "a")) = some m
      ∧ ∀ now : Instant, 90000000000 ≤ now →
          (∃ s, m.sessions.get "v" = some s ∧ s.isKeepAliveExpired now = true)
          ∧ (Handler.handle denyAll now m (.controlPacket "p" (.publish ⟨none, false, ⟨"a", [1], .atMostOnce, false⟩⟩) 3)).map (·.2)
            = some [(1, .controlPacket (.publish ⟨none, false, ⟨"a", [1], .atMostOnce, false⟩⟩))] := by
  refine ⟨fun _ => rfl, fun _ _ _ _ _ _ _ => rfl, _, rfl, fun now hnow => ⟨?_, ?_⟩⟩
  · refine ⟨⟨"v", 1, false, 1, 60, 0⟩, by decide +kernel, ?_⟩
    rw [C63_threshold]
    refine ⟨by decide, ?_⟩
    exact int_ninety hnow
  · have : ∀ m, Handler.handle denyAll now m (.controlPacket "p" (.publish ⟨none, false, ⟨"a", [1], .atMostOnce, false⟩⟩) 3)
        = Handler.handle denyAll 0 m (.controlPacket "p" (.publish ⟨none, false, ⟨"a", [1], .atMostOnce, false⟩⟩) 3) := fun _ => rfl
    rw [this]
    decide +kernel

/-- C65, the part that holds: the function meant for the purpose (never called) names exactly the overdue sessions. Missing: calling it,
disconnecting, and recording activity. -/
theorem C65_enforced_partial (auth : IdentityProvider) (h : List (ClientEvent × Instant)) (m : MessagingService)
    (hm : serve auth MessagingService.new h = some m) (now : Instant) (s : Session) :
    s ∈ m.sessionGetKeepAliveExpired now ↔ m.sessions.get s.clientId = some s ∧ s.isKeepAliveExpired now = true := by
  have hok := serve_sessionsOk auth h sessionsOk_default hm
  unfold MessagingService.sessionGetKeepAliveExpired
  rw [List.mem_filterMap]
  constructor
  · rintro ⟨⟨k, s'⟩, h1, h2⟩
    dsimp only at h2
    have h3 := (AssocMap.mem_iff hok.nodup k s').mp h1
    have h4 := hok.own k s' h3
    by_cases he : s'.isKeepAliveExpired now = true
    · rw [if_pos he, Option.some.injEq] at h2
      subst h2
      subst h4
      exact ⟨h3, he⟩
    · rw [if_neg he] at h2; cases h2
  · rintro ⟨h1, h2⟩
    exact ⟨(s.clientId, s), (AssocMap.mem_iff hok.nodup _ _).mpr h1, by simp [h2]⟩

end Ratel
