/-
C149: the broker goes on accepting connections.
-/
import Verif.Proofs.Files
import Verif.Props.Sockets
import Verif.Props.Threshold

namespace Ratel

open Spec Sys

namespace Files

/-- At rest, a socket that is open is in use. -/
theorem held_inUse {env : Env} {W F L N : Nat} {peers : ConnId → Peer} {p : Proc} (hran : Ran env peers L N p) (hrest : AtRest env W F N p)
    (hdone : Done env (· ∈ p.accepted) p.sys) {d : ConnId} (hd : d ∈ p.accepted) (hh : holds (p.sys.conns d) = true) : InUse env.auth p.sys d := by
  obtain ⟨sched, h1, _⟩ := hran.sys
  have hinv : Inv env peers p.sys := by rw [h1]; exact inv_run env peers sched
  have hse : SessionsOk p.sys.messaging.sessions := by rw [h1]; exact keys_run env peers sched
  refine Classical.byContradiction fun hno => (holds_iff p.sys d).mp hh ?_
  unfold InUse at hno
  simp only [not_or, not_exists, Classical.not_not, Bool.not_eq_true] at hno
  obtain ⟨n1, n2, n3⟩ := hno
  have ha : p.sys.handlerAlive = true := by simp [handlerAlive, hdone.handler]
  obtain ⟨g1, g2⟩ := closed_rest env hinv hse (hrest.read d hd) (hrest.write d hd) n2 (fun todo h => by rw [hdone.handler] at h; cases h)
    (fun _ => hdone.events) (.inr ⟨n1, fun _ x hx => n3 x ((session_reached hinv ha x d).mp hx)⟩)
  exact ⟨g1, n1, g2⟩

theorem handler_rest {env : Env} {L N : Nat} {peers : ConnId → Peer} {p : Proc} (hran : Ran env peers L N p) : p.sys.handler ≠ .stopped := by
  obtain ⟨sched, h1, _, h3⟩ := hran.sys
  rw [h1]
  exact stopped_ctrlC env (by simp [init]) rfl h3

end Files

/-- C149, the part that holds: when the operating system allows `F` sockets, every task gets its turn again and again, ctrl-c is not
pressed, and fewer connections than worker threads cannot be read to their end (`bad`), then in the end the handler has crashed on one of the events
known to be fatal, or waits for a socket (C52), or every connection that asks has been accepted — or `F` sockets are in use. Missing: the
client of such a socket may be gone. -/
theorem C149_accepted_partial (env : Env) (W F L N : Nat) (peers : ConnId → Peer) (τ : Nat → PStep) (hf : PFair N L τ) (hk : Knocking N L τ)
    (hs : ∀ i, τ i ≠ .signal) (bad : List ConnId) (hbad : ∀ c, c < N → Spinning env (peers c) → c ∈ bad) (hW : bad.length < W) :
    ∃ n p, p = Files.run env W F (Proc.start L peers) (firstPSteps τ n)
      ∧ (∀ m, n ≤ m → Files.run env W F (Proc.start L peers) (firstPSteps τ m) = p)
      ∧ ((p.sys.handler = .crashed ∧ Fatal env.auth (p.sys.log.map Prod.fst))
        ∨ (∃ d e todo, d ∈ p.accepted ∧ Stuck p.sys d e todo)
        ∨ (∀ c : ConnId, (c : Nat) < N → c ∈ p.accepted)
        ∨ ∃ A : List ConnId, A.length = F ∧ A.Nodup ∧ ∀ d ∈ A, d ∈ p.accepted ∧ InUse env.auth p.sys d) := by
  obtain ⟨n, h1, h2⟩ := Files.comes_to_rest env W F L peers hf hk hs
  have hran := Files.ran env W F L peers hf.few hs n
  have hle := Files.sockets_le env W F L peers (firstPSteps τ n)
  have hsp : (Files.run env W F (Proc.start L peers) (firstPSteps τ n)).spinning < W := by
    have hp := Proc.pinv_run env W L peers (firstPSteps (Files.admitted env W F (Proc.start L peers) τ) n)
    rw [Files.run_admitted] at hp
    exact Nat.lt_of_le_of_lt (Proc.spinning_few hp hran.few hbad) hW
  refine ⟨n, _, rfl, h1, ?_⟩
  have hrest := h2 hsp
  generalize Files.run env W F (Proc.start L peers) (firstPSteps τ n) = p at *
  rcases hrest.sys with h | h | h | h
  · obtain ⟨sched, e1, _⟩ := hran.sys
    refine .inl ⟨h, ?_⟩
    rw [e1] at h ⊢
    exact crashed_run env peers sched h
  · exact absurd h (Files.handler_rest hran)
  · exact .inr (.inl h)
  · refine .inr (.inr ?_)
    by_cases hroom : Files.sockets p < F
    · exact .inl (hrest.room hroom)
    · refine .inr ⟨p.accepted.filter fun c => Files.holds (p.sys.conns c), ?_, hran.nodup.filter _, fun d hd => ?_⟩
      · show Files.sockets p = F
        omega
      · obtain ⟨g1, g2⟩ := List.mem_filter.mp hd
        exact ⟨g1, Files.held_inUse hran hrest h g1 g2⟩

/-- A CONNECT at most is due to a client that sends nothing else. -/
theorem outputs_connects {auth : IdentityProvider} {evs : List ClientEvent} (h : ∀ ev ∈ evs, ∃ p addr c, ev = .connected p addr c) (b : Broker)
    (d : ConnId) : (b.outputs auth evs d).length ≤ 2 * (evs.filter (From d)).length := by
  induction evs generalizing b with
  | nil => exact Nat.le_refl _
  | cons ev evs ih =>
    have ih := ih fun e he => h e (List.mem_cons_of_mem _ he)
    obtain ⟨p, addr, c, rfl⟩ := h ev List.mem_cons_self
    rw [Broker.outputs, List.filter_cons]
    by_cases hc : c = d
    · subst hc
      have h1 : decide (From c (.connected p addr c)) = true := by simp [From]
      rw [if_pos h1, List.length_cons]
      cases hl : login auth p with
      | accepted =>
        simp only [Broker.step, hl, List.length_append, Spec.to, ↓reduceIte, List.length_singleton]
        have := ih ⟨fun x => if x = p.clientId then some c else b.session x, b.subs⟩
        omega
      | refused =>
        simp only [Broker.step, hl, List.length_append, Spec.to, ↓reduceIte, List.length_cons, List.length_nil]
        have := ih b
        omega
      | incomplete => simp [Broker.step, hl]
    · have h1 : ¬ decide (From d (.connected p addr c)) = true := by simp [From, hc]
      have hcd : ¬ d = c := fun h => hc h.symm
      rw [if_neg h1]
      cases hl : login auth p with
      | accepted =>
        simp only [Broker.step, hl, List.length_append, Spec.to, hcd, ↓reduceIte, List.length_nil, Nat.zero_add]
        exact ih _
      | refused =>
        simp only [Broker.step, hl, List.length_append, Spec.to, hcd, ↓reduceIte, List.length_nil, Nat.zero_add]
        exact ih _
      | incomplete => simp [Broker.step, hl]

/-- C149 is violated. Let the operating system allow `F` sockets, and let more than `F` clients connect without a client id and go away
at once. If every task gets its turn again and again then, whatever the sockets do, in the end exactly `F` of them have been accepted; these
are gone, and the others, who ask again and again, are never accepted. -/
theorem C149_exhausted_fails (env : Env) (W F L N : Nat) (hW : 0 < W) (hF : F < N) (peers : ConnId → Peer) (hp : ∀ c, PassesBy (peers c))
    (hu : ∀ c d, (peers c).uuid = (peers d).uuid → c = d) (τ : Nat → PStep) (hf : PFair N L τ) (hk : Knocking N L τ) (hs : ∀ i, τ i ≠ .signal) :
    ∃ n p, p = Files.run env W F (Proc.start L peers) (firstPSteps τ n)
      ∧ (∀ m, n ≤ m → Files.run env W F (Proc.start L peers) (firstPSteps τ m) = p)
      ∧ p.accepted.length = F ∧ (∀ c ∈ p.accepted, KeptInVain p.sys c) ∧ ∃ c : ConnId, (c : Nat) < N ∧ c ∉ p.accepted := by
  have hsend : Sendable [hello ""] := fun x hx => by
    rw [List.mem_singleton.mp hx]
    exact hello_sendable "" (by unfold Fits; decide +kernel) (by decide +kernel)
  have hshort : ∀ c, (peers c).segs.flatten.length < 4096 := fun c => by rw [(hp c).bytes]; decide +kernel
  have hdec : ∀ c ps, Decodes env.profile (peers c).segs.flatten (peers c).fin ps → ps <+: [.connect ⟨.mqtt3, "", 60, true, none, none, none⟩] := by
    intro c ps h
    rw [(hp c).bytes, (hp c).gone] at h
    exact decodes_client_only hsend h
  have hconn : ∀ c p ps, Decodes env.profile (peers c).segs.flatten (peers c).fin (.connect p :: ps) →
      p = ⟨.mqtt3, "", 60, true, none, none, none⟩ := by
    intro c p ps h
    have := (List.cons_prefix_cons.mp (hdec c _ h)).1
    cases this
    rfl
  have hown : ∀ d, OwnIds env peers (· ≠ d) := by
    intro d c e hc he p ps q qs hp hq
    have he : e = d := Classical.not_not.mp he
    subst he
    cases hconn c p ps hp
    cases hconn e q qs hq
    exact fun h => hc (hu c e h)
  obtain ⟨n, h1, h2⟩ := Files.comes_to_rest env W F L peers hf hk hs
  have hran := Files.ran env W F L peers hf.few hs n
  have hle := Files.sockets_le env W F L peers (firstPSteps τ n)
  have hsp : (Files.run env W F (Proc.start L peers) (firstPSteps τ n)).spinning < W := by
    have hp := Proc.pinv_run env W L peers (firstPSteps (Files.admitted env W F (Proc.start L peers) τ) n)
    rw [Files.run_admitted] at hp
    rw [Proc.short_spinning hp fun c _ => not_spinning (hshort c)]
    exact hW
  refine ⟨n, _, rfl, h1, ?_⟩
  have hrest := h2 hsp
  generalize Files.run env W F (Proc.start L peers) (firstPSteps τ n) = p at *
  obtain ⟨sched, e1, _⟩ := hran.sys
  have hinv : Inv env peers p.sys := by rw [e1]; exact inv_run env peers sched
  have hord : Orderly env peers p.sys.served := reads_orderly_served hinv.reads
  have hfrom : ∀ ev ∈ p.sys.served, ∃ c, From c ev := fun ev hev => hinv.reads.from_conn ev (List.mem_append_left _ hev)
  have hconnected : ∀ ev ∈ p.sys.served, ∃ q addr c, ev = .connected q addr c := by
    intro ev hev
    obtain ⟨c, hc⟩ := hfrom ev hev
    obtain ⟨ps, g1, g2⟩ := hord c
    have := (g2.trans (eventsOf_pre (peers c) c (hdec c ps g1))).subset (List.mem_filter.mpr ⟨hev, by simpa using hc⟩)
    simp only [eventsOf, List.map_nil, List.mem_singleton] at this
    exact ⟨_, _, _, this⟩
  have hnf : ¬ Fatal env.auth p.sys.served := not_fatal hord hfrom (fun c q ps h => by cases hconn c q ps h; rfl)
    (.inl fun c ps h hm => by have := (hdec c ps h).subset hm; simp at this)
  have hdone : Done env (· ∈ p.accepted) p.sys := by
    rcases hrest.sys with h | h | ⟨d, e, todo, _, h⟩ | h
    · refine absurd ?_ hnf
      rw [e1] at h ⊢
      exact crashed_run env peers sched h
    · exact absurd h (Files.handler_rest hran)
    · exfalso
      rw [e1] at h
      have g := C52_at_least_34_partial env peers sched d e todo h
      have g2 := outputs_connects (auth := env.auth) hconnected Broker.start d
      obtain ⟨ps, g3, g4⟩ := hord d
      have g5 := (g4.trans (eventsOf_pre (peers d) d (hdec d ps g3))).length_le
      simp only [eventsOf, List.map_nil, List.length_singleton] at g5
      rw [e1] at g2 g5
      unfold Sys.served at g2 g5
      omega
    · exact h
  have ha : p.sys.handlerAlive = true := by simp [handlerAlive, hdone.handler]
  have hkept : ∀ c ∈ p.accepted, KeptInVain p.sys c := by
    intro c hc
    have hst : (p.sys.conns c).phase ≠ .stuck := by rw [e1]; exact (noSpin_run env peers sched c (hshort c)).1
    refine ⟨input_over hinv.reads hdone hc hst (by rw [(hp c).gone]; simp), fun hh => ?_⟩
    have hd1 : Decodes env.profile (peers c).segs.flatten (peers c).fin [.connect ⟨.mqtt3, "", 60, true, none, none, none⟩] := by
      rw [(hp c).bytes, (hp c).gone]
      exact decodes_client env.profile .eof [hello ""] hsend
    have hcomp := allDone_complete hinv.reads (by rw [e1]; exact endsComplete_run env peers sched) hdone hc hst _ hd1
    have hmem := hcomp.subset (List.mem_cons_self (a := _) (l := []))
    have hreach := reached_own hord hfrom (hown c) hd1 rfl (fun ps h hm => by have := (hdec c ps h).subset hm; simp at this)
      ⟨_, (List.mem_filter.mp hmem).1, by simpa using (List.mem_filter.mp hmem).2⟩
    have := C105_hung_up_only env peers sched c (by rw [← e1]; exact hh)
    rw [← e1] at this
    rcases this with ht | ⟨_, h⟩
    · rcases ht with ⟨q, addr, hq, hl⟩ | ⟨pre, id, post, heq, _⟩
      · obtain ⟨q', ps, g1, rfl⟩ := orderly_connect hord hq
        cases hconn c q' ps g1
        cases hl
      · obtain ⟨_, _, _, h⟩ := hconnected (.controlPacket id .pingReq c) (by unfold Sys.served; rw [heq]; simp)
        cases h
    · exact (h ha).2 _ hreach
  have hall : Files.sockets p = p.accepted.length := by
    unfold Files.sockets
    congr 1
    refine List.filter_eq_self.mpr fun c hc => (Files.holds_iff p.sys c).mpr fun hfr => (hkept c hc).2 hfr.1
  have hsub : (∀ c : ConnId, (c : Nat) < N → c ∈ p.accepted) → N ≤ p.accepted.length := by
    intro h
    have := List.Nodup.length_le_of_subset (List.nodup_range (n := N)) (l₂ := p.accepted) fun c hc => h c (List.mem_range.mp hc)
    simpa using this
  refine ⟨?_, hkept, ?_⟩
  · by_cases hroom : Files.sockets p < F
    · have := hsub (hrest.room hroom)
      omega
    · omega
  · refine Classical.byContradiction fun hno => ?_
    have := hsub fun c hc => Classical.byContradiction fun hn => hno ⟨c, hc, hn⟩
    omega

/-! ### Examples -/

-- room for one socket, and two clients without client id that go away: one of them is never accepted
example : ∃ n p, p = Files.run exampleEnv 1 1 (Proc.start 1 (passersBy 0)) (firstPSteps (procRound false) n)
    ∧ (∀ m, n ≤ m → Files.run exampleEnv 1 1 (Proc.start 1 (passersBy 0)) (firstPSteps (procRound false) m) = p)
    ∧ p.accepted.length = 1 ∧ (∀ c ∈ p.accepted, KeptInVain p.sys c) ∧ ∃ c : ConnId, (c : Nat) < 2 ∧ c ∉ p.accepted :=
  C149_exhausted_fails exampleEnv 1 1 1 2 (by decide) (by decide) (passersBy 0) (fun c => ⟨by simp [passersBy], rfl⟩)
    (fun c d h => by simpa [passersBy] using congrArg (fun s => s.toList.length) h) _ (procRound_fair false) (procRound_knocking false) (fun i h => by
      unfold procRound at h
      split at h <;> cases h)

/-- Two clients that connect, disconnect and go away. -/
def inTurn : ConnId → Peer := fun c =>
  ⟨someAddr, "u", [clientBytes [hello (if c = 0 then "a" else "b"), .disconnect]], .eof, [.accept 100]⟩

-- room for one socket, and two clients that disconnect: the second is accepted when the socket of the first is closed
example : (Files.run exampleEnv 1 1 (Proc.start 1 inTurn) [.accept 0 0, .accept 0 1]).accepted = [0]
    ∧ (Files.run exampleEnv 1 1 (Proc.start 1 inTurn) ([.accept 0 0, .accept 0 1] ++ (firstPSteps (procRound false) 96))).accepted = [1, 0] := by
  decide +kernel

theorem inTurn_short (c : ConnId) : (inTurn c).segs.flatten.length < 4096 := by
  by_cases h : c = 0
  · subst h; decide +kernel
  · simp only [inTurn, h, ↓reduceIte]; decide +kernel

-- the hypotheses of `C149_accepted_partial` are met by these two
example : ∃ n p, p = Files.run exampleEnv 1 1 (Proc.start 1 inTurn) (firstPSteps (procRound false) n)
    ∧ (∀ m, n ≤ m → Files.run exampleEnv 1 1 (Proc.start 1 inTurn) (firstPSteps (procRound false) m) = p) :=
  let ⟨n, p, h1, h2, _⟩ := C149_accepted_partial exampleEnv 1 1 1 2 inTurn _ (procRound_fair false) (procRound_knocking false)
    (fun i h => by
      unfold procRound at h
      split at h <;> cases h)
    [] (fun c _ h => absurd h (not_spinning (inTurn_short c))) (by decide)
  ⟨n, p, h1, h2⟩

end Ratel
