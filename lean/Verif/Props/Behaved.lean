/-
C80 and C84 for the process, when the clients behave.
-/
import Verif.Props.Process
import Verif.Props.Rounds

namespace Ratel

open Decoder Encoder Spec Sys

/-- If the sockets take enough writes, no write task of the process gets parked. -/
theorem Proc.enough_writes (env : Env) (input : ConnId → Peer) (N : Nat) : ∃ B, ∀ peers, (∀ c, SameInput (input c) (peers c)) →
    (∀ c, c < N → B ≤ (peers c).script.length) → ∀ W L τ, PFew N τ → ∀ n, ∃ sched,
      (Proc.run env W (Proc.start L peers) (firstPSteps τ n)).sys = Sys.run env (init peers) sched
      ∧ ∀ c : Nat, c < N → ((Sys.run env (init peers) sched).conns c).wrBlocked = false := by
  obtain ⟨B, hB⟩ := Sys.enough_writes env input N
  refine ⟨B, fun peers hin hlen W L τ hf n => ?_⟩
  have hp := Proc.pinv_run env W L peers (firstPSteps τ n)
  have hN := Proc.accepted_few (env := env) (W := W) (L := L) (peers := peers) hf n
  obtain ⟨sched, h1, h2, _⟩ := hp.sys
  refine ⟨sched, h1, fun c hc => ?_⟩
  have := hB peers hin hlen (fun n => sched.getD n (.handler 0)) (fun i c hi => by
    have hi : sched.getD i (.handler 0) = .read c ∨ sched.getD i (.handler 0) = .write c := hi
    rw [List.getD_eq_getElem?_getD] at hi
    cases hg : sched[i]? with
    | none => rw [hg] at hi; rcases hi with hi | hi <;> cases hi
    | some st =>
      rw [hg] at hi
      exact hN c (h2 st (List.mem_of_getElem? hg) c hi)) sched.length c hc
  rwa [firstSteps_of_list] at this

/-! ### C80 -/

/-- C80, for the whole process: let every connection bring fewer than 4096 bytes, let every CONNECT be accepted, and let nobody ping or
nobody disconnect. If no write fails and the sockets take enough of them (`B`), if the clients knock until they are let in, every task gets
its turn again and again, and ctrl-c is not pressed: in the end all have been accepted, every packet of every connection has been handled, and
what every connection has been sent is, in the wire format, exactly what the sequential broker sends for the packets in the order they were
handled, up to the order to disconnect if there is one; it is on the wire or in the write buffer. -/
theorem C80_process (env : Env) (input : ConnId → Peer) (N : Nat)
    (hshort : ∀ c, c < N → (input c).segs.flatten.length < 4096)
    (hacc : ∀ c q ps, Decodes env.profile (input c).segs.flatten (input c).fin (.connect q :: ps) → login env.auth q = .accepted)
    (hping : (∀ c ps, Decodes env.profile (input c).segs.flatten (input c).fin ps → .pingReq ∉ ps)
      ∨ ∀ c ps, Decodes env.profile (input c).segs.flatten (input c).fin ps → .disconnect ∉ ps) :
    ∃ B, ∀ peers, (∀ c, SameInput (input c) (peers c)) → (∀ c, ∀ o ∈ (peers c).script, o ≠ .fail) →
      (∀ c, c < N → B ≤ (peers c).script.length) → ∀ W L τ, 0 < W → PFair N L τ → Knocking N L τ → (∀ i, τ i ≠ .signal) →
      ∃ n evs, (∀ m, n ≤ m → Proc.run env W (Proc.start L peers) (firstPSteps τ m) = Proc.run env W (Proc.start L peers) (firstPSteps τ n))
        ∧ (∀ c, c < N → c ∈ (Proc.run env W (Proc.start L peers) (firstPSteps τ n)).accepted)
        ∧ (Proc.run env W (Proc.start L peers) (firstPSteps τ n)).sys.log.map Prod.fst = evs
        ∧ (∀ c, c < N → ∃ ps, Decodes env.profile (peers c).segs.flatten (peers c).fin ps ∧ evs.filter (From c) = eventsOf (peers c) c ps
            ∧ ∀ ps', Decodes env.profile (peers c).segs.flatten (peers c).fin ps' → eventsOf (peers c) c ps' <+: eventsOf (peers c) c ps)
        ∧ ∀ d, d < N → ∃ sent : List ControlPacket,
            sent.map .controlPacket = (Broker.start.outputs env.auth evs d).takeWhile (· ≠ .disconnect)
            ∧ allBytes ((Proc.run env W (Proc.start L peers) (firstPSteps τ n)).sys.conns d).wr = wireOf sent := by
  obtain ⟨B, hB⟩ := Proc.enough_writes env input N
  refine ⟨B, fun peers hin hfail hlen W L τ hW hf hk hs => ?_⟩
  have hshort' : ∀ c, c < N → (peers c).segs.flatten.length < 4096 := fun c hc => by rw [(hin c).bytes]; exact hshort c hc
  obtain ⟨n, h1, h2, h3⟩ := C86_served_partial env W L N peers τ hf hk hs (by
    rw [List.filter_eq_nil_iff.mpr]
    · exact hW
    · intro c hc
      have := hshort' c (List.mem_range.mp hc)
      simp only [decide_eq_true_eq]
      omega)
  obtain ⟨sched, e1, e2⟩ := hB peers hin hlen W L τ hf.few n
  rw [e1] at h3
  rcases h3 with ⟨_, h⟩ | ⟨d, e, todo, hd, _, _, _, h⟩ | ⟨hdone, hall⟩
  · have hinv := inv_run env peers sched
    refine absurd h (not_fatal (reads_orderly_served hinv.reads) (fun ev hev => hinv.reads.from_conn ev (List.mem_append_left _ hev))
      (fun c q ps hd => ?_) ?_)
    · rw [(hin c).bytes, (hin c).fin] at hd; exact hacc c q ps hd
    · refine hping.imp (fun h c ps hd => ?_) (fun h c ps hd => ?_) <;>
      · rw [(hin c).bytes, (hin c).fin] at hd; exact h c ps hd
  · rw [e2 d hd] at h; cases h
  · obtain ⟨g1, g2⟩ := delivered_when_done env peers N sched hshort' e2 hfail hdone hall
    rw [← e1] at g1 g2
    exact ⟨n, _, h1, h2, rfl, g1, g2⟩

/-! ### C84 -/

/-- C84, the good case: let every connection bring fewer than 4096 bytes, let every CONNECT be accepted, and let nobody ping or nobody
disconnect. If the sockets take enough writes (`B`), every task gets its turn again and again, and ctrl-c is pressed, at whatever moment, then
in the end the process is gone, without a panic. Missing: other clients. -/
theorem C84_ends_well_partial (env : Env) (input : ConnId → Peer) (N : Nat)
    (hshort : ∀ c, c < N → (input c).segs.flatten.length < 4096)
    (hacc : ∀ c q ps, Decodes env.profile (input c).segs.flatten (input c).fin (.connect q :: ps) → login env.auth q = .accepted)
    (hping : (∀ c ps, Decodes env.profile (input c).segs.flatten (input c).fin ps → .pingReq ∉ ps)
      ∨ ∀ c ps, Decodes env.profile (input c).segs.flatten (input c).fin ps → .disconnect ∉ ps) :
    ∃ B, ∀ peers, (∀ c, SameInput (input c) (peers c)) → (∀ c, c < N → B ≤ (peers c).script.length) →
      ∀ W L τ, 0 < W → PFair N L τ → (∃ i, τ i = .signal) →
      ∃ n, ∀ m, n ≤ m → (Proc.run env W (Proc.start L peers) (firstPSteps τ m)).main = .exited true := by
  obtain ⟨B, hB⟩ := Proc.enough_writes env input N
  refine ⟨B, fun peers hin hlen W L τ hW hf hs => ?_⟩
  obtain ⟨n, h1, h2⟩ := C84_ctrl_c_partial env W L N peers τ hf hs hW
  have hN := Proc.accepted_few (env := env) (W := W) (L := L) (peers := peers) hf.few n
  refine ⟨n, fun m hm => ?_⟩
  rw [h1 m hm]
  obtain ⟨sched, e1, e2⟩ := hB peers hin hlen W L τ hf.few n
  rcases h2 with h | ⟨_, h⟩ | ⟨d, e, todo, hd, h⟩ | ⟨c, hc, _, h⟩
  · exact h
  · rw [e1] at h
    have hinv := inv_run env peers sched
    refine absurd h (not_fatal (reads_orderly_served hinv.reads) (fun ev hev => hinv.reads.from_conn ev (List.mem_append_left _ hev))
      (fun c q ps hd => ?_) ?_)
    · rw [(hin c).bytes, (hin c).fin] at hd; exact hacc c q ps hd
    · refine hping.imp (fun h c ps hd => ?_) (fun h c ps hd => ?_) <;>
      · rw [(hin c).bytes, (hin c).fin] at hd; exact h c ps hd
  · rw [e1] at h
    obtain ⟨_, _, _, h⟩ := h
    rw [e2 d (hN d hd)] at h; cases h
  · exact absurd h (not_spinning (by rw [(hin c).bytes]; exact hshort c (hN c hc)))

/-! ### The hypotheses can be met -/

theorem examplePackets_sendable (c : ConnId) : Sendable (examplePackets c) := by
  unfold examplePackets
  split
  · exact subscriber_sendable
  · split
    · exact publisher_sendable
    · intro x hx; cases hx

theorem examplePackets_short (c : ConnId) : (clientBytes (examplePackets c)).length < 4096 := by
  unfold examplePackets
  repeat' split
  all_goals decide +kernel

theorem examplePackets_decoded {c : ConnId} {fin : Ending} {p : ControlPacket} {ps : List ControlPacket}
    (hd : Decodes exampleEnv.profile [clientBytes (examplePackets c)].flatten fin ps) (hp : p ∈ ps) :
    ∃ x ∈ examplePackets c, meaning x = p := by
  have := (decodes_client_only (examplePackets_sendable c) (by simpa using hd)).subset hp
  exact List.mem_map.mp this

-- the two clients of the example are served, and ctrl-c ends the process well
example : ∃ B, ∀ k, B ≤ k → ∃ n, ∀ m, n ≤ m → (Proc.run exampleEnv 1 (Proc.start 1 fun c =>
    ⟨someAddr, "u", [clientBytes (examplePackets c)], .eof, List.replicate k (.accept 0)⟩) (firstPSteps (procRound true) m)).main = .exited true := by
  obtain ⟨B, h⟩ := C84_ends_well_partial exampleEnv (fun c => ⟨someAddr, "u", [clientBytes (examplePackets c)], .eof, []⟩) 2
    (fun c _ => by simpa using examplePackets_short c)
    (fun c q ps hd => by
      obtain ⟨x, hx, he⟩ := examplePackets_decoded hd List.mem_cons_self
      unfold examplePackets at hx
      split at hx
      · simp only [subscriberPackets, List.mem_cons, List.not_mem_nil, or_false] at hx
        rcases hx with rfl | rfl <;> cases he
        simp [login]
      · split at hx
        · simp only [publisherPackets, List.mem_cons, List.mem_replicate] at hx
          rcases hx with rfl | ⟨_, rfl⟩ <;> cases he
          simp [login]
        · cases hx)
    (.inl fun c ps hd hp => by
      obtain ⟨x, hx, he⟩ := examplePackets_decoded hd hp
      unfold examplePackets at hx
      split at hx
      · simp only [subscriberPackets, List.mem_cons, List.not_mem_nil, or_false] at hx
        rcases hx with rfl | rfl <;> cases he
      · split at hx
        · simp only [publisherPackets, List.mem_cons, List.mem_replicate] at hx
          rcases hx with rfl | ⟨_, rfl⟩ <;> cases he
        · cases hx)
  refine ⟨B, fun k hk => h (fun c => ⟨someAddr, "u", [clientBytes (examplePackets c)], .eof, List.replicate k (.accept 0)⟩) (fun c => ⟨rfl, rfl, rfl, rfl⟩) (fun c _ => by simpa using hk) 1 1 _ (by decide) (procRound_fair true) ⟨11, rfl⟩⟩

end Ratel
