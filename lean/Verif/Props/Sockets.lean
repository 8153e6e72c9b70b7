/-
C148: the sockets of clients that are gone.
-/
import Verif.Spec.Sockets
import Verif.Props.Close

namespace Ratel

open Spec Sys

namespace Sys

/-- More places than things means a thing in two places. -/
theorem length_le_of_assigned {ids : List ClientId} {L : List ConnId} (hL : L.Nodup) (f : ConnId → ClientId)
    (hf : ∀ d ∈ L, f d ∈ ids) (hinj : ∀ d ∈ L, ∀ e ∈ L, f d = f e → d = e) : L.length ≤ ids.length := by
  induction L generalizing ids with
  | nil => exact Nat.zero_le _
  | cons d L ih =>
    obtain ⟨h1, h2⟩ := List.nodup_cons.mp hL
    have hd := hf d List.mem_cons_self
    have := ih (ids := ids.erase (f d)) h2 (fun e he => ?_) fun e he g hg => hinj e (List.mem_cons_of_mem _ he) g (List.mem_cons_of_mem _ hg)
    · rw [List.length_erase_of_mem hd] at this
      have := List.length_pos_of_mem hd
      simp only [List.length_cons]
      omega
    · refine (List.mem_erase_of_ne fun hh => ?_).mpr (hf e (List.mem_cons_of_mem _ he))
      have := hinj e (List.mem_cons_of_mem _ he) d List.mem_cons_self hh
      subst this
      exact h1 he

/-- A client is reached on at most one connection. -/
theorem reached_one {env : Env} {peers : ConnId → Peer} {s : Sys} (h : Inv env peers s) (ha : s.handlerAlive = true) {x : ClientId} {d e : ConnId}
    (hd : ReachedOn env.auth s.served x d) (he : ReachedOn env.auth s.served x e) : d = e := by
  have h1 := (session_reached h ha x d).mpr hd
  rw [(session_reached h ha x e).mpr he] at h1
  exact (Option.some.inj h1).symm

/-- A client that is reached was accepted. -/
theorem reached_accepted {auth : IdentityProvider} {evs : List ClientEvent} {x : ClientId} {d : ConnId} (h : ReachedOn auth evs x d) :
    x ∈ acceptedIds auth evs := by
  obtain ⟨pre, p, addr, post, rfl, hx, hl, _⟩ := h
  unfold acceptedIds
  rw [List.mem_eraseDups, List.mem_filterMap]
  exact ⟨_, List.mem_append_right _ List.mem_cons_self, by simp [hl, hx]⟩

end Sys

/-! ### C148 -/

/-- C148 is violated. Let any number of clients connect without a client id, and go away. If every task gets its turn again and again and the
sockets take what is written, then in the end the broker is at rest and keeps all their sockets, for ever. -/
theorem C148_leak_fails (env : Env) (N : Nat) (uuid : ConnId → String) (hu : ∀ c d, uuid c = uuid d → c = d) (addr : ConnId → SocketAddr) :
    ∃ B, ∀ peers, (∀ c, (peers c).addr = addr c ∧ (peers c).uuid = uuid c ∧ (peers c).segs.flatten = clientBytes [hello ""]
        ∧ (peers c).fin = .eof) →
      (∀ c, c < N → B ≤ (peers c).script.length) → ∀ σ, Fair N σ → (∀ n, σ n ≠ .ctrlC) →
      ∃ n, (∀ m, n ≤ m → run env (init peers) (firstSteps σ m) = run env (init peers) (firstSteps σ n))
        ∧ ∀ d : ConnId, (d : Nat) < N → KeptInVain (run env (init peers) (firstSteps σ n)) d := by
  have hs : Sendable [hello ""] := fun x hx => by
    rw [List.mem_singleton.mp hx]
    exact hello_sendable "" (by unfold Fits; decide +kernel) (by decide +kernel)
  have hshort : (clientBytes [hello ""]).length < 4096 := by decide +kernel
  have honly : ∀ ps, Decodes env.profile (clientBytes [hello ""]) .eof ps → ps <+: [.connect ⟨.mqtt3, "", 60, true, none, none, none⟩] :=
    fun ps h => decodes_client_only hs h
  obtain ⟨B, hB⟩ := enough_writes env (fun c => ⟨addr c, uuid c, [clientBytes [hello ""]], .eof, []⟩) N
  refine ⟨B, fun peers hin hlen σ hf hctrl => ?_⟩
  have hblock := hB peers (fun c => ⟨(hin c).1, (hin c).2.1, by simpa using (hin c).2.2.1, (hin c).2.2.2⟩) hlen σ hf.few
  have hdec : ∀ c ps, Decodes env.profile (peers c).segs.flatten (peers c).fin ps → ps <+: [.connect ⟨.mqtt3, "", 60, true, none, none, none⟩] := by
    intro c ps h
    rw [(hin c).2.2.1, (hin c).2.2.2] at h
    exact honly ps h
  have hconn : ∀ c p ps, Decodes env.profile (peers c).segs.flatten (peers c).fin (.connect p :: ps) →
      p = ⟨.mqtt3, "", 60, true, none, none, none⟩ := by
    intro c p ps h
    have := (List.cons_prefix_cons.mp (hdec c _ h)).1
    cases this
    rfl
  obtain ⟨n, h1, h2⟩ := done_sometime env peers hf (fun n => by
    have hinv := inv_run env peers (firstSteps σ n)
    refine not_fatal (reads_orderly_served hinv.reads) (fun ev hev => hinv.reads.from_conn ev (List.mem_append_left _ hev))
      (fun c q ps h => ?_) (.inl fun c ps h hm => ?_)
    · cases hconn c q ps h
      rfl
    · have := (hdec c ps h).subset hm
      simp at this) hblock hctrl
  refine ⟨n, h1, fun d hd => ?_⟩
  have hown : OwnIds env peers (· ≠ d) := by
    intro c e hc he p ps q qs hp hq
    have he : e = d := Classical.not_not.mp he
    subst he
    cases hconn c p ps hp
    cases hconn e q qs hq
    show (peers c).uuid ≠ (peers e).uuid
    rw [(hin c).2.1, (hin e).2.1]
    exact fun h => hc (hu c e h)
  have hend : (decoded env.profile [] (peers d).fin).1 = .err .connectionReset := by
    rw [(hin d).2.2.2]
    rfl
  exact C106_violation_fails env peers N σ n h2 d hd (not_spinning (by rw [(hin d).2.2.1]; exact hshort)) hown [hello ""] [] hs
    (by rw [(hin d).2.2.1, List.append_nil]) _ _ rfl rfl (by simp) (fun p hp => by rw [hend] at hp; cases hp) (by rw [hend]; simp)

/-- C148, the part that holds: if every task gets its turn again and again, then when all is done the sockets kept in vain are at most as many
as there are clients that were accepted and have not disconnected since, each client id counted once; among those whose sockets take what is
written. -/
theorem C148_bound_partial (env : Env) (peers : ConnId → Peer) (N : Nat) (σ : Nat → Step) (hf : Fair N σ) (n : Nat)
    (hn : ∀ m, n ≤ m → run env (init peers) (firstSteps σ m) = run env (init peers) (firstSteps σ n))
    (hdone : AllDone env N (run env (init peers) (firstSteps σ n))) (L : List ConnId) (hL : L.Nodup)
    (hk : ∀ d ∈ L, (d : Nat) < N ∧ ((run env (init peers) (firstSteps σ n)).conns d).wrBlocked = false
      ∧ KeptInVain (run env (init peers) (firstSteps σ n)) d) :
    (∀ ids : List ClientId, (∀ x d, ReachedOn env.auth ((run env (init peers) (firstSteps σ n)).log.map Prod.fst) x d → x ∈ ids) →
      L.length ≤ ids.length)
    ∧ L.length ≤ (acceptedIds env.auth ((run env (init peers) (firstSteps σ n)).log.map Prod.fst)).length := by
  have hinv := inv_run env peers (firstSteps σ n)
  have ha : (run env (init peers) (firstSteps σ n)).handlerAlive = true := by simp [handlerAlive, hdone.handler]
  have hex : ∀ d ∈ L, ∃ x, ReachedOn env.auth ((run env (init peers) (firstSteps σ n)).log.map Prod.fst) x d := by
    intro d hd
    obtain ⟨h1, h2, h3, h4⟩ := hk d hd
    have h5 := (C105_hung_up_exactly env peers N σ hf n hn hdone d h1 h2).1
    refine Classical.byContradiction fun hno => h4 (h5.mpr (.inr ⟨h3, fun x hx => hno ⟨x, hx⟩⟩))
  have key : ∀ ids : List ClientId, (∀ x d, ReachedOn env.auth ((run env (init peers) (firstSteps σ n)).log.map Prod.fst) x d → x ∈ ids) →
      L.length ≤ ids.length := by
    intro ids hids
    obtain ⟨f, hspec⟩ := Classical.axiomOfChoice (r := fun d x => d ∈ L → ReachedOn env.auth
        ((run env (init peers) (firstSteps σ n)).log.map Prod.fst) x d) fun d => by
      by_cases hd : d ∈ L
      · obtain ⟨x, hx⟩ := hex d hd
        exact ⟨x, fun _ => hx⟩
      · exact ⟨"", fun h => absurd h hd⟩
    refine length_le_of_assigned hL f (fun d hd => hids _ d (hspec d hd)) fun d hd e he hde => ?_
    have h1 := hspec d hd
    rw [hde] at h1
    exact reached_one hinv ha h1 (hspec e he)
  exact ⟨key, key _ fun x d h => reached_accepted h⟩

/-! ### Examples -/

/-- Two clients without client id that go away, with sockets that take `k` writes. -/
def passersBy (k : Nat) : ConnId → Peer := fun c =>
  ⟨someAddr, String.ofList (List.replicate c 'x'), [clientBytes [hello ""]], .eof, List.replicate k (.accept 100)⟩

-- C148: both sockets are kept for ever
example : ∃ k n, (∀ m, n ≤ m → run exampleEnv (init (passersBy k)) (firstSteps roundRobin m) = run exampleEnv (init (passersBy k)) (firstSteps roundRobin n))
    ∧ KeptInVain (run exampleEnv (init (passersBy k)) (firstSteps roundRobin n)) 0
    ∧ KeptInVain (run exampleEnv (init (passersBy k)) (firstSteps roundRobin n)) 1 := by
  obtain ⟨B, hB⟩ := C148_leak_fails exampleEnv 2 (fun c => String.ofList (List.replicate c 'x'))
    (fun c d h => by simpa using congrArg (fun s => s.toList.length) h) (fun _ => someAddr)
  obtain ⟨n, h1, h2⟩ := hB (passersBy B) (fun c => ⟨rfl, rfl, by simp [passersBy], rfl⟩) (fun c _ => by simp [passersBy]) roundRobin roundRobin_fair
    roundRobin_ctrlC
  exact ⟨B, n, h1, h2 0 (by decide), h2 1 (by decide)⟩

-- C148: one of the two that leave ("s") did not disconnect; its socket is kept, and it is the only one
example : ∃ k n, KeptInVain (run exampleEnv (init (leavers k)) (firstSteps roundRobin n)) 0
    ∧ 1 ≤ (acceptedIds exampleEnv.auth ((run exampleEnv (init (leavers k)) (firstSteps roundRobin n)).log.map Prod.fst)).length := by
  obtain ⟨k, n, h1, h2, h3⟩ := leavers_rest
  have hno : ∀ p, (decoded exampleEnv.profile badSubscribe (leavers k 0).fin).1 ≠ .ok p := by
    intro p hp; rw [bad_rejected] at hp; cases hp
  have g : KeptInVain (run exampleEnv (init (leavers k)) (firstSteps roundRobin n)) 0 :=
    C106_violation_fails exampleEnv (leavers k) 2 roundRobin n h2 0 (by decide) (not_spinning (leavers_short k 0)) (leavers_ownIds k)
      subscriberPackets badSubscribe subscriber_sendable (by simp [leavers]) _ _ rfl rfl (by simp [meaning]) hno (by rw [bad_rejected]; simp)
  exact ⟨k, n, g, (C148_bound_partial exampleEnv (leavers k) 2 roundRobin roundRobin_fair n h1 h2 [0] (by simp) (fun d hd => by
    rw [List.mem_singleton.mp hd]
    exact ⟨by decide, h3 0 (by decide), g⟩)).2⟩

end Ratel
