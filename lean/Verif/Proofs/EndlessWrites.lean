/-
What happens for ever: what the broker answers is written.
-/
import Verif.Proofs.EndlessReads
import Verif.Proofs.Rounds
import Verif.Props.View

namespace Ratel.Live

open Spec

variable {env : Env} {peers : ConnId → Sys.Peer} {σ : Nat → OStep}

local notation "ℓ" => nth env peers σ
local notation "ι" => brought peers σ
local notation "κ" => closed env peers σ

/-- F. What the sequential broker answers is put into the channels. -/
theorem gets_answered {N : Nat} (he : Endless N σ) (hup : Up env peers σ) (n : Nat) :
    ∃ m, n ≤ m ∧ ∀ d, Broker.start.outputs env.auth ((ℓ n).opn.sys.log.map Prod.fst) d <+: ((ℓ m).opn.sys.conns d).delivered := by
  obtain ⟨m, hm, hi⟩ := idle_again he hup n
  refine ⟨m, hm, fun d => ?_⟩
  rw [(same m).handler] at hi
  obtain ⟨_, _, ho⟩ := Sys.rest_of_idle (inv (env := env) (peers := peers) (σ := σ) m).serves hi
  have := ho d
  rw [← (same m).delivered] at this
  rw [this]
  refine Sys.outputs_prefix _ ?_ d
  have e : (κ m).served = (ℓ m).opn.sys.log.map Prod.fst := by rw [(same m).log]; rfl
  rw [e]
  exact served_mono hm

/-- Between two packets. -/
theorem closed_conn (n : Nat) {d : ConnId} (h : (ℓ n).opn.hand d = none) : (κ n).conns d = (ℓ n).opn.sys.conns d := by
  show Open.fill env ⟨[], .silence, []⟩ ((ℓ n).opn.sys.conns d) ((ℓ n).opn.hand d) = _
  rw [h]
  exact Open.nothing_conn _

theorem packets_prefix {ws us : List ControlPacket} (h : ws.map ServerEvent.controlPacket <+: us.map .controlPacket) : ws <+: us := by
  have := h.filterMap fun e => match e with
    | .controlPacket p => some p
    | .disconnect => none
  have e : ∀ l : List ControlPacket, (l.map ServerEvent.controlPacket).filterMap (fun e => match e with
    | .controlPacket p => some p
    | .disconnect => none) = l := by
    intro l
    induction l with
    | nil => rfl
    | cons x l ih => simp only [List.map_cons, List.filterMap_cons, ih]
  rwa [e, e] at this

theorem packets_of (l : List ServerEvent) : ∃ ws : List ControlPacket, l.takeWhile (· ≠ .disconnect) = ws.map .controlPacket := by
  induction l with
  | nil => exact ⟨[], rfl⟩
  | cons e l ih =>
    cases e with
    | controlPacket p =>
      obtain ⟨ws, h⟩ := ih
      exact ⟨p :: ws, by simpa using h⟩
    | disconnect => exact ⟨[], by simp⟩

theorem begun_sent (n : Nat) (d : ConnId) : (begun (ℓ n) d).map .controlPacket <+: ((ℓ n).opn.sys.conns d).delivered := by
  have h := ((inv (env := env) (peers := peers) (σ := σ) n).writes d).sent
  have e : ((κ n).conns d).written = begun (ℓ n) d := fill_written env _ _ _
  rw [e, ← (same n).delivered] at h
  exact (List.prefix_append _ _).trans h

theorem goOn_begun (env : Env) (o : Open) (c : ConnId) (p : ControlPacket) :
    ((Open.goOn env o c p).sys.conns c).written ++ ((Open.goOn env o c p).hand c).toList = (o.sys.conns c).written ++ [p] := by
  unfold Open.goOn
  rcases @Encoder.writePacket _ (WStream.sink env.alloc) p (o.sys.conns c).wr with ⟨r, wr⟩
  cases r <;> simp [Open.setHand, Open.setConn, Sys.setConn, Open.endWrite]

/-- G. What is put into the channel of a connection is written, up to the order to disconnect. -/
theorem gets_written {N : Nat} (he : Endless N σ) (n : Nat) {d : Nat} (hd : d < N) {ws : List ControlPacket}
    (hw : ws.map .controlPacket <+: ((ℓ n).opn.sys.conns d).delivered) :
    ∃ m, n ≤ m ∧ (ℓ m).opn.hand d = none ∧ ws <+: ((ℓ m).opn.sys.conns d).written := by
  have key : ∀ i, ∃ m, n ≤ m ∧ (ℓ m).opn.hand d = none ∧ (ws <+: ((ℓ m).opn.sys.conns d).written ∨ i ≤ (begun (ℓ m) d).length) := by
    intro i
    induction i with
    | zero =>
      obtain ⟨m, hm, hh⟩ := hand_free (env := env) (peers := peers) he hd n
      exact ⟨m, hm, hh, .inr (Nat.zero_le _)⟩
    | succ i ih =>
      obtain ⟨m, hm, hh, h | hi⟩ := ih
      · exact ⟨m, hm, hh, .inl h⟩
      · obtain ⟨k, hk, hhk, ht⟩ := until_turn (P := fun k => (ℓ k).opn.hand d = none) (T := fun st => st = .task (.write d))
          (he.write d hd) (fun k hk ht => (live_hand (env := env) (peers := peers) k ht).1.trans hk) m hh
        by_cases hdone : ws <+: ((ℓ k).opn.sys.conns d).written
        · exact ⟨k, by omega, hhk, .inl hdone⟩
        · have hdel := hw.trans (delivered_mono (env := env) (peers := peers) (σ := σ) (show n ≤ k by omega) d)
          have hcc := closed_conn (env := env) (peers := peers) (σ := σ) k hhk
          have hpre : ∀ rest, ((ℓ k).opn.sys.conns d).delivered = ((ℓ k).opn.sys.conns d).written.map .controlPacket ++ rest →
              ∃ q rest', rest = .controlPacket q :: rest' := by
            intro rest e
            rw [e] at hdel
            exact Sys.ahead hdel hdone
          have hwi := (inv (env := env) (peers := peers) (σ := σ) k).writes d
          have hwa := Sys.wroteAll_run env (ι k) (ℓ k).opn.did d
          rw [← closed_run, hcc] at hwa
          rw [hcc] at hwi
          cases ho : ((ℓ k).opn.sys.conns d).rxOpen with
          | false =>
            obtain ⟨rest, h1, h2⟩ := hwa ho
            obtain ⟨q, rest', hq⟩ := hpre rest h1
            rcases h2 with h2 | ⟨_, h2⟩ <;> rw [h2] at hq <;> cases hq
          | true =>
            obtain ⟨q, rest', hq⟩ := hpre _ (hwi.all ho)
            have hb : (begun (ℓ (k + 1)) d).length = (begun (ℓ k) d).length + 1 := by
              unfold begun
              rw [live_write (env := env) (peers := peers) k ht, hhk]
              have e : Open.stepWrite env (ℓ k).opn d
                  = Open.goOn env { (ℓ k).opn.setConn d { (ℓ k).opn.sys.conns d with queue := rest' } with did := (ℓ k).opn.did ++ [.write d] } d q := by
                unfold Open.stepWrite
                simp only [hhk, ho, not_blocked, Bool.not_false, Bool.and_self, ↓reduceIte, hq]
              rw [e, goOn_begun]
              simp [Open.setConn, Sys.setConn]
            have h1 := (begun_mono (env := env) (peers := peers) (σ := σ) hk d).length_le
            obtain ⟨m', hm', hh'⟩ := hand_free (env := env) (peers := peers) he hd (k + 1)
            have h2 := (begun_mono (env := env) (peers := peers) (σ := σ) hm' d).length_le
            exact ⟨m', by omega, hh', .inr (by omega)⟩
  obtain ⟨m, hm, hh, h | hi⟩ := key ws.length
  · exact ⟨m, hm, hh, h⟩
  · refine ⟨m, hm, hh, ?_⟩
    have h1 := begun_sent (env := env) (peers := peers) (σ := σ) m d
    have e : begun (ℓ m) d = ((ℓ m).opn.sys.conns d).written := by unfold begun; rw [hh]; simp
    rw [e] at h1 hi
    have h2 := hw.trans (delivered_mono (env := env) (peers := peers) (σ := σ) hm d)
    exact packets_prefix (List.prefix_of_prefix_length_le h2 h1 (by simpa using hi))

theorem written_step (env : Env) (o : Open) (st : OStep) (d : ConnId) : (o.sys.conns d).written <+: ((Open.step env o st).sys.conns d).written := by
  by_cases hf : ∀ t, st = .task t → ∃ c, t = .write c
  · exact (frame_step env o st hf).written d
  · obtain ⟨t, ht⟩ := Classical.not_forall.mp hf
    obtain ⟨rfl, hnw⟩ := Classical.not_imp.mp ht
    have key : ((Sys.step env o.sys t).conns d).written = (o.sys.conns d).written → (o.sys.conns d).written <+: ((Sys.step env o.sys t).conns d).written :=
      fun e => by rw [e]; exact List.prefix_rfl
    cases t with
    | read c =>
      simp only [Open.step, Open.stepRead]
      split
      · exact List.prefix_rfl
      · exact (Sys.later_step env o.sys (.read c)).written d
    | write c => exact absurd ⟨c, rfl⟩ hnw
    | handler now => exact (Sys.later_step env o.sys (.handler now)).written d
    | ctrlC => exact (Sys.later_step env o.sys .ctrlC).written d
    | stop => exact (Sys.later_step env o.sys .stop).written d

theorem written_mono {n m : Nat} (h : n ≤ m) (d : ConnId) : ((ℓ n).opn.sys.conns d).written <+: ((ℓ m).opn.sys.conns d).written := by
  obtain ⟨k, rfl⟩ := Nat.exists_eq_add_of_le h
  clear h
  induction k with
  | zero => exact List.prefix_rfl
  | succ k ih =>
    refine ih.trans ?_
    rw [show n + (k + 1) = (n + k) + 1 by omega, nth_succ]
    rcases open_step env (ℓ (n + k)) (σ (n + k)) with e | ⟨e, _⟩
    · rw [e]; exact written_step env _ _ d
    · rw [e]; exact List.prefix_rfl

/-- A read task that spins spins for ever. -/
theorem stuck_mono {n m : Nat} (h : n ≤ m) {c : ConnId} (hs : ((ℓ n).opn.sys.conns c).phase = .stuck) : ((ℓ m).opn.sys.conns c).phase = .stuck := by
  obtain ⟨k, rfl⟩ := Nat.exists_eq_add_of_le h
  clear h
  induction k with
  | zero => exact hs
  | succ k ih =>
    by_cases ht : σ (n + k) = .task (.read c)
    · rw [show n + (k + 1) = (n + k) + 1 by omega, nth_succ]
      rcases open_step env (ℓ (n + k)) (σ (n + k)) with e | ⟨e, _⟩
      · rw [e, ht]
        simp only [Open.step, Open.stepRead]
        split
        · exact ih
        · simp only [Sys.stepRead]
          have hset : ∀ k' : Conn, k'.phase = .stuck → (((ℓ (n + k)).opn.sys.setConn c k').conns c).phase = .stuck := fun k' h => by
            rw [Sys.setConn_self]; exact h
          split
          · split
            · split
              · simp only [Sys.setConn_self]; exact ih
              · exact ih
            · exact hset _ ih
          · refine hset _ ?_
            unfold Sys.readTask
            simp only [ih]
      · rw [e]; exact ih
    · exact ((live_reader (env := env) (peers := peers) (n + k) ht).2).trans ih

/-- Bytes, between two packets. -/
theorem bytes_written (n : Nat) {d : ConnId} (h : (ℓ n).opn.hand d = none) (hf : ∀ o ∈ (ι n d).script, o ≠ .fail) :
    allBytes ((ℓ n).opn.sys.conns d).wr = wireOf ((ℓ n).opn.sys.conns d).written := by
  have hinv := inv (env := env) (peers := peers) (σ := σ) n
  have hcc := closed_conn (env := env) (peers := peers) (σ := σ) n h
  have hs : ∀ p ∈ ((κ n).conns d).written, ServerPacket p := by
    intro p hp
    refine Sys.delivered_server (Sys.reads_orderly_served hinv.reads) (d := d) ((hinv.serves.delivered d).subset ((hinv.writes d).sent.subset ?_))
    exact List.mem_append_left _ (List.mem_map_of_mem hp)
  have := ((hinv.writes d).clean hf hs).2.1
  rw [hcc] at this
  exact this (not_blocked n d)

end Ratel.Live
