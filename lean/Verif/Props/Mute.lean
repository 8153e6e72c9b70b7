/-
C166: connections on which no CONNECT comes.
-/
import Verif.Proofs.Mute

namespace Ratel

open Spec Sys

/-- C166. A connection on which no CONNECT comes is closed at once, whatever else goes on in the broker, unless reading its first packet does not
come to an end: nothing is left of it as soon as its read task and then its write task had a turn. -/
theorem C166_closed_partial (env : Env) (peers : ConnId → Peer) (c : ConnId) (hn : NoConnect (peers c).segs.flatten)
    (hu : ¬ Unfinished env (peers c)) (a b d : List Step) :
    Freed (run env (init peers) (a ++ .read c :: b ++ .write c :: d)) c := by
  have keep : ∀ (l : List Step) s, Freed s c → Freed (run env s l) c := by
    intro l
    induction l with
    | nil => exact fun s h => h
    | cons st l ih => exact fun s h => ih _ (Files.freed_step env s st h)
  have h1 := read_ends env peers a hn hu
  have h2 : ((run env (init peers) (a ++ .read c :: b)).conns c).phase = .ended := by
    have key : ∀ (l : List Step) s, (s.conns c).phase = .ended → ((run env s l).conns c).phase = .ended := by
      intro l
      induction l with
      | nil => exact fun s h => h
      | cons st l ih => exact fun s h => ih _ (ended_step env s st h)
    have := key b _ h1
    rwa [← run_append, List.append_assoc] at this
  have h3 := keep d _ (write_ends env peers _ hn h2)
  rwa [← run_append, List.append_assoc] at h3

/-- C166, for connections of fewer than 4096 bytes: all are closed but those that are mute. -/
theorem C166_short_partial (env : Env) (peers : ConnId → Peer) (c : ConnId) (hn : NoConnect (peers c).segs.flatten)
    (hs : (peers c).segs.flatten.length < 4096) (hm : ¬ Mute env.profile (peers c)) (a b d : List Step) :
    Freed (run env (init peers) (a ++ .read c :: b ++ .write c :: d)) c :=
  C166_closed_partial env peers c hn (fun h => hm (unfinished_mute hs h)) a b d

/-- C166 fails: a connection whose first packet does not come to an end is kept for ever, whatever happens. Mute connections are such, however
much the buffer holds. -/
theorem C166_kept_fails (env : Env) (peers : ConnId → Peer) (c : ConnId) (hu : Unfinished env (peers c)) (sched : List Step) :
    ¬ Freed (run env (init peers) sched) c := by
  rintro ⟨_, h, _⟩
  rcases unfinished_run env peers hu sched with h' | h' <;> rw [h'] at h <;> cases h

namespace Files

theorem run_append (env : Env) (W F : Nat) (p : Proc) (a b : List PStep) : run env W F p (a ++ b) = run env W F (run env W F p a) b :=
  List.foldl_append

/-- An execution with a limited number of sockets is one without limit. -/
theorem run_unlimited (env : Env) (W F : Nat) (p : Proc) (ps : List PStep) : ∃ qs, run env W F p ps = Proc.run env W p qs := by
  induction ps generalizing p with
  | nil => exact ⟨[], rfl⟩
  | cons st ps ih =>
    obtain ⟨qs, h⟩ := ih (step env W F p st)
    show ∃ qs, run env W F (step env W F p st) ps = _
    rw [h]
    unfold step
    split
    · exact ⟨qs, rfl⟩
    · exact ⟨st :: qs, rfl⟩

theorem run_sys (env : Env) (W F L : Nat) (peers : ConnId → Peer) (ps : List PStep) :
    ∃ sched, (run env W F (Proc.start L peers) ps).sys = Sys.run env (init peers) sched := by
  obtain ⟨qs, h⟩ := run_unlimited env W F (Proc.start L peers) ps
  rw [h]
  obtain ⟨sched, h1, _⟩ := (Proc.pinv_run env W L peers qs).sys
  exact ⟨sched, h1⟩

/-- Such connections, once accepted, keep their sockets. -/
theorem mute_sockets (env : Env) (W F L : Nat) (peers : ConnId → Peer) {A : List ConnId} (hA : A.Nodup) (hm : ∀ c ∈ A, Unfinished env (peers c))
    (ps : List PStep) (hacc : ∀ c ∈ A, c ∈ (run env W F (Proc.start L peers) ps).accepted) :
    A.length ≤ sockets (run env W F (Proc.start L peers) ps) := by
  unfold sockets
  refine List.Nodup.length_le_of_subset hA fun c hc => ?_
  refine List.mem_filter.mpr ⟨hacc c hc, ?_⟩
  obtain ⟨sched, h⟩ := run_sys env W F L peers ps
  rw [holds_iff, h]
  exact C166_kept_fails env peers c (hm c hc) sched

theorem accepted_step {env : Env} {W F : Nat} {p : Proc} (h : F ≤ sockets p) (st : PStep) : (step env W F p st).accepted = p.accepted := by
  unfold step
  split
  · rfl
  · rename_i hr
    cases st with
    | accept l c => exact absurd (by simpa [refused] using h) hr
    | task st => simp only [Proc.step]; split <;> rfl
    | stopListening l => simp only [Proc.step]; split <;> rfl
    | messagingEnds => simp only [Proc.step]; split <;> rfl
    | signal =>
      simp only [Proc.step, Proc.stepSignal]
      repeat' split
      all_goals rfl
    | main =>
      simp only [Proc.step, Proc.stepMain]
      repeat' split
      all_goals rfl

end Files

/-- C166 fails: once there are as many such connections as the process may have sockets, nobody else is accepted any more, whatever happens;
and none of them is closed. -/
theorem C166_full_fails (env : Env) (W F L : Nat) (peers : ConnId → Peer) (A : List ConnId) (hA : A.Nodup) (hF : A.length = F)
    (hm : ∀ c ∈ A, Unfinished env (peers c)) (ps : List PStep) (hacc : ∀ c ∈ A, c ∈ (Files.run env W F (Proc.start L peers) ps).accepted)
    (qs : List PStep) :
    (Files.run env W F (Proc.start L peers) (ps ++ qs)).accepted = (Files.run env W F (Proc.start L peers) ps).accepted
    ∧ ∀ c ∈ A, ¬ Freed (Files.run env W F (Proc.start L peers) (ps ++ qs)).sys c := by
  refine ⟨?_, fun c hc => ?_⟩
  · refine snoc_induction (P := fun qs => (Files.run env W F (Proc.start L peers) (ps ++ qs)).accepted
      = (Files.run env W F (Proc.start L peers) ps).accepted) (by rw [List.append_nil]) (fun l st ih => ?_) qs
    rw [← List.append_assoc, Files.run_snoc, Files.accepted_step, ih]
    rw [← hF]
    exact Files.mute_sockets env W A.length L peers hA hm _ (fun c hc => by rw [← hF] at ih hacc; rw [ih]; exact hacc c hc)
  · obtain ⟨sched, h⟩ := Files.run_sys env W F L peers (ps ++ qs)
    rw [h]
    exact C166_kept_fails env peers c (hm c hc) sched

/-- C166 fails: that can be brought about from the start, by connecting `F` times: all others are kept out from then on. -/
theorem C166_keep_out_fails (env : Env) (W F L : Nat) (hW : 0 < W) (hL : 0 < L) (peers : ConnId → Peer) (A : List ConnId) (hA : A.Nodup)
    (hF : A.length = F) (hm : ∀ c ∈ A, Unfinished env (peers c)) :
    ∃ ps, ∀ qs c, c ∈ (Files.run env W F (Proc.start L peers) (ps ++ qs)).accepted ↔ c ∈ A := by
  have key : ∀ B : List ConnId, B.Nodup → B.length ≤ F →
      Files.run env W F (Proc.start L peers) (B.map (.accept 0)) = { Proc.start L peers with accepted := B.reverse } := by
    intro B
    refine snoc_induction (P := fun B => B.Nodup → B.length ≤ F →
      Files.run env W F (Proc.start L peers) (B.map (.accept 0)) = { Proc.start L peers with accepted := B.reverse }) (fun _ _ => rfl)
      (fun l c ih hn hl => ?_) B
    rw [List.nodup_append] at hn
    rw [List.length_append, List.length_singleton] at hl
    rw [List.map_append, List.map_singleton, Files.run_snoc, ih hn.1 (by omega)]
    have hc : c ∉ l := fun h => hn.2.2 c h c (by simp) rfl
    have hs : ¬ F ≤ Files.sockets { Proc.start L peers with accepted := l.reverse } := by
      have : Files.sockets { Proc.start L peers with accepted := l.reverse } ≤ l.length := by
        unfold Files.sockets
        exact Nat.le_trans (List.length_filter_le _ _) (by simp)
      omega
    have hsp : ({ Proc.start L peers with accepted := l.reverse } : Proc).spinning = 0 := by
      unfold Proc.spinning
      rw [List.length_eq_zero_iff, List.filter_eq_nil_iff]
      intro d _
      simp [Proc.start, init, Peer.conn]
    simp only [Proc.start] at hs hsp
    simp [Files.step, Files.refused, hs, Proc.step, Proc.free, Proc.gone, hsp, hW, hc, Proc.start, hL]
  refine ⟨A.map (.accept 0), fun qs c => ?_⟩
  have h0 := key A hA (by omega)
  have h := (C166_full_fails env W F L peers A hA hF hm (A.map (.accept 0)) (by rw [h0]; simp) qs).1
  rw [h, h0]
  simp

/-! ### Concrete cases -/

/-- Connections 0 and 1 send the first byte of a CONNECT and nothing more; the others send a length field and close. -/
def lingering (c : ConnId) : Peer :=
  if (c : Nat) < 2 then ⟨⟨0, c⟩, "u", [[0x10]], .silence, []⟩ else ⟨⟨0, c⟩, "u", [[0x10]], .eof, []⟩

theorem lingering_mute {c : ConnId} (h : (c : Nat) < 2) : Mute exampleEnv.profile (lingering c) := by
  unfold lingering
  rw [if_pos h]
  exact ⟨(by decide : [(0x10 : UInt8)].length < 4096), rfl, (by decide +kernel : (decoded exampleEnv.profile [0x10] .silence).1 = .pending)⟩

-- C166: a process that may have two sockets is closed to everybody but connections 0 and 1
example : ∃ ps, ∀ qs c, c ∈ (Files.run exampleEnv 4 2 (Proc.start 1 lingering) (ps ++ qs)).accepted ↔ c ∈ [(0 : ConnId), 1] :=
  C166_keep_out_fails exampleEnv 4 2 1 (by decide) (by decide) lingering [0, 1] (by decide) rfl
    (fun c hc => mute_unfinished <| lingering_mute (by rcases List.mem_cons.mp hc with rfl | hc; exact Nat.zero_lt_two; rw [List.mem_singleton.mp hc]; exact Nat.one_lt_two))

-- C166: connection 5 ends within its packet and is closed
example (a b d : List Step) : Freed (run exampleEnv (init lingering) (a ++ .read 5 :: b ++ .write 5 :: d)) 5 := by
  refine C166_short_partial exampleEnv lingering 5 ?_ (by decide) (fun h => ?_) a b d
  · intro first lf n body rest p he hl
    obtain ⟨b, l, rfl⟩ : ∃ b l, lf = b :: l := by
      cases lf with
      | nil => cases hl
      | cons b l => exact ⟨b, l, rfl⟩
    have := congrArg List.length he
    simp [lingering] at this
  · cases h.open_

end Ratel
