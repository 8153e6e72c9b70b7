/-
C173: the full log tells what the broker did.
-/
import Verif.Proofs.LogWhole
import Verif.Props.Journal
import Verif.Spec.Users

namespace Ratel

open Spec Sys

/-- C173. If two executions, of whatever clients and whatever password files, leave the same records of the packet handler at level TRACE, then the
same was handled, in the same order: every CONNECT with all it says, and whether and why it was refused, every packet with all it says and the client id
it came from, and every end of a connection. Not told are only the addresses and connections. -/
theorem C173_events (t : Texts) (env env' : Env) (peers peers' : ConnId → Peer) (sched sched' : List Step)
    (h : (transcript t env (init peers) sched).filter ofHandler = (transcript t env' (init peers') sched').filter ofHandler) :
    Matched (fun x y => SameStory x.1 y.1 ∧ refusal env.auth x.1 = refusal env'.auth y.1)
      (run env (init peers) sched).log (run env' (init peers') sched').log :=
  notes_matched (t := t) (by rw [← transcript_notes, ← transcript_notes, h])

/-- C173: so the log tells who has a session and which subscriptions are held (by C48 the broker is in the state after the events handled), or that
the broker has crashed. -/
theorem C173_state (t : Texts) (env env' : Env) (peers peers' : ConnId → Peer) (sched sched' : List Step)
    (h : (transcript t env (init peers) sched).filter ofHandler = (transcript t env' (init peers') sched').filter ofHandler) :
    SameStates (Broker.start.after env.auth ((run env (init peers) sched).log.map Prod.fst))
      (Broker.start.after env'.auth ((run env' (init peers') sched').log.map Prod.fst)) :=
  story_after (C173_events t env env' peers peers' sched sched' h) ⟨rfl, fun _ => rfl⟩

/-- C173 for the text of the log of the whole process at TRACE, from its start on. -/
theorem C173_text (t : Texts) (env env' : Env) (W W' : Nat) (peers peers' : ConnId → Peer) (addrs addrs' : List String) (bs bs' : List BStep)
    (log log' : List (List Char × LogRecord)) (h1 : ∀ x ∈ log, ' ' ∉ x.1) (h2 : ∀ x ∈ log', ' ' ∉ x.1)
    (hl : log.map Prod.snd = upTo .trace (Boot.transcript t env W ⟨Proc.start 0 peers, addrs, false⟩ bs))
    (hl' : log'.map Prod.snd = upTo .trace (Boot.transcript t env' W' ⟨Proc.start 0 peers', addrs', false⟩ bs'))
    (h : logText log = logText log') :
    Matched (fun x y => SameStory x.1 y.1 ∧ refusal env.auth x.1 = refusal env'.auth y.1)
      (Boot.run env W ⟨Proc.start 0 peers, addrs, false⟩ bs).proc.sys.log
      (Boot.run env' W' ⟨Proc.start 0 peers', addrs', false⟩ bs').proc.sys.log := by
  obtain ⟨sched, e1, e2⟩ := started_transcript t env W peers addrs bs
  obtain ⟨sched', e1', e2'⟩ := started_transcript t env' W' peers' addrs' bs'
  have hall : ∀ rs : List LogRecord, upTo .trace rs = rs := fun rs => List.filter_eq_self.mpr fun r _ => by
    cases r with | mk l _ _ => cases l <;> rfl
  have hsame : ofBroker (transcript t env (init peers) sched) = ofBroker (transcript t env' (init peers') sched') := by
    rw [← e2, ← e2', ← hall (Boot.transcript t env _ _ _), ← hall (Boot.transcript t env' _ _ _), ← hl, ← hl', C159_readable log log' h1 h2 h]
  rw [e1, e1']
  refine notes_matched (t := t) ?_
  have hk : ∀ rs : List LogRecord, (rs.filter ofHandler).filterMap (note t) = ((ofBroker rs).filter ofHandler).filterMap (note t) := by
    intro rs
    induction rs with
    | nil => rfl
    | cons r rs ih =>
      by_cases hr : housekeeping r = true
      · have e : ofBroker (r :: rs) = ofBroker rs := by unfold ofBroker; rw [List.filter_cons, if_neg (by simp [hr])]
        rw [e, ← ih, List.filter_cons]
        split
        · rename_i ho
          have hm : r.origin ≠ .handler := by
            intro hm
            simp [housekeeping, hm] at hr
          refine List.filterMap_cons_none ?_
          unfold note gotEvent
          rw [if_neg (fun hc => hm hc.2.1), shown_level (.inr hm)]
          rfl
        · rfl
      · have e : ofBroker (r :: rs) = r :: ofBroker rs := by unfold ofBroker; rw [List.filter_cons, if_pos (by simp [hr])]
        rw [e, List.filter_cons, List.filter_cons]
        split
        · rw [List.filterMap_cons, List.filterMap_cons, ih]
        · exact ih
  rw [← transcript_notes, ← transcript_notes, hk, hk (transcript t env' _ _), hsame]

/-! ### Examples -/

/-- A client that sends one CONNECT and one SUBSCRIBE, on whatever connection. -/
def tellingPeers : ConnId → Peer := fun _ => ⟨someAddr, "u", [clientBytes (owner "u" "p")], .eof, []⟩

/-- Two executions on different connections and in a different order. -/
example : Matched (fun x y => SameStory x.1 y.1 ∧ refusal openEnv.auth x.1 = refusal openEnv.auth y.1)
    (run openEnv (init tellingPeers) [.read 3, .read 3, .handler 0, .handler 0, .read 3, .read 3, .handler 0]).log
    (run openEnv (init tellingPeers) [.read 5, .read 5, .read 5, .read 5, .handler 7, .handler 7, .handler 7, .read 2]).log :=
  C173_events exampleTexts openEnv openEnv tellingPeers tellingPeers _ _ (by decide +kernel)

example : (run openEnv (init tellingPeers) [.read 3, .read 3, .handler 0, .handler 0, .read 3, .read 3, .handler 0]).log.length = 2 := by decide +kernel

/-- After these "s" has a session and a subscription. -/
example : SameStates
    (Broker.start.after openEnv.auth
      ((run openEnv (init tellingPeers) [.read 3, .read 3, .handler 0, .handler 0, .read 3, .read 3, .handler 0]).log.map Prod.fst))
    (Broker.start.after openEnv.auth
      ((run openEnv (init tellingPeers) [.read 5, .read 5, .read 5, .read 5, .handler 7, .handler 7, .handler 7, .read 2]).log.map Prod.fst)) :=
  C173_state exampleTexts openEnv openEnv tellingPeers tellingPeers _ _ (by decide +kernel)

/-- The steps of a process in which a client is accepted and sends its CONNECT. -/
def tellingSteps (c : ConnId) : List BStep :=
  [.bind true, .ready, .proc (.accept 0 c), .proc (.task (.read c)), .proc (.task (.read c)), .proc (.task (.handler 0))]

/-- The same for the text of the log of the process, with different connections. -/
example (time : List Char) (ht : ' ' ∉ time) : Matched (fun x y => SameStory x.1 y.1 ∧ refusal exampleEnv.auth x.1 = refusal exampleEnv.auth y.1)
    (Boot.run exampleEnv 1 ⟨Proc.start 0 (otherPeers "p"), ["a:1"], false⟩ (tellingSteps 3)).proc.sys.log
    (Boot.run exampleEnv 1 ⟨Proc.start 0 (userPeers "u"), ["a:1"], false⟩ (tellingSteps 5)).proc.sys.log := by
  refine C173_text exampleTexts exampleEnv exampleEnv 1 1 (otherPeers "p") (userPeers "u") ["a:1"] ["a:1"] (tellingSteps 3) (tellingSteps 5)
    ((upTo .trace (Boot.transcript exampleTexts exampleEnv 1 ⟨Proc.start 0 (otherPeers "p"), ["a:1"], false⟩ (tellingSteps 3))).map fun r => (time, r))
    ((upTo .trace (Boot.transcript exampleTexts exampleEnv 1 ⟨Proc.start 0 (otherPeers "p"), ["a:1"], false⟩ (tellingSteps 3))).map fun r => (time, r))
    ?_ ?_ ?_ ?_ rfl
  · intro x hx
    obtain ⟨r, _, rfl⟩ := List.mem_map.mp hx
    exact ht
  · intro x hx
    obtain ⟨r, _, rfl⟩ := List.mem_map.mp hx
    exact ht
  · rw [List.map_map]; exact List.map_id _
  · rw [List.map_map]
    refine (List.map_id _).trans ?_
    decide +kernel

example : (Boot.run exampleEnv 1 ⟨Proc.start 0 (otherPeers "p"), ["a:1"], false⟩ (tellingSteps 3)).proc.sys.log.length = 1 := by decide +kernel

end Ratel
