/-
C120: how much work one message makes.
-/
import Verif.Proofs.Load
import Verif.Props.Memory
import Verif.Props.Rules

namespace Ratel

open Decoder Encoder Spec Sys

/-! ### C120 -/

/-- C120 for well-behaved messages: for as long as the packet handler is busy with an event, it has no more to send than there are
subscriptions (or two things, for a CONNECT), unless the event is a message whose topic has wildcards. -/
theorem C120_sends_partial (env : Env) (peers : ConnId → Peer) (sched : List Step) (todo : List (ConnId × ServerEvent))
    (hh : (run env (init peers) sched).handler = .busy todo)
    (hpl : ∀ id q tx, ((run env (init peers) sched).log.map Prod.fst).getLast? = some (.controlPacket id (.publish q) tx) →
      PlainTopic q.message.topic) :
    todo.length ≤ max 2 (held ((run env (init peers) sched).log.map Prod.fst)).length := by
  revert todo
  refine snoc_induction (P := fun sched => (∀ id q tx, ((run env (init peers) sched).log.map Prod.fst).getLast? = some (.controlPacket id (.publish q) tx) →
      PlainTopic q.message.topic) → ∀ todo, (run env (init peers) sched).handler = .busy todo →
      todo.length ≤ max 2 (held ((run env (init peers) sched).log.map Prod.fst)).length) ?_ ?_ sched hpl
  · intro _ todo h; cases h
  · clear hpl sched
    intro sched st ih hpl todo hh
    rw [run_append, run_cons] at hh hpl ⊢
    have hinv := inv_run env peers sched
    generalize run env (init peers) sched = s at *
    change (step env s st).handler = _ at hh
    change ∀ id q tx, ((step env s st).log.map Prod.fst).getLast? = _ → _ at hpl
    change _ ≤ max 2 (held ((step env s st).log.map Prod.fst)).length
    have keep : (step env s st).log = s.log → (step env s st).handler = s.handler →
        todo.length ≤ max 2 (held ((step env s st).log.map Prod.fst)).length := by
      intro h1 h2
      rw [h1] at hpl ⊢
      exact ih hpl todo (h2 ▸ hh)
    cases st with
    | read c =>
      refine keep ?_ ?_ <;>
      · simp only [step, stepRead]
        (repeat' split) <;> rfl
    | write c =>
      refine keep ?_ ?_ <;>
      · simp only [step, stepWrite]
        (repeat' split) <;> rfl
    | ctrlC => exact keep rfl rfl
    | stop =>
      simp only [step] at hh
      split at hh
      · split at hh
        · cases hh
        · rename_i h _; rw [h] at hh; cases hh
      · rename_i h
        have hs : step env s .stop = s := by
          simp only [step]
        exact keep (by rw [hs]) (by rw [hs])
    | handler now =>
      cases hs : s.handler with
      | idle =>
        cases he : s.events with
        | nil =>
          simp only [step, stepHandler, hs, he] at hh
          cases hh
        | cons ev rest =>
          have hrep : ∃ b, Rep s.messaging b ∧ b.subs = held (s.log.map Prod.fst) := by
            cases hinv.serves with
            | rest b _ ha hr _ => exact ⟨b, hr, after_subs ha⟩
            | sending _ _ _ _ _ _ h' => rw [hs] at h'; cases h'
            | failed _ _ _ h' => rw [hs] at h'; cases h'
            | broken _ _ _ _ _ _ h' => rw [hs] at h'; cases h'
          obtain ⟨b, hrep, hsub⟩ := hrep
          have hlog : (step env s (.handler now)).log = s.log ++ [(ev, now)] := by
            simp only [step, stepHandler, hs, he]
            split <;> rfl
          rw [hlog] at hpl ⊢
          simp only [step, stepHandler, hs, he] at hh
          cases hm : Handler.handle env.auth now s.messaging ev with
          | none => rw [hm] at hh; cases hh
          | some r =>
            obtain ⟨m', sends⟩ := r
            rw [hm] at hh
            have hsends : todo = sends := by
              cases sends with
              | nil => simp only at hh; cases hh
              | cons x xs => simp only at hh; cases hh; rfl
            subst hsends
            rcases sends_le env.auth now hrep hm with ⟨id, q, tx, rfl, hle⟩ | hle
            · have hplain := hpl id q tx (by simp)
              have h1 := sum_le_length b.subs (fun e => ways e.2 q.message.topic) fun e _ => ways_plain hplain
              have h2 : held ((s.log ++ [(ClientEvent.controlPacket id (.publish q) tx, now)]).map Prod.fst) = held (s.log.map Prod.fst) := by
                simp [held, subOps]
              rw [h2, ← hsub]
              omega
            · omega
      | busy td =>
        simp only [step, stepHandler, hs] at hh hpl ⊢
        cases td with
        | nil => cases hh
        | cons x td =>
          obtain ⟨d, e⟩ := x
          simp only at hh hpl ⊢
          split at hh
          · split at hh
            · rename_i h1 h2
              have hle := ih (by simpa [h1, h2] using hpl) _ hs
              have htd : td = todo := by
                by_cases ht : td = []
                · simp [ht] at hh
                · simpa [ht] using hh
              subst htd
              simp only [h1, h2, ↓reduceIte, setConn_log]
              rw [List.length_cons] at hle
              omega
            · rename_i h1 h2
              simp only [h1, h2, ↓reduceIte] at hpl ⊢
              exact ih hpl todo hh
          · cases hh
      | crashed =>
        simp only [step, stepHandler, hs] at hh
        cases hh
      | stopped =>
        simp only [step, stepHandler, hs] at hh
        cases hh

/-- C120 for well-behaved topics: along a topic without wildcards, no more nodes are looked at together than the tree has. -/
theorem C120_nodes_partial (r : SubscriptionsRepository) (t : String) (ht : PlainTopic t) (ts : List String) (hts : Levels t ts) (k : Nat) :
    (SubscriptionsRepository.walk (ts.take k) [r.root] []).1.length ≤ r.root.count := by
  refine walk_nodes r.root _ (fun l hl => ?_) []
  rw [levels_unique hts] at hl
  exact (plain_levels ht l (List.mem_of_mem_take hl)).1

/-- C120 is violated: a message on the topic "+/+/…/+" with n levels to a subscriber of that filter makes the broker look at 2ⁿ nodes
at once. -/
theorem C120_nodes_fails (n : Nat) (f : String) (hf : Levels f (List.replicate n "+")) (c : ClientId) (q : QoS) :
    (SubscriptionsRepository.walk (List.replicate n "+") [(SubscriptionsRepository.new.subscribe c ⟨f, q⟩).2.root] []).1.length = 2 ^ n
    ∧ (SubscriptionsRepository.new.subscribe c ⟨f, q⟩).2.root.count = n + 1 := by
  have hp := paths_repo [.subscribe c ⟨f, q⟩]
  have hr : repo [.subscribe c ⟨f, q⟩] = (SubscriptionsRepository.new.subscribe c ⟨f, q⟩).2 := rfl
  rw [hr] at hp
  refine ⟨walk_pluses _ n [] ?_, ?_⟩
  · have hc : Node.clientsAt (splitTopic f) (SubscriptionsRepository.new.subscribe c ⟨f, q⟩).2.root = [c] := by
      show Node.clientsAt (splitTopic f) (Node.modifyAt (splitTopic f) (· ++ [c]) Node.new) = [c]
      rw [Node.clientsAt_modifyAt, if_pos rfl, Node.clientsAt_new]
      rfl
    rw [levels_unique hf]
    cases h : Node.at? (splitTopic f) (SubscriptionsRepository.new.subscribe c ⟨f, q⟩).2.root with
    | some _ => rfl
    | none => simp [Node.clientsAt, h] at hc
  · rw [← Node.length_paths]
    have hL : ((List.range (n + 1)).map fun k => List.replicate k "+").Nodup := by
      refine List.Pairwise.map _ ?_ List.nodup_range
      intro a b hab hc
      exact hab (by simpa using congrArg List.length hc)
    rw [nodup_length hp.1 hL fun p => ?_]
    · simp
    · rw [hp.2]
      simp only [List.mem_map, List.mem_range, List.flatMap_cons, List.flatMap_nil, SubOp.named, List.append_nil, List.mem_singleton]
      constructor
      · rintro (rfl | ⟨g, rfl, h⟩)
        · exact ⟨0, by omega, rfl⟩
        · rw [← levels_unique hf] at h
          have h1 := h.length_le
          rw [List.length_replicate] at h1
          refine ⟨p.length, by omega, ?_⟩
          exact (List.eq_replicate_iff.mpr ⟨rfl, fun x hx => (List.mem_replicate.mp (h.subset hx)).2⟩).symm
      · rintro ⟨k, hk, rfl⟩
        refine .inr ⟨f, rfl, ?_⟩
        rw [← levels_unique hf]
        exact ⟨List.replicate (n - k) "+", by rw [List.replicate_append_replicate]; congr 1; omega⟩

/-- The packets of one client who subscribes to a filter and sends a message to it as topic. -/
def echo (f : String) (q : QoS) : List ClientPacket :=
  [hello "s", .subscribe 1 [(f, q)], .publish ⟨none, false, ⟨f, [], .atMostOnce, false⟩⟩]

/-- The events of such a client. -/
def echoEvents (peers : ConnId → Peer) (f : String) (q : QoS) : List ClientEvent :=
  [.connected ⟨.mqtt3, "s", 60, true, none, none, none⟩ (peers 0).addr 0, .controlPacket "s" (.subscribe ⟨1, [⟨f, q⟩]⟩) 0,
    .controlPacket "s" (.publish ⟨none, false, ⟨f, [], .atMostOnce, false⟩⟩) 0]

/-- An execution in which its message is being handled. -/
theorem echo_taken (env : Env) (peers : ConnId → Peer) (f : String) (hw : 0 < ways f f) (q : QoS) (hsolo : Solo peers (echo f q)) :
    ∃ sched todo, (run env (init peers) sched).handler = .busy todo ∧ todo.length = ways f f
      ∧ (run env (init peers) sched).log.map Prod.fst = echoEvents peers f q := by
  let e1 : ClientEvent := .connected ⟨.mqtt3, "s", 60, true, none, none, none⟩ (peers 0).addr 0
  let e2 : ClientEvent := .controlPacket "s" (.subscribe ⟨1, [⟨f, q⟩]⟩) 0
  let e3 : ClientEvent := .controlPacket "s" (.publish ⟨none, false, ⟨f, [], .atMostOnce, false⟩⟩) 0
  let cs : ConnId → List ClientPacket := fun d => if d = 0 then echo f q else []
  have hev : eventsOf (peers 0) 0 ((echo f q).map meaning) = [e1, e2, e3] := by
    simp [echo, hello, meaning, eventsOf, idOf, e1, e2, e3]
  let b : Broker := ⟨fun c => if c = "s" then some 0 else none, [("s", f)]⟩
  have hb : Broker.start.after env.auth [e1, e2] = some b := by
    simp [Broker.after, Broker.step, login, Broker.packet, Broker.start, b, e1, e2]
  have hpre : ∀ l, l <+: [e1, e2, e3] → ∀ d, l.filter (From d) <+: eventsOf (peers d) d ((cs d).map meaning) := by
    intro l hl d
    by_cases h0 : d = 0
    · subst h0
      simp only [cs, if_pos, hev]
      rw [List.filter_eq_self.mpr]
      · exact hl
      · intro ev hm
        have := hl.subset hm
        simp only [List.mem_cons, List.not_mem_nil, or_false] at this
        rcases this with rfl | rfl | rfl <;> simp [From, e1, e2, e3]
    · rw [List.filter_eq_nil_iff.mpr]
      · exact List.nil_prefix
      · intro ev hm
        have hd : ¬ 0 = d := fun h => h0 h.symm
        have := hl.subset hm
        simp only [List.mem_cons, List.not_mem_nil, or_false] at this
        rcases this with rfl | rfl | rfl <;> simp [From, e1, e2, e3, hd]
  have hout : ∀ d, (Broker.start.outputs env.auth [e1, e2] d).length ≤ 32 := by
    intro d
    have : (Broker.start.outputs env.auth [e1, e2] d).length ≤ 2 := by
      simp only [Broker.outputs, Broker.step, login, Broker.packet, e1, e2, List.append_nil, List.length_append]
      unfold Spec.to
      split <;> simp
    omega
  obtain ⟨sched, hre⟩ := realize env peers cs (fun d hd => by
      by_cases h0 : d = 0
      · subst h0; simpa [cs] using hsolo.bytes
      · simp [cs, h0] at hd) (fun d => by
      by_cases h0 : d = 0
      · simp only [cs, if_pos h0]
        intro x hx
        have h1 := clientBytes_part hx
        have h2 := hsolo.short
        exact ⟨(hsolo.legal x hx).1, (hsolo.legal x hx).2, by omega⟩
      · simp [cs, h0, Sendable]) (fun d => by
      by_cases h0 : d = 0
      · simp only [cs, if_pos h0]; exact hsolo.short
      · simp [cs, h0, clientBytes]) [e1, e2] (fun ev hm => ⟨0, by
        simp only [List.mem_cons, List.not_mem_nil, or_false] at hm
        rcases hm with rfl | rfl <;> simp [From, e1, e2]⟩) (hpre [e1, e2] ⟨[e3], rfl⟩) (by rw [hb]; rfl) hout
  have hcopies : ∀ d, b.copiesTo d f = if d = 0 then ways f f else 0 := by
    intro d
    by_cases h0 : d = 0
    · subst h0; simp [Broker.copiesTo, b]
    · have hd : ¬ 0 = d := fun h => h0 h.symm
      simp [Broker.copiesTo, b, h0, hd]
  obtain ⟨sched', todo, h1, h2, h3, -, -⟩ := hre.taken (ev := e3) ⟨0, rfl⟩ (hpre _ ⟨[], by simp⟩) hb rfl ⟨0, by
    show List.replicate (b.copiesTo 0 f) _ ≠ []
    rw [hcopies, if_pos rfl]
    intro h
    have := congrArg List.length h
    rw [List.length_replicate] at this
    simp at this
    omega⟩
  have htodo : ∀ d, sentTo todo d = List.replicate (if d = 0 then ways f f else 0) (.controlPacket (.publish ⟨none, false, ⟨f, [], .atMostOnce, false⟩⟩)) := by
    intro d
    rw [h2 d, ← hcopies d]
  have hlen : todo.length = ways f f := by
    have hall : ∀ x ∈ todo, x.1 = 0 := by
      intro x hx
      apply Classical.byContradiction
      intro hx0
      have h4 := htodo x.1
      rw [if_neg hx0] at h4
      have : x.2 ∈ sentTo todo x.1 := by
        unfold sentTo
        exact List.mem_map.mpr ⟨x, List.mem_filter.mpr ⟨hx, by simp⟩, rfl⟩
      rw [h4] at this
      cases this
    have h4 := congrArg List.length (htodo 0)
    rw [if_pos rfl, List.length_replicate, sentTo, List.length_map, List.filter_eq_self.mpr fun x hx => by simpa using hall x hx] at h4
    exact h4
  exact ⟨sched ++ sched', todo, h1, hlen, h3⟩

/-- C120 is violated: a client that subscribes to "+/+/…/+" with n levels and sends one message to that topic makes the packet handler
send 2ⁿ copies, with a single subscription in the broker, and until it has made as many steps it takes no event of anybody. -/
theorem C120_flood_fails (env : Env) (peers : ConnId → Peer) (n : Nat) (f : String) (hf : Levels f (List.replicate n "+")) (q : QoS)
    (hsolo : Solo peers (echo f q)) :
    ∃ sched todo, (run env (init peers) sched).handler = .busy todo ∧ todo.length = 2 ^ n
      ∧ (held ((run env (init peers) sched).log.map Prod.fst)).length = 1
      ∧ ∀ sched', handlerSteps sched' < 2 ^ n → (run env (init peers) (sched ++ sched')).log = (run env (init peers) sched).log := by
  obtain ⟨sched, todo, h1, h2, h3⟩ := echo_taken env peers f (by rw [ways_pluses hf]; exact Nat.two_pow_pos n) q hsolo
  rw [ways_pluses hf] at h2
  refine ⟨sched, todo, h1, h2, ?_, fun sched' hs => ?_⟩
  · rw [h3]; rfl
  · rw [run_append]
    exact busy_run env sched' _ todo (.inl h1) (.inl (by rw [h2]; exact hs))

/-- The filter "+/+/…/+". -/
def pluses (n : Nat) : String := String.ofList (joinLevels (List.replicate n ['+']))

theorem pluses_levels (n : Nat) (h : 0 < n) : Levels (pluses n) (List.replicate n "+") where
  some := by intro h'; have := congrArg List.length h'; simp at this; omega
  noSlash := by intro l hl; rw [(List.mem_replicate.mp hl).2]; decide
  join := by
    have h1 : "+".toList = ['+'] := by decide
    rw [List.map_replicate, h1]
    exact String.toList_ofList.symm

theorem pluses_length (n : Nat) : (utf8 (pluses (n + 1))).length = 2 * n + 1 := by
  induction n with
  | zero => decide +kernel
  | succ n ih =>
    have h : pluses (n + 1 + 1) = String.ofList ['+', '/'] ++ pluses (n + 1) := by
      unfold pluses
      rw [← String.ofList_append, List.replicate_succ, List.replicate_succ]
      rfl
    have h2 : (String.ofList ['+', '/']).toByteArray.size = 2 := by decide +kernel
    have ih' : (pluses (n + 1)).toByteArray.size = 2 * n + 1 := ih
    show (pluses (n + 1 + 1)).toByteArray.size = _
    rw [h, String.toByteArray_append, ByteArray.size_append, h2, ih']
    omega

theorem echo_solo (f : String) (h : (utf8 f).length ≤ 2000) : Solo (soloPeers (echo f .atMostOnce)) (echo f .atMostOnce) := by
  refine ⟨by simp [soloPeers], fun c hc => ?_, ?_⟩
  · simp only [echo, List.mem_cons, List.not_mem_nil, or_false] at hc
    have hl : (utf8 f).length < 65536 := by omega
    rcases hc with rfl | rfl | rfl
    · refine ⟨⟨?_, ?_, by simp, by simp, by simp⟩, rfl⟩
      · show (utf8 "MQTT").length < 65536; decide +kernel
      · show (utf8 "s").length < 65536; decide +kernel
    · exact ⟨⟨by simp, fun x hx => by rw [List.mem_singleton] at hx; subst hx; exact hl⟩, trivial⟩
    · exact ⟨⟨hl, by simp⟩, trivial⟩
  · have h1 : (packet (clientFirst (hello "s")) (clientRest (hello "s"))).length = 15 := by decide +kernel
    have hv : ∀ m, m < 16384 → (varInt m).length ≤ 2 := by
      intro m hm
      unfold varInt
      split
      · simp
      · unfold varInt
        rw [if_pos (by omega)]
        simp
    have h2 := hv ((utf8 f).length + 1 + 1 + 1 + 1 + 1) (by omega)
    have h3 := hv ((utf8 f).length + 1 + 1) (by omega)
    rw [clientBytes, echo, List.flatMap_cons, List.length_append, h1]
    simp [packet, clientRest, publishRest, str, twoBytes, Spec.optional] at h2 h3 ⊢
    omega

-- a filter of 1000 levels: the client sends less than 4096 bytes, and the handler has 2 ^ 1000 copies to send
example : Levels (pluses 1000) (List.replicate 1000 "+") ∧ Solo (soloPeers (echo (pluses 1000) .atMostOnce)) (echo (pluses 1000) .atMostOnce) :=
  ⟨pluses_levels 1000 (by decide), echo_solo _ (by rw [show 1000 = 999 + 1 from rfl, pluses_length 999]; decide)⟩

-- a state in which the handler is busy with a message on a plain topic
example (env : Env) : ∃ sched todo, (run env (init (soloPeers (echo "t" .atMostOnce))) sched).handler = .busy todo
    ∧ ∀ id q tx, ((run env (init (soloPeers (echo "t" .atMostOnce))) sched).log.map Prod.fst).getLast? = some (.controlPacket id (.publish q) tx) →
      PlainTopic q.message.topic := by
  have ht : PlainTopic "t" := ⟨by decide, by decide⟩
  have hm : Matches "t" "t" := ⟨["t"], ["t"], ⟨by decide, by decide, by decide⟩, ⟨by decide, by decide, by decide⟩, .literal "t" [] [] .done⟩
  obtain ⟨sched, todo, h1, -, h3⟩ := echo_taken env (soloPeers (echo "t" .atMostOnce)) "t" (ways_pos.mpr hm) .atMostOnce
    (echo_solo "t" (by decide +kernel))
  refine ⟨sched, todo, h1, fun id q tx h => ?_⟩
  rw [h3] at h
  simp only [echoEvents, List.getLast?_cons_cons, List.getLast?_singleton, Option.some.injEq, ClientEvent.controlPacket.injEq,
    ControlPacket.publish.injEq] at h
  rw [← h.2.1]
  exact ht

-- a plain topic and its levels
example : Levels "a/b" ["a", "b"] ∧ PlainTopic "a/b" := ⟨⟨by decide, by decide, by decide⟩, ⟨by decide, by decide⟩⟩

end Ratel
