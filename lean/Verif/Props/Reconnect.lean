/-
C147: connecting again under the same client id.
-/
import Verif.Proofs.Reconnect
import Verif.Props.Settled
import Verif.Props.Open

namespace Ratel

open Spec Sys

namespace Sys

theorem erase_all (l : List String) (h : l.Nodup) : l.foldl List.erase l = [] := by
  have key : ∀ (l m : List String), l.Nodup → l.foldl List.erase (l ++ m) = m := by
    intro l
    induction l with
    | nil => intro m _; rfl
    | cons a l ih =>
      intro m hn
      rw [List.foldl_cons, List.cons_append, List.erase_cons_head]
      exact ih m (List.nodup_cons.mp hn).2
  simpa using key l [] h

theorem eraseDups_nodup (l : List String) (h : l.Nodup) : l.eraseDups = l := by
  induction l with
  | nil => rfl
  | cons a l ih =>
    obtain ⟨h1, h2⟩ := List.nodup_cons.mp h
    rw [List.eraseDups_cons]
    have : l.filter (fun b => !b == a) = l := List.filter_eq_self.mpr fun b hb => by
      have : b ≠ a := by rintro rfl; exact h1 hb
      simpa using this
    rw [this, ih h2]

/-- Nothing is held after a DISCONNECT if no filter was held twice. -/
theorem heldAfter_disconnect (ps : List ControlPacket) (h : (heldAfter ps).Nodup) : heldAfter (ps ++ [.disconnect]) = [] := by
  unfold heldAfter at *
  rw [List.map_append, view_after_append]
  show List.foldl List.erase _ (List.eraseDups _) = []
  rw [eraseDups_nodup _ h, erase_all _ h]

/-- What a client holds when all it sends on its only connection has been dealt with. -/
theorem held_of_over {env : Env} {peers : ConnId → Peer} {evs : List ClientEvent} (h : Orderly env peers evs) (hf : ∀ ev ∈ evs, ∃ c, From c ev)
    {c d : ConnId} {pc : ConnectPacket} {ps : List ControlPacket} {id : ClientId}
    (hc : Decodes env.profile (peers c).segs.flatten (peers c).fin (.connect pc :: ps)) (hid : idOf (peers c) pc = id)
    (hall : (evs.filter (From c)).length = ps.length + 1) (hd : ∀ ev ∈ evs, ¬ From d ev)
    (ho : ∀ e, e ≠ c → e ≠ d → OtherId env peers id e) (hheld : heldAfter ps = []) : ∀ f, (id, f) ∉ held evs := by
  intro f hm
  subst hid
  have hother : ∀ ev ∈ evs, ¬ From c ev → ∃ e, From e ev ∧ clientOf ev ≠ idOf (peers c) pc := by
    intro ev hev hn
    obtain ⟨e, he⟩ := hf ev hev
    obtain ⟨q, qs, hq, hi⟩ := orderly_client h hev he
    refine ⟨e, he, ?_⟩
    rw [hi]
    exact ho e (by rintro rfl; exact hn he) (by rintro rfl; exact hd ev hev he) q qs hq
  rcases split_own h (Decodes.pre (a := [.connect pc]) (b := ps) hc) with hn | ⟨pre, post, qs, rfl, hq, hqs, hpre⟩
  · rw [List.filter_eq_nil_iff.mpr fun ev hev => by simpa using hn ev hev] at hall
    cases hall
  · have hlen : qs.length = ps.length := by
      rw [List.filter_append, List.filter_eq_nil_iff.mpr fun ev hev => by simpa using hpre ev hev, List.nil_append,
        List.filter_cons, if_pos (by simp [From]), List.length_cons, hqs, List.length_map] at hall
      omega
    have hsame : qs = ps := by
      rcases decodes_compare hq hc with h1 | h1
      · have := h1.eq_of_length (by simp [hlen])
        injection this
      · have := h1.eq_of_length (by simp [hlen])
        injection this with _ this
        exact this.symm
    subst hsame
    have hpre' : filters (idOf (peers c) pc) (held pre) = [] := by
      unfold filters
      rw [List.map_eq_nil_iff, List.filter_eq_nil_iff]
      rintro ⟨x, g⟩ he hx
      simp only [decide_eq_true_eq] at hx
      subst hx
      rcases held_append (evs := []) (evs' := pre) he with h0 | ⟨ev, hev, hs⟩
      · cases h0
      · obtain ⟨e, _, h2⟩ := hother ev (List.mem_append_left _ hev) (hpre ev hev)
        exact h2 (subscribes_client hs)
    have hpost : ∀ ev ∈ post, Apart (idOf (peers c) pc) c ev := apart_of (env := env) (peers := peers) hqs fun ev hev =>
      hother ev (List.mem_append_right _ (List.mem_cons_of_mem _ hev))
    have key := filters_view (d := c) ⟨true, []⟩ (held pre) post hpre' hpost
    have hmine : mineOf (post.filterMap (sightOf c)) = qs :=
      (List.map_inj_right (fun a b hab => by injection hab)).mp ((mineOf_sights hpost).trans hqs)
    rw [after_mine, hmine] at key
    have hheld : ((View.mk true []).after (qs.map .mine)).filters = [] := hheld
    rw [hheld] at key
    have hm : (idOf (peers c) pc, f) ∈ (post.flatMap subOps).foldl Entries.counting (held pre) := by
      have e : held (pre ++ .connected { pc with clientId := idOf (peers c) pc } (peers c).addr c :: post)
          = (post.flatMap subOps).foldl Entries.counting (held pre) := by
        unfold held Entries.counted
        rw [List.flatMap_append, List.foldl_append]
        rfl
      rw [← e]; exact hm
    have : f ∈ filters (idOf (peers c) pc) ((post.flatMap subOps).foldl Entries.counting (held pre)) :=
      List.mem_map.mpr ⟨_, List.mem_filter.mpr ⟨hm, by simp⟩, rfl⟩
    rw [key] at this
    cases this

end Sys

/-! ### C147 -/

/-- C147, weaker: a client is served as if it had never been connected if, before its new CONNECT is dealt with, the broker has dealt with
everything that comes on the connections on which its id was used before, and it holds no subscription. What is missing: an earlier
DISCONNECT that is still on its way may be dealt with after the new CONNECT (`C147_reconnect_fails`). -/
theorem C147_afresh_partial (env : Env) (peers : ConnId → Peer) (a b : List OStep) (d : ConnId) (p : ConnectPacket)
    (hp : Decodes env.profile (given peers (a ++ b) d).segs.flatten (given peers (a ++ b) d).fin [.connect p])
    (hl : login env.auth p = .accepted)
    (hold : ∀ c, c ≠ d → OtherId env (given peers (a ++ b)) (idOf (given peers (a ++ b) d) p) c
      ∨ Over env (given peers (a ++ b)) (Open.run env (Open.init peers) a).sys c)
    (hnew : dealtWith (Open.run env (Open.init peers) a).sys d = 0)
    (hheld : ∀ f, (idOf (given peers (a ++ b) d) p, f) ∉ held ((Open.run env (Open.init peers) a).sys.log.map Prod.fst)) :
    ServedAfresh env (given peers (a ++ b)) (Open.run env (Open.init peers) (a ++ b)).sys d p := by
  obtain ⟨did, h1, h2, h3⟩ := C136_reactive env peers
  have hab := h2 (a ++ b) []
  rw [List.append_nil] at hab
  obtain ⟨t, ht⟩ := h1 a b
  rw [← ht] at hab
  unfold Over dealtWith at hold
  unfold dealtWith at hnew
  rw [(h2 a b).log] at hold hnew hheld
  have := fresh_run env (given peers (a ++ b)) (did a) t d p hp hl hold hnew hheld
  unfold ServedAfresh dealtWith at *
  rw [← hab.delivered, ← hab.log, ← hab.handler] at this
  exact this

/-- C147, weaker: the client was connected once before, on connection `c`; everything it sent there has been dealt with before its CONNECT on
the new connection `d`, and it held no subscription at the end — say it sent DISCONNECT (`heldAfter_disconnect`) and had not subscribed twice
to the same filter. Then it is served on `d` as if it had never been connected. -/
theorem C147_reconnect_partial (env : Env) (peers : ConnId → Peer) (a b : List OStep) (c d : ConnId) (pc p : ConnectPacket)
    (ps : List ControlPacket)
    (hc : Decodes env.profile (given peers (a ++ b) c).segs.flatten (given peers (a ++ b) c).fin (.connect pc :: ps))
    (hall : dealtWith (Open.run env (Open.init peers) a).sys c = ps.length + 1)
    (hov : Over env (given peers (a ++ b)) (Open.run env (Open.init peers) a).sys c) (hheld : heldAfter ps = [])
    (hid : idOf (given peers (a ++ b) c) pc = idOf (given peers (a ++ b) d) p)
    (hp : Decodes env.profile (given peers (a ++ b) d).segs.flatten (given peers (a ++ b) d).fin [.connect p])
    (hl : login env.auth p = .accepted)
    (ho : ∀ e, e ≠ c → e ≠ d → OtherId env (given peers (a ++ b)) (idOf (given peers (a ++ b) d) p) e)
    (hnew : dealtWith (Open.run env (Open.init peers) a).sys d = 0) :
    ServedAfresh env (given peers (a ++ b)) (Open.run env (Open.init peers) (a ++ b)).sys d p := by
  obtain ⟨did, h1, h2, h3⟩ := C136_reactive env peers
  have hinv := inv_run env (given peers (a ++ b)) (did a)
  have hord := reads_orderly_served hinv.reads
  refine C147_afresh_partial env peers a b d p hp hl (fun e he => ?_) hnew fun f => ?_
  · by_cases hec : e = c
    · subst hec; exact .inr hov
    · exact .inl (ho e hec he)
  · unfold dealtWith at hall hnew
    rw [(h2 a b).log] at hall hnew ⊢
    refine held_of_over hord (served_from hinv.reads) hc hid hall ?_ ho hheld f
    intro ev hev hfr
    have : 0 < (List.filter (fun e => decide (From d e)) ((run env (init (given peers (a ++ b))) (did a)).log.map Prod.fst)).length :=
      List.length_pos_of_mem (List.mem_filter.mpr ⟨hev, by simpa using hfr⟩)
    omega

/-- C147 is violated. Whenever a DISCONNECT under a client's id — from whichever connection — is dealt with after the client's CONNECT on
connection `d`, no message is ever sent on `d` again, whatever the client subscribes to. -/
theorem C147_overtaken_fails (env : Env) (peers : ConnId → Peer) (a b : List OStep) (c d : ConnId) (p : ConnectPacket) (pre : List ClientEvent)
    (hp : Decodes env.profile (given peers (a ++ b) d).segs.flatten (given peers (a ++ b) d).fin [.connect p])
    (hlog : (Open.run env (Open.init peers) a).sys.log.map Prod.fst
      = pre ++ [.controlPacket (idOf (given peers (a ++ b) d) p) .disconnect c])
    (hd : dealtWith (Open.run env (Open.init peers) a).sys d ≠ 0) (hidle : (Open.run env (Open.init peers) a).sys.handler = .idle) :
    messagesOf ((Open.run env (Open.init peers) (a ++ b)).sys.conns d).delivered
      = messagesOf ((Open.run env (Open.init peers) a).sys.conns d).delivered := by
  obtain ⟨did, h1, h2, h3⟩ := C136_reactive env peers
  have hab := h2 (a ++ b) []
  rw [List.append_nil] at hab
  obtain ⟨t, ht⟩ := h1 a b
  rw [← ht] at hab
  unfold dealtWith at hd
  rw [(h2 a b).log] at hlog hd
  rw [(h2 a b).handler] at hidle
  rw [hab.delivered, (h2 a b).delivered]
  exact deaf_run env (given peers (a ++ b)) (did a) t c d p pre hp hlog hd hidle

/-! #### The witness -/

namespace Sys

/-- Nothing is known about anybody beforehand. -/
def anybody : ConnId → Peer := fun _ => ⟨someAddr, "u", [], .silence, []⟩

/-- Client "s" connects on 0, reads its CONNACK, sends DISCONNECT and hangs up; then it connects on 1 and reads its CONNACK. Only now does
the read task of connection 0 get to the DISCONNECT. -/
def comesBack : List OStep :=
  [.arrive 0 (clientBytes [hello "s"]), .task (.read 0), .task (.read 0), .task (.handler 0), .task (.handler 0), .answer 0 (.accept 4),
   .task (.write 0), .arrive 0 (clientBytes [.disconnect]), .hangUp 0 .eof,
   .arrive 1 (clientBytes [hello "s"]), .task (.read 1), .task (.read 1), .task (.handler 0), .task (.handler 0), .answer 1 (.accept 4),
   .task (.write 1), .task (.read 0), .task (.read 0), .task (.handler 0), .task (.handler 0)]

/-- The client subscribes to "t" on 1 and reads its SUBACK; then another client publishes to "t". -/
def listens : List OStep :=
  [.arrive 1 (clientBytes [.subscribe 1 [("t", .atMostOnce)]]), .task (.read 1), .task (.read 1), .task (.handler 0), .task (.handler 0),
   .answer 1 (.accept 5), .task (.write 1),
   .arrive 2 (clientBytes [hello "p", .publish blank]), .task (.read 2), .task (.read 2), .task (.handler 0), .task (.handler 0),
   .task (.read 2), .task (.read 2), .task (.handler 0), .task (.handler 0)]

/-- The client asks twice whether the broker is there. -/
def pingsTwice : List OStep :=
  [.arrive 1 (clientBytes [.pingReq]), .task (.read 1), .task (.read 1), .task (.handler 0), .task (.handler 0), .task (.write 1),
   .arrive 1 (clientBytes [.pingReq]), .task (.read 1), .task (.read 1), .task (.handler 0), .task (.handler 0)]

end Sys

/-- C147 is violated: a client that disconnects and connects again under the same id has read the CONNACK and the SUBACK on the new
connection, yet the message published afterwards to its topic is not sent to it, because its earlier DISCONNECT — sent before it connected
again — was dealt with last. Worse, its first PINGREQ is answered by closing the connection and the second, already on its way, takes the
broker down. -/
theorem C147_reconnect_fails :
    (Open.run exampleEnv (Open.init anybody) comesBack).seen exampleEnv 0 = [32, 2, 0, 0]
    ∧ (Open.run exampleEnv (Open.init anybody) comesBack).seen exampleEnv 1 = [32, 2, 0, 0]
    ∧ (Open.run exampleEnv (Open.init anybody) (comesBack ++ listens)).seen exampleEnv 1 = [32, 2, 0, 0, 144, 3, 0, 1, 0]
    ∧ ClientEvent.controlPacket "p" (.publish blank) 2
        ∈ (Open.run exampleEnv (Open.init anybody) (comesBack ++ listens)).sys.log.map Prod.fst
    ∧ ((Open.run exampleEnv (Open.init anybody) (comesBack ++ listens)).sys.conns 1).delivered
      = [welcome, .controlPacket (.subAck ⟨1, [.successQoS0]⟩)]
    ∧ ((Open.run exampleEnv (Open.init anybody) (comesBack ++ listens ++ pingsTwice)).sys.conns 1).delivered
      = [welcome, .controlPacket (.subAck ⟨1, [.successQoS0]⟩), .disconnect]
    ∧ (Open.run exampleEnv (Open.init anybody) (comesBack ++ listens ++ pingsTwice)).sys.handler = .crashed := by
  decide +kernel

/-! ### Examples -/

namespace Sys

/-- "s" subscribes to "t" and disconnects. -/
def shortStay : List ClientPacket := [hello "s", .subscribe 1 [("t", .atMostOnce)], .disconnect]

/-- All of it is dealt with. -/
def leaves : List OStep :=
  [.arrive 0 (clientBytes shortStay), .hangUp 0 .eof] ++ [.read 0, .read 0, .handler 0, .handler 0, .read 0, .read 0, .handler 0, .handler 0,
    .read 0, .read 0, .handler 0, .handler 0].map .task

/-- "s" comes back; somebody publishes to "t". -/
def returns : List OStep :=
  [.arrive 1 (clientBytes [hello "s"]), .arrive 2 (clientBytes [hello "p", .publish blank])] ++ [.read 1, .read 1, .handler 0, .handler 0,
    .read 2, .read 2, .handler 0, .handler 0, .read 2, .read 2, .handler 0, .handler 0].map .task

/-- What is sent on the three connections. -/
def visits (c : ConnId) : List ClientPacket :=
  if c = 0 then shortStay else if c = 1 then [hello "s"] else if c = 2 then [hello "p", .publish blank] else []

theorem visits_sendable (c : ConnId) : Sendable (visits c) := by
  intro x hx
  have hhello : ∀ s : String, s = "s" ∨ s = "p" → x = hello s → Legal x ∧ NoWill x ∧ (clientRest x).length < 2097152 := by
    rintro s (rfl | rfl) rfl
    · exact hello_sendable "s" (by unfold Fits; decide +kernel) (by decide +kernel)
    · exact hello_sendable "p" (by unfold Fits; decide +kernel) (by decide +kernel)
  unfold visits at hx
  split at hx
  · simp only [shortStay, List.mem_cons, List.not_mem_nil, or_false] at hx
    rcases hx with h | rfl | rfl
    · exact hhello "s" (.inl rfl) h
    · exact talk_sendable 0 _ (List.mem_cons_of_mem _ List.mem_cons_self)
    · exact ⟨trivial, trivial, by decide +kernel⟩
  · split at hx
    · exact hhello "s" (.inl rfl) (List.mem_singleton.mp hx)
    · split at hx
      · simp only [List.mem_cons, List.not_mem_nil, or_false] at hx
        rcases hx with h | rfl
        · exact hhello "p" (.inr rfl) h
        · exact talk_sendable 1 _ (List.mem_cons_of_mem _ List.mem_cons_self)
      · cases hx

theorem visits_given (c : ConnId) : (given anybody (leaves ++ returns) c).segs.flatten = clientBytes (visits c)
    ∧ (given anybody (leaves ++ returns) c).fin = (if c = 0 then .eof else .silence) := by
  simp only [given, leaves, returns, List.map, List.cons_append, List.nil_append, List.foldl_cons, List.foldl_nil, anybody]
  match c with
  | 0 => exact ⟨List.append_nil _, rfl⟩
  | 1 => exact ⟨List.append_nil _, rfl⟩
  | 2 => exact ⟨List.append_nil _, rfl⟩
  | n + 3 =>
    have h1 : n + 3 ≠ 1 := fun h => by injection h with h; cases h
    have h2 : n + 3 ≠ 2 := fun h => by injection h with h; injection h with h; cases h
    simp [give, h1, h2, visits, clientBytes]

theorem visits_decodes (c : ConnId) : Decodes exampleEnv.profile (given anybody (leaves ++ returns) c).segs.flatten
    (given anybody (leaves ++ returns) c).fin ((visits c).map meaning) := by
  rw [(visits_given c).1]
  exact decodes_client _ _ _ (visits_sendable c)

theorem visits_only {c : ConnId} {ps : List ControlPacket} (h : Decodes exampleEnv.profile (given anybody (leaves ++ returns) c).segs.flatten
    (given anybody (leaves ++ returns) c).fin ps) : ps <+: (visits c).map meaning := by
  rw [(visits_given c).1] at h
  exact decodes_client_only (visits_sendable c) h

end Sys

-- C147: "s" leaves and comes back; its old subscription is gone
example : ServedAfresh exampleEnv (given anybody (leaves ++ returns)) (Open.run exampleEnv (Open.init anybody) (leaves ++ returns)).sys 1
      ⟨.mqtt3, "s", 60, true, none, none, none⟩
    ∧ ((Open.run exampleEnv (Open.init anybody) (leaves ++ returns)).sys.conns 1).delivered = [welcome]
    ∧ ClientEvent.controlPacket "p" (.publish blank) 2 ∈ (Open.run exampleEnv (Open.init anybody) (leaves ++ returns)).sys.log.map Prod.fst := by
  refine ⟨C147_reconnect_partial exampleEnv anybody leaves returns 0 1 ⟨.mqtt3, "s", 60, true, none, none, none⟩ _
    [.subscribe ⟨1, [⟨"t", .atMostOnce⟩]⟩, .disconnect] (visits_decodes 0) (by decide +kernel) (fun p ps h => ?_) ?_ rfl (visits_decodes 1) rfl
    (fun e h0 h1 p ps h => ?_) (by decide +kernel), by decide +kernel, by decide +kernel⟩
  · rw [show dealtWith (Open.run exampleEnv (Open.init anybody) leaves).sys 0 = 3 by decide +kernel]
    exact (visits_only h).length_le
  · exact heldAfter_disconnect [.subscribe ⟨1, [⟨"t", .atMostOnce⟩]⟩] (by simp [heldAfter, View.after, View.step])
  · have g := visits_only h
    unfold visits at g
    rw [if_neg h0, if_neg h1] at g
    split at g
    · have g : .connect p :: ps <+: [.connect ⟨.mqtt3, "p", 60, true, none, none, none⟩, .publish blank] := g
      have e1 := (List.cons_prefix_cons.mp g).1
      simp only [ControlPacket.connect.injEq] at e1
      subst e1
      simp [idOf]
    · simp at g

-- C147_overtaken_fails: the witness
example : messagesOf ((Open.run exampleEnv (Open.init anybody) (comesBack ++ listens)).sys.conns 1).delivered = [] := by
  refine (C147_overtaken_fails exampleEnv anybody comesBack listens 0 1 ⟨.mqtt3, "s", 60, true, none, none, none⟩
    [.connected ⟨.mqtt3, "s", 60, true, none, none, none⟩ someAddr 0, .connected ⟨.mqtt3, "s", 60, true, none, none, none⟩ someAddr 1]
    ?_ (by decide +kernel) (by decide +kernel) (by decide +kernel)).trans (by decide +kernel)
  refine Decodes.pre (b := [.subscribe ⟨1, [⟨"t", .atMostOnce⟩]⟩]) ?_
  have h := decodes_client exampleEnv.profile .silence [hello "s", .subscribe 1 [("t", .atMostOnce)]] (fun x hx => by
    rcases List.mem_cons.mp hx with rfl | hx
    · exact visits_sendable 0 _ List.mem_cons_self
    · rw [List.mem_singleton.mp hx]
      exact visits_sendable 0 _ (List.mem_cons_of_mem _ List.mem_cons_self))
  rw [show (given anybody (comesBack ++ listens) 1).segs.flatten = clientBytes [hello "s", .subscribe 1 [("t", .atMostOnce)]] by
    decide +kernel]
  exact h

end Ratel
