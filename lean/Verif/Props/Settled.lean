/-
What a client that has read its acknowledgements gets from then on: C145.
-/
import Verif.Spec.Settled
import Verif.Props.Live

namespace Ratel

open Encoder Spec Sys

namespace Sys

/-- Packets that change nothing about the subscriptions. -/
def Idle (ps : List ControlPacket) : Prop := ∀ x ∈ ps, ackOf x = none ∧ x ≠ .disconnect

theorem idle_step {p : ControlPacket} (h1 : ackOf p = none) (h2 : p ≠ .disconnect) (v : View) : (v.step (.mine p)).1 = v := by
  cases p with
  | subscribe s => cases h1
  | unsubscribe u => cases h1
  | disconnect => exact absurd rfl h2
  | _ => rfl

theorem idle_after (v : View) {ps : List ControlPacket} (h : Idle ps) : v.after (ps.map .mine) = v := by
  induction ps generalizing v with
  | nil => rfl
  | cons p ps ih =>
    show View.after (v.step (.mine p)).1 (ps.map .mine) = v
    rw [idle_step (h p List.mem_cons_self).1 (h p List.mem_cons_self).2]
    exact ih v fun x hx => h x (List.mem_cons_of_mem _ hx)

/-- The messages among what a client sees. -/
def seenMessages (xs : List Sight) : List PublishPacket :=
  xs.filterMap fun
    | .mine (.publish q) => some q
    | .theirs q => some q
    | _ => none

theorem seenMessages_append (a b : List Sight) : seenMessages (a ++ b) = seenMessages a ++ seenMessages b := by simp [seenMessages]

theorem messages_copies (v : View) (ho : v.online = true) (q : PublishPacket) :
    messagesOf (v.copies q) = List.replicate (calledFor v.filters q) q := by
  unfold View.copies calledFor
  rw [if_pos ho]
  generalize (List.map (fun f => ways f q.message.topic) v.filters).sum = n
  induction n with
  | zero => rfl
  | succ n ih => rw [List.replicate_succ, List.replicate_succ, ← ih]; rfl

/-- A client that changes nothing about its subscriptions. -/
theorem idle_outputs (v : View) (ho : v.online = true) (xs : List Sight) (h : Idle (mineOf xs)) :
    messagesOf (v.outputs xs) = (seenMessages xs).flatMap fun q => List.replicate (calledFor v.filters q) q := by
  induction xs with
  | nil => rfl
  | cons x xs ih =>
    rw [View.outputs, messagesOf_append]
    cases x with
    | theirs q =>
      have ih := ih h
      show messagesOf (v.copies q) ++ messagesOf (v.outputs xs) = (q :: seenMessages xs).flatMap _
      rw [ih, messages_copies v ho, List.flatMap_cons]
    | mine p =>
      have hp := h p List.mem_cons_self
      have ih := ih fun y hy => h y (List.mem_cons_of_mem _ hy)
      rw [idle_step hp.1 hp.2, ih]
      cases p with
      | publish q =>
        show messagesOf (v.copies q) ++ _ = (q :: seenMessages xs).flatMap _
        rw [messages_copies v ho, List.flatMap_cons]
      | subscribe s => cases hp.1
      | unsubscribe u => cases hp.1
      | disconnect => exact absurd rfl hp.2
      | pingReq => simp only [View.step, ho]; rfl
      | _ => rfl

/-- Messages come from messages. -/
theorem outputs_seen (v : View) (xs : List Sight) {q : PublishPacket} (h : q ∈ messagesOf (v.outputs xs)) : q ∈ seenMessages xs := by
  have hc : ∀ (v : View) (q' : PublishPacket), q ∈ messagesOf (v.copies q') → q = q' := by
    intro v q' h
    obtain ⟨e, he, hq⟩ := List.mem_filterMap.mp h
    cases e with
    | disconnect => cases hq
    | controlPacket x =>
      cases x with
      | publish y =>
        simp only [Option.some.injEq] at hq
        subst hq
        exact (copies_matches he).1
      | _ => cases hq
  induction xs generalizing v with
  | nil => cases h
  | cons x xs ih =>
    rw [View.outputs, messagesOf_append] at h
    have hcons : seenMessages (x :: xs) = seenMessages [x] ++ seenMessages xs := seenMessages_append [x] xs
    rw [hcons]
    rcases List.mem_append.mp h with h | h
    · refine List.mem_append_left _ ?_
      cases x with
      | theirs q' => rw [hc v q' h]; exact List.mem_cons_self
      | mine p =>
        cases p with
        | publish q' => rw [hc v q' h]; exact List.mem_cons_self
        | pingReq =>
          simp only [View.step] at h
          split at h <;> cases h
        | _ => cases h
    · exact List.mem_append_right _ (ih _ h)

theorem seen_published {d : ConnId} {evs : List ClientEvent} :
    seenMessages (evs.filterMap (sightOf d)) = publishedIn evs := by
  induction evs with
  | nil => rfl
  | cons ev evs ih =>
    have e : publishedIn (ev :: evs) = publishedIn [ev] ++ publishedIn evs := by simp [publishedIn, List.filterMap_cons]; split <;> rfl
    rw [filterMap_cons_toList, seenMessages_append, ih, e]
    congr 1
    cases ev with
    | controlPacket i p tx =>
      by_cases ht : tx = d
      · cases p <;> simp [sightOf, ht, seenMessages, publishedIn]
      · cases p <;> simp [sightOf, ht, seenMessages, publishedIn]
    | _ => rfl

/-- What a client that has been sent its acknowledgements is sent from then on. -/
theorem settled_run (env : Env) (peers : ConnId → Peer) (sched sched' : List Step) (d : ConnId) (p : ConnectPacket) (ps : List ControlPacket)
    (hp : Decodes env.profile (peers d).segs.flatten (peers d).fin (.connect p :: ps))
    (hl : login env.auth p = .accepted) (ho : OwnIds env peers (· ≠ d))
    (hne : ((run env (init peers) sched).conns d).delivered ≠ [])
    (hack : (ps.filterMap ackOf).length ≤ (acksIn ((run env (init peers) sched).conns d).delivered).length)
    (hset : ∀ qs, Decodes env.profile (peers d).segs.flatten (peers d).fin (.connect p :: ps ++ qs) →
      .disconnect ∉ ps ++ qs ∧ ∀ x ∈ qs, ackOf x = none) :
    ∃ old later, (run env (init peers) (sched ++ sched')).log.map Prod.fst = (run env (init peers) sched).log.map Prod.fst ++ later
      ∧ messagesOf ((run env (init peers) sched).conns d).delivered <+: old
      ∧ ((run env (init peers) sched).handler = .idle → messagesOf ((run env (init peers) sched).conns d).delivered = old)
      ∧ (∀ q ∈ old, q ∈ publishedIn ((run env (init peers) sched).log.map Prod.fst))
      ∧ messagesOf ((run env (init peers) (sched ++ sched')).conns d).delivered
          <+: old ++ (publishedIn later).flatMap (fun q => List.replicate (calledFor (heldAfter ps) q) q)
      ∧ ((run env (init peers) (sched ++ sched')).handler = .idle →
          messagesOf ((run env (init peers) (sched ++ sched')).conns d).delivered
            = old ++ (publishedIn later).flatMap (fun q => List.replicate (calledFor (heldAfter ps) q) q)) := by
  have hinv := inv_run env peers sched
  have hinv' := inv_run env peers (sched ++ sched')
  have hord' := reads_orderly_served hinv'.reads
  have hfrom' := served_from hinv'.reads
  have hg := (run_grows env (run env (init peers) sched) sched').1
  rw [← run_append] at hg
  have hg : (run env (init peers) sched).served <+: (run env (init peers) (sched ++ sched')).served := hg.map _
  have hp1 : Decodes env.profile (peers d).segs.flatten (peers d).fin [.connect p] :=
    Decodes.pre (b := ps) (by simpa using hp)
  have hsome : ∃ ev ∈ (run env (init peers) sched).served, From d ev := by
    apply Classical.byContradiction
    intro hno
    have hno : ∀ ev ∈ (run env (init peers) sched).served, ¬ From d ev := fun ev hev hf => hno ⟨ev, hev, hf⟩
    rcases split_connect (reads_orderly_served hinv.reads) (served_from hinv.reads) ho hp1 with h | ⟨pre, post, _, he, _⟩
    · obtain ⟨h1, _⟩ := (sees_start (idOf (peers d) p) d).run (auth := env.auth) _ fun ev hev => (h ev hev).1
      rw [(offline (mineOf_none hno)).2] at h1
      exact hne (List.prefix_nil.mp ((hinv.serves.delivered d).trans h1))
    · exact hno (.connected { p with clientId := idOf (peers d) p } (peers d).addr d) (by rw [he]; simp) (by simp [From])
  rcases split_connect hord' hfrom' ho hp1 with h | ⟨pre, post, ps', he, hd, hps, hpre, hpost⟩
  · obtain ⟨ev, hev, hf⟩ := hsome
    exact absurd hf (h ev (hg.subset hev)).2
  -- the first part of the events
  obtain ⟨mid, later, hmid, rfl⟩ : ∃ mid later, (run env (init peers) sched).served
      = pre ++ .connected { p with clientId := idOf (peers d) p } (peers d).addr d :: mid ∧ mid ++ later = post := by
    rw [he] at hg
    rcases List.prefix_or_prefix_of_prefix hg (List.prefix_append pre _) with h | ⟨t, h1⟩
    · obtain ⟨ev, hev, hf⟩ := hsome
      exact absurd hf (hpre ev (h.subset hev)).2
    · have h1 := h1.symm
      rw [h1] at hg
      have h2 := (List.prefix_append_right_inj _).mp hg
      cases t with
      | nil =>
        obtain ⟨ev, hev, hf⟩ := hsome
        rw [h1, List.append_nil] at hev
        exact absurd hf (hpre ev hev).2
      | cons e t =>
        obtain ⟨rfl, later, h3⟩ := List.cons_prefix_cons.mp h2
        exact ⟨t, later, h1, h3⟩
  have hpm : ∀ ev ∈ mid, Apart (idOf (peers d) p) d ev := fun ev hev => hpost ev (List.mem_append_left _ hev)
  have hmine : mineOf (mid.filterMap (sightOf d)) ++ mineOf (later.filterMap (sightOf d)) = ps' := by
    rw [← mineOf_append, ← List.filterMap_append]
    exact (List.map_inj_right (fun a b hab => by injection hab)).mp ((mineOf_sights hpost).trans hps)
  obtain ⟨a1, a2⟩ := view_outputs (auth := env.auth) (id := idOf (peers d) p) (addr := (peers d).addr)
    (p := { p with clientId := idOf (peers d) p }) rfl ((login_id env.auth p _).trans hl) hpre hpm
  obtain ⟨b1, b2⟩ := view_outputs (auth := env.auth) (id := idOf (peers d) p) (addr := (peers d).addr)
    (p := { p with clientId := idOf (peers d) p }) rfl ((login_id env.auth p _).trans hl) hpre hpost
  rw [← hmid] at a1 a2
  rw [← he] at b1 b2
  -- the packets before and after
  generalize hM : mineOf (mid.filterMap (sightOf d)) = m at hmine
  generalize hL : mineOf (later.filterMap (sightOf d)) = l at hmine
  have hacks : (ps.filterMap ackOf).length ≤ (m.filterMap ackOf).length := by
    refine Nat.le_trans hack ?_
    have := acks_mono ((hinv.serves.delivered d).trans a1)
    refine Nat.le_trans this (Nat.le_of_eq ?_)
    rw [← hM, ← view_acks]
    rfl
  have key : Idle l ∧ (View.mk true []).after (m.map .mine) = (View.mk true []).after (ps.map .mine) := by
    rw [← hmine] at hd
    have hdm : Decodes env.profile (peers d).segs.flatten (peers d).fin (.connect p :: m) := Decodes.pre (b := l) (by simpa using hd)
    rcases decodes_compare hp hdm with h | h
    · obtain ⟨r, hr⟩ := h
      simp only [List.cons_append, List.cons.injEq, true_and] at hr
      subst hr
      obtain ⟨h1, h2⟩ := hset (r ++ l) (by simpa using hd)
      have h3 : Idle (r ++ l) := fun x hx => ⟨h2 x hx, fun e => h1 (by rw [← e]; exact List.mem_append_right _ hx)⟩
      refine ⟨fun x hx => h3 x (List.mem_append_right _ hx), ?_⟩
      rw [List.map_append, view_after_append, idle_after _ fun x hx => h3 x (List.mem_append_left _ hx)]
    · obtain ⟨r, hr⟩ := h
      simp only [List.cons_append, List.cons.injEq, true_and] at hr
      subst hr
      obtain ⟨h1, _⟩ := hset [] (by simpa using hp)
      rw [List.append_nil] at h1
      have h2 : r.filterMap ackOf = [] := by
        rw [List.filterMap_append, List.length_append] at hacks
        exact List.eq_nil_of_length_eq_zero (by omega)
      have h3 : Idle r := fun x hx => ⟨List.filterMap_eq_nil_iff.mp h2 x hx, fun e => h1 (by rw [← e]; exact List.mem_append_right _ hx)⟩
      refine ⟨?_, by rw [List.map_append, view_after_append, idle_after _ h3]⟩
      rcases decodes_compare hp hd with h | h
      · obtain ⟨s, hs⟩ := h
        simp only [List.cons_append, List.append_assoc, List.cons.injEq, List.append_cancel_left_eq, true_and] at hs
        obtain ⟨h4, h5⟩ := hset s (by rw [← hs] at hd; simpa using hd)
        intro x hx
        rw [← hs] at hx
        rcases List.mem_append.mp hx with hx | hx
        · exact h3 x hx
        · exact ⟨h5 x hx, fun e => h4 (by rw [← e]; exact List.mem_append_right _ hx)⟩
      · obtain ⟨s, hs⟩ := h
        simp only [List.cons_append, List.append_assoc, List.cons.injEq, List.append_cancel_left_eq, true_and] at hs
        exact fun x hx => h3 x (by rw [← hs]; exact List.mem_append_left _ hx)
  obtain ⟨k1, k2⟩ := key
  have hon : ((View.mk true []).after (ps.map .mine)).online = true :=
    online_stays _ _ rfl fun h => (hset [] (by simpa using hp)).1 (List.mem_append_left _ h)
  have hout : messagesOf (welcome :: (View.mk true []).outputs ((mid ++ later).filterMap (sightOf d)))
      = messagesOf ((View.mk true []).outputs (mid.filterMap (sightOf d)))
        ++ (publishedIn later).flatMap (fun q => List.replicate (calledFor (heldAfter ps) q) q) := by
    show messagesOf ((View.mk true []).outputs _) = _
    rw [List.filterMap_append, view_outputs_append, messagesOf_append, after_mine, hM, k2, idle_outputs _ hon _ (by rw [hL]; exact k1),
      seen_published]
    rfl
  refine ⟨messagesOf ((View.mk true []).outputs (mid.filterMap (sightOf d))), later, ?_, ?_, fun hh => ?_, fun q hq => ?_, ?_, fun hh => ?_⟩
  · show (run env (init peers) (sched ++ sched')).served = (run env (init peers) sched).served ++ later
    rw [he, hmid]; simp
  · exact ((hinv.serves.delivered d).trans a1).filterMap _
  · obtain ⟨b, hb, hdel⟩ := rest_of_idle hinv.serves hh
    rw [hdel d, (a2 b hb).2]
    rfl
  · have h1 := outputs_seen _ _ hq
    rw [seen_published] at h1
    obtain ⟨ev, hev, h2⟩ := List.mem_filterMap.mp h1
    refine List.mem_filterMap.mpr ⟨ev, ?_, h2⟩
    show ev ∈ (run env (init peers) sched).served
    rw [hmid]
    exact List.mem_append_right _ (List.mem_cons_of_mem _ hev)
  · rw [← hout]
    exact ((hinv'.serves.delivered d).trans b1).filterMap _
  · obtain ⟨b, hb, hdel⟩ := rest_of_idle hinv'.serves hh
    rw [hdel d, (b2 b hb).2, hout]

end Sys

/-! ### C145 -/

/-- C145. Once a client has settled on its subscriptions and read the acknowledgements, it is sent, from every message the broker deals with
from then on, as many copies as its filters call for, in the order in which the broker deals with them, and nothing else. -/
theorem C145_settled (env : Env) (peers : ConnId → Peer) (a b : List OStep) (d : ConnId) (p : ConnectPacket) (ps : List ControlPacket)
    (h : Settled env (given peers a) (given peers (a ++ b)) ((Open.run env (Open.init peers) a).seen env d) d p ps) :
    ∃ old later, (Open.run env (Open.init peers) (a ++ b)).sys.log.map Prod.fst = (Open.run env (Open.init peers) a).sys.log.map Prod.fst ++ later
      ∧ messagesOf ((Open.run env (Open.init peers) a).sys.conns d).delivered <+: old
      ∧ ((Open.run env (Open.init peers) a).sys.handler = .idle → messagesOf ((Open.run env (Open.init peers) a).sys.conns d).delivered = old)
      ∧ (∀ q ∈ old, q ∈ publishedIn ((Open.run env (Open.init peers) a).sys.log.map Prod.fst))
      ∧ messagesOf ((Open.run env (Open.init peers) (a ++ b)).sys.conns d).delivered
          <+: old ++ (publishedIn later).flatMap (fun q => List.replicate (calledFor (heldAfter ps) q) q)
      ∧ ((Open.run env (Open.init peers) (a ++ b)).sys.handler = .idle →
          messagesOf ((Open.run env (Open.init peers) (a ++ b)).sys.conns d).delivered
            = old ++ (publishedIn later).flatMap (fun q => List.replicate (calledFor (heldAfter ps) q) q)) := by
  obtain ⟨did, h1, h2, h3⟩ := C136_reactive env peers
  have hab := h2 (a ++ b) []
  have haa := h2 a []
  rw [List.append_nil] at hab haa
  obtain ⟨sent, g1, g2, g3⟩ := wire_sent env (given peers a) (did a) d h.works
  obtain ⟨xs, hne, hxs, hread, hack⟩ := h.read
  rw [h3 a d] at hread
  have hsent := ((wireOf_prefix hxs g2 (hread.trans g3)).map ServerEvent.controlPacket).trans g1
  rw [← haa.delivered, (h2 a b).delivered] at hsent
  obtain ⟨t, ht⟩ := h1 a b
  rw [← ht] at hab
  have := settled_run env (given peers (a ++ b)) (did a) t d p ps h.sent h.accepted h.own
    (fun he => by rw [he] at hsent; exact hne (List.map_eq_nil_iff.mp (List.prefix_nil.mp hsent)))
    (Nat.le_trans hack (acks_mono hsent)) h.stays
  rw [← (h2 a b).delivered, ← (h2 a b).log, ← (h2 a b).handler, ← hab.delivered, ← hab.log, ← hab.handler] at this
  exact this

namespace Sys

theorem publishedIn_append (a b : List ClientEvent) : publishedIn (a ++ b) = publishedIn a ++ publishedIn b := by simp [publishedIn]

theorem mem_published {evs : List ClientEvent} {q : PublishPacket} (h : q ∈ publishedIn evs) :
    ∃ pre id c post, evs = pre ++ .controlPacket id (.publish q) c :: post := by
  obtain ⟨ev, hev, hq⟩ := List.mem_filterMap.mp h
  obtain ⟨pre, post, he⟩ := List.append_of_mem hev
  cases ev with
  | controlPacket id x c =>
    cases x with
    | publish y =>
      simp only [Option.some.injEq] at hq
      subst hq
      exact ⟨pre, id, c, post, he⟩
    | _ => cases hq
  | _ => cases hq

/-- Where the packet of an event is. -/
theorem find_packet {env : Env} {peers : ConnId → Peer} {pre post : List ClientEvent} {id : ClientId} {q : PublishPacket} {c : ConnId}
    (h : Orderly env peers (pre ++ .controlPacket id (.publish q) c :: post)) :
    ∃ ps, Decodes env.profile (peers c).segs.flatten (peers c).fin ps ∧ ps[(pre.filter (From c)).length]? = some (.publish q) := by
  obtain ⟨ps, h1, h2⟩ := handled h c
  refine ⟨ps, h1, ?_⟩
  have h3 : (eventsOf (peers c) c ps)[(pre.filter (From c)).length]? = some (.controlPacket id (.publish q) c) := by
    rw [← h2, List.filter_append, List.getElem?_append_right (Nat.le_refl _), Nat.sub_self, List.filter_cons, if_pos (by simp [From])]
    rfl
  cases ps with
  | nil => simp [eventsOf] at h3
  | cons x ps =>
    cases x with
    | connect x =>
      cases hn : (pre.filter (From c)).length with
      | zero => rw [hn] at h3; simp [eventsOf] at h3
      | succ n =>
        rw [hn] at h3
        simp only [eventsOf, List.getElem?_cons_succ, List.getElem?_map, Option.map_eq_some_iff] at h3 ⊢
        obtain ⟨y, hy, e⟩ := h3
        cases e
        exact hy
    | _ => simp [eventsOf] at h3

/-- A message that is sent once is dealt with at most once. -/
theorem published_once {env : Env} {peers : ConnId → Peer} {evs : List ClientEvent} {q : PublishPacket} (h : Orderly env peers evs)
    (hq : SentOnce env peers q) : (publishedIn evs).count q ≤ 1 := by
  obtain ⟨x, hx⟩ := hq
  by_cases hm : q ∈ publishedIn evs
  · obtain ⟨pre, id, c, post, rfl⟩ := mem_published hm
    obtain ⟨ps, h1, h2⟩ := find_packet h
    have e1 := hx c ps h1 _ h2
    have hpre : q ∉ publishedIn pre := by
      intro hm
      obtain ⟨pre', id', c', post', rfl⟩ := mem_published hm
      rw [List.append_assoc, List.cons_append] at h
      obtain ⟨ps', h3, h4⟩ := find_packet h
      have e2 := hx c' ps' h3 _ h4
      rw [← e1] at e2
      simp only [Prod.mk.injEq] at e2
      obtain ⟨rfl, e2⟩ := e2
      rw [List.filter_append, List.length_append, List.filter_cons, if_pos (by simp [From]), List.length_cons] at e2
      omega
    have hpost : q ∉ publishedIn post := by
      intro hm
      obtain ⟨pre', id', c', post', rfl⟩ := mem_published hm
      rw [← List.cons_append, ← List.append_assoc] at h
      obtain ⟨ps', h3, h4⟩ := find_packet h
      have e2 := hx c' ps' h3 _ h4
      rw [← e1] at e2
      simp only [Prod.mk.injEq] at e2
      obtain ⟨rfl, e2⟩ := e2
      rw [List.filter_append, List.length_append, List.filter_cons, if_pos (by simp [From]), List.length_cons] at e2
      omega
    have e : publishedIn (pre ++ .controlPacket id (.publish q) c :: post) = publishedIn pre ++ q :: publishedIn post := by
      rw [publishedIn_append]; rfl
    rw [e, List.count_append, List.count_cons_self, List.count_eq_zero.mpr hpre, List.count_eq_zero.mpr hpost]
    exact Nat.le_refl _
  · rw [List.count_eq_zero.mpr hm]
    exact Nat.zero_le _

theorem count_copies (g : PublishPacket → Nat) (l : List PublishPacket) (q : PublishPacket) :
    (l.flatMap fun x => List.replicate (g x) x).count q = l.count q * g q := by
  induction l with
  | nil => simp
  | cons x l ih =>
    rw [List.flatMap_cons, List.count_append, ih, List.count_replicate, List.count_cons]
    by_cases hx : x = q
    · subst hx
      simp [Nat.add_mul, Nat.add_comm]
    · simp [hx]

end Sys

/-- C145, for one message: a message that is sent once, and after the client has read the acknowledgements, is sent to the client as often as
its filters call for, and at no time more often. -/
theorem C145_copies (env : Env) (peers : ConnId → Peer) (a b : List OStep) (d : ConnId) (p : ConnectPacket) (ps : List ControlPacket)
    (h : Settled env (given peers a) (given peers (a ++ b)) ((Open.run env (Open.init peers) a).seen env d) d p ps)
    (c : ConnId) (qs : List ControlPacket) (i : Nat) (q : PublishPacket) (hq : SentOnce env (given peers (a ++ b)) q)
    (hqs : Decodes env.profile (given peers (a ++ b) c).segs.flatten (given peers (a ++ b) c).fin qs) (hi : qs[i]? = some (.publish q))
    (hlate : ∀ qs, Decodes env.profile (given peers a c).segs.flatten (given peers a c).fin qs → qs.length ≤ i) :
    (messagesOf ((Open.run env (Open.init peers) (a ++ b)).sys.conns d).delivered).count q ≤ calledFor (heldAfter ps) q
    ∧ (i < dealtWith (Open.run env (Open.init peers) (a ++ b)).sys c → (Open.run env (Open.init peers) (a ++ b)).sys.handler = .idle →
        (messagesOf ((Open.run env (Open.init peers) (a ++ b)).sys.conns d).delivered).count q = calledFor (heldAfter ps) q) := by
  have hn := not_dealt (env := env) hlate
  obtain ⟨old, later, h1, _, _, h4, h5, h6⟩ := C145_settled env peers a b d p ps h
  have hord : Orderly env (given peers (a ++ b)) ((Open.run env (Open.init peers) (a ++ b)).sys.log.map Prod.fst) := by
    obtain ⟨did, _, h2, _⟩ := C136_reactive env peers
    have hab := h2 (a ++ b) []
    rw [List.append_nil] at hab
    rw [hab.log]
    exact reads_orderly_served (inv_run env (given peers (a ++ b)) (did (a ++ b))).reads
  have hx : ∀ c' ps', Decodes env.profile (given peers (a ++ b) c').segs.flatten (given peers (a ++ b) c').fin ps' →
      ∀ j, ps'[j]? = some (.publish q) → (c', j) = (c, i) := by
    obtain ⟨x, hx⟩ := hq
    rw [hx c qs hqs i hi]
    exact hx
  have hnot : q ∉ publishedIn ((Open.run env (Open.init peers) a).sys.log.map Prod.fst) := by
    intro hm
    obtain ⟨pre, id, c', post, he⟩ := mem_published hm
    rw [h1, he, List.append_assoc, List.cons_append] at hord
    obtain ⟨ps', h7, h8⟩ := find_packet hord
    have e := hx c' ps' h7 _ h8
    simp only [Prod.mk.injEq] at e
    obtain ⟨rfl, e⟩ := e
    unfold dealtWith at hn
    rw [he, List.filter_append, List.length_append, List.filter_cons, if_pos (by simp [From]), List.length_cons] at hn
    omega
  have hold : old.count q = 0 := List.count_eq_zero.mpr fun hm => hnot (h4 q hm)
  have hone := published_once hord hq
  rw [h1, publishedIn_append, List.count_append] at hone
  have hcount : (old ++ (publishedIn later).flatMap fun q => List.replicate (calledFor (heldAfter ps) q) q).count q
      = (publishedIn later).count q * calledFor (heldAfter ps) q := by
    rw [List.count_append, hold, count_copies (calledFor (heldAfter ps)), Nat.zero_add]
  refine ⟨?_, fun hdone hidle => ?_⟩
  · refine Nat.le_trans (h5.sublist.count_le q) ?_
    rw [hcount]
    refine Nat.le_trans (Nat.mul_le_mul_right _ (show _ ≤ 1 by omega)) (by rw [Nat.one_mul]; exact Nat.le_refl _)
  · rw [h6 hidle, hcount]
    unfold dealtWith at hdone
    obtain ⟨pre, id, post, he, hp⟩ := find_event hord hdone hqs hi
    have hin : q ∈ publishedIn later := by
      have : q ∈ publishedIn ((Open.run env (Open.init peers) (a ++ b)).sys.log.map Prod.fst) := by
        rw [he, publishedIn_append]
        exact List.mem_append_right _ List.mem_cons_self
      rw [h1, publishedIn_append] at this
      exact (List.mem_append.mp this).resolve_left hnot
    have := List.count_pos_iff.mpr hin
    have e : (publishedIn later).count q = 1 := by omega
    rw [e, Nat.one_mul]

/-- C145, unsubscribed: a message that is sent after the client has read the acknowledgements and matches no filter it still holds is never
sent to the client. -/
theorem C145_silence (env : Env) (peers : ConnId → Peer) (a b : List OStep) (d : ConnId) (p : ConnectPacket) (ps : List ControlPacket)
    (h : Settled env (given peers a) (given peers (a ++ b)) ((Open.run env (Open.init peers) a).seen env d) d p ps)
    (c : ConnId) (qs : List ControlPacket) (i : Nat) (q : PublishPacket) (hq : SentOnce env (given peers (a ++ b)) q)
    (hqs : Decodes env.profile (given peers (a ++ b) c).segs.flatten (given peers (a ++ b) c).fin qs) (hi : qs[i]? = some (.publish q))
    (hlate : ∀ qs, Decodes env.profile (given peers a c).segs.flatten (given peers a c).fin qs → qs.length ≤ i)
    (hnone : ∀ f ∈ heldAfter ps, ¬ Matches f q.message.topic) :
    .controlPacket (.publish q) ∉ ((Open.run env (Open.init peers) (a ++ b)).sys.conns d).delivered := by
  intro hm
  have h1 := (C145_copies env peers a b d p ps h c qs i q hq hqs hi hlate).1
  have h2 : calledFor (heldAfter ps) q = 0 :=
    sum_zero (g := fun f => ways f q.message.topic) _ fun f hf => Nat.eq_zero_of_not_pos fun hp => hnone f hf (ways_pos.mp hp)
  rw [h2] at h1
  have : q ∈ messagesOf ((Open.run env (Open.init peers) (a ++ b)).sys.conns d).delivered := List.mem_filterMap.mpr ⟨_, hm, rfl⟩
  have := List.count_pos_iff.mpr this
  omega

/-- C145, without end: let the broker run for ever without crashing, every task getting its turn again and again and every socket answering a
write again and again. A message that somebody who has connected sends once, and after the client has read the acknowledgements, is from
some moment on written to the client's socket exactly as often as its filters call for, unless the read task of the sender spins. -/
theorem C145_exactly (env : Env) (peers : ConnId → Peer) (N : Nat) (σ : Nat → OStep) (he : Endless N σ)
    (hup : ∀ n, (Live.run env (Live.init peers) (firstOf σ n)).opn.sys.handler ≠ .crashed)
    (n : Nat) (d : Nat) (hdN : d < N) (p : ConnectPacket) (ps : List ControlPacket)
    (h : ∀ m, n ≤ m → Settled env (given peers (firstOf σ n)) (given peers (firstOf σ m))
      ((Live.run env (Live.init peers) (firstOf σ n)).opn.seen env d) d p ps)
    (n' : Nat) (c : Nat) (hcN : c < N) (pc : ConnectPacket) (qs : List ControlPacket) (i : Nat) (q : PublishPacket)
    (hq : ∀ m, SentOnce env (given peers (firstOf σ m)) q)
    (hqs : Decodes env.profile (given peers (firstOf σ n') c).segs.flatten (given peers (firstOf σ n') c).fin (.connect pc :: qs))
    (hi : (.connect pc :: qs)[i]? = some (.publish q))
    (hlate : ∀ qs, Decodes env.profile (given peers (firstOf σ n) c).segs.flatten (given peers (firstOf σ n) c).fin qs → qs.length ≤ i)
    (hspin : ∀ m, ((Live.run env (Live.init peers) (firstOf σ m)).opn.sys.conns c).phase ≠ .stuck) :
    ∃ m, ∀ k, m ≤ k → (messagesOf (((Live.run env (Live.init peers) (firstOf σ k)).opn.sys.conns d).written.map .controlPacket)).count q
      = calledFor (heldAfter ps) q := by
  have hU : Live.Up env peers σ := Live.up_of he hup
  -- it is handled
  obtain ⟨m₁, hm₁, h1⟩ := Live.gets_handled he hU (max n n') hcN (Live.decodes_mono (peers := peers) (σ := σ) (Nat.le_max_right n n') hqs)
  have h1 := h1.resolve_left (hspin m₁)
  -- and answered
  obtain ⟨m₂, hm₂, hidle⟩ := Live.idle_again he hU m₁
  have hdone : i < dealtWith (Live.nth env peers σ m₂).opn.sys c := by
    have hlen := (h1.trans ((Live.served_mono hm₂).filter _)).length_le
    have hil := (List.getElem?_eq_some_iff.mp hi).1
    unfold dealtWith
    refine Nat.lt_of_lt_of_le ?_ hlen
    simpa [eventsOf] using hil
  -- as often as called for
  have hcopies : ∀ k, max n n' ≤ k → (messagesOf ((Live.nth env peers σ k).opn.sys.conns d).delivered).count q ≤ calledFor (heldAfter ps) q
      ∧ (i < dealtWith (Live.nth env peers σ k).opn.sys c → (Live.nth env peers σ k).opn.sys.handler = .idle →
        (messagesOf ((Live.nth env peers σ k).opn.sys.conns d).delivered).count q = calledFor (heldAfter ps) q) := by
    intro k hk
    obtain ⟨a, b, e1, e2, e3, e4⟩ := Live.open_two env peers σ (show n ≤ k by omega)
    rw [e2]
    refine C145_copies env peers a b d p ps ?_ c (.connect pc :: qs) i q (by rw [e4]; exact hq k) ?_ hi (by rw [e3]; exact hlate)
    · rw [e3, e4, ← e1]
      exact h k (by omega)
    · rw [e4]
      exact Live.decodes_mono (peers := peers) (σ := σ) (show n' ≤ k by omega) hqs
  have hall := (hcopies m₂ (by omega)).2 hdone hidle
  -- nobody tells the client to go
  have hs := h m₂ (by omega)
  have hno : .disconnect ∉ ((Live.nth env peers σ m₂).opn.sys.conns d).delivered := by
    have hinv := Live.inv (env := env) (peers := peers) (σ := σ) m₂
    have hpre := hinv.serves.delivered d
    rw [← (Live.same m₂).delivered] at hpre
    refine fun hm => never_away (reads_orderly_served hinv.reads) (served_from hinv.reads) hs.own
      (Decodes.pre (a := [.connect p]) (b := ps) hs.sent) hs.accepted (fun qs' hd => ?_) (hpre.subset hm)
    rcases decodes_compare hs.sent hd with ⟨t, ht⟩ | ht
    · simp only [List.cons_append, List.cons.injEq, true_and] at ht
      rw [← ht]
      exact (hs.stays t (by rw [← ht] at hd; exact hd)).1
    · intro hm
      have := (List.cons_prefix_cons.mp ht).2.subset hm
      exact (hs.stays [] (by simpa using hs.sent)).1 (List.mem_append_left _ this)
  obtain ⟨ws, hws⟩ := Live.packets_all hno
  obtain ⟨m₃, hm₃, _, hw⟩ := Live.gets_written he m₂ hdN (ws := ws) (by rw [hws]; exact List.prefix_rfl)
  refine ⟨m₃, fun k hk => Nat.le_antisymm ?_ ?_⟩
  · have hk' := (hcopies k (by omega)).1
    have hwd : ((Live.nth env peers σ k).opn.sys.conns d).written.map .controlPacket <+: ((Live.nth env peers σ k).opn.sys.conns d).delivered := by
      refine List.IsPrefix.trans ?_ (Live.begun_sent (env := env) (peers := peers) (σ := σ) k d)
      unfold Live.begun
      rw [List.map_append]
      exact List.prefix_append _ _
    exact Nat.le_trans ((hwd.filterMap _).sublist.count_le q) hk'
  · rw [← hall, hws]
    exact (((hw.trans (Live.written_mono hk d)).map ServerEvent.controlPacket).filterMap _).sublist.count_le q

/-! ### The hypotheses can be met -/

theorem evening_settled (m : Nat) (hm : 14 ≤ m) : Settled exampleEnv (given quiet (firstOf evening 14)) (given quiet (firstOf evening m))
    ((Live.run exampleEnv (Live.init quiet) (firstOf evening 14)).opn.seen exampleEnv 0) 0 ⟨.mqtt3, "a", 60, true, none, none, none⟩
    [.subscribe ⟨1, [⟨"t", .atMostOnce⟩]⟩] where
  sent := Live.decodes_mono (peers := quiet) (σ := evening) hm evening_sent
  accepted := rfl
  own := evening_own m
  read := ⟨[.connAck ⟨false, .accepted⟩, .subAck ⟨1, [.successQoS0]⟩], by simp, by simp [ServerPacket], evening_seen, by decide⟩
  works := evening_script
  stays qs hqs := by
    have hq : qs = [] := by
      cases qs with
      | nil => rfl
      | cons x qs =>
        have := (evening_decodes hqs).length_le
        simp [eveningTalk, talk] at this
    subst hq
    simp

theorem evening_blank (m : Nat) : SentOnce exampleEnv (given quiet (firstOf evening m)) blank := by
  refine ⟨(1, 1), fun c ps hd i hi => ?_⟩
  have hi := get_of_prefix (evening_decodes hd) hi
  unfold eveningTalk talk at hi
  split at hi
  · split at hi
    · match i with
      | 0 | 1 => simp [hello, meaning] at hi
      | i + 2 => simp at hi
    · split at hi
      · rename_i h1
        subst h1
        match i with
        | 0 => simp [hello, meaning] at hi
        | 1 => rfl
        | i + 2 => simp at hi
      · rename_i h0 h1 h2
        exact absurd h0 (by simp [h1, h2])
  · simp at hi

-- C145: the message of "b" is written to the socket of "a" once, and then never again
example : ∃ m, ∀ k, m ≤ k →
    (messagesOf (((Live.run exampleEnv (Live.init quiet) (firstOf evening k)).opn.sys.conns 0).written.map .controlPacket)).count blank = 1 := by
  obtain ⟨m, h⟩ := C145_exactly exampleEnv quiet 3 evening evening_endless evening_up 14 0 (by omega) ⟨.mqtt3, "a", 60, true, none, none, none⟩
    [.subscribe ⟨1, [⟨"t", .atMostOnce⟩]⟩] evening_settled 15 1 (by omega) ⟨.mqtt3, "b", 60, true, none, none, none⟩ [.publish blank] 1 blank
    evening_blank evening_next rfl (fun qs hqs => by rw [evening_before qs hqs]; exact Nat.zero_le _) evening_spin
  refine ⟨m, fun k hk => (h k hk).trans ?_⟩
  show ways "t" "t" + 0 = 1
  rw [ways_t]

/-- "a" subscribes and changes its mind. -/
def fickle : List ClientPacket := [hello "a", .subscribe 1 [("t", .atMostOnce)], .unsubscribe 2 ["t"]]

/-- It has read the UNSUBACK. -/
def actTwo : List OStep :=
  .arrive 0 (clientBytes fickle) :: ([.read 0, .read 0, .handler 0, .handler 0, .read 0, .read 0, .handler 0, .handler 0, .read 0, .read 0, .handler 0,
    .handler 0].map .task ++ listen ++ [.answer 0 (.accept 4095), .task (.write 0)])

theorem fickle_sendable : Sendable fickle := by
  intro x hx
  simp only [fickle, List.mem_cons, List.not_mem_nil, or_false] at hx
  rcases hx with rfl | rfl | rfl
  · exact talk_sendable 0 _ List.mem_cons_self
  · exact talk_sendable 0 _ (List.mem_cons_of_mem _ List.mem_cons_self)
  · exact ⟨⟨by decide, fun f hf => by rw [List.mem_singleton.mp hf]; unfold Fits; decide +kernel⟩, trivial, by decide +kernel⟩

theorem fickle_given (c : ConnId) : (given quiet (actTwo ++ speak 1) c).segs.flatten = clientBytes (if c = 0 then fickle else if c = 1 then talk 1 else [])
    ∧ (given quiet (actTwo ++ speak 1) c).fin = .silence := by
  simp only [given, actTwo, speak, listen, List.map, List.cons_append, List.nil_append, List.foldl_cons, List.foldl_nil, quiet]
  match c with
  | 0 => exact ⟨List.append_nil _, rfl⟩
  | 1 => exact ⟨List.append_nil _, rfl⟩
  | n + 2 =>
    have h3 : n + 2 ≠ 1 := fun h => by injection h with h; cases h
    simp [give, h3, clientBytes]

theorem fickle_decodes {c : ConnId} {ps : List ControlPacket}
    (h : Decodes exampleEnv.profile (given quiet (actTwo ++ speak 1) c).segs.flatten (given quiet (actTwo ++ speak 1) c).fin ps) :
    ps <+: (if c = 0 then fickle else if c = 1 then talk 1 else []).map meaning := by
  rw [(fickle_given c).1, (fickle_given c).2] at h
  refine decodes_client_only ?_ h
  split
  · exact fickle_sendable
  · split
    · exact talk_sendable 1
    · intro x hx; cases hx

theorem fickle_settled : Settled exampleEnv (given quiet actTwo) (given quiet (actTwo ++ speak 1)) ((Open.run exampleEnv (Open.init quiet) actTwo).seen exampleEnv 0)
    0 ⟨.mqtt3, "a", 60, true, none, none, none⟩ [.subscribe ⟨1, [⟨"t", .atMostOnce⟩]⟩, .unsubscribe ⟨2, ["t"]⟩] where
  sent := by
    rw [(fickle_given 0).1, (fickle_given 0).2]
    exact decodes_client exampleEnv.profile .silence fickle fickle_sendable
  accepted := rfl
  own := by
    intro c d hc hd p ps q qs h1 h2
    have hd : d = 0 := Classical.not_not.mp hd
    subst hd
    have hc : c ≠ 0 := hc
    have g1 := fickle_decodes h1
    have g2 := fickle_decodes h2
    rw [if_neg hc] at g1
    simp only [↓reduceIte, fickle, hello, meaning, List.map_cons, List.map_nil] at g2
    have e2 := (List.cons_prefix_cons.mp g2).1
    simp only [ControlPacket.connect.injEq] at e2
    subst e2
    split at g1
    · have g1 : .connect p :: ps <+: [.connect ⟨.mqtt3, "b", 60, true, none, none, none⟩, .publish blank] := g1
      have e1 := (List.cons_prefix_cons.mp g1).1
      simp only [ControlPacket.connect.injEq] at e1
      subst e1
      simp [idOf]
    · simp at g1
  read := by
    refine ⟨[.connAck ⟨false, .accepted⟩, .subAck ⟨1, [.successQoS0]⟩, .unsubAck 2], by simp, by simp [ServerPacket], ?_, by decide⟩
    have e : (Open.run exampleEnv (Open.init quiet) actTwo).seen exampleEnv 0
      = [ControlPacket.connAck ⟨false, .accepted⟩, .subAck ⟨1, [.successQoS0]⟩, .unsubAck 2].flatMap fun x => (serverBytes x).getD [] := by decide +kernel
    rw [e]
    exact List.prefix_rfl
  works := by
    have e : (given quiet actTwo 0).script = [.accept 4095, .accept 4095, .accept 4095, .accept 4095] := rfl
    rw [e]
    simp
  stays qs hqs := by
    have hq : qs = [] := by
      cases qs with
      | nil => rfl
      | cons x qs =>
        have := (fickle_decodes hqs).length_le
        simp [fickle] at this
    subst hq
    simp

-- C145: "a" has read its UNSUBACK when "b" comes along and publishes
example : .controlPacket (.publish blank) ∉ ((Open.run exampleEnv (Open.init quiet) (actTwo ++ speak 1)).sys.conns 0).delivered := by
  refine C145_silence exampleEnv quiet actTwo (speak 1) 0 _ _ fickle_settled 1 ((talk 1).map meaning) 1 blank ?_ ?_ rfl ?_ ?_
  · refine ⟨(1, 1), fun c ps hd i hi => ?_⟩
    have hi := get_of_prefix (fickle_decodes hd) hi
    split at hi
    · match i with
      | 0 | 1 | 2 => simp [fickle, hello, meaning] at hi
      | i + 3 => simp [fickle] at hi
    · split at hi
      · rename_i h1
        subst h1
        match i with
        | 0 => simp [talk, hello, meaning] at hi
        | 1 => rfl
        | i + 2 => simp [talk] at hi
      · simp at hi
  · rw [(fickle_given 1).1, (fickle_given 1).2]
    exact decodes_client exampleEnv.profile .silence (talk 1) (talk_sendable 1)
  · intro qs hqs
    have h : given quiet actTwo 1 = quiet 1 := rfl
    rw [h] at hqs
    rw [nothing_decodes hqs]
    exact Nat.zero_le _
  · have h : heldAfter [.subscribe ⟨1, [⟨"t", .atMostOnce⟩]⟩, .unsubscribe ⟨2, ["t"]⟩] = [] := by
      simp [heldAfter, View.after, View.step]
    rw [h]
    simp

end Ratel
