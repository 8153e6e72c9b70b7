/-
C102 to C104: the broker as one client sees it.
-/
import Verif.Proofs.View
import Verif.Props.Order

namespace Ratel

open Decoder Encoder Spec Sys

namespace Sys

theorem served_from {env : Env} {peers : ConnId → Peer} {s : Sys} (h : Reads env peers s) : ∀ ev ∈ s.served, ∃ c, From c ev :=
  fun ev hev => h.from_conn ev (List.mem_append_left _ hev)

theorem rest_of_idle {env : Env} {s : Sys} (h : Serves env s) (hh : s.handler = .idle) :
    ∃ b, Broker.start.after env.auth s.served = some b ∧ ∀ d, (s.conns d).delivered = Broker.start.outputs env.auth s.served d := by
  cases h with
  | rest b _ ha _ ho => exact ⟨b, ha, ho⟩
  | sending _ _ _ _ _ _ h' => rw [hh] at h'; cases h'
  | failed _ _ _ h' => rw [hh] at h'; cases h'
  | broken _ _ _ _ _ _ h' => rw [hh] at h'; cases h'

end Sys

/-! ### C102 -/

/-- C102. Take a client whose CONNECT is accepted and whose client id no other connection uses. Whatever all others do and however the tasks
are scheduled, what this client is sent depends on nothing but its own packets and the messages of others: it is what the machine `View`,
which knows the client's own subscriptions only, puts out for the packets of the client and the messages of others that come after the
CONNECT, in the order in which the broker deals with them. -/
theorem C102_client_view (env : Env) (peers : ConnId → Peer) (sched : List Step) (d : ConnId) (p : ConnectPacket)
    (hp : Decodes env.profile (peers d).segs.flatten (peers d).fin [.connect p]) (hl : login env.auth p = .accepted)
    (ho : OwnIds env peers (· ≠ d)) :
    (dealtWith (run env (init peers) sched) d = 0 ∧ ((run env (init peers) sched).conns d).delivered = [])
    ∨ ∃ pre post sights, (run env (init peers) sched).log.map Prod.fst
          = pre ++ .connected { p with clientId := idOf (peers d) p } (peers d).addr d :: post
        ∧ (∀ ev ∈ pre, ¬ From d ev) ∧ sights = post.filterMap (sightOf d)
        ∧ Decodes env.profile (peers d).segs.flatten (peers d).fin (.connect p :: mineOf sights)
        ∧ (∀ q ∈ theirsOf sights, ∃ c ps, c ≠ d ∧ Decodes env.profile (peers c).segs.flatten (peers c).fin ps ∧ .publish q ∈ ps)
        ∧ ((run env (init peers) sched).conns d).delivered <+: welcome :: (View.mk true []).outputs sights
        ∧ ((run env (init peers) sched).handler = .idle →
            ((run env (init peers) sched).conns d).delivered = welcome :: (View.mk true []).outputs sights) := by
  have hinv := inv_run env peers sched
  have hord := reads_orderly_served hinv.reads
  rcases split_connect hord (served_from hinv.reads) ho hp with h | ⟨pre, post, ps, he, hd, hps, hpre, hpost⟩
  · left
    have hnone : ∀ ev ∈ (run env (init peers) sched).served, ¬ From d ev := fun ev hev => (h ev hev).2
    refine ⟨?_, ?_⟩
    · unfold dealtWith
      rw [show ((run env (init peers) sched).log.map Prod.fst).filter (From d) = [] from
        List.filter_eq_nil_iff.mpr fun ev hev => by simpa using hnone ev hev]
      rfl
    · obtain ⟨h1, _⟩ := (sees_start (idOf (peers d) p) d).run (auth := env.auth) _ fun ev hev => (h ev hev).1
      rw [(offline (mineOf_none hnone)).2] at h1
      exact List.prefix_nil.mp ((hinv.serves.delivered d).trans h1)
  · right
    obtain ⟨h1, h2⟩ := view_outputs (auth := env.auth) (id := idOf (peers d) p) (addr := (peers d).addr)
      (p := { p with clientId := idOf (peers d) p }) rfl ((login_id env.auth p _).trans hl) hpre hpost
    have hmine : mineOf (post.filterMap (sightOf d)) = ps := by
      have := (mineOf_sights hpost).trans hps
      exact (List.map_inj_right (fun a b hab => by injection hab)).mp this
    refine ⟨pre, post, _, he, fun ev hev => (hpre ev hev).2, rfl, by rw [hmine]; exact hd, fun q hq => ?_, ?_, fun hh => ?_⟩
    · obtain ⟨id, c, hc, hmem⟩ := theirsOf_sights hq
      obtain ⟨qs, hqs, heq⟩ := handled hord c
      have hf : ClientEvent.controlPacket id (.publish q) c ∈ eventsOf (peers c) c qs := by
        rw [← heq]
        refine List.mem_filter.mpr ⟨?_, by simp [From]⟩
        rw [he]
        exact List.mem_append_right _ (List.mem_cons_of_mem _ hmem)
      refine ⟨c, qs, hc, hqs, ?_⟩
      cases qs with
      | nil => cases hf
      | cons a qs =>
        cases a with
        | connect a =>
          simp only [eventsOf, List.mem_cons, List.mem_map, reduceCtorEq, false_or] at hf
          obtain ⟨x, hx, hxe⟩ := hf
          injection hxe with _ hxe
          subst hxe
          exact List.mem_cons_of_mem _ hx
        | _ => cases hf
    · rw [← he] at h1
      exact (hinv.serves.delivered d).trans h1
    · obtain ⟨b, hb, hdel⟩ := rest_of_idle hinv.serves hh
      rw [← he] at h2
      rw [hdel d, (h2 b hb).2]

/-! ### C103 -/

namespace Sys

theorem after_mine (v : View) (xs : List Sight) : v.after xs = v.after ((mineOf xs).map .mine) := by
  induction xs generalizing v with
  | nil => rfl
  | cons x xs ih =>
    cases x with
    | mine p => exact ih _
    | theirs q => exact ih _

theorem copies_acks (v : View) (q : PublishPacket) : acksIn (v.copies q) = [] := by
  unfold View.copies
  split
  · exact acksIn_replicate _ _
  · rfl

theorem view_acks (v : View) (xs : List Sight) : acksIn (v.outputs xs) = (mineOf xs).filterMap ackOf := by
  induction xs generalizing v with
  | nil => rfl
  | cons x xs ih =>
    have hc := copies_acks v
    rw [View.outputs, acksIn_append, ih]
    cases x with
    | theirs q => rw [show (v.step (.theirs q)).2 = v.copies q from rfl, hc]; rfl
    | mine p =>
      show _ = (p :: mineOf xs).filterMap ackOf
      rw [List.filterMap_cons]
      cases p with
      | publish q => rw [show (v.step (.mine (.publish q))).2 = v.copies q from rfl, hc]; rfl
      | subscribe s => rfl
      | unsubscribe u => rfl
      | pingReq =>
        simp only [View.step, ackOf]
        cases v.online <;> rfl
      | _ => rfl

theorem online_after (v : View) (ps : List ControlPacket) (h : (v.after (ps.map .mine)).online = true) :
    v.online = true ∧ .disconnect ∉ ps := by
  induction ps generalizing v with
  | nil => exact ⟨h, by simp⟩
  | cons p ps ih =>
    obtain ⟨h1, h2⟩ := ih _ h
    cases p with
    | disconnect => simp [View.step] at h1
    | _ => exact ⟨h1, by simpa using h2⟩

theorem online_stays (v : View) (ps : List ControlPacket) (ho : v.online = true) (h : .disconnect ∉ ps) :
    (v.after (ps.map .mine)).online = true := by
  induction ps generalizing v with
  | nil => exact ho
  | cons p ps ih =>
    refine ih _ ?_ fun hm => h (List.mem_cons_of_mem _ hm)
    cases p with
    | disconnect => exact absurd List.mem_cons_self h
    | _ => exact ho

theorem sum_zero {g : String → Nat} (l : List String) (h : ∀ f ∈ l, g f = 0) : (l.map g).sum = 0 := by
  induction l with
  | nil => rfl
  | cons a l ih => simp [h a List.mem_cons_self, ih fun f hf => h f (List.mem_cons_of_mem _ hf)]

theorem sum_pos {g : String → Nat} {l : List String} {f : String} (hf : f ∈ l) (h : 0 < g f) : 0 < (l.map g).sum := by
  induction l with
  | nil => cases hf
  | cons a l ih =>
    rw [List.map_cons, List.sum_cons]
    rcases List.mem_cons.mp hf with rfl | hf
    · omega
    · have := ih hf; omega

theorem copies_matches {v : View} {q q' : PublishPacket} (h : .controlPacket (.publish q) ∈ v.copies q') :
    q = q' ∧ v.online = true ∧ ∃ f ∈ v.filters, Matches f q.message.topic := by
  unfold View.copies at h
  split at h
  · rename_i ho
    have he := List.eq_of_mem_replicate h
    injection he with he
    injection he with he
    subst he
    refine ⟨rfl, ho, ?_⟩
    have hn : (v.filters.map fun f => ways f q.message.topic).sum ≠ 0 := fun hz => by rw [hz] at h; cases h
    by_cases hex : ∃ f ∈ v.filters, 0 < ways f q.message.topic
    · obtain ⟨f, hf, hw⟩ := hex
      exact ⟨f, hf, ways_pos.mp hw⟩
    · exfalso
      apply hn
      exact sum_zero _ fun f hf => Nat.eq_zero_of_not_pos fun hpos => hex ⟨f, hf, hpos⟩
  · cases h

/-- A message comes out: it matches a filter the client has then, and the SUBACKs before it tell which these are. -/
theorem view_message {v : View} {xs : List Sight} {l₁ l₂ : List ServerEvent} {q : PublishPacket}
    (h : v.outputs xs = l₁ ++ .controlPacket (.publish q) :: l₂) :
    ∃ ys, (∃ zs, xs = ys ++ zs) ∧ acksIn l₁ = (mineOf ys).filterMap ackOf ∧ (v.after ys).online = true
      ∧ ∃ f ∈ (v.after ys).filters, Matches f q.message.topic := by
  induction xs generalizing v l₁ with
  | nil => simp [View.outputs] at h
  | cons x xs ih =>
    rw [View.outputs] at h
    have hmsg : .controlPacket (.publish q) ∈ (v.step x).2 → ∃ q', (v.step x).2 = v.copies q' := by
      intro hm
      cases x with
      | theirs q' => exact ⟨q', rfl⟩
      | mine p =>
        cases p with
        | publish q' => exact ⟨q', rfl⟩
        | pingReq =>
          simp only [View.step, List.mem_singleton] at hm
          split at hm <;> cases hm
        | _ => simp [View.step] at hm
    rcases List.append_eq_append_iff.mp h with ⟨t, h1, h2⟩ | ⟨t, h1, h2⟩
    · obtain ⟨ys, ⟨zs, rfl⟩, ha, ho, hf⟩ := ih h2
      refine ⟨x :: ys, ⟨zs, rfl⟩, ?_, ho, hf⟩
      rw [h1, acksIn_append, ha]
      have hx : acksIn (v.step x).2 = (mineOf [x]).filterMap ackOf := by
        have := view_acks v [x]
        simpa [View.outputs] using this
      rw [hx, ← List.filterMap_append, ← mineOf_append]
      rfl
    · cases t with
      | nil =>
        rw [List.nil_append] at h2
        obtain ⟨ys, ⟨zs, rfl⟩, ha, ho, hf⟩ := ih (l₁ := []) h2.symm
        refine ⟨x :: ys, ⟨zs, rfl⟩, ?_, ho, hf⟩
        rw [List.append_nil] at h1
        have hx : acksIn (v.step x).2 = (mineOf [x]).filterMap ackOf := by
          have := view_acks v [x]
          simpa [View.outputs] using this
        have : mineOf (x :: ys) = mineOf [x] ++ mineOf ys := mineOf_append [x] ys
        rw [← h1, hx, this, List.filterMap_append, ← ha]
        simp [acksIn]
      | cons e t =>
        obtain ⟨rfl, _⟩ : .controlPacket (.publish q) = e ∧ _ := List.cons.inj h2
        have hm : ServerEvent.controlPacket (.publish q) ∈ (v.step x).2 := by rw [h1]; simp
        obtain ⟨q', hq'⟩ := hmsg hm
        rw [hq'] at hm h1
        obtain ⟨rfl, ho, hf⟩ := copies_matches hm
        refine ⟨[], ⟨_, rfl⟩, ?_, ho, hf⟩
        have : acksIn (l₁ ++ ServerEvent.controlPacket (.publish q) :: t) = [] := by
          rw [← h1]
          exact copies_acks v q
        rw [acksIn_append] at this
        exact (List.append_eq_nil_iff.mp this).1

end Sys

/-- C103. A client whose CONNECT is accepted and whose client id no other connection uses gets messages between a SUBACK and the matching
UNSUBACK only: take any message it is sent, and the SUBACKs and UNSUBACKs sent before it; they answer the SUBSCRIBEs and UNSUBSCRIBEs
among some first packets of the client; there is no DISCONNECT among these, and after them the client is subscribed to a filter that the
message matches. -/
theorem C103_only_while_subscribed (env : Env) (peers : ConnId → Peer) (sched : List Step) (d : ConnId) (p : ConnectPacket)
    (hp : Decodes env.profile (peers d).segs.flatten (peers d).fin [.connect p]) (hl : login env.auth p = .accepted)
    (ho : OwnIds env peers (· ≠ d)) (l₁ l₂ : List ServerEvent) (q : PublishPacket)
    (hm : ((run env (init peers) sched).conns d).delivered = l₁ ++ .controlPacket (.publish q) :: l₂) :
    ∃ ps, Decodes env.profile (peers d).segs.flatten (peers d).fin (.connect p :: ps) ∧ acksIn l₁ = ps.filterMap ackOf
      ∧ .disconnect ∉ ps ∧ ∃ f ∈ ((View.mk true []).after (ps.map .mine)).filters, Matches f q.message.topic := by
  rcases C102_client_view env peers sched d p hp hl ho with ⟨_, h⟩ | ⟨pre, post, sights, _, _, _, hd, _, hpre, _⟩
  · rw [hm] at h
    simp at h
  · obtain ⟨t, ht⟩ := hpre
    rw [hm, List.append_assoc, List.cons_append] at ht
    cases l₁ with
    | nil => simp [welcome] at ht
    | cons e l₁ =>
      rw [List.cons_append] at ht
      obtain ⟨rfl, ht'⟩ := List.cons.inj ht
      obtain ⟨ys, ⟨zs, rfl⟩, h1, h2, h3⟩ := view_message ht'.symm
      rw [after_mine] at h2 h3
      refine ⟨mineOf ys, ?_, ?_, (online_after _ _ h2).2, h3⟩
      · rw [mineOf_append, ← List.cons_append] at hd
        exact Decodes.pre hd
      · rw [← h1]
        simp [acksIn, welcome]

/-! ### C104 -/

namespace Sys

theorem mem_foldl_erase {f : String} (fs : List String) (h : f ∉ fs) (l : List String) (hm : f ∈ l) : f ∈ fs.foldl List.erase l := by
  induction fs generalizing l with
  | nil => exact hm
  | cons g fs ih =>
    simp only [List.mem_cons, not_or] at h
    exact ih h.2 _ ((List.mem_erase_of_ne h.1).mpr hm)

/-- A filter stays until an UNSUBSCRIBE or a DISCONNECT. -/
theorem filter_stays (v : View) (ps : List ControlPacket) {f : String} (hf : f ∈ v.filters) (hd : .disconnect ∉ ps)
    (hu : ∀ u, .unsubscribe u ∈ ps → f ∉ u.topics) : f ∈ (v.after (ps.map .mine)).filters := by
  induction ps generalizing v with
  | nil => exact hf
  | cons p ps ih =>
    refine ih _ ?_ (fun h => hd (List.mem_cons_of_mem _ h)) fun u h => hu u (List.mem_cons_of_mem _ h)
    cases p with
    | disconnect => exact absurd List.mem_cons_self hd
    | unsubscribe u => exact mem_foldl_erase _ (hu u List.mem_cons_self) _ hf
    | subscribe s => exact List.mem_append_left _ hf
    | _ => exact hf

theorem decodes_compare {pr : Profile} {bytes : List UInt8} {fin : Ending} {a b : List ControlPacket} (ha : Decodes pr bytes fin a)
    (hb : Decodes pr bytes fin b) : a <+: b ∨ b <+: a := by
  obtain ⟨ps, _, h⟩ := longest pr bytes fin
  exact List.prefix_or_prefix_of_prefix (h a ha) (h b hb)

end Sys

/-- C104. A SUBACK is a promise: once a client whose client id no other connection uses has been sent the SUBACK for a filter, every message
that the broker deals with from then on and that matches the filter is sent to the client, as long as it neither sends DISCONNECT nor
unsubscribes from the filter. -/
theorem C104_suback_promise (env : Env) (peers : ConnId → Peer) (sched sched' : List Step) (d : ConnId) (p : ConnectPacket)
    (ps : List ControlPacket) (sub : SubscribePacket) (f : String)
    (hp : Decodes env.profile (peers d).segs.flatten (peers d).fin (.connect p :: ps ++ [.subscribe sub]))
    (hl : login env.auth p = .accepted) (ho : OwnIds env peers (· ≠ d)) (hf : f ∈ sub.subscriptions.map fun x => x.topic)
    (hack : (ps.filterMap ackOf).length < (acksIn ((run env (init peers) sched).conns d).delivered).length)
    (hstay : ∀ qs, Decodes env.profile (peers d).segs.flatten (peers d).fin (.connect p :: ps ++ .subscribe sub :: qs) →
      .disconnect ∉ ps ++ qs ∧ ∀ u, .unsubscribe u ∈ qs → f ∉ u.topics)
    (hh : (run env (init peers) (sched ++ sched')).handler = .idle) (pre post : List ClientEvent) (id : ClientId) (q : PublishPacket)
    (tx : ConnId) (hlog : (run env (init peers) (sched ++ sched')).log.map Prod.fst = pre ++ .controlPacket id (.publish q) tx :: post)
    (hlater : (run env (init peers) sched).log.length ≤ pre.length) (hmatch : Matches f q.message.topic) :
    .controlPacket (.publish q) ∈ ((run env (init peers) (sched ++ sched')).conns d).delivered := by
  have hinv := inv_run env peers sched
  have hinv' := inv_run env peers (sched ++ sched')
  have hlog' : (run env (init peers) (sched ++ sched')).served = pre ++ .controlPacket id (.publish q) tx :: post := hlog
  have hord := reads_orderly_served hinv'.reads
  have hfrom := served_from hinv'.reads
  rw [hlog'] at hord hfrom
  have hpre0 : (run env (init peers) sched).served <+: pre := by
    have hg := (run_grows env (run env (init peers) sched) sched').1
    rw [← run_append] at hg
    have hg : (run env (init peers) sched).served <+: pre ++ .controlPacket id (.publish q) tx :: post := by
      rw [← hlog']; exact hg.map _
    exact List.prefix_of_prefix_length_le hg (List.prefix_append _ _) (by simpa [Sys.served] using hlater)
  have hp1 : Decodes env.profile (peers d).segs.flatten (peers d).fin [.connect p] :=
    Decodes.pre (b := ps ++ [.subscribe sub]) (by simpa using hp)
  -- what the client had sent when the message came
  have hack' : ∀ qs, (run env (init peers) sched).served.filter (From d) <+: eventsOf (peers d) d qs →
      Decodes env.profile (peers d).segs.flatten (peers d).fin qs → ∃ rest, qs = .connect p :: ps ++ .subscribe sub :: rest := by
    intro qs hqs hdec
    rcases decodes_compare hp hdec with ⟨rest, h⟩ | h
    · exact ⟨rest, by rw [← h]; simp⟩
    · have hlen : (acksIn ((run env (init peers) sched).conns d).delivered).length ≤ (qs.filterMap ackOf).length := by
        obtain ⟨h3, _⟩ := outputs_acks (auth := env.auth) d (run env (init peers) sched).served .start
        obtain ⟨t, ht⟩ := hinv.serves.delivered d
        rw [← ht, acksIn_append, ← evAck_filter] at h3
        have h4 := (List.prefix_append _ _).trans h3
        have h5 := hqs.filterMap (evAck d)
        have h6 : (eventsOf (peers d) d qs).filterMap (evAck d) <+: qs.filterMap ackOf := by
          cases qs with
          | nil => exact List.nil_prefix
          | cons a qs =>
            cases a with
            | connect a => rw [evAck_eventsOf]; exact List.prefix_rfl
            | _ => exact List.nil_prefix
        exact ((h4.trans h5).trans h6).length_le
      have hpfx : qs <+: .connect p :: ps ∨ qs = .connect p :: ps ++ [.subscribe sub] := by
        rcases List.prefix_concat_iff.mp h with h | h
        · exact .inr h
        · exact .inl h
      rcases hpfx with h | h
      · exfalso
        have := (h.filterMap ackOf).length_le
        have e : (ControlPacket.connect p :: ps).filterMap ackOf = ps.filterMap ackOf := rfl
        rw [e] at this
        omega
      · exact ⟨[], h⟩
  have hordp : Orderly env peers pre := hord.pre
  rcases split_connect hordp (fun ev hev => hfrom ev (List.mem_append_left _ hev)) ho hp1 with h | ⟨pre', post', ps', he, hd, hps, hpre, hpost⟩
  · exfalso
    have hz : (run env (init peers) sched).served.filter (From d) = [] :=
      List.filter_eq_nil_iff.mpr fun ev hev => by simpa using (h ev (hpre0.subset hev)).2
    obtain ⟨rest, hr⟩ := hack' [] (by rw [hz]; exact List.nil_prefix) ⟨_, rfl⟩
    cases hr
  · have hfil : pre.filter (From d) = eventsOf (peers d) d (.connect p :: ps') := by
      rw [he, List.filter_append, List.filter_cons, if_pos (by simp [From]), hps, List.filter_eq_nil_iff.mpr fun ev hev => by
        simpa using (hpre ev hev).2]
      rfl
    obtain ⟨rest, hr⟩ := hack' _ (by rw [← hfil]; exact hpre0.filter _) hd
    have hr' : ps' = ps ++ .subscribe sub :: rest := by simpa using hr
    obtain ⟨hs1, hs2⟩ := hstay rest (hr ▸ hd)
    have hmine : mineOf (post'.filterMap (sightOf d)) = ps' :=
      (List.map_inj_right (fun a b hab => by injection hab)).mp ((mineOf_sights hpost).trans hps)
    obtain ⟨b, hb, hdel⟩ := rest_of_idle hinv'.serves hh
    rw [hlog'] at hb hdel
    obtain ⟨b1, hb1, hb2⟩ := after_prefix hb
    obtain ⟨_, h2⟩ := view_outputs (auth := env.auth) (id := idOf (peers d) p) (addr := (peers d).addr)
      (p := { p with clientId := idOf (peers d) p }) rfl ((login_id env.auth p _).trans hl) hpre hpost
    rw [he] at hb1
    obtain ⟨hsees, _⟩ := h2 b1 hb1
    rw [after_mine, hmine] at hsees
    have hon : ((View.mk true []).after (ps'.map .mine)).online = true := online_stays _ _ rfl (by
      rw [hr']
      intro hm
      rcases List.mem_append.mp hm with hm | hm
      · exact hs1 (List.mem_append_left _ hm)
      · rcases List.mem_cons.mp hm with hm | hm
        · cases hm
        · exact hs1 (List.mem_append_right _ hm))
    have hfilter : f ∈ ((View.mk true []).after (ps'.map .mine)).filters := by
      rw [hr', List.map_append, view_after_append, List.map_cons]
      show f ∈ (View.after (View.step _ (.mine (.subscribe sub))).1 (rest.map .mine)).filters
      exact filter_stays _ _ (List.mem_append_right _ hf) (fun h => hs1 (List.mem_append_right _ h)) hs2
    rw [hdel d, outputs_append, he, hb1]
    refine List.mem_append_right _ ?_
    simp only [Broker.outputs, Broker.step, Broker.packet]
    refine List.mem_append_left _ ?_
    rw [hsees.copies q]
    unfold View.copies
    rw [if_pos hon]
    refine List.mem_replicate.mpr ⟨?_, rfl⟩
    exact Nat.ne_of_gt (sum_pos (g := fun f => ways f q.message.topic) hfilter (ways_pos.mpr hmatch))

/-! ### The hypotheses can be met -/

/-- Two clients "a" and "b" subscribe to "t"; "b" and a third client "c" publish there. -/
def chatPackets (c : ConnId) : List ClientPacket :=
  if c = 0 then [hello "a", .subscribe 1 [("t", .atMostOnce)]]
  else if c = 1 then [hello "b", .subscribe 1 [("t", .atMostOnce)], .publish blank]
  else if c = 2 then [hello "c", .publish second]
  else []

def chatPeers (c : ConnId) : Peer := ⟨someAddr, "u", [clientBytes (chatPackets c)], .eof, []⟩

/-- Everybody connects, "a" and "b" subscribe; -/
def chatFirst : List ClientEvent :=
  [.connected ⟨.mqtt3, "a", 60, true, none, none, none⟩ someAddr 0, .connected ⟨.mqtt3, "b", 60, true, none, none, none⟩ someAddr 1,
    .connected ⟨.mqtt3, "c", 60, true, none, none, none⟩ someAddr 2,
    .controlPacket "a" (.subscribe ⟨1, [⟨"t", .atMostOnce⟩]⟩) 0, .controlPacket "b" (.subscribe ⟨1, [⟨"t", .atMostOnce⟩]⟩) 1]

/-- then "b" publishes, -/
def chatThen : List ClientEvent := [.controlPacket "b" (.publish blank) 1]

/-- then "c". -/
def chatLast : List ClientEvent := [.controlPacket "c" (.publish second) 2]

theorem chat_sendable (c : ConnId) : Sendable (chatPackets c) := by
  have hc : ∀ id ∈ ["a", "b", "c"], Sendable [hello id] := by
    intro id hid x hx
    rw [List.mem_singleton] at hx
    subst hx
    simp only [List.mem_cons, List.not_mem_nil, or_false] at hid
    rcases hid with rfl | rfl | rfl
    · exact hello_sendable "a" (by unfold Fits; decide +kernel) (by decide +kernel)
    · exact hello_sendable "b" (by unfold Fits; decide +kernel) (by decide +kernel)
    · exact hello_sendable "c" (by unfold Fits; decide +kernel) (by decide +kernel)
  have hs := subscriber_sendable (.subscribe 1 [("t", .atMostOnce)]) (by simp [subscriberPackets])
  have hb := publisher_sendable (.publish blank) (by simp [publisherPackets])
  unfold chatPackets
  split
  · intro x hx
    rcases List.mem_cons.mp hx with rfl | hx
    · exact hc "a" (by simp) _ (by simp)
    · rw [List.mem_singleton.mp hx]; exact hs
  · split
    · intro x hx
      rcases List.mem_cons.mp hx with rfl | hx
      · exact hc "b" (by simp) _ (by simp)
      · rcases List.mem_cons.mp hx with rfl | hx
        · exact hs
        · rw [List.mem_singleton.mp hx]; exact hb
    · split
      · intro x hx
        rcases List.mem_cons.mp hx with rfl | hx
        · exact hc "c" (by simp) _ (by simp)
        · rw [List.mem_singleton.mp hx]; exact ⟨⟨by decide +kernel, by decide⟩, trivial, by decide +kernel⟩
      · intro x hx; cases hx

theorem ways_t : ways "t" "t" = 1 := by
  have h1 : ways "t" "t" ≤ 1 := ways_plain ⟨by decide +kernel, by decide +kernel⟩
  have h2 : 0 < ways "t" "t" := ways_pos.mpr
    ⟨["t"], ["t"], (C69_levels _ _).mpr (by decide +kernel), (C69_levels _ _).mpr (by decide +kernel), .literal _ _ _ .done⟩
  omega

theorem chat_run (first rest : List ClientEvent) (h : first ++ rest = chatFirst ++ chatThen ++ chatLast) :
    ∃ sched sched', ((run exampleEnv (init chatPeers) sched).handler = .idle ∧ (run exampleEnv (init chatPeers) sched).log.map Prod.fst = first
        ∧ ∀ d, ((run exampleEnv (init chatPeers) sched).conns d).delivered = Broker.start.outputs exampleEnv.auth first d)
      ∧ (run exampleEnv (init chatPeers) (sched ++ sched')).handler = .idle
        ∧ (run exampleEnv (init chatPeers) (sched ++ sched')).log.map Prod.fst = first ++ rest
        ∧ ∀ d, ((run exampleEnv (init chatPeers) (sched ++ sched')).conns d).delivered
          = Broker.start.outputs exampleEnv.auth (first ++ rest) d := by
  refine C77_in_stages exampleEnv chatPeers chatPackets (fun c _ => by simp [chatPeers]) chat_sendable ?_ first rest ?_ ?_ ?_ ?_
  · intro c
    unfold chatPackets
    split
    · decide +kernel
    · split
      · decide +kernel
      · split <;> decide +kernel
  · intro ev hev
    rw [h] at hev
    simp only [chatFirst, chatThen, chatLast, List.cons_append, List.nil_append, List.mem_cons, List.not_mem_nil, or_false] at hev
    rcases hev with rfl | rfl | rfl | rfl | rfl | rfl | rfl <;> simp [From]
  · intro c
    rw [h]
    by_cases c0 : c = 0
    · subst c0
      simp [chatFirst, chatThen, chatLast, From, chatPackets, hello, meaning, eventsOf, idOf, chatPeers]
    · by_cases c1 : c = 1
      · subst c1
        simp [chatFirst, chatThen, chatLast, From, chatPackets, hello, meaning, eventsOf, idOf, chatPeers]
      · by_cases c2 : c = 2
        · subst c2
          simp [chatFirst, chatThen, chatLast, From, chatPackets, hello, meaning, eventsOf, idOf, chatPeers]
        · have h0' : 0 ≠ c := fun h => c0 h.symm
          have h1' : 1 ≠ c := fun h => c1 h.symm
          have h2' : 2 ≠ c := fun h => c2 h.symm
          simp [chatFirst, chatThen, chatLast, From, h0', h1', h2']
  · intro p addr c hp
    rw [h] at hp
    simp only [chatFirst, chatThen, chatLast, List.cons_append, List.nil_append, List.mem_cons, List.not_mem_nil, or_false] at hp
    rcases hp with h | h | h | h | h | h | h <;> cases h <;> simp [login]
  · intro d
    rw [h]
    refine Nat.le_trans (outputs_quota (by
      intro id q tx hq
      simp only [chatFirst, chatThen, chatLast, List.cons_append, List.nil_append, List.mem_cons, List.not_mem_nil, or_false] at hq
      rcases hq with h | h | h | h | h | h | h <;> cases h <;> exact ⟨by decide +kernel, by decide +kernel⟩) _ d)
      (by simp [chatFirst, chatThen, chatLast, quota, Broker.start])

/-- What "a" is sent. -/
theorem chat_outputs : Broker.start.outputs exampleEnv.auth (chatFirst ++ chatThen ++ chatLast) 0
    = [welcome, .controlPacket (.subAck ⟨1, [.successQoS0]⟩), .controlPacket (.publish blank), .controlPacket (.publish second)] := by
  simp [chatFirst, chatThen, chatLast, Broker.outputs, Broker.step, Broker.packet, Broker.start, login, Spec.to, Broker.copiesTo, ways_t,
    welcome, blank, second]

theorem chat_decodes {c : ConnId} {ps : List ControlPacket}
    (h : Decodes exampleEnv.profile (chatPeers c).segs.flatten (chatPeers c).fin ps) : ps <+: (chatPackets c).map meaning :=
  decodes_client_only (chat_sendable c) (by simpa [chatPeers] using h)

theorem chat_sent (c : ConnId) : Decodes exampleEnv.profile (chatPeers c).segs.flatten (chatPeers c).fin ((chatPackets c).map meaning) := by
  have := decodes_client exampleEnv.profile .eof (chatPackets c) (chat_sendable c)
  simpa [chatPeers] using this

theorem get_of_prefix {ps qs : List ControlPacket} (h : ps <+: qs) {i : Nat} {p : ControlPacket} (hi : ps[i]? = some p) : qs[i]? = some p := by
  obtain ⟨t, rfl⟩ := h
  rw [List.getElem?_append_left (List.getElem?_eq_some_iff.mp hi).1]
  exact hi

theorem chat_once_blank : SentOnce exampleEnv chatPeers blank := by
  refine ⟨(1, 2), fun c ps hd i hi => ?_⟩
  have hi := get_of_prefix (chat_decodes hd) hi
  unfold chatPackets at hi
  split at hi
  · match i with
    | 0 | 1 => simp [hello, meaning] at hi
    | i + 2 => simp at hi
  · split at hi
    · rename_i h1
      subst h1
      match i with
      | 0 | 1 => simp [hello, meaning] at hi
      | 2 => rfl
      | i + 3 => simp at hi
    · split at hi
      · match i with
        | 0 => simp [hello, meaning] at hi
        | 1 => simp [meaning, blank, second] at hi
        | i + 2 => simp at hi
      · simp at hi

theorem chat_once_second : SentOnce exampleEnv chatPeers second := by
  refine ⟨(2, 1), fun c ps hd i hi => ?_⟩
  have hi := get_of_prefix (chat_decodes hd) hi
  unfold chatPackets at hi
  split at hi
  · match i with
    | 0 | 1 => simp [hello, meaning] at hi
    | i + 2 => simp at hi
  · split at hi
    · match i with
      | 0 | 1 => simp [hello, meaning] at hi
      | 2 => simp [meaning, blank, second] at hi
      | i + 3 => simp at hi
    · split at hi
      · rename_i h2
        subst h2
        match i with
        | 0 => simp [hello, meaning] at hi
        | 1 => rfl
        | i + 2 => simp at hi
      · simp at hi

theorem chat_ownIds : OwnIds exampleEnv chatPeers (· ≠ 0) := by
  intro c d hc hd p ps q qs h1 h2
  have hd : d = 0 := Classical.not_not.mp hd
  subst hd
  have hc : c ≠ 0 := hc
  have g1 := chat_decodes h1
  have g2 := chat_decodes h2
  have e2 : idOf (chatPeers 0) q = "a" := by
    simp [chatPackets, hello, meaning] at g2
    rw [g2.1]
    simp [idOf]
  rw [e2]
  simp only [chatPackets, hc, ↓reduceIte] at g1
  split at g1
  · simp [hello, meaning] at g1
    rw [g1.1]
    simp [idOf]
  · split at g1
    · simp [hello, meaning] at g1
      rw [g1.1]
      simp [idOf]
    · simp at g1

-- C100: both messages reach "a", the one of "b" first; so nobody ever gets them the other way round
example : ∃ sched, [blank, second].Sublist (messagesOf ((run exampleEnv (init chatPeers) sched).conns 0).delivered)
    ∧ ∀ e, ¬ [second, blank].Sublist (messagesOf ((run exampleEnv (init chatPeers) sched).conns e).delivered) := by
  obtain ⟨sched, _, ⟨_, _, h⟩, _⟩ := chat_run (chatFirst ++ chatThen ++ chatLast) [] (List.append_nil _)
  have hd : [blank, second].Sublist (messagesOf ((run exampleEnv (init chatPeers) sched).conns 0).delivered) := by
    rw [h, chat_outputs]
    simp [messagesOf, welcome]
  exact ⟨sched, hd, fun e => C100_no_reversal _ _ _ 0 e _ _ (by decide +kernel) chat_once_blank chat_once_second hd⟩

-- C101: "b"'s message has reached "a", that of "c" has not been dealt with: whatever happens next, nobody gets it before that of "b"
example : ∃ sched, blank ∈ messagesOf ((run exampleEnv (init chatPeers) sched).conns 0).delivered
    ∧ ∀ sched' e, ¬ [second, blank].Sublist (messagesOf ((run exampleEnv (init chatPeers) (sched ++ sched')).conns e).delivered) := by
  obtain ⟨sched, _, ⟨_, hl, h⟩, _⟩ := chat_run (chatFirst ++ chatThen) chatLast rfl
  have hd : blank ∈ messagesOf ((run exampleEnv (init chatPeers) sched).conns 0).delivered := by
    rw [h]
    simp [chatFirst, chatThen, Broker.outputs, Broker.step, Broker.packet, Broker.start, login, Spec.to, Broker.copiesTo, ways_t,
      blank, messagesOf]
  refine ⟨sched, hd, fun sched' e => C101_causal _ _ _ sched' 0 e _ _ chat_once_blank chat_once_second hd 2 _ 1 (chat_sent 2) rfl ?_⟩
  unfold dealtWith
  rw [hl]
  simp [chatFirst, chatThen, From]

theorem chat_connect : Decodes exampleEnv.profile (chatPeers 0).segs.flatten (chatPeers 0).fin
    [.connect ⟨.mqtt3, "a", 60, true, none, none, none⟩] :=
  Decodes.pre (b := [.subscribe ⟨1, [⟨"t", .atMostOnce⟩]⟩]) (chat_sent 0)

-- C102, C103: "a" sees its own SUBSCRIBE and two messages; the first comes after the SUBACK
example : ∃ sched l₁ l₂, ((run exampleEnv (init chatPeers) sched).conns 0).delivered = l₁ ++ .controlPacket (.publish blank) :: l₂
    ∧ acksIn l₁ = [.subAck ⟨1, [.successQoS0]⟩]
    ∧ (View.mk true []).outputs [.mine (.subscribe ⟨1, [⟨"t", .atMostOnce⟩]⟩), .theirs blank, .theirs second] = l₁.tail ++ .controlPacket (.publish blank) :: l₂
    ∧ ∃ ps, Decodes exampleEnv.profile (chatPeers 0).segs.flatten (chatPeers 0).fin (.connect ⟨.mqtt3, "a", 60, true, none, none, none⟩ :: ps)
      ∧ acksIn l₁ = ps.filterMap ackOf := by
  obtain ⟨sched, _, ⟨_, _, h⟩, _⟩ := chat_run (chatFirst ++ chatThen ++ chatLast) [] (List.append_nil _)
  have h := (h 0).trans chat_outputs
  obtain ⟨ps, h1, h2, _⟩ := C103_only_while_subscribed exampleEnv chatPeers sched 0 _ chat_connect (by simp [login]) chat_ownIds
    [welcome, .controlPacket (.subAck ⟨1, [.successQoS0]⟩)] [.controlPacket (.publish second)] blank h
  refine ⟨sched, _, _, h, rfl, ?_, ps, h1, h2⟩
  simp [View.outputs, View.step, View.copies, ways_t, blank, second]

-- C104: once "a" has its SUBACK the messages come
example : ∃ sched sched', acksIn ((run exampleEnv (init chatPeers) sched).conns 0).delivered = [.subAck ⟨1, [.successQoS0]⟩]
    ∧ .controlPacket (.publish second) ∈ ((run exampleEnv (init chatPeers) (sched ++ sched')).conns 0).delivered := by
  obtain ⟨sched, sched', ⟨_, hl, h⟩, hi', hl', h'⟩ := chat_run chatFirst (chatThen ++ chatLast) rfl
  have hack : acksIn ((run exampleEnv (init chatPeers) sched).conns 0).delivered = [.subAck ⟨1, [.successQoS0]⟩] := by
    rw [h]
    simp [chatFirst, Broker.outputs, Broker.step, Broker.packet, Broker.start, login, Spec.to, acksIn]
  refine ⟨sched, sched', hack, C104_suback_promise exampleEnv chatPeers sched sched' 0 _ [] ⟨1, [⟨"t", .atMostOnce⟩]⟩ "t" (chat_sent 0)
    (by simp [login]) chat_ownIds (by simp) (by rw [hack]; decide) ?_ hi' (chatFirst ++ chatThen) [] "c" second 2 hl' ?_
    (ways_pos.mp (by rw [show second.message.topic = "t" from rfl, ways_t]; decide))⟩
  · intro qs hq
    have := chat_decodes hq
    simp [chatPackets, hello, meaning] at this
    simp [this]
  · have : (run exampleEnv (init chatPeers) sched).log.length = chatFirst.length := by rw [← hl, List.length_map]
    rw [this]
    simp

end Ratel
