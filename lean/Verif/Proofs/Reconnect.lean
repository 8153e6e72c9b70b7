/-
What a client is sent on a connection when its id was used before.
-/
import Verif.Spec.Reconnect
import Verif.Props.CleanSession
import Verif.Props.View

namespace Ratel

open Spec

namespace Sys

/-- Nobody is reached on connection `d`. -/
def Unseen (d : ConnId) (b : Broker) : Prop := ∀ c, b.session c ≠ some d

theorem Unseen.copies {d : ConnId} {b : Broker} (h : Unseen d b) (t : String) : b.copiesTo d t = 0 := by
  unfold Broker.copiesTo
  rw [List.filter_eq_nil_iff.mpr fun e _ => by simpa using h e.1]
  rfl

theorem Unseen.step {d : ConnId} {b : Broker} (h : Unseen d b) {auth : IdentityProvider} {ev : ClientEvent} {c : ConnId} (hc : c ≠ d)
    (hf : From c ev) {b' : Broker} {out : Outputs} (hs : b.step auth ev = some (b', out)) : Unseen d b' ∧ out d = [] := by
  cases ev with
  | connected p addr tx =>
    have hf : tx = c := hf
    subst hf
    simp only [Broker.step] at hs
    cases hl : login auth p <;> rw [hl] at hs <;> simp only [Option.some.injEq, Prod.mk.injEq, reduceCtorEq] at hs
    · obtain ⟨rfl, rfl⟩ := hs
      refine ⟨fun c' => ?_, to_other hc _⟩
      dsimp only
      split
      · simpa using hc
      · exact h c'
    · obtain ⟨rfl, rfl⟩ := hs
      exact ⟨h, to_other hc _⟩
  | controlPacket id p tx =>
    have hf : tx = c := hf
    subst hf
    simp only [Broker.step, Option.some.injEq] at hs
    cases p with
    | publish q =>
      cases hs
      refine ⟨h, ?_⟩
      show List.replicate (b.copiesTo d q.message.topic) _ = []
      rw [h.copies]
      rfl
    | subscribe s => cases hs; exact ⟨h, to_other hc _⟩
    | unsubscribe u => cases hs; exact ⟨h, to_other hc _⟩
    | pingReq => cases hs; exact ⟨h, to_other hc _⟩
    | disconnect =>
      cases hs
      refine ⟨fun c' => ?_, rfl⟩
      show (if c' = id then none else b.session c') ≠ some d
      split
      · simp
      · exact h c'
    | _ => cases hs; exact ⟨h, rfl⟩
  | disconnected _ => cases hf
  | connectionLost _ => cases hf

theorem Unseen.run {d : ConnId} {b : Broker} (h : Unseen d b) {auth : IdentityProvider} (evs : List ClientEvent)
    (he : ∀ ev ∈ evs, ∃ c, c ≠ d ∧ From c ev) :
    b.outputs auth evs d = [] ∧ ∀ b', b.after auth evs = some b' → Unseen d b' := by
  induction evs generalizing b with
  | nil => exact ⟨rfl, fun b' hb => by cases hb; exact h⟩
  | cons ev evs ih =>
    obtain ⟨c, hc, hf⟩ := he ev List.mem_cons_self
    rw [Broker.outputs, Broker.after]
    cases hs : b.step auth ev with
    | none => exact ⟨rfl, fun b' hb => by cases hb⟩
    | some r =>
      obtain ⟨b', out⟩ := r
      obtain ⟨h1, h2⟩ := h.step hc hf hs
      obtain ⟨h3, h4⟩ := ih h1 fun e he' => he e (List.mem_cons_of_mem _ he')
      exact ⟨by simp only [h2, h3, List.append_nil], h4⟩

/-- What is sent to a client whose CONNECT is accepted, when nobody was reached on its connection and nothing was held under its id. -/
theorem fresh_outputs {auth : IdentityProvider} {id : ClientId} {d : ConnId} {pre post : List ClientEvent} {p : ConnectPacket}
    {addr : SocketAddr} (hid : p.clientId = id) (hl : login auth p = .accepted)
    (hpre : ∀ ev ∈ pre, ∃ c, c ≠ d ∧ From c ev) (hheld : ∀ f, (id, f) ∉ held pre) (hpost : ∀ ev ∈ post, Apart id d ev) :
    Broker.start.outputs auth (pre ++ .connected p addr d :: post) d
      <+: welcome :: (View.mk true []).outputs (post.filterMap (sightOf d))
    ∧ ∀ b, Broker.start.after auth (pre ++ .connected p addr d :: post) = some b →
      Broker.start.outputs auth (pre ++ .connected p addr d :: post) d
        = welcome :: (View.mk true []).outputs (post.filterMap (sightOf d)) := by
  have h0 : Unseen d Broker.start := fun c => by simp [Broker.start]
  obtain ⟨h1, h2⟩ := h0.run (auth := auth) pre hpre
  rw [outputs_append, after_append, h1, List.nil_append]
  cases hb : Broker.start.after auth pre with
  | none => exact ⟨List.nil_prefix, fun _ h => by cases h⟩
  | some b =>
    have hu := h2 b hb
    have hsub : b.subs = held pre := after_subs hb
    have hsees : Sees id d ⟨true, []⟩ ⟨fun c => if c = p.clientId then some d else b.session c, b.subs⟩ := by
      refine ⟨by simp [hid], fun c hc => ?_, ?_⟩
      · dsimp only
        rw [if_neg (by rw [hid]; exact hc)]
        exact hu c
      · show filters id b.subs = []
        unfold filters
        rw [List.map_eq_nil_iff, List.filter_eq_nil_iff]
        rintro ⟨c, f⟩ he hc
        simp only [decide_eq_true_eq] at hc
        subst hc
        rw [hsub] at he
        exact hheld f he
    obtain ⟨h6, h7⟩ := hsees.run (auth := auth) post hpost
    have hstep : b.step auth (.connected p addr d)
        = some (⟨fun c => if c = p.clientId then some d else b.session c, b.subs⟩, to d [welcome]) := by
      simp only [Broker.step, hl]; rfl
    simp only [Broker.outputs, Broker.after, hstep, to_self, List.cons_append, List.nil_append]
    refine ⟨List.cons_prefix_cons.mpr ⟨rfl, h6⟩, fun b' hb' => ?_⟩
    have hb' : Broker.after auth ⟨fun c => if c = p.clientId then some d else b.session c, b.subs⟩ post = some b' := by
      simpa [hstep] using hb'
    rw [(h7 b' hb').2]

/-- The subscriptions of a client are those its own packets make. -/
theorem filters_view {id : ClientId} {d : ConnId} (v : View) (es : Entries) (evs : List ClientEvent) (hv : filters id es = v.filters)
    (he : ∀ ev ∈ evs, Apart id d ev) :
    filters id ((evs.flatMap subOps).foldl Entries.counting es) = (v.after (evs.filterMap (sightOf d))).filters := by
  induction evs generalizing v es with
  | nil => exact hv
  | cons ev evs ih =>
    rw [List.flatMap_cons, List.foldl_append, filterMap_cons_toList, view_after_append]
    refine ih _ _ ?_ fun e he' => he e (List.mem_cons_of_mem _ he')
    have hap := he ev List.mem_cons_self
    have hs : Sees id d v ⟨fun c => if c = id then (if v.online then some d else none) else none, es⟩ :=
      ⟨by simp, fun c hc => by simp [hc], hv⟩
    have key : ∀ {b' : Broker} {out : Outputs}, Broker.step (fun _ _ => .ok ())
        ⟨fun c => if c = id then (if v.online then some d else none) else none, es⟩ ev = some (b', out) →
        filters id ((subOps ev).foldl Entries.counting es) = (v.after (sightOf d ev).toList).filters := by
      intro b' out hst
      have h1 := (hs.step hap hst).1.filters
      have h2 := after_subs (auth := fun _ _ => .ok ()) (evs := [ev])
        (b := ⟨fun c => if c = id then (if v.online then some d else none) else none, es⟩) (b' := b') (by simp [Broker.after, hst])
      simp only [List.flatMap_cons, List.flatMap_nil, List.append_nil] at h2
      rw [← h2]
      exact h1
    cases ev with
    | connected p addr tx => exact hv
    | controlPacket id' p tx => exact key rfl
    | disconnected _ => exact key rfl
    | connectionLost _ => exact key rfl

/-- The events after a connection's CONNECT. -/
theorem split_own {env : Env} {peers : ConnId → Peer} {evs : List ClientEvent} (h : Orderly env peers evs) {d : ConnId} {p : ConnectPacket}
    (hp : Decodes env.profile (peers d).segs.flatten (peers d).fin [.connect p]) :
    (∀ ev ∈ evs, ¬ From d ev)
    ∨ ∃ pre post ps, evs = pre ++ .connected { p with clientId := idOf (peers d) p } (peers d).addr d :: post
      ∧ Decodes env.profile (peers d).segs.flatten (peers d).fin (.connect p :: ps)
      ∧ post.filter (From d) = ps.map (fun q => .controlPacket (idOf (peers d) p) q d)
      ∧ ∀ ev ∈ pre, ¬ From d ev := by
  obtain ⟨ps, hd, he⟩ := handled h d
  by_cases hnil : evs.filter (From d) = []
  · refine .inl fun ev hev hfr => ?_
    have : ev ∈ evs.filter (From d) := List.mem_filter.mpr ⟨hev, by simpa using hfr⟩
    rw [hnil] at this; cases this
  · right
    cases ps with
    | nil => exact absurd he hnil
    | cons q ps =>
      have hq : q = .connect p := Decodes.head hd hp
      subst hq
      rw [eventsOf] at he
      obtain ⟨pre, post, rfl, hpre, hpost⟩ := List.filter_eq_cons_iff.mp he |> fun ⟨l₁, l₂, h1, h2, h3, h4⟩ =>
        (⟨l₁, l₂, h1, h2, h4⟩ : ∃ l₁ l₂, evs = l₁ ++ _ :: l₂ ∧ (∀ x ∈ l₁, ¬ _) ∧ l₂.filter _ = _)
      exact ⟨pre, post, ps, rfl, hd, hpost, fun ev hev => by simpa using hpre ev hev⟩

/-- Every event is a packet of the client itself or comes from another connection with another id. -/
theorem apart_of {env : Env} {peers : ConnId → Peer} {evs : List ClientEvent} {d : ConnId} {id : ClientId} {ps : List ControlPacket}
    (hps : evs.filter (From d) = ps.map (fun q => .controlPacket id q d))
    (hf : ∀ ev ∈ evs, ¬ From d ev → ∃ c, From c ev ∧ clientOf ev ≠ id) : ∀ ev ∈ evs, Apart id d ev := by
  intro ev hev
  by_cases hfr : From d ev
  · have : ev ∈ evs.filter (From d) := List.mem_filter.mpr ⟨hev, by simpa using hfr⟩
    rw [hps] at this
    obtain ⟨q, _, rfl⟩ := List.mem_map.mp this
    exact .inl ⟨q, rfl⟩
  · obtain ⟨c, hc, hid⟩ := hf ev hev hfr
    exact .inr ⟨c, by rintro rfl; exact hfr hc, hc, hid⟩

/-- A connection that is over has no more events. -/
theorem over_later {env : Env} {peers : ConnId → Peer} {old later : List ClientEvent} (h : Orderly env peers (old ++ later)) {c : ConnId}
    (hov : ∀ p ps, Decodes env.profile (peers c).segs.flatten (peers c).fin (.connect p :: ps) → ps.length + 1 ≤ (old.filter (From c)).length) :
    ∀ ev ∈ later, ¬ From c ev := by
  intro ev hev hfr
  obtain ⟨ps, h1, h2⟩ := handled h c
  have hm : ev ∈ later.filter (From c) := List.mem_filter.mpr ⟨hev, by simpa using hfr⟩
  have hlen : 0 < (later.filter (From c)).length := List.length_pos_of_mem hm
  rw [List.filter_append] at h2
  have h3 := congrArg List.length h2
  rw [List.length_append] at h3
  cases ps with
  | nil =>
    have h3 : (old.filter (From c)).length + (later.filter (From c)).length = 0 := h3
    omega
  | cons p ps =>
    cases p with
    | connect p =>
      have := hov p ps h1
      rw [eventsOf, List.length_cons, List.length_map] at h3
      omega
    | _ =>
      have h3 : (old.filter (From c)).length + (later.filter (From c)).length = 0 := h3
      omega

theorem subscribes_client {c : ClientId} {f : String} {ev : ClientEvent} (h : Subscribes c f ev) : clientOf ev = c := by
  unfold Subscribes at h
  split at h
  · exact h.1
  · cases h

/-- A client is served afresh if its id is not used on other connections any more and nothing is held under it. -/
theorem fresh_run (env : Env) (peers : ConnId → Peer) (sched sched' : List Step) (d : ConnId) (p : ConnectPacket)
    (hp : Decodes env.profile (peers d).segs.flatten (peers d).fin [.connect p]) (hl : login env.auth p = .accepted)
    (hold : ∀ c, c ≠ d → OtherId env peers (idOf (peers d) p) c ∨ Over env peers (run env (init peers) sched) c)
    (hnew : dealtWith (run env (init peers) sched) d = 0)
    (hheld : ∀ f, (idOf (peers d) p, f) ∉ held ((run env (init peers) sched).log.map Prod.fst)) :
    ServedAfresh env peers (run env (init peers) (sched ++ sched')) d p := by
  have hinv := inv_run env peers (sched ++ sched')
  have hord := reads_orderly_served hinv.reads
  have hfrom := served_from hinv.reads
  obtain ⟨later, hlater⟩ : ∃ later, (run env (init peers) (sched ++ sched')).served = (run env (init peers) sched).served ++ later := by
    obtain ⟨l, hl⟩ := (run_grows env (run env (init peers) sched) sched').1
    rw [← run_append] at hl
    exact ⟨l.map Prod.fst, by rw [Sys.served, ← hl, List.map_append]; rfl⟩
  have hnone : ∀ ev ∈ (run env (init peers) sched).served, ¬ From d ev := fun ev hev hfr => by
    have : 0 < dealtWith (run env (init peers) sched) d :=
      List.length_pos_of_mem (List.mem_filter.mpr ⟨hev, by simpa using hfr⟩)
    omega
  have hother : ∀ ev ∈ later, ¬ From d ev → ∃ c, From c ev ∧ clientOf ev ≠ idOf (peers d) p := by
    intro ev hev hn
    obtain ⟨c, hc⟩ := hfrom ev (by rw [hlater]; exact List.mem_append_right _ hev)
    have hcd : c ≠ d := by rintro rfl; exact hn hc
    rcases hold c hcd with h | h
    · obtain ⟨q, qs, hq, hid⟩ := orderly_client hord (by rw [hlater]; exact List.mem_append_right _ hev) hc
      exact ⟨c, hc, by rw [hid]; exact h q qs hq⟩
    · exact absurd hc (over_later (hlater ▸ hord) h ev hev)
  have hpre0 : ∀ ev ∈ (run env (init peers) (sched ++ sched')).served, ¬ From d ev → ∃ c, c ≠ d ∧ From c ev := by
    intro ev hev hn
    obtain ⟨c, hc⟩ := hfrom ev hev
    exact ⟨c, by rintro rfl; exact hn hc, hc⟩
  rcases split_own hord hp with h | ⟨pre, post, ps, he, hd, hps, hpre⟩
  · left
    refine ⟨?_, ?_⟩
    · unfold dealtWith
      rw [List.length_eq_zero_iff, List.filter_eq_nil_iff]
      exact fun ev hev => by simpa using h ev hev
    · have h0 : Unseen d Broker.start := fun c => by simp [Broker.start]
      have := (h0.run (auth := env.auth) _ fun ev hev => hpre0 ev hev (h ev hev)).1
      have hdel := hinv.serves.delivered d
      rw [this] at hdel
      exact List.prefix_nil.mp hdel
  · right
    -- the CONNECT comes later
    obtain ⟨mid, rfl, hl2⟩ : ∃ mid, pre = (run env (init peers) sched).served ++ mid
        ∧ later = mid ++ .connected { p with clientId := idOf (peers d) p } (peers d).addr d :: post := by
      rw [hlater] at he
      rcases List.append_eq_append_iff.mp he with ⟨x, h1, h2⟩ | ⟨x, h1, h2⟩
      · exact ⟨x, h1, h2⟩
      · cases x with
        | nil => exact ⟨[], by simpa using h1.symm, by simpa using h2.symm⟩
        | cons y x =>
          simp only [List.cons_append, List.cons.injEq] at h2
          exact absurd (by rw [← h2.1]; rfl) (hnone y (by rw [h1]; exact List.mem_append_right _ List.mem_cons_self))
    have hpost : ∀ ev ∈ post, Apart (idOf (peers d) p) d ev :=
      apart_of (env := env) (peers := peers) hps fun ev hev => hother ev (by rw [hl2]; exact List.mem_append_right _ (List.mem_cons_of_mem _ hev))
    have hh : ∀ f, (idOf (peers d) p, f) ∉ held ((run env (init peers) sched).served ++ mid) := by
      intro f hf
      rcases held_append hf with hf | ⟨ev, hev, hs⟩
      · exact hheld f hf
      · obtain ⟨c, hc, hid⟩ := hother ev (by rw [hl2]; exact List.mem_append_left _ hev) (hpre ev (List.mem_append_right _ hev))
        exact hid (subscribes_client hs)
    obtain ⟨h1, h2⟩ := fresh_outputs (auth := env.auth) (id := idOf (peers d) p) (addr := (peers d).addr)
      (p := { p with clientId := idOf (peers d) p }) rfl ((login_id env.auth p _).trans hl)
      (fun ev hev => hpre0 ev (by rw [he]; exact List.mem_append_left _ hev) (hpre ev hev)) hh hpost
    have hmine : mineOf (post.filterMap (sightOf d)) = ps :=
      (List.map_inj_right (fun a b hab => by injection hab)).mp ((mineOf_sights hpost).trans hps)
    refine ⟨_, post, _, he, hpre, rfl, by rw [hmine]; exact hd, fun q hq => ?_, ?_, fun hh => ?_⟩
    · obtain ⟨id, c, hc, hmem⟩ := theirsOf_sights hq
      obtain ⟨qs, hqs, heq⟩ := handled hord c
      have hf : ClientEvent.controlPacket id (.publish q) c ∈ eventsOf (peers c) c qs := by
        rw [← heq]
        refine List.mem_filter.mpr ⟨?_, by simp [From]⟩
        rw [he]
        exact List.mem_append_right _ (List.mem_cons_of_mem _ hmem)
      refine ⟨c, qs, hc, hqs, ?_⟩
      cases qs with
      | nil => cases hf
      | cons a qs =>
        cases a with
        | connect a =>
          simp only [eventsOf, List.mem_cons, List.mem_map, reduceCtorEq, false_or] at hf
          obtain ⟨x, hx, hxe⟩ := hf
          injection hxe with _ hxe
          subst hxe
          exact List.mem_cons_of_mem _ hx
        | _ => cases hf
    · rw [← he] at h1
      exact (hinv.serves.delivered d).trans h1
    · obtain ⟨b, hb, hdel⟩ := rest_of_idle hinv.serves hh
      rw [← he] at h2
      rw [hdel d, h2 b hb]

/-! ### Connections nobody is reached on -/

theorem Unseen.deaf_step {d : ConnId} {b : Broker} (h : Unseen d b) {auth : IdentityProvider} {ev : ClientEvent}
    (hn : ∀ p addr, ev ≠ .connected p addr d) {b' : Broker} {out : Outputs} (hs : b.step auth ev = some (b', out)) :
    Unseen d b' ∧ messagesOf (out d) = [] := by
  have to_acks : ∀ (c : ConnId) (p : ControlPacket), (∀ q, p ≠ .publish q) → messagesOf (to c [.controlPacket p] d) = [] := by
    intro c p hp
    unfold to
    split
    · cases p with
      | publish q => exact absurd rfl (hp q)
      | _ => rfl
    · rfl
  cases ev with
  | connected p addr tx =>
    have hc : tx ≠ d := by rintro rfl; exact hn p addr rfl
    have := h.step hc (ev := .connected p addr tx) rfl hs
    exact ⟨this.1, by rw [this.2]; rfl⟩
  | controlPacket id p tx =>
    simp only [Broker.step, Option.some.injEq] at hs
    cases p with
    | publish q =>
      cases hs
      refine ⟨h, ?_⟩
      show messagesOf (List.replicate (b.copiesTo d q.message.topic) _) = []
      rw [h.copies]
      rfl
    | subscribe s => cases hs; exact ⟨h, to_acks _ _ fun q => by simp⟩
    | unsubscribe u => cases hs; exact ⟨h, to_acks _ _ fun q => by simp⟩
    | pingReq =>
      cases hs
      refine ⟨h, ?_⟩
      simp only [to]
      split
      · split <;> rfl
      · rfl
    | disconnect =>
      cases hs
      refine ⟨fun c' => ?_, rfl⟩
      show (if c' = id then none else b.session c') ≠ some d
      split
      · simp
      · exact h c'
    | _ => cases hs; exact ⟨h, rfl⟩
  | disconnected _ => cases hs; exact ⟨h, rfl⟩
  | connectionLost id =>
    cases hs
    refine ⟨fun c' => ?_, rfl⟩
    show (if c' = id then none else b.session c') ≠ some d
    split
    · simp
    · exact h c'

/-- No messages are sent to a connection nobody is reached on. -/
theorem Unseen.deaf {d : ConnId} {b : Broker} (h : Unseen d b) {auth : IdentityProvider} (evs : List ClientEvent)
    (he : ∀ ev ∈ evs, ∀ p addr, ev ≠ .connected p addr d) : messagesOf (b.outputs auth evs d) = [] := by
  induction evs generalizing b with
  | nil => rfl
  | cons ev evs ih =>
    rw [Broker.outputs]
    cases hs : b.step auth ev with
    | none => rfl
    | some r =>
      obtain ⟨b', out⟩ := r
      obtain ⟨h1, h2⟩ := h.deaf_step (he ev List.mem_cons_self) hs
      show messagesOf (out d ++ _) = []
      rw [messagesOf_append, h2, ih h1 fun e he' => he e (List.mem_cons_of_mem _ he')]
      rfl

/-- Nobody but client `id` is reached on connection `d`. -/
theorem session_owner {d : ConnId} {id : ClientId} {auth : IdentityProvider} (evs : List ClientEvent)
    (he : ∀ ev ∈ evs, ∀ p addr, ev = .connected p addr d → p.clientId = id) {b b' : Broker}
    (h : ∀ c, b.session c = some d → c = id) (hb : b.after auth evs = some b') : ∀ c, b'.session c = some d → c = id := by
  induction evs generalizing b with
  | nil => cases hb; exact h
  | cons ev evs ih =>
    rw [Broker.after] at hb
    cases hs : b.step auth ev with
    | none => rw [hs] at hb; cases hb
    | some r =>
      obtain ⟨b1, out⟩ := r
      rw [hs] at hb
      refine ih (fun e he' => he e (List.mem_cons_of_mem _ he')) ?_ hb
      intro c hc
      cases ev with
      | connected p addr tx =>
        simp only [Broker.step] at hs
        cases hl : login auth p <;> rw [hl] at hs <;> simp only [Option.some.injEq, Prod.mk.injEq, reduceCtorEq] at hs
        · obtain ⟨rfl, rfl⟩ := hs
          dsimp only at hc
          split at hc
          · rename_i e
            cases hc
            rw [e]
            exact he _ List.mem_cons_self p addr rfl
          · exact h c hc
        · obtain ⟨rfl, rfl⟩ := hs
          exact h c hc
      | controlPacket id' p tx =>
        simp only [Broker.step, Option.some.injEq] at hs
        cases p with
        | disconnect =>
          cases hs
          replace hc : (if c = id' then none else b.session c) = some d := hc
          split at hc
          · cases hc
          · exact h c hc
        | _ => cases hs; exact h c hc
      | disconnected _ => cases hs; exact h c hc
      | connectionLost id' =>
        cases hs
        replace hc : (if c = id' then none else b.session c) = some d := hc
        split at hc
        · cases hc
        · exact h c hc

/-- The CONNECT of a connection comes once. -/
theorem no_second {env : Env} {peers : ConnId → Peer} {old later : List ClientEvent} (h : Orderly env peers (old ++ later)) {d : ConnId}
    (hd : (old.filter (From d)).length ≠ 0) : ∀ ev ∈ later, ∀ p addr, ev ≠ .connected p addr d := by
  rintro ev hev p addr rfl
  obtain ⟨ps, h1, h2⟩ := handled h d
  have hm : ClientEvent.connected p addr d ∈ later.filter (From d) := List.mem_filter.mpr ⟨hev, by simp [From]⟩
  rw [List.filter_append] at h2
  cases ho : old.filter (From d) with
  | nil => rw [ho] at hd; exact hd rfl
  | cons x xs =>
    rw [ho] at h2
    cases ps with
    | nil => cases h2
    | cons q ps =>
      cases q with
      | connect q =>
        simp only [eventsOf, List.cons_append, List.cons.injEq] at h2
        have : ClientEvent.connected p addr d ∈ ps.map fun r => ClientEvent.controlPacket (idOf (peers d) q) r d := by
          rw [← h2.2]; exact List.mem_append_right _ hm
        obtain ⟨_, _, h3⟩ := List.mem_map.mp this
        cases h3
      | _ => cases h2

/-- Once a DISCONNECT under the id of connection `d` has been dealt with, no message is sent to `d` any more. -/
theorem deaf_run (env : Env) (peers : ConnId → Peer) (sched sched' : List Step) (c d : ConnId) (p : ConnectPacket) (pre : List ClientEvent)
    (hp : Decodes env.profile (peers d).segs.flatten (peers d).fin [.connect p])
    (hlog : (run env (init peers) sched).log.map Prod.fst = pre ++ [.controlPacket (idOf (peers d) p) .disconnect c])
    (hd : dealtWith (run env (init peers) sched) d ≠ 0) (hidle : (run env (init peers) sched).handler = .idle) :
    messagesOf ((run env (init peers) (sched ++ sched')).conns d).delivered = messagesOf ((run env (init peers) sched).conns d).delivered := by
  have hinv := inv_run env peers (sched ++ sched')
  have hord := reads_orderly_served hinv.reads
  obtain ⟨later, hlater⟩ : ∃ later, (run env (init peers) (sched ++ sched')).served = (run env (init peers) sched).served ++ later := by
    obtain ⟨l, hl⟩ := (run_grows env (run env (init peers) sched) sched').1
    rw [← run_append] at hl
    exact ⟨l.map Prod.fst, by rw [Sys.served, ← hl, List.map_append]; rfl⟩
  have hlog : (run env (init peers) sched).served = _ := hlog
  obtain ⟨b, hb, hdel⟩ := rest_of_idle (inv_run env peers sched).serves hidle
  have hown : ∀ ev ∈ (run env (init peers) (sched ++ sched')).served, ∀ q addr, ev = .connected q addr d → q.clientId = idOf (peers d) p := by
    rintro ev hev q addr rfl
    obtain ⟨r, rs, h1, h2⟩ := orderly_client hord hev rfl
    have := Decodes.head h1 hp
    cases this
    exact h2
  have hunseen : Unseen d b := by
    rw [hlog, after_append] at hb
    cases hb1 : Broker.start.after env.auth pre with
    | none => rw [hb1] at hb; cases hb
    | some b1 =>
      have h1 := session_owner (d := d) pre (fun ev hev => hown ev (by
        rw [hlater, hlog]; exact List.mem_append_left _ (List.mem_append_left _ hev))) (fun c hc => by simp [Broker.start] at hc) hb1
      rw [hb1] at hb
      have hb : some _ = some b := hb
      cases hb
      intro x hx
      replace hx : (if x = idOf (peers d) p then none else b1.session x) = some d := hx
      split at hx
      · cases hx
      · rename_i hne
        exact hne (h1 x hx)
  have hdeaf := hunseen.deaf (auth := env.auth) later (no_second (hlater ▸ hord) hd)
  have h1 := ((hinv.serves.delivered d).filterMap fun | .controlPacket (.publish q) => some q | _ => none)
  have h2 := ((run_grows env (run env (init peers) sched) sched').2 d).filterMap fun | .controlPacket (.publish q) => some q | _ => none
  rw [← run_append] at h2
  refine (h2.eq_of_length_le ?_).symm
  have h3 := h1.length_le
  have h4 : messagesOf (Broker.start.outputs env.auth (run env (init peers) (sched ++ sched')).served d)
      = messagesOf ((run env (init peers) sched).conns d).delivered := by
    rw [hlater, outputs_append, messagesOf_append, hb, hdel d]
    show _ ++ messagesOf (b.outputs env.auth later d) = _
    rw [hdeaf, List.append_nil]
  exact Nat.le_trans h3 (Nat.le_of_eq (congrArg List.length h4))

end Sys

end Ratel
