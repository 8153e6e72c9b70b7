import Verif.Spec.View
import Verif.Props.Isolation
import Verif.Proofs.SysBound
import Verif.Proofs.Order

namespace Ratel

open Spec

namespace Sys

/-- The filters of a client. -/
def filters (id : ClientId) (es : Entries) : List String := (es.filter fun e => e.1 = id).map Prod.snd

/-- The machine of client `id` on connection `d` is in step with the broker. -/
structure Sees (id : ClientId) (d : ConnId) (v : View) (b : Broker) : Prop where
  online : b.session id = if v.online then some d else none
  others : ∀ c, c ≠ id → b.session c ≠ some d
  filters : filters id b.subs = v.filters

theorem filters_erase (id : ClientId) (f : String) (es : Entries) : filters id (es.erase (id, f)) = (filters id es).erase f := by
  unfold filters
  induction es with
  | nil => rfl
  | cons e es ih =>
    obtain ⟨c, g⟩ := e
    by_cases hc : c = id
    · subst hc
      by_cases hg : g = f
      · subst hg; simp
      · rw [List.erase_cons_tail (by simp [hg])]
        simp only [List.filter_cons, decide_true, ↓reduceIte, List.map_cons]
        rw [List.erase_cons_tail (by simp [hg]), ih]
    · rw [List.erase_cons_tail (by simp [hc])]
      simp only [List.filter_cons, hc, decide_false, Bool.false_eq_true, ↓reduceIte]
      exact ih

theorem filters_erase_other {id c : ClientId} (h : c ≠ id) (f : String) (es : Entries) : filters id (es.erase (c, f)) = filters id es := by
  unfold filters
  induction es with
  | nil => rfl
  | cons e es ih =>
    obtain ⟨c', g⟩ := e
    by_cases hc : (c', g) = (c, f)
    · cases hc
      simp [h]
    · rw [List.erase_cons_tail (by simpa using hc)]
      simp only [List.filter_cons]
      split
      · rw [List.map_cons, List.map_cons, ih]
      · exact ih

theorem filters_unsubscribe (id : ClientId) (fs : List String) (es : Entries) :
    filters id (es.unsubscribe id fs) = fs.foldl List.erase (filters id es) := by
  induction fs generalizing es with
  | nil => rfl
  | cons f fs ih =>
    show filters id (Entries.unsubscribe id fs (es.erase (id, f))) = _
    rw [ih, filters_erase]
    rfl

theorem filters_unsubscribe_other {id c : ClientId} (h : c ≠ id) (fs : List String) (es : Entries) :
    filters id (es.unsubscribe c fs) = filters id es := by
  induction fs generalizing es with
  | nil => rfl
  | cons f fs ih =>
    show filters id (Entries.unsubscribe c fs (es.erase (c, f))) = _
    rw [ih, filters_erase_other h]

theorem filters_append (id : ClientId) (a b : Entries) : filters id (a ++ b) = filters id a ++ filters id b := by simp [filters]

theorem filters_own (id : ClientId) (ss : List Subscription) :
    filters id (ss.map fun x => (id, x.topic)) = ss.map fun x => x.topic := by
  unfold filters
  induction ss with
  | nil => rfl
  | cons s ss ih => simpa using ih

theorem filters_others {id c : ClientId} (h : c ≠ id) (ss : List Subscription) : filters id (ss.map fun x => (c, x.topic)) = [] := by
  unfold filters
  induction ss with
  | nil => rfl
  | cons s ss ih => simpa [h] using ih

theorem filtersOf_filters (id : ClientId) (es : Entries) : es.filtersOf id = (filters id es).eraseDups := rfl

theorem Sees.copies {id : ClientId} {d : ConnId} {v : View} {b : Broker} (h : Sees id d v b) (q : PublishPacket) :
    List.replicate (b.copiesTo d q.message.topic) (.controlPacket (.publish q)) = v.copies q := by
  unfold Broker.copiesTo View.copies
  have hf : (b.subs.filter fun e => decide (b.session e.1 = some d)) = if v.online then b.subs.filter fun e => decide (e.1 = id) else [] := by
    split
    · rename_i ho
      apply List.filter_congr
      intro e _
      by_cases he : e.1 = id
      · simp [he, h.online, ho]
      · simp [he, h.others e.1 he]
    · rename_i ho
      apply List.filter_eq_nil_iff.mpr
      intro e _
      by_cases he : e.1 = id
      · simp [he, h.online, ho]
      · simp [h.others e.1 he]
  rw [hf]
  split
  · congr 2
    show _ = List.map (fun f => ways f q.message.topic) v.filters
    rw [← h.filters, Sys.filters, List.map_map]
    rfl
  · rfl

theorem to_self (d : ConnId) (es : List ServerEvent) : to d es d = es := by simp [to]
theorem to_other {d c : ConnId} (h : c ≠ d) (es : List ServerEvent) : to c es d = [] := by simp [to, h.symm]

/-- A packet of the client itself. -/
theorem Sees.mine {id : ClientId} {d : ConnId} {v : View} {b : Broker} (h : Sees id d v b) (p : ControlPacket) :
    Sees id d (v.step (.mine p)).1 (b.packet id p d).1 ∧ (b.packet id p d).2 d = (v.step (.mine p)).2 := by
  cases p with
  | publish q => exact ⟨h, h.copies q⟩
  | subscribe s =>
    refine ⟨⟨h.online, h.others, ?_⟩, to_self _ _⟩
    show Sys.filters id (b.subs ++ _) = v.filters ++ _
    rw [filters_append, filters_own, h.filters]
  | unsubscribe u =>
    refine ⟨⟨h.online, h.others, ?_⟩, to_self _ _⟩
    show Sys.filters id (b.subs.unsubscribe id u.topics) = u.topics.foldl List.erase v.filters
    rw [filters_unsubscribe, h.filters]
  | pingReq =>
    refine ⟨h, ?_⟩
    show to d _ d = [_]
    rw [to_self, h.online]
    cases v.online <;> rfl
  | disconnect =>
    refine ⟨⟨?_, ?_, ?_⟩, rfl⟩
    · simp [View.step, Broker.packet, Broker.forget, SubOp.client]
    · intro c hc
      simp only [Broker.packet, Broker.forget, SubOp.client, hc, ↓reduceIte]
      exact h.others c hc
    · show Sys.filters id (b.subs.unsubscribe id (b.subs.filtersOf id)) = v.filters.eraseDups.foldl List.erase v.filters
      rw [filters_unsubscribe, filtersOf_filters, h.filters]
  | _ => exact ⟨h, rfl⟩

/-- A packet of another client. -/
theorem Sees.theirs {id : ClientId} {d : ConnId} {v : View} {b : Broker} (h : Sees id d v b) {c : ClientId} (hc : c ≠ id) {tx : ConnId}
    (ht : tx ≠ d) (p : ControlPacket) :
    match p with
    | .publish q => Sees id d (v.step (.theirs q)).1 (b.packet c p tx).1 ∧ (b.packet c p tx).2 d = (v.step (.theirs q)).2
    | _ => Sees id d v (b.packet c p tx).1 ∧ (b.packet c p tx).2 d = [] := by
  cases p with
  | publish q => exact ⟨h, h.copies q⟩
  | subscribe s =>
    refine ⟨⟨h.online, h.others, ?_⟩, to_other ht _⟩
    show Sys.filters id (b.subs ++ _) = v.filters
    rw [filters_append, filters_others hc, List.append_nil, h.filters]
  | unsubscribe u =>
    refine ⟨⟨h.online, h.others, ?_⟩, to_other ht _⟩
    show Sys.filters id (b.subs.unsubscribe c u.topics) = v.filters
    rw [filters_unsubscribe_other hc, h.filters]
  | pingReq => exact ⟨h, to_other ht _⟩
  | disconnect =>
    refine ⟨⟨?_, ?_, ?_⟩, rfl⟩
    · simp only [Broker.packet, Broker.forget, SubOp.client, hc.symm, ↓reduceIte]
      exact h.online
    · intro c' hc'
      show (if c' = c then none else b.session c') ≠ some d
      by_cases hcc : c' = c
      · simp [hcc]
      · rw [if_neg hcc]; exact h.others c' hc'
    · show Sys.filters id (b.subs.unsubscribe c (b.subs.filtersOf c)) = v.filters
      rw [filters_unsubscribe_other hc, h.filters]
  | _ => exact ⟨h, rfl⟩

/-- The event is a packet of client `id` on connection `d`, or comes from another connection and another client. -/
def Apart (id : ClientId) (d : ConnId) (ev : ClientEvent) : Prop :=
  (∃ p, ev = .controlPacket id p d) ∨ ∃ c, c ≠ d ∧ From c ev ∧ clientOf ev ≠ id

theorem Sees.step {id : ClientId} {d : ConnId} {v : View} {b : Broker} (h : Sees id d v b) {auth : IdentityProvider} {ev : ClientEvent}
    (he : Apart id d ev) {b' : Broker} {out : Outputs} (hs : b.step auth ev = some (b', out)) :
    Sees id d (v.after (sightOf d ev).toList) b' ∧ out d = v.outputs (sightOf d ev).toList := by
  rcases he with ⟨p, rfl⟩ | ⟨c, hc, hf, hid⟩
  · simp only [Broker.step, Option.some.injEq] at hs
    have := h.mine p
    rw [hs] at this
    simpa [sightOf, View.after, View.outputs] using this
  · cases ev with
    | connected p addr tx =>
      have hf : tx = c := hf
      subst hf
      simp only [Broker.step] at hs
      simp only [sightOf, Option.toList_none, View.after, List.foldl_nil, View.outputs]
      cases hl : login auth p <;> rw [hl] at hs <;> simp only [Option.some.injEq, Prod.mk.injEq, reduceCtorEq] at hs
      · obtain ⟨rfl, rfl⟩ := hs
        refine ⟨⟨?_, fun c' hc' => ?_, h.filters⟩, to_other hc _⟩
        · have : id ≠ p.clientId := fun e => hid e.symm
          simp only [this, ↓reduceIte]
          exact h.online
        · dsimp only
          split
          · simpa using hc
          · exact h.others c' hc'
      · obtain ⟨rfl, rfl⟩ := hs
        exact ⟨h, to_other hc _⟩
    | controlPacket id' p tx =>
      have hf : tx = c := hf
      subst hf
      simp only [Broker.step, Option.some.injEq] at hs
      have := h.theirs (c := id') hid hc p
      rw [hs] at this
      simp only [sightOf, hc, ↓reduceIte]
      cases p <;> simpa [View.after, View.outputs] using this
    | disconnected _ => cases hf
    | connectionLost _ => cases hf

theorem view_after_append (v : View) (a b : List Sight) : v.after (a ++ b) = (v.after a).after b := by simp [View.after]

theorem view_outputs_append (v : View) (a b : List Sight) : v.outputs (a ++ b) = v.outputs a ++ (v.after a).outputs b := by
  induction a generalizing v with
  | nil => rfl
  | cons x a ih => simp [View.outputs, View.after, ih]

theorem filterMap_cons_toList {α β : Type} (f : α → Option β) (a : α) (l : List α) :
    (a :: l).filterMap f = (f a).toList ++ l.filterMap f := by
  rw [List.filterMap_cons]
  cases f a <;> rfl

/-- All the events, and the machine in step. -/
theorem Sees.run {id : ClientId} {d : ConnId} {v : View} {b : Broker} (h : Sees id d v b) {auth : IdentityProvider}
    (evs : List ClientEvent) (he : ∀ ev ∈ evs, Apart id d ev) :
    b.outputs auth evs d <+: v.outputs (evs.filterMap (sightOf d))
    ∧ ∀ b', b.after auth evs = some b' → Sees id d (v.after (evs.filterMap (sightOf d))) b'
      ∧ b.outputs auth evs d = v.outputs (evs.filterMap (sightOf d)) := by
  induction evs generalizing v b with
  | nil =>
    refine ⟨List.prefix_rfl, fun b' hb => ?_⟩
    simp only [Broker.after, Option.some.injEq] at hb
    exact ⟨hb ▸ h, rfl⟩
  | cons ev evs ih =>
    rw [Broker.outputs, Broker.after, filterMap_cons_toList, view_outputs_append, view_after_append]
    cases hs : b.step auth ev with
    | none => exact ⟨List.nil_prefix, fun _ h => by cases h⟩
    | some r =>
      obtain ⟨b', out⟩ := r
      obtain ⟨h1, h2⟩ := h.step (he ev List.mem_cons_self) hs
      obtain ⟨h3, h4⟩ := ih h1 fun e he' => he e (List.mem_cons_of_mem _ he')
      refine ⟨?_, fun b'' hb => ?_⟩
      · show out d ++ b'.outputs auth evs d <+: _
        rw [h2]; exact (List.prefix_append_right_inj _).mpr h3
      · obtain ⟨h5, h6⟩ := h4 b'' hb
        refine ⟨h5, ?_⟩
        show out d ++ b'.outputs auth evs d = _
        rw [h2, h6]

/-! ### The events of an execution -/

theorem readMany_pre (pr : Profile) (a b : List ControlPacket) (s t : Plain)
    (h : (readMany pr (a ++ b).length : M Plain _) s = (.ok (a ++ b), t)) :
    ∃ t', (readMany pr a.length : M Plain _) s = (.ok a, t') := by
  induction a generalizing s with
  | nil => exact ⟨s, rfl⟩
  | cons p a ih =>
    rw [List.cons_append, List.length_cons, readMany] at h
    obtain ⟨q, s1, hq, h⟩ := M.bind_eq_ok.mp h
    obtain ⟨qs, s2, hqs, h⟩ := M.bind_eq_ok.mp h
    have h : (Res.ok (q :: qs), s2) = (Res.ok (p :: (a ++ b)), t) := h
    simp only [Prod.mk.injEq, Res.ok.injEq, List.cons.injEq] at h
    obtain ⟨⟨rfl, rfl⟩, rfl⟩ := h
    obtain ⟨t', ht'⟩ := ih s1 hqs
    refine ⟨t', ?_⟩
    rw [List.length_cons, readMany]
    exact M.bind_eq_ok.mpr ⟨q, s1, hq, M.bind_eq_ok.mpr ⟨a, t', ht', rfl⟩⟩

theorem Decodes.pre {pr : Profile} {bytes : List UInt8} {fin : Ending} {a b : List ControlPacket} (h : Decodes pr bytes fin (a ++ b)) :
    Decodes pr bytes fin a := by
  obtain ⟨t, h⟩ := h
  exact readMany_pre pr a b _ t h

/-- The packets of a connection among the events. -/
theorem handled {env : Env} {peers : ConnId → Peer} {evs : List ClientEvent} (h : Orderly env peers evs) (d : ConnId) :
    ∃ ps, Decodes env.profile (peers d).segs.flatten (peers d).fin ps ∧ evs.filter (From d) = eventsOf (peers d) d ps := by
  obtain ⟨ps, hd, hp⟩ := h d
  cases ps with
  | nil => exact ⟨[], hd, List.prefix_nil.mp hp⟩
  | cons p ps =>
    have hnone : eventsOf (peers d) d (p :: ps) = [] → ∃ ps, Decodes env.profile (peers d).segs.flatten (peers d).fin ps
        ∧ evs.filter (From d) = eventsOf (peers d) d ps := fun he => ⟨[], ⟨_, rfl⟩, by rw [he] at hp; exact List.prefix_nil.mp hp⟩
    cases p with
    | connect p =>
      cases hn : (evs.filter (From d)).length with
      | zero => exact ⟨[], ⟨_, rfl⟩, List.eq_nil_of_length_eq_zero hn⟩
      | succ n =>
        refine ⟨.connect p :: ps.take n, ?_, ?_⟩
        · have : ControlPacket.connect p :: ps = (ControlPacket.connect p :: ps.take n) ++ ps.drop n := by simp
          rw [this] at hd
          exact Decodes.pre hd
        · rw [List.prefix_iff_eq_take.mp hp, hn]
          simp [eventsOf]
    | _ => exact hnone rfl

/-- The events around the CONNECT of a connection that shares its client id with no other. -/
theorem split_connect {env : Env} {peers : ConnId → Peer} {evs : List ClientEvent} (h : Orderly env peers evs)
    (hf : ∀ ev ∈ evs, ∃ c, From c ev) {d : ConnId} (ho : OwnIds env peers (· ≠ d)) {p : ConnectPacket}
    (hp : Decodes env.profile (peers d).segs.flatten (peers d).fin [.connect p]) :
    ((∀ ev ∈ evs, Apart (idOf (peers d) p) d ev ∧ ¬ From d ev))
    ∨ ∃ pre post ps, evs = pre ++ .connected { p with clientId := idOf (peers d) p } (peers d).addr d :: post
      ∧ Decodes env.profile (peers d).segs.flatten (peers d).fin (.connect p :: ps)
      ∧ post.filter (From d) = ps.map (fun q => .controlPacket (idOf (peers d) p) q d)
      ∧ (∀ ev ∈ pre, Apart (idOf (peers d) p) d ev ∧ ¬ From d ev) ∧ ∀ ev ∈ post, Apart (idOf (peers d) p) d ev := by
  have hother : ∀ ev ∈ evs, ¬ From d ev → Apart (idOf (peers d) p) d ev := by
    intro ev hev hn
    obtain ⟨c, hc⟩ := hf ev hev
    have hcd : c ≠ d := by rintro rfl; exact hn hc
    obtain ⟨q, qs, hq, hid⟩ := orderly_client h hev hc
    exact .inr ⟨c, hcd, hc, by rw [hid]; exact ho c d hcd (by simp) q qs p [] hq hp⟩
  obtain ⟨ps, hd, he⟩ := handled h d
  by_cases hnil : evs.filter (From d) = []
  · refine .inl fun ev hev => ?_
    have hn : ¬ From d ev := fun hfr => by
      have : ev ∈ evs.filter (From d) := List.mem_filter.mpr ⟨hev, by simpa using hfr⟩
      rw [hnil] at this; cases this
    exact ⟨hother ev hev hn, hn⟩
  · right
    cases ps with
    | nil => exact absurd he hnil
    | cons q ps =>
      have hq : q = .connect p := Decodes.head hd hp
      subst hq
      rw [eventsOf] at he
      obtain ⟨pre, post, rfl, hpre, hpost⟩ := List.filter_eq_cons_iff.mp he |> fun ⟨l₁, l₂, h1, h2, h3, h4⟩ =>
        (⟨l₁, l₂, h1, h2, h4⟩ : ∃ l₁ l₂, evs = l₁ ++ _ :: l₂ ∧ (∀ x ∈ l₁, ¬ _) ∧ l₂.filter _ = _)
      have hpre : ∀ ev ∈ pre, ¬ From d ev := fun ev hev => by simpa using hpre ev hev
      refine ⟨pre, post, ps, rfl, hd, hpost, fun ev hev => ⟨hother ev (List.mem_append_left _ hev) (hpre ev hev), hpre ev hev⟩, ?_⟩
      intro ev hev
      by_cases hfr : From d ev
      · have : ev ∈ post.filter (From d) := List.mem_filter.mpr ⟨hev, by simpa using hfr⟩
        rw [hpost] at this
        obtain ⟨q, _, rfl⟩ := List.mem_map.mp this
        exact .inl ⟨q, rfl⟩
      · exact hother ev (List.mem_append_right _ (List.mem_cons_of_mem _ hev)) hfr

theorem sightOf_mine {d : ConnId} {ev : ClientEvent} (h : ¬ From d ev) : mineOf (sightOf d ev).toList = [] := by
  cases ev with
  | controlPacket id p tx =>
    have h : tx ≠ d := h
    simp only [sightOf, h, ↓reduceIte]
    split <;> rfl
  | _ => rfl

theorem mineOf_append (a b : List Sight) : mineOf (a ++ b) = mineOf a ++ mineOf b := by simp [mineOf]
theorem theirsOf_append (a b : List Sight) : theirsOf (a ++ b) = theirsOf a ++ theirsOf b := by simp [theirsOf]

theorem mineOf_sights {id : ClientId} {d : ConnId} {evs : List ClientEvent} (he : ∀ ev ∈ evs, Apart id d ev) :
    (mineOf (evs.filterMap (sightOf d))).map (fun q => ClientEvent.controlPacket id q d) = evs.filter (From d) := by
  induction evs with
  | nil => rfl
  | cons ev evs ih =>
    have ih := ih fun e h => he e (List.mem_cons_of_mem _ h)
    rw [filterMap_cons_toList, mineOf_append, List.map_append, ih, List.filter_cons]
    rcases he ev List.mem_cons_self with ⟨p, rfl⟩ | ⟨c, hc, hf, _⟩
    · simp [sightOf, mineOf, From]
    · have hn : ¬ From d ev := fun h => hc (from_unique hf h)
      rw [sightOf_mine hn, if_neg (by simpa using hn)]
      rfl

theorem theirsOf_sights {d : ConnId} {evs : List ClientEvent} {q : PublishPacket} (h : q ∈ theirsOf (evs.filterMap (sightOf d))) :
    ∃ id tx, tx ≠ d ∧ .controlPacket id (.publish q) tx ∈ evs := by
  induction evs with
  | nil => cases h
  | cons ev evs ih =>
    rw [filterMap_cons_toList, theirsOf_append] at h
    rcases List.mem_append.mp h with h | h
    · cases ev with
      | controlPacket id p tx =>
        by_cases ht : tx = d
        · simp [sightOf, ht, theirsOf] at h
        · simp only [sightOf, ht, ↓reduceIte] at h
          cases p with
          | publish q' =>
            have : q = q' := by simpa [theirsOf] using h
            exact ⟨id, tx, ht, by rw [this]; exact List.mem_cons_self⟩
          | _ => simp [theirsOf] at h
      | _ => simp [sightOf, theirsOf] at h
    · obtain ⟨id, tx, h1, h2⟩ := ih h
      exact ⟨id, tx, h1, List.mem_cons_of_mem _ h2⟩

/-- Before its CONNECT a client sees nothing. -/
theorem offline {xs : List Sight} (h : mineOf xs = []) : (View.mk false []).after xs = ⟨false, []⟩ ∧ (View.mk false []).outputs xs = [] := by
  induction xs with
  | nil => exact ⟨rfl, rfl⟩
  | cons x xs ih =>
    cases x with
    | mine p => simp [mineOf] at h
    | theirs q =>
      have h : mineOf xs = [] := h
      obtain ⟨h1, h2⟩ := ih h
      refine ⟨h1, ?_⟩
      simp only [View.outputs]
      exact h2

theorem sees_start (id : ClientId) (d : ConnId) : Sees id d ⟨false, []⟩ Broker.start :=
  ⟨rfl, fun _ _ => by simp [Broker.start], rfl⟩

theorem login_id (auth : IdentityProvider) (p : ConnectPacket) (id : ClientId) : login auth { p with clientId := id } = login auth p := rfl

theorem mineOf_none {d : ConnId} {evs : List ClientEvent} (h : ∀ ev ∈ evs, ¬ From d ev) : mineOf (evs.filterMap (sightOf d)) = [] := by
  induction evs with
  | nil => rfl
  | cons ev evs ih =>
    rw [filterMap_cons_toList, mineOf_append, sightOf_mine (h ev List.mem_cons_self), ih fun e he => h e (List.mem_cons_of_mem _ he)]
    rfl

/-- What is sent to a client whose CONNECT is accepted. -/
theorem view_outputs {auth : IdentityProvider} {id : ClientId} {d : ConnId} {pre post : List ClientEvent} {p : ConnectPacket}
    {addr : SocketAddr} (hid : p.clientId = id) (hl : login auth p = .accepted)
    (hpre : ∀ ev ∈ pre, Apart id d ev ∧ ¬ From d ev) (hpost : ∀ ev ∈ post, Apart id d ev) :
    Broker.start.outputs auth (pre ++ .connected p addr d :: post) d
      <+: welcome :: (View.mk true []).outputs (post.filterMap (sightOf d))
    ∧ ∀ b, Broker.start.after auth (pre ++ .connected p addr d :: post) = some b →
      Sees id d ((View.mk true []).after (post.filterMap (sightOf d))) b
      ∧ Broker.start.outputs auth (pre ++ .connected p addr d :: post) d
        = welcome :: (View.mk true []).outputs (post.filterMap (sightOf d)) := by
  obtain ⟨h1, h2⟩ := (sees_start id d).run (auth := auth) pre fun ev hev => (hpre ev hev).1
  obtain ⟨h3, h4⟩ := offline (mineOf_none (d := d) fun ev hev => (hpre ev hev).2)
  rw [h4] at h1
  have h1 := List.prefix_nil.mp h1
  rw [outputs_append, after_append, h1, List.nil_append]
  cases hb : Broker.start.after auth pre with
  | none => exact ⟨List.nil_prefix, fun _ h => by cases h⟩
  | some b =>
    obtain ⟨h5, _⟩ := h2 b hb
    rw [h3] at h5
    have hsees : Sees id d ⟨true, []⟩ ⟨fun c => if c = p.clientId then some d else b.session c, b.subs⟩ := by
      refine ⟨by simp [hid], fun c hc => ?_, h5.filters⟩
      dsimp only
      rw [if_neg (by rw [hid]; exact hc)]
      exact h5.others c hc
    obtain ⟨h6, h7⟩ := hsees.run (auth := auth) post hpost
    have hstep : b.step auth (.connected p addr d)
        = some (⟨fun c => if c = p.clientId then some d else b.session c, b.subs⟩, to d [welcome]) := by
      simp only [Broker.step, hl]; rfl
    simp only [Broker.outputs, Broker.after, hstep, to_self, List.cons_append, List.nil_append]
    refine ⟨List.cons_prefix_cons.mpr ⟨rfl, h6⟩, fun b' hb' => ?_⟩
    have hb' : Broker.after auth ⟨fun c => if c = p.clientId then some d else b.session c, b.subs⟩ post = some b' := by
      simpa [hstep] using hb'
    obtain ⟨h8, h9⟩ := h7 b' hb'
    exact ⟨h8, by rw [h9]⟩

end Sys

end Ratel
