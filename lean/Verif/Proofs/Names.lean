/-
The broker does the same with renamed events, renamed.
-/
import Verif.Spec.Names
import Verif.Proofs.Orders
import Verif.Proofs.SysTook

namespace Ratel

open Spec Sys

namespace Renaming

variable {r : Spec.Renaming}

theorem topic_levels (hr : r.Faithful) : ∃ level : String → String, (∀ a b, level a = level b → a = b) ∧ level "+" = "+" ∧ level "#" = "#"
    ∧ ∀ s, levelsOf (r.topic s) = (levelsOf s).map level := by
  obtain ⟨level, h1, h2, h3, h4⟩ := hr.levels
  refine ⟨level, h1, h2, h3, fun s => ?_⟩
  rw [levelsOf_eq, levelsOf_eq]
  exact (levels_unique (h4 s _ (levels_splitTopic s))).symm

theorem map_inj {α β : Type} {f : α → β} (hf : ∀ a b, f a = f b → a = b) : ∀ l l' : List α, l.map f = l'.map f → l = l'
  | [], [], _ => rfl
  | [], _ :: _, h => by cases h
  | _ :: _, [], h => by cases h
  | a :: l, b :: l', h => by
    rw [List.map_cons, List.map_cons, List.cons.injEq] at h
    rw [hf _ _ h.1, map_inj hf l l' h.2]

theorem topic_inj (hr : r.Faithful) {s t : String} (h : r.topic s = r.topic t) : s = t := by
  obtain ⟨level, h1, _, _, h4⟩ := topic_levels hr
  have h5 : levelsOf s = levelsOf t := map_inj h1 _ _ (by rw [← h4, ← h4, h])
  rw [levelsOf_eq, levelsOf_eq] at h5
  have hs := (levels_splitTopic s).join
  have ht := (levels_splitTopic t).join
  rw [h5, ht] at hs
  exact String.toList_injective hs.symm

theorem levelWays_map {level : String → String} (h1 : ∀ a b, level a = level b → a = b) (h2 : level "+" = "+") (h3 : level "#" = "#") :
    ∀ fs ts, levelWays (fs.map level) (ts.map level) = levelWays fs ts
  | [], [] => rfl
  | [], _ :: _ => rfl
  | _ :: _, [] => rfl
  | f :: fs, t :: ts => by
    have ih := levelWays_map h1 h2 h3 fs ts
    have e1 : level f = level t ↔ f = t := ⟨h1 _ _, fun h => by rw [h]⟩
    have e2 : level f = "+" ↔ f = "+" := ⟨fun h => h1 _ _ (by rw [h, h2]), fun h => by rw [h, h2]⟩
    have e3 : level f = "#" ↔ f = "#" := ⟨fun h => h1 _ _ (by rw [h, h3]), fun h => by rw [h, h3]⟩
    simp only [List.map_cons, levelWays, ih, e1, e2, e3, List.map_eq_nil_iff]

theorem ways_renamed (hr : r.Faithful) (f t : String) : ways (r.topic f) (r.topic t) = ways f t := by
  obtain ⟨level, h1, h2, h3, h4⟩ := topic_levels hr
  unfold ways
  rw [h4, h4, levelWays_map h1 h2 h3]

/-- A subscription held, renamed. -/
def entry (r : Spec.Renaming) (e : ClientId × String) : ClientId × String := (r.id e.1, r.topic e.2)

theorem entry_inj (hr : r.Faithful) {a b : ClientId × String} (h : entry r a = entry r b) : a = b := by
  unfold entry at h
  rw [Prod.mk.injEq] at h
  exact Prod.ext (hr.ids _ _ h.1) (topic_inj hr h.2)

theorem erase_renamed (hr : r.Faithful) (x : ClientId × String) (es : Entries) : (es.map (entry r)).erase (entry r x) = (es.erase x).map (entry r) := by
  induction es with
  | nil => rfl
  | cons e es ih =>
    rw [List.map_cons, List.erase_cons, List.erase_cons]
    by_cases h : e = x
    · subst h; simp
    · have : entry r e ≠ entry r x := fun h' => h (entry_inj hr h')
      rw [if_neg (by simpa using this), if_neg (by simpa using h), ih, List.map_cons]

theorem unsubscribe_renamed (hr : r.Faithful) (c : ClientId) (fs : List String) (es : Entries) :
    Entries.unsubscribe (r.id c) (fs.map r.topic) (es.map (entry r)) = (Entries.unsubscribe c fs es).map (entry r) := by
  unfold Entries.unsubscribe
  induction fs generalizing es with
  | nil => rfl
  | cons f fs ih =>
    rw [List.map_cons, List.foldl_cons, List.foldl_cons, ← ih, ← erase_renamed hr]
    rfl

theorem eraseDups_renamed (hr : r.Faithful) (l : List String) : (l.map r.topic).eraseDups = l.eraseDups.map r.topic := by
  have key : ∀ n (l : List String), l.length ≤ n → (l.map r.topic).eraseDups = l.eraseDups.map r.topic := by
    intro n
    induction n with
    | zero => intro l hl; rw [List.length_eq_zero_iff.mp (Nat.le_zero.mp hl)]; rfl
    | succ n ih =>
      intro l hl
      cases l with
      | nil => rfl
      | cons a l =>
        have e : l.filter ((fun b => !b == r.topic a) ∘ r.topic) = l.filter fun b => !b == a := by
          refine List.filter_congr fun b _ => ?_
          have : r.topic b = r.topic a ↔ b = a := ⟨topic_inj hr, fun h => by rw [h]⟩
          simp only [Function.comp]
          by_cases h : b = a
          · rw [h]; simp
          · rw [beq_eq_false_iff_ne.mpr h, beq_eq_false_iff_ne.mpr (fun h' => h (this.mp h'))]
        have hlen := List.length_filter_le (fun b => !b == a) l
        simp only [List.length_cons] at hl
        rw [List.map_cons, List.eraseDups_cons, List.eraseDups_cons, List.map_cons, List.filter_map, e, ih _ (by omega)]
  exact key _ l (Nat.le_refl _)

theorem filtersOf_renamed (hr : r.Faithful) (c : ClientId) (es : Entries) :
    Entries.filtersOf (r.id c) (es.map (entry r)) = (Entries.filtersOf c es).map r.topic := by
  unfold Entries.filtersOf
  rw [← eraseDups_renamed hr, List.filter_map, List.map_map, List.map_map]
  congr 2
  refine List.filter_congr fun e _ => ?_
  have : r.id e.1 = r.id c ↔ e.1 = c := ⟨hr.ids _ _, fun h => by rw [h]⟩
  simp [entry, this]

/-- The second broker is the first with other names. -/
structure Of (r : Spec.Renaming) (b b' : Broker) : Prop where
  session : ∀ c, b'.session (r.id c) = b.session c
  subs : b'.subs = b.subs.map (entry r)

theorem Of.start : Of r Broker.start Broker.start := ⟨fun _ => rfl, rfl⟩

theorem Of.copiesTo (hr : r.Faithful) {b b' : Broker} (h : Of r b b') (d : ConnId) (t : String) : b'.copiesTo d (r.topic t) = b.copiesTo d t := by
  unfold Broker.copiesTo
  rw [h.subs, List.filter_map, List.map_map]
  congr 1
  have e : (fun e => decide (b'.session e.1 = some d)) ∘ entry r = fun e => decide (b.session e.1 = some d) := by
    funext e; simp [entry, h.session]
  rw [e]
  refine List.map_congr_left fun e _ => ways_renamed hr e.2 t

theorem Of.forget (hr : r.Faithful) {b b' : Broker} (h : Of r b b') (c : ClientId) :
    Of r (b.forget (.disconnected c)) (b'.forget (.disconnected (r.id c)))
    ∧ Of r (b.forget (.connectionLost c)) (b'.forget (.connectionLost (r.id c))) := by
  have hs : ∀ d, (if r.id d = r.id c then none else b'.session (r.id d)) = if d = c then none else b.session d := by
    intro d
    by_cases hd : d = c
    · rw [if_pos hd, if_pos (by rw [hd])]
    · rw [if_neg hd, if_neg (fun h' => hd (hr.ids _ _ h')), h.session]
  have hu : Entries.unsubscribe (r.id c) (Entries.filtersOf (r.id c) b'.subs) b'.subs
      = (Entries.unsubscribe c (Entries.filtersOf c b.subs) b.subs).map (entry r) := by
    rw [h.subs, filtersOf_renamed hr, unsubscribe_renamed hr]
  exact ⟨⟨hs, hu⟩, ⟨hs, hu⟩⟩

theorem login_renamed (auth : IdentityProvider) (p : ConnectPacket) : login auth (r.connect p) = login auth p := rfl

theorem to_map (tx : ConnId) (l : List ServerEvent) (d : ConnId) : Spec.to tx (l.map r.sent) d = (Spec.to tx l d).map r.sent := by
  unfold Spec.to
  by_cases h : d = tx
  · rw [if_pos h, if_pos h]
  · rw [if_neg h, if_neg h]; rfl

/-- One event. -/
theorem Of.step (hr : r.Faithful) (auth : IdentityProvider) {b b' : Broker} (h : Of r b b') (ev : ClientEvent) :
    (b.step auth ev = none ∧ b'.step auth (r.event ev) = none)
    ∨ ∃ b₁ b₁' out out', b.step auth ev = some (b₁, out) ∧ b'.step auth (r.event ev) = some (b₁', out') ∧ Of r b₁ b₁'
      ∧ ∀ d, out' d = (out d).map r.sent := by
  cases ev with
  | connected p addr tx =>
    simp only [Broker.step, Spec.Renaming.event, login_renamed]
    cases hl : login auth p with
    | incomplete => exact .inl ⟨rfl, rfl⟩
    | refused => exact .inr ⟨_, _, _, _, rfl, rfl, h, fun d => to_map tx [.controlPacket (.connAck ⟨false, .notAuthorized⟩), .disconnect] d⟩
    | accepted =>
      refine .inr ⟨_, _, _, _, rfl, rfl, ⟨fun c => ?_, h.subs⟩, fun d => to_map tx [.controlPacket (.connAck ⟨false, .accepted⟩)] d⟩
      show (if r.id c = r.id p.clientId then some tx else b'.session (r.id c)) = if c = p.clientId then some tx else b.session c
      by_cases hd : c = p.clientId
      · rw [if_pos hd, if_pos (by rw [hd])]
      · rw [if_neg hd, if_neg (fun h' => hd (hr.ids _ _ h')), h.session]
  | disconnected id => exact .inr ⟨_, _, _, _, rfl, rfl, h, fun d => rfl⟩
  | connectionLost id => exact .inr ⟨_, _, _, _, rfl, rfl, (h.forget hr id).2, fun d => rfl⟩
  | controlPacket id p tx =>
    refine .inr ⟨_, _, _, _, rfl, rfl, ?_⟩
    cases p with
    | publish q =>
      refine ⟨h, fun d => ?_⟩
      show List.replicate (b'.copiesTo d (r.topic q.message.topic)) _ = _
      rw [h.copiesTo hr]
      show _ = List.map r.sent (List.replicate (b.copiesTo d q.message.topic) (.controlPacket (.publish q)))
      rw [List.map_replicate]
      rfl
    | subscribe s =>
      refine ⟨⟨h.session, ?_⟩, fun d => ?_⟩
      · show b'.subs ++ List.map _ (List.map _ s.subscriptions) = _
        rw [h.subs]
        show _ = List.map _ (b.subs ++ s.subscriptions.map fun x => (id, x.topic))
        rw [List.map_append, List.map_map, List.map_map]
        rfl
      · show Spec.to tx [.controlPacket (.subAck ⟨s.packetId, List.map _ (List.map _ s.subscriptions)⟩)] d = _
        rw [List.map_map]
        exact to_map tx [.controlPacket (.subAck ⟨s.packetId, s.subscriptions.map fun _ => .successQoS0⟩)] d
    | unsubscribe u =>
      refine ⟨⟨h.session, ?_⟩, fun d => to_map tx [.controlPacket (.unsubAck u.packetId)] d⟩
      show Entries.unsubscribe (r.id id) (u.topics.map r.topic) b'.subs = _
      rw [h.subs, unsubscribe_renamed hr]
    | pingReq =>
      refine ⟨h, fun d => ?_⟩
      show Spec.to tx [if (b'.session (r.id id)).isSome then .controlPacket .pingResp else .disconnect] d
        = (Spec.to tx [if (b.session id).isSome then .controlPacket .pingResp else .disconnect] d).map r.sent
      rw [h.session, ← to_map]
      cases (b.session id).isSome <;> rfl
    | disconnect => exact ⟨(h.forget hr id).1, fun d => rfl⟩
    | _ => exact ⟨h, fun d => rfl⟩

/-- All that is sent. -/
theorem Of.outputs (hr : r.Faithful) (auth : IdentityProvider) (evs : List ClientEvent) {b b' : Broker} (h : Of r b b') (d : ConnId) :
    b'.outputs auth (evs.map r.event) d = (b.outputs auth evs d).map r.sent := by
  induction evs generalizing b b' with
  | nil => rfl
  | cons ev evs ih =>
    rw [List.map_cons]
    simp only [Broker.outputs]
    rcases h.step hr auth ev with ⟨h1, h2⟩ | ⟨b₁, b₁', out, out', h1, h2, h3, h4⟩
    · rw [h1, h2]; rfl
    · rw [h1, h2]
      dsimp only
      rw [h4 d, ih h3, List.map_append]

theorem from_event (c : ConnId) (ev : ClientEvent) : From c (r.event ev) ↔ From c ev := by cases ev <;> exact Iff.rfl

theorem filter_event (c : ConnId) (evs : List ClientEvent) : (evs.map r.event).filter (From c) = (evs.filter (From c)).map r.event := by
  rw [List.filter_map]
  congr 1
  refine List.filter_congr fun ev _ => ?_
  simp [Function.comp, from_event]

theorem idOf_renamed (hr : r.Faithful) {peer peer' : Peer} (h : SameClientAs r peer peer') (p : ConnectPacket) :
    idOf peer' (r.connect p) = r.id (idOf peer p) := by
  unfold idOf
  show (if r.id p.clientId = "" then peer'.uuid else r.id p.clientId) = _
  by_cases hp : p.clientId = ""
  · rw [if_pos hp, hp, if_pos hr.empty, h.1]
  · rw [if_neg hp, if_neg (fun h' => hp (hr.ids _ _ (h'.trans hr.empty.symm)))]

theorem eventsOf_renamed (hr : r.Faithful) {peer peer' : Peer} (h : SameClientAs r peer peer') (c : ConnId) (ps : List ControlPacket) :
    eventsOf peer' c (ps.map r.packet) = (eventsOf peer c ps).map r.event := by
  cases ps with
  | nil => rfl
  | cons p ps =>
    cases p with
    | connect p =>
      rw [List.map_cons]
      show ClientEvent.connected { r.connect p with clientId := idOf peer' (r.connect p) } peer'.addr c
          :: (ps.map r.packet).map (fun q => .controlPacket (idOf peer' (r.connect p)) q c) = _
      rw [idOf_renamed hr h, h.2, List.map_map]
      show _ = r.event (.connected { p with clientId := idOf peer p } peer.addr c) :: (ps.map fun q => .controlPacket (idOf peer p) q c).map r.event
      rw [List.map_map]
      rfl
    | _ => rfl

theorem inOrder_renamed (hr : r.Faithful) {env : Env} {peers peers' : ConnId → Peer} (hc : ∀ c, SameClientAs r (peers c) (peers' c))
    (hp : ∀ c ps, Receives env (peers c) ps → Receives env (peers' c) (ps.map r.packet)) {evs : List ClientEvent} (h : InOrder env peers evs) :
    InOrder env peers' (evs.map r.event) := by
  intro c
  obtain ⟨ps, h1, h2⟩ := h c
  refine ⟨_, hp c ps h1, ?_⟩
  rw [filter_event, eventsOf_renamed hr (hc c)]
  exact h2.map _

theorem fromAway_renamed (l : List ServerEvent) : fromAway (l.map r.sent) = (fromAway l).map r.sent := by
  unfold fromAway
  rw [List.dropWhile_map]
  congr 2
  funext e
  cases e <;> simp [Function.comp, Spec.Renaming.sent]

theorem possible_renamed (hr : r.Faithful) {env : Env} {peers peers' : ConnId → Peer} (hc : ∀ c, SameClientAs r (peers c) (peers' c))
    (hp : ∀ c ps, Receives env (peers c) ps → Receives env (peers' c) (ps.map r.packet)) {evs : List ClientEvent} (h : Possible env peers evs) :
    Possible env peers' (evs.map r.event) where
  inOrder := inOrder_renamed hr hc hp h.inOrder
  from_conn := fun ev hev => by
    obtain ⟨e, he, rfl⟩ := List.mem_map.mp hev
    obtain ⟨c, h1⟩ := h.from_conn e he
    exact ⟨c, (from_event c e).mpr h1⟩
  complete := fun p addr c hev => by
    obtain ⟨e, he, h1⟩ := List.mem_map.mp hev
    cases e with
    | connected p' addr' c' =>
      cases h1
      exact h.complete p' _ _ he
    | _ => cases h1
  room := fun d => by
    rw [Of.outputs hr env.auth evs Of.start d, fromAway_renamed, List.length_map]
    exact h.room d

theorem changesSession_renamed (hr : r.Faithful) {auth : IdentityProvider} {c : ClientId} {ev : ClientEvent} :
    ChangesSession auth (r.id c) (r.event ev) ↔ ChangesSession auth c ev := by
  have hi : ∀ d, r.id d = r.id c ↔ d = c := fun d => ⟨hr.ids _ _, fun h => by rw [h]⟩
  cases ev with
  | connected p addr tx => exact and_congr (hi _) Iff.rfl
  | controlPacket id p tx =>
    cases p with
    | disconnect => exact hi id
    | _ => exact Iff.rfl
  | disconnected id => exact Iff.rfl
  | connectionLost id => exact hi id

theorem reachedOn_renamed (hr : r.Faithful) {auth : IdentityProvider} {evs : List ClientEvent} {c : ClientId} {d : ConnId}
    (h : ReachedOn auth (evs.map r.event) (r.id c) d) : ReachedOn auth evs c d := by
  obtain ⟨pre, p, addr, post, he, h1, h2, h3⟩ := h
  obtain ⟨pre', rest, rfl, rfl, h5⟩ := List.map_eq_append_iff.mp he
  obtain ⟨ev, post', rfl, h6, rfl⟩ := List.map_eq_cons_iff.mp h5
  cases ev with
  | connected p' addr' tx' =>
    cases h6
    exact ⟨pre', p', addr, post', rfl, hr.ids _ _ h1, h2, fun e he hch =>
      h3 _ (List.mem_map_of_mem he) ((changesSession_renamed hr).mpr hch)⟩
  | _ => cases h6

theorem turnedAway_renamed (hr : r.Faithful) {auth : IdentityProvider} {evs : List ClientEvent} {d : ConnId} (h : TurnedAway auth evs d) :
    TurnedAway auth (evs.map r.event) d := by
  rcases h with ⟨p, addr, h1, h2⟩ | ⟨pre, id, post, rfl, h2⟩
  · exact .inl ⟨r.connect p, addr, List.mem_map.mpr ⟨_, h1, rfl⟩, h2⟩
  · refine .inr ⟨pre.map r.event, r.id id, post.map r.event, ?_, fun c hc => h2 c (reachedOn_renamed hr hc)⟩
    rw [List.map_append, List.map_cons]
    rfl

theorem fatal_renamed (hr : r.Faithful) {auth : IdentityProvider} {evs : List ClientEvent} (h : Fatal auth evs) : Fatal auth (evs.map r.event) := by
  obtain ⟨pre, ev, rfl, h⟩ := h
  refine ⟨pre.map r.event, r.event ev, by rw [List.map_append]; rfl, ?_⟩
  rcases h with ⟨p, addr, tx, rfl, h1⟩ | ⟨id, p, tx, rfl, h1, h2⟩
  · exact .inl ⟨r.connect p, addr, tx, rfl, h1⟩
  · refine .inr ⟨r.id id, r.packet p, tx, rfl, ?_, turnedAway_renamed hr h2⟩
    rcases h1 with ⟨q, rfl⟩ | ⟨q, rfl⟩ | rfl
    · exact .inl ⟨_, rfl⟩
    · exact .inr (.inl ⟨_, rfl⟩)
    · exact .inr (.inr rfl)

theorem meaning_client (p : ClientPacket) : meaning (r.client p) = r.packet (meaning p) := by
  cases p with
  | connect c =>
    simp only [Spec.Renaming.client, meaning, Spec.Renaming.packet, Spec.Renaming.connect, Option.map_map]
    rfl
  | subscribe i fs =>
    simp only [Spec.Renaming.client, meaning, Spec.Renaming.packet, List.map_map]
    rfl
  | _ => rfl

end Renaming

end Ratel
