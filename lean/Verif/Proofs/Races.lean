/-
The sequential broker does the same with independent events in either order.
-/
import Verif.Spec.Races
import Verif.Proofs.SysBroker
import Verif.Proofs.SysRealize
import Verif.Proofs.Orders

namespace Ratel

open Spec

namespace Races

/-- What an event makes of the session of its client. -/
def session (auth : IdentityProvider) : ClientEvent → Option ConnId → Option ConnId
  | .connected p _ tx, s => if login auth p = .accepted then some tx else s
  | .controlPacket _ .disconnect _, _ => none
  | .connectionLost _, _ => none
  | _, s => s

/-- How often a subscription is held after an event. -/
def count (ev : ClientEvent) (e : ClientId × String) (n : Nat) : Nat :=
  match ev with
  | .controlPacket id (.subscribe s) _ => n + (s.subscriptions.map fun x => (id, x.topic)).count e
  | .controlPacket id (.unsubscribe u) _ => n - (if e.1 = id then u.topics.count e.2 else 0)
  | .controlPacket id .disconnect _ => n - (if e.1 = id then 1 else 0)
  | .connectionLost id => n - (if e.1 = id then 1 else 0)
  | _ => n

/-- What is sent for an event that is no message. -/
def answer (auth : IdentityProvider) (ev : ClientEvent) (s : Option ConnId) : Outputs :=
  match ev with
  | .connected p _ tx => if login auth p = .accepted then Spec.to tx [.controlPacket (.connAck ⟨false, .accepted⟩)]
      else Spec.to tx [.controlPacket (.connAck ⟨false, .notAuthorized⟩), .disconnect]
  | .controlPacket _ (.subscribe q) tx => Spec.to tx [.controlPacket (.subAck ⟨q.packetId, q.subscriptions.map fun _ => .successQoS0⟩)]
  | .controlPacket _ (.unsubscribe u) tx => Spec.to tx [.controlPacket (.unsubAck u.packetId)]
  | .controlPacket _ .pingReq tx => Spec.to tx [if s.isSome then .controlPacket .pingResp else .disconnect]
  | _ => nothing

/-- What is sent for an event. -/
noncomputable def sent (auth : IdentityProvider) (ev : ClientEvent) (b : Broker) : Outputs :=
  match ev with
  | .controlPacket _ (.publish q) _ => fun d => List.replicate (b.copiesTo d q.message.topic) (.controlPacket (.publish q))
  | ev => answer auth ev (b.session (clientOf ev))

/-- The event is no CONNECT with a user name and no password. -/
def Whole (auth : IdentityProvider) : ClientEvent → Prop
  | .connected p _ _ => login auth p ≠ .incomplete
  | _ => True

theorem step_whole {auth : IdentityProvider} {ev : ClientEvent} (h : Whole auth ev) (b : Broker) :
    ∃ b', b.step auth ev = some (b', sent auth ev b)
      ∧ (∀ c, b'.session c = if c = clientOf ev then session auth ev (b.session c) else b.session c)
      ∧ ∀ e, b'.subs.count e = count ev e (b.subs.count e) := by
  cases ev with
  | connected p addr tx =>
    simp only [Broker.step, sent, answer, session]
    cases hl : login auth p with
    | incomplete => exact absurd hl h
    | accepted => exact ⟨_, rfl, fun c => by simp [clientOf], fun e => rfl⟩
    | refused => exact ⟨b, by simp, fun c => by simp, fun e => rfl⟩
  | disconnected id => exact ⟨b, rfl, fun c => by simp [session], fun e => rfl⟩
  | connectionLost id =>
    exact ⟨_, rfl, fun c => by by_cases hc : c = id <;> simp [Broker.forget, session, clientOf, SubOp.client, hc], fun e => Entries.count_dropAll e.1 id e.2 b.subs⟩
  | controlPacket id p tx =>
    cases p with
    | disconnect =>
      exact ⟨_, rfl, fun c => by by_cases hc : c = id <;> simp [Broker.forget, session, clientOf, SubOp.client, hc], fun e => Entries.count_dropAll e.1 id e.2 b.subs⟩
    | subscribe s => exact ⟨_, rfl, fun c => by simp [Broker.packet, session], fun e => by simp [Broker.packet, count]⟩
    | unsubscribe u =>
      exact ⟨_, rfl, fun c => by simp [Broker.packet, session], fun e => Entries.count_unsubscribe e.1 id e.2 u.topics b.subs⟩
    | _ => exact ⟨_, rfl, fun c => by simp [Broker.packet, session], fun e => rfl⟩

theorem count_other {ev : ClientEvent} {e : ClientId × String} (h : e.1 ≠ clientOf ev) (n : Nat) : count ev e n = n := by
  cases ev with
  | controlPacket id p tx =>
    cases p with
    | subscribe s =>
      have : (s.subscriptions.map fun x => (id, x.topic)).count e = 0 := by
        rw [List.count_eq_zero]
        intro hm
        obtain ⟨x, _, rfl⟩ := List.mem_map.mp hm
        exact h rfl
      simp only [count, this, Nat.add_zero]
    | unsubscribe u => simp only [count, if_neg (show ¬ e.1 = id from h), Nat.sub_zero]
    | disconnect => simp only [count, if_neg (show ¬ e.1 = id from h), Nat.sub_zero]
    | _ => rfl
  | connectionLost id => simp only [count, if_neg (show ¬ e.1 = id from h), Nat.sub_zero]
  | _ => rfl

/-- The copies depend on matching subscriptions that are held only. -/
theorem copies_congr {b b' : Broker} {d : ConnId} {t : String} (h : ∀ e : ClientId × String, Matches e.2 t → b.subs.count e = b'.subs.count e
    ∧ (0 < b.subs.count e → (b.session e.1 = some d ↔ b'.session e.1 = some d))) : b.copiesTo d t = b'.copiesTo d t := by
  have zeros : ∀ l : Entries, (l.map fun e => ways e.2 t).sum = ((l.filter fun e => decide (0 < ways e.2 t)).map fun e => ways e.2 t).sum := by
    intro l
    induction l with
    | nil => rfl
    | cons e l ih =>
      by_cases hw : 0 < ways e.2 t
      · rw [List.filter_cons_of_pos (by simpa using hw), List.map_cons, List.map_cons, List.sum_cons, List.sum_cons, ih]
      · rw [List.filter_cons_of_neg (by simpa using hw), List.map_cons, List.sum_cons, ih]
        omega
  unfold Broker.copiesTo
  rw [zeros, zeros (b'.subs.filter _)]
  refine List.Perm.sum_nat (List.Perm.map _ (List.perm_iff_count.mpr fun e => ?_))
  rw [List.filter_filter, List.filter_filter]
  have hcf : ∀ (p : ClientId × String → Bool) (l : Entries), (l.filter p).count e = if p e then l.count e else 0 := by
    intro p l
    by_cases hp : p e = true
    · rw [if_pos hp, List.count_filter hp]
    · rw [if_neg hp, List.count_eq_zero]
      intro hm
      exact hp (List.mem_filter.mp hm).2
  rw [hcf, hcf]
  by_cases hw : 0 < ways e.2 t
  · obtain ⟨h1, h2⟩ := h e (ways_pos.mp hw)
    by_cases h0 : 0 < b.subs.count e
    · have := h2 h0
      simp only [hw, decide_true, Bool.true_and, this, h1]
    · rw [← h1]
      have : b.subs.count e = 0 := by omega
      rw [this]
      simp
  · simp [hw]

/-- Two states nobody can tell apart. -/
structure Alike (b b' : Broker) : Prop where
  session : ∀ c, b.session c = b'.session c
  subs : ∀ e, b.subs.count e = b'.subs.count e

theorem Alike.sent {b b' : Broker} (h : Alike b b') (auth : IdentityProvider) (ev : ClientEvent) : Races.sent auth ev b = Races.sent auth ev b' := by
  have hc : ∀ d t, b.copiesTo d t = b'.copiesTo d t := fun d t => copies_congr fun e _ => ⟨h.subs e, fun _ => by rw [h.session]⟩
  cases ev with
  | controlPacket id p tx =>
    cases p with
    | publish q => simp only [Races.sent, hc]
    | _ => simp only [Races.sent, h.session]
  | _ => simp only [Races.sent, h.session]

theorem Alike.outputs {b b' : Broker} (h : Alike b b') (auth : IdentityProvider) {evs : List ClientEvent} (hw : ∀ ev ∈ evs, Whole auth ev) (d : ConnId) :
    b.outputs auth evs d = b'.outputs auth evs d := by
  induction evs generalizing b b' with
  | nil => rfl
  | cons ev evs ih =>
    obtain ⟨b1, h1, h2, h3⟩ := step_whole (hw ev (by simp)) b
    obtain ⟨b1', h1', h2', h3'⟩ := step_whole (hw ev (by simp)) b'
    have := ih (b := b1) (b' := b1') ⟨fun c => by rw [h2, h2', h.session], fun e => by rw [h3, h3', h.subs]⟩ fun e he => hw e (by simp [he])
    simp only [Broker.outputs, h1, h1', h.sent auth ev, this]

/-- What is sent for an event does not depend on what an independent event does. -/
theorem sent_other {auth : IdentityProvider} {pre : List ClientEvent} {b b1 : Broker} (hs : b.subs = held pre) {a ev : ClientEvent}
    (h2 : ∀ c, b1.session c = if c = clientOf a then session auth a (b.session c) else b.session c)
    (h3 : ∀ e, b1.subs.count e = count a e (b.subs.count e)) (hc : clientOf a ≠ clientOf ev) (ht : ∀ t, topicOf ev = some t → ¬ MayChange pre t a) :
    sent auth ev b1 = sent auth ev b := by
  have hsess : b1.session (clientOf ev) = b.session (clientOf ev) := by rw [h2, if_neg (Ne.symm hc)]
  cases ev with
  | controlPacket id p tx =>
    cases p with
    | publish q =>
      have hno := ht q.message.topic rfl
      simp only [sent]
      funext d
      congr 1
      refine (copies_congr fun e hm => ?_).symm
      obtain ⟨c, f⟩ := e
      by_cases hce : c = clientOf a
      · subst hce
        refine ⟨?_, fun h0 => ?_⟩
        · rw [h3]
          have hheld : (∀ g, ¬ ((clientOf a, g) ∈ held pre ∧ Matches g q.message.topic)) → b.subs.count (clientOf a, f) = 0 := fun h => by
            rw [hs]; exact List.count_eq_zero.mpr fun hin => h f ⟨hin, hm⟩
          cases a with
          | connectionLost id' =>
            rw [hheld fun g hg => hno ⟨g, hg⟩]
            simp [count]
          | controlPacket id' p' tx' =>
            cases p' with
            | subscribe s =>
              have : (s.subscriptions.map fun x => (id', x.topic)).count (id', f) = 0 := by
                rw [List.count_eq_zero]
                intro hin
                obtain ⟨x, hx, he⟩ := List.mem_map.mp hin
                injection he with _ he
                exact hno ⟨x, hx, he ▸ hm⟩
              show _ = List.count (id', f) b.subs + (s.subscriptions.map fun x => (id', x.topic)).count (id', f)
              rw [this]
              rfl
            | unsubscribe u =>
              have : u.topics.count f = 0 := List.count_eq_zero.mpr fun hin => hno ⟨f, hin, hm⟩
              show _ = List.count (id', f) b.subs - (if id' = id' then u.topics.count f else 0)
              rw [this, if_pos rfl]
              rfl
            | disconnect =>
              rw [hheld fun g hg => hno ⟨g, hg⟩]
              simp [count]
            | _ => rfl
          | _ => rfl
        · have hin : (clientOf a, f) ∈ held pre := by rw [← hs]; exact List.count_pos_iff.mp h0
          rw [h2, if_pos rfl]
          cases a with
          | connected p' addr' tx' => exact absurd ⟨f, hin, hm⟩ hno
          | connectionLost id' => exact absurd ⟨f, hin, hm⟩ hno
          | disconnected id' => rfl
          | controlPacket id' p' tx' =>
            cases p' with
            | disconnect => exact absurd ⟨f, hin, hm⟩ hno
            | _ => rfl
      · exact ⟨by rw [h3, count_other hce], fun _ => by rw [h2, if_neg hce]⟩
    | _ => simp only [sent, hsess]
  | _ => simp only [sent, hsess]

/-- Only those concerned are sent anything. -/
theorem sent_involves {auth : IdentityProvider} {pre : List ClientEvent} {b : Broker} (hb : Broker.start.after auth pre = some b) {ev : ClientEvent}
    {d : ConnId} (h : sent auth ev b d ≠ []) : Involves auth pre ev d := by
  have hto : ∀ {tx : ConnId} {l : List ServerEvent}, Spec.to tx l d ≠ [] → tx = d := fun {tx l} h => by
    by_cases hd : d = tx
    · exact hd.symm
    · exact absurd (by simp [Spec.to, hd]) h
  cases ev with
  | connected p addr tx =>
    refine .inl ?_
    simp only [sent, answer] at h
    by_cases hl : login auth p = .accepted
    · rw [if_pos hl] at h; exact hto h
    · rw [if_neg hl] at h; exact hto h
  | disconnected id => exact absurd rfl h
  | connectionLost id => exact absurd rfl h
  | controlPacket id p tx =>
    cases p with
    | publish q =>
      refine .inr ⟨q.message.topic, rfl, ?_⟩
      have hc : b.copiesTo d q.message.topic ≠ 0 := fun h0 => h (by simp [sent, h0])
      unfold Broker.copiesTo at hc
      have hex : ∃ e ∈ b.subs.filter fun e => b.session e.1 = some d, ways e.2 q.message.topic ≠ 0 := by
        refine Classical.byContradiction fun hn => hc ?_
        rw [List.sum_eq_zero_iff_forall_eq_nat]
        intro x hx
        obtain ⟨e, he, rfl⟩ := List.mem_map.mp hx
        exact Classical.byContradiction fun hw => hn ⟨e, he, hw⟩
      obtain ⟨e, he, hw⟩ := hex
      obtain ⟨he, hse⟩ := List.mem_filter.mp he
      have hsub : b.subs = held pre := after_subs hb
      exact ⟨e.1, e.2, hsub ▸ he, ways_pos.mp (Nat.pos_of_ne_zero hw), (after_session hb _ _).mp (by simpa using hse)⟩
    | subscribe s => exact .inl (hto h)
    | unsubscribe u => exact .inl (hto h)
    | pingReq => exact .inl (hto h)
    | _ => exact absurd rfl h

theorem outputs_swap {auth : IdentityProvider} {pre post : List ClientEvent} {a e : ClientEvent} (hw : ∀ ev ∈ pre ++ a :: e :: post, Whole auth ev)
    (hi : Independent auth pre a e) (d : ConnId) :
    Broker.start.outputs auth (pre ++ e :: a :: post) d = Broker.start.outputs auth (pre ++ a :: e :: post) d := by
  rw [outputs_append, outputs_append]
  congr 1
  cases hb : Broker.start.after auth pre with
  | none => rfl
  | some b =>
    have hsub : b.subs = held pre := after_subs hb
    have ha := hw a (by simp)
    have he := hw e (by simp)
    obtain ⟨b1, h1, h2, h3⟩ := step_whole ha b
    obtain ⟨b2, k1, k2, k3⟩ := step_whole he b
    obtain ⟨b12, h1', h2', h3'⟩ := step_whole he b1
    obtain ⟨b21, k1', k2', k3'⟩ := step_whole ha b2
    rw [sent_other hsub h2 h3 hi.clients hi.right] at h1'
    rw [sent_other hsub k2 k3 (Ne.symm hi.clients) hi.left] at k1'
    have halike : Alike b21 b12 := by
      refine ⟨fun c => ?_, fun x => ?_⟩
      · rw [k2', h2', k2, h2]
        by_cases hca : c = clientOf a
        · have : c ≠ clientOf e := hca ▸ hi.clients
          simp only [if_pos hca, if_neg this]
        · simp only [if_neg hca]
      · rw [k3', h3', k3, h3]
        by_cases hca : x.1 = clientOf a
        · have : x.1 ≠ clientOf e := hca ▸ hi.clients
          rw [count_other this, count_other this]
        · rw [count_other hca, count_other hca]
    have hpost := halike.outputs auth (evs := post) (fun ev hev => hw ev (by simp [hev])) d
    simp only [Broker.outputs, h1, k1, h1', k1', hpost]
    rw [← List.append_assoc, ← List.append_assoc]
    congr 1
    by_cases e1 : sent auth a b d = []
    · rw [e1, List.append_nil, List.nil_append]
    · by_cases e2 : sent auth e b d = []
      · rw [e2, List.append_nil, List.nil_append]
      · exact absurd ⟨sent_involves hb e1, sent_involves hb e2⟩ (hi.conns d)

theorem whole_of {auth : IdentityProvider} {evs : List ClientEvent} (h : ∀ p addr c, .connected p addr c ∈ evs → login auth p ≠ .incomplete) :
    ∀ ev ∈ evs, Whole auth ev := by
  intro ev hev
  cases ev with
  | connected p addr tx => exact h p addr tx hev
  | _ => trivial

theorem mem_swap {pre post : List ClientEvent} {a b x : ClientEvent} : x ∈ pre ++ b :: a :: post ↔ x ∈ pre ++ a :: b :: post := by
  simp only [List.mem_append, List.mem_cons]
  constructor <;> rintro (h | h | h | h) <;> simp [h]

theorem filter_swap {pre post : List ClientEvent} {a b : ClientEvent} {c : ConnId} (h : ¬ (From c a ∧ From c b)) :
    (pre ++ b :: a :: post).filter (From c) = (pre ++ a :: b :: post).filter (From c) := by
  rw [List.filter_append, List.filter_append]
  congr 1
  by_cases ha : From c a
  · have hb : ¬ From c b := fun hb => h ⟨ha, hb⟩
    simp [ha, hb]
  · by_cases hb : From c b <;> simp [ha, hb]

theorem same_outputs {auth : IdentityProvider} {evs evs' : List ClientEvent} (h : SameUpToRaces auth evs evs') :
    (∀ x, x ∈ evs' ↔ x ∈ evs) ∧ (∀ c, evs'.filter (From c) = evs.filter (From c))
      ∧ ((∀ ev ∈ evs, Whole auth ev) → ∀ d, Broker.start.outputs auth evs' d = Broker.start.outputs auth evs d) := by
  induction h with
  | refl => exact ⟨fun _ => Iff.rfl, fun _ => rfl, fun _ _ => rfl⟩
  | swap pre post a b _ hi ih =>
    obtain ⟨h1, h2, h3⟩ := ih
    refine ⟨fun x => mem_swap.trans (h1 x), fun c => ?_, fun hw d => ?_⟩
    · rw [filter_swap fun h => hi.conns c ⟨.inl h.1, .inl h.2⟩, h2]
    · rw [outputs_swap (fun ev hev => hw ev ((h1 ev).mp hev)) hi, h3 hw]

theorem same_symm {auth : IdentityProvider} {evs evs' : List ClientEvent} (h : SameUpToRaces auth evs evs') : SameUpToRaces auth evs' evs := by
  have trans : ∀ {x y z}, SameUpToRaces auth x y → SameUpToRaces auth y z → SameUpToRaces auth x z := by
    intro x y z hxy hyz
    induction hyz with
    | refl => exact hxy
    | swap pre post a b _ hi ih => exact .swap _ _ _ _ _ ih hi
  induction h with
  | refl => exact .refl _
  | swap pre post a b _ hi ih =>
    exact trans (.swap _ _ _ _ _ (.refl _) ⟨Ne.symm hi.clients, fun d h => hi.conns d h.symm, hi.right, hi.left⟩) ih

theorem possible_same {env : Env} {peers : ConnId → Sys.Peer} {evs evs' : List ClientEvent} (h : SameUpToRaces env.auth evs evs')
    (hp : Possible env peers evs) : Possible env peers evs' := by
  obtain ⟨h1, h2, h3⟩ := same_outputs h
  refine ⟨fun c => ?_, fun ev hev => hp.from_conn ev ((h1 ev).mp hev), fun p addr c hm => hp.complete p addr c ((h1 _).mp hm), fun d => ?_⟩
  · rw [h2]; exact hp.inOrder c
  · rw [h3 (whole_of hp.complete)]; exact hp.room d

end Races

end Ratel
