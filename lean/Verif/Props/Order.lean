/-
C100, C101: the order in which messages are received.
-/
import Verif.Proofs.Order
import Verif.Proofs.SysBound
import Verif.Props.Isolation

namespace Ratel

open Decoder Encoder Spec Sys

namespace Sys

/-- The packets of every connection, read to the end. -/
theorem all_packets (env : Env) (peers : ConnId → Peer) : ∃ packets : ConnId → List ControlPacket,
    ∀ c, Decodes env.profile (peers c).segs.flatten (peers c).fin (packets c)
      ∧ ∀ qs, Decodes env.profile (peers c).segs.flatten (peers c).fin qs → qs <+: packets c :=
  ⟨fun c => (longest env.profile (peers c).segs.flatten (peers c).fin).choose,
    fun c => (longest env.profile (peers c).segs.flatten (peers c).fin).choose_spec⟩

theorem orderly_packets {env : Env} {peers : ConnId → Peer} {evs : List ClientEvent} (h : Orderly env peers evs)
    {packets : ConnId → List ControlPacket}
    (hp : ∀ c, ∀ qs, Decodes env.profile (peers c).segs.flatten (peers c).fin qs → qs <+: packets c) (c : ConnId) :
    evs.filter (From c) <+: eventsOf (peers c) c (packets c) := by
  obtain ⟨ps, h1, h2⟩ := h c
  exact h2.trans (eventsOf_mono (hp c ps h1))

theorem order_nodup {order : List Origin} (h : order.Pairwise fun a b => a.1 = b.1 → a.2 < b.2) : order.Nodup :=
  h.imp fun {a b} hab he => by
    subst he
    exact absurd (hab rfl) (Nat.lt_irrefl _)

/-- Two elements of a list with repetitions appear in the list itself in the same order. -/
theorem sublist_of_copies {α : Type} {x y : α} (hxy : x ≠ y) (copies : α → Nat) (l : List α)
    (h : [x, y].Sublist (l.flatMap fun a => List.replicate (copies a) a)) : [x, y].Sublist l := by
  induction l with
  | nil => cases h
  | cons a l ih =>
    rw [List.flatMap_cons] at h
    obtain ⟨l₁, l₂, he, h1, h2⟩ := List.sublist_append_iff.mp h
    match l₁, he with
    | [], he => exact (ih (by rw [← show [x, y] = l₂ from he] at h2; exact h2)).cons a
    | [z], he =>
      obtain ⟨rfl, rfl⟩ : x = z ∧ [y] = l₂ := by simpa using he
      have hx : x = a := List.eq_of_mem_replicate (h1.subset List.mem_cons_self)
      subst hx
      have hy := h2.subset List.mem_cons_self
      obtain ⟨b, hb, hyb⟩ := List.mem_flatMap.mp hy
      rw [List.eq_of_mem_replicate hyb]
      exact (List.singleton_sublist.mpr hb).cons_cons x
    | z :: w :: l₁, he =>
      obtain ⟨rfl, rfl, _⟩ : x = z ∧ y = w ∧ [] = l₁ ++ l₂ := by simpa using he
      have hx : x = a := List.eq_of_mem_replicate (h1.subset List.mem_cons_self)
      have hy : y = a := List.eq_of_mem_replicate (h1.subset (List.mem_cons_of_mem _ List.mem_cons_self))
      exact absurd (hx.trans hy.symm) hxy

/-- What a connection has received, traced back to the order. -/
theorem _root_.Ratel.Spec.Explains.pair {packets : ConnId → List ControlPacket} {order : List Origin} {s : Sys} (h : Explains packets order s) {d : ConnId}
    {q₁ q₂ : PublishPacket} (hs : [q₁, q₂].Sublist (messagesOf (s.conns d).delivered)) {x₁ x₂ : Origin} (hx : x₁ ≠ x₂)
    (h₁ : ∀ y : Origin, (packets y.1)[y.2]? = some (.publish q₁) → y = x₁)
    (h₂ : ∀ y : Origin, (packets y.1)[y.2]? = some (.publish q₂) → y = x₂) : [x₁, x₂].Sublist order := by
  obtain ⟨copies, hc⟩ := h.received d
  have := ((hs.map fun q => some (ControlPacket.publish q)).trans hc.sublist)
  obtain ⟨l, hl, he⟩ := List.sublist_map_iff.mp this
  match l, he with
  | [], he => cases he
  | [_], he => simp at he
  | _ :: _ :: _ :: _, he => simp at he
  | [a, b], he =>
    simp only [List.map_cons, List.map_nil, List.cons.injEq, and_true] at he
    rw [h₁ a he.1.symm, h₂ b he.2.symm] at hl
    exact sublist_of_copies hx copies order hl

theorem _root_.Ratel.Spec.Explains.one {packets : ConnId → List ControlPacket} {order : List Origin} {s : Sys} (h : Explains packets order s) {d : ConnId}
    {q₁ : PublishPacket} (hs : q₁ ∈ messagesOf (s.conns d).delivered) {x₁ : Origin}
    (h₁ : ∀ y : Origin, (packets y.1)[y.2]? = some (.publish q₁) → y = x₁) : x₁ ∈ order := by
  obtain ⟨copies, hc⟩ := h.received d
  have := hc.subset (List.mem_map_of_mem (f := fun q => some (ControlPacket.publish q)) hs)
  obtain ⟨y, hy, he⟩ := List.mem_map.mp this
  obtain ⟨z, hz, hyz⟩ := List.mem_flatMap.mp hy
  rw [← h₁ y he, List.eq_of_mem_replicate hyz]
  exact hz

theorem no_reversal {α : Type} {x y : α} {l : List α} (hn : l.Nodup) (hxy : x ≠ y) (h1 : [x, y].Sublist l) (h2 : [y, x].Sublist l) : False := by
  induction l with
  | nil => cases h1
  | cons a l ih =>
    rw [List.nodup_cons] at hn
    cases h1 with
    | cons _ h1 =>
      cases h2 with
      | cons _ h2 => exact ih hn.2 h1 h2
      | cons_cons _ h2 => exact hn.1 (h1.subset (by simp))
    | cons_cons _ h1 =>
      cases h2 with
      | cons _ h2 => exact hn.1 (h2.subset (by simp))
      | cons_cons _ h2 => exact hxy rfl

end Sys

/-! ### C100 -/

/-- C100. There is one order of all the messages published, the messages of each publisher in the order in which they were sent, such that
every connection is sent its messages in that order. -/
theorem C100_common_order (env : Env) (peers : ConnId → Peer) (sched : List Step) :
    ∃ packets, (∀ c, Decodes env.profile (peers c).segs.flatten (peers c).fin (packets c))
      ∧ ∃ order, Explains packets order (run env (init peers) sched) := by
  obtain ⟨packets, hp⟩ := all_packets env peers
  have hinv := inv_run env peers sched
  exact ⟨packets, fun c => (hp c).1, _, explains (fun d => hinv.serves.delivered d)
    (orderly_packets (reads_orderly_served hinv.reads) fun c => (hp c).2)⟩

/-- C100, for two receivers: if one gets a message before another message, nobody gets the second before the first, unless one of the
messages was sent more than once. -/
theorem C100_no_reversal (env : Env) (peers : ConnId → Peer) (sched : List Step) (d e : ConnId) (q₁ q₂ : PublishPacket)
    (hq : q₁ ≠ q₂) (h₁ : SentOnce env peers q₁) (h₂ : SentOnce env peers q₂)
    (hd : [q₁, q₂].Sublist (messagesOf ((run env (init peers) sched).conns d).delivered)) :
    ¬ [q₂, q₁].Sublist (messagesOf ((run env (init peers) sched).conns e).delivered) := by
  intro he
  obtain ⟨packets, hp, order, hx⟩ := C100_common_order env peers sched
  obtain ⟨x₁, hx₁⟩ := h₁
  obtain ⟨x₂, hx₂⟩ := h₂
  have g₁ : ∀ y : Origin, (packets y.1)[y.2]? = some (.publish q₁) → y = x₁ := fun y hy => hx₁ y.1 _ (hp y.1) y.2 hy
  have g₂ : ∀ y : Origin, (packets y.1)[y.2]? = some (.publish q₂) → y = x₂ := fun y hy => hx₂ y.1 _ (hp y.1) y.2 hy
  have hne : x₁ ≠ x₂ := by
    rintro rfl
    obtain ⟨copies, hc⟩ := hx.received d
    obtain ⟨y, _, hy⟩ := List.mem_map.mp (hc.subset (List.mem_map_of_mem (f := fun q => some (ControlPacket.publish q))
      (hd.subset List.mem_cons_self)))
    obtain ⟨z, _, hz⟩ := List.mem_map.mp (hc.subset (List.mem_map_of_mem (f := fun q => some (ControlPacket.publish q))
      (hd.subset (List.mem_cons_of_mem _ List.mem_cons_self))))
    rw [g₁ y hy] at hy
    rw [g₂ z hz] at hz
    rw [hy] at hz
    simp only [Option.some.injEq, ControlPacket.publish.injEq] at hz
    exact hq hz
  exact no_reversal (order_nodup hx.publisher) hne (hx.pair hd hne g₁ g₂) (hx.pair he hne.symm g₂ g₁)

/-! ### C101 -/

/-- C101. As time passes the common order of messages grows only at its end, and the messages in it have all been dealt with. -/
theorem C101_order_grows (env : Env) (peers : ConnId → Peer) (sched sched' : List Step) :
    ∃ packets, (∀ c, Decodes env.profile (peers c).segs.flatten (peers c).fin (packets c))
      ∧ ∃ order later, Explains packets order (run env (init peers) sched)
        ∧ Explains packets (order ++ later) (run env (init peers) (sched ++ sched'))
        ∧ (∀ x ∈ order, x.2 < dealtWith (run env (init peers) sched) x.1) := by
  obtain ⟨packets, hp⟩ := all_packets env peers
  have hinv := inv_run env peers sched
  have hinv' := inv_run env peers (sched ++ sched')
  have e1 := explains (fun d => hinv.serves.delivered d) (orderly_packets (reads_orderly_served hinv.reads) fun c => (hp c).2)
  have e2 := explains (fun d => hinv'.serves.delivered d) (orderly_packets (reads_orderly_served hinv'.reads) fun c => (hp c).2)
  have hg := (run_grows env (run env (init peers) sched) sched').1
  rw [← run_append] at hg
  obtain ⟨t, ht⟩ := hg
  have hs : (run env (init peers) (sched ++ sched')).served = (run env (init peers) sched).served ++ t.map Prod.fst := by
    unfold Sys.served
    rw [← ht, List.map_append]
  refine ⟨packets, fun c => (hp c).1, _, originsFrom ((run env (init peers) sched).served) (t.map Prod.fst), e1, ?_, fun x hx => ?_⟩
  · rw [hs, originsFrom_append] at e2
    exact e2
  · exact originsFrom_bound _ x hx

/-- C101, for causes and effects: suppose a message has been sent to somebody while the broker has not yet dealt with a packet that carries
another message. Then nobody ever gets that other message first, unless one of the messages was sent more than once. -/
theorem C101_causal (env : Env) (peers : ConnId → Peer) (sched sched' : List Step) (d e : ConnId) (q₁ q₂ : PublishPacket)
    (h₁ : SentOnce env peers q₁) (h₂ : SentOnce env peers q₂)
    (hd : q₁ ∈ messagesOf ((run env (init peers) sched).conns d).delivered)
    (c : ConnId) (ps : List ControlPacket) (i : Nat) (hps : Decodes env.profile (peers c).segs.flatten (peers c).fin ps)
    (hi : ps[i]? = some (.publish q₂)) (hlate : dealtWith (run env (init peers) sched) c ≤ i) :
    ¬ [q₂, q₁].Sublist (messagesOf ((run env (init peers) (sched ++ sched')).conns e).delivered) := by
  intro he
  obtain ⟨packets, hp, order, later, hx, hx', hb⟩ := C101_order_grows env peers sched sched'
  obtain ⟨x₁, hx₁⟩ := h₁
  obtain ⟨x₂, hx₂⟩ := h₂
  have g₁ : ∀ y : Origin, (packets y.1)[y.2]? = some (.publish q₁) → y = x₁ := fun y hy => hx₁ y.1 _ (hp y.1) y.2 hy
  have g₂ : ∀ y : Origin, (packets y.1)[y.2]? = some (.publish q₂) → y = x₂ := fun y hy => hx₂ y.1 _ (hp y.1) y.2 hy
  have hc : (c, i) = x₂ := hx₂ c ps hps i hi
  have hin : x₁ ∈ order := hx.one hd g₁
  have hne : x₂ ≠ x₁ := by
    rintro rfl
    have := hb _ hin
    rw [← hc] at this
    exact absurd this (Nat.not_lt.mpr hlate)
  have hno : x₂ ∉ order := fun h => by
    have := hb _ h
    rw [← hc] at this
    exact absurd this (Nat.not_lt.mpr hlate)
  have hsub := hx'.pair he hne g₂ g₁
  have hnd := order_nodup hx'.publisher
  obtain ⟨l₁, l₂, hl, s1, s2⟩ := List.sublist_append_iff.mp hsub
  cases l₁ with
  | nil =>
    have hl : [x₂, x₁] = l₂ := hl
    subst hl
    exact (List.nodup_append.mp hnd).2.2 _ hin _ (s2.subset (by simp)) rfl
  | cons z l₁ =>
    obtain ⟨rfl, _⟩ : x₂ = z ∧ _ := by simpa using hl
    exact hno (s1.subset (by simp))

end Ratel
