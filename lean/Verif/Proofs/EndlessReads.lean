/-
What happens for ever: what the clients bring is read and handled.
-/
import Verif.Proofs.Endless
import Verif.Proofs.SysFair

namespace Ratel.Live

open Spec

variable {env : Env} {peers : ConnId → Sys.Peer} {σ : Nat → OStep}

local notation "ℓ" => nth env peers σ
local notation "ι" => brought peers σ
local notation "κ" => closed env peers σ

theorem nothing_rest (n : Nat) (c : ConnId) : ((κ n).conns c).rd = ((ℓ n).opn.sys.conns c).rd ∧ ((κ n).conns c).addr = ((ℓ n).opn.sys.conns c).addr
    ∧ ((κ n).conns c).uuid = ((ℓ n).opn.sys.conns c).uuid := by
  obtain ⟨_, _, _, h1, h2, h3⟩ := Open.fill_rest env ⟨[], .silence, []⟩ ((ℓ n).opn.sys.conns c) ((ℓ n).opn.hand c)
  refine ⟨?_, h1, h2⟩
  have hrd : ((ℓ n).opn.sys.conns c).rd.later [] .silence = ((ℓ n).opn.sys.conns c).rd := congrArg Conn.rd (Open.nothing_conn _)
  rw [hrd] at h3
  exact h3

theorem alive_same (n : Nat) : (κ n).handlerAlive = (ℓ n).opn.sys.handlerAlive := by
  unfold Sys.handlerAlive; rw [(same n).handler]

theorem taken_same (n : Nat) (c : ConnId) : (κ n).taken c = (ℓ n).opn.sys.taken c := by
  unfold Sys.taken; rw [(same n).log, (same n).events]

theorem readInv (n : Nat) (c : ConnId) :
    Sys.ReadInv env (ι n c) c (ℓ n).opn.sys.handlerAlive ((ℓ n).opn.sys.taken c) ((ℓ n).opn.sys.conns c) := by
  have h := (inv (env := env) (peers := peers) (σ := σ) n).reads.conn c
  rw [alive_same, taken_same] at h
  obtain ⟨h1, h2, h3⟩ := h
  obtain ⟨e1, e2, e3⟩ := nothing_rest (env := env) (peers := peers) (σ := σ) n c
  rw [e1, ← (same n).phase, ← (same n).outbox] at h3
  exact ⟨e2 ▸ h1, e3 ▸ h2, h3⟩

theorem endsComplete (n : Nat) : Sys.EndsComplete env (ι n) (ℓ n).opn.sys := by
  intro c hp ha
  have h := Sys.endsComplete_run env (ι n) (ℓ n).opn.did
  rw [← closed_run] at h
  have := h c (by rw [← (same n).phase]; exact hp) (by rw [alive_same]; exact ha)
  rw [taken_same, ← (same n).outbox] at this
  exact this

/-- A read task with nothing to send and nothing to read has taken all. -/
theorem reading_done {peer : Sys.Peer} {c : ConnId} {tk : List ClientEvent} {k : Conn} (h : Sys.ReadInv env peer c true tk k)
    (ho : k.outbox = none) (hp : k.phase = .first ∨ ∃ id, k.phase = .running id) (hn : ¬ CanRead env k) : Sys.Complete env peer c tk := by
  have hno : (decoded env.profile (unread k.rd) k.rd.fin).1 = .pending := Classical.byContradiction fun h => hn ⟨hp, h⟩
  obtain ⟨_, _, ps, pl, h1, h2, h3, h4, _⟩ := h
  have hrel : Rel k.rd pl := by
    rcases hp with hp | ⟨id, hp⟩
    · exact (h2 hp).2
    · exact (h3 id hp).1
  have hpl : pl = ⟨unread k.rd, k.rd.fin⟩ := by
    obtain ⟨b, f⟩ := pl
    have e1 := hrel.bytes
    have e2 := hrel.fin
    simp only at e1 e2
    rw [← e1, ← e2]
    rfl
  have h4 := h4 rfl
  rw [ho] at h4
  simp only [Option.toList_none, List.append_nil] at h4
  rintro qs ⟨t, hq⟩
  rw [h4]
  refine Sys.eventsOf_mono (Sys.readMany_mono h1 (fun p u hpu => ?_) hq)
  rw [hpl] at hpu
  unfold decoded at hno
  rw [hpu] at hno
  cases hno

theorem taken_mono {n m : Nat} (h : n ≤ m) (c : ConnId) : (ℓ n).opn.sys.taken c <+: (ℓ m).opn.sys.taken c :=
  (put_mono (env := env) (peers := peers) (σ := σ) h).filter _

/-- E. What a client has brought gets into the channel, unless its read task spins. -/
theorem gets_read {N : Nat} (he : Endless N σ) (hup : Up env peers σ) (n : Nat) {c : Nat} (hc : c < N) {ps : List ControlPacket}
    (hd : Decodes env.profile (ι n c).segs.flatten (ι n c).fin ps) :
    ∃ m, n ≤ m ∧ (((ℓ m).opn.sys.conns c).phase = .stuck ∨ eventsOf (ι n c) c ps <+: (ℓ m).opn.sys.taken c) := by
  have complete : ∀ m, n ≤ m → Sys.Complete env (ι m c) c ((ℓ m).opn.sys.taken c) → eventsOf (ι n c) c ps <+: (ℓ m).opn.sys.taken c := by
    intro m hm h
    rw [← eventsOf_later hm]
    exact h ps (decodes_mono hm hd)
  have out : ∀ m, ∀ {ev : ClientEvent}, ((ℓ m).opn.sys.conns c).outbox = some ev →
      ∃ m', m ≤ m' ∧ ((ℓ m).opn.sys.taken c).length + 1 ≤ ((ℓ m').opn.sys.taken c).length := by
    intro m ev ho
    obtain ⟨m', X, h1, h2, h3⟩ := gets_in he hup m hc ho
    have hf : From c ev := Sys.outbox_from (inv (env := env) (peers := peers) (σ := σ) m).reads (by rw [alive_same]; exact hup m)
      (by rw [← (same m).outbox]; exact ho)
    refine ⟨m', h1, ?_⟩
    have e1 := ((h2.filter fun e => From c e).length_le)
    have e2 := ((h3.filter fun e => From c e).length_le)
    simp only [List.filter_append, List.length_append, List.filter_cons, hf, decide_true, ↓reduceIte, List.filter_nil, List.length_cons,
      List.length_nil] at e2
    show (List.filter _ (Fifo.put _)).length + 1 ≤ (List.filter _ (Fifo.put _)).length
    omega
  have key : ∀ i, ∃ m, n ≤ m ∧ (((ℓ m).opn.sys.conns c).phase = .stuck ∨ eventsOf (ι n c) c ps <+: (ℓ m).opn.sys.taken c
      ∨ i ≤ ((ℓ m).opn.sys.taken c).length) := by
    intro i
    induction i with
    | zero => exact ⟨n, Nat.le_refl _, .inr (.inr (Nat.zero_le _))⟩
    | succ i ih =>
      obtain ⟨m, hm, h | h | hi⟩ := ih
      · exact ⟨m, hm, .inl h⟩
      · exact ⟨m, hm, .inr (.inl h)⟩
      · have more : ∀ k, m ≤ k → ∀ {ev : ClientEvent}, ((ℓ k).opn.sys.conns c).outbox = some ev →
            ∃ m', n ≤ m' ∧ (((ℓ m').opn.sys.conns c).phase = .stuck ∨ eventsOf (ι n c) c ps <+: (ℓ m').opn.sys.taken c
              ∨ i + 1 ≤ ((ℓ m').opn.sys.taken c).length) := by
          intro k hk ev ho
          obtain ⟨m', h1, h2⟩ := out k ho
          have := (taken_mono (env := env) (peers := peers) (σ := σ) hk c).length_le
          exact ⟨m', by omega, .inr (.inr (by omega))⟩
        cases ho : ((ℓ m).opn.sys.conns c).outbox with
        | some ev => exact more m (Nat.le_refl _) ho
        | none =>
          obtain ⟨k, hk, hok, ht⟩ := until_turn (P := fun k => ((ℓ k).opn.sys.conns c).outbox = none) (T := fun st => st = .task (.read c))
            (he.read c hc) (fun k hk ht => (live_reader (env := env) (peers := peers) k ht).1.trans hk) m ho
          have hri := readInv (env := env) (peers := peers) (σ := σ) k c
          rw [hup k] at hri
          have ended : ∀ j, n ≤ j → ((ℓ j).opn.sys.conns c).outbox = none → ((ℓ j).opn.sys.conns c).phase = .ended →
              eventsOf (ι n c) c ps <+: (ℓ j).opn.sys.taken c := by
            intro j hj ho hp
            have := endsComplete (env := env) (peers := peers) (σ := σ) j c hp (hup j)
            rw [ho, Option.toList_none, List.append_nil] at this
            exact complete j hj this
          have reading : (((ℓ k).opn.sys.conns c).phase = .first ∨ ∃ id, ((ℓ k).opn.sys.conns c).phase = .running id) →
              ∃ m', n ≤ m' ∧ (((ℓ m').opn.sys.conns c).phase = .stuck ∨ eventsOf (ι n c) c ps <+: (ℓ m').opn.sys.taken c
                ∨ i + 1 ≤ ((ℓ m').opn.sys.taken c).length) := by
            intro hp
            by_cases hcr : CanRead env ((ℓ k).opn.sys.conns c)
            · obtain ⟨pl, hrel⟩ := hri.rel hp
              have hch := Sys.readTask_changes (c := c) hrel hcr
              have hw : Open.waits env ((ℓ k).opn.sys.conns c) = false := by
                cases hw : Open.waits env ((ℓ k).opn.sys.conns c) with
                | false => rfl
                | true =>
                  rw [Open.readTask_waits env c _ hw] at hch
                  rcases hch with h | h | h
                  · exact absurd hok h
                  · rcases hp with hp | ⟨id, hp⟩ <;> rw [hp] at h <;> cases h
                  · rcases hp with hp | ⟨id, hp⟩ <;> rw [hp] at h <;> cases h
              have hn : (ℓ (k + 1)).opn.sys.conns c = Sys.readTask env c ((ℓ k).opn.sys.conns c) := by
                rw [nth_succ, ht]
                simp only [step, stepRead, hok, Open.step, Open.stepRead, hw, Bool.false_eq_true, ↓reduceIte, Sys.stepRead, Sys.setConn_self]
              rw [← hn] at hch
              cases ho' : ((ℓ (k + 1)).opn.sys.conns c).outbox with
              | some ev => exact more (k + 1) (by omega) ho'
              | none =>
                rcases hch with h | h | h
                · exact absurd ho' h
                · exact ⟨k + 1, by omega, .inr (.inl (ended _ (by omega) ho' h))⟩
                · exact ⟨k + 1, by omega, .inl h⟩
            · exact ⟨k, by omega, .inr (.inl (complete k (by omega) (reading_done hri hok hp hcr)))⟩
          cases hp : ((ℓ k).opn.sys.conns c).phase with
          | first => exact reading (.inl hp)
          | running id => exact reading (.inr ⟨id, hp⟩)
          | ended => exact ⟨k, by omega, .inr (.inl (ended k (by omega) hok hp))⟩
          | stuck => exact ⟨k, by omega, .inl hp⟩
  obtain ⟨m, hm, h | h | hi⟩ := key (eventsOf (ι n c) c ps).length
  · exact ⟨m, hm, .inl h⟩
  · exact ⟨m, hm, .inr h⟩
  · refine ⟨m, hm, .inr ?_⟩
    obtain ⟨_, _, qs, pl, h1, _, _, h4, h5⟩ := readInv (env := env) (peers := peers) (σ := σ) m c
    obtain ⟨L, _, hL⟩ := Sys.longest env.profile (ι m c).segs.flatten (ι m c).fin
    have e1 := h5.trans (Sys.eventsOf_mono (peer := ι m c) (c := c) (hL qs ⟨pl, h1⟩))
    have e2 := Sys.eventsOf_mono (peer := ι m c) (c := c) (hL ps (decodes_mono hm hd))
    rw [eventsOf_later hm] at e2
    exact List.prefix_of_prefix_length_le e2 e1 hi

/-- It is handled. -/
theorem gets_handled {N : Nat} (he : Endless N σ) (hup : Up env peers σ) (n : Nat) {c : Nat} (hc : c < N) {ps : List ControlPacket}
    (hd : Decodes env.profile (ι n c).segs.flatten (ι n c).fin ps) :
    ∃ m, n ≤ m ∧ (((ℓ m).opn.sys.conns c).phase = .stuck ∨ eventsOf (ι n c) c ps <+: ((ℓ m).opn.sys.log.map Prod.fst).filter (From c)) := by
  obtain ⟨m, hm, h | h⟩ := gets_read he hup n hc hd
  · exact ⟨m, hm, .inl h⟩
  · obtain ⟨m', hm', h'⟩ := takes_all he hup m
    exact ⟨m', by omega, .inr (h.trans (h'.filter _))⟩

end Ratel.Live
