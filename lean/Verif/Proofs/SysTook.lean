/-
What the read tasks hand to the packet handler is what is received through their buffers, also when they spin in the end.
-/
import Verif.Proofs.SysFair
import Verif.Spec.Lasting
import Verif.Props.Boundary

namespace Ratel

open Decoder Spec

namespace Sys

/-- What a connection's read task has received, and what became of it. -/
structure TookInv (env : Env) (peer : Peer) (c : ConnId) (alive : Bool) (tk : List ClientEvent) (k : Conn) : Prop where
  addr : k.addr = peer.addr
  uuid : k.uuid = peer.uuid
  progress : letI := RStream.source env.alloc
    ∃ ps rd, (readMany env.profile ps.length : M RStream _) (RStream.new 4096 peer.segs peer.fin) = (.ok ps, rd)
    ∧ (k.phase = .first → ps = [] ∧ k.rd = rd)
    ∧ (∀ id, k.phase = .running id → k.rd = rd ∧ ∃ p ps', ps = .connect p :: ps' ∧ id = idOf peer p)
    ∧ (k.phase = .ended ∨ k.phase = .stuck → ∀ qs, Receives env peer qs → eventsOf peer c qs <+: eventsOf peer c ps)
    ∧ (alive = true → tk ++ k.outbox.toList = eventsOf peer c ps)
    ∧ tk <+: eventsOf peer c ps

theorem receives_iff {env : Env} {peer : Peer} {ps : List ControlPacket} : letI := RStream.source env.alloc
    (Receives env peer ps ↔ ∃ rd, (readMany env.profile ps.length : M RStream _) (RStream.new 4096 peer.segs peer.fin) = (.ok ps, rd)) := by
  letI := RStream.source env.alloc
  unfold Receives received
  constructor
  · intro h
    rcases hm : (readMany env.profile ps.length : M RStream _) (RStream.new 4096 peer.segs peer.fin) with ⟨r, rd⟩
    rw [hm] at h
    cases h
    exact ⟨rd, rfl⟩
  · rintro ⟨rd, h⟩
    rw [h]

/-- What is received is a beginning of what the bytes stand for. -/
theorem receives_decodes {env : Env} {peer : Peer} {ps : List ControlPacket} (h : Receives env peer ps) :
    Decodes env.profile peer.segs.flatten peer.fin ps := by
  letI := RStream.source env.alloc
  obtain ⟨rd, hm⟩ := receives_iff.mp h
  have h := readMany_sim env.alloc closed_true env.profile ps.length (RStream.new 4096 peer.segs peer.fin) _
    (rel_new 4096 peer.segs peer.fin) trivial
  rw [hm] at h
  obtain ⟨p', h1, _⟩ := h
  exact ⟨p', h1⟩

/-- Fewer bytes than the buffer holds can be read to their end. -/
theorem not_spinning {env : Env} {peer : Peer} (h : peer.segs.flatten.length < 4096) : ¬ Spinning env peer := by
  rintro ⟨k, hk⟩
  letI := RStream.source env.alloc
  have hs := readMany_sim env.alloc closed_small env.profile k (RStream.new 4096 peer.segs peer.fin) _ (rel_new 4096 peer.segs peer.fin)
    (by simpa [Small, RStream.total, RStream.new, BytesMut.withCapacity] using h)
  unfold received at hk
  rcases hm : (readMany env.profile k : M RStream _) (RStream.new 4096 peer.segs peer.fin) with ⟨r, s'⟩
  rw [hm] at hs hk
  cases hk
  exact hs.elim

theorem took_stops {env : Env} {peer : Peer} {ps : List ControlPacket} {rd : RStream} (c : ConnId) :
    letI := RStream.source env.alloc
    (readMany env.profile ps.length : M RStream _) (RStream.new 4096 peer.segs peer.fin) = (.ok ps, rd) →
    (∀ p u, (Decoder.readPacket env.profile : M RStream _) rd ≠ (.ok p, u)) →
    ∀ qs, Receives env peer qs → eventsOf peer c qs <+: eventsOf peer c ps := by
  letI := RStream.source env.alloc
  intro h hno qs hq
  obtain ⟨rd', h'⟩ := receives_iff.mp hq
  exact eventsOf_mono (readMany_mono h hno h')

/-- One step of the read task proper. -/
theorem readTask_took (env : Env) {peer : Peer} {c : ConnId} {alive : Bool} {tk : List ClientEvent} {k : Conn}
    (h : TookInv env peer c alive tk k) (ho : k.outbox = none) : TookInv env peer c alive tk (readTask env c k) := by
  letI := RStream.source env.alloc
  obtain ⟨haddr, huuid, ps, rd, hd, hf, hr, hx, ha, hp⟩ := h
  unfold readTask
  cases hph : k.phase with
  | first =>
    obtain ⟨rfl, hrd⟩ := hf hph
    simp only
    rcases hm : (Decoder.readPacket env.profile : M RStream ControlPacket) k.rd with ⟨r, rd'⟩
    have keep : ∀ ph, ph ≠ .first → (∀ id, ph ≠ .running id) → (∀ qs, Receives env peer qs → eventsOf peer c qs <+: eventsOf peer c []) →
        TookInv env peer c alive tk { k with rd := rd', phase := ph } := by
      intro ph h1 h2 h3
      exact ⟨haddr, huuid, [], rd, hd, fun h => absurd h h1, fun id h => absurd h (h2 id), fun _ => h3, ha, hp⟩
    have stop : (∀ p, r ≠ .ok p) → ∀ qs, Receives env peer qs → eventsOf peer c qs <+: eventsOf peer c [] := by
      intro hne
      refine took_stops c hd fun p u hpu => ?_
      rw [← hrd, hm] at hpu
      exact hne p (Prod.mk.inj hpu).1
    cases r with
    | ok p =>
      rw [hrd] at hm
      have h1 := readMany_snoc env.profile hd hm
      cases p with
      | connect q =>
        simp only
        have hid : effectiveClientId k q = idOf peer q := by simp [effectiveClientId, idOf, huuid]
        refine ⟨haddr, huuid, [.connect q], rd', h1, fun h => (by cases h), fun id h => ?_, fun h => (by rcases h with h | h <;> cases h), fun hal => ?_, hp.trans List.nil_prefix⟩
        · cases h
          exact ⟨rfl, q, [], rfl, hid⟩
        · have htk : tk = [] := by simpa [eventsOf, ho] using ha hal
          simp [eventsOf, hid, haddr, htk]
      | _ =>
        refine keep .ended (by simp) (by simp) fun qs hq => ?_
        obtain ⟨u, hq⟩ := receives_iff.mp hq
        cases qs with
        | nil => exact List.nil_prefix
        | cons q qs =>
          rw [List.length_cons, readMany] at hq
          obtain ⟨q', v, hq', h2⟩ := M.bind_eq_ok.mp hq
          obtain ⟨qs', v₁, _, h3⟩ := M.bind_eq_ok.mp h2
          cases h3
          cases hd
          rw [hm] at hq'
          cases hq'
          exact List.nil_prefix
    | err e => exact keep .ended (by simp) (by simp) (stop (by simp))
    | panic => exact keep .ended (by simp) (by simp) (stop (by simp))
    | hang => exact keep .stuck (by simp) (by simp) (stop (by simp))
    | pending => exact ⟨haddr, huuid, [], rd, hd, hf, hr, hx, ha, hp⟩
  | running id =>
    obtain ⟨hrd, p, ps', rfl, hid⟩ := hr id hph
    simp only
    rcases hm : (Decoder.readPacket env.profile : M RStream ControlPacket) k.rd with ⟨r, rd'⟩
    have stop : ∀ ph, ph ≠ .first → (∀ id, ph ≠ .running id) → (∀ p, r ≠ .ok p) →
        TookInv env peer c alive tk { k with rd := rd', phase := ph } := by
      intro ph h1 h2 hne
      refine ⟨haddr, huuid, _, rd, hd, fun h => absurd h h1, fun id h => absurd h (h2 id), fun _ => ?_, ha, hp⟩
      refine took_stops c hd fun p u hpu => ?_
      rw [← hrd, hm] at hpu
      exact hne p (Prod.mk.inj hpu).1
    cases r with
    | ok q =>
      simp only
      rw [hrd] at hm
      have hd' := readMany_snoc env.profile hd hm
      refine ⟨haddr, huuid, .connect p :: ps' ++ [q], rd', by simpa using hd', fun h => ?_, fun id' h => ?_, fun h => ?_, fun hal => ?_, ?_⟩
      · cases h
      · cases h
        exact ⟨rfl, p, ps' ++ [q], rfl, hid⟩
      · rcases h with h | h <;> cases h
      · rw [eventsOf_snoc, ← ha hal, ho, hid]
        simp
      · rw [eventsOf_snoc]
        exact hp.trans (List.prefix_append _ _)
    | err e => exact stop .ended (by simp) (by simp) (by simp)
    | panic => exact stop .ended (by simp) (by simp) (by simp)
    | hang => exact stop .stuck (by simp) (by simp) (by simp)
    | pending => exact ⟨haddr, huuid, _, rd, hd, hf, hr, hx, ha, hp⟩
  | ended => exact ⟨haddr, huuid, ps, rd, hd, hf, hr, hx, ha, hp⟩
  | stuck => exact ⟨haddr, huuid, ps, rd, hd, hf, hr, hx, ha, hp⟩

/-- The invariant of all connections. -/
def Took (env : Env) (peers : ConnId → Peer) (s : Sys) : Prop := ∀ c, TookInv env (peers c) c s.handlerAlive (s.taken c) (s.conns c)

theorem took_init (env : Env) (peers : ConnId → Peer) : Took env peers (init peers) := fun c => by
  refine ⟨rfl, rfl, [], RStream.new 4096 (peers c).segs (peers c).fin, rfl, fun _ => ⟨rfl, rfl⟩, fun id h => (by cases h), fun h => ?_, fun _ => rfl, by simp [taken, init]⟩
  rcases h with h | h <;> cases h

theorem TookInv.congr {env : Env} {peer : Peer} {c : ConnId} {alive alive' : Bool} {tk : List ClientEvent} {k k' : Conn}
    (h : TookInv env peer c alive tk k) (hk : SameReader k k') (ha : alive' = true → alive = true) : TookInv env peer c alive' tk k' := by
  obtain ⟨h1, h2, ps, rd, h3, h4, h5, h6, h7, h8⟩ := h
  refine ⟨hk.addr.trans h1, hk.uuid.trans h2, ps, rd, h3, ?_, ?_, ?_, ?_, h8⟩
  · rw [hk.phase, hk.rd]; exact h4
  · rw [hk.phase, hk.rd]; exact h5
  · rw [hk.phase]; exact h6
  · rw [hk.outbox]; exact fun h => h7 (ha h)

/-- Only the write task and the packet handler act: nothing changes for the readers. -/
theorem Took.congr {env : Env} {peers : ConnId → Peer} {s s' : Sys} (h : Took env peers s) (hk : ∀ c, SameReader (s.conns c) (s'.conns c))
    (ht : s'.log.map Prod.fst ++ s'.events = s.log.map Prod.fst ++ s.events) (ha : s'.handlerAlive = true → s.handlerAlive = true) :
    Took env peers s' := fun c => by
  have : s'.taken c = s.taken c := by rw [taken, taken, ht]
  rw [this]
  exact (h c).congr (hk c) ha

theorem took_step (env : Env) (peers : ConnId → Peer) (s : Sys) (st : Step) (h : Took env peers s) : Took env peers (step env s st) := by
  cases st with
  | read c =>
    unfold step stepRead
    simp only
    cases ho : (s.conns c).outbox with
    | none =>
      simp only
      intro d
      by_cases hd : d = c
      · subst hd
        rw [setConn_self]
        exact readTask_took env (h d) ho
      · rw [setConn_other _ _ hd]; exact h d
    | some ev =>
      simp only
      by_cases hal : s.handlerAlive = true
      · rw [if_pos hal]
        by_cases hroom : s.events.length < channelCapacity
        · rw [if_pos hroom]
          obtain ⟨h1, h2, ps, rd, h3, h4, h5, h6, h7, h8⟩ := h c
          have h7' := h7 hal
          rw [ho] at h7'
          have hfr : From c ev := from_eventsOf (peer := peers c) (ps := ps) (by rw [← h7']; simp)
          intro d
          by_cases hd : d = c
          · subst hd
            rw [setConn_self]
            have ht : taken (({ s with events := s.events ++ [ev] } : Sys).setConn d { s.conns d with outbox := none }) d
                = s.taken d ++ [ev] := by
              simp [taken, List.filter_append, hfr]
            rw [ht]
            refine ⟨h1, h2, ps, rd, h3, h4, h5, h6, fun _ => ?_, ?_⟩
            · simpa using h7'
            · rw [← h7']; simp
          · rw [setConn_other _ _ hd]
            have ht : taken (({ s with events := s.events ++ [ev] } : Sys).setConn c { s.conns c with outbox := none }) d
                = s.taken d := by
              have : ¬ From d ev := fun hf => hd (from_unique hf hfr)
              simp [taken, List.filter_append, this]
            rw [ht]
            exact h d
        · rw [if_neg hroom]; exact h
      · rw [if_neg hal]
        intro d
        by_cases hd : d = c
        · subst hd
          rw [setConn_self]
          obtain ⟨h1, h2, ps, rd, h3, h4, h5, h6, h7, h8⟩ := h d
          exact ⟨h1, h2, ps, rd, h3, h4, h5, h6, fun h => absurd h hal, h8⟩
        · rw [setConn_other _ _ hd]; exact h d
  | write c =>
    obtain ⟨h1, h2, _, h4, _⟩ := stepWrite_rest env s c
    exact h.congr (stepWrite_reader env s c) (by simp only [step]; rw [h1, h4]) (fun ha => by simp only [step, handlerAlive, h2] at ha; exact ha)
  | handler now => exact h.congr (stepHandler_reader env now s) (stepHandler_taken env now s) (stepHandler_alive env now s)
  | ctrlC => exact h.congr (fun _ => SameReader.refl _) rfl (fun h => h)
  | stop =>
    unfold step
    cases hh : s.handler with
    | idle =>
      simp only
      split
      · exact h.congr (fun _ => SameReader.refl _) rfl (fun h => by cases h)
      · exact h
    | _ => exact h

theorem took_run (env : Env) (peers : ConnId → Peer) (sched : List Step) : Took env peers (run env (init peers) sched) :=
  run_induction (took_step env peers) (took_init env peers) sched

/-- A read task spins only if reading from its connection does. -/
theorem spinning_step {env : Env} {peers : ConnId → Peer} {s : Sys} (ht : Took env peers s) (st : Step)
    (h : ∀ c, (s.conns c).phase = .stuck → Spinning env (peers c)) : ∀ c, ((step env s st).conns c).phase = .stuck → Spinning env (peers c) := by
  letI := RStream.source env.alloc
  intro d
  cases st with
  | read c =>
    unfold step stepRead
    simp only
    by_cases hd : d = c
    · subst hd
      cases ho : (s.conns d).outbox with
      | none =>
        simp only
        rw [setConn_self]
        obtain ⟨_, _, ps, rd, h3, h4, h5, _⟩ := ht d
        have spins : (s.conns d).rd = rd → ∀ rd', (Decoder.readPacket env.profile : M RStream ControlPacket) (s.conns d).rd = (.hang, rd') →
            Spinning env (peers d) := fun hrd rd' hm =>
          ⟨ps.length + 1, readMany_hang env.profile _ _ _ _ h3 (by rw [← hrd, hm])⟩
        unfold readTask
        cases hph : (s.conns d).phase with
        | first =>
          simp only
          rcases hm : (Decoder.readPacket env.profile : M RStream ControlPacket) (s.conns d).rd with ⟨r, rd'⟩
          cases r with
          | hang => exact fun _ => spins (h4 hph).2 rd' hm
          | ok p => cases p <;> (intro h; cases h)
          | pending => intro h'; simp only [hph] at h'; cases h'
          | _ => intro h; cases h
        | running id =>
          simp only
          rcases hm : (Decoder.readPacket env.profile : M RStream ControlPacket) (s.conns d).rd with ⟨r, rd'⟩
          cases r with
          | hang => exact fun _ => spins (h5 id hph).1 rd' hm
          | pending => intro h'; simp only [hph] at h'; cases h'
          | _ => intro h; cases h
        | ended => intro h'; simp only [hph] at h'; cases h'
        | stuck => exact fun _ => h d hph
      | some ev =>
        simp only
        split
        · split
          · rw [setConn_self]; exact h d
          · exact h d
        · rw [setConn_self]; exact h d
    · split
      · split
        · split
          · rw [setConn_other _ _ hd]; exact h d
          · exact h d
        · rw [setConn_other _ _ hd]; exact h d
      · rw [setConn_other _ _ hd]; exact h d
  | write c => intro hp; exact h d (by rw [← (stepWrite_reader env s c d).phase]; exact hp)
  | handler now => intro hp; exact h d (by rw [← (stepHandler_reader env now s d).phase]; exact hp)
  | ctrlC => exact h d
  | stop =>
    unfold step
    cases hh : s.handler with
    | idle => simp only; split <;> exact h d
    | _ => exact h d

theorem stuck_spinning (env : Env) (peers : ConnId → Peer) (sched : List Step) (c : ConnId)
    (h : ((run env (init peers) sched).conns c).phase = .stuck) : Spinning env (peers c) :=
  (run_induction (P := fun s => Took env peers s ∧ ∀ c, (s.conns c).phase = .stuck → Spinning env (peers c))
    (fun s st h => ⟨took_step env peers s st h.1, spinning_step h.1 st h.2⟩) ⟨took_init env peers, fun c h => by cases h⟩ sched).2 c h

/-- When all is done, the handler has taken what was received, and nothing else can be received. -/
theorem done_received {env : Env} {peers : ConnId → Peer} {P : ConnId → Prop} {s : Sys} (hr : Reads env peers s) (ht : Took env peers s)
    (hd : Done env P s) {c : ConnId} (hc : P c) : ∃ ps, Receives env (peers c) ps
      ∧ (s.log.map Prod.fst).filter (From c) = eventsOf (peers c) c ps
      ∧ ∀ qs, Receives env (peers c) qs → eventsOf (peers c) c qs <+: eventsOf (peers c) c ps := by
  letI := RStream.source env.alloc
  have hal : s.handlerAlive = true := by simp [handlerAlive, hd.handler]
  have htk : s.taken c = (s.log.map Prod.fst).filter (From c) := by rw [taken, hd.events, List.append_nil]
  obtain ⟨_, _, ps, rd, h3, h4, h5, h6, h7, _⟩ := ht c
  have h7 := h7 hal
  rw [hd.outbox c hc] at h7
  simp only [Option.toList_none, List.append_nil] at h7
  rw [← htk]
  refine ⟨ps, receives_iff.mpr ⟨rd, h3⟩, h7, ?_⟩
  have reading : ((s.conns c).phase = .first ∨ ∃ id, (s.conns c).phase = .running id) → (s.conns c).rd = rd →
      ∀ qs, Receives env (peers c) qs → eventsOf (peers c) c qs <+: eventsOf (peers c) c ps := by
    intro hp hrd
    have hno : (decoded env.profile (unread (s.conns c).rd) (s.conns c).rd.fin).1 = .pending :=
      Classical.byContradiction fun h => hd.read c hc ⟨hp, h⟩
    refine took_stops c h3 fun p u hpu => ?_
    obtain ⟨_, _, ps', pl, g1, g2, g3, _, _⟩ := hr.conn c
    have hrel : Rel (s.conns c).rd pl := by
      rcases hp with hp | ⟨id, hp⟩
      · exact (g2 hp).2
      · exact (g3 id hp).1
    have hs := Sim.readPacket env.alloc closed_true env.profile _ pl hrel trivial
    rw [hrd, hpu] at hs
    obtain ⟨p', hs, _⟩ := hs
    have hpl : pl = ⟨unread (s.conns c).rd, (s.conns c).rd.fin⟩ := by
      obtain ⟨b, f⟩ := pl
      have e1 := hrel.bytes
      have e2 := hrel.fin
      simp only at e1 e2
      rw [← e1, ← e2]
      rfl
    unfold decoded at hno
    rw [← hpl, hs] at hno
    cases hno
  cases hp : (s.conns c).phase with
  | first => exact reading (.inl hp) (h4 hp).2
  | running id => exact reading (.inr ⟨id, hp⟩) (h5 id hp).1
  | ended => exact h6 (.inl hp)
  | stuck => exact h6 (.inr hp)

theorem readMany_fewer {σ : Type} [ByteSource σ] (pr : Profile) {n m : Nat} {s t : σ} {ps : List ControlPacket} (hm : m ≤ n)
    (h : (readMany pr n : M σ _) s = (.ok ps, t)) : ∃ t', (readMany pr m : M σ _) s = (.ok (ps.take m), t') := by
  induction n generalizing m s ps with
  | zero =>
    obtain rfl : m = 0 := by omega
    exact ⟨s, rfl⟩
  | succ n ih =>
    cases m with
    | zero => exact ⟨s, rfl⟩
    | succ m =>
      rw [readMany] at h
      obtain ⟨p, u, hp, h1⟩ := M.bind_eq_ok.mp h
      obtain ⟨qs, u₁, hqs, h2⟩ := M.bind_eq_ok.mp h1
      cases h2
      obtain ⟨t', h3⟩ := ih (m := m) (by omega) hqs
      refine ⟨t', ?_⟩
      rw [readMany, M.bind_ok hp, M.bind_ok h3]
      rfl

/-- If reading the packet after the first `n` does not work, no more than `n` are ever handed over. -/
theorem taken_le {env : Env} {peers : ConnId → Peer} {c : ConnId} {n : Nat}
    (h : ∀ ps, (received env.alloc env.profile 4096 (peers c).segs (peers c).fin (n + 1)).1 ≠ .ok ps) (sched : List Step) :
    (((run env (init peers) sched).log.map Prod.fst).filter (From c)).length ≤ n := by
  letI := RStream.source env.alloc
  obtain ⟨_, _, ps, rd, h3, _, _, _, _, h8⟩ := took_run env peers sched c
  have hle : ps.length ≤ n := by
    refine Nat.le_of_not_lt fun hlt => ?_
    obtain ⟨t', h'⟩ := readMany_fewer env.profile (m := n + 1) (by omega) h3
    exact h _ (congrArg Prod.fst h')
  have h1 := h8.length_le
  have h2 : (eventsOf (peers c) c ps).length ≤ ps.length := by
    unfold eventsOf
    split <;> simp
  have h4 : (((run env (init peers) sched).log.map Prod.fst).filter (From c)).length ≤ ((run env (init peers) sched).taken c).length := by
    rw [taken, List.filter_append, List.length_append]
    omega
  omega

end Sys

end Ratel
