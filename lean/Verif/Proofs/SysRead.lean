/-
Invariants of the running broker: what the read tasks hand to the packet handler.
-/
import Verif.Props.Streams
import Verif.Spec.System

namespace Ratel

open Decoder Spec

namespace Sys

@[simp] theorem setConn_self (s : Sys) (c : ConnId) (k : Conn) : (s.setConn c k).conns c = k := by simp [setConn]

theorem setConn_other (s : Sys) {c d : ConnId} (k : Conn) (h : d ≠ c) : (s.setConn c k).conns d = s.conns d := by simp [setConn, h]

@[simp] theorem setConn_events (s : Sys) (c : ConnId) (k : Conn) : (s.setConn c k).events = s.events := rfl
@[simp] theorem setConn_handler (s : Sys) (c : ConnId) (k : Conn) : (s.setConn c k).handler = s.handler := rfl
@[simp] theorem setConn_messaging (s : Sys) (c : ConnId) (k : Conn) : (s.setConn c k).messaging = s.messaging := rfl
@[simp] theorem setConn_log (s : Sys) (c : ConnId) (k : Conn) : (s.setConn c k).log = s.log := rfl
@[simp] theorem setConn_ctrlC (s : Sys) (c : ConnId) (k : Conn) : (s.setConn c k).ctrlC = s.ctrlC := rfl
@[simp] theorem setConn_alive (s : Sys) (c : ConnId) (k : Conn) : (s.setConn c k).handlerAlive = s.handlerAlive := rfl

/-- Induction over schedules. -/
theorem run_induction {env : Env} {P : Sys → Prop} (hstep : ∀ s st, P s → P (step env s st)) {s : Sys} (h : P s) (sched : List Step) :
    P (run env s sched) := by
  induction sched generalizing s with
  | nil => exact h
  | cons st sched ih => exact ih (hstep s st h)

theorem run_append (env : Env) (s : Sys) (a b : List Step) : run env s (a ++ b) = run env (run env s a) b := by
  simp [run, List.foldl_append]

theorem run_cons (env : Env) (s : Sys) (st : Step) (b : List Step) : run env s (st :: b) = run env (step env s st) b := rfl

/-! ### Events and their connections -/

theorem eventTx_iff (c : ConnId) (ev : ClientEvent) : eventTx c ev = true ↔ From c ev := by
  cases ev <;> simp [eventTx, From]

theorem from_unique {c d : ConnId} {ev : ClientEvent} (h : From c ev) (h' : From d ev) : c = d := by
  cases ev <;> simp only [From] at h h' <;> simp_all

theorem from_eventsOf {peer : Peer} {c : ConnId} {ps : List ControlPacket} {ev : ClientEvent} (h : ev ∈ eventsOf peer c ps) : From c ev := by
  unfold eventsOf at h
  split at h
  · rcases List.mem_cons.mp h with rfl | h
    · rfl
    · obtain ⟨q, _, rfl⟩ := List.mem_map.mp h
      rfl
  · cases h

theorem eventsOf_snoc (peer : Peer) (c : ConnId) (p : ConnectPacket) (ps : List ControlPacket) (q : ControlPacket) :
    eventsOf peer c (.connect p :: ps ++ [q]) = eventsOf peer c (.connect p :: ps) ++ [.controlPacket (idOf peer p) q c] := by
  simp [eventsOf]

/-- The events of connection `c` that reached the packet handler's queue. -/
def taken (s : Sys) (c : ConnId) : List ClientEvent := (s.log.map Prod.fst ++ s.events).filter (From c)

theorem readMany_snoc {σ : Type} [ByteSource σ] (pr : Profile) {n : Nat} {s s₁ s₂ : σ} {ps : List ControlPacket} {p : ControlPacket}
    (h1 : (readMany pr n : M σ _) s = (.ok ps, s₁)) (h2 : (readPacket pr : M σ _) s₁ = (.ok p, s₂)) :
    (readMany pr (n + 1) : M σ _) s = (.ok (ps ++ [p]), s₂) := by
  induction n generalizing s ps with
  | zero =>
    cases h1
    rw [readMany, M.bind_ok h2]
    rfl
  | succ n ih =>
    rw [readMany] at h1
    obtain ⟨q, t, hq, h1⟩ := M.bind_eq_ok.mp h1
    obtain ⟨qs, t', hqs, h1⟩ := M.bind_eq_ok.mp h1
    cases h1
    rw [readMany, M.bind_ok hq, M.bind_ok (ih hqs)]
    rfl

/-- What a connection's read task has done: it has decoded `ps`, and of the events these stand for, `tk` are in the packet handler's
hands and one may be on its way. -/
structure ReadInv (env : Env) (peer : Peer) (c : ConnId) (alive : Bool) (tk : List ClientEvent) (k : Conn) : Prop where
  addr : k.addr = peer.addr
  uuid : k.uuid = peer.uuid
  progress : ∃ ps pl, (readMany env.profile ps.length : M Plain _) ⟨peer.segs.flatten, peer.fin⟩ = (.ok ps, pl)
    ∧ (k.phase = .first → ps = [] ∧ Rel k.rd pl)
    ∧ (∀ id, k.phase = .running id → Rel k.rd pl ∧ ∃ p ps', ps = .connect p :: ps' ∧ id = idOf peer p)
    ∧ (alive = true → tk ++ k.outbox.toList = eventsOf peer c ps)
    ∧ tk <+: eventsOf peer c ps

/-- One step of the read task proper. -/
theorem readTask_inv (env : Env) {peer : Peer} {c : ConnId} {alive : Bool} {tk : List ClientEvent} {k : Conn}
    (h : ReadInv env peer c alive tk k) (ho : k.outbox = none) : ReadInv env peer c alive tk (readTask env c k) := by
  obtain ⟨haddr, huuid, ps, pl, hd, hf, hr, ha, hp⟩ := h
  unfold readTask
  letI := RStream.source env.alloc
  cases hph : k.phase with
  | first =>
    obtain ⟨rfl, hrel⟩ := hf hph
    have hs := Sim.readPacket env.alloc closed_true env.profile k.rd pl hrel trivial
    simp only
    have htk : tk = [] := by simpa [eventsOf] using hp
    subst htk
    rcases hm : (Decoder.readPacket env.profile : M RStream ControlPacket) k.rd with ⟨r, rd⟩
    have hs : match r with
      | .ok a => ∃ p', (Decoder.readPacket env.profile : M Plain _) pl = (.ok a, p') ∧ Rel rd p' ∧ True
      | _ => True := by
      cases r <;> first | trivial | (rw [hm] at hs; exact hs)
    have keep : ∀ ph, ph ≠ .first → (∀ id, ph ≠ .running id) → ReadInv env peer c alive [] { k with rd := rd, phase := ph } := by
      intro ph h1 h2
      exact ⟨haddr, huuid, [], pl, hd, fun h => absurd h h1, fun id h => absurd h (h2 id), by simpa [ho] using ha, hp⟩
    cases r with
    | ok p =>
      obtain ⟨p', h1, h2, _⟩ := hs
      cases p with
      | connect q =>
        simp only
        have hid : effectiveClientId k q = idOf peer q := by simp [effectiveClientId, idOf, huuid]
        refine ⟨haddr, huuid, [.connect q], p', readMany_snoc env.profile hd h1, fun h => (by cases h), fun id h => ?_, fun _ => ?_, (by simp)⟩
        · cases h
          exact ⟨h2, q, [], rfl, hid⟩
        · simp [eventsOf, hid, haddr]
      | _ => exact keep .ended (by simp) (by simp)
    | err e => exact keep .ended (by simp) (by simp)
    | panic => exact keep .ended (by simp) (by simp)
    | hang => exact keep .stuck (by simp) (by simp)
    | pending => exact ⟨haddr, huuid, [], pl, hd, hf, hr, ha, hp⟩
  | running id =>
    obtain ⟨hrel, p, ps', rfl, hid⟩ := hr id hph
    have hs := Sim.readPacket env.alloc closed_true env.profile k.rd pl hrel trivial
    simp only
    rcases hm : (Decoder.readPacket env.profile : M RStream ControlPacket) k.rd with ⟨r, rd⟩
    have hs : match r with
      | .ok a => ∃ p', (Decoder.readPacket env.profile : M Plain _) pl = (.ok a, p') ∧ Rel rd p' ∧ True
      | _ => True := by
      cases r <;> first | trivial | (rw [hm] at hs; exact hs)
    have keep : ∀ ph, ph ≠ .first → (∀ id, ph ≠ .running id) → ReadInv env peer c alive tk { k with rd := rd, phase := ph } := by
      intro ph h1 h2
      exact ⟨haddr, huuid, _, pl, hd, fun h => absurd h h1, fun id h => absurd h (h2 id), ha, hp⟩
    cases r with
    | ok q =>
      obtain ⟨p', h1, h2, _⟩ := hs
      simp only
      have hd' := readMany_snoc env.profile hd h1
      refine ⟨haddr, huuid, .connect p :: ps' ++ [q], p', by simpa using hd', fun h => ?_, fun id' h => ?_, fun hal => ?_, ?_⟩
      · cases h
      · cases h
        exact ⟨h2, p, ps' ++ [q], rfl, hid⟩
      · rw [eventsOf_snoc, ← ha hal, ho, hid]
        simp
      · rw [eventsOf_snoc]
        exact hp.trans (List.prefix_append _ _)
    | err e => exact keep .ended (by simp) (by simp)
    | panic => exact keep .ended (by simp) (by simp)
    | hang => exact keep .stuck (by simp) (by simp)
    | pending => exact ⟨haddr, huuid, _, pl, hd, hf, hr, ha, hp⟩
  | ended => exact ⟨haddr, huuid, ps, pl, hd, hf, hr, ha, hp⟩
  | stuck => exact ⟨haddr, huuid, ps, pl, hd, hf, hr, ha, hp⟩

/-- The invariant of all connections; and every event comes from a connection. -/
structure Reads (env : Env) (peers : ConnId → Peer) (s : Sys) : Prop where
  conn : ∀ c, ReadInv env (peers c) c s.handlerAlive (s.taken c) (s.conns c)
  from_conn : ∀ ev ∈ s.log.map Prod.fst ++ s.events, ∃ c, From c ev

theorem reads_init (env : Env) (peers : ConnId → Peer) : Reads env peers (init peers) where
  conn c := by
    refine ⟨rfl, rfl, [], ⟨(peers c).segs.flatten, (peers c).fin⟩, rfl, fun _ => ⟨rfl, rel_new _ _ _⟩, fun id h => (by cases h), fun _ => rfl, ?_⟩
    simp [taken, init]
  from_conn := by simp [init]

/-- The reading side of a connection. -/
structure SameReader (k k' : Conn) : Prop where
  addr : k'.addr = k.addr
  uuid : k'.uuid = k.uuid
  rd : k'.rd = k.rd
  phase : k'.phase = k.phase
  outbox : k'.outbox = k.outbox

theorem SameReader.refl (k : Conn) : SameReader k k := ⟨rfl, rfl, rfl, rfl, rfl⟩

theorem ReadInv.congr {env : Env} {peer : Peer} {c : ConnId} {alive alive' : Bool} {tk : List ClientEvent} {k k' : Conn}
    (h : ReadInv env peer c alive tk k) (hk : SameReader k k') (ha : alive' = true → alive = true) : ReadInv env peer c alive' tk k' := by
  obtain ⟨h1, h2, ps, pl, h3, h4, h5, h6, h7⟩ := h
  refine ⟨hk.addr.trans h1, hk.uuid.trans h2, ps, pl, h3, ?_, ?_, ?_, h7⟩
  · rw [hk.phase, hk.rd]; exact h4
  · rw [hk.phase, hk.rd]; exact h5
  · rw [hk.outbox]; exact fun h => h6 (ha h)

/-- Only the write task and the packet handler act: nothing changes for the readers. -/
theorem Reads.congr {env : Env} {peers : ConnId → Peer} {s s' : Sys} (h : Reads env peers s) (hk : ∀ c, SameReader (s.conns c) (s'.conns c))
    (ht : s'.log.map Prod.fst ++ s'.events = s.log.map Prod.fst ++ s.events) (ha : s'.handlerAlive = true → s.handlerAlive = true) :
    Reads env peers s' where
  conn c := by
    have : s'.taken c = s.taken c := by rw [taken, taken, ht]
    rw [this]
    exact (h.conn c).congr (hk c) ha
  from_conn := by rw [ht]; exact h.from_conn

theorem sameReader_set {s : Sys} {c : ConnId} {k : Conn} (h : SameReader (s.conns c) k) (d : ConnId) :
    SameReader (s.conns d) ((s.setConn c k).conns d) := by
  by_cases hd : d = c
  · subst hd; rw [setConn_self]; exact h
  · rw [setConn_other _ _ hd]; exact SameReader.refl _

theorem stepWrite_reader (env : Env) (s : Sys) (c d : ConnId) : SameReader (s.conns d) ((stepWrite env s c).conns d) := by
  unfold stepWrite
  simp only
  split
  · split
    · split <;> (refine sameReader_set ?_ d; exact ⟨rfl, rfl, rfl, rfl, rfl⟩)
    · (refine sameReader_set ?_ d; exact ⟨rfl, rfl, rfl, rfl, rfl⟩)
    · split
      · exact SameReader.refl _
      · (refine sameReader_set ?_ d; exact ⟨rfl, rfl, rfl, rfl, rfl⟩)
  · exact SameReader.refl _

theorem stepWrite_rest (env : Env) (s : Sys) (c : ConnId) : (stepWrite env s c).events = s.events ∧ (stepWrite env s c).handler = s.handler
    ∧ (stepWrite env s c).messaging = s.messaging ∧ (stepWrite env s c).log = s.log ∧ (stepWrite env s c).ctrlC = s.ctrlC := by
  unfold stepWrite
  simp only
  split
  · split
    · split <;> exact ⟨rfl, rfl, rfl, rfl, rfl⟩
    · exact ⟨rfl, rfl, rfl, rfl, rfl⟩
    · split <;> exact ⟨rfl, rfl, rfl, rfl, rfl⟩
  · exact ⟨rfl, rfl, rfl, rfl, rfl⟩

theorem stepHandler_reader (env : Env) (now : Instant) (s : Sys) (d : ConnId) :
    SameReader (s.conns d) ((stepHandler env now s).conns d) := by
  unfold stepHandler
  split
  · split
    · exact SameReader.refl _
    · simp only
      split <;> exact SameReader.refl _
  · exact SameReader.refl _
  · simp only
    split
    · split
      · (refine sameReader_set ?_ d; exact ⟨rfl, rfl, rfl, rfl, rfl⟩)
      · exact SameReader.refl _
    · exact SameReader.refl _
  · exact SameReader.refl _
  · exact SameReader.refl _

theorem stepHandler_taken (env : Env) (now : Instant) (s : Sys) :
    (stepHandler env now s).log.map Prod.fst ++ (stepHandler env now s).events = s.log.map Prod.fst ++ s.events := by
  unfold stepHandler
  split
  · split
    · rfl
    · rename_i ev rest hev
      simp only
      split <;> simp [hev]
  · rfl
  · simp only
    split
    · split <;> rfl
    · rfl
  · rfl
  · rfl

theorem stepHandler_alive (env : Env) (now : Instant) (s : Sys) (h : (stepHandler env now s).handlerAlive = true) : s.handlerAlive = true := by
  unfold stepHandler at h
  split at h
  · rename_i hh; simp [handlerAlive, hh]
  · rename_i hh; simp [handlerAlive, hh]
  · rename_i hh; simp [handlerAlive, hh]
  · rename_i hh; exact h
  · rename_i hh; exact h

theorem reads_step (env : Env) (peers : ConnId → Peer) (s : Sys) (st : Step) (h : Reads env peers s) : Reads env peers (step env s st) := by
  cases st with
  | read c =>
    unfold step stepRead
    simp only
    cases ho : (s.conns c).outbox with
    | none =>
      simp only
      refine ⟨fun d => ?_, h.from_conn⟩
      by_cases hd : d = c
      · subst hd
        rw [setConn_self]
        exact readTask_inv env (h.conn d) ho
      · rw [setConn_other _ _ hd]; exact h.conn d
    | some ev =>
      simp only
      by_cases hal : s.handlerAlive = true
      · rw [if_pos hal]
        by_cases hroom : s.events.length < channelCapacity
        · rw [if_pos hroom]
          obtain ⟨h1, h2, ps, pl, h3, h4, h5, h6, h7⟩ := h.conn c
          have h6' := h6 hal
          rw [ho] at h6'
          have hfr : From c ev := from_eventsOf (peer := peers c) (ps := ps) (by rw [← h6']; simp)
          refine ⟨fun d => ?_, ?_⟩
          · by_cases hd : d = c
            · subst hd
              rw [setConn_self]
              have ht : taken (({ s with events := s.events ++ [ev] } : Sys).setConn d { s.conns d with outbox := none }) d
                  = s.taken d ++ [ev] := by
                simp [taken, List.filter_append, hfr]
              rw [ht]
              refine ⟨h1, h2, ps, pl, h3, h4, h5, fun _ => ?_, ?_⟩
              · simpa using h6'
              · rw [← h6']; simp
            · rw [setConn_other _ _ hd]
              have ht : taken (({ s with events := s.events ++ [ev] } : Sys).setConn c { s.conns c with outbox := none }) d
                  = s.taken d := by
                have : ¬ From d ev := fun hf => hd (from_unique hf hfr)
                simp [taken, List.filter_append, this]
              rw [ht]
              exact h.conn d
          · intro x hx
            simp only [setConn_log, setConn_events, ← List.append_assoc] at hx
            rcases List.mem_append.mp hx with hx | hx
            · exact h.from_conn x hx
            · rw [List.mem_singleton] at hx
              exact ⟨c, hx ▸ hfr⟩
        · rw [if_neg hroom]; exact h
      · rw [if_neg hal]
        refine ⟨fun d => ?_, h.from_conn⟩
        by_cases hd : d = c
        · subst hd
          rw [setConn_self]
          obtain ⟨h1, h2, ps, pl, h3, h4, h5, h6, h7⟩ := h.conn d
          exact ⟨h1, h2, ps, pl, h3, h4, h5, fun h => absurd h hal, h7⟩
        · rw [setConn_other _ _ hd]; exact h.conn d
  | write c =>
    obtain ⟨h1, h2, _, h4, _⟩ := stepWrite_rest env s c
    exact h.congr (stepWrite_reader env s c) (by simp only [step]; rw [h1, h4]) (fun ha => by simp only [step, handlerAlive, h2] at ha; exact ha)
  | handler now => exact h.congr (stepHandler_reader env now s) (stepHandler_taken env now s) (stepHandler_alive env now s)
  | ctrlC => exact h.congr (fun _ => SameReader.refl _) rfl (fun h => h)
  | stop =>
    unfold step
    cases hh : s.handler with
    | idle =>
      simp only
      split
      · exact h.congr (fun _ => SameReader.refl _) rfl (fun h => by cases h)
      · exact h
    | _ => exact h

theorem reads_run (env : Env) (peers : ConnId → Peer) (sched : List Step) : Reads env peers (run env (init peers) sched) :=
  run_induction (reads_step env peers) (reads_init env peers) sched

end Sys

end Ratel
