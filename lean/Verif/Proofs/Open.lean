/-
Among clients that react, every execution of the broker is one in which all input was given at the start.
-/
import Verif.Spec.Open
import Verif.Proofs.Later
import Verif.Proofs.SysWrite

namespace Ratel.Open

open Spec

/-- What is still to come on one connection. -/
structure Future where
  more : List (List UInt8)
  fin : Ending
  answers : List WriteOutcome

/-- A client with what is still to come. -/
def Future.peer (f : Future) (p : Sys.Peer) : Sys.Peer :=
  { p with
    segs := if p.fin = .silence then p.segs ++ f.more else p.segs
    fin := if p.fin = .silence then f.fin else p.fin
    script := p.script ++ f.answers }

/-- A connection with what is still to come. -/
def Future.conn (f : Future) (k : Conn) : Conn := { k with rd := k.rd.later f.more f.fin, wr := k.wr.later f.answers }

/-- The packet in hand is written with what is still to come. -/
def fill (env : Env) (f : Future) (k : Conn) : Option ControlPacket → Conn
  | none => f.conn k
  | some p => endWrite (f.conn k) p (@Encoder.writePacket _ (WStream.sink env.alloc) p (k.wr.later f.answers))

/-- The broker with what is still to come already there. -/
def complete (env : Env) (F : ConnId → Future) (o : Open) : Sys := { o.sys with conns := fun c => fill env (F c) (o.sys.conns c) (o.hand c) }

/-- What holds throughout: buffers are well-formed, and a packet in hand is one that can be written, by a task that still runs. -/
structure Fine (env : Env) (o : Open) : Prop where
  wf : ∀ c, (o.sys.conns c).phase ≠ .ended → (o.sys.conns c).phase ≠ .stuck → (o.sys.conns c).rd.Wf
  hand : ∀ c p, o.hand c = some p → ∀ s, (@Encoder.writePacket _ (WStream.sink env.alloc) p s).1 ≠ .panic

theorem fill_rest (env : Env) (f : Future) (k : Conn) (h : Option ControlPacket) :
    (fill env f k h).phase = k.phase ∧ (fill env f k h).outbox = k.outbox ∧ (fill env f k h).delivered = k.delivered
    ∧ (fill env f k h).addr = k.addr ∧ (fill env f k h).uuid = k.uuid ∧ (fill env f k h).rd = k.rd.later f.more f.fin := by
  cases h with
  | none => exact ⟨rfl, rfl, rfl, rfl, rfl, rfl⟩
  | some p =>
    simp only [fill]
    rcases @Encoder.writePacket _ (WStream.sink env.alloc) p (k.wr.later f.answers) with ⟨r, wr⟩
    cases r <;> exact ⟨rfl, rfl, rfl, rfl, rfl, rfl⟩

theorem fill_queue (env : Env) (f : Future) (k : Conn) (h : Option ControlPacket)
    (hh : ∀ p, h = some p → ∀ s, (@Encoder.writePacket _ (WStream.sink env.alloc) p s).1 ≠ .panic) :
    (fill env f k h).queue = k.queue ∧ (fill env f k h).rxOpen = k.rxOpen := by
  cases h with
  | none => exact ⟨rfl, rfl⟩
  | some p =>
    have hn := hh p rfl (k.wr.later f.answers)
    simp only [fill]
    rcases hr : @Encoder.writePacket _ (WStream.sink env.alloc) p (k.wr.later f.answers) with ⟨r, wr⟩
    rw [hr] at hn
    cases r with
    | panic => exact absurd rfl hn
    | _ => exact ⟨rfl, rfl⟩

/-- Fields of the read task, set before or after. -/
theorem fill_read (env : Env) (f : Future) (k : Conn) (h : Option ControlPacket) (rd : RStream) (ph : ReadPhase) (ob : Option ClientEvent) :
    fill env f { k with rd := rd, phase := ph, outbox := ob } h
      = { fill env f k h with rd := rd.later f.more f.fin, phase := ph, outbox := ob } := by
  cases h with
  | none => rfl
  | some p =>
    simp only [fill]
    rcases @Encoder.writePacket _ (WStream.sink env.alloc) p (k.wr.later f.answers) with ⟨r, wr⟩
    cases r <;> rfl

/-- What is put into the queue, before or after. -/
theorem fill_send (env : Env) (f : Future) (k : Conn) (h : Option ControlPacket) (q : List ServerEvent) (d : List ServerEvent)
    (hh : ∀ p, h = some p → ∀ s, (@Encoder.writePacket _ (WStream.sink env.alloc) p s).1 ≠ .panic) :
    fill env f { k with queue := q, delivered := d } h = { fill env f k h with queue := q, delivered := d } := by
  cases h with
  | none => rfl
  | some p =>
    have hn := hh p rfl (k.wr.later f.answers)
    simp only [fill]
    rcases hr : @Encoder.writePacket _ (WStream.sink env.alloc) p (k.wr.later f.answers) with ⟨r, wr⟩
    rw [hr] at hn
    cases r with
    | panic => exact absurd rfl hn
    | _ => rfl

/-- Never panics. -/
def Calm {σ α : Type} (m : M σ α) : Prop := ∀ s, (m s).1 ≠ .panic

theorem Calm.bind {σ α β : Type} {m : M σ α} {k : α → M σ β} (hm : Calm m) (hk : ∀ a, Calm (k a)) : Calm (m >>= k) := by
  intro s
  have h1 := hm s
  rw [M.bind_apply]
  rcases hr : m s with ⟨r, s'⟩
  rw [hr] at h1
  cases r with
  | ok a => exact hk a s'
  | panic => exact absurd rfl h1
  | err e => simp
  | hang => simp
  | pending => simp

theorem Calm.pure {σ α : Type} (a : α) : Calm (Pure.pure a : M σ α) := fun _ => by simp

theorem calm_writeBuf (al : Alloc) : Calm (WStream.writeBuf al) := by
  intro s
  unfold WStream.writeBuf
  split
  · simp
  · split <;> simp

theorem calm_tooSmall (al : Alloc) (n : Nat) : Calm (WStream.writeBufferIfTooSmall al n) := by
  intro s
  unfold WStream.writeBufferIfTooSmall
  split
  · exact calm_writeBuf al s
  · simp

theorem calm_putBytes (al : Alloc) (bs : List UInt8) : Calm (WStream.putBytes al bs : M WStream Unit) := by
  intro s
  induction h : bs.length using Nat.strongRecOn generalizing s bs with
  | _ m ih =>
    rw [WStream.putBytes]
    by_cases h0 : bs.length = 0
    · simp [h0]
    · simp only [h0, ↓reduceDIte]
      generalize hw : (if bs.length > s.buf.cap then s.buf.cap else bs.length) = w
      by_cases h1 : w = 0
      · simp [h1]
      · simp only [h1, ↓reduceDIte]
        have hr := calm_tooSmall al w s
        rcases hb : WStream.writeBufferIfTooSmall al w s with ⟨r, s'⟩
        rw [hb] at hr
        cases r with
        | ok k => exact ih (bs.drop w).length (by simp only [List.length_drop]; omega) _ _ rfl
        | panic => exact absurd rfl hr
        | err e => simp
        | hang => simp
        | pending => simp

/-- A packet whose writing waits can be written. -/
theorem writable (al : Alloc) (p : ControlPacket) (s : WStream) (h : (@Encoder.writePacket _ (WStream.sink al) p s).1 = .pending) (s' : WStream) :
    (@Encoder.writePacket _ (WStream.sink al) p s').1 ≠ .panic := by
  letI := WStream.sink al
  have u8 : ∀ b, Calm (ByteSink.putU8 b : M WStream Unit) := fun b => (calm_tooSmall al 1).bind fun _ _ => by simp [WStream.bufPut]
  have u16 : ∀ b, Calm (ByteSink.putU16 b : M WStream Unit) := fun b => (calm_tooSmall al 2).bind fun _ _ => by simp [WStream.bufPut]
  have len : ∀ n, Calm (Encoder.encodeRemainingLength n : M WStream Unit) := by
    intro n
    induction n using Nat.strongRecOn with
    | _ n ih =>
      rw [Encoder.encodeRemainingLength]
      refine (u8 _).bind fun _ => ?_
      split
      · exact Calm.pure _
      · exact ih _ (by omega)
  have codes : ∀ cs, Calm (Encoder.writeReturnCodes cs : M WStream Unit) := by
    intro cs
    induction cs with
    | nil => exact Calm.pure _
    | cons c cs ih => exact (u8 _).bind fun _ => ih
  have wid : ∀ b i, Calm (Encoder.writePacketWithPacketId b i : M WStream Unit) := fun b i => (u8 _).bind fun _ => (len _).bind fun _ => u16 _
  have fin : Calm (ByteSink.finishPacket : M WStream Unit) := calm_writeBuf al
  revert s'
  cases p with
  | connAck p => exact Calm.bind ((u8 _).bind fun _ => (len _).bind fun _ => (u8 _).bind fun _ => u8 _) fun _ => fin
  | publish p =>
    refine Calm.bind ((u8 _).bind fun _ => (len _).bind fun _ => Calm.bind ((u16 _).bind fun _ => calm_putBytes al _) fun _ => ?_) fun _ => fin
    cases p.packetId with
    | none => exact calm_putBytes al _
    | some i => exact (u16 i).bind fun _ => calm_putBytes al _
  | pubAck i => exact Calm.bind (wid _ _) fun _ => fin
  | pubRec i => exact Calm.bind (wid _ _) fun _ => fin
  | pubRel i => exact Calm.bind (wid _ _) fun _ => fin
  | pubComp i => exact Calm.bind (wid _ _) fun _ => fin
  | subAck p => exact Calm.bind ((u8 _).bind fun _ => (len _).bind fun _ => (u16 _).bind fun _ => codes _) fun _ => fin
  | unsubAck i => exact Calm.bind (wid _ _) fun _ => fin
  | pingResp => exact Calm.bind ((u8 _).bind fun _ => len _) fun _ => fin
  | connect p => cases h
  | subscribe p => cases h
  | unsubscribe p => cases h
  | pingReq => cases h
  | disconnect => cases h

theorem complete_setConn (env : Env) (F : ConnId → Future) (o : Open) (c : ConnId) (k : Conn) :
    complete env F (o.setConn c k) = (complete env F o).setConn c (fill env (F c) k (o.hand c)) := by
  unfold complete Open.setConn Sys.setConn
  simp only [Sys.mk.injEq, and_true]
  funext c'
  by_cases h : c' = c
  · subst h; simp
  · simp [h]

theorem complete_setHand (env : Env) (F : ConnId → Future) (o : Open) (c : ConnId) (p : Option ControlPacket) :
    complete env F (o.setHand c p) = (complete env F o).setConn c (fill env (F c) (o.sys.conns c) p) := by
  unfold complete Open.setHand Sys.setConn
  simp only [Sys.mk.injEq, and_true]
  funext c'
  by_cases h : c' = c
  · subst h; simp
  · simp [h]

theorem setConn_idem (s : Sys) (c : ConnId) : s.setConn c (s.conns c) = s := by
  unfold Sys.setConn
  cases s
  simp only [Sys.mk.injEq, and_true]
  funext c'
  by_cases h : c' = c <;> simp [h]

theorem setConn_twice (s : Sys) (c : ConnId) (k k' : Conn) : (s.setConn c k).setConn c k' = s.setConn c k' := by
  unfold Sys.setConn
  simp only [Sys.mk.injEq, and_true]
  funext c'
  by_cases h : c' = c <;> simp [h]

/-! ### Writing -/

/-- Writing, as a function of the connection. -/
theorem sys_write_packet (env : Env) (s : Sys) (c : ConnId) (p : ControlPacket) (rest : List ServerEvent)
    (ho : ((s.conns c).rxOpen && !(s.conns c).wrBlocked) = true) (hq : (s.conns c).queue = .controlPacket p :: rest) :
    Sys.stepWrite env s c = s.setConn c (endWrite { s.conns c with queue := rest } p
      (@Encoder.writePacket _ (WStream.sink env.alloc) p (s.conns c).wr)) := by
  unfold Sys.stepWrite
  simp only [ho, ↓reduceIte, hq]
  rcases @Encoder.writePacket _ (WStream.sink env.alloc) p (s.conns c).wr with ⟨r, wr⟩
  cases r <;> rfl

/-- A write that comes to an end is the same with what is still to come. -/
theorem endWrite_later (al : Alloc) (f : Future) (k : Conn) (p : ControlPacket)
    (hp : (@Encoder.writePacket _ (WStream.sink al) p k.wr).1 ≠ .pending) :
    endWrite (f.conn k) p (@Encoder.writePacket _ (WStream.sink al) p (k.wr.later f.answers))
      = f.conn (endWrite k p (@Encoder.writePacket _ (WStream.sink al) p k.wr)) := by
  rw [WStream.writePacket_later al p k.wr hp]
  rcases hr : @Encoder.writePacket _ (WStream.sink al) p k.wr with ⟨r, wr⟩
  rw [hr] at hp
  cases r with
  | pending => exact absurd rfl hp
  | _ => rfl

/-- Going on changes nothing once the future is there. -/
theorem complete_goOn (env : Env) (F : ConnId → Future) (o : Open) (c : ConnId) (p : ControlPacket) :
    complete env F (goOn env o c p) = complete env F (o.setHand c (some p)) := by
  unfold goOn
  rcases hr : @Encoder.writePacket _ (WStream.sink env.alloc) p (o.sys.conns c).wr with ⟨r, wr⟩
  have key : r ≠ .pending → complete env F ((o.setConn c (endWrite (o.sys.conns c) p (r, wr))).setHand c none)
      = complete env F (o.setHand c (some p)) := by
    intro hp
    have he := endWrite_later env.alloc (F c) (o.sys.conns c) p (by rw [hr]; exact hp)
    rw [hr] at he
    rw [complete_setHand, complete_setConn, complete_setHand, setConn_twice]
    congr 1
    simp only [fill, Open.setConn, Sys.setConn, ↓reduceIte]
    exact he.symm
  cases r with
  | pending => rfl
  | ok a => exact key (by simp)
  | err e => exact key (by simp)
  | panic => exact key (by simp)
  | hang => exact key (by simp)

/-! ### Reading -/

/-- A connection in `phase` reads. -/
theorem readTask_fill (env : Env) (f : Future) (c : ConnId) (k : Conn) (h : Option ControlPacket) (ho : k.outbox = none)
    (hw : k.phase ≠ .ended → k.phase ≠ .stuck → k.rd.Wf) (hp : waits env k = false) :
    Sys.readTask env c (fill env f k h) = fill env f (Sys.readTask env c k) h
    ∧ ((Sys.readTask env c k).phase ≠ .ended → (Sys.readTask env c k).phase ≠ .stuck → (Sys.readTask env c k).rd.Wf) := by
  obtain ⟨e1, e2, _, e4, e5, e6⟩ := fill_rest env f k h
  have hpend : (@Decoder.readPacket _ (RStream.source env.alloc) env.profile k.rd).1 ≠ .pending := by
    intro hr
    unfold waits at hp
    simp [ho, hr] at hp
  cases hph : k.phase with
  | ended => simp only [Sys.readTask, e1, hph]; exact ⟨trivial, fun h => absurd rfl h⟩
  | stuck => simp only [Sys.readTask, e1, hph]; exact ⟨trivial, fun _ h => absurd rfl h⟩
  | first =>
    have hwf := hw (by rw [hph]; simp) (by rw [hph]; simp)
    have hl := RStream.readPacket_later (more := f.more) (fin := f.fin) env k.rd hwf hpend
    have hk := RStream.readPacket_wf env k.rd hwf
    simp only [Sys.readTask, e1, hph, e6, hl]
    rcases hr : @Decoder.readPacket _ (RStream.source env.alloc) env.profile k.rd with ⟨r, rd⟩
    rw [hr] at hk hpend
    cases r with
    | ok p =>
      cases p with
      | connect p =>
        simp only
        refine ⟨?_, fun _ _ => hk _ rfl⟩
        refine Eq.trans ?_ (fill_read env f k h rd _ _).symm
        simp [Sys.effectiveClientId, e4, e5]
      | _ => simp only; exact ⟨by rw [fill_read env f k h rd .ended k.outbox, e2], fun h => absurd rfl h⟩
    | err e => simp only; exact ⟨by rw [fill_read env f k h rd .ended k.outbox, e2], fun h => absurd rfl h⟩
    | panic => simp only; exact ⟨by rw [fill_read env f k h rd .ended k.outbox, e2], fun h => absurd rfl h⟩
    | hang => simp only; exact ⟨by rw [fill_read env f k h rd .stuck k.outbox, e2], fun _ h => absurd rfl h⟩
    | pending => exact absurd rfl hpend
  | running id =>
    have hwf := hw (by rw [hph]; simp) (by rw [hph]; simp)
    have hl := RStream.readPacket_later (more := f.more) (fin := f.fin) env k.rd hwf hpend
    have hk := RStream.readPacket_wf env k.rd hwf
    simp only [Sys.readTask, e1, hph, e6, hl]
    rcases hr : @Decoder.readPacket _ (RStream.source env.alloc) env.profile k.rd with ⟨r, rd⟩
    rw [hr] at hk hpend
    cases r with
    | ok p => simp only; exact ⟨(fill_read env f k h rd _ _).symm, fun _ _ => hk _ rfl⟩
    | err e => simp only; exact ⟨by rw [fill_read env f k h rd .ended k.outbox, e2], fun h => absurd rfl h⟩
    | panic => simp only; exact ⟨by rw [fill_read env f k h rd .ended k.outbox, e2], fun h => absurd rfl h⟩
    | hang => simp only; exact ⟨by rw [fill_read env f k h rd .stuck k.outbox, e2], fun _ h => absurd rfl h⟩
    | pending => exact absurd rfl hpend

theorem complete_read (env : Env) (F : ConnId → Future) (o : Open) (hi : Fine env o) (c : ConnId) (hp : waits env (o.sys.conns c) = false) :
    complete env F { o with sys := Sys.stepRead env o.sys c } = Sys.stepRead env (complete env F o) c
    ∧ Fine env { o with sys := Sys.stepRead env o.sys c } := by
  have e2 := (fill_rest env (F c) (o.sys.conns c) (o.hand c)).2.1
  have hset : ∀ k, complete env F { o with sys := o.sys.setConn c k } = (complete env F o).setConn c (fill env (F c) k (o.hand c)) :=
    complete_setConn env F o c
  have hfine : ∀ k, ((k.phase ≠ .ended → k.phase ≠ .stuck → k.rd.Wf)) → Fine env { o with sys := o.sys.setConn c k } := by
    intro k hk
    refine ⟨fun c' => ?_, hi.hand⟩
    by_cases h : c' = c
    · subst h; simpa [Sys.setConn] using hk
    · simpa [Sys.setConn, h] using hi.wf c'
  have hc : (complete env F o).conns c = fill env (F c) (o.sys.conns c) (o.hand c) := rfl
  unfold Sys.stepRead
  simp only [hc, e2]
  cases ho : (o.sys.conns c).outbox with
  | some ev =>
    have hob := fill_read env (F c) (o.sys.conns c) (o.hand c) (o.sys.conns c).rd (o.sys.conns c).phase none
    have e6 := (fill_rest env (F c) (o.sys.conns c) (o.hand c)).2.2.2.2.2
    have e1 := (fill_rest env (F c) (o.sys.conns c) (o.hand c)).1
    have hob' : fill env (F c) { o.sys.conns c with outbox := none } (o.hand c)
        = { fill env (F c) (o.sys.conns c) (o.hand c) with outbox := none } := by
      refine hob.trans ?_
      rw [← e6, ← e1]
    have hal : (complete env F o).handlerAlive = o.sys.handlerAlive := rfl
    have hev : (complete env F o).events = o.sys.events := rfl
    simp only [hal, hev]
    by_cases ha : o.sys.handlerAlive = true
    · by_cases hl : o.sys.events.length < channelCapacity
      · simp only [ha, hl, ↓reduceIte]
        rw [← hob']
        refine ⟨?_, ?_⟩
        · have := complete_setConn env F { o with sys := { o.sys with events := o.sys.events ++ [ev] } } c
            { o.sys.conns c with outbox := none }
          exact this
        · have := hfine { o.sys.conns c with outbox := none } (hi.wf c)
          exact ⟨this.wf, this.hand⟩
      · simp only [ha, hl, ↓reduceIte]
        exact ⟨trivial, hi⟩
    · simp only [ha]
      rw [← hob']
      exact ⟨hset _, hfine _ (hi.wf c)⟩
  | none =>
    simp only
    obtain ⟨h1, h2⟩ := readTask_fill env (F c) c (o.sys.conns c) (o.hand c) ho (hi.wf c) hp
    rw [h1]
    exact ⟨hset _, hfine _ h2⟩

/-! ### The other steps of tasks -/

theorem complete_write (env : Env) (F : ConnId → Future) (o : Open) (hi : Fine env o) (c : ConnId) :
    ∃ d, (stepWrite env o c).did = o.did ++ d ∧ complete env F (stepWrite env o c) = Sys.run env (complete env F o) d
    ∧ Fine env (stepWrite env o c) := by
  have hc : (complete env F o).conns c = fill env (F c) (o.sys.conns c) (o.hand c) := rfl
  have hfine : ∀ o' : Open, Fine env o' → ∀ p, Fine env (goOn env o' c p) := by
    intro o' hi' p
    unfold goOn
    rcases hr : @Encoder.writePacket _ (WStream.sink env.alloc) p (o'.sys.conns c).wr with ⟨r, wr⟩
    have key : Fine env ((o'.setConn c (endWrite (o'.sys.conns c) p (r, wr))).setHand c none) := by
      refine ⟨fun c' => ?_, fun c' q hq => ?_⟩
      · by_cases h : c' = c
        · subst h
          have hw := hi'.wf c'
          simp only [setHand, Open.setConn, Sys.setConn, ↓reduceIte]
          cases r <;> exact hw
        · simpa [setHand, Open.setConn, Sys.setConn, h] using hi'.wf c'
      · by_cases h : c' = c
        · subst h; simp [setHand] at hq
        · exact hi'.hand c' q (by simpa [setHand, Open.setConn, h] using hq)
    cases r with
    | pending =>
      refine ⟨hi'.wf, fun c' q hq => ?_⟩
      by_cases h : c' = c
      · subst h
        simp only [setHand, ↓reduceIte, Option.some.injEq] at hq
        subst hq
        exact writable env.alloc p _ (by rw [hr])
      · exact hi'.hand c' q (by simpa [setHand, h] using hq)
    | _ => exact key
  have hdid : ∀ (o' : Open) p, (goOn env o' c p).did = o'.did := by
    intro o' p
    unfold goOn
    rcases @Encoder.writePacket _ (WStream.sink env.alloc) p (o'.sys.conns c).wr with ⟨r, wr⟩
    cases r <;> rfl
  unfold stepWrite
  cases hh : o.hand c with
  | some p =>
    refine ⟨[], by simp [hdid], ?_, hfine o hi p⟩
    rw [complete_goOn, complete_setHand]
    show _ = complete env F o
    have := setConn_idem (complete env F o) c
    rw [hc, hh] at this
    exact this
  | none =>
    have hq := fill_queue env (F c) (o.sys.conns c) (o.hand c) (hi.hand c)
    simp only
    by_cases ho : ((o.sys.conns c).rxOpen && !(o.sys.conns c).wrBlocked) = true
    · simp only [ho, ↓reduceIte]
      have hconn : (complete env F o).conns c = (F c).conn (o.sys.conns c) := by rw [hc, hh]; rfl
      have ho' : (((complete env F o).conns c).rxOpen && !((complete env F o).conns c).wrBlocked) = true := by rw [hconn]; exact ho
      have other : (∀ p rest, (o.sys.conns c).queue ≠ .controlPacket p :: rest) →
          complete env F { o with sys := Sys.stepWrite env o.sys c } = Sys.stepWrite env (complete env F o) c
          ∧ Fine env { o with sys := Sys.stepWrite env o.sys c } := by
        intro hne
        have hset : ∀ k, complete env F { o with sys := o.sys.setConn c k } = (complete env F o).setConn c (fill env (F c) k (o.hand c)) :=
          complete_setConn env F o c
        have hfn : ∀ k, k.phase = (o.sys.conns c).phase → k.rd = (o.sys.conns c).rd → Fine env { o with sys := o.sys.setConn c k } := by
          intro k hk hk'
          refine ⟨fun c' => ?_, hi.hand⟩
          by_cases h : c' = c
          · subst h; simpa [Sys.setConn, hk, hk'] using hi.wf c'
          · simpa [Sys.setConn, h] using hi.wf c'
        unfold Sys.stepWrite
        have ho'' : (((F c).conn (o.sys.conns c)).rxOpen && !((F c).conn (o.sys.conns c)).wrBlocked) = true := ho
        simp only [ho, ho'', ↓reduceIte, hconn]
        have hsend : ∀ s : Sys, (∀ d, (s.conns d).phase = (o.sys.conns d).phase ∧ (s.conns d).outbox = (o.sys.conns d).outbox) →
            s.handler = o.sys.handler → s.events = o.sys.events → s.messaging = o.sys.messaging → s.log = o.sys.log →
            s.hasSender c = o.sys.hasSender c := by
          intro s h1 h2 h3 h4 h5
          unfold Sys.hasSender Sys.handlerAlive
          rw [(h1 c).1, (h1 c).2, h2, h3, h4, h5]
        have hs := hsend (complete env F o) (fun d => ⟨(fill_rest env (F d) (o.sys.conns d) (o.hand d)).1,
          (fill_rest env (F d) (o.sys.conns d) (o.hand d)).2.1⟩) rfl rfl rfl rfl
        have hqq : ((F c).conn (o.sys.conns c)).queue = (o.sys.conns c).queue := rfl
        rw [hs, hqq]
        match hqe : (o.sys.conns c).queue with
        | .controlPacket p :: rest => exact absurd hqe (hne p rest)
        | .disconnect :: rest =>
          simp only
          refine ⟨?_, hfn _ rfl rfl⟩
          rw [hset, hh]; rfl
        | [] =>
          simp only
          split
          · exact ⟨rfl, hi⟩
          · refine ⟨?_, hfn _ rfl rfl⟩
            rw [hset, hh]; rfl
      match hqe : (o.sys.conns c).queue with
      | .controlPacket p :: rest =>
        simp only
        have hf : Fine env { o.setConn c { o.sys.conns c with queue := rest } with did := o.did ++ [.write c] } := by
          refine ⟨fun c' => ?_, hi.hand⟩
          by_cases h : c' = c
          · subst h; simpa [Open.setConn, Sys.setConn] using hi.wf c'
          · simpa [Open.setConn, Sys.setConn, h] using hi.wf c'
        refine ⟨[.write c], by rw [hdid], ?_, hfine _ hf p⟩
        · rw [complete_goOn]
          show _ = Sys.stepWrite env (complete env F o) c
          rw [sys_write_packet env _ c p rest ho' (by rw [hconn]; exact hqe), complete_setHand]
          have e1 := complete_setConn env F o c { o.sys.conns c with queue := rest }
          have e2 : ∀ d, complete env F { o.setConn c { o.sys.conns c with queue := rest } with did := d }
              = complete env F (o.setConn c { o.sys.conns c with queue := rest }) := fun _ => rfl
          rw [e2, e1, setConn_twice, hconn]
          congr 1
          simp [fill, Open.setConn, Sys.setConn, Future.conn]
      | .disconnect :: rest =>
        simp only
        obtain ⟨a, b⟩ := other (by rw [hqe]; simp)
        exact ⟨[.write c], rfl, a, b.wf, b.hand⟩
      | [] =>
        simp only
        obtain ⟨a, b⟩ := other (by rw [hqe]; simp)
        exact ⟨[.write c], rfl, a, b.wf, b.hand⟩
    · simp only [ho]
      exact ⟨[], by simp, rfl, hi⟩

theorem complete_handler (env : Env) (F : ConnId → Future) (o : Open) (hi : Fine env o) (now : Instant) :
    complete env F { o with sys := Sys.stepHandler env now o.sys } = Sys.stepHandler env now (complete env F o)
    ∧ Fine env { o with sys := Sys.stepHandler env now o.sys } := by
  have hh : (complete env F o).handler = o.sys.handler := rfl
  have he : (complete env F o).events = o.sys.events := rfl
  have hm : (complete env F o).messaging = o.sys.messaging := rfl
  have hl : (complete env F o).log = o.sys.log := rfl
  unfold Sys.stepHandler
  rw [hh]
  match o.sys.handler with
  | .idle =>
    simp only [he]
    match o.sys.events with
    | [] => exact ⟨rfl, hi⟩
    | ev :: rest =>
      simp only [hm]
      match Handler.handle env.auth now o.sys.messaging ev with
      | none => exact ⟨rfl, hi.wf, hi.hand⟩
      | some (m, []) => exact ⟨rfl, hi.wf, hi.hand⟩
      | some (m, x :: sends) => exact ⟨rfl, hi.wf, hi.hand⟩
  | .busy [] => exact ⟨rfl, hi.wf, hi.hand⟩
  | .busy ((d, ev) :: todo) =>
    have hd : (complete env F o).conns d = fill env (F d) (o.sys.conns d) (o.hand d) := rfl
    obtain ⟨hq, hx⟩ := fill_queue env (F d) (o.sys.conns d) (o.hand d) (hi.hand d)
    have hdel := (fill_rest env (F d) (o.sys.conns d) (o.hand d)).2.2.1
    simp only [hd, hq, hx, hdel]
    split
    · split
      · refine ⟨?_, ?_⟩
        · have e := complete_setConn env F { o with sys := { o.sys with handler := if todo = [] then .idle else .busy todo } } d
            { o.sys.conns d with queue := (o.sys.conns d).queue ++ [ev], delivered := (o.sys.conns d).delivered ++ [ev] }
          refine e.trans ?_
          rw [fill_send env (F d) (o.sys.conns d) (o.hand d) _ _ (hi.hand d)]
          congr 1
          rw [← hx]
        · refine ⟨fun c' => ?_, hi.hand⟩
          by_cases h : c' = d
          · subst h; simpa [Sys.setConn] using hi.wf c'
          · simpa [Sys.setConn, h] using hi.wf c'
      · exact ⟨rfl, hi⟩
    · exact ⟨rfl, hi.wf, hi.hand⟩
  | .crashed => exact ⟨rfl, hi⟩
  | .stopped => exact ⟨rfl, hi⟩

/-- Each step of a task is a step of the broker that has all its input, or none. -/
theorem complete_task (env : Env) (F : ConnId → Future) (o : Open) (hi : Fine env o) (st : Step) :
    ∃ d, (step env o (.task st)).did = o.did ++ d ∧ complete env F (step env o (.task st)) = Sys.run env (complete env F o) d
    ∧ Fine env (step env o (.task st)) := by
  cases st with
  | read c =>
    simp only [step, stepRead]
    by_cases hw : waits env (o.sys.conns c) = true
    · rw [if_pos hw]; exact ⟨[], by simp, rfl, hi⟩
    · rw [if_neg hw]
      obtain ⟨a, b⟩ := complete_read env F o hi c (by simpa using hw)
      exact ⟨[.read c], rfl, a, b.wf, b.hand⟩
  | write c => exact complete_write env F o hi c
  | handler now =>
    obtain ⟨a, b⟩ := complete_handler env F o hi now
    exact ⟨[.handler now], rfl, a, b.wf, b.hand⟩
  | ctrlC => exact ⟨[.ctrlC], rfl, rfl, hi.wf, hi.hand⟩
  | stop =>
    refine ⟨[.stop], rfl, ?_, ?_⟩
    · show complete env F { o with sys := Sys.step env o.sys .stop, did := _ } = Sys.step env (complete env F o) .stop
      have hh : (complete env F o).handler = o.sys.handler := rfl
      have hcc : (complete env F o).ctrlC = o.sys.ctrlC := rfl
      simp only [Sys.step, hh, hcc]
      cases o.sys.handler with
      | idle => simp only; split <;> rfl
      | _ => rfl
    · simp only [step, Sys.step]
      cases o.sys.handler with
      | idle => simp only; split <;> exact ⟨hi.wf, hi.hand⟩
      | _ => exact ⟨hi.wf, hi.hand⟩

/-! ### What clients do -/

/-- What was still to come on connection `c` before a step. -/
def Future.before (c : ConnId) (f : Future) : OStep → Future
  | .arrive c' seg => if c' = c then { f with more := seg :: f.more } else f
  | .hangUp c' fin => if c' = c ∧ fin ≠ .silence then { f with more := [], fin := fin } else f
  | .answer c' a => if c' = c then { f with answers := a :: f.answers } else f
  | .task _ => f

theorem before_peer (c : ConnId) (f : Future) (p : Sys.Peer) (st : OStep) : (f.before c st).peer p = f.peer (give c p st) := by
  cases st with
  | task st => rfl
  | arrive c' seg =>
    simp only [Future.before, give]
    by_cases h : c' = c
    · by_cases hf : p.fin = .silence <;> simp [h, hf, Future.peer]
    · simp [h]
  | hangUp c' fin =>
    simp only [Future.before, give]
    by_cases h : c' = c
    · by_cases hf : p.fin = .silence
      · by_cases hs : fin = .silence <;> simp [h, hf, hs, Future.peer]
      · by_cases hs : fin = .silence <;> simp [h, hf, hs, Future.peer]
    · simp [h]
  | answer c' a =>
    simp only [Future.before, give]
    by_cases h : c' = c <;> simp [h, Future.peer]

/-- The packet in hand, from the connection that has everything. -/
theorem fill_conn (env : Env) {f f' : Future} {k k' : Conn} (h : f.conn k = f'.conn k') (p : Option ControlPacket) : fill env f k p = fill env f' k' p := by
  have hw : k.wr.later f.answers = k'.wr.later f'.answers := congrArg Conn.wr h
  cases p with
  | none => exact h
  | some p => simp only [fill, h, hw]

theorem complete_input (env : Env) (F : ConnId → Future) (o : Open) (hi : Fine env o) (st : OStep) (h : ∀ t, st ≠ .task t) :
    complete env F (step env o st) = complete env (fun c => (F c).before c st) o ∧ (step env o st).did = o.did ∧ Fine env (step env o st) := by
  have hset : ∀ (c : ConnId) (k : Conn), (F c).conn k = ((F c).before c st).conn (o.sys.conns c) → (∀ d, d ≠ c → (F d).before d st = F d) →
      complete env F (o.setConn c k) = complete env (fun c => (F c).before c st) o := by
    intro c k h1 h2
    rw [complete_setConn]
    unfold complete Sys.setConn
    simp only [Sys.mk.injEq, and_true]
    funext d
    by_cases hd : d = c
    · subst hd
      simp only [↓reduceIte]
      exact fill_conn env h1 _
    · simp [hd, h2 d hd]
  have hfine : ∀ (c : ConnId) (k : Conn), k.phase = (o.sys.conns c).phase → k.rd.buf = (o.sys.conns c).rd.buf → Fine env (o.setConn c k) := by
    intro c k hk hk'
    refine ⟨fun c' => ?_, hi.hand⟩
    by_cases h : c' = c
    · subst h
      have := hi.wf c'
      unfold RStream.Wf at this ⊢
      simpa [Open.setConn, Sys.setConn, hk, hk'] using this
    · simpa [Open.setConn, Sys.setConn, h] using hi.wf c'
  cases st with
  | task t => exact absurd rfl (h t)
  | arrive c seg =>
    refine ⟨hset c _ ?_ fun d hd => ?_, rfl, hfine c _ rfl ?_⟩
    · unfold Future.conn
      simp only [Future.before, ↓reduceIte, Conn.mk.injEq, and_true, true_and]
      unfold RStream.later
      by_cases hs : (o.sys.conns c).rd.fin = .silence <;> simp [hs]
    · simp [Future.before, Ne.symm hd]
    · unfold RStream.later
      split <;> rfl
  | hangUp c fin =>
    refine ⟨hset c _ ?_ fun d hd => ?_, rfl, hfine c _ rfl ?_⟩
    · unfold Future.conn
      by_cases hf : fin = .silence
      · simp only [Future.before, hf, ne_eq, not_true_eq_false, and_false, ↓reduceIte, Conn.mk.injEq, and_true, true_and]
        unfold RStream.later
        by_cases hs : (o.sys.conns c).rd.fin = .silence <;> simp [hs]
      · simp only [Future.before, ne_eq, hf, not_false_eq_true, and_self, ↓reduceIte, Conn.mk.injEq, and_true, true_and]
        unfold RStream.later
        by_cases hs : (o.sys.conns c).rd.fin = .silence <;> simp [hs, hf]
    · simp [Future.before, Ne.symm hd]
    · unfold RStream.later
      split <;> rfl
  | answer c a =>
    refine ⟨hset c _ ?_ fun d hd => ?_, rfl, hfine c _ rfl rfl⟩
    · unfold Future.conn
      simp [Future.before, WStream.later]
    · simp [Future.before, Ne.symm hd]

/-! ### Whole executions -/

/-- The broker is where it would be with everything given at the start, whatever is still to come. -/
structure Agree (env : Env) (peers : ConnId → Sys.Peer) (o : Open) : Prop where
  fine : Fine env o
  same : ∀ F : ConnId → Future, Sys.run env (Sys.init fun c => (F c).peer (peers c)) o.did = complete env F o

theorem agree_step {env : Env} {peers : ConnId → Sys.Peer} {o : Open} (h : Agree env peers o) (st : OStep) :
    Agree env (fun c => give c (peers c) st) (step env o st) := by
  by_cases ht : ∃ t, st = .task t
  · obtain ⟨t, rfl⟩ := ht
    refine ⟨(complete_task env (fun _ => ⟨[], .silence, []⟩) o h.fine t).elim fun _ h => h.2.2, fun F => ?_⟩
    obtain ⟨d, h1, h2, _⟩ := complete_task env F o h.fine t
    rw [h1, h2, Sys.run_append, ← h.same F]
    rfl
  · have hn : ∀ t, st ≠ .task t := fun t h => ht ⟨t, h⟩
    refine ⟨(complete_input env (fun _ => ⟨[], .silence, []⟩) o h.fine st hn).2.2, fun F => ?_⟩
    obtain ⟨h1, h2, _⟩ := complete_input env F o h.fine st hn
    rw [h1, h2, ← h.same]
    simp only [before_peer]

theorem agree_init (env : Env) (peers : ConnId → Sys.Peer) : Agree env peers (init peers) := by
  refine ⟨⟨fun c _ _ => ?_, fun c p h => by cases h⟩, fun F => ?_⟩
  · simp [init, Sys.init, Sys.Peer.conn, RStream.new, RStream.Wf, BytesMut.withCapacity, BytesMut.len]
  · show Sys.init _ = complete env F (init peers)
    unfold complete Sys.init
    simp only [init, Sys.init, fill, Sys.mk.injEq, and_true]
    funext c
    unfold Future.conn Sys.Peer.conn Future.peer RStream.later RStream.new WStream.later WStream.new
    by_cases hs : (peers c).fin = .silence <;> simp [hs]

theorem agree_run {env : Env} {peers : ConnId → Sys.Peer} {o : Open} (h : Agree env peers o) (exec : List OStep) :
    Agree env (given peers exec) (run env o exec) := by
  induction exec generalizing peers o with
  | nil => exact h
  | cons st exec ih => exact ih (agree_step h st)

theorem agree (env : Env) (peers : ConnId → Sys.Peer) (exec : List OStep) : Agree env (given peers exec) (run env (init peers) exec) :=
  agree_run (agree_init env peers) exec

theorem run_append (env : Env) (o : Open) (a b : List OStep) : run env o (a ++ b) = run env (run env o a) b := List.foldl_append

theorem given_append (peers : ConnId → Sys.Peer) (a b : List OStep) : given peers (a ++ b) = given (given peers a) b := by
  funext c
  exact List.foldl_append

/-- What clients do later, as a future. -/
theorem given_future (peers : ConnId → Sys.Peer) (exec : List OStep) : ∃ F : ConnId → Future, ∀ c, given peers exec c = (F c).peer (peers c) := by
  have key : ∀ (c : ConnId) (l : List OStep) (p : Sys.Peer), ∃ f : Future, l.foldl (give c) p = f.peer p := by
    intro c l
    induction l with
    | nil =>
      intro p
      refine ⟨⟨[], .silence, []⟩, ?_⟩
      cases p with
      | mk a u s fin sc => by_cases hs : fin = .silence <;> simp [Future.peer, hs]
    | cons st l ih =>
      intro p
      obtain ⟨f, hf⟩ := ih (give c p st)
      exact ⟨f.before c st, by rw [before_peer]; exact hf⟩
  exact ⟨fun c => (key c exec (peers c)).choose, fun c => (key c exec (peers c)).choose_spec⟩

theorem did_grows (env : Env) (o : Open) (exec : List OStep) : o.did <+: (run env o exec).did := by
  induction exec generalizing o with
  | nil => exact List.prefix_rfl
  | cons st exec ih =>
    refine List.IsPrefix.trans ?_ (ih (step env o st))
    have hgo : ∀ (o' : Open) c p, (goOn env o' c p).did = o'.did := by
      intro o' c p
      unfold goOn
      rcases @Encoder.writePacket _ (WStream.sink env.alloc) p (o'.sys.conns c).wr with ⟨r, wr⟩
      cases r <;> rfl
    cases st with
    | task t =>
      cases t with
      | read c =>
        simp only [step, stepRead]
        split
        · exact List.prefix_rfl
        · exact List.prefix_append _ _
      | write c =>
        simp only [step, stepWrite]
        split
        · rw [hgo]; exact List.prefix_rfl
        · split
          · split
            · rw [hgo]; exact List.prefix_append _ _
            · exact List.prefix_append _ _
          · exact List.prefix_rfl
      | _ => exact List.prefix_append _ _
    | _ => exact List.prefix_rfl

/-! ### Nothing still to come -/

/-- Nothing. -/
def nothing : ConnId → Future := fun _ => ⟨[], .silence, []⟩

theorem nothing_peer (p : Sys.Peer) : Future.peer ⟨[], .silence, []⟩ p = p := by
  cases p with
  | mk a u s fin sc => by_cases hs : fin = .silence <;> simp [Future.peer, hs]

theorem nothing_conn (k : Conn) : Future.conn ⟨[], .silence, []⟩ k = k := by
  unfold Future.conn
  have h1 : k.rd.later [] .silence = k.rd := by
    unfold RStream.later
    split
    · rename_i h
      rcases hk : k.rd with ⟨b, s, f⟩
      rw [hk] at h
      simp only [List.append_nil, RStream.mk.injEq, true_and]
      exact h.symm
    · rfl
  have h2 : k.wr.later [] = k.wr := by simp [WStream.later]
  rw [h1, h2]

theorem complete_seen (env : Env) (o : Open) (c : ConnId) : ((complete env nothing o).conns c).wr.wire = o.seen env c := by
  show (fill env ⟨[], .silence, []⟩ (o.sys.conns c) (o.hand c)).wr.wire = _
  unfold seen
  cases o.hand c with
  | none => simp only [fill, nothing_conn]
  | some p =>
    simp only [fill, nothing_conn, WStream.later, List.append_nil]
    rcases @Encoder.writePacket _ (WStream.sink env.alloc) p (o.sys.conns c).wr with ⟨r, wr⟩
    cases r <;> rfl

theorem complete_same (env : Env) (F : ConnId → Future) (o : Open) (hi : Fine env o) : SameAs o.sys (complete env F o) where
  log := rfl
  events := rfl
  handler := rfl
  messaging := rfl
  ctrlC := rfl
  delivered c := (fill_rest env (F c) (o.sys.conns c) (o.hand c)).2.2.1.symm
  queue c := (fill_queue env (F c) (o.sys.conns c) (o.hand c) (hi.hand c)).1.symm
  rxOpen c := (fill_queue env (F c) (o.sys.conns c) (o.hand c) (hi.hand c)).2.symm
  phase c := (fill_rest env (F c) (o.sys.conns c) (o.hand c)).1.symm
  outbox c := (fill_rest env (F c) (o.sys.conns c) (o.hand c)).2.1.symm

/-- A packet in hand waits for the socket. -/
def Waiting (env : Env) (o : Open) : Prop :=
  ∀ c p, o.hand c = some p → (@Encoder.writePacket _ (WStream.sink env.alloc) p (o.sys.conns c).wr).1 = .pending

theorem readTask_waits (env : Env) (c : ConnId) (k : Conn) (h : waits env k = true) : Sys.readTask env c k = k := by
  unfold waits at h
  split at h
  · cases h
  · split at h
    · rename_i hr
      unfold Sys.readTask
      rcases hd : @Decoder.readPacket _ (RStream.source env.alloc) env.profile k.rd with ⟨r, rd⟩
      rw [hd] at hr
      cases hr
      cases k.phase <;> rfl
    · cases h

/-- With nothing still to come, every step is the same. -/
theorem complete_alone (env : Env) (o : Open) (hi : Fine env o) (hw : Waiting env o) (st : Step) :
    complete env nothing (step env o (.task st)) = Sys.step env (complete env nothing o) st ∧ Waiting env (step env o (.task st)) := by
  have hwr : ∀ o' : Open, o'.hand = o.hand → (∀ c, (o'.sys.conns c).wr = (o.sys.conns c).wr) → Waiting env o' := by
    intro o' h1 h2 c p h
    rw [h2]
    exact hw c p (by rw [← h1]; exact h)
  cases st with
  | read c =>
    simp only [step, stepRead]
    by_cases hwt : waits env (o.sys.conns c) = true
    · rw [if_pos hwt]
      refine ⟨?_, hw⟩
      show _ = Sys.stepRead env (complete env nothing o) c
      unfold Sys.stepRead
      have hc : (complete env nothing o).conns c = fill env ⟨[], .silence, []⟩ (o.sys.conns c) (o.hand c) := rfl
      obtain ⟨e1, e2, _, _, _, e6⟩ := fill_rest env ⟨[], .silence, []⟩ (o.sys.conns c) (o.hand c)
      have hrd : (o.sys.conns c).rd.later [] .silence = (o.sys.conns c).rd := congrArg Conn.rd (nothing_conn (o.sys.conns c))
      have hwt' : waits env (fill env ⟨[], .silence, []⟩ (o.sys.conns c) (o.hand c)) = true := by
        unfold waits at hwt ⊢
        rw [e2, e6]
        simp only [hrd]
        exact hwt
      have ho : (o.sys.conns c).outbox = none := by
        unfold waits at hwt
        split at hwt
        · cases hwt
        · assumption
      simp only [hc, e2, ho]
      rw [readTask_waits env c _ hwt', ← hc, setConn_idem]
    · rw [if_neg hwt]
      refine ⟨(complete_read env nothing o hi c (by simpa using hwt)).1, hwr _ rfl fun d => ?_⟩
      simp only [Sys.stepRead]
      have key : ∀ k : Conn, k.wr = (o.sys.conns c).wr → ((o.sys.setConn c k).conns d).wr = (o.sys.conns d).wr := by
        intro k hk
        by_cases hd : d = c
        · subst hd; simpa [Sys.setConn] using hk
        · simp [Sys.setConn, hd]
      split
      · split
        · split
          · exact key _ rfl
          · rfl
        · exact key _ rfl
      · refine key _ ?_
        unfold Sys.readTask
        split
        · split <;> rfl
        · split <;> rfl
        · rfl
        · rfl
  | write c =>
    have hgo : ∀ (o' : Open), (∀ d, d ≠ c → o'.hand d = o.hand d ∧ (o'.sys.conns d).wr = (o.sys.conns d).wr) → ∀ p, Waiting env (goOn env o' c p) := by
      intro o' h p
      unfold goOn
      rcases hr : @Encoder.writePacket _ (WStream.sink env.alloc) p (o'.sys.conns c).wr with ⟨r, wr⟩
      have key : Waiting env ((o'.setConn c (endWrite (o'.sys.conns c) p (r, wr))).setHand c none) := by
        intro d q hq
        by_cases hd : d = c
        · subst hd; simp [setHand] at hq
        · have h1 : o'.hand d = some q := by simpa [setHand, Open.setConn, hd] using hq
          have h2 : (((o'.setConn c (endWrite (o'.sys.conns c) p (r, wr))).setHand c none).sys.conns d).wr = (o.sys.conns d).wr := by
            simpa [setHand, Open.setConn, Sys.setConn, hd] using (h d hd).2
          rw [h2]
          exact hw d q (by rw [← (h d hd).1]; exact h1)
      cases r with
      | pending =>
        intro d q hq
        by_cases hd : d = c
        · subst hd
          simp only [setHand, ↓reduceIte, Option.some.injEq] at hq
          subst hq
          show (@Encoder.writePacket _ (WStream.sink env.alloc) p (o'.sys.conns d).wr).1 = _
          rw [hr]
        · have h1 : o'.hand d = some q := by simpa [setHand, hd] using hq
          show (@Encoder.writePacket _ (WStream.sink env.alloc) q (o'.sys.conns d).wr).1 = _
          rw [(h d hd).2]
          exact hw d q (by rw [← (h d hd).1]; exact h1)
      | _ => exact key
    obtain ⟨d, h1, h2, _⟩ := complete_write env nothing o hi c
    have hblocked : (((complete env nothing o).conns c).rxOpen && !((complete env nothing o).conns c).wrBlocked) = false →
        Sys.stepWrite env (complete env nothing o) c = complete env nothing o := by
      intro h
      unfold Sys.stepWrite
      simp only [h]
      rfl
    simp only [step]
    unfold stepWrite at h1 h2 ⊢
    cases hh : o.hand c with
    | some p =>
      simp only [hh] at h1 h2 ⊢
      refine ⟨?_, hgo o (fun _ _ => ⟨rfl, rfl⟩) p⟩
      have hd : d = [] := by
        have hdid : (goOn env o c p).did = o.did := by
          unfold goOn
          rcases @Encoder.writePacket _ (WStream.sink env.alloc) p (o.sys.conns c).wr with ⟨r, wr⟩
          cases r <;> rfl
        rw [hdid] at h1
        simpa using h1.symm
      rw [h2, hd]
      refine (hblocked ?_).symm
      have hc : (complete env nothing o).conns c = fill env ⟨[], .silence, []⟩ (o.sys.conns c) (some p) := by rw [← hh]; rfl
      have hp := hw c p hh
      rw [hc]
      simp only [fill, nothing_conn, WStream.later, List.append_nil]
      rcases hr : @Encoder.writePacket _ (WStream.sink env.alloc) p (o.sys.conns c).wr with ⟨r, wr⟩
      rw [hr] at hp
      simp only at hp
      subst hp
      simp [endWrite]
    | none =>
      simp only [hh] at h1 h2 ⊢
      by_cases ho : ((o.sys.conns c).rxOpen && !(o.sys.conns c).wrBlocked) = true
      · simp only [ho, ↓reduceIte] at h1 h2 ⊢
        have hsame : ∀ d q, o.hand d = some q → d ≠ c := fun d q h hd => by rw [hd, hh] at h; cases h
        match hq : (o.sys.conns c).queue with
        | .controlPacket p :: rest =>
          simp only [hq] at h1 h2 ⊢
          have hd : d = [.write c] := by
            have hdid : ∀ o' : Open, (goOn env o' c p).did = o'.did := by
              intro o'
              unfold goOn
              rcases @Encoder.writePacket _ (WStream.sink env.alloc) p (o'.sys.conns c).wr with ⟨r, wr⟩
              cases r <;> rfl
            rw [hdid] at h1
            simpa using h1.symm
          refine ⟨by rw [h2, hd]; rfl, ?_⟩
          apply hgo
          intro d hd
          refine ⟨rfl, ?_⟩
          simp [Open.setConn, Sys.setConn, hd]
        | .disconnect :: rest =>
          simp only [hq] at h1 h2 ⊢
          refine ⟨?_, ?_⟩
          · rw [h2, show d = [.write c] by simpa using h1.symm]; rfl
          · intro d q hdq
            have hne := hsame d q hdq
            have : ((Sys.stepWrite env o.sys c).conns d).wr = (o.sys.conns d).wr := by
              simp [Sys.stepWrite, ho, hq, Sys.setConn, hne]
            simp only [this]
            exact hw d q hdq
        | [] =>
          simp only [hq] at h1 h2 ⊢
          refine ⟨?_, ?_⟩
          · rw [h2, show d = [.write c] by simpa using h1.symm]; rfl
          · intro d q hdq
            have hne := hsame d q hdq
            have : ((Sys.stepWrite env o.sys c).conns d).wr = (o.sys.conns d).wr := by
              simp only [Sys.stepWrite, ho, hq, ↓reduceIte]
              split
              · rfl
              · simp [Sys.setConn, hne]
            simp only [this]
            exact hw d q hdq
      · simp only [ho] at h1 h2 ⊢
        refine ⟨(hblocked ?_).symm, hw⟩
        have hc : (complete env nothing o).conns c = o.sys.conns c := by
          show fill env ⟨[], .silence, []⟩ (o.sys.conns c) (o.hand c) = _
          rw [hh]
          exact nothing_conn _
        rw [hc]
        simpa using ho
  | handler now =>
    refine ⟨(complete_handler env nothing o hi now).1, hwr _ rfl fun d => ?_⟩
    show ((Sys.stepHandler env now o.sys).conns d).wr = _
    simp only [Sys.stepHandler]
    split
    · split
      · rfl
      · split <;> rfl
    · rfl
    · rename_i e _ _ _
      split
      · split
        · simp only [Sys.setConn]
          split
          · rename_i h; rw [h]
          · rfl
        · rfl
      · rfl
    · rfl
    · rfl
  | ctrlC => exact ⟨rfl, hwr _ rfl fun _ => rfl⟩
  | stop =>
    obtain ⟨d, h1, h2, _⟩ := complete_task env nothing o hi .stop
    have hd : d = [.stop] := by
      have : (step env o (.task .stop)).did = o.did ++ [.stop] := rfl
      rw [this] at h1
      simpa using h1.symm
    refine ⟨by rw [h2, hd]; rfl, hwr _ rfl fun d => ?_⟩
    show ((Sys.step env o.sys .stop).conns d).wr = _
    simp only [Sys.step]
    split
    · split <;> rfl
    · rfl

theorem run_alone (env : Env) {o : Open} (hi : Fine env o) (hw : Waiting env o) (sched : List Step) :
    complete env nothing (run env o (sched.map .task)) = Sys.run env (complete env nothing o) sched
    ∧ Fine env (run env o (sched.map .task)) := by
  induction sched generalizing o with
  | nil => exact ⟨rfl, hi⟩
  | cons st sched ih =>
    obtain ⟨h1, h2⟩ := complete_alone env o hi hw st
    obtain ⟨_, _, _, h3⟩ := complete_task env nothing o hi st
    obtain ⟨h4, h5⟩ := ih h3 h2
    refine ⟨?_, h5⟩
    rw [Sys.run_cons, ← h1]
    exact h4

end Ratel.Open
