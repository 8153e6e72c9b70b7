/-
The ends of connections: when input ends, when the write task ends.
-/
import Verif.Spec.Close
import Verif.Proofs.SysFair
import Verif.Proofs.View
import Verif.Proofs.Sessions

namespace Ratel

open Decoder Encoder Spec

/-! ### Input that ends is never waited for -/

/-- If the input ends some time, `m` does not wait for ever. -/
def NoWait {α : Type} (m : M Plain α) : Prop := ∀ p, p.fin ≠ .silence → (m p).1 ≠ .pending ∧ (m p).2.fin = p.fin

namespace NoWait

variable {α β : Type}

theorem bind {m : M Plain α} {f : α → M Plain β} (hm : NoWait m) (hf : ∀ a, NoWait (f a)) : NoWait (m >>= f) := by
  intro p hp
  obtain ⟨h1, h2⟩ := hm p hp
  rw [M.bind_apply]
  rcases hms : m p with ⟨r, p₁⟩
  rw [hms] at h1 h2
  dsimp only at h1 h2
  cases r with
  | ok a =>
    obtain ⟨h3, h4⟩ := hf a p₁ (by rw [h2]; exact hp)
    exact ⟨h3, h4.trans h2⟩
  | pending => exact absurd rfl h1
  | _ => exact ⟨by simp, h2⟩

theorem pure (a : α) : NoWait (Pure.pure a) := fun p _ => ⟨by simp, by simp⟩
theorem panic : NoWait (M.panic : M Plain α) := fun p _ => ⟨by simp [M.panic], rfl⟩
theorem fail (e : ErrKind) : NoWait (M.fail e : M Plain α) := fun p _ => ⟨by simp [M.fail], rfl⟩
theorem hang : NoWait (fun p => (.hang, p) : M Plain α) := fun p _ => ⟨by simp, rfl⟩

theorem short {p : Plain} (hp : p.fin ≠ .silence) : (Plain.short p : Res α × Plain).1 ≠ .pending ∧ (Plain.short p : Res α × Plain).2.fin = p.fin := by
  unfold Plain.short
  cases hf : p.fin with
  | silence => exact absurd hf hp
  | _ => simp [hf]

theorem getU8 : NoWait (ByteSource.getU8 : M Plain UInt8) := by
  rintro ⟨bytes, fin⟩ hp
  cases bytes with
  | nil => exact short hp
  | cons b r => simp [ByteSource.getU8]

theorem getU16 : NoWait (ByteSource.getU16 : M Plain UInt16) := by
  rintro ⟨bytes, fin⟩ hp
  match bytes with
  | [] => exact short hp
  | [_] => exact short hp
  | hi :: lo :: r => simp [ByteSource.getU16]

theorem getBytes (n : Nat) : NoWait (ByteSource.getBytes n : M Plain (List UInt8)) := by
  rintro ⟨bytes, fin⟩ hp
  simp only [ByteSource.getBytes]
  split
  · simp
  · split
    · simp
    · exact short hp

theorem getString : NoWait (Decoder.getString : M Plain String) := by
  refine getU16.bind fun _ => (getBytes _).bind fun bs => ?_
  cases fromUtf8 bs with
  | none => exact fail _
  | some t => exact pure t

theorem getStringIf (b : Bool) : NoWait (Decoder.getStringIf b : M Plain _) := by
  unfold Decoder.getStringIf
  split
  · exact getString.bind fun _ => pure _
  · exact pure _

theorem subU64 (pr : Profile) (a b : Nat) : NoWait (Decoder.subU64 pr a b : M Plain Nat) := by
  intro p _
  unfold Decoder.subU64
  split
  · simp
  · split <;> simp

theorem lengthLoop (rl mult : Nat) (hm : 0 < mult) : NoWait (decodeRemainingLengthLoop rl mult hm : M Plain Nat) := by
  rw [decodeRemainingLengthLoop]
  refine getU8.bind fun b => ?_
  dsimp only
  split
  · exact fail _
  · split
    · exact pure _
    · exact lengthLoop _ _ _
termination_by 128 * 128 * 128 + 1 - mult
decreasing_by omega

theorem withPacketId (fb e : UInt8) : NoWait (decodePacketWithPacketId fb e : M Plain UInt16) := by
  refine NoWait.bind ?_ fun _ => getU16
  unfold validateFirstByte
  split
  · exact pure _
  · exact fail _

theorem subscribeLoop (pr : Profile) (fuel rl : Nat) (acc : List Subscription) : NoWait (Decoder.subscribeLoop pr fuel rl acc : M Plain _) := by
  induction fuel generalizing rl acc with
  | zero => exact hang
  | succ fuel ih =>
    rw [Decoder.subscribeLoop]
    split
    · refine getString.bind fun t => getU8.bind fun q => ?_
      split
      · exact fail _
      · refine (subU64 _ _ _).bind fun _ => ?_
        cases QoS.fromBits q with
        | none => exact panic
        | some q => exact ih _ _
    · exact pure _

theorem unsubscribeLoop (pr : Profile) (fuel rl : Nat) (acc : List String) : NoWait (Decoder.unsubscribeLoop pr fuel rl acc : M Plain _) := by
  induction fuel generalizing rl acc with
  | zero => exact hang
  | succ fuel ih =>
    rw [Decoder.unsubscribeLoop]
    split
    · exact getString.bind fun t => (subU64 _ _ _).bind fun _ => ih _ _
    · exact pure _

theorem readPacket (pr : Profile) : NoWait (Decoder.readPacket pr : M Plain ControlPacket) := by
  refine getU8.bind fun fb => (lengthLoop _ _ _).bind fun n => ?_
  unfold decodeBody
  dsimp only
  repeat' split
  · exact getString.bind fun _ => getU8.bind fun _ => getU8.bind fun _ => getU16.bind fun _ => getString.bind fun _ =>
      (getStringIf _).bind fun _ => (getStringIf _).bind fun _ => pure _
  · unfold decodePublish
    dsimp only
    split
    · exact panic
    · refine getString.bind fun _ => (subU64 _ _ _).bind fun _ => (subU64 _ _ _).bind fun _ => NoWait.bind ?_ fun _ => (getBytes _).bind fun _ => pure _
      unfold publishPacketId
      split
      · exact (subU64 _ _ _).bind fun _ => getU16.bind fun _ => pure _
      · exact pure _
  · exact (withPacketId _ _).bind fun _ => pure _
  · exact (withPacketId _ _).bind fun _ => pure _
  · exact (withPacketId _ _).bind fun _ => pure _
  · exact (withPacketId _ _).bind fun _ => pure _
  · refine (withPacketId _ _).bind fun _ => (subU64 _ _ _).bind fun _ => ?_
    split
    · exact fail _
    · exact NoWait.bind (fun p hp => subscribeLoop pr _ _ _ p hp) fun _ => pure _
  · refine (withPacketId _ _).bind fun _ => (subU64 _ _ _).bind fun _ => ?_
    split
    · exact fail _
    · exact NoWait.bind (fun p hp => unsubscribeLoop pr _ _ _ p hp) fun _ => pure _
  · exact pure _
  · exact pure _
  · exact panic

theorem readMany (pr : Profile) (n : Nat) : NoWait (Ratel.readMany pr n : M Plain (List ControlPacket)) := by
  induction n with
  | zero => exact pure _
  | succ n ih => exact (readPacket pr).bind fun _ => ih.bind fun _ => pure _

end NoWait

/-! ### Each session has its own place -/

namespace Sys

theorem keys_step (env : Env) (s : Sys) (st : Step) (h : SessionsOk s.messaging.sessions) :
    SessionsOk (step env s st).messaging.sessions := by
  cases st with
  | read c => simp only [step, (stepRead_rest env s c).2.1]; exact h
  | write c => simp only [step, (stepWrite_rest env s c).2.2.1]; exact h
  | ctrlC => exact h
  | stop =>
    unfold step
    cases s.handler with
    | idle => simp only; split <;> exact h
    | _ => exact h
  | handler now =>
    simp only [step]
    unfold stepHandler
    cases s.handler with
    | idle =>
      simp only
      cases s.events with
      | nil => exact h
      | cons ev rest =>
        simp only
        cases hm : Handler.handle env.auth now s.messaging ev with
        | none => exact h
        | some r =>
          obtain ⟨m, sends⟩ := r
          have := handle_sessionsOk env.auth now h ev hm
          cases sends <;> exact this
    | busy todo =>
      cases todo with
      | nil => exact h
      | cons x todo =>
        obtain ⟨d, e⟩ := x
        simp only
        split
        · split <;> exact h
        · exact h
    | _ => exact h

theorem keys_run (env : Env) (peers : ConnId → Peer) (sched : List Step) :
    SessionsOk (run env (init peers) sched).messaging.sessions :=
  run_induction (P := fun s => SessionsOk s.messaging.sessions) (fun s st h => keys_step env s st h) sessionsOk_default sched

/-! ### When a connection is closed -/

/-- At rest, a connection whose socket takes bytes is closed if it was told to, or if its input is over and no session is left on it. -/
theorem closed_rest (env : Env) {peers : ConnId → Peer} {s : Sys} (h : Inv env peers s) (hu : SessionsOk s.messaging.sessions) {d : ConnId}
    (hr : step env s (.read d) = s) (hw : step env s (.write d) = s) (hb : (s.conns d).wrBlocked = false)
    (hh : ∀ todo, s.handler ≠ .busy todo) (he : s.handler = .idle → s.events = [])
    (hc : .disconnect ∈ (s.conns d).delivered
      ∨ (s.conns d).phase = .ended ∧ (s.handler = .idle → ∀ x, (s.messaging.sessions.get x).map Session.sender ≠ some d)) :
    HungUp s d ∧ (s.conns d).outbox = none := by
  have hout : (s.conns d).outbox = none := by
    cases ho : (s.conns d).outbox with
    | none => rfl
    | some ev =>
      have h2 : ((step env s (.read d)).conns d).outbox = none := by
        simp only [step, stepRead, ho]
        cases ha : s.handlerAlive with
        | false => simp
        | true =>
          have hi : s.handler = .idle := by
            unfold handlerAlive at ha
            cases hs : s.handler with
            | idle => rfl
            | busy t => exact absurd hs (hh t)
            | _ => rw [hs] at ha; cases ha
          rw [if_pos rfl, if_pos (by rw [he hi]; simp [channelCapacity])]
          simp
      rw [hr, ho] at h2
      cases h2
  refine ⟨?_, hout⟩
  unfold HungUp
  cases hx : (s.conns d).rxOpen with
  | false => rfl
  | true =>
    exfalso
    have hq : (s.conns d).queue = [] := Classical.byContradiction fun hne => by
      have := write_takes env hx hb hne
      rw [hw] at this
      omega
    rcases hc with hc | ⟨h1, h2⟩
    · rw [(h.writes d).all hx, hq, List.append_nil] at hc
      obtain ⟨_, _, hc⟩ := List.mem_map.mp hc
      cases hc
    · have hs : s.hasSender d = false := by
        unfold hasSender
        rw [h1, hout]
        simp only [Bool.false_or, Bool.and_eq_false_imp]
        intro ha
        have hi : s.handler = .idle := by
          unfold handlerAlive at ha
          cases hs : s.handler with
          | idle => rfl
          | busy t => exact absurd hs (hh t)
          | _ => rw [hs] at ha; cases ha
        rw [he hi]
        simp only [List.any_nil, Bool.or_self, Bool.false_or]
        rw [List.any_eq_false]
        rintro ⟨x, session⟩ hm hse
        refine h2 hi x ?_
        rw [SessionRepository.get, (AssocMap.mem_iff hu.nodup x session).mp hm]
        simpa using hse
      have h3 : ((step env s (.write d)).conns d).rxOpen = false := by
        simp [step, stepWrite, hx, hb, hq, hs]
      rw [hw, hx] at h3
      cases h3

/-- The sessions are those of the events handled. -/
theorem session_reached {env : Env} {peers : ConnId → Peer} {s : Sys} (h : Inv env peers s) (ha : s.handlerAlive = true) (x : ClientId) (d : ConnId) :
    (s.messaging.sessions.get x).map Session.sender = some d ↔ ReachedOn env.auth s.served x d := by
  have key : ∃ b, Broker.start.after env.auth s.served = some b ∧ Rep s.messaging b := by
    cases h.serves with
    | rest b _ h1 h2 _ => exact ⟨b, h1, h2⟩
    | sending todo pre ev b b' out hh he hp hs hr ho hout =>
      refine ⟨b', ?_, hr⟩
      rw [he, after_append, hp]
      simp [Broker.after, hs]
    | failed _ _ _ hh => rw [handlerAlive, hh] at ha; cases ha
    | broken _ _ _ _ _ _ hh => rw [handlerAlive, hh] at ha; cases ha
  obtain ⟨b, h1, h2⟩ := key
  rw [h2.session]
  exact after_session h1 x d

end Sys

end Ratel
