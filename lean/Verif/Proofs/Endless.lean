/-
What happens for ever: executions that go on, with every task and every socket getting its turn again and again.
-/
import Verif.Proofs.Live
import Verif.Proofs.SysCrash

namespace Ratel.Live

open Spec

/-- The state after `n` steps. -/
def nth (env : Env) (peers : ConnId → Sys.Peer) (σ : Nat → OStep) (n : Nat) : Live := run env (init peers) (firstOf σ n)

/-- What the clients have done in `n` steps. -/
def brought (peers : ConnId → Sys.Peer) (σ : Nat → OStep) (n : Nat) : ConnId → Sys.Peer := given peers (firstOf σ n)

variable {env : Env} {peers : ConnId → Sys.Peer} {σ : Nat → OStep}

local notation "ℓ" => nth env peers σ
local notation "ι" => brought peers σ

theorem firstOf_succ (σ : Nat → OStep) (n : Nat) : firstOf σ (n + 1) = firstOf σ n ++ [σ n] := by
  simp [firstOf, List.range_succ]

theorem firstOf_add (σ : Nat → OStep) (n k : Nat) : firstOf σ (n + k) = firstOf σ n ++ firstOf (fun i => σ (n + i)) k := by
  simp [firstOf, List.range_add]

theorem nth_succ (n : Nat) : ℓ (n + 1) = step env (ℓ n) (σ n) := by
  unfold nth; rw [firstOf_succ, run_snoc]

theorem good (n : Nat) : Fifo.Good (ℓ n).fifo := good_run env (good_init peers) _

theorem does (n : Nat) : Fifo.Does env (ℓ n).fifo (ℓ (n + 1)).fifo := by rw [nth_succ]; exact does_step (good n) (σ n)

theorem agree (n : Nat) : Open.Agree env (ι n) (ℓ n).opn := by
  obtain ⟨exec', _, h2, h3⟩ := open_run env (init peers) (firstOf σ n)
  unfold nth brought
  rw [h2, ← h3]
  exact Open.agree env peers exec'

/-- The state with everything given at the start. -/
noncomputable def closed (env : Env) (peers : ConnId → Sys.Peer) (σ : Nat → OStep) (n : Nat) : Sys := Open.complete env Open.nothing (nth env peers σ n).opn

local notation "κ" => closed env peers σ

theorem closed_run (n : Nat) : κ n = Sys.run env (Sys.init (ι n)) (ℓ n).opn.did := by
  have h := (agree (env := env) (peers := peers) (σ := σ) n).same Open.nothing
  simp only [Open.nothing, Open.nothing_peer] at h
  exact h.symm

theorem inv (n : Nat) : Sys.Inv env (ι n) (κ n) := by rw [closed_run]; exact Sys.inv_run env _ _

theorem same (n : Nat) : SameAs (ℓ n).opn.sys (κ n) := Open.complete_same env _ _ (agree n).fine

/-- What is in the middle of being written counts as written when everything is there. -/
theorem fill_written (env : Env) (f : Open.Future) (k : Conn) (h : Option ControlPacket) : (Open.fill env f k h).written = k.written ++ h.toList := by
  cases h with
  | none => simp [Open.fill, Open.Future.conn]
  | some p =>
    simp only [Open.fill]
    rcases @Encoder.writePacket _ (WStream.sink env.alloc) p (k.wr.later f.answers) with ⟨r, wr⟩
    cases r <;> rfl

theorem later {n m : Nat} (h : n ≤ m) : ∃ F, Sys.Later (Open.complete env F (ℓ n).opn) (κ m) := by
  obtain ⟨k, rfl⟩ := Nat.exists_eq_add_of_le h
  obtain ⟨F, hF⟩ := Open.given_future (ι n) (firstOf (fun i => σ (n + i)) k)
  have hg : ι (n + k) = fun c => (F c).peer (ι n c) := by
    unfold brought
    rw [firstOf_add, Open.given_append]
    funext c
    exact hF c
  obtain ⟨exec', _, h2, _⟩ := open_run env (ℓ n) (firstOf (fun i => σ (n + i)) k)
  have hn : ℓ (n + k) = run env (ℓ n) (firstOf (fun i => σ (n + i)) k) := by unfold nth; rw [firstOf_add, run_append]
  have hd : (ℓ n).opn.did <+: (ℓ (n + k)).opn.did := by rw [hn, h2]; exact Open.did_grows env _ _
  obtain ⟨t, ht⟩ := hd
  refine ⟨F, ?_⟩
  rw [closed_run, ← ht, Sys.run_append, ← (agree n).same F, hg]
  exact Sys.later_run env _ t

theorem served_mono {n m : Nat} (h : n ≤ m) : (ℓ n).opn.sys.log.map Prod.fst <+: (ℓ m).opn.sys.log.map Prod.fst := by
  obtain ⟨F, hF⟩ := later (env := env) (peers := peers) (σ := σ) h
  exact hF.served

theorem put_mono {n m : Nat} (h : n ≤ m) : Fifo.put (ℓ n).opn.sys <+: Fifo.put (ℓ m).opn.sys := by
  obtain ⟨F, hF⟩ := later (env := env) (peers := peers) (σ := σ) h
  exact hF.events

theorem delivered_mono {n m : Nat} (h : n ≤ m) (d : ConnId) : ((ℓ n).opn.sys.conns d).delivered <+: ((ℓ m).opn.sys.conns d).delivered := by
  obtain ⟨F, hF⟩ := later (env := env) (peers := peers) (σ := σ) h
  have := hF.delivered d
  rw [← (same m).delivered, ← (Open.complete_same env F _ (agree n).fine).delivered] at this
  exact this

theorem rxOpen_mono {n m : Nat} (h : n ≤ m) (d : ConnId) (ho : ((ℓ m).opn.sys.conns d).rxOpen = true) : ((ℓ n).opn.sys.conns d).rxOpen = true := by
  obtain ⟨F, hF⟩ := later (env := env) (peers := peers) (σ := σ) h
  have := hF.open_ d
  rw [← (same m).rxOpen, ← (Open.complete_same env F _ (agree n).fine).rxOpen] at this
  exact this ho

/-- Packets written, with the one in hand. -/
def begun (l : Live) (d : ConnId) : List ControlPacket := (l.opn.sys.conns d).written ++ (l.opn.hand d).toList

theorem begun_mono {n m : Nat} (h : n ≤ m) (d : ConnId) : begun (ℓ n) d <+: begun (ℓ m) d := by
  obtain ⟨F, hF⟩ := later (env := env) (peers := peers) (σ := σ) h
  have := hF.written d
  have e1 : ((Open.complete env F (ℓ n).opn).conns d).written = begun (ℓ n) d := fill_written env (F d) _ _
  have e2 : ((κ m).conns d).written = begun (ℓ m) d := fill_written env _ _ _
  rw [e1, e2] at this
  exact this

theorem did_from (n : Nat) {t : Step} (h : t ∈ (ℓ n).opn.did) : ∃ k, k < n ∧ σ k = .task t := by
  induction n with
  | zero => cases h
  | succ n ih =>
    rw [nth_succ] at h
    have key : t ∈ (ℓ n).opn.did → ∃ k, k < n + 1 ∧ σ k = .task t := fun h => by
      obtain ⟨k, hk, e⟩ := ih h
      exact ⟨k, by omega, e⟩
    rcases open_step env (ℓ n) (σ n) with e | ⟨e, _⟩
    · rw [e] at h
      rcases did_step env (ℓ n).opn (σ n) with e' | ⟨t', e1, e2⟩
      · rw [e'] at h; exact key h
      · rw [e2] at h
        rcases List.mem_append.mp h with h | h
        · exact key h
        · simp only [List.mem_cons, List.not_mem_nil, or_false] at h
          subst h
          exact ⟨n, by omega, e1⟩
    · rw [e] at h; exact key h

theorem few {N : Nat} (he : Endless N σ) (n : Nat) : ReadsBelow N (ℓ n).opn.did := by
  intro st hst c hc
  subst hc
  obtain ⟨k, _, hk⟩ := did_from n hst
  exact he.few k c hk

theorem not_stopped {N : Nat} (he : Endless N σ) (n : Nat) : (ℓ n).opn.sys.handler ≠ .stopped := by
  rw [(same n).handler, closed_run]
  refine Sys.stopped_ctrlC env (by simp [Sys.init]) rfl fun h => ?_
  obtain ⟨k, _, hk⟩ := did_from n h
  exact he.noStop k hk

theorem no_ctrlC {N : Nat} (he : Endless N σ) (n : Nat) : (ℓ n).opn.sys.ctrlC = false := by
  have key : ∀ (sched : List Step) (s : Sys), s.ctrlC = false → .ctrlC ∉ sched → (Sys.run env s sched).ctrlC = false := by
    intro sched
    induction sched with
    | nil => exact fun s h _ => h
    | cons st sched ih =>
      intro s h hn
      refine ih _ ?_ fun hm => hn (List.mem_cons_of_mem _ hm)
      cases st with
      | read c => rw [← h]; exact (Sys.stepRead_rest env s c).2.2.2
      | write c => rw [← h]; exact (Sys.stepWrite_rest env s c).2.2.2.2
      | handler now =>
        simp only [Sys.step]
        unfold Sys.stepHandler
        simp only
        repeat' split
        all_goals exact h
      | ctrlC => exact absurd List.mem_cons_self hn
      | stop =>
        simp only [Sys.step]
        repeat' split
        all_goals first | exact h | rfl
  rw [(same n).ctrlC, closed_run]
  refine key _ _ rfl fun h => ?_
  obtain ⟨k, _, hk⟩ := did_from n h
  exact he.noStop k hk

/-- The broker crashes only on events known to be fatal. -/
theorem fatal (n : Nat) (h : (ℓ n).opn.sys.handler = .crashed) : Fatal env.auth ((ℓ n).opn.sys.log.map Prod.fst) := by
  rw [(same n).handler, closed_run] at h
  have := Sys.crashed_run env _ _ h
  rw [← closed_run] at this
  rw [(same n).log]
  exact this

theorem not_busy_nil (n : Nat) : (ℓ n).opn.sys.handler ≠ .busy [] := by
  rw [(same n).handler, closed_run]; exact Sys.busy_kept env _ _

/-- Until its turn comes. -/
theorem until_turn {P : Nat → Prop} {T : OStep → Prop} (hT : ∀ n, ∃ m, n ≤ m ∧ T (σ m)) (hP : ∀ m, P m → ¬ T (σ m) → P (m + 1)) (n : Nat) (h : P n) :
    ∃ m, n ≤ m ∧ P m ∧ T (σ m) := by
  obtain ⟨m, hm, ht⟩ := hT n
  obtain ⟨k, rfl⟩ := Nat.exists_eq_add_of_le hm
  clear hm
  induction k generalizing n with
  | zero => exact ⟨n, Nat.le_refl _, h, ht⟩
  | succ k ih =>
    by_cases h' : T (σ n)
    · exact ⟨n, Nat.le_refl _, h, h'⟩
    · obtain ⟨m, h1, h2, h3⟩ := ih (n + 1) (hP n h h') (by rw [show n + 1 + k = n + (k + 1) by omega]; exact ht)
      exact ⟨m, by omega, h2, h3⟩

/-! ### Writing -/

theorem goOn_other (env : Env) (o : Open) (c : ConnId) (p : ControlPacket) {d : ConnId} (h : d ≠ c) :
    (Open.goOn env o c p).hand d = o.hand d ∧ (Open.goOn env o c p).sys.conns d = o.sys.conns d := by
  unfold Open.goOn
  rcases @Encoder.writePacket _ (WStream.sink env.alloc) p (o.sys.conns c).wr with ⟨r, wr⟩
  cases r <;> simp [Open.setHand, Open.setConn, Sys.setConn, h]

theorem write_other (env : Env) (o : Open) (c : ConnId) {d : ConnId} (h : d ≠ c) :
    (Open.stepWrite env o c).hand d = o.hand d ∧ (Open.stepWrite env o c).sys.conns d = o.sys.conns d := by
  unfold Open.stepWrite
  split
  · exact goOn_other env o c _ h
  · simp only
    split
    · split
      · obtain ⟨h1, h2⟩ := goOn_other env { o.setConn c { o.sys.conns c with queue := _ } with did := o.did ++ [.write c] } c _ h
        refine ⟨h1, h2.trans ?_⟩
        simp [Open.setConn, Sys.setConn, h]
      · exact ⟨rfl, Sys.stepWrite_other env o.sys h⟩
    · exact ⟨rfl, rfl⟩

theorem open_read_wr (env : Env) (o : Open) (c d : ConnId) : ((Open.stepRead env o c).sys.conns d).wr = (o.sys.conns d).wr := by
  unfold Open.stepRead
  split
  · rfl
  · exact (Sys.stepRead_conn env o.sys c d).2.2.1

theorem open_hand {env : Env} {o : Open} {st : OStep} {d : ConnId} (h : st ≠ .task (.write d)) :
    (Open.step env o st).hand d = o.hand d ∧ (o.sys.conns d).wr.script.length ≤ ((Open.step env o st).sys.conns d).wr.script.length
    ∧ ∀ a, st = .answer d a → (o.sys.conns d).wr.script.length + 1 ≤ ((Open.step env o st).sys.conns d).wr.script.length := by
  cases st with
  | task t =>
    refine ⟨?_, ?_, fun a e => by cases e⟩
    · cases t with
      | read c => simp only [Open.step, Open.stepRead]; split <;> rfl
      | write c => exact (write_other env o c (fun e => h (by rw [e]))).1
      | _ => rfl
    · cases t with
      | read c => exact Nat.le_of_eq (by rw [Open.step, open_read_wr])
      | write c => exact Nat.le_of_eq (by rw [Open.step, (write_other env o c (fun e => h (by rw [e]))).2])
      | handler now =>
        refine Nat.le_of_eq ?_
        show _ = ((Sys.stepHandler env now o.sys).conns d).wr.script.length
        rcases Sys.stepHandler_conn env now o.sys d with e | ⟨_, _, _, _, _, e⟩ <;> rw [e]
      | ctrlC => exact Nat.le_refl _
      | stop =>
        refine Nat.le_of_eq ?_
        show _ = ((Sys.step env o.sys .stop).conns d).wr.script.length
        simp only [Sys.step]
        repeat' split
        all_goals rfl
  | arrive c seg =>
    refine ⟨rfl, Nat.le_of_eq ?_, fun a e => by cases e⟩
    by_cases hd : d = c
    · subst hd; simp [Open.step, Open.setConn, Sys.setConn]
    · simp [Open.step, Open.setConn, Sys.setConn, hd]
  | hangUp c fin =>
    refine ⟨rfl, Nat.le_of_eq ?_, fun a e => by cases e⟩
    by_cases hd : d = c
    · subst hd; simp [Open.step, Open.setConn, Sys.setConn]
    · simp [Open.step, Open.setConn, Sys.setConn, hd]
  | answer c a =>
    refine ⟨rfl, ?_, fun a' e => ?_⟩
    · by_cases hd : d = c
      · subst hd; simp [Open.step, Open.setConn, Sys.setConn, WStream.later]
      · simp [Open.step, Open.setConn, Sys.setConn, hd]
    · cases e
      simp [Open.step, Open.setConn, Sys.setConn, WStream.later]

theorem live_hand (n : Nat) {d : ConnId} (h : σ n ≠ .task (.write d)) :
    (ℓ (n + 1)).opn.hand d = (ℓ n).opn.hand d ∧ ((ℓ n).opn.sys.conns d).wr.script.length ≤ ((ℓ (n + 1)).opn.sys.conns d).wr.script.length
    ∧ ∀ a, σ n = .answer d a → ((ℓ n).opn.sys.conns d).wr.script.length + 1 ≤ ((ℓ (n + 1)).opn.sys.conns d).wr.script.length := by
  rw [nth_succ]
  rcases open_step env (ℓ n) (σ n) with e | ⟨e, t, ht⟩
  · rw [e]; exact open_hand h
  · rw [e]; exact ⟨rfl, Nat.le_refl _, fun a e' => by rw [ht] at e'; cases e'⟩

theorem live_write (n : Nat) {d : ConnId} (h : σ n = .task (.write d)) : (ℓ (n + 1)).opn = Open.stepWrite env (ℓ n).opn d := by
  rw [nth_succ, h]; rfl

/-- With enough answers the write comes to its end; until then the packet stays in hand. -/
theorem goOn_hand (env : Env) (o : Open) (c : ConnId) (p : ControlPacket) (hp : o.hand c = some p) :
    (Open.goOn env o c p = o ∨ (Open.goOn env o c p).hand c = none)
    ∧ (writesFor env.alloc p ≤ (o.sys.conns c).wr.script.length → (Open.goOn env o c p).hand c = none) := by
  have hs := writesFor_spec env.alloc p (o.sys.conns c).wr
  unfold Open.goOn
  rcases hr : @Encoder.writePacket _ (WStream.sink env.alloc) p (o.sys.conns c).wr with ⟨r, wr⟩
  rw [hr] at hs
  have hn : ∀ o' : Open, (o'.setHand c none).hand c = none := fun o' => by simp [Open.setHand]
  cases r with
  | pending =>
    refine ⟨.inl ?_, fun h => absurd rfl (hs h).1⟩
    unfold Open.setHand
    cases o
    simp only [Open.mk.injEq, true_and, and_true]
    funext c'
    split
    · rename_i h; rw [h]; exact hp.symm
    · rfl
  | _ => exact ⟨.inr (hn _), fun _ => hn _⟩

/-- A. Every write comes to its end. -/
theorem hand_free {N : Nat} (he : Endless N σ) {d : Nat} (hd : d < N) (n : Nat) : ∃ m, n ≤ m ∧ (ℓ m).opn.hand d = none := by
  apply Classical.byContradiction
  intro hno
  have hne : ∀ m, n ≤ m → (ℓ m).opn.hand d ≠ none := fun m hm e => hno ⟨m, hm, e⟩
  obtain ⟨p, hp⟩ := Option.ne_none_iff_exists'.mp (hne n (Nat.le_refl _))
  have hstep : ∀ m, n ≤ m → (ℓ m).opn.hand d = some p → (ℓ (m + 1)).opn.hand d = some p
      ∧ ((ℓ m).opn.sys.conns d).wr.script.length ≤ ((ℓ (m + 1)).opn.sys.conns d).wr.script.length
      ∧ ∀ a, σ m = .answer d a → ((ℓ m).opn.sys.conns d).wr.script.length + 1 ≤ ((ℓ (m + 1)).opn.sys.conns d).wr.script.length := by
    intro m hm hp
    by_cases hw : σ m = .task (.write d)
    · have e := live_write (env := env) (peers := peers) m hw
      have e' : Open.stepWrite env (ℓ m).opn d = Open.goOn env (ℓ m).opn d p := by unfold Open.stepWrite; simp only [hp]
      rcases (goOn_hand env (ℓ m).opn d p hp).1 with h | h
      · rw [e, e', h]
        exact ⟨hp, Nat.le_refl _, fun a ha => by rw [hw] at ha; cases ha⟩
      · exact absurd (by rw [e, e']; exact h) (hne (m + 1) (by omega))
    · obtain ⟨h1, h2, h3⟩ := live_hand (env := env) (peers := peers) m hw
      exact ⟨h1.trans hp, h2, h3⟩
  have hall : ∀ k, (ℓ (n + k)).opn.hand d = some p := by
    intro k
    induction k with
    | zero => exact hp
    | succ k ih => exact (hstep (n + k) (by omega) ih).1
  have hmono : ∀ m k, n ≤ m → ((ℓ m).opn.sys.conns d).wr.script.length ≤ ((ℓ (m + k)).opn.sys.conns d).wr.script.length := by
    intro m k hm
    induction k with
    | zero => exact Nat.le_refl _
    | succ k ih =>
      refine Nat.le_trans ih (hstep (m + k) (by omega) ?_).2.1
      have := hall (m + k - n)
      rwa [show n + (m + k - n) = m + k by omega] at this
  have hmany : ∀ w, ∃ m, n ≤ m ∧ w ≤ ((ℓ m).opn.sys.conns d).wr.script.length := by
    intro w
    induction w with
    | zero => exact ⟨n, Nat.le_refl _, Nat.zero_le _⟩
    | succ w ih =>
      obtain ⟨m, hm, hw⟩ := ih
      obtain ⟨m', a, hm', ha⟩ := he.answer d hd m
      refine ⟨m' + 1, by omega, ?_⟩
      have h1 := hmono m (m' - m) hm
      rw [show m + (m' - m) = m' by omega] at h1
      have h2 := hall (m' - n)
      rw [show n + (m' - n) = m' by omega] at h2
      have := (hstep m' (by omega) h2).2.2 a ha
      omega
  obtain ⟨m, hm, hw⟩ := hmany (writesFor env.alloc p)
  obtain ⟨m', hm', ht⟩ := he.write d hd m
  have h1 := hmono m (m' - m) hm
  rw [show m + (m' - m) = m' by omega] at h1
  have h2 := hall (m' - n)
  rw [show n + (m' - n) = m' by omega] at h2
  refine hne (m' + 1) (by omega) ?_
  rw [live_write (env := env) (peers := peers) m' ht]
  unfold Open.stepWrite
  simp only [h2]
  exact (goOn_hand env (ℓ m').opn d p h2).2 (by omega)

/-- No write task waits for ever or spins. -/
theorem not_blocked (n : Nat) (d : ConnId) : ((ℓ n).opn.sys.conns d).wrBlocked = false := by
  cases hb : ((ℓ n).opn.sys.conns d).wrBlocked with
  | false => rfl
  | true =>
    exfalso
    have ha := agree (env := env) (peers := peers) (σ := σ) n
    have hs := ha.same fun _ => ⟨[], .silence, List.replicate (writesForAll env.alloc (begun (ℓ n) d)) .fail⟩
    have hw := Sys.waitsRightly_run env (fun c => Open.Future.peer ⟨[], .silence, List.replicate (writesForAll env.alloc (begun (ℓ n) d)) .fail⟩ (ι n c))
      (ℓ n).opn.did d
    rw [hs] at hw
    have hbl : ∀ (f : Open.Future) (k : Conn) (h : Option ControlPacket), k.wrBlocked = true → (Open.fill env f k h).wrBlocked = true := by
      intro f k h hk
      cases h with
      | none => exact hk
      | some p =>
        simp only [Open.fill]
        rcases @Encoder.writePacket _ (WStream.sink env.alloc) p (k.wr.later f.answers) with ⟨r, wr⟩
        cases r <;> first | exact hk | rfl
    have := hw (hbl _ _ _ hb)
    have e : ((Open.complete env (fun _ => ⟨[], .silence, List.replicate (writesForAll env.alloc (begun (ℓ n) d)) .fail⟩) (ℓ n).opn).conns d).written
        = begun (ℓ n) d := fill_written env _ _ _
    rw [e] at this
    simp [Open.Future.peer] at this
    omega

/-! ### The handler -/

theorem live_rest {N : Nat} (he : Endless N σ) (n : Nat) (h : ∀ now, σ n ≠ .task (.handler now)) :
    (ℓ (n + 1)).opn.sys.handler = (ℓ n).opn.sys.handler ∧ (ℓ (n + 1)).opn.sys.log = (ℓ n).opn.sys.log
    ∧ (ℓ n).opn.sys.events <+: (ℓ (n + 1)).opn.sys.events
    ∧ ∀ d, ((ℓ (n + 1)).opn.sys.conns d).queue.length ≤ ((ℓ n).opn.sys.conns d).queue.length := by
  have hc := no_ctrlC (env := env) (peers := peers) he n
  rw [nth_succ]
  rcases open_step env (ℓ n) (σ n) with e | ⟨e, t, ht⟩
  · rw [e]
    by_cases hf : ∀ t, σ n = .task t → ∃ c, t = .write c
    · have hf := frame_step env (ℓ n).opn (σ n) hf
      exact ⟨hf.handler, hf.log, by rw [hf.events]; exact List.prefix_rfl, hf.queue⟩
    · obtain ⟨t, ht⟩ := Classical.not_forall.mp hf
      obtain ⟨ht, hnw⟩ := Classical.not_imp.mp ht
      rw [ht]
      cases t with
      | read c =>
        simp only [Open.step, Open.stepRead]
        split
        · exact ⟨rfl, rfl, List.prefix_rfl, fun _ => Nat.le_refl _⟩
        · have hr := Sys.stepRead_rest env (ℓ n).opn.sys c
          exact ⟨hr.1, hr.2.2.1, Sys.stepRead_events env _ c, fun d => Nat.le_of_eq (by rw [(Sys.stepRead_conn env (ℓ n).opn.sys c d).1])⟩
      | write c => exact absurd ⟨c, rfl⟩ hnw
      | handler now => exact absurd ht (h now)
      | ctrlC => exact ⟨rfl, rfl, List.prefix_rfl, fun _ => Nat.le_refl _⟩
      | stop =>
        have : Sys.step env (ℓ n).opn.sys .stop = (ℓ n).opn.sys := by
          simp only [Sys.step, hc]
          cases (ℓ n).opn.sys.handler <;> rfl
        simp only [Open.step, this]
        exact ⟨trivial, trivial, List.prefix_rfl, fun _ => Nat.le_refl _⟩
  · rw [e]; exact ⟨rfl, rfl, List.prefix_rfl, fun _ => Nat.le_refl _⟩

theorem live_handler (n : Nat) {now : Instant} (h : σ n = .task (.handler now)) : (ℓ (n + 1)).opn.sys = Sys.stepHandler env now (ℓ n).opn.sys := by
  have e : (ℓ (n + 1)).opn.sys = (ℓ (n + 1)).fifo.sys := rfl
  rw [e, nth_succ, h, fifo_handler]
  show (Fifo.stepHandler env now (ℓ n).fifo).sys = _
  unfold Fifo.stepHandler
  split
  · unfold Fifo.release
    simp only
    split <;> rfl
  · rfl

/-- The handler has been up all the time. -/
def Up (env : Env) (peers : ConnId → Sys.Peer) (σ : Nat → OStep) : Prop := ∀ n, (nth env peers σ n).opn.sys.handlerAlive = true

theorem handler_turns {N : Nat} (he : Endless N σ) (n : Nat) : ∃ m, n ≤ m ∧ ∃ now, σ m = .task (.handler now) := by
  obtain ⟨m, now, h1, h2⟩ := he.handler n
  exact ⟨m, h1, now, h2⟩

/-- B. The handler makes its next send. -/
theorem sends {N : Nat} (he : Endless N σ) (hup : Up env peers σ) (n : Nat) {d : ConnId} {e : ServerEvent} {t : List (ConnId × ServerEvent)}
    (hh : (ℓ n).opn.sys.handler = .busy ((d, e) :: t)) : ∃ m, n ≤ m ∧ (ℓ m).opn.sys.handler = if t = [] then .idle else .busy t := by
  have hd : d < N := by
    have h := hh
    rw [(same n).handler, closed_run] at h
    exact Sys.todo_below env _ (few he n) h
  -- a turn with room makes the send
  have turn : ∀ m now, σ m = .task (.handler now) → (ℓ m).opn.sys.handler = .busy ((d, e) :: t) →
      ((ℓ m).opn.sys.conns d).queue.length < channelCapacity → (ℓ (m + 1)).opn.sys.handler = if t = [] then .idle else .busy t := by
    intro m now hm hb hq
    have ha := hup (m + 1)
    have hsys := live_handler (env := env) (peers := peers) m hm
    rcases Sys.handler_sends env now hb hq with h | ⟨h, _⟩
    · rw [hsys] at ha
      rw [Sys.step] at h
      simp [Sys.handlerAlive, h] at ha
    · rw [hsys]; exact h
  by_cases hq : ∃ m, n ≤ m ∧ (ℓ m).opn.sys.handler = .busy ((d, e) :: t) ∧ ((ℓ m).opn.sys.conns d).queue.length < channelCapacity
  · obtain ⟨m, hm, hb, hq⟩ := hq
    obtain ⟨m', hm', ⟨hb', hq'⟩, now, ht⟩ := until_turn (P := fun k => (ℓ k).opn.sys.handler = .busy ((d, e) :: t)
      ∧ ((ℓ k).opn.sys.conns d).queue.length < channelCapacity) (T := fun st => ∃ now, st = .task (.handler now)) (handler_turns he) (fun k hk ht => by
        have hr := live_rest (env := env) (peers := peers) he k fun now h => ht ⟨now, h⟩
        exact ⟨hr.1.trans hk.1, Nat.lt_of_le_of_lt (hr.2.2.2 d) hk.2⟩) m ⟨hb, hq⟩
    exact ⟨m' + 1, by omega, turn m' now ht hb' hq'⟩
  · exfalso
    have hfull : ∀ m, n ≤ m → (ℓ m).opn.sys.handler = .busy ((d, e) :: t) → channelCapacity ≤ ((ℓ m).opn.sys.conns d).queue.length :=
      fun m hm hb => Nat.le_of_not_lt fun h => hq ⟨m, hm, hb, h⟩
    -- nothing happens as long as the channel is full
    have hstay : ∀ k, (ℓ (n + k)).opn.sys.handler = .busy ((d, e) :: t) := by
      intro k
      induction k with
      | zero => exact hh
      | succ k ih =>
        by_cases hturn : ∃ now, σ (n + k) = .task (.handler now)
        · obtain ⟨now, ht⟩ := hturn
          have hf := hfull (n + k) (by omega) ih
          have ha := hup (n + k + 1)
          have hsys := live_handler (env := env) (peers := peers) (n + k) ht
          rw [show n + (k + 1) = n + k + 1 by omega, hsys]
          rw [hsys] at ha
          unfold Sys.stepHandler at ha ⊢
          simp only [ih] at ha ⊢
          by_cases hx : ((ℓ (n + k)).opn.sys.conns d).rxOpen = true
          · rw [if_pos hx, if_neg (by omega)]; exact ih
          · rw [if_neg hx] at ha
            simp [Sys.handlerAlive] at ha
        · exact (live_rest (env := env) (peers := peers) he (n + k) fun now h => hturn ⟨now, h⟩).1.trans ih
    obtain ⟨m, hm, hnone⟩ := hand_free (env := env) (peers := peers) he hd n
    obtain ⟨m', hm', hnone', ht⟩ := until_turn (P := fun k => (ℓ k).opn.hand d = none) (T := fun st => st = .task (.write d)) (he.write d hd)
      (fun k hk ht => (live_hand (env := env) (peers := peers) k ht).1.trans hk) m hnone
    have hb := hstay (m' - n)
    rw [show n + (m' - n) = m' by omega] at hb
    have hb1 := hstay (m' + 1 - n)
    rw [show n + (m' + 1 - n) = m' + 1 by omega] at hb1
    have hf := hfull m' (by omega) hb
    have hf1 := hfull (m' + 1) (by omega) hb1
    have hx : ((ℓ m').opn.sys.conns d).rxOpen = true := by
      cases hx : ((ℓ m').opn.sys.conns d).rxOpen with
      | true => rfl
      | false =>
        have := ((inv (env := env) (peers := peers) (σ := σ) m').writes d).shut (by rw [← (same m').rxOpen]; exact hx)
        rw [← (same m').queue] at this
        rw [this] at hf
        simp [channelCapacity] at hf
    have hbound : ((ℓ m').opn.sys.conns d).queue.length ≤ channelCapacity := by
      rw [(same m').queue]
      exact ((inv (env := env) (peers := peers) (σ := σ) m').writes d).bound
    have hlt : ((ℓ (m' + 1)).opn.sys.conns d).queue.length < channelCapacity := by
      rw [live_write m' ht]
      unfold Open.stepWrite
      simp only [hnone', hx, not_blocked m' d, Bool.not_false, Bool.and_self, ↓reduceIte]
      match hqe : ((ℓ m').opn.sys.conns d).queue with
      | .controlPacket p :: rest =>
        simp only
        refine Nat.lt_of_le_of_lt ((frame_goOn env _ d p).queue d) ?_
        rw [hqe] at hbound
        simp only [Open.setConn, Sys.setConn, ↓reduceIte]
        simp only [List.length_cons] at hbound
        omega
      | .disconnect :: rest =>
        simp only
        unfold Sys.stepWrite
        simp [hx, not_blocked m' d, hqe, Sys.setConn, channelCapacity]
      | [] => rw [hqe] at hf; simp [channelCapacity] at hf
    omega

/-- The handler comes to rest again and again. -/
theorem idle_again {N : Nat} (he : Endless N σ) (hup : Up env peers σ) (n : Nat) : ∃ m, n ≤ m ∧ (ℓ m).opn.sys.handler = .idle := by
  have key : ∀ (t : List (ConnId × ServerEvent)) n, (ℓ n).opn.sys.handler = .busy t → ∃ m, n ≤ m ∧ (ℓ m).opn.sys.handler = .idle := by
    intro t
    induction t with
    | nil => exact fun n h => absurd h (not_busy_nil n)
    | cons x t ih =>
      intro n h
      obtain ⟨m, hm, hh⟩ := sends he hup n h
      by_cases ht : t = []
      · rw [if_pos ht] at hh; exact ⟨m, hm, hh⟩
      · rw [if_neg ht] at hh
        obtain ⟨m', hm', hh'⟩ := ih m hh
        exact ⟨m', by omega, hh'⟩
  have ha := hup n
  cases hh : (ℓ n).opn.sys.handler with
  | idle => exact ⟨n, Nat.le_refl _, hh⟩
  | busy t => exact key t n hh
  | crashed => simp [Sys.handlerAlive, hh] at ha
  | stopped => simp [Sys.handlerAlive, hh] at ha

theorem log_mono {n m : Nat} (h : n ≤ m) : (ℓ n).opn.sys.log.length ≤ (ℓ m).opn.sys.log.length := by
  have := (served_mono (env := env) (peers := peers) (σ := σ) h).length_le
  simpa using this

/-- C. An event in the channel: another one is taken. -/
theorem takes {N : Nat} (he : Endless N σ) (hup : Up env peers σ) (n : Nat) (hev : (ℓ n).opn.sys.events ≠ []) :
    ∃ m, n ≤ m ∧ (ℓ n).opn.sys.log.length < (ℓ m).opn.sys.log.length := by
  obtain ⟨m, hm, hi⟩ := idle_again he hup n
  by_cases hl : (ℓ n).opn.sys.log.length < (ℓ m).opn.sys.log.length
  · exact ⟨m, hm, hl⟩
  · have hle := log_mono (env := env) (peers := peers) (σ := σ) hm
    have hpos := List.length_pos_iff.mpr hev
    have hev' : (ℓ m).opn.sys.events ≠ [] := by
      have := (put_mono (env := env) (peers := peers) (σ := σ) hm).length_le
      simp only [Fifo.put, List.length_append, List.length_map] at this
      exact List.length_pos_iff.mp (by omega)
    obtain ⟨m', hm', ⟨hi', hev''⟩, now, ht⟩ := until_turn (P := fun k => (ℓ k).opn.sys.handler = .idle ∧ (ℓ k).opn.sys.events ≠ []) (T := fun st => ∃ now, st = .task (.handler now)) (handler_turns he)
      (fun k hk ht => by
        have hr := live_rest (env := env) (peers := peers) he k fun now h => ht ⟨now, h⟩
        refine ⟨hr.1.trans hk.1, fun h => hk.2 ?_⟩
        have := hr.2.2.1
        rw [h] at this
        exact List.prefix_nil.mp this) m ⟨hi, hev'⟩
    refine ⟨m' + 1, by omega, ?_⟩
    have h1 := log_mono (env := env) (peers := peers) (σ := σ) (Nat.le_trans hm hm')
    obtain ⟨ev, rest, hcons⟩ := List.exists_cons_of_ne_nil hev''
    have : (ℓ (m' + 1)).opn.sys.log = (ℓ m').opn.sys.log ++ [(ev, now)] := by
      rw [live_handler m' ht]
      unfold Sys.stepHandler
      simp only [hi', hcons]
      split <;> rfl
    rw [this]
    simp only [List.length_append, List.length_singleton]
    omega

/-- Everything that was in the channel is taken. -/
theorem takes_all {N : Nat} (he : Endless N σ) (hup : Up env peers σ) (n : Nat) :
    ∃ m, n ≤ m ∧ Fifo.put (ℓ n).opn.sys <+: (ℓ m).opn.sys.log.map Prod.fst := by
  have key : ∀ j, ∃ m, n ≤ m ∧ ((Fifo.put (ℓ n).opn.sys).length ≤ (ℓ m).opn.sys.log.length ∨ j ≤ (ℓ m).opn.sys.log.length) := by
    intro j
    induction j with
    | zero => exact ⟨n, Nat.le_refl _, .inr (Nat.zero_le _)⟩
    | succ j ih =>
      obtain ⟨m, hm, h⟩ := ih
      rcases h with h | h
      · exact ⟨m, hm, .inl h⟩
      · by_cases hev : (ℓ m).opn.sys.events = []
        · have := (put_mono (env := env) (peers := peers) (σ := σ) hm).length_le
          refine ⟨m, hm, .inl ?_⟩
          have e : (Fifo.put (ℓ m).opn.sys).length = (ℓ m).opn.sys.log.length := by simp [Fifo.put, hev]
          omega
        · obtain ⟨m', hm', h'⟩ := takes he hup m hev
          exact ⟨m', by omega, .inr (by omega)⟩
  obtain ⟨m, hm, h⟩ := key (Fifo.put (ℓ n).opn.sys).length
  have hlen : (Fifo.put (ℓ n).opn.sys).length ≤ (ℓ m).opn.sys.log.length := h.elim id id
  refine ⟨m, hm, ?_⟩
  refine List.prefix_of_prefix_length_le (put_mono (env := env) (peers := peers) (σ := σ) hm) (List.prefix_append _ _) ?_
  rw [List.length_map]
  exact hlen

/-! ### The waiting list -/

theorem lists_step (env : Env) (l : Live) (st : OStep) {c : ConnId} (h : c ∈ (step env l st).waiting ++ (step env l st).granted) :
    c ∈ l.waiting ++ l.granted ∨ st = .task (.read c) := by
  cases st with
  | task t =>
    cases t with
    | read d =>
      have h : c ∈ (stepRead env l d).waiting ++ (stepRead env l d).granted := h
      unfold stepRead at h
      have er : ∀ {xs ys zs ws : List ConnId}, (∀ x ∈ xs, x ∈ zs) → (∀ x ∈ ys, x ∈ ws) → c ∈ xs ++ ys → c ∈ zs ++ ws := fun h1 h2 h =>
        List.mem_append.mpr ((List.mem_append.mp h).imp (h1 c) (h2 c))
      split at h
      · exact .inl h
      · split at h
        · split at h
          · exact .inl (er (fun _ => id) (fun _ => List.mem_of_mem_erase) h)
          · split at h
            · exact .inl h
            · split at h
              · simp only [List.mem_append, List.mem_cons, List.not_mem_nil, or_false] at h ⊢
                rcases h with (h | h) | h
                · exact .inl (.inl h)
                · exact .inr (by rw [h])
                · exact .inl (.inr h)
              · exact .inl h
        · exact .inl (er (fun _ => List.mem_of_mem_erase) (fun _ => List.mem_of_mem_erase) h)
    | handler now =>
      have h : c ∈ (stepHandler env now l).waiting ++ (stepHandler env now l).granted := h
      unfold stepHandler at h
      split at h
      · unfold release at h
        simp only at h
        split at h
        · exact .inl h
        · rename_i hw
          rw [hw]
          simp only [List.mem_append, List.mem_cons, List.not_mem_nil, or_false] at h ⊢
          rcases h with h | h | h
          · exact .inl (.inl (.inr h))
          · exact .inl (.inr h)
          · exact .inl (.inl (.inl h))
      · exact .inl h
    | write d => exact .inl h
    | ctrlC => exact .inl h
    | stop => exact .inl h
  | arrive d seg => exact .inl h
  | hangUp d fin => exact .inl h
  | answer d a => exact .inl h

theorem lists_below {N : Nat} (he : Endless N σ) (n : Nat) : ∀ c : Nat, c ∈ (ℓ n).waiting ++ (ℓ n).granted → c < N := by
  induction n with
  | zero => intro c hc; simp [nth, firstOf, run, init] at hc
  | succ n ih =>
    intro c hc
    rw [nth_succ] at hc
    rcases lists_step env (ℓ n) (σ n) hc with h | h
    · exact ih c h
    · exact he.few n c h

theorem granted_stays (n : Nat) {g : ConnId} (h : σ n ≠ .task (.read g)) (hg : g ∈ (ℓ n).granted) : g ∈ (ℓ (n + 1)).granted := by
  rw [nth_succ]
  have other : step env (ℓ n) (σ n) = { ℓ n with opn := Open.step env (ℓ n).opn (σ n) } → g ∈ (step env (ℓ n) (σ n)).granted := fun e => by
    rw [e]; exact hg
  cases hs : σ n with
  | task t =>
    cases t with
    | read d =>
      have hne : g ≠ d := fun e => h (by rw [hs, e])
      show g ∈ (stepRead env (ℓ n) d).granted
      unfold stepRead
      split
      · exact hg
      · split
        · split
          · exact (List.mem_erase_of_ne hne).mpr hg
          · split
            · exact hg
            · split <;> exact hg
        · exact (List.mem_erase_of_ne hne).mpr hg
    | handler now =>
      show g ∈ (stepHandler env now (ℓ n)).granted
      unfold stepHandler
      split
      · unfold release
        simp only
        split
        · exact hg
        · exact List.mem_append_left _ hg
      · exact hg
    | write d => exact hg
    | ctrlC => exact hg
    | stop => exact hg
  | arrive d seg => exact hg
  | hangUp d fin => exact hg
  | answer d a => exact hg

/-- While somebody waits, events are taken. -/
theorem waiting_moves {N : Nat} (he : Endless N σ) (hup : Up env peers σ) (n : Nat) (hw : (ℓ n).waiting ≠ []) :
    ∃ m, n ≤ m ∧ (ℓ n).opn.sys.log.length < (ℓ m).opn.sys.log.length := by
  by_cases hev : (ℓ n).opn.sys.events = []
  · have hg := good (env := env) (peers := peers) (σ := σ) n
    have hp := hg.busy (hup n) hw
    have hc := hg.count (hup n)
    have hp' : (ℓ n).permits = 0 := hp
    have hc' : (ℓ n).permits + (ℓ n).granted.length + (ℓ n).opn.sys.events.length = channelCapacity := hc
    rw [hev, hp'] at hc'
    simp only [List.length_nil, Nat.add_zero, Nat.zero_add, channelCapacity] at hc'
    obtain ⟨g, hgm⟩ : ∃ g, g ∈ (ℓ n).granted := List.exists_mem_of_length_pos (by omega)
    have hgN := lists_below (env := env) (peers := peers) he n g (List.mem_append_right _ hgm)
    obtain ⟨m, hm, hgm', ht⟩ := until_turn (P := fun k => g ∈ (ℓ k).granted) (T := fun st => st = .task (.read g)) (he.read g hgN)
      (fun k hk ht => granted_stays k ht hk) n hgm
    have hg' := good (env := env) (peers := peers) (σ := σ) m
    obtain ⟨ev, ho⟩ := hg'.out g (List.mem_append_right _ hgm')
    have hstep : (ℓ (m + 1)).fifo = Fifo.step env (ℓ m).fifo (.read g) := by rw [nth_succ, ht, fifo_read hg' ho]
    have hne : (ℓ (m + 1)).opn.sys.events ≠ [] := by
      show (ℓ (m + 1)).fifo.sys.events ≠ []
      rw [hstep]
      show (Fifo.stepRead env (ℓ m).fifo g).sys.events ≠ []
      unfold Fifo.stepRead
      have ha : (ℓ m).fifo.sys.handlerAlive = true := hup m
      have hgm'' : g ∈ (ℓ m).fifo.granted := hgm'
      simp only [ho, ha, ↓reduceIte, hgm'', Fifo.push, Sys.setConn_events]
      simp
    obtain ⟨m', hm', hl⟩ := takes he hup (m + 1) hne
    have := log_mono (env := env) (peers := peers) (σ := σ) (show n ≤ m + 1 by omega)
    exact ⟨m', by omega, by omega⟩
  · exact takes he hup n hev

theorem live_reader (n : Nat) {c : ConnId} (h : σ n ≠ .task (.read c)) :
    ((ℓ (n + 1)).opn.sys.conns c).outbox = ((ℓ n).opn.sys.conns c).outbox ∧ ((ℓ (n + 1)).opn.sys.conns c).phase = ((ℓ n).opn.sys.conns c).phase := by
  rw [nth_succ]
  rcases open_step env (ℓ n) (σ n) with e | ⟨e, t, ht⟩
  · rw [e]
    by_cases hf : ∀ t, σ n = .task t → ∃ c, t = .write c
    · have hf := frame_step env (ℓ n).opn (σ n) hf
      exact ⟨hf.outbox c, hf.phase c⟩
    · obtain ⟨t, ht⟩ := Classical.not_forall.mp hf
      obtain ⟨ht, hnw⟩ := Classical.not_imp.mp ht
      rw [ht]
      cases t with
      | read d =>
        simp only [Open.step, Open.stepRead]
        split
        · exact ⟨rfl, rfl⟩
        · have hne : c ≠ d := fun e => h (by rw [ht, e])
          simp only [Fifo.stepRead_other env _ hne]
          exact ⟨trivial, trivial⟩
      | write c => exact absurd ⟨c, rfl⟩ hnw
      | handler now =>
        have := Sys.stepHandler_reader env now (ℓ n).opn.sys c
        exact ⟨this.outbox, this.phase⟩
      | ctrlC => exact ⟨rfl, rfl⟩
      | stop =>
        simp only [Open.step, Sys.step]
        repeat' split
        all_goals exact ⟨rfl, rfl⟩
  · rw [e]; exact ⟨rfl, rfl⟩

/-- D. An event that a read task has in hand gets into the channel. -/
theorem gets_in {N : Nat} (he : Endless N σ) (hup : Up env peers σ) (n : Nat) {c : Nat} (hc : c < N) {ev : ClientEvent}
    (ho : ((ℓ n).opn.sys.conns c).outbox = some ev) :
    ∃ m X, n ≤ m ∧ Fifo.put (ℓ n).opn.sys <+: X ∧ X ++ [ev] <+: Fifo.put (ℓ m).opn.sys := by
  obtain ⟨k, hk, hok, ht⟩ := until_turn (P := fun k => ((ℓ k).opn.sys.conns c).outbox = some ev) (T := fun st => st = .task (.read c)) (he.read c hc)
    (fun k hk ht => (live_reader (env := env) (peers := peers) k ht).1.trans hk) n ho
  have hT := put_mono (env := env) (peers := peers) (σ := σ) hk
  obtain ⟨p, _, hw⟩ := Fifo.where_asked (env := env) (good (env := env) (peers := peers) (σ := σ) k) (c := c) hok (hup k)
  have hstep : (ℓ (k + 1)).fifo = Fifo.step env (ℓ k).fifo (.read c) := by rw [nth_succ, ht, fifo_read (good k) hok]
  rw [← hstep] at hw
  generalize hL : (ℓ k).fifo.sys.log.length = L at hw
  have hwh : ∀ j, Fifo.Where c ev L p (Fifo.put (ℓ k).opn.sys) (ℓ (k + 1 + j)).fifo := by
    intro j
    induction j with
    | zero => exact hw
    | succ j ih => exact Fifo.where_does (good _) (does (k + 1 + j)) (hup (k + 1 + j + 1)) ih
  -- it is sent, or as many events as one likes are taken
  have key : ∀ i, (∃ m X, k ≤ m ∧ Fifo.put (ℓ k).opn.sys <+: X ∧ X ++ [ev] <+: Fifo.put (ℓ m).opn.sys)
      ∨ ∃ m, k + 1 ≤ m ∧ i ≤ (ℓ m).opn.sys.log.length := by
    intro i
    induction i with
    | zero => exact .inr ⟨k + 1, Nat.le_refl _, Nat.zero_le _⟩
    | succ i ih =>
      rcases ih with h | ⟨m, hm, hi⟩
      · exact .inl h
      · have hwm := hwh (m - (k + 1))
        rw [show k + 1 + (m - (k + 1)) = m by omega] at hwm
        cases hwm with
        | waits l r hwt ho' hp' hT' =>
          have hwt' : (ℓ m).waiting = l ++ c :: r := hwt
          obtain ⟨m', hm', hl⟩ := waiting_moves he hup m (by rw [hwt']; simp)
          exact .inr ⟨m', by omega, by omega⟩
        | granted hg ho' hT' =>
          have hg' : c ∈ (ℓ m).granted := hg
          obtain ⟨m', hm', hgm, ht'⟩ := until_turn (P := fun j => c ∈ (ℓ j).granted) (T := fun st => st = .task (.read c)) (he.read c hc)
            (fun j hj hj' => granted_stays j hj' hj) m hg'
          have hwm := hwh (m' - (k + 1))
          rw [show k + 1 + (m' - (k + 1)) = m' by omega] at hwm
          have hstep' : ∀ ev', ((ℓ m').opn.sys.conns c).outbox = some ev' → (ℓ (m' + 1)).opn.sys = Fifo.push (ℓ m').opn.sys c ev' := by
            intro ev' hev'
            have e : (ℓ (m' + 1)).fifo = Fifo.step env (ℓ m').fifo (.read c) := by rw [nth_succ, ht', fifo_read (good m') hev']
            show (ℓ (m' + 1)).fifo.sys = _
            rw [e]
            show (Fifo.stepRead env (ℓ m').fifo c).sys = _
            unfold Fifo.stepRead
            have ha : (ℓ m').fifo.sys.handlerAlive = true := hup m'
            have hgm'' : c ∈ (ℓ m').fifo.granted := hgm
            have hev'' : ((ℓ m').fifo.sys.conns c).outbox = some ev' := hev'
            simp only [hev'', ha, ↓reduceIte, hgm'']
            rfl
          cases hwm with
          | waits l r hwt _ _ _ =>
            exact absurd rfl ((List.nodup_append.mp (good (env := env) (peers := peers) (σ := σ) m').nodup).2.2 c (by rw [hwt]; simp) c hgm)
          | granted _ ho'' hT'' =>
            refine .inl ⟨m' + 1, Fifo.put (ℓ m').opn.sys, by omega, hT'', ?_⟩
            rw [hstep' ev ho'']
            simp only [Fifo.put, Fifo.push, Sys.setConn_log, Sys.setConn_events, List.append_assoc]
            exact List.prefix_rfl
          | sent X h1 h2 _ => exact .inl ⟨m', X, by omega, h1, h2⟩
        | sent X h1 h2 _ => exact .inl ⟨m, X, by omega, h1, h2⟩
  have done : ∀ m X, k ≤ m → Fifo.put (ℓ k).opn.sys <+: X → X ++ [ev] <+: Fifo.put (ℓ m).opn.sys →
      ∃ m X, n ≤ m ∧ Fifo.put (ℓ n).opn.sys <+: X ∧ X ++ [ev] <+: Fifo.put (ℓ m).opn.sys :=
    fun m X h1 h2 h3 => ⟨m, X, by omega, hT.trans h2, h3⟩
  rcases key (L + p + 1) with ⟨m, X, h1, h2, h3⟩ | ⟨m, hm, hi⟩
  · exact done m X h1 h2 h3
  · obtain ⟨m', hm', ht'⟩ := he.read c hc m
    have hwm := hwh (m' - (k + 1))
    rw [show k + 1 + (m' - (k + 1)) = m' by omega] at hwm
    have hlog := log_mono (env := env) (peers := peers) (σ := σ) hm'
    have hlt : L + p < (ℓ m').fifo.sys.log.length := by
      show L + p < (ℓ m').opn.sys.log.length
      omega
    have hout : ∀ {ev' : ClientEvent}, ((ℓ m').opn.sys.conns c).outbox = some ev' → (ℓ (m' + 1)).fifo = Fifo.step env (ℓ m').fifo (.read c) := fun h => by
      rw [nth_succ, ht', fifo_read (good m') h]
    cases hwm with
    | waits l r hwt ho' hp' hT' => omega
    | granted hg ho' hT' =>
      have hwm := hwh (m' - (k + 1))
      rw [show k + 1 + (m' - (k + 1)) = m' by omega] at hwm
      obtain ⟨X, h1, h2, _⟩ := Fifo.where_turn (env := env) (good (env := env) (peers := peers) (σ := σ) m') (hup m') hwm hlt
      rw [← hout ho'] at h2
      exact done (m' + 1) X (by omega) h1 h2
    | sent X h1 h2 _ => exact done m' X (by omega) h1 h2

/-! ### Reading -/

/-- More input. -/
def morePlain (more : List UInt8) (fin : Ending) (s : Plain) : Plain := if s.fin = .silence then ⟨s.bytes ++ more, fin⟩ else s

theorem short_later {α : Type} (more : List UInt8) (fin : Ending) (s : Plain) (hp : ((Plain.short : M Plain α) s).1 ≠ .pending) :
    morePlain more fin s = s ∧ ∀ a, ((Plain.short : M Plain α) s).1 ≠ .ok a := by
  unfold Plain.short at hp ⊢
  unfold morePlain
  cases hf : s.fin with
  | silence => simp [hf] at hp
  | eof => simp
  | ioError => simp

theorem plain_later (more : List UInt8) (fin : Ending) : LaterSource Plain (fun _ => True) (morePlain more fin) where
  shrinks := Plain.shrinks
  avail s := by
    unfold morePlain
    simp only [ByteSource.avail]
    split <;> simp
  getU8 := by
    rintro ⟨bytes, f⟩ - hp
    cases bytes with
    | nil =>
      have hp : ((Plain.short : M Plain UInt8) ⟨[], f⟩).1 ≠ .pending := hp
      obtain ⟨h1, h2⟩ := short_later more fin _ hp
      rw [h1]
      refine ⟨?_, fun _ _ => trivial⟩
      show Plain.short _ = (_, morePlain more fin (Plain.short _).2)
      have : ((Plain.short : M Plain UInt8) ⟨[], f⟩).2 = ⟨[], f⟩ := by unfold Plain.short; cases f <;> rfl
      rw [this, h1]
      exact Prod.ext rfl this
    | cons b r =>
      refine ⟨?_, fun _ _ => trivial⟩
      unfold morePlain
      by_cases hs : f = .silence <;> simp [hs, ByteSource.getU8]
  getU16 := by
    rintro ⟨bytes, f⟩ - hp
    have short : (ByteSource.getU16 : M Plain UInt16) ⟨bytes, f⟩ = Plain.short ⟨bytes, f⟩ →
        (ByteSource.getU16 : M Plain UInt16) (morePlain more fin ⟨bytes, f⟩) = (((ByteSource.getU16 : M Plain UInt16) ⟨bytes, f⟩).1,
          morePlain more fin ((ByteSource.getU16 : M Plain UInt16) ⟨bytes, f⟩).2) := by
      intro e
      rw [e] at hp
      obtain ⟨h1, h2⟩ := short_later more fin _ hp
      have : ((Plain.short : M Plain UInt16) ⟨bytes, f⟩).2 = ⟨bytes, f⟩ := by unfold Plain.short; cases f <;> rfl
      rw [h1, e, this, h1]
      exact Prod.ext rfl this
    refine ⟨?_, fun _ _ => trivial⟩
    match bytes with
    | [] => exact short rfl
    | [b] => exact short rfl
    | hi :: lo :: r =>
      unfold morePlain
      by_cases hs : f = .silence <;> simp [hs, ByteSource.getU16]
  getBytes n := by
    rintro ⟨bytes, f⟩ - hp
    refine ⟨?_, fun _ _ => trivial⟩
    simp only [ByteSource.getBytes] at hp ⊢
    by_cases h1 : n > isizeMax
    · simp only [h1, ↓reduceIte]
    · by_cases h2 : n ≤ bytes.length
      · simp only [h1, h2, ↓reduceIte]
        unfold morePlain
        by_cases hs : f = .silence
        · have : n ≤ bytes.length + more.length := by omega
          simp only [hs, ↓reduceIte, List.length_append, this, List.take_append_of_le_length h2, List.drop_append_of_le_length h2]
        · simp only [hs, ↓reduceIte, h2]
      · simp only [h1, h2, ↓reduceIte] at hp ⊢
        obtain ⟨e1, e2⟩ := short_later more fin _ hp
        have : ((Plain.short : M Plain (List UInt8)) ⟨bytes, f⟩).2 = ⟨bytes, f⟩ := by unfold Plain.short; cases f <;> rfl
        rw [e1, this, e1]
        simp only [h2, ↓reduceIte]
        exact Prod.ext rfl this

theorem readMany_later (pr : Profile) (more : List UInt8) (fin : Ending) (n : Nat) :
    Later (fun _ => True) (morePlain more fin) (readMany pr n : M Plain _) := by
  induction n with
  | zero => exact Later.pure _
  | succ n ih =>
    rw [readMany]
    exact ((plain_later more fin).readPacket pr).bind fun p => ih.bind fun ps => Later.pure _

/-- What can be decoded stays so when more arrives. -/
theorem decodes_later (pr : Profile) (f : Open.Future) (p : Sys.Peer) {ps : List ControlPacket} (h : Decodes pr p.segs.flatten p.fin ps) :
    Decodes pr (f.peer p).segs.flatten (f.peer p).fin ps := by
  obtain ⟨rest, h⟩ := h
  have hl := readMany_later pr f.more.flatten f.fin ps.length ⟨p.segs.flatten, p.fin⟩ trivial (by rw [h]; simp)
  have e : morePlain f.more.flatten f.fin ⟨p.segs.flatten, p.fin⟩ = ⟨(f.peer p).segs.flatten, (f.peer p).fin⟩ := by
    unfold morePlain Open.Future.peer
    by_cases hs : p.fin = .silence <;> simp [hs]
  rw [e, h] at hl
  exact ⟨_, hl.1⟩

theorem brought_future {n m : Nat} (h : n ≤ m) : ∃ F : ConnId → Open.Future, ∀ c, ι m c = (F c).peer (ι n c) := by
  obtain ⟨k, rfl⟩ := Nat.exists_eq_add_of_le h
  obtain ⟨F, hF⟩ := Open.given_future (ι n) (firstOf (fun i => σ (n + i)) k)
  refine ⟨F, fun c => ?_⟩
  unfold brought
  rw [firstOf_add, Open.given_append]
  exact hF c

theorem decodes_mono {n m : Nat} (h : n ≤ m) {pr : Profile} {c : ConnId} {ps : List ControlPacket}
    (hd : Decodes pr (ι n c).segs.flatten (ι n c).fin ps) : Decodes pr (ι m c).segs.flatten (ι m c).fin ps := by
  obtain ⟨F, hF⟩ := brought_future (peers := peers) (σ := σ) h
  rw [hF]
  exact decodes_later pr _ _ hd

theorem eventsOf_later {n m : Nat} (h : n ≤ m) (c : ConnId) (ps : List ControlPacket) : eventsOf (ι m c) c ps = eventsOf (ι n c) c ps := by
  obtain ⟨F, hF⟩ := brought_future (peers := peers) (σ := σ) h
  rw [hF]
  cases ps with
  | nil => rfl
  | cons p ps => cases p <;> rfl

end Ratel.Live
