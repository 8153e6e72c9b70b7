/-
What happens for ever, with sockets that take as many bytes at a time as the write buffer holds: what is written is on the wire.
-/
import Verif.Proofs.EndlessWrites
import Verif.Proofs.FullWrites

namespace Ratel.Live

open Spec

/-- Between two packets nothing is in the buffer, and the wire has what was written. -/
structure Clear (k : Conn) : Prop where
  roomy : k.wr.Roomy 4096 []
  empty : k.wr.buf.data = []
  wire : k.wr.wire = wireOf k.written

theorem Clear.congr {k k' : Conn} (h : Clear k) (h1 : k'.wr = k.wr) (h2 : k'.written = k.written) : Clear k' :=
  ⟨by rw [h1]; exact h.roomy, by rw [h1]; exact h.empty, by rw [h1, h2]; exact h.wire⟩

theorem clear_goOn (env : Env) (o : Open) (c : ConnId) (p : ControlPacket) (h : Clear (o.sys.conns c)) (hp : ServerPacket p) :
    Clear ((Open.goOn env o c p).sys.conns c) := by
  letI := WStream.sink env.alloc
  obtain ⟨bs, hbs, _⟩ := C04_wire_format p hp
  have h1 := (WStream.laws (fun _ => True) env.alloc).writePacket p hp bs hbs (o.sys.conns c).wr ⟨h.roomy.wf, fun _ _ => trivial⟩
  obtain ⟨h2, h3, h4⟩ := WStream.writePacket_roomy env.alloc (by decide) p h.roomy
  unfold Open.goOn
  rcases hm : @Encoder.writePacket _ (WStream.sink env.alloc) p (o.sys.conns c).wr with ⟨r, wr⟩
  rw [hm] at h1 h2 h3 h4
  cases r with
  | ok u =>
    simp only [Open.setHand, Open.setConn, Sys.setConn_self, Open.endWrite]
    refine ⟨h3, h4 rfl, ?_⟩
    have ho := h1.1
    have h4 := h4 rfl
    simp only [WStream.out, h.empty, List.append_nil, h.wire] at ho h4
    rw [h4, List.append_nil] at ho
    simp only [ho, Sys.wireOf_snoc, hbs, Option.getD_some]
  | err e => exact absurd rfl (h2 e)
  | panic => exact h1.elim
  | hang => exact h1.elim
  | pending => simpa [Open.setHand, Open.setConn] using h

theorem clear_write (env : Env) (o : Open) (c : ConnId) (h : Clear (o.sys.conns c))
    (hp : ∀ p ∈ ((Open.stepWrite env o c).sys.conns c).written ++ ((Open.stepWrite env o c).hand c).toList, ServerPacket p) :
    Clear ((Open.stepWrite env o c).sys.conns c) := by
  unfold Open.stepWrite at hp ⊢
  cases hh : o.hand c with
  | some p =>
    simp only [hh] at hp ⊢
    rw [goOn_begun] at hp
    exact clear_goOn env o c p h (hp p (by simp))
  | none =>
    simp only [hh] at hp ⊢
    split
    · rename_i ho
      rw [if_pos ho] at hp
      split
      · rename_i p rest hq
        simp only [hq] at hp
        rw [goOn_begun] at hp
        refine clear_goOn env _ c p ?_ (hp p (by simp))
        simp only [Open.setConn, Sys.setConn_self]
        exact h.congr rfl rfl
      · rename_i hq
        simp only [Sys.stepWrite, ho, ↓reduceIte]
        cases hq' : (o.sys.conns c).queue with
        | nil =>
          simp only
          split
          · exact h
          · rw [Sys.setConn_self]; exact h.congr rfl rfl
        | cons e rest =>
          cases e with
          | controlPacket p => exact absurd hq' (hq p rest)
          | disconnect => simp only [Sys.setConn_self]; exact h.congr rfl rfl
    · exact h

/-- Steps that are not of this write task. -/
theorem other_wr (env : Env) (o : Open) (st : OStep) (d : ConnId) (hw : st ≠ .task (.write d)) :
    ((Open.step env o st).sys.conns d).written = (o.sys.conns d).written
    ∧ (((Open.step env o st).sys.conns d).wr = (o.sys.conns d).wr
      ∨ ∃ a, st = .answer d a ∧ ((Open.step env o st).sys.conns d).wr = (o.sys.conns d).wr.later [a]) := by
  cases st with
  | task t =>
    cases t with
    | read c =>
      simp only [Open.step, Open.stepRead]
      split
      · exact ⟨rfl, .inl rfl⟩
      · obtain ⟨_, _, h3, _, h5, _⟩ := Sys.stepRead_conn env o.sys c d
        exact ⟨h5, .inl h3⟩
    | write c =>
      have := (write_other env o c (d := d) (fun e => hw (by rw [e]))).2
      exact ⟨congrArg _ this, .inl (congrArg _ this)⟩
    | handler now =>
      show ((Sys.stepHandler env now o.sys).conns d).written = _ ∧ (((Sys.stepHandler env now o.sys).conns d).wr = _ ∨ _)
      rcases Sys.stepHandler_conn env now o.sys d with e | ⟨_, _, _, _, _, e⟩ <;> rw [e] <;> exact ⟨rfl, .inl rfl⟩
    | ctrlC => exact ⟨rfl, .inl rfl⟩
    | stop =>
      show ((Sys.step env o.sys .stop).conns d).written = _ ∧ (((Sys.step env o.sys .stop).conns d).wr = _ ∨ _)
      have e : (Sys.step env o.sys .stop).conns = o.sys.conns := by
        simp only [Sys.step]
        repeat' split
        all_goals rfl
      rw [e]
      exact ⟨rfl, .inl rfl⟩
  | arrive c seg =>
    by_cases hd : d = c
    · subst hd; simp [Open.step, Open.setConn, Sys.setConn]
    · simp [Open.step, Open.setConn, Sys.setConn, hd]
  | hangUp c fin =>
    by_cases hd : d = c
    · subst hd; simp [Open.step, Open.setConn, Sys.setConn]
    · simp [Open.step, Open.setConn, Sys.setConn, hd]
  | answer c a =>
    by_cases hd : d = c
    · subst hd; simp [Open.step, Open.setConn, Sys.setConn]
    · simp [Open.step, Open.setConn, Sys.setConn, hd]

variable {env : Env} {peers : ConnId → Sys.Peer} {σ : Nat → OStep}

local notation "ℓ" => nth env peers σ
local notation "ι" => brought peers σ
local notation "κ" => closed env peers σ

/-- What the write task has begun to write is of a kind it can write. -/
theorem begun_server (n : Nat) (d : ConnId) : ∀ p ∈ begun (ℓ n) d, ServerPacket p := by
  intro p hp
  have hinv := inv (env := env) (peers := peers) (σ := σ) n
  have h := (begun_sent (env := env) (peers := peers) (σ := σ) n d).subset (List.mem_map_of_mem hp)
  rw [(same n).delivered] at h
  exact Sys.delivered_server (Sys.reads_orderly_served hinv.reads) (d := d) ((hinv.serves.delivered d).subset h)

theorem answered_given (n : Nat) {d : ConnId} {a : WriteOutcome} (h : σ n = .answer d a) : a ∈ (ι (n + 1) d).script := by
  unfold brought
  rw [firstOf_succ, Open.given_append, h]
  simp [given, give]

theorem clear_always {d : ConnId} (ht : ∀ n, ∀ o ∈ (ι n d).script, ∃ k, o = .accept k ∧ 4096 ≤ k + 1) (n : Nat) :
    Clear ((ℓ n).opn.sys.conns d) := by
  induction n with
  | zero => exact ⟨⟨WStream.new_wf _ _, by simp [nth, firstOf, run, init, Open.init, Sys.init, Sys.Peer.conn, WStream.new, BytesMut.withCapacity],
      ht 0, List.nil_prefix⟩, rfl, rfl⟩
  | succ n ih =>
    have hb := begun_server (env := env) (peers := peers) (σ := σ) (n + 1) d
    unfold begun at hb
    by_cases hw : σ n = .task (.write d)
    · have e := live_write (env := env) (peers := peers) n hw
      rw [e] at hb ⊢
      exact clear_write env _ d ih hb
    · rw [nth_succ]
      rcases open_step env (ℓ n) (σ n) with e | ⟨e, _⟩
      · rw [e]
        obtain ⟨h1, h2⟩ := other_wr env (ℓ n).opn (σ n) d hw
        rcases h2 with h2 | ⟨a, ha, h2⟩
        · exact ih.congr h2 h1
        · obtain ⟨h3, h4, h5⟩ := ih
          have ho' : ∀ o ∈ ((ℓ n).opn.sys.conns d).wr.script ++ [a], ∃ k, o = .accept k ∧ 4096 ≤ k + 1 := ?_
          · exact ⟨by rw [h2]; exact ⟨h3.wf, h3.total, ho', h3.wire⟩, by rw [h2]; exact h4, by rw [h2, h1]; exact h5⟩
          intro o ho
          rcases List.mem_append.mp ho with ho | ho
          · exact h3.takes o ho
          · rw [List.mem_singleton.mp ho]
            exact ht (n + 1) a (answered_given n ha)
      · rw [e]; exact ih

/-- What is written has been taken by the socket. -/
theorem written_seen {d : ConnId} (ht : ∀ n, ∀ o ∈ (ι n d).script, ∃ k, o = .accept k ∧ 4096 ≤ k + 1) (n : Nat) :
    wireOf ((ℓ n).opn.sys.conns d).written <+: (ℓ n).opn.seen env d := by
  have h := clear_always (env := env) (peers := peers) (σ := σ) ht n
  unfold Open.seen
  cases hh : (ℓ n).opn.hand d with
  | none => simp only; rw [h.wire]; exact List.prefix_rfl
  | some p =>
    simp only
    rw [← h.wire]
    exact (WStream.writePacket_roomy env.alloc (by decide) p h.roomy.start).2.1.wire

end Ratel.Live
