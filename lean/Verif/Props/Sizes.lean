/-
C121: how large the pieces are that the broker keeps and passes on.
-/
import Verif.Proofs.Sizes
import Verif.Props.Memory
import Verif.Props.Load

namespace Ratel

open Decoder Encoder Spec Sys

/-! ### C121 -/

namespace Sys

/-- What is known of the sizes in every execution. -/
structure Sized (n : Nat) (s : Sys) : Prop where
  uuid : ∀ c, (utf8 (s.conns c).uuid).length ≤ n
  rd : ∀ c, (s.conns c).phase ≠ .ended → (s.conns c).phase ≠ .stuck → Sane n (s.conns c).rd
  id : ∀ c i, (s.conns c).phase = .running i → (utf8 i).length ≤ n
  outbox : ∀ c ev, (s.conns c).outbox = some ev → EventUpTo n ev
  events : ∀ ev ∈ s.log.map Prod.fst ++ s.events, EventUpTo n ev

theorem Sized.congr {n : Nat} {s s' : Sys} (h : Sized n s) (hk : ∀ c, SameReader (s.conns c) (s'.conns c))
    (ht : s'.log.map Prod.fst ++ s'.events = s.log.map Prod.fst ++ s.events) : Sized n s' where
  uuid c := by rw [(hk c).uuid]; exact h.uuid c
  rd c h1 h2 := by rw [(hk c).phase] at h1 h2; rw [(hk c).rd]; exact h.rd c h1 h2
  id c i h1 := by rw [(hk c).phase] at h1; exact h.id c i h1
  outbox c ev h1 := by rw [(hk c).outbox] at h1; exact h.outbox c ev h1
  events := by rw [ht]; exact h.events

/-- The same for one connection. -/
structure SizedConn (n : Nat) (k : Conn) : Prop where
  uuid : (utf8 k.uuid).length ≤ n
  rd : k.phase ≠ .ended → k.phase ≠ .stuck → Sane n k.rd
  id : ∀ i, k.phase = .running i → (utf8 i).length ≤ n
  outbox : ∀ ev, k.outbox = some ev → EventUpTo n ev

theorem Sized.conn {n : Nat} {s : Sys} (h : Sized n s) (c : ConnId) : SizedConn n (s.conns c) :=
  ⟨h.uuid c, h.rd c, h.id c, h.outbox c⟩

theorem Sized.set {n : Nat} {s : Sys} (h : Sized n s) (c : ConnId) (k : Conn) (hk : SizedConn n k) : Sized n (s.setConn c k) where
  uuid d := by
    by_cases hd : d = c
    · subst hd; rw [setConn_self]; exact hk.uuid
    · rw [setConn_other _ _ hd]; exact h.uuid d
  rd d := by
    by_cases hd : d = c
    · subst hd; rw [setConn_self]; exact hk.rd
    · rw [setConn_other _ _ hd]; exact h.rd d
  id d := by
    by_cases hd : d = c
    · subst hd; rw [setConn_self]; exact hk.id
    · rw [setConn_other _ _ hd]; exact h.id d
  outbox d := by
    by_cases hd : d = c
    · subst hd; rw [setConn_self]; exact hk.outbox
    · rw [setConn_other _ _ hd]; exact h.outbox d
  events := h.events

theorem readTask_sized (env : Env) {n : Nat} (hn : 66 ≤ n) (c : ConnId) {k : Conn} (h : SizedConn n k) : SizedConn n (readTask env c k) := by
  unfold readTask
  split
  · rename_i hp
    have hrd := h.rd (by rw [hp]; intro x; cases x) (by rw [hp]; intro x; cases x)
    have hg := Gives.readPacket env.alloc hn env.profile k.rd
    split
    · rename_i p rd hr
      obtain ⟨h1, h2⟩ := hg _ _ hrd hr
      have hid : (utf8 (effectiveClientId k p)).length ≤ n := by
        unfold effectiveClientId
        split
        · exact h.uuid
        · exact h1.1 _ (by simp [texts])
      refine ⟨h.uuid, fun _ _ => h2, ?_, ?_⟩
      · intro i hi
        cases hi
        exact hid
      · intro ev he
        cases he
        refine ⟨fun t ht => ?_, Nat.zero_le _⟩
        simp only [texts, List.mem_cons] at ht
        rcases ht with rfl | ht
        · exact hid
        · exact h1.1 t (by simp only [texts, List.mem_cons]; exact .inr ht)
    · exact ⟨h.uuid, fun h1 _ => absurd rfl h1, (fun i hi => by cases hi), h.outbox⟩
    · exact ⟨h.uuid, fun h1 _ => absurd rfl h1, (fun i hi => by cases hi), h.outbox⟩
    · exact ⟨h.uuid, fun h1 _ => absurd rfl h1, (fun i hi => by cases hi), h.outbox⟩
    · exact ⟨h.uuid, fun _ h1 => absurd rfl h1, (fun i hi => by cases hi), h.outbox⟩
    · exact h
  · rename_i id hp
    have hrd := h.rd (by rw [hp]; intro x; cases x) (by rw [hp]; intro x; cases x)
    have hg := Gives.readPacket env.alloc hn env.profile k.rd
    split
    · rename_i p rd hr
      obtain ⟨h1, h2⟩ := hg _ _ hrd hr
      refine ⟨h.uuid, fun _ _ => h2, h.id, ?_⟩
      intro ev he
      cases he
      exact ⟨h.id _ hp, h1⟩
    · exact ⟨h.uuid, fun h1 _ => absurd rfl h1, (fun i hi => by cases hi), h.outbox⟩
    · exact ⟨h.uuid, fun h1 _ => absurd rfl h1, (fun i hi => by cases hi), h.outbox⟩
    · exact ⟨h.uuid, fun _ h1 => absurd rfl h1, (fun i hi => by cases hi), h.outbox⟩
    · exact h
  · exact h
  · exact h

theorem sized_step (env : Env) {n : Nat} (hn : 66 ≤ n) (s : Sys) (st : Step) (h : Sized n s) : Sized n (step env s st) := by
  cases st with
  | read c =>
    unfold step stepRead
    simp only
    have hk := h.conn c
    have hnone : SizedConn n { s.conns c with outbox := none } := ⟨hk.uuid, hk.rd, hk.id, fun _ h => by cases h⟩
    split
    · rename_i ev ho
      split
      · split
        · refine Sized.set (s := { s with events := s.events ++ [ev] }) ⟨h.uuid, h.rd, h.id, h.outbox, fun x hx => ?_⟩ c _ hnone
          simp only [← List.append_assoc] at hx
          rcases List.mem_append.mp hx with hx | hx
          · exact h.events x hx
          · rw [List.mem_singleton.mp hx]; exact h.outbox c ev ho
        · exact h
      · exact h.set c _ hnone
    · exact h.set c _ (readTask_sized env hn c hk)
  | write c =>
    obtain ⟨h1, _, _, h4, _⟩ := stepWrite_rest env s c
    exact h.congr (stepWrite_reader env s c) (by simp only [step]; rw [h1, h4])
  | handler now => exact h.congr (stepHandler_reader env now s) (stepHandler_taken env now s)
  | ctrlC => exact h.congr (fun _ => SameReader.refl _) rfl
  | stop =>
    simp only [step]
    split
    · split
      · exact h.congr (fun _ => SameReader.refl _) rfl
      · exact h
    · exact h

theorem sized_run (env : Env) (peers : ConnId → Peer) (hu : ∀ c, (utf8 (peers c).uuid).length ≤ 4096) (sched : List Step) :
    Sized 4096 (run env (init peers) sched) := by
  induction sched using snoc_induction with
  | nil =>
    refine ⟨hu, fun c _ _ => ⟨(rel_new 4096 (peers c).segs (peers c).fin).wf, ?_⟩, fun c i h => ?_, fun c ev h => ?_, fun ev h => ?_⟩
    · show (RStream.new 4096 (peers c).segs (peers c).fin).buf.off + (RStream.new 4096 (peers c).segs (peers c).fin).buf.cap = 4096
      simp [RStream.new, BytesMut.withCapacity]
    · cases h
    · cases h
    · cases h
  | snoc sched st ih =>
    have hrun : run env (init peers) (sched ++ [st]) = step env (run env (init peers) sched) st := by
      simp only [run, List.foldl_append, List.foldl_cons, List.foldl_nil]
    rw [hrun]
    exact sized_step env (by decide) _ st ih

end Sys

/-- C121. In every execution, every event taken from a client has no text and no message longer than the read buffer, 4096 bytes, whatever
lengths the client announced; and neither has anything that is sent to a client. -/
theorem C121_sizes (env : Env) (peers : ConnId → Peer) (hu : ∀ c, (utf8 (peers c).uuid).length ≤ 4096) (sched : List Step) :
    (∀ ev ∈ (run env (init peers) sched).log.map Prod.fst ++ (run env (init peers) sched).events, EventUpTo 4096 ev)
    ∧ ∀ c, ∀ e ∈ ((run env (init peers) sched).conns c).delivered, ServerUpTo 4096 e := by
  have hs := sized_run env peers hu sched
  refine ⟨hs.events, fun c e he => ?_⟩
  have hinv := inv_run env peers sched
  obtain ⟨pre, ev, post, b, h, _, h2⟩ := outputs_mem ((hinv.serves.delivered c).subset he)
  have hev : EventUpTo 4096 ev := hs.events ev (List.mem_append_left _ (by
    have : ev ∈ pre ++ ev :: post := by simp
    rw [← h] at this
    exact this))
  cases h2 with
  | publish id q tx x _ _ _ => exact hev.2
  | accepted | refused | subAck | unsubAck | pingResp => exact ⟨by simp [texts], Nat.zero_le _⟩
  | away | expired => trivial

theorem chars_le_bytes (t : String) : t.toList.length ≤ (utf8 t).length := by
  have : ∀ l : List Char, l.length ≤ (l.flatMap String.utf8EncodeChar).length := by
    intro l
    induction l with
    | nil => exact Nat.le_refl _
    | cons c l ih =>
      have := c.utf8Size_pos
      simp only [List.length_cons, List.flatMap_cons, List.length_append, String.length_utf8EncodeChar]
      omega
  have h := this t.toList
  rw [show utf8 t = t.toList.flatMap String.utf8EncodeChar by
    unfold utf8
    rw [← String.utf8Encode_toList, List.utf8Encode]
    simp]
  exact h

theorem length_joinLevels (ls : List (List Char)) : ls.length ≤ (joinLevels ls).length + 1 := by
  induction ls with
  | nil => simp
  | cons l ls ih =>
    cases ls with
    | nil => simp
    | cons l' ls =>
      rw [joinLevels]
      simp only [List.length_cons, List.length_append] at ih ⊢
      omega
      simp

/-- A text has no more levels than bytes, and one. -/
theorem levels_le_bytes {t : String} {ls : List String} (h : Levels t ls) : ls.length ≤ (utf8 t).length + 1 := by
  have h1 := length_joinLevels (ls.map String.toList)
  rw [h.join, List.length_map] at h1
  have := chars_le_bytes t
  omega

/-- C121, the tree of subscriptions: in every execution it is at most 4097 levels deep, so taking a client out of it, which calls itself
once for every level, is never more than 4098 calls deep. -/
theorem C121_depth (env : Env) (peers : ConnId → Peer) (hu : ∀ c, (utf8 (peers c).uuid).length ≤ 4096) (sched : List Step) :
    ∀ p ∈ (run env (init peers) sched).messaging.subscriptions.root.paths, p.length ≤ 4097 := by
  intro p hp
  rw [tree_run] at hp
  rcases ((paths_repo _).2 p).mp hp with rfl | ⟨f, hf, hpre⟩
  · exact Nat.zero_le _
  · refine Nat.le_trans hpre.length_le (Nat.le_trans (levels_le_bytes (levels_splitTopic f)) ?_)
    obtain ⟨op, hop, hfo⟩ := List.mem_flatMap.mp hf
    obtain ⟨ev, hev, ho⟩ := List.mem_flatMap.mp hop
    have hsz := (sized_run env peers hu sched).events ev (List.mem_append_left _ hev)
    have : (utf8 f).length ≤ 4096 := by
      cases ev with
      | connected p a tx => cases ho
      | disconnected id => cases ho
      | connectionLost id => cases List.mem_singleton.mp ho; cases hfo
      | controlPacket id p tx =>
        cases p with
        | subscribe s =>
          obtain ⟨x, hx, rfl⟩ := List.mem_map.mp ho
          rw [List.mem_singleton.mp hfo]
          exact hsz.2.1 _ (List.mem_map.mpr ⟨x, hx, rfl⟩)
        | unsubscribe u =>
          cases List.mem_singleton.mp ho
          exact hsz.2.1 _ hfo
        | disconnect => cases List.mem_singleton.mp ho; cases hfo
        | _ => cases ho
    omega

-- a tree 1000 levels deep
example (env : Env) : ∃ sched, List.replicate 1000 "+" ∈
    (run env (init (soloPeers (echo (pluses 1000) .atMostOnce))) sched).messaging.subscriptions.root.paths := by
  have hl := pluses_levels 1000 (by decide)
  have hsolo := echo_solo (pluses 1000) (by rw [show 1000 = 999 + 1 from rfl, pluses_length 999]; decide)
  obtain ⟨sched, todo, -, -, h⟩ := echo_taken env _ (pluses 1000) (by rw [ways_pluses hl]; exact Nat.two_pow_pos 1000) .atMostOnce hsolo
  refine ⟨sched, ?_⟩
  rw [tree_run, h, (paths_repo _).2]
  refine .inr ⟨pluses 1000, ?_, by rw [← levels_unique hl]; exact List.prefix_refl _⟩
  simp [echoEvents, subOps, SubOp.named]

end Ratel
