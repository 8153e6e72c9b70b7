/-
Invariants of the running broker: what the packet handler does is what the sequential broker does, and what the write tasks do with it.
-/
import Verif.Proofs.SysRead
import Verif.Proofs.Broker

namespace Ratel

open Decoder Encoder Spec

/-! ### The sequential broker, event by event from the end -/

theorem outputs_append (auth : IdentityProvider) (evs evs' : List ClientEvent) (b : Broker) (d : ConnId) :
    b.outputs auth (evs ++ evs') d
      = b.outputs auth evs d ++ (match b.after auth evs with | some b' => b'.outputs auth evs' d | none => []) := by
  induction evs generalizing b with
  | nil => rfl
  | cons ev evs ih =>
    rw [List.cons_append, Broker.outputs, Broker.outputs, Broker.after]
    cases b.step auth ev with
    | none => rfl
    | some r => simp only [ih, List.append_assoc]

theorem after_snoc {auth : IdentityProvider} {evs : List ClientEvent} {b b' : Broker} {ev : ClientEvent} {out : Outputs}
    (h : Broker.start.after auth evs = some b) (hs : b.step auth ev = some (b', out)) :
    Broker.start.after auth (evs ++ [ev]) = some b' := by
  rw [after_append, h, Option.bind_some, Broker.after, hs]
  rfl

theorem outputs_snoc {auth : IdentityProvider} {evs : List ClientEvent} {b b' : Broker} {ev : ClientEvent} {out : Outputs}
    (h : Broker.start.after auth evs = some b) (hs : b.step auth ev = some (b', out)) (d : ConnId) :
    Broker.start.outputs auth (evs ++ [ev]) d = Broker.start.outputs auth evs d ++ out d := by
  rw [outputs_append, h]
  simp [Broker.outputs, hs]

theorem outputs_snoc_none {auth : IdentityProvider} {evs : List ClientEvent} {b : Broker} {ev : ClientEvent}
    (h : Broker.start.after auth evs = some b) (hs : b.step auth ev = none) (d : ConnId) :
    Broker.start.outputs auth (evs ++ [ev]) d = Broker.start.outputs auth evs d := by
  rw [outputs_append, h]
  simp [Broker.outputs, hs]

theorem after_prefix {auth : IdentityProvider} {evs evs' : List ClientEvent} {b b' : Broker}
    (h : b.after auth (evs ++ evs') = some b') : ∃ b₁, b.after auth evs = some b₁ ∧ b₁.after auth evs' = some b' := by
  rw [after_append] at h
  cases hb : b.after auth evs with
  | none => rw [hb] at h; cases h
  | some b₁ => exact ⟨b₁, rfl, by rwa [hb] at h⟩

theorem after_one {auth : IdentityProvider} {b b' : Broker} {ev : ClientEvent} (h : b.after auth [ev] = some b') :
    ∃ out, b.step auth ev = some (b', out) := by
  rw [Broker.after] at h
  cases hs : b.step auth ev with
  | none => rw [hs] at h; cases h
  | some r =>
    obtain ⟨b₁, out⟩ := r
    rw [hs] at h
    simp only [Broker.after, Option.some.injEq] at h
    subst h
    exact ⟨out, rfl⟩

/-- Induction on the events taken, the last one first. -/
theorem snoc_induction {α : Type} {P : List α → Prop} (nil : P []) (snoc : ∀ l a, P l → P (l ++ [a])) (l : List α) : P l := by
  have : ∀ l : List α, P l.reverse := by
    intro l
    induction l with
    | nil => exact nil
    | cons a l ih => rw [List.reverse_cons]; exact snoc _ _ ih
  simpa using this l.reverse

namespace Sys

/-- The events taken by the packet handler so far, in order. -/
def served (s : Sys) : List ClientEvent := s.log.map Prod.fst

@[simp] theorem setConn_served (s : Sys) (c : ConnId) (k : Conn) : (s.setConn c k).served = s.served := rfl

/-- Everything the handler was given is either sent or about to be. -/
inductive Serves (env : Env) (s : Sys) : Prop
  | rest (b : Broker) (hh : s.handler = .idle ∨ s.handler = .stopped) (ha : Broker.start.after env.auth s.served = some b)
      (hr : Rep s.messaging b) (ho : ∀ d, (s.conns d).delivered = Broker.start.outputs env.auth s.served d)
  | sending (todo : List (ConnId × ServerEvent)) (pre : List ClientEvent) (ev : ClientEvent) (b b' : Broker) (out : Outputs)
      (hh : s.handler = .busy todo) (he : s.served = pre ++ [ev]) (hp : Broker.start.after env.auth pre = some b)
      (hs : b.step env.auth ev = some (b', out)) (hr : Rep s.messaging b')
      (ho : ∀ d, (s.conns d).delivered ++ sentTo todo d = Broker.start.outputs env.auth s.served d)
      (hout : ∀ d, sentTo todo d <:+ out d)
  | failed (pre : List ClientEvent) (ev : ClientEvent) (b : Broker) (hh : s.handler = .crashed) (he : s.served = pre ++ [ev])
      (hp : Broker.start.after env.auth pre = some b) (hs : b.step env.auth ev = none)
      (ho : ∀ d, (s.conns d).delivered = Broker.start.outputs env.auth s.served d)
  | broken (pre : List ClientEvent) (ev : ClientEvent) (b b' : Broker) (out : Outputs) (d : ConnId) (hh : s.handler = .crashed)
      (he : s.served = pre ++ [ev]) (hp : Broker.start.after env.auth pre = some b) (hs : b.step env.auth ev = some (b', out))
      (hd : out d ≠ []) (hrx : (s.conns d).rxOpen = false)
      (ho : ∀ d, (s.conns d).delivered <+: Broker.start.outputs env.auth s.served d)

theorem sentTo_cons (d : ConnId) (ev : ServerEvent) (todo : List (ConnId × ServerEvent)) (c : ConnId) :
    sentTo ((d, ev) :: todo) c = (if d = c then [ev] else []) ++ sentTo todo c := by
  by_cases h : d = c <;> simp [sentTo, h]

theorem serves_init (env : Env) (peers : ConnId → Peer) : Serves env (init peers) :=
  .rest Broker.start (.inl rfl) rfl rep_new fun _ => rfl

/-- Nothing that matters to the handler changed. -/
theorem Serves.congr {env : Env} {s s' : Sys} (h : Serves env s) (hh : s'.handler = s.handler) (hm : s'.messaging = s.messaging)
    (hl : s'.served = s.served) (hk : ∀ d, (s'.conns d).delivered = (s.conns d).delivered)
    (hx : ∀ d, (s.conns d).rxOpen = false → (s'.conns d).rxOpen = false) : Serves env s' := by
  cases h with
  | rest b h1 h2 h3 h4 => exact .rest b (by rwa [hh]) (by rwa [hl]) (by rwa [hm]) (fun d => by rw [hk, hl]; exact h4 d)
  | sending todo pre ev b b' out h1 h2 h3 h4 h5 h6 h7 =>
    exact .sending todo pre ev b b' out (by rwa [hh]) (by rwa [hl]) h3 h4 (by rwa [hm]) (fun d => by rw [hk, hl]; exact h6 d) h7
  | failed pre ev b h1 h2 h3 h4 h5 => exact .failed pre ev b (by rwa [hh]) (by rwa [hl]) h3 h4 (fun d => by rw [hk, hl]; exact h5 d)
  | broken pre ev b b' out d h1 h2 h3 h4 h5 h6 h7 =>
    exact .broken pre ev b b' out d (by rwa [hh]) (by rwa [hl]) h3 h4 h5 (hx d h6) (fun d => by rw [hk, hl]; exact h7 d)

theorem stepHandler_serves (env : Env) (now : Instant) (s : Sys) (h : Serves env s) : Serves env (stepHandler env now s) := by
  cases h with
  | rest b hh h2 h3 h4 =>
    unfold stepHandler
    rcases hh with hh | hh
    · rw [hh]
      simp only
      cases hev : s.events with
      | nil => exact .rest b (.inl hh) h2 h3 h4
      | cons ev rest =>
        simp only
        have hl : ∀ (s' : Sys), s'.log = s.log ++ [(ev, now)] → s'.served = s.served ++ [ev] := by
          intro s' h; simp [served, h]
        have href := handle_refines env.auth now h3 ev
        cases hm : Handler.handle env.auth now s.messaging ev with
        | none =>
          rw [hm] at href
          simp only
          cases hb : b.step env.auth ev with
          | some r => rw [hb] at href; exact href.elim
          | none => exact .failed s.served ev b rfl (hl _ rfl) h2 hb fun d => by rw [hl _ rfl, outputs_snoc_none h2 hb]; exact h4 d
        | some r =>
          obtain ⟨m, sends⟩ := r
          rw [hm] at href
          cases hb : b.step env.auth ev with
          | none => rw [hb] at href; exact href.elim
          | some r =>
            obtain ⟨b', out⟩ := r
            rw [hb] at href
            obtain ⟨h5, h6⟩ := href
            cases sends with
            | nil =>
              simp only
              refine .rest b' (.inl rfl) ?_ h5 fun d => ?_
              · rw [hl _ rfl]; exact after_snoc h2 hb
              · rw [hl _ rfl, outputs_snoc h2 hb, ← h6 d]; simpa [sentTo] using h4 d
            | cons x sends =>
              simp only
              refine .sending (x :: sends) s.served ev b b' out rfl (hl _ rfl) h2 hb h5 (fun d => ?_) fun d => ?_
              · rw [hl _ rfl, outputs_snoc h2 hb, h6 d, ← h4 d]
              · rw [h6 d]; exact List.suffix_refl _
    · rw [hh]
      exact .rest b (.inr hh) h2 h3 h4
  | sending todo pre ev b b' out hh he hp hs hr ho hout =>
    unfold stepHandler
    rw [hh]
    cases todo with
    | nil =>
      refine .rest b' (.inl rfl) ?_ hr fun d => ?_
      · have : s.served = pre ++ [ev] := he
        show Broker.start.after env.auth s.served = some b'
        rw [this]; exact after_snoc hp hs
      · have := ho d
        rw [sentTo_nil, List.append_nil] at this
        exact this
    | cons x todo =>
      obtain ⟨d, e⟩ := x
      simp only
      by_cases hrx : (s.conns d).rxOpen = true
      · rw [if_pos hrx]
        by_cases hroom : (s.conns d).queue.length < channelCapacity
        · rw [if_pos hroom]
          have hdel : ∀ c, ((({ s with handler := if todo = [] then HandlerState.idle else .busy todo } : Sys).setConn d
              { s.conns d with queue := (s.conns d).queue ++ [e], delivered := (s.conns d).delivered ++ [e] }).conns c).delivered
              ++ sentTo todo c = Broker.start.outputs env.auth s.served c := by
            intro c
            rw [← ho c, sentTo_cons]
            by_cases hc : c = d
            · subst hc; simp
            · rw [setConn_other _ _ hc]; simp [Ne.symm hc]
          have hsuf : ∀ c, sentTo todo c <:+ out c := by
            intro c
            refine List.IsSuffix.trans ?_ (hout c)
            rw [sentTo_cons]
            exact List.suffix_append _ _
          by_cases ht : todo = []
          · subst ht
            refine .rest b' (.inl (by simp)) ?_ hr fun c => ?_
            · show Broker.start.after env.auth s.served = some b'
              rw [he]; exact after_snoc hp hs
            · have := hdel c
              rw [sentTo_nil, List.append_nil] at this
              exact this
          · exact .sending todo pre ev b b' out (by simp [ht]) he hp hs hr hdel hsuf
        · rw [if_neg hroom]; exact .sending _ pre ev b b' out hh he hp hs hr ho hout
      · rw [if_neg hrx]
        refine .broken pre ev b b' out d rfl he hp hs ?_ (by simpa using hrx) fun c => ⟨_, ho c⟩
        intro h0
        have := hout d
        rw [h0, sentTo_cons] at this
        simp at this
  | failed pre ev b hh h2 h3 h4 h5 =>
    unfold stepHandler
    rw [hh]
    exact .failed pre ev b hh h2 h3 h4 h5
  | broken pre ev b b' out d hh h2 h3 h4 h5 h6 h7 =>
    unfold stepHandler
    rw [hh]
    exact .broken pre ev b b' out d hh h2 h3 h4 h5 h6 h7

/-! ### Which parts a step leaves alone -/

theorem stepRead_conn (env : Env) (s : Sys) (c d : ConnId) : ((stepRead env s c).conns d).queue = (s.conns d).queue
    ∧ ((stepRead env s c).conns d).rxOpen = (s.conns d).rxOpen ∧ ((stepRead env s c).conns d).wr = (s.conns d).wr
    ∧ ((stepRead env s c).conns d).wrBlocked = (s.conns d).wrBlocked ∧ ((stepRead env s c).conns d).written = (s.conns d).written
    ∧ ((stepRead env s c).conns d).delivered = (s.conns d).delivered := by
  have hset : ∀ (s' : Sys) (k : Conn), s'.conns = s.conns → k.queue = (s.conns c).queue → k.rxOpen = (s.conns c).rxOpen → k.wr = (s.conns c).wr →
      k.wrBlocked = (s.conns c).wrBlocked → k.written = (s.conns c).written → k.delivered = (s.conns c).delivered →
      ((s'.setConn c k).conns d).queue = (s.conns d).queue ∧ ((s'.setConn c k).conns d).rxOpen = (s.conns d).rxOpen
      ∧ ((s'.setConn c k).conns d).wr = (s.conns d).wr ∧ ((s'.setConn c k).conns d).wrBlocked = (s.conns d).wrBlocked
      ∧ ((s'.setConn c k).conns d).written = (s.conns d).written ∧ ((s'.setConn c k).conns d).delivered = (s.conns d).delivered := by
    intro s' k hs h1 h2 h3 h4 h5 h6
    by_cases hd : d = c
    · subst hd; rw [setConn_self]; exact ⟨h1, h2, h3, h4, h5, h6⟩
    · rw [setConn_other _ _ hd, hs]; exact ⟨rfl, rfl, rfl, rfl, rfl, rfl⟩
  unfold stepRead
  simp only
  split
  · split
    · split
      · exact hset _ _ rfl rfl rfl rfl rfl rfl rfl
      · exact ⟨rfl, rfl, rfl, rfl, rfl, rfl⟩
    · exact hset _ _ rfl rfl rfl rfl rfl rfl rfl
  · unfold readTask
    split
    · split <;> exact hset _ _ rfl rfl rfl rfl rfl rfl rfl
    · split <;> exact hset _ _ rfl rfl rfl rfl rfl rfl rfl
    · exact hset _ _ rfl rfl rfl rfl rfl rfl rfl
    · exact hset _ _ rfl rfl rfl rfl rfl rfl rfl

theorem stepRead_rest (env : Env) (s : Sys) (c : ConnId) : (stepRead env s c).handler = s.handler
    ∧ (stepRead env s c).messaging = s.messaging ∧ (stepRead env s c).log = s.log ∧ (stepRead env s c).ctrlC = s.ctrlC := by
  unfold stepRead
  simp only
  split
  · split
    · split <;> exact ⟨rfl, rfl, rfl, rfl⟩
    · exact ⟨rfl, rfl, rfl, rfl⟩
  · exact ⟨rfl, rfl, rfl, rfl⟩

/-- What a write step does to the connection. -/
inductive Wrote (env : Env) (s : Sys) (c : ConnId) (k : Conn) : Conn → Prop
  | idle : Wrote env s c k k
  | packet (p : ControlPacket) (rest : List ServerEvent) (blocked : Bool) (hq : k.queue = .controlPacket p :: rest) (ho : k.rxOpen = true)
      (hb : k.wrBlocked = false)
      (hw : letI := WStream.sink env.alloc; blocked = true →
        ((writePacket p : M WStream Unit) k.wr).1 = .pending ∨ ((writePacket p : M WStream Unit) k.wr).1 = .hang)
      (hw' : letI := WStream.sink env.alloc; blocked = false →
        ((writePacket p : M WStream Unit) k.wr).1 ≠ .pending ∧ ((writePacket p : M WStream Unit) k.wr).1 ≠ .hang) :
      Wrote env s c k { k with queue := rest, wr := letI := WStream.sink env.alloc; ((writePacket p : M WStream Unit) k.wr).2
                               written := k.written ++ [p], wrBlocked := blocked }
  | panic (p : ControlPacket) (rest : List ServerEvent) (hq : k.queue = .controlPacket p :: rest) (ho : k.rxOpen = true)
      (hb : k.wrBlocked = false)
      (hp : letI := WStream.sink env.alloc; ((writePacket p : M WStream Unit) k.wr).1 = .panic) :
      Wrote env s c k { k with queue := [], wr := letI := WStream.sink env.alloc; ((writePacket p : M WStream Unit) k.wr).2
                               written := k.written ++ [p], rxOpen := false }
  | disconnect (rest : List ServerEvent) (hq : k.queue = .disconnect :: rest) (ho : k.rxOpen = true) :
      Wrote env s c k { k with queue := [], rxOpen := false }
  | gone (hq : k.queue = []) (ho : k.rxOpen = true) (hs : s.hasSender c = false) : Wrote env s c k { k with queue := [], rxOpen := false }

theorem stepWrite_other (env : Env) (s : Sys) {c d : ConnId} (h : d ≠ c) : (stepWrite env s c).conns d = s.conns d := by
  unfold stepWrite
  simp only
  split
  · split
    · split <;> rw [setConn_other _ _ h]
    · rw [setConn_other _ _ h]
    · split
      · rfl
      · rw [setConn_other _ _ h]
  · rfl

theorem stepWrite_wrote (env : Env) (s : Sys) (c : ConnId) : Wrote env s c (s.conns c) ((stepWrite env s c).conns c) := by
  unfold stepWrite
  simp only
  by_cases ho : (s.conns c).rxOpen = true
  · by_cases hb : (s.conns c).wrBlocked = true
    · simp only [ho, hb, Bool.not_true, Bool.and_false, Bool.false_eq_true, ↓reduceIte]
      exact .idle
    · simp only [Bool.not_eq_true] at hb
      have hc : ((s.conns c).rxOpen && !(s.conns c).wrBlocked) = true := by simp [ho, hb]
      rw [if_pos hc]
      cases hq : (s.conns c).queue with
      | nil =>
        simp only
        cases hs : s.hasSender c with
        | true => exact .idle
        | false => simp only [Bool.false_eq_true, ↓reduceIte, setConn_self]; exact .gone hq ho hs
      | cons e rest =>
        cases e with
        | disconnect => simp only [setConn_self]; exact .disconnect rest hq ho
        | controlPacket p =>
          simp only
          letI := WStream.sink env.alloc
          rcases hw : (writePacket p : M WStream Unit) (s.conns c).wr with ⟨r, wr⟩
          have hwr : wr = ((writePacket p : M WStream Unit) (s.conns c).wr).2 := by rw [hw]
          cases r with
          | ok u =>
            simp only [setConn_self]; subst hwr
            have := Wrote.packet (env := env) (s := s) (c := c) (k := s.conns c) p rest false hq ho hb (fun h => by cases h) (fun _ => by rw [hw]; simp)
            rw [← hb] at this; exact this
          | err e =>
            simp only [setConn_self]; subst hwr
            have := Wrote.packet (env := env) (s := s) (c := c) (k := s.conns c) p rest false hq ho hb (fun h => by cases h) (fun _ => by rw [hw]; simp)
            rw [← hb] at this; exact this
          | panic => simp only [setConn_self]; subst hwr; exact .panic p rest hq ho hb (by rw [hw])
          | hang => simp only [setConn_self]; subst hwr; exact .packet p rest true hq ho hb (fun _ => .inr (by rw [hw])) (fun h => by cases h)
          | pending => simp only [setConn_self]; subst hwr; exact .packet p rest true hq ho hb (fun _ => .inl (by rw [hw])) (fun h => by cases h)
  · simp only [Bool.not_eq_true] at ho
    simp only [ho, Bool.false_and, Bool.false_eq_true, ↓reduceIte]
    exact .idle

theorem stepWrite_delivered (env : Env) (s : Sys) (c d : ConnId) : ((stepWrite env s c).conns d).delivered = (s.conns d).delivered := by
  by_cases h : d = c
  · subst h
    have := stepWrite_wrote env s d
    generalize (stepWrite env s d).conns d = k' at this ⊢
    cases this <;> rfl
  · rw [stepWrite_other env s h]

theorem stepWrite_rxOpen (env : Env) (s : Sys) (c d : ConnId) (h : (s.conns d).rxOpen = false) :
    ((stepWrite env s c).conns d).rxOpen = false := by
  by_cases hd : d = c
  · subst hd
    have := stepWrite_wrote env s d
    generalize (stepWrite env s d).conns d = k' at this ⊢
    cases this <;> first | rfl | exact h
  · rw [stepWrite_other env s hd]; exact h

/-- What a handler step does to a connection. -/
theorem stepHandler_conn (env : Env) (now : Instant) (s : Sys) (d : ConnId) :
    (stepHandler env now s).conns d = s.conns d
    ∨ ∃ e todo, s.handler = .busy ((d, e) :: todo) ∧ (s.conns d).rxOpen = true ∧ (s.conns d).queue.length < channelCapacity
      ∧ (stepHandler env now s).conns d = { s.conns d with queue := (s.conns d).queue ++ [e], delivered := (s.conns d).delivered ++ [e] } := by
  unfold stepHandler
  split
  · split
    · exact .inl rfl
    · simp only
      split <;> exact .inl rfl
  · exact .inl rfl
  · rename_i c e todo hh
    simp only
    split
    · split
      · rename_i h1 h2
        by_cases hd : d = c
        · subst hd
          exact .inr ⟨e, todo, hh, h1, h2, by rw [setConn_self]⟩
        · rw [setConn_other _ _ hd]; exact .inl rfl
      · exact .inl rfl
    · exact .inl rfl
  · exact .inl rfl
  · exact .inl rfl

theorem serves_step (env : Env) (s : Sys) (st : Step) (h : Serves env s) : Serves env (step env s st) := by
  cases st with
  | read c =>
    obtain ⟨h1, h2, h3, _⟩ := stepRead_rest env s c
    exact h.congr h1 h2 (by simp only [served, step, h3]) (fun d => (stepRead_conn env s c d).2.2.2.2.2)
      (fun d hd => ((stepRead_conn env s c d).2.1).trans hd)
  | write c =>
    obtain ⟨_, h1, h2, h3, _⟩ := stepWrite_rest env s c
    exact h.congr h1 h2 (by simp only [served, step, h3]) (stepWrite_delivered env s c) (stepWrite_rxOpen env s c)
  | handler now => exact stepHandler_serves env now s h
  | ctrlC => exact h.congr rfl rfl rfl (fun _ => rfl) (fun _ h => h)
  | stop =>
    unfold step
    cases hh : s.handler with
    | idle =>
      simp only
      split
      · cases h with
        | rest b _ h2 h3 h4 => exact .rest b (.inr rfl) h2 h3 h4
        | sending _ _ _ _ _ _ h' => rw [hh] at h'; cases h'
        | failed _ _ _ h' => rw [hh] at h'; cases h'
        | broken _ _ _ _ _ _ h' => rw [hh] at h'; cases h'
      · exact h
    | _ => exact h

theorem serves_run (env : Env) (peers : ConnId → Peer) (sched : List Step) : Serves env (run env (init peers) sched) :=
  run_induction (serves_step env) (serves_init env peers) sched

/-- What was delivered is a beginning of what the sequential broker says. -/
theorem Serves.delivered {env : Env} {s : Sys} (h : Serves env s) (d : ConnId) :
    (s.conns d).delivered <+: Broker.start.outputs env.auth s.served d := by
  cases h with
  | rest b h1 h2 h3 h4 => rw [h4 d]; exact List.prefix_refl _
  | sending todo pre ev b b' out h1 h2 h3 h4 h5 h6 h7 => exact ⟨_, h6 d⟩
  | failed pre ev b h1 h2 h3 h4 h5 => rw [h5 d]; exact List.prefix_refl _
  | broken pre ev b b' out d' h1 h2 h3 h4 h5 h6 h7 => exact h7 d

end Sys

end Ratel
