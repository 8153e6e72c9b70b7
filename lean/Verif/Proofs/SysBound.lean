/-
How much the broker can write at all, and sockets that take as much.
-/
import Verif.Proofs.SysFair

namespace Ratel

open Decoder Encoder Spec

/-! ### Writes needed for a packet -/

/-- With `n` writes the socket answers, `m` does not wait for the socket; and it needs no more than these. -/
def Cost (n : Nat) (m : M WStream Unit) : Prop :=
  ∀ s, n ≤ s.script.length → (m s).1 ≠ .pending ∧ s.script.length ≤ (m s).2.script.length + n

namespace Cost

theorem bind {a b : Nat} {m k : M WStream Unit} (hm : Cost a m) (hk : Cost b k) : Cost (a + b) (m >>= fun _ => k) := by
  intro s hs
  have h1 := hm s (by omega)
  rw [M.bind_apply]
  rcases hms : m s with ⟨r, s₁⟩
  rw [hms] at h1
  obtain ⟨h1, h2⟩ := h1
  dsimp only at h2
  cases r with
  | ok u =>
    obtain ⟨h3, h4⟩ := hk s₁ (by omega)
    exact ⟨h3, by dsimp only; omega⟩
  | pending => exact absurd rfl h1
  | _ => exact ⟨by simp, by dsimp only; omega⟩

theorem pure : Cost 0 (Pure.pure () : M WStream Unit) := fun s _ => ⟨by simp, by simp⟩

theorem panic : Cost 0 (M.panic : M WStream Unit) := fun s _ => ⟨by simp [M.panic], by simp [M.panic]⟩

theorem writeBuf (al : Alloc) : Cost 1 (WStream.writeBuf al) := by
  intro s hs
  unfold WStream.writeBuf
  by_cases he : s.buf.data = []
  · simp [he]
  · simp only [he, ↓reduceIte]
    rcases s with ⟨buf, wire, script⟩
    cases script with
    | nil => simp at hs
    | cons o r => cases o <;> simp

theorem tooSmall (al : Alloc) (n : Nat) : Cost 1 (WStream.writeBufferIfTooSmall al n) := by
  intro s hs
  unfold WStream.writeBufferIfTooSmall
  split
  · exact writeBuf al s hs
  · exact ⟨by simp, by simp⟩

theorem bufPut (al : Alloc) (bs : List UInt8) : Cost 0 (WStream.bufPut al bs) := fun s _ => ⟨by simp [WStream.bufPut], by simp [WStream.bufPut]⟩

theorem putBytes (al : Alloc) (bs : List UInt8) : Cost bs.length (WStream.putBytes al bs) := by
  intro s hs
  fun_induction WStream.putBytes al bs s with
  | case1 bytes s h0 => exact ⟨by simp, by simp⟩
  | case2 bytes s h0 w hw => exact ⟨by simp, by simp⟩
  | case3 bytes s h0 w hw _ s' hr ih =>
    have := tooSmall al w s (by omega)
    rw [hr] at this
    obtain ⟨_, h2⟩ := this
    dsimp only at h2
    have hd : (bytes.drop w).length + 1 ≤ bytes.length := by rw [List.length_drop]; omega
    obtain ⟨h3, h4⟩ := ih (by dsimp only; omega)
    exact ⟨h3, by dsimp only at h4; omega⟩
  | case7 bytes s h0 w hw s' hr =>
    have := tooSmall al w s (by omega)
    rw [hr] at this
    exact absurd rfl this.1
  | case4 bytes s h0 w hw e s' hr =>
    have := tooSmall al w s (by omega)
    rw [hr] at this
    exact ⟨by simp, by have := this.2; dsimp only at this ⊢; omega⟩
  | case5 bytes s h0 w hw s' hr =>
    have := tooSmall al w s (by omega)
    rw [hr] at this
    exact ⟨by simp, by have := this.2; dsimp only at this ⊢; omega⟩
  | case6 bytes s h0 w hw s' hr =>
    have := tooSmall al w s (by omega)
    rw [hr] at this
    exact ⟨by simp, by have := this.2; dsimp only at this ⊢; omega⟩

end Cost

/-- Some number of writes suffices. -/
def Costs (m : M WStream Unit) : Prop := ∃ n, Cost n m

namespace Costs

theorem bind {m k : M WStream Unit} (hm : Costs m) (hk : Costs k) : Costs (m >>= fun _ => k) :=
  let ⟨_, h1⟩ := hm; let ⟨_, h2⟩ := hk; ⟨_, h1.bind h2⟩

variable (al : Alloc)

theorem putU8 (b : UInt8) : Costs (WStream.putU8 al b) := ⟨_, (Cost.tooSmall al 1).bind (Cost.bufPut al [b])⟩

theorem putU16 (n : UInt16) : Costs (WStream.putU16 al n) := ⟨_, (Cost.tooSmall al 2).bind (Cost.bufPut al (u16Bytes n))⟩

theorem putBytes (bs : List UInt8) : Costs (WStream.putBytes al bs) := ⟨_, Cost.putBytes al bs⟩

theorem encodeRemainingLength (n : Nat) : letI := WStream.sink al; Costs (Encoder.encodeRemainingLength n) := by
  letI := WStream.sink al
  induction n using Nat.strongRecOn with
  | _ n ih =>
    rw [Encoder.encodeRemainingLength]
    refine (putU8 al _).bind ?_
    split
    · exact ⟨_, Cost.pure⟩
    · exact ih _ (by omega)

theorem writeReturnCodes (cs : List SubAckReturnCode) : letI := WStream.sink al; Costs (Encoder.writeReturnCodes cs) := by
  letI := WStream.sink al
  induction cs with
  | nil => exact ⟨_, Cost.pure⟩
  | cons c cs ih => exact (putU8 al _).bind ih

theorem writeWithId (b : UInt8) (i : UInt16) : letI := WStream.sink al; Costs (writePacketWithPacketId b i) :=
  letI := WStream.sink al
  (putU8 al _).bind ((encodeRemainingLength al _).bind (putU16 al _))

theorem writePacket (p : ControlPacket) : letI := WStream.sink al; Costs (Encoder.writePacket p) := by
  letI := WStream.sink al
  refine Costs.bind ?_ ⟨_, Cost.writeBuf al⟩
  cases p with
  | connAck p => exact (putU8 al _).bind ((encodeRemainingLength al _).bind ((putU8 al _).bind (putU8 al _)))
  | publish p =>
    refine (putU8 al _).bind ((encodeRemainingLength al _).bind ?_)
    refine Costs.bind ((putU16 al _).bind (putBytes al _)) ?_
    cases p.packetId with
    | none => exact putBytes al _
    | some i => exact (putU16 al i).bind (putBytes al _)
  | pubAck i => exact writeWithId al _ _
  | pubRec i => exact writeWithId al _ _
  | pubRel i => exact writeWithId al _ _
  | pubComp i => exact writeWithId al _ _
  | subAck p => exact (putU8 al _).bind ((encodeRemainingLength al _).bind ((putU16 al _).bind (writeReturnCodes al _)))
  | unsubAck i => exact writeWithId al _ _
  | pingResp => exact (putU8 al _).bind (encodeRemainingLength al _)
  | _ => exact ⟨_, Cost.panic⟩

end Costs

/-- How many writes a packet needs at most. -/
noncomputable def writesFor (al : Alloc) (p : ControlPacket) : Nat := (Costs.writePacket al p).choose

theorem writesFor_spec (al : Alloc) (p : ControlPacket) : letI := WStream.sink al; Cost (writesFor al p) (writePacket p) :=
  (Costs.writePacket al p).choose_spec

noncomputable def writesForAll (al : Alloc) (ps : List ControlPacket) : Nat := (ps.map (writesFor al)).sum

theorem writesForAll_append (al : Alloc) (ps qs : List ControlPacket) : writesForAll al (ps ++ qs) = writesForAll al ps + writesForAll al qs := by
  simp [writesForAll]

theorem writeOn_script (al : Alloc) (ps : List ControlPacket) (s : WStream) (h : writesForAll al ps ≤ s.script.length) :
    s.script.length ≤ (writeOn al ps s).script.length + writesForAll al ps := by
  induction ps generalizing s with
  | nil => simp [writeOn]
  | cons p ps ih =>
    have hc : writesForAll al (p :: ps) = writesFor al p + writesForAll al ps := by simp [writesForAll]
    rw [hc] at h ⊢
    obtain ⟨_, h2⟩ := writesFor_spec al p s (by omega)
    have := ih _ (by omega : writesForAll al ps ≤ (letI := WStream.sink al; ((Encoder.writePacket p : M WStream Unit) s).2).script.length)
    rw [writeOn]
    omega

namespace Sys

/-- A write task waits for the socket for ever only when the socket has answered few writes. -/
def WaitsRightly (env : Env) (peer : Peer) (k : Conn) : Prop := k.wrBlocked = true → peer.script.length < writesForAll env.alloc k.written

theorem waitsRightly_step (env : Env) (peers : ConnId → Peer) (s : Sys) (st : Step) (h : Inv env peers s) (d : ConnId)
    (hd : WaitsRightly env (peers d) (s.conns d)) : WaitsRightly env (peers d) ((step env s st).conns d) := by
  cases st with
  | read c =>
    obtain ⟨_, _, _, e4, e5, _⟩ := stepRead_conn env s c d
    simp only [step]
    unfold WaitsRightly
    rw [e4, e5]
    exact hd
  | write c =>
    simp only [step]
    by_cases hc : d = c
    · subst hc
      have hw := stepWrite_wrote env s d
      have hin := h.writes d
      have hk := fun p => delivered_kind h.serves (d := d) (p := p)
      generalize hk' : (stepWrite env s d).conns d = k' at hw
      cases hw with
      | idle => exact hd
      | packet p rest blocked hq ho hb hw hw' =>
        intro hx
        have hall := hin.all ho
        have hmem : ∀ q ∈ (s.conns d).written ++ [p], (serverBytes q).isSome = true := by
          intro q hq'
          apply hk
          rw [hall, hq]
          rcases List.mem_append.mp hq' with hq' | hq'
          · exact List.mem_append_left _ (List.mem_map_of_mem hq')
          · rw [List.mem_singleton] at hq'; subst hq'; simp
        have hterm := (C17_writer_terminates env.alloc 4096 (peers d).script (s.conns d).written p hmem).1
        rw [← hin.wr] at hterm
        have hpend := (hw hx).resolve_right hterm
        refine Nat.lt_of_not_le fun hle => ?_
        dsimp only at hle
        rw [writesForAll_append] at hle
        have h1 : writesForAll env.alloc [p] = writesFor env.alloc p := by simp [writesForAll]
        rw [h1] at hle
        have hs : (WStream.new 4096 (peers d).script).script = (peers d).script := rfl
        have h2 := writeOn_script env.alloc (s.conns d).written (WStream.new 4096 (peers d).script) (by rw [hs]; omega)
        rw [← hin.wr, hs] at h2
        exact (writesFor_spec env.alloc p (s.conns d).wr (by omega)).1 hpend
      | panic p rest hq ho hb hp => intro hx; rw [show _ = false from hb] at hx; cases hx
      | disconnect rest hq ho => exact hd
      | gone hq ho hs => exact hd
    · rw [stepWrite_other env s hc]; exact hd
  | handler now =>
    simp only [step]
    rcases stepHandler_conn env now s d with he | ⟨e, todo, _, hrx, hroom, he⟩
    · rw [he]; exact hd
    · rw [he]; exact hd
  | ctrlC => exact hd
  | stop =>
    unfold step
    cases hh : s.handler with
    | idle => simp only; split <;> exact hd
    | _ => exact hd

theorem waitsRightly_run (env : Env) (peers : ConnId → Peer) (sched : List Step) (d : ConnId) :
    WaitsRightly env (peers d) ((run env (init peers) sched).conns d) := by
  obtain ⟨l, rfl⟩ : ∃ l, sched = l.reverse := ⟨sched.reverse, by simp⟩
  induction l with
  | nil => intro h; simp [run, init, Peer.conn] at h
  | cons st l ih =>
    rw [List.reverse_cons]
    have : run env (init peers) (l.reverse ++ [st]) = step env (run env (init peers) l.reverse) st := by simp [run]
    rw [this]
    exact waitsRightly_step env peers _ st (inv_run env peers _) d ih

/-! ### Finite input, bounded output -/

/-- A function on lists of bounded length over finitely many elements is bounded. -/
theorem bounded_lists {α : Type} (A : List α) (L : Nat) (f : List α → Nat) : ∃ B, ∀ l, l.length ≤ L → (∀ a ∈ l, a ∈ A) → f l ≤ B := by
  induction L generalizing f with
  | zero => exact ⟨f [], fun l hl _ => by cases l with | nil => exact Nat.le_refl _ | cons a l => simp at hl⟩
  | succ L ih =>
    have : ∀ A' : List α, ∃ B, ∀ a ∈ A', ∀ l, l.length ≤ L → (∀ a ∈ l, a ∈ A) → f (a :: l) ≤ B := by
      intro A'
      induction A' with
      | nil => exact ⟨0, by simp⟩
      | cons x A' ih' =>
        obtain ⟨B, hB⟩ := ih'
        obtain ⟨C, hC⟩ := ih fun l => f (x :: l)
        refine ⟨B + C, fun a ha l hl hm => ?_⟩
        rcases List.mem_cons.mp ha with rfl | ha
        · have := hC l hl hm; omega
        · have := hB a ha l hl hm; omega
    obtain ⟨B, hB⟩ := this A
    refine ⟨B + f [], fun l hl hm => ?_⟩
    cases l with
    | nil => omega
    | cons a l =>
      have := hB a (hm a List.mem_cons_self) l (by simpa using hl) (fun x hx => hm x (List.mem_cons_of_mem _ hx))
      omega

/-- Bytes stand for finitely many packets: there is a longest list. -/
theorem longest (pr : Profile) (bytes : List UInt8) (fin : Ending) : ∃ ps, Decodes pr bytes fin ps ∧ ∀ qs, Decodes pr bytes fin qs → qs <+: ps := by
  have key : ∀ n (s : Plain), s.bytes.length = n → ∃ m ps t, (readMany pr m : M Plain _) s = (.ok ps, t) ∧ ps.length = m
      ∧ ∀ p u, (Decoder.readPacket pr : M Plain _) t ≠ (.ok p, u) := by
    intro n
    induction n using Nat.strongRecOn with
    | _ n ih =>
      intro s hs
      by_cases h : ∃ p u, (Decoder.readPacket pr : M Plain _) s = (.ok p, u)
      · obtain ⟨p, u, h⟩ := h
        obtain ⟨m, ps, t, h1, h2, h3⟩ := ih _ (hs ▸ decoded_shrinks h) u rfl
        refine ⟨m + 1, p :: ps, t, ?_, by simp [h2], h3⟩
        rw [readMany, M.bind_ok h, M.bind_ok h1]
        rfl
      · exact ⟨0, [], s, rfl, rfl, fun p u hp => h ⟨p, u, hp⟩⟩
  obtain ⟨m, ps, t, h1, h2, h3⟩ := key _ ⟨bytes, fin⟩ rfl
  refine ⟨ps, ⟨t, by rw [h2]; exact h1⟩, fun qs hq => ?_⟩
  obtain ⟨u, hq⟩ := hq
  exact readMany_mono h1 h3 hq

/-- What clients send stands for what they mean, and nothing else. -/
theorem decodes_client_only {pr : Profile} {fin : Ending} {cs : List ClientPacket} (h : Sendable cs) {qs : List ControlPacket}
    (hq : Decodes pr (clientBytes cs) fin qs) : qs <+: cs.map meaning := by
  have key : ∀ cs, Sendable cs → (readMany pr cs.length : M Plain _) ⟨clientBytes cs, fin⟩ = (.ok (cs.map meaning), ⟨[], fin⟩) := by
    intro cs h
    induction cs with
    | nil => rfl
    | cons c cs ih =>
      have ih := ih fun x hx => h x (List.mem_cons_of_mem _ hx)
      obtain ⟨h1, h2, h3⟩ := h c List.mem_cons_self
      have := C07_client_packets pr c h1 h2 h3 (clientBytes cs) fin
      rw [List.map_cons, List.length_cons, readMany]
      show (_ >>= _ : M Plain _) ⟨packet (clientFirst c) (clientRest c) ++ clientBytes cs, fin⟩ = _
      rw [M.bind_ok this, M.bind_ok ih]
      rfl
  obtain ⟨u, hq⟩ := hq
  refine readMany_mono (key cs h) (fun p u hp => ?_) hq
  exact absurd (decoded_shrinks hp) (Nat.not_lt_zero _)

theorem sumTo_le {N : Nat} {f g : Nat → Nat} (h : ∀ c, c < N → f c ≤ g c) : sumTo N f ≤ sumTo N g := by
  induction N with
  | zero => exact Nat.le_refl _
  | succ N ih =>
    rw [sumTo_succ, sumTo_succ]
    have := ih fun c hc => h c (by omega)
    have := h N (by omega)
    omega

theorem le_sumTo {N c : Nat} (hc : c < N) (f : Nat → Nat) : f c ≤ sumTo N f := by
  induction N with
  | zero => exact absurd hc (Nat.not_lt_zero _)
  | succ N ih =>
    rw [sumTo_succ]
    by_cases h : c = N
    · subst h; omega
    · have := ih (by omega); omega

theorem length_le_filters {N : Nat} {evs : List ClientEvent} (h : ∀ ev ∈ evs, ∃ c : Nat, c < N ∧ From c ev) :
    evs.length ≤ sumTo N fun c => (evs.filter fun ev => From c ev).length := by
  induction evs with
  | nil => exact Nat.zero_le _
  | cons ev evs ih =>
    obtain ⟨c, hc, hf⟩ := h ev List.mem_cons_self
    have h1 := ih fun e he => h e (List.mem_cons_of_mem _ he)
    have : (sumTo N fun c => (evs.filter fun ev => From c ev).length) < sumTo N fun c => ((ev :: evs).filter fun ev => From c ev).length := by
      refine sumTo_lt hc (by simp [hf]) fun d hd => ?_
      have : ¬ From d ev := by
        cases ev with
        | connected p a tx => exact fun h' => hd (h'.symm.trans hf)
        | controlPacket i p tx => exact fun h' => hd (h'.symm.trans hf)
        | disconnected i => exact hf.elim
        | connectionLost i => exact hf.elim
      simp [this]
    simp only [List.length_cons]
    omega

/-- Whatever function of the events handled: it is bounded, over all schedules. -/
theorem bounded_orderly (env : Env) (peers : ConnId → Peer) (N : Nat) (f : List ClientEvent → Nat) :
    ∃ B, ∀ evs, Orderly env peers evs → (∀ ev ∈ evs, ∃ c : Nat, c < N ∧ From c ev) → f evs ≤ B := by
  have hex := fun c : Nat => longest env.profile (peers c).segs.flatten (peers c).fin
  obtain ⟨B, hB⟩ := bounded_lists ((List.range N).flatMap fun c => eventsOf (peers c) c (hex c).choose)
    (sumTo N fun c => (eventsOf (peers c) c (hex c).choose).length) f
  refine ⟨B, fun evs ho hf => hB evs ?_ ?_⟩
  · refine Nat.le_trans (length_le_filters hf) (sumTo_le fun c _ => ?_)
    obtain ⟨ps, h1, h2⟩ := ho c
    exact (h2.trans (eventsOf_mono ((hex c).choose_spec.2 ps h1))).length_le
  · intro ev hev
    obtain ⟨c, hc, hfc⟩ := hf ev hev
    obtain ⟨ps, h1, h2⟩ := ho c
    refine List.mem_flatMap.mpr ⟨c, List.mem_range.mpr hc, ?_⟩
    exact (h2.trans (eventsOf_mono ((hex c).choose_spec.2 ps h1))).subset (List.mem_filter.mpr ⟨hev, by simpa using hfc⟩)

/-- Only the connections that take part are the source of events. -/
theorem few_from (env : Env) (peers : ConnId → Peer) {N : Nat} {σ : Nat → Step} (hf : Few N σ) (n : Nat) :
    ∀ ev ∈ (run env (init peers) (firstSteps σ n)).served, ∃ c : Nat, c < N ∧ From c ev := by
  intro ev hev
  have hr := (inv_run env peers (firstSteps σ n)).reads
  obtain ⟨c, hc⟩ := hr.from_conn ev (List.mem_append_left _ hev)
  refine ⟨c, Nat.lt_of_not_le fun hle => ?_, hc⟩
  have hp := untouched env hle (few_firstSteps hf n) (s := init peers) rfl
  have := first_taken hr hp
  have hmem : ev ∈ (run env (init peers) (firstSteps σ n)).taken c := List.mem_filter.mpr ⟨List.mem_append_left _ hev, by simpa using hc⟩
  rw [this] at hmem
  cases hmem

/-- The packets among server events. -/
def packetsIn (evs : List ServerEvent) : List ControlPacket :=
  evs.filterMap fun
    | .controlPacket p => some p
    | .disconnect => none

theorem packetsIn_map (ps : List ControlPacket) : packetsIn (ps.map .controlPacket) = ps := by
  induction ps with
  | nil => rfl
  | cons p ps ih => rw [List.map_cons]; unfold packetsIn at ih ⊢; rw [List.filterMap_cons]; simp only; rw [ih]

theorem written_prefix {env : Env} {peers : ConnId → Peer} {s : Sys} (h : Inv env peers s) (d : ConnId) :
    (s.conns d).written <+: packetsIn (Broker.start.outputs env.auth s.served d) := by
  have := ((List.prefix_append _ _).trans (h.writes d).sent).trans (h.serves.delivered d)
  obtain ⟨t, ht⟩ := this
  rw [← ht]
  unfold packetsIn
  rw [List.filterMap_append]
  have := packetsIn_map (s.conns d).written
  unfold packetsIn at this
  rw [this]
  exact List.prefix_append _ _

theorem sameInput_eventsOf {peer peer' : Peer} (h : SameInput peer peer') (c : ConnId) (ps : List ControlPacket) :
    eventsOf peer' c ps = eventsOf peer c ps := by
  cases ps with
  | nil => rfl
  | cons p ps => cases p <;> simp [Spec.eventsOf, idOf, h.addr, h.uuid]

theorem sameInput_orderly {env : Env} {peers peers' : ConnId → Peer} (h : ∀ c, SameInput (peers c) (peers' c)) {evs : List ClientEvent}
    (ho : Orderly env peers' evs) : Orderly env peers evs := by
  intro c
  obtain ⟨ps, h1, h2⟩ := ho c
  rw [(h c).bytes, (h c).fin] at h1
  rw [sameInput_eventsOf (h c)] at h2
  exact ⟨ps, h1, h2⟩

/-- There are so many writes that no write task ever waits for ever. -/
theorem enough_writes (env : Env) (peers : ConnId → Peer) (N : Nat) : ∃ B, ∀ peers', (∀ c, SameInput (peers c) (peers' c)) →
    (∀ c, c < N → B ≤ (peers' c).script.length) → ∀ σ, Few N σ → ∀ n (c : Nat), c < N →
      ((run env (init peers') (firstSteps σ n)).conns c).wrBlocked = false := by
  obtain ⟨B, hB⟩ := bounded_orderly env peers N fun evs =>
    sumTo N fun d => writesForAll env.alloc (packetsIn (Broker.start.outputs env.auth evs d))
  refine ⟨B, fun peers' hs hl σ hf n c hc => ?_⟩
  have hinv := inv_run env peers' (firstSteps σ n)
  have h1 := hB _ (sameInput_orderly hs (reads_orderly_served hinv.reads)) (few_from env peers' hf n)
  have h2 : writesForAll env.alloc (packetsIn (Broker.start.outputs env.auth (run env (init peers') (firstSteps σ n)).served c))
      ≤ sumTo N fun d => writesForAll env.alloc (packetsIn (Broker.start.outputs env.auth (run env (init peers') (firstSteps σ n)).served d)) := by
    exact le_sumTo hc fun d => writesForAll env.alloc (packetsIn (Broker.start.outputs env.auth (run env (init peers') (firstSteps σ n)).served d))
  cases hb : ((run env (init peers') (firstSteps σ n)).conns c).wrBlocked with
  | false => rfl
  | true =>
    have h3 := waitsRightly_run env peers' (firstSteps σ n) c hb
    obtain ⟨t, ht⟩ := written_prefix hinv c
    rw [← ht, writesForAll_append] at h2
    have := hl c hc
    omega

end Sys

end Ratel
