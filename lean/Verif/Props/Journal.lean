/-
C162, C163, and C157, C158, C160, C161 for the whole process: the log from the start of the process on.
-/
import Verif.Proofs.Journal
import Verif.Props.Logging
import Verif.Props.Boot
import Verif.Props.Files

namespace Ratel

open Spec Sys

/-! ### C157, C158, C160, C161 for the process -/

theorem started_transcript (t : Texts) (env : Env) (W : Nat) (peers : ConnId → Peer) (addrs : List String) (bs : List BStep) :
    ∃ sched, (Boot.run env W ⟨Proc.start 0 peers, addrs, false⟩ bs).proc.sys = Sys.run env (init peers) sched
      ∧ ofBroker (Boot.transcript t env W ⟨Proc.start 0 peers, addrs, false⟩ bs) = ofBroker (Sys.transcript t env (init peers) sched) :=
  boot_transcript t env W ⟨Proc.start 0 peers, addrs, false⟩ bs

theorem handler_split (rs : List LogRecord) : rs.filter (fun r => ofHandler r && !housekeeping r) = (ofBroker rs).filter ofHandler := by
  unfold ofBroker; rw [List.filter_filter]

theorem handler_swap (lv : Level) (rs : List LogRecord) : upTo lv ((ofBroker rs).filter ofHandler) = ofBroker (upTo lv (rs.filter ofHandler)) := by
  unfold ofBroker upTo
  simp only [List.filter_filter]
  congr 1
  funext r
  cases ofHandler r <;> cases housekeeping r <;> simp

/-- C158 for the process: from the beginning of the start to its end. -/
theorem C158_process (t : Texts) (env : Env) (W : Nat) (peers : ConnId → Peer) (addrs : List String) (bs : List BStep) (level : Level)
    (hlevel : level = .info ∨ level = .debug ∨ level = .trace) :
    (upTo level (Boot.transcript t env W ⟨Proc.start 0 peers, addrs, false⟩ bs)).filterMap (shown t)
      = (Boot.run env W ⟨Proc.start 0 peers, addrs, false⟩ bs).proc.sys.log.filterMap fun x => refusal env.auth x.1 := by
  obtain ⟨sched, h1, h2⟩ := started_transcript t env W peers addrs bs
  have hb : ∀ rs : List LogRecord, (upTo level rs).filterMap (shown t) = (upTo level (ofBroker rs)).filterMap (shown t) := by
    intro rs
    induction rs with
    | nil => rfl
    | cons r rs ih =>
      by_cases hk : housekeeping r = true
      · have hn : shown t r = none := shown_level (.inr fun ho => by simp [housekeeping, ho] at hk)
        have e1 : ofBroker (r :: rs) = ofBroker rs := by unfold ofBroker; rw [List.filter_cons, if_neg (by simp [hk])]
        rw [e1, ← ih]
        unfold upTo
        rw [List.filter_cons]
        split
        · rw [List.filterMap_cons_none hn]
        · rfl
      · have e1 : ofBroker (r :: rs) = r :: ofBroker rs := by unfold ofBroker; rw [List.filter_cons, if_pos (by simp [hk])]
        rw [e1]
        have e2 : ∀ l : List LogRecord, upTo level (r :: l) = upTo level [r] ++ upTo level l := fun l => upTo_append level [r] l
        rw [e2 rs, e2 (ofBroker rs), List.filterMap_append, List.filterMap_append, ih]
  rw [hb, h2, ← hb, h1]
  exact C158_refusals t env peers sched level hlevel

/-- C157 for the process, the part that holds: at DEBUG the log of the packet handler and of the messaging service, but for what is about the
process, does not depend on passwords and contents of messages. Missing: TRACE. -/
theorem C157_process_partial (t : Texts) (env env' : Env) (W W' : Nat) (peers peers' : ConnId → Peer) (addrs addrs' : List String)
    (bs bs' : List BStep)
    (h : Matched (fun x y => redacted x.1 = redacted y.1 ∧ refusal env.auth x.1 = refusal env'.auth y.1)
        (Boot.run env W ⟨Proc.start 0 peers, addrs, false⟩ bs).proc.sys.log (Boot.run env' W' ⟨Proc.start 0 peers', addrs', false⟩ bs').proc.sys.log)
    (hs : (Boot.run env W ⟨Proc.start 0 peers, addrs, false⟩ bs).proc.sys.handler = .stopped
      ↔ (Boot.run env' W' ⟨Proc.start 0 peers', addrs', false⟩ bs').proc.sys.handler = .stopped) :
    upTo .debug ((Boot.transcript t env W ⟨Proc.start 0 peers, addrs, false⟩ bs).filter fun r => ofHandler r && !housekeeping r)
      = upTo .debug ((Boot.transcript t env' W' ⟨Proc.start 0 peers', addrs', false⟩ bs').filter fun r => ofHandler r && !housekeeping r) := by
  obtain ⟨sched, h1, h2⟩ := started_transcript t env W peers addrs bs
  obtain ⟨sched', h1', h2'⟩ := started_transcript t env' W' peers' addrs' bs'
  rw [h1, h1'] at h hs
  have hd := (C157_debug_partial t env env' peers peers' sched sched').1 h hs
  rw [handler_split, handler_split, h2, h2', handler_swap, handler_swap, hd]

/-- C161 is violated, for the process: at DEBUG the log of the packet handler and of the messaging service does not tell users apart. -/
theorem C161_process_fails (t : Texts) (env env' : Env) (W W' : Nat) (peers peers' : ConnId → Peer) (addrs addrs' : List String)
    (bs bs' : List BStep)
    (h : Matched (fun x y => (x.1 = y.1 ∧ refusal env.auth x.1 = refusal env'.auth y.1)
          ∨ ∃ p a c p' a' c', x.1 = .connected p a c ∧ y.1 = .connected p' a' c' ∧ p.clientId = p'.clientId
            ∧ login env.auth p = .accepted ∧ login env'.auth p' = .accepted)
        (Boot.run env W ⟨Proc.start 0 peers, addrs, false⟩ bs).proc.sys.log (Boot.run env' W' ⟨Proc.start 0 peers', addrs', false⟩ bs').proc.sys.log)
    (hs : (Boot.run env W ⟨Proc.start 0 peers, addrs, false⟩ bs).proc.sys.handler = .stopped
      ↔ (Boot.run env' W' ⟨Proc.start 0 peers', addrs', false⟩ bs').proc.sys.handler = .stopped) :
    upTo .debug ((Boot.transcript t env W ⟨Proc.start 0 peers, addrs, false⟩ bs).filter fun r => ofHandler r && !housekeeping r)
      = upTo .debug ((Boot.transcript t env' W' ⟨Proc.start 0 peers', addrs', false⟩ bs').filter fun r => ofHandler r && !housekeeping r) := by
  obtain ⟨sched, h1, h2⟩ := started_transcript t env W peers addrs bs
  obtain ⟨sched', h1', h2'⟩ := started_transcript t env' W' peers' addrs' bs'
  rw [h1, h1'] at h hs
  have hd := C161_who_fails t env env' peers peers' sched sched' h hs
  rw [handler_split, handler_split, h2, h2', handler_swap, handler_swap, hd]

/-- C157 is violated, for the process: at TRACE the passwords of all CONNECTs handled are in the log. -/
theorem C157_process_fails (t : Texts) (env : Env) (W : Nat) (peers : ConnId → Peer) (addrs : List String) (bs : List BStep)
    (p : ConnectPacket) (a : SocketAddr) (c : ConnId) (now : Instant) (pw : String)
    (h : (ClientEvent.connected p a c, now) ∈ (Boot.run env W ⟨Proc.start 0 peers, addrs, false⟩ bs).proc.sys.log)
    (hp : p.password = some pw) (ht : PlainText t pw) :
    ∃ r ∈ upTo .trace (Boot.transcript t env W ⟨Proc.start 0 peers, addrs, false⟩ bs), pw.toList <:+: r.message := by
  obtain ⟨sched, h1, h2⟩ := started_transcript t env W peers addrs bs
  rw [h1] at h
  obtain ⟨m, hm⟩ := handled_records t env peers sched h
  have hr := hm _ List.mem_cons_self
  have hb : (⟨.trace, .handler, "Got event ".toList ++ Fmt.clientEvent t (.connected p a c)⟩ : LogRecord)
      ∈ ofBroker (Sys.transcript t env (init peers) sched) := List.mem_filter.mpr ⟨hr, rfl⟩
  rw [← h2] at hb
  exact ⟨_, List.mem_filter.mpr ⟨(List.mem_filter.mp hb).1, rfl⟩,
    infix_mid ((quoted_plain ht).trans ((password_shown t p hp).trans (event_connect_shown t p a c)))⟩

/-- C160 for the process, the part that holds. Missing: the two records named. -/
theorem C160_process_partial (t : Texts) (ht : Sober t) (env : Env) (W : Nat) (peers : ConnId → Peer) (addrs : List String) (bs : List BStep)
    (r : LogRecord) (hr : r ∈ Boot.transcript t env W ⟨Proc.start 0 peers, addrs, false⟩ bs) (hk : housekeeping r = false)
    (ch : Char) (hch : ch ∈ r.message) (hc : Control ch) :
    (∃ u e, ch ∈ u.toList ∧ r = ⟨.info, .handler, "Client ".toList ++ String.toList u ++ " authentication error: ".toList ++ Fmt.authError t e⟩)
    ∨ ∃ id, ch ∈ id.toList ∧ r = ⟨.error, .handler, "Received PING from not existing session with client id ".toList ++ String.toList id⟩ := by
  obtain ⟨sched, _, h2⟩ := started_transcript t env W peers addrs bs
  have hb : r ∈ ofBroker (Boot.transcript t env W ⟨Proc.start 0 peers, addrs, false⟩ bs) := List.mem_filter.mpr ⟨hr, by simp [hk]⟩
  rw [h2] at hb
  exact C160_control_partial t ht env peers sched r (List.mem_filter.mp hb).1 ch hch hc

/-! ### C162 -/

theorem told_upTo {level : Level} (hlevel : level = .info ∨ level = .debug ∨ level = .trace) (rs : List LogRecord) :
    told (upTo level rs) = told rs := by
  unfold told upTo
  rw [List.filter_filter]
  congr 2
  funext r
  by_cases h : r.level = .info
  · have : r.level.rank ≤ level.rank := by
      rw [h]; rcases hlevel with rfl | rfl | rfl <;> decide
    simp [this]
  · simp [h]

theorem listening_upTo {level : Level} (hlevel : level = .info ∨ level = .debug ∨ level = .trace) (rs : List LogRecord) :
    listening (upTo level rs) = listening rs := by
  induction rs with
  | nil => rfl
  | cons r rs ih =>
    have e : ∀ l : List LogRecord, listening (r :: l) = listening [r] ++ listening l := fun l => listening_append [r] l
    unfold upTo
    rw [List.filter_cons]
    split
    · rw [e, e rs]; congr 1
    · rename_i h
      have : listening [r] = [] := by
        refine listening_nil fun x hx => .inr fun hi => h ?_
        rw [List.mem_singleton] at hx
        subst hx
        rw [hi]; rcases hlevel with rfl | rfl | rfl <;> decide
      rw [e rs, this]
      exact ih

theorem told_first (t : Texts) (version commit config : List Char) (sv : StdVersion) (hs : Hashing) (env : Env) (peers : ConnId → Peer)
    (settings : Option Settings) (read : String → Option (List Char)) :
    told (Boot.firstRecords t version commit config sv hs env peers settings read) = [saysInitializing version commit]
    ∧ listening (Boot.firstRecords t version commit config sv hs env peers settings read) = [] := by
  unfold Boot.firstRecords
  constructor
  · cases settings with
    | none => rfl
    | some s => simp only; cases Boot.launch sv hs env peers (some s) read <;> rfl
  · cases settings with
    | none => rfl
    | some s => simp only; cases Boot.launch sv hs env peers (some s) read <;> rfl

theorem initializing_head (version commit : List Char) : ∃ rest, saysInitializing version commit = 'I' :: rest :=
  ⟨"nitializing RatelMQ v".toList ++ version ++ " (".toList ++ commit.take 10 ++ ")...".toList, by
    unfold saysInitializing
    rw [show "Initializing RatelMQ v".toList = 'I' :: "nitializing RatelMQ v".toList by decide +kernel]
    rfl⟩

/-- C162. With RUST_LOG set to INFO or finer, the main task says, in this order and each once, that it begins, that the broker is ready, that
it stops and that it has stopped. If the settings cannot be loaded or the password file cannot be used, it says only that it begins.
Otherwise it has said "ready" if and only if all addresses are bound and it waits for ctrl-c or has got it; that it stops if and only if ctrl-c
has come since; that it has stopped if and only if it has shut down in order, which is when the process is about to end, or has ended, with
status 0. -/
theorem C162_life (t : Texts) (version commit config : List Char) (sv : StdVersion) (hs : Hashing) (env : Env) (W : Nat) (peers : ConnId → Peer)
    (settings : Option Settings) (read : String → Option (List Char)) (bs : List BStep) (level : Level)
    (hlevel : level = .info ∨ level = .debug ∨ level = .trace) (said : List (List Char))
    (hsaid : said = told (upTo level (Boot.journal t version commit config sv hs env W peers settings read bs))) :
    said <+: [saysInitializing version commit, saysReady, saysStopping, saysStopped]
    ∧ (Boot.launch sv hs env peers settings read = none → said = [saysInitializing version commit])
    ∧ ∀ env' b, Boot.launch sv hs env peers settings read = some (env', b) →
      (saysReady ∈ said ↔ (Boot.run env' W b bs).ready = true)
      ∧ (saysStopping ∈ said ↔ (Boot.run env' W b bs).ready = true ∧ (Boot.run env' W b bs).proc.main ≠ .serving)
      ∧ (saysStopped ∈ said ↔ (Boot.run env' W b bs).proc.main = .returned ∨ (Boot.run env' W b bs).proc.main = .exited true) := by
  rw [told_upTo hlevel] at hsaid
  unfold Boot.journal at hsaid
  rw [told_append, (told_first t version commit config sv hs env peers settings read).1] at hsaid
  obtain ⟨rest, hi⟩ := initializing_head version commit
  have n12 : saysReady ≠ saysInitializing version commit := by
    rw [hi, show saysReady = 'S' :: saysReady.tail by decide +kernel]; intro h; injection h with h; revert h; decide
  have n13 : saysStopping ≠ saysInitializing version commit := by
    rw [hi, show saysStopping = 'S' :: saysStopping.tail by decide +kernel]; intro h; injection h with h; revert h; decide
  have n14 : saysStopped ≠ saysInitializing version commit := by
    rw [hi, show saysStopped = 'R' :: saysStopped.tail by decide +kernel]; intro h; injection h with h; revert h; decide
  clear hi
  have n23 : saysReady ≠ saysStopping := by decide +kernel
  have n24 : saysReady ≠ saysStopped := by decide +kernel
  have n34 : saysStopping ≠ saysStopped := by decide +kernel
  generalize saysInitializing version commit = i at *
  cases hl : Boot.launch sv hs env peers settings read with
  | none =>
    rw [hl] at hsaid
    have : said = [i] := hsaid
    refine ⟨by rw [this]; exact ⟨[saysReady, saysStopping, saysStopped], rfl⟩, fun _ => this, fun env' b h => by cases h⟩
  | some x =>
    obtain ⟨env', b⟩ := x
    obtain ⟨s, _, _, _, _, _, _, hb⟩ := Boot.launch_eq hl
    rw [hl] at hsaid
    simp only at hsaid
    obtain ⟨h1, h2⟩ := sayings_run t env' W b bs (by subst hb; exact fun _ => .inl rfl)
    have h3 : sayings b = [] := by subst hb; rfl
    rw [h3, List.nil_append] at h2
    rw [← h2] at hsaid
    have hlast : said <+: [i, saysReady, saysStopping, saysStopped]
        ∧ (saysReady ∈ said ↔ (Boot.run env' W b bs).ready = true)
        ∧ (saysStopping ∈ said ↔ (Boot.run env' W b bs).ready = true ∧ (Boot.run env' W b bs).proc.main ≠ .serving)
        ∧ (saysStopped ∈ said ↔ (Boot.run env' W b bs).proc.main = .returned ∨ (Boot.run env' W b bs).proc.main = .exited true) := by
      rw [hsaid]
      generalize Boot.run env' W b bs = q at *
      unfold sayings
      cases hr : q.ready with
      | false =>
        refine ⟨⟨[saysReady, saysStopping, saysStopped], rfl⟩, by simp [n12], by simp [n13], ?_⟩
        rcases h1 hr with h | h | h <;> simp [h, n14]
      | true =>
        simp only [↓reduceIte]
        cases hm : q.proc.main with
        | serving => exact ⟨⟨[saysStopping, saysStopped], rfl⟩, by simp, by simp [parting, n13, n23.symm], by simp [parting, n14, n24.symm]⟩
        | returned => exact ⟨⟨[], rfl⟩, by simp, by simp [parting], by simp [parting]⟩
        | exited ok =>
          cases ok with
          | true => exact ⟨⟨[], rfl⟩, by simp, by simp [parting], by simp [parting]⟩
          | false => exact ⟨⟨[saysStopped], rfl⟩, by simp, by simp [parting], by simp [parting, n14, n24.symm, n34.symm]⟩
        | _ => exact ⟨⟨[saysStopped], rfl⟩, by simp, by simp [parting], by simp [parting, n14, n24.symm, n34.symm]⟩
    refine ⟨hlast.1, fun h => (by cases h), fun env'' b' h => ?_⟩
    injection h with h
    injection h with he hb'
    subst he hb'
    exact hlast.2

/-- C162. The addresses that the log says are listened on are those for which there is a listener, in the order of the settings; when the
broker says that it is ready, these are all addresses of the settings. -/
theorem C162_addresses (t : Texts) (version commit config : List Char) (sv : StdVersion) (hs : Hashing) (env env' : Env) (W : Nat)
    (peers : ConnId → Peer) (s : Settings) (read : String → Option (List Char)) (b : Boot)
    (hl : Boot.launch sv hs env peers (some s) read = some (env', b)) (bs : List BStep) (level : Level)
    (hlevel : level = .info ∨ level = .debug ∨ level = .trace) :
    listening (upTo level (Boot.journal t version commit config sv hs env W peers (some s) read bs))
      = (s.listenersTcp.take (Boot.run env' W b bs).proc.listeners.length).map String.toList
    ∧ ((Boot.run env' W b bs).ready = true →
      listening (upTo level (Boot.journal t version commit config sv hs env W peers (some s) read bs)) = s.listenersTcp.map String.toList) := by
  rw [listening_upTo hlevel]
  unfold Boot.journal
  rw [listening_append, (told_first t version commit config sv hs env peers (some s) read).2, hl]
  obtain ⟨s', _, _, hs', _, _, _, hb⟩ := Boot.launch_eq hl
  injection hs' with hs'
  subst hs'
  obtain ⟨new, h1, h2, h3⟩ := addresses_run t env' W b bs
  simp only [List.nil_append]
  rw [h1]
  have hrest : b.rest = s.listenersTcp := by rw [hb]
  have hzero : b.proc.listeners.length = 0 := by rw [hb]; rfl
  rw [hrest] at h2
  rw [h3, hzero, Nat.zero_add, h2]
  refine ⟨by rw [List.take_left], fun hr => ?_⟩
  have hinv := Boot.binv_run env' W peers s.listenersTcp bs
  rw [← hb] at hinv
  rw [(hinv.started hr).1, List.append_nil]

/-! ### C163 -/

/-- C163, the part that holds: if only finitely many connections ask to be accepted, and the process may have as many sockets as it likes, then
however the tasks are scheduled a point comes after which nothing is logged. Missing: a limit on sockets. -/
theorem C163_quiet_partial (t : Texts) (env : Env) (W L N : Nat) (peers : ConnId → Peer) (τ : Nat → PStep) (hf : PFew N τ) :
    ∃ n, ∀ m, n ≤ m → Proc.records t env W (Proc.run env W (Proc.start L peers) (firstPSteps τ m)) (τ m) = [] := by
  obtain ⟨n, hn⟩ := Proc.pcomes_to_rest env W L peers hf
  refine ⟨n, fun m hm => silent_proc ?_⟩
  rw [← Proc.prun_succ, hn (m + 1) (by omega), hn m hm]

theorem files_transcript_append (t : Texts) (env : Env) (W F : Nat) (p : Proc) (a b : List PStep) :
    Files.transcript t env W F p (a ++ b) = Files.transcript t env W F p a ++ Files.transcript t env W F (Files.run env W F p a) b := by
  induction a generalizing p with
  | nil => rfl
  | cons x a ih =>
    show Files.records t env W F p x ++ Files.transcript t env W F (Files.step env W F p x) (a ++ b) = _
    rw [ih, ← List.append_assoc]
    rfl

theorem errors_succ (t : Texts) (env : Env) (W F : Nat) (p : Proc) (τ : Nat → PStep) (n : Nat) :
    upTo .error (Files.transcript t env W F p (firstPSteps τ (n + 1)))
      = upTo .error (Files.transcript t env W F p (firstPSteps τ n))
        ++ upTo .error (Files.records t env W F (Files.run env W F p (firstPSteps τ n)) (τ n)) := by
  rw [Proc.firstPSteps_succ, files_transcript_append, upTo_append]
  simp [Files.transcript]

theorem errors_grow (t : Texts) (env : Env) (W F : Nat) (p : Proc) (τ : Nat → PStep) {n m : Nat} (h : n ≤ m) :
    (upTo .error (Files.transcript t env W F p (firstPSteps τ n))).length ≤ (upTo .error (Files.transcript t env W F p (firstPSteps τ m))).length := by
  induction h with
  | refl => exact Nat.le_refl _
  | step _ ih => rw [errors_succ, List.length_append]; omega

/-- C163 is violated. Let the operating system allow `F` sockets, and let more than `F` clients connect without a client id and go away at
once (C149). If every task gets its turn again and again then, though no client sends anything any more, the log grows without end: every
attempt to accept one of the others, which wait in vain, makes a record of level ERROR. -/
theorem C163_flood_fails (t : Texts) (env : Env) (W F L N : Nat) (hW : 0 < W) (hF : F < N) (peers : ConnId → Peer) (hp : ∀ c, PassesBy (peers c))
    (hu : ∀ c d, (peers c).uuid = (peers d).uuid → c = d) (τ : Nat → PStep) (hf : PFair N L τ) (hk : Knocking N L τ) (hs : ∀ i, τ i ≠ .signal)
    (B : Nat) : ∃ n, B ≤ (upTo .error (Files.transcript t env W F (Proc.start L peers) (firstPSteps τ n))).length := by
  obtain ⟨n0, p, hpn, hrest, hlen, hvain, c, hcN, hc⟩ := C149_exhausted_fails env W F L N hW hF peers hp hu τ hf hk hs
  have hran := Files.ran env W F L peers hf.few hs n0
  rw [← hpn] at hran
  have hspin : p.spinning = 0 := by
    unfold Proc.spinning
    rw [List.filter_eq_nil_iff.mpr fun d hd => by simp [(hvain d hd).1]]
    rfl
  have hfree : p.free W = true := by simp [Proc.free, hspin, hW, hran.alive]
  have hsock : F ≤ Files.sockets p := by
    unfold Files.sockets
    rw [List.filter_eq_self.mpr fun d hd => ?_, hlen]
    · exact Nat.le_refl _
    · have := (hvain d hd).2
      unfold HungUp at this
      unfold Files.holds
      simp only [Bool.not_eq_false] at this
      rw [this]; rfl
  induction B with
  | zero => exact ⟨0, Nat.zero_le _⟩
  | succ B ih =>
    obtain ⟨n, hn⟩ := ih
    obtain ⟨m, l, hm, hl, hst⟩ := hk c hcN (max n n0)
    have hup : p.listeners[l]? = some true := by rw [hran.listeners]; simp [hl]
    refine ⟨m + 1, ?_⟩
    rw [errors_succ, hrest m (by omega), hst, List.length_append]
    have hrec : Files.records t env W F p (.accept l c) = [⟨.error, .listener, "Error while accepting connection: ".toList ++ t.ioError .other⟩] := by
      simp only [Files.records, Files.refused, hsock, decide_true, ↓reduceIte, hfree, hup, BEq.rfl, Bool.and_self, List.contains_eq_mem, hc,
        decide_false, Bool.not_false]
    rw [hrec]
    have := errors_grow t env W F (Proc.start L peers) τ (show n ≤ m by omega)
    show B + 1 ≤ _ + 1
    omega

/-! ### Examples -/

-- C162: a start with two addresses, and an orderly end
example : told (upTo .info (Boot.transcript exampleTexts exampleEnv 1 ⟨Proc.start 0 examplePeers, twoPorts.listenersTcp, false⟩
      [.bind true, .bind true, .ready, .proc .signal, .proc (.stopListening 0), .proc (.stopListening 1), .proc (.task .stop), .proc .messagingEnds,
        .proc .main, .proc .main, .proc .main, .proc .main]))
    = [saysReady, saysStopping, saysStopped] := by decide +kernel

-- C162: from the beginning on, with settings and a password file that can be used
example : told (upTo .info (Boot.journal exampleTexts "0.5.0".toList "0123456789abcdef".toList "config.toml".toList ⟨true⟩ plainHashing exampleEnv 1
      examplePeers (some twoPorts) (onlyFile "/etc/ratelmq/passwords" "ann:1\nbob:2\n".toList) [.bind true, .bind true, .ready]))
    = ["Initializing RatelMQ v0.5.0 (0123456789)...".toList, saysReady] := by decide +kernel

-- C162: no password file
example : told (upTo .info (Boot.journal exampleTexts "0.5.0".toList "0123456789abcdef".toList "config.toml".toList ⟨true⟩ plainHashing exampleEnv 1
      examplePeers (some twoPorts) (fun _ => none) [.bind true, .bind true, .ready]))
    = ["Initializing RatelMQ v0.5.0 (0123456789)...".toList] := by decide +kernel

-- C162: the second address is in use
example : listening (upTo .info (Boot.transcript exampleTexts exampleEnv 1 ⟨Proc.start 0 examplePeers, twoPorts.listenersTcp, false⟩
      [.bind true, .bind false, .ready]))
    = (twoPorts.listenersTcp.take 1).map String.toList := by decide +kernel

-- C163: clients that pass by
example (B : Nat) : ∃ n, B ≤ (upTo .error (Files.transcript exampleTexts exampleEnv 1 1 (Proc.start 1 (passersBy 0)) (firstPSteps (procRound false) n))).length :=
  C163_flood_fails exampleTexts exampleEnv 1 1 1 2 (by decide) (by decide) (passersBy 0) (fun c => ⟨by simp [passersBy], rfl⟩)
    (fun c d h => by simpa [passersBy] using congrArg (fun s => s.toList.length) h) _ (procRound_fair false) (procRound_knocking false) (fun i h => by
      unfold procRound at h
      split at h <;> cases h) B

end Ratel
