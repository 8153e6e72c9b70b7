/-
C183, and C157 for the filters of `RUST_LOG`.
-/
import Verif.Proofs.RustLog
import Verif.Props.Logging

namespace Ratel

open Spec Sys RustLog

/-! ### C183 -/

/-- C183: a list of rules in `RUST_LOG`, one level for all or for modules whose names begin so, means what it says: for each record the rule that gives
most of the name of its module decides, of several the last; without any such rule the record is left out. -/
theorem C183_rules (white : Char → Bool) (trims : Bool) (regex : List Char → Option (List Char → Bool)) (hw : SoundWhite white) (heq : white '=' = false)
    (rs : List LogRule) (hne : rs ≠ []) (hr : ∀ r ∈ rs, SoundName white r.names) (r : LogRecord) :
    lets white trims regex (some (rulesText rs)) r = true ↔ Allowed rs r.level r.origin.path :=
  lets_rules trims regex hw heq hne hr r

/-- C183: one level for all, in capitals, small letters or mixed. -/
theorem C183_level (white : Char → Bool) (trims : Bool) (regex : List Char → Option (List Char → Bool)) (l : Level) (w : List Char)
    (h : w.map Char.toLower = levelWord (some l)) (hw : ∀ c ∈ w, white c = false) (log : List LogRecord) :
    log.filter (lets white trims regex (some w)) = upTo l log := by
  unfold upTo
  congr 1
  funext r
  exact lets_word trims regex h hw r

/-- C183: without `RUST_LOG`, or if it is empty, errors only. -/
theorem C183_unset (white : Char → Bool) (trims : Bool) (regex : List Char → Option (List Char → Bool)) (log : List LogRecord) :
    log.filter (lets white trims regex none) = upTo .error log ∧ log.filter (lets white trims regex (some [])) = upTo .error log := by
  have e : lets white trims regex (some []) = lets white trims regex none := by
    funext r
    have : parseSpec white trims [] = ([], none) := by
      cases trims <;> simp [parseSpec, parseMods, splitOn, trim]
    simp [lets, this]
  rw [e]
  have : log.filter (lets white trims regex none) = upTo .error log := by
    unfold upTo
    congr 1
    funext r
    simp only [lets, build, if_true, enabled, List.reverse_cons, List.reverse_nil, List.nil_append, List.find?_cons, Directive.isFor, Option.bind_none,
      Option.all_none, Bool.and_true]
    rfl
  exact ⟨this, this⟩

/-! ### C157 -/

/-- C157, the part that holds, for rules in `RUST_LOG`: if they do not allow TRACE for the packet handler and for the listener, neither passwords nor
the contents of messages get into the log. Missing: the rules that do. -/
theorem C157_rules_partial (white : Char → Bool) (trims : Bool) (regex : List Char → Option (List Char → Bool)) (hw : SoundWhite white)
    (heq : white '=' = false) (rs : List LogRule) (hne : rs ≠ []) (hr : ∀ r ∈ rs, SoundName white r.names)
    (hh : ¬ Allowed rs .trace LogModule.handler.path) (hl : ¬ Allowed rs .trace LogModule.listener.path)
    (t : Texts) (env env' : Env) (peers peers' : ConnId → Peer) (sched sched' : List Step) :
    (Matched (fun x y => redacted x.1 = redacted y.1 ∧ refusal env.auth x.1 = refusal env'.auth y.1)
        (run env (init peers) sched).log (run env' (init peers') sched').log →
      ((run env (init peers) sched).handler = .stopped ↔ (run env' (init peers') sched').handler = .stopped) →
      ((transcript t env (init peers) sched).filter ofHandler).filter (lets white trims regex (some (rulesText rs)))
        = ((transcript t env' (init peers') sched').filter ofHandler).filter (lets white trims regex (some (rulesText rs))))
    ∧ ∀ r ∈ (transcript t env (init peers) sched).filter (lets white trims regex (some (rulesText rs))), ofHandler r = false →
      r.message = "Error while sending client event to be processed: channel closed".toList
      ∨ r.message = "The first received packet is not CONNECT".toList
      ∨ r.message = "Stopping RatelMQ...".toList
      ∨ ∃ e, r.message = "Error while writing packet: ".toList ++ t.ioError e := by
  have quiet : ∀ (env : Env) (peers : ConnId → Peer) (sched : List Step), ∀ r ∈ transcript t env (init peers) sched,
      lets white trims regex (some (rulesText rs)) r = true → r.level.rank ≤ 4 := by
    intro env peers sched r hm hp
    have hp := (lets_rules trims regex hw heq hne hr r).mp hp
    cases hlv : r.level with
    | trace =>
      rw [hlv] at hp
      rcases trace_origin hm hlv with ho | ho
      · rw [ho] at hp; exact absurd hp hh
      · rw [ho] at hp; exact absurd hp hl
    | _ => decide
  refine ⟨fun h hs => ?_, fun r hm ho => ?_⟩
  · have h1 := (C157_debug_partial t env env' peers peers' sched sched').1 h hs
    have h2 : ∀ (env : Env) (peers : ConnId → Peer) (sched : List Step),
        ((transcript t env (init peers) sched).filter ofHandler).filter (lets white trims regex (some (rulesText rs)))
          = (upTo .debug ((transcript t env (init peers) sched).filter ofHandler)).filter (lets white trims regex (some (rulesText rs))) := by
      intro env peers sched
      unfold upTo
      rw [List.filter_filter (p := lets white trims regex (some (rulesText rs)))
        (q := fun r => decide (r.level.rank ≤ Level.debug.rank))]
      refine List.filter_congr fun r hm => ?_
      have hq := quiet env peers sched r (List.mem_filter.mp hm).1
      cases hp : lets white trims regex (some (rulesText rs)) r with
      | true => exact (decide_eq_true (hq hp)).symm
      | false => rfl
    rw [h2, h2, h1]
  · obtain ⟨hm, hp⟩ := List.mem_filter.mp hm
    exact (C157_debug_partial t env env' peers peers' sched sched').2 r (List.mem_filter.mpr ⟨hm, decide_eq_true (quiet env peers sched r hm hp)⟩) ho

/-- C157 is violated by all other rules: if they allow TRACE for the packet handler, all passwords and contents of messages handled are in the log; if
for the listener, the password of every CONNECT is as soon as it has been read. -/
theorem C157_rules_fails (white : Char → Bool) (trims : Bool) (regex : List Char → Option (List Char → Bool)) (hw : SoundWhite white)
    (heq : white '=' = false) (rs : List LogRule) (hne : rs ≠ []) (hr : ∀ r ∈ rs, SoundName white r.names)
    (t : Texts) (env : Env) (peers : ConnId → Peer) (sched : List Step) :
    (Allowed rs .trace LogModule.handler.path →
      (∀ p a c now pw, (ClientEvent.connected p a c, now) ∈ (run env (init peers) sched).log → p.password = some pw → PlainText t pw →
        ∃ r ∈ (transcript t env (init peers) sched).filter (lets white trims regex (some (rulesText rs))), pw.toList <:+: r.message)
      ∧ ∀ id q c now, (ClientEvent.controlPacket id (.publish q) c, now) ∈ (run env (init peers) sched).log → PlainBytes q.message.payload →
        ∃ r ∈ (transcript t env (init peers) sched).filter (lets white trims regex (some (rulesText rs))),
          q.message.payload.map (fun b => Char.ofNat b.toNat) <:+: r.message)
    ∧ (Allowed rs .trace LogModule.listener.path →
      ∀ c q more, Sendable (.connect q :: more) → ∀ pw, q.password = some pw → PlainText t pw →
        (peers c).segs.flatten = clientBytes (.connect q :: more) → (clientBytes (.connect q :: more)).length < 4096 →
        (run env (init peers) sched).conns c = (peers c).conn →
        ∃ r ∈ (transcript t env (init peers) (sched ++ [.read c])).filter (lets white trims regex (some (rulesText rs))), pw.toList <:+: r.message) := by
  refine ⟨fun ha => ?_, fun ha c q more hq pw hp ht hb hl hc => ?_⟩
  · have key : ∀ ev now, (ev, now) ∈ (run env (init peers) sched).log →
        (⟨.trace, .handler, "Got event ".toList ++ Fmt.clientEvent t ev⟩ : LogRecord)
          ∈ (transcript t env (init peers) sched).filter (lets white trims regex (some (rulesText rs))) := by
      intro ev now h
      obtain ⟨m, hm⟩ := handled_records t env peers sched h
      exact List.mem_filter.mpr ⟨hm _ List.mem_cons_self, (lets_rules trims regex hw heq hne hr _).mpr ha⟩
    refine ⟨fun p a c now pw h hp ht => ⟨_, key _ _ h, ?_⟩, fun id q c now h hb => ⟨_, key _ _ h, ?_⟩⟩
    · exact infix_mid ((quoted_plain ht).trans ((password_shown t p hp).trans (event_connect_shown t p a c)))
    · exact infix_mid ((bytes_plain hb).trans (payload_shown t id q c))
  · obtain ⟨m, hm, hs⟩ := first_shown t env peers sched c q more hq pw hp ht hb hl hc
    exact ⟨_, List.mem_filter.mpr ⟨hm, (lets_rules trims regex hw heq hne hr _).mpr ha⟩, hs⟩

/-! ### Examples -/

/-- Characters that are white, of ASCII. -/
def exampleWhite (c : Char) : Bool := c = ' ' || c = '\t' || c = '\n' || c = '\r'

theorem exampleWhite_sound : SoundWhite exampleWhite := by
  intro l
  rcases l with _ | l
  · decide +kernel
  · cases l <;> decide +kernel

/-- The rules in a comment of /repo/.env. -/
def exampleRules : List LogRule := [.everywhere (some .debug), .within "ratelmq::broker::keepalive_checker".toList (some .trace)]

example : rulesText exampleRules = "debug,ratelmq::broker::keepalive_checker=trace".toList := by decide +kernel

theorem exampleRules_sound : ∀ r ∈ exampleRules, SoundName exampleWhite r.names := by
  simp only [exampleRules, List.mem_cons, List.not_mem_nil, or_false, forall_eq_or_imp, forall_eq]
  unfold SoundName
  decide +kernel

/-- C183: these rules let DEBUG of the packet handler through, but not TRACE. -/
example : lets exampleWhite false (fun _ => none) (some (rulesText exampleRules)) ⟨.debug, .handler, []⟩ = true
    ∧ lets exampleWhite false (fun _ => none) (some (rulesText exampleRules)) ⟨.trace, .handler, []⟩ = false := by
  decide +kernel

/-- C183: what the configuration of /repo/.env does. -/
example (log : List LogRecord) : log.filter (lets exampleWhite false (fun _ => none) (some "debug".toList)) = upTo .debug log :=
  C183_level exampleWhite false _ .debug _ (by decide +kernel) (by decide +kernel) log

/-- C183: written in capitals. -/
example (log : List LogRecord) : log.filter (lets exampleWhite true (fun _ => none) (some "WARN".toList)) = upTo .warn log :=
  C183_level exampleWhite true _ .warn _ (by decide +kernel) (by decide +kernel) log

/-- C183: the longer name decides, wherever it is written. -/
example : lets exampleWhite false (fun _ => none) (some "ratelmq::broker=info,ratelmq=trace".toList) ⟨.trace, .handler, []⟩ = false
    ∧ lets exampleWhite false (fun _ => none) (some "ratelmq::broker=info,ratelmq=trace".toList) ⟨.trace, .listener, []⟩ = true := by
  decide +kernel

/-- A misspelt level lets everything of a module of that name through, and nothing else. -/
example : lets exampleWhite false (fun _ => none) (some "inof".toList) ⟨.error, .handler, []⟩ = false := by decide +kernel

/-- C157: the rules of /repo/.env do not allow TRACE for the packet handler and for the listener. -/
theorem exampleRules_quiet : ¬ Allowed exampleRules .trace LogModule.handler.path ∧ ¬ Allowed exampleRules .trace LogModule.listener.path := by
  have h : ∀ m : LogModule, ¬ "ratelmq::broker::keepalive_checker".toList <+: m.path → ¬ Allowed exampleRules .trace m.path := by
    intro m hm ha
    have := (C183_rules exampleWhite false (fun _ => none) exampleWhite_sound (by decide) exampleRules (by simp [exampleRules]) exampleRules_sound
      ⟨.trace, m, []⟩).mpr ha
    revert this
    cases m <;> decide +kernel
  exact ⟨h .handler (by decide +kernel), h .listener (by decide +kernel)⟩

example : ((transcript exampleTexts exampleEnv (init (otherPeers "p")) [.read 3, .read 3, .handler 0]).filter
      (lets exampleWhite false (fun _ => none) (some (rulesText exampleRules)))).map (·.message)
    = ["New client \"y\" connected".toList, "Client u authentication error: UserNotFound".toList] := by
  decide +kernel

/-- C157: TRACE for the modules of the broker shows the password. -/
example : ((transcript exampleTexts exampleEnv (init (otherPeers "secret")) [.read 3, .read 3, .handler 0]).filter
      (lets exampleWhite false (fun _ => none) (some "warn,ratelmq::broker=trace".toList))).map (·.message)
    = ["Got event Connected(ConnectPacket { version: Mqtt3, client_id: \"y\", keep_alive_seconds: 60, clean_session: true, will_message: None, user_name: Some(\"u\"), password: Some(\"secret\") }, addr, Sender)".toList,
      "New client \"y\" connected".toList, "Client u authentication error: UserNotFound".toList] := by
  decide +kernel

end Ratel
