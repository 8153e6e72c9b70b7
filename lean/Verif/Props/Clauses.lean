/-
C123–C125: passwords, requests with several filters, filters without wildcards.
-/
import Verif.Spec.Clauses
import Verif.Props.Rules

namespace Ratel

open Spec Sys Decoder

/-! ### C123 -/

/-- With a text for a password this is the layout of Spec/Wire. -/
theorem connectRestBinary_text (c : Connect) (s : String) (hw : c.will = none) :
    connectRestBinary c (utf8 s) = connectRest { c with password := some s } := by
  simp [connectRestBinary, connectRest, connectFlags, hw, Spec.optional, str, List.append_assoc]

theorem binaryConnect_bad (pr : Profile) (lf : List UInt8) (n : Nat) (hlf : LengthField lf n) (hl : lf.length ≤ 3) (c : Connect)
    (hc : Legal (.connect c)) (hw : c.will = none) (pw : List UInt8) (hp : pw.length < 65536) (hb : ∀ s, utf8 s ≠ pw)
    (rest : List UInt8) (fin : Ending) :
    decoded pr (0x10 :: lf ++ (connectRestBinary c pw ++ rest)) fin = (.err .invalidData, ⟨rest, fin⟩) := by
  obtain ⟨hn, hi, hu, _, _⟩ := hc
  unfold decoded
  rw [readPacket_header pr _ lf n hlf hl, (SourceLaws.decodeBody_first pr n).1]
  have hf := SourceLaws.flags_table c.userName.isSome true c.cleanSession
  dsimp only at hf
  rw [Prod.mk.injEq, Prod.mk.injEq] at hf
  obtain ⟨hf1, hf2, hf3⟩ := hf
  have hfb : byte (connectFlags { c with password := some "" })
      = byte ((if c.userName.isSome then 128 else 0) + (if true then 64 else 0) + 0 + (if c.cleanSession then 2 else 0)) := by
    simp [connectFlags, hw]
  rw [← hfb] at hf1 hf2 hf3
  unfold decodeConnect
  have hr : connectRestBinary c pw ++ rest = str c.protocolName ++ ([c.protocolLevel] ++ ([byte (connectFlags { c with password := some "" })]
      ++ (twoBytes c.keepAlive.toNat ++ (str c.clientId ++ (Spec.optional str c.userName ++ (twoBytes pw.length ++ pw ++ rest)))))) := by
    simp [connectRestBinary, List.append_assoc]
  rw [hr, M.bind_ok (PReads.run (Plain.laws.readString _ hn) _ fin), M.bind_ok (PReads.run (Plain.laws.readU8 _) _ fin),
    M.bind_ok (PReads.run (Plain.laws.readU8 _) _ fin), M.bind_ok (PReads.run (Plain.laws.readU16 _) _ fin),
    M.bind_ok (PReads.run (Plain.laws.readString _ hi) _ fin)]
  rw [hf2, hf3]
  rw [M.bind_ok (PReads.run (Plain.laws.readStringIf _ hu) _ fin)]
  refine M.bind_err ?_
  unfold getStringIf
  exact M.bind_err (getString_bad pw hp (fromUtf8_none hb) rest fin)

/-- C123 is violated: a legal CONNECT whose password is not UTF-8 is never answered, and nothing of what the connection sends ever reaches
the packet handler, in any execution; though the standard allows any bytes. -/
theorem C123_binary_password_fails (env : Env) (peers : ConnId → Peer) (c : Connect) (hc : Legal (.connect c)) (hw : c.will = none)
    (pw : List UInt8) (hp : pw.length < 65536) (hb : ∀ s, utf8 s ≠ pw) (hs : (connectRestBinary c pw).length < 2097152) (d : ConnId)
    (rest : List UInt8) (hd : (peers d).segs.flatten = packet 0x10 (connectRestBinary c pw) ++ rest) (sched : List Step) :
    decoded env.profile (packet 0x10 (connectRestBinary c pw) ++ rest) (peers d).fin = (.err .invalidData, ⟨rest, (peers d).fin⟩)
    ∧ (∀ ev ∈ (run env (init peers) sched).log.map Prod.fst ++ (run env (init peers) sched).events, ¬ From d ev)
    ∧ ((run env (init peers) sched).conns d).delivered = [] := by
  have hbad := binaryConnect_bad env.profile (varInt (connectRestBinary c pw).length) _ (lengthField_varInt _) (length_varInt_small hs) c hc hw
    pw hp hb rest (peers d).fin
  rw [show 0x10 :: varInt (connectRestBinary c pw).length ++ (connectRestBinary c pw ++ rest)
    = packet 0x10 (connectRestBinary c pw) ++ rest by simp [packet, byte]] at hbad
  have hinv := inv_run env peers sched
  have hnone : ∀ ev ∈ (run env (init peers) sched).log.map Prod.fst ++ (run env (init peers) sched).events, ¬ From d ev := by
    obtain ⟨_, _, ps, pl, h1, _, _, _, h2⟩ := hinv.reads.conn d
    have hps : ps = [] := by
      cases ps with
      | nil => rfl
      | cons p ps =>
        rw [hd] at h1
        unfold decoded at hbad
        simp only [List.length_cons, readMany] at h1
        rw [M.bind_err hbad] at h1
        cases h1
    rw [hps] at h2
    have h3 := List.prefix_nil.mp h2
    unfold taken at h3
    rw [List.filter_eq_nil_iff] at h3
    exact fun ev hev hf => h3 ev hev (by simpa using hf)
  refine ⟨hbad, hnone, ?_⟩
  apply List.eq_nil_iff_forall_not_mem.mpr
  intro e he
  obtain ⟨ev, hev, hf⟩ := outputs_from ((hinv.serves.delivered d).subset he)
  exact hnone ev (List.mem_append_left _ hev) hf

/-- C123, the part that holds: a password that is a text reaches the packet handler as it is. Missing: all others. -/
theorem C123_text_password_partial (pr : Profile) (c : Connect) (hc : Legal (.connect c)) (hw : c.will = none) (s : String) (hp : Fits s)
    (hs : (connectRestBinary c (utf8 s)).length < 2097152) (rest : List UInt8) (fin : Ending) :
    ∃ p, decoded pr (packet 0x10 (connectRestBinary c (utf8 s)) ++ rest) fin = (.ok (.connect p), ⟨rest, fin⟩)
      ∧ p.password = some s ∧ p.userName = c.userName ∧ p.clientId = c.clientId := by
  obtain ⟨h1, h2, h3, h4, h5⟩ := hc
  rw [connectRestBinary_text c s hw] at hs ⊢
  refine ⟨_, C07_client_packets pr (.connect { c with password := some s }) ⟨h1, h2, h3, ?_, h5⟩ hw hs rest fin, rfl, rfl, rfl⟩
  intro p hp'
  cases hp'
  exact hp

/-- User "u", password FF FE. -/
example : (∀ s, utf8 s ≠ [0xFF, 0xFE]) ∧ packet 0x10 (connectRestBinary ⟨"MQTT", 4, true, 60, "c", none, some "u", none⟩ [0xFF, 0xFE])
    = [0x10, 20, 0, 4, 0x4D, 0x51, 0x54, 0x54, 4, 0xC2, 0, 60, 0, 1, 0x63, 0, 1, 0x75, 0, 2, 0xFF, 0xFE] := by
  refine ⟨fun s h => ?_, by decide +kernel⟩
  have := fromUtf8_strBytes s
  rw [strBytes_eq, h, show fromUtf8 [0xFF, 0xFE] = none by decide +kernel] at this
  cases this

/-! ### C124 -/

/-- Handling one packet after the other: the final state and everything sent. -/
def handleAll (auth : IdentityProvider) (now : Instant) (m : MessagingService) : List ClientEvent → Handled
  | [] => some (m, [])
  | ev :: evs =>
    match Handler.handle auth now m ev with
    | none => none
    | some (m', out) =>
      match handleAll auth now m' evs with
      | none => none
      | some (m'', outs) => some (m'', out ++ outs)

/-- C124. In every state, a SUBSCRIBE with any number of filters leaves the broker exactly as one SUBSCRIBE for each filter does, in the same
order; the one SUBACK carries, in order, the return codes of the SUBACKs of these. -/
theorem C124_subscribe (auth : IdentityProvider) (now : Instant) (m : MessagingService) (id : ClientId) (tx : ConnId) (i : UInt16)
    (fs : List Subscription) :
    ∃ m' codes, Handler.handle auth now m (.controlPacket id (.subscribe ⟨i, fs⟩) tx)
        = some (m', [(tx, .controlPacket (.subAck ⟨i, codes⟩))])
      ∧ codes.length = fs.length
      ∧ handleAll auth now m (fs.map fun f => .controlPacket id (.subscribe ⟨i, [f]⟩) tx)
        = some (m', codes.map fun code => (tx, .controlPacket (.subAck ⟨i, [code]⟩))) := by
  refine ⟨(Handler.subscribeAll id fs m).2, (Handler.subscribeAll id fs m).1, rfl, ?_, ?_⟩
  · induction fs generalizing m with
    | nil => rfl
    | cons f fs ih => exact congrArg (· + 1) (ih (m.request (.subscribe id f)).2)
  · induction fs generalizing m with
    | nil => rfl
    | cons f fs ih =>
      rw [List.map_cons, handleAll]
      have h1 : Handler.handle auth now m (.controlPacket id (.subscribe ⟨i, [f]⟩) tx)
          = some ((m.request (.subscribe id f)).2, [(tx, .controlPacket (.subAck ⟨i, [(m.request (.subscribe id f)).1]⟩))]) := rfl
      rw [h1]
      dsimp only
      rw [ih]
      rfl

/-- C124. In every state, an UNSUBSCRIBE with any number of filters leaves the broker exactly as one UNSUBSCRIBE for each filter does. -/
theorem C124_unsubscribe (auth : IdentityProvider) (now : Instant) (m : MessagingService) (id : ClientId) (tx : ConnId) (i : UInt16)
    (fs : List String) :
    ∃ m', Handler.handle auth now m (.controlPacket id (.unsubscribe ⟨i, fs⟩) tx) = some (m', [(tx, .controlPacket (.unsubAck i))])
      ∧ handleAll auth now m (fs.map fun f => .controlPacket id (.unsubscribe ⟨i, [f]⟩) tx)
        = some (m', fs.map fun _ => (tx, .controlPacket (.unsubAck i))) := by
  refine ⟨m.unsubscribe id fs, rfl, ?_⟩
  induction fs generalizing m with
  | nil => rfl
  | cons f fs ih =>
    rw [List.map_cons, handleAll]
    have h1 : Handler.handle auth now m (.controlPacket id (.unsubscribe ⟨i, [f]⟩) tx)
        = some (m.unsubscribe id [f], [(tx, .controlPacket (.unsubAck i))]) := rfl
    rw [h1]
    dsimp only
    rw [ih]
    rfl

/-- Three filters, one of them twice. -/
example (auth : IdentityProvider) (now : Instant) :
    (Handler.handle auth now .new (.controlPacket "c" (.subscribe ⟨7, [⟨"a", .atMostOnce⟩, ⟨"b/#", .atLeastOnce⟩, ⟨"a", .exactlyOnce⟩]⟩) 3)).map Prod.snd
      = some [(3, .controlPacket (.subAck ⟨7, [.successQoS0, .successQoS0, .successQoS0]⟩))] := rfl

/-! ### C125 -/

theorem levelsMatch_literal {fs ts : List String} (h : ∀ l ∈ fs, l ≠ "+" ∧ l ≠ "#") : LevelsMatch fs ts ↔ fs = ts := by
  constructor
  · intro hm
    induction hm with
    | done => rfl
    | hash => exact ((h "#" (by simp)).2 rfl).elim
    | plus => exact ((h "+" (by simp)).1 rfl).elim
    | literal t fs ts _ ih => rw [ih fun l hl => h l (by simp [hl])]
  · rintro rfl
    clear h
    induction fs with
    | nil => exact .done
    | cons f fs ih => exact .literal _ _ _ ih

/-- C125. A filter without wildcards matches exactly one topic: itself, character by character. -/
theorem C125_matches_itself (f t : String) (hf : PlainTopic f) : Matches f t ↔ f = t := by
  rw [matches_iff, levelsMatch_literal (plain_levels hf)]
  exact ⟨splitTopic_injective, fun h => h ▸ rfl⟩

/-- C125. After any history, a client none of whose subscriptions has wildcards gets a message exactly once for each of its subscriptions to
the very topic of the message, and none otherwise; whatever the topic. -/
theorem C125_deliveries (h : List SubOp) (c : ClientId) (t : String) (hp : ∀ f, (c, f) ∈ Entries.counted h → PlainTopic f) :
    deliveries (repo h) c t = (Entries.counted h).count (c, t) := by
  rw [(C19_any_topic h c t).1]
  unfold Entries.copies
  generalize Entries.counted h = es at hp
  induction es with
  | nil => rfl
  | cons e es ih =>
    obtain ⟨c', f⟩ := e
    have ih := ih fun f hf => hp f (List.mem_cons_of_mem _ hf)
    rw [List.count_cons, ← ih, List.filter_cons]
    by_cases hc : c' = c
    · subst hc
      have hf := hp f List.mem_cons_self
      have hm := C125_matches_itself f t hf
      have hpos := ways_pos (f := f) (t := t)
      simp only [decide_true, ↓reduceIte, List.map_cons, List.sum_cons]
      by_cases he : f = t
      · subst he
        have := ways_plain (f := f) hf
        have := hpos.mpr (hm.mpr rfl)
        simp
        omega
      · have hz : ways f t = 0 := by
          have : ¬ 0 < ways f t := fun h => he (hm.mp (hpos.mp h))
          omega
        simp [hz, he]
    · simp [hc]

/-- C125. In every execution: if no subscription of a client reached on the connection has wildcards, then whatever message is sent on the
connection, its topic is one that a client reached there was subscribed to, character by character. -/
theorem C125_received (env : Env) (peers : ConnId → Peer) (sched : List Step) (d : ConnId)
    (hp : ∀ pre c f, pre <+: (run env (init peers) sched).log.map Prod.fst → ReachedOn env.auth pre c d → (c, f) ∈ held pre → PlainTopic f)
    (q : PublishPacket) (h : .controlPacket (.publish q) ∈ ((run env (init peers) sched).conns d).delivered) :
    ∃ pre id tx post c, (run env (init peers) sched).log.map Prod.fst = pre ++ .controlPacket id (.publish q) tx :: post
      ∧ ReachedOn env.auth pre c d ∧ (c, q.message.topic) ∈ held pre := by
  obtain ⟨pre, id, tx, post, hl, _, _, c, f, hf, hr, hm⟩ := C50_no_invented_messages env peers sched d q h
  have := (C125_matches_itself f _ (hp pre c f ⟨_, hl.symm⟩ hr hf)).mp hm
  exact ⟨pre, id, tx, post, c, hl, hr, this ▸ hf⟩

/-- Neither case nor a trailing slash nor an empty level is overlooked. -/
example : ¬ Matches "a/b" "a/B" ∧ ¬ Matches "a/b" "a/b/" ∧ ¬ Matches "a/b" "/a/b" ∧ Matches "a/b" "a/b" := by
  have h : PlainTopic "a/b" := by unfold PlainTopic; decide +kernel
  simp only [C125_matches_itself _ _ h]
  decide +kernel

example : deliveries (repo [.subscribe "c" ⟨"a", .atMostOnce⟩, .subscribe "d" ⟨"#", .atMostOnce⟩, .subscribe "c" ⟨"a", .atMostOnce⟩]) "c" "a" = 2 := by
  rw [C125_deliveries _ _ _ (by
    intro f hf
    have : f = "a" := by
      simp [Entries.counted, Entries.counting] at hf
      exact hf
    subst this
    unfold PlainTopic
    decide +kernel)]
  decide +kernel

end Ratel
