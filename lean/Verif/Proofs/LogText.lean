/-
The text of the log: it can be read in one way only, and where control characters come from.
-/
import Verif.Proofs.Logging

namespace Ratel

open Spec

/-! ### Reading the text -/

theorem level_name_length (l : Level) : l.name.length = 5 := by cases l <;> decide +kernel

theorem level_name_inj {l l' : Level} (h : l.name = l'.name) : l = l' := by
  cases l <;> cases l' <;> first | rfl | (revert h; decide +kernel)

theorem path_inj {o o' : LogModule} (h : o.path = o'.path) : o = o' := by
  cases o <;> cases o' <;> first | rfl | (revert h; decide +kernel)

theorem path_no_bracket (o : LogModule) : ']' ∉ o.path := by cases o <;> decide +kernel

/-- Cutting at the first occurrence of a character. -/
theorem cut_first {c : Char} {a a' b b' : List Char} (ha : c ∉ a) (ha' : c ∉ a') (h : a ++ c :: b = a' ++ c :: b') : a = a' ∧ b = b' := by
  induction a generalizing a' with
  | nil =>
    cases a' with
    | nil => simpa using h
    | cons x a' =>
      simp only [List.nil_append, List.cons_append, List.cons.injEq] at h
      exact absurd (h.1 ▸ List.mem_cons_self) ha'
  | cons x a ih =>
    cases a' with
    | nil =>
      simp only [List.nil_append, List.cons_append, List.cons.injEq] at h
      exact absurd (h.1 ▸ List.mem_cons_self) ha
    | cons y a' =>
      simp only [List.cons_append, List.cons.injEq] at h
      obtain ⟨h1, h2⟩ := ih (fun hm => ha (List.mem_cons_of_mem _ hm)) (fun hm => ha' (List.mem_cons_of_mem _ hm)) h.2
      exact ⟨by rw [h.1, h1], h2⟩

/-- The rest of a text does not begin with a space. -/
def NoSpace (l : List Char) : Prop := ∀ x, l ≠ ' ' :: x

theorem indented_cons (c : Char) (m : List Char) :
    indented (c :: m) = (if c = '\n' then "\n    ".toList else [c]) ++ indented m := by
  unfold indented; rw [List.flatMap_cons]

theorem newline_indent : "\n    ".toList = ['\n', ' ', ' ', ' ', ' '] := by decide +kernel

/-- A message ends at the first line feed that is not followed by a space. -/
theorem cut_message {m m' r r' : List Char} (hr : NoSpace r) (hr' : NoSpace r')
    (h : indented m ++ '\n' :: r = indented m' ++ '\n' :: r') : m = m' ∧ r = r' := by
  induction m generalizing m' with
  | nil =>
    cases m' with
    | nil => simpa [indented] using h
    | cons c m' =>
      exfalso
      rw [indented_cons] at h
      split at h
      · rw [newline_indent] at h
        simp only [indented, List.flatMap_nil, List.nil_append, List.cons_append, List.cons.injEq, true_and] at h
        exact hr _ h
      · rename_i hc
        simp only [indented, List.flatMap_nil, List.nil_append, List.cons_append, List.cons.injEq] at h
        exact hc h.1.symm
  | cons c m ih =>
    cases m' with
    | nil =>
      exfalso
      rw [indented_cons] at h
      split at h
      · rw [newline_indent] at h
        simp only [indented, List.flatMap_nil, List.nil_append, List.cons_append, List.cons.injEq, true_and] at h
        exact hr' _ h.symm
      · rename_i hc
        simp only [indented, List.flatMap_nil, List.nil_append, List.cons_append, List.cons.injEq] at h
        exact hc h.1
    | cons c' m' =>
      rw [indented_cons, indented_cons] at h
      split at h
      · rename_i hc
        split at h
        · rename_i hc'
          rw [List.append_assoc, List.append_assoc] at h
          obtain ⟨h1, h2⟩ := ih (List.append_cancel_left h)
          exact ⟨by rw [hc, hc', h1], h2⟩
        · rename_i hc'
          rw [newline_indent] at h
          simp only [List.cons_append, List.cons.injEq] at h
          exact absurd h.1.symm hc'
      · rename_i hc
        split at h
        · rw [newline_indent] at h
          simp only [List.cons_append, List.cons.injEq] at h
          exact absurd h.1 hc
        · simp only [List.cons_append, List.nil_append, List.cons.injEq] at h
          obtain ⟨h1, h2⟩ := ih h.2
          exact ⟨by rw [h.1, h1], h2⟩

theorem bracket_space : "] ".toList = [']', ' '] := by decide +kernel

theorem record_text (time : List Char) (r : LogRecord) (rest : List Char) :
    r.text time ++ rest = '[' :: (time ++ ' ' :: (r.level.name ++ (' ' :: (r.origin.path ++ ']' :: (' ' :: (indented r.message ++ '\n' :: rest)))))) := by
  simp only [LogRecord.text, bracket_space, List.append_assoc, List.cons_append, List.nil_append]

theorem logText_cons (x : List Char × LogRecord) (l : List (List Char × LogRecord)) : logText (x :: l) = x.2.text x.1 ++ logText l := by
  unfold logText; rw [List.flatMap_cons]

theorem logText_noSpace (l : List (List Char × LogRecord)) : NoSpace (logText l) := by
  intro x h
  cases l with
  | nil => simp [logText] at h
  | cons y l =>
    rw [logText_cons, record_text] at h
    simp at h

theorem logText_inj {l l' : List (List Char × LogRecord)} (hl : ∀ x ∈ l, ' ' ∉ x.1) (hl' : ∀ x ∈ l', ' ' ∉ x.1)
    (h : logText l = logText l') : l = l' := by
  induction l generalizing l' with
  | nil =>
    cases l' with
    | nil => rfl
    | cons y l' => rw [logText_cons, record_text] at h; simp [logText] at h
  | cons x l ih =>
    cases l' with
    | nil => rw [logText_cons, record_text] at h; simp [logText] at h
    | cons y l' =>
      rw [logText_cons, logText_cons, record_text, record_text] at h
      obtain ⟨h1, h⟩ := cut_first (hl x List.mem_cons_self) (hl' y List.mem_cons_self) (List.cons.inj h).2
      obtain ⟨h2, h⟩ := List.append_inj h (by rw [level_name_length, level_name_length])
      obtain ⟨h3, h⟩ := cut_first (path_no_bracket _) (path_no_bracket _) (List.cons.inj h).2
      obtain ⟨h4, h5⟩ := cut_message (logText_noSpace l) (logText_noSpace l') (List.cons.inj h).2
      have := ih (fun z hz => hl z (List.mem_cons_of_mem _ hz)) (fun z hz => hl' z (List.mem_cons_of_mem _ hz)) h5
      obtain ⟨t, lv, o, m⟩ := x
      obtain ⟨t', lv', o', m'⟩ := y
      simp only at h1 h2 h3 h4
      rw [h1, level_name_inj h2, path_inj h3, h4, this]

/-! ### Control characters -/

/-- No control characters. -/
def Clean (l : List Char) : Prop := ∀ c ∈ l, ¬ Control c

/-- The same, to be computed. -/
def cleanB (l : List Char) : Bool := l.all fun c => decide (32 ≤ c.toNat) && decide (c.toNat ≠ 127)

theorem clean_of {l : List Char} (h : cleanB l = true) : Clean l := by
  intro c hc hk
  have := List.all_eq_true.mp h c hc
  simp only [Bool.and_eq_true, decide_eq_true_eq] at this
  rcases hk with hk | hk
  · omega
  · exact this.2 hk

theorem clean_append {a b : List Char} (ha : Clean a) (hb : Clean b) : Clean (a ++ b) := by
  intro c hc
  rcases List.mem_append.mp hc with h | h
  · exact ha c h
  · exact hb c h

theorem clean_nil : Clean [] := fun _ h => absurd h List.not_mem_nil

theorem clean_flatMap {α : Type} {f : α → List Char} (l : List α) (h : ∀ a, Clean (f a)) : Clean (l.flatMap f) := by
  intro c hc
  obtain ⟨a, _, ha⟩ := List.mem_flatMap.mp hc
  exact h a c ha

theorem clean_digit (n : Nat) : Clean [Nat.digitChar n] := by
  by_cases h : n < 16
  · have : ∀ k : Fin 16, cleanB [Nat.digitChar k.val] = true := by decide +kernel
    exact clean_of (this ⟨n, h⟩)
  · have : Nat.digitChar n = '*' := by
      unfold Nat.digitChar
      repeat (first | (rw [if_neg (by omega)]) | rfl)
    rw [this]
    exact clean_of (by decide +kernel)

namespace Fmt

theorem clean_numeral (b n : Nat) : Clean (numeral b n) := by
  induction n using Nat.strongRecOn with
  | ind n ih =>
    unfold numeral
    split
    · exact clean_digit n
    · exact clean_append (ih _ (Nat.div_lt_self (by omega) (by omega))) (clean_digit _)

theorem clean_escapeChar {t : Texts} (ht : Sober t) (c : Char) : Clean (escapeChar t c) := by
  unfold escapeChar
  split
  · exact clean_of (by decide +kernel)
  split
  · exact clean_of (by decide +kernel)
  split
  · exact clean_of (by decide +kernel)
  split
  · exact clean_of (by decide +kernel)
  split
  · exact clean_of (by decide +kernel)
  split
  · exact clean_of (by decide +kernel)
  split
  · rename_i h
    intro d hd
    rw [List.mem_singleton] at hd
    subst hd
    exact ht.printable _ h
  · exact clean_append (clean_append (clean_of (by decide +kernel)) (clean_numeral _ _)) (clean_of (by decide +kernel))

theorem clean_quoted {t : Texts} (ht : Sober t) (s : String) : Clean (quoted t s) :=
  clean_append (clean_append (clean_of (by decide +kernel)) (clean_flatMap _ (clean_escapeChar ht))) (clean_of (by decide +kernel))

theorem clean_escapeByte (b : UInt8) : Clean (escapeByte b) := by
  have : ∀ n : Fin 256, cleanB (escapeByte (UInt8.ofNat n.val)) = true := by decide +kernel
  have h := this ⟨b.toNat, b.toNat_lt⟩
  simp only [UInt8.ofNat_toNat] at h
  exact clean_of h

theorem clean_bytes (l : List UInt8) : Clean (bytes l) :=
  clean_append (clean_append (clean_of (by decide +kernel)) (clean_flatMap _ clean_escapeByte)) (clean_of (by decide +kernel))

theorem clean_bool (b : Bool) : Clean (bool b) := by cases b <;> exact clean_of (by decide +kernel)

theorem clean_option {α : Type} {f : α → List Char} (h : ∀ a, Clean (f a)) (o : Option α) : Clean (option f o) := by
  cases o with
  | none => exact clean_of (l := "None".toList) (by decide +kernel)
  | some a => exact clean_append (clean_append (clean_of (by decide +kernel)) (h a)) (clean_of (by decide +kernel))

theorem clean_items {α : Type} {f : α → List Char} (h : ∀ a, Clean (f a)) (l : List α) : Clean (items f l) := by
  induction l with
  | nil => exact clean_nil
  | cons a l ih =>
    cases l with
    | nil => exact h a
    | cons b l => exact clean_append (clean_append (h a) (clean_of (by decide +kernel))) ih

theorem clean_vec {α : Type} {f : α → List Char} (h : ∀ a, Clean (f a)) (l : List α) : Clean (vec f l) :=
  clean_append (clean_append (clean_of (by decide +kernel)) (clean_items h l)) (clean_of (by decide +kernel))

theorem clean_qos (q : QoS) : Clean (qos q) := by cases q <;> exact clean_of (by decide +kernel)

theorem clean_version (v : ProtocolVersion) : Clean (version v) := by cases v <;> exact clean_of (by decide +kernel)

theorem clean_connAckCode (v : ConnAckReturnCode) : Clean (connAckCode v) := by cases v <;> exact clean_of (by decide +kernel)

theorem clean_subAckCode (v : SubAckReturnCode) : Clean (subAckCode v) := by cases v <;> exact clean_of (by decide +kernel)

theorem clean_message {t : Texts} (ht : Sober t) (m : Message) : Clean (message t m) := by
  unfold message
  repeat' with_reducible apply clean_append
  all_goals first
    | exact clean_of (by decide +kernel)
    | exact clean_quoted ht _
    | exact clean_bytes _
    | exact clean_qos _
    | exact clean_bool _

theorem clean_connect {t : Texts} (ht : Sober t) (p : ConnectPacket) : Clean (connect t p) := by
  unfold connect
  repeat' with_reducible apply clean_append
  all_goals first
    | exact clean_of (by decide +kernel)
    | exact clean_quoted ht _
    | exact clean_version _
    | exact clean_numeral _ _
    | exact clean_bool _
    | exact clean_option (clean_message ht) _
    | exact clean_option (clean_quoted ht) _

theorem clean_subscription {t : Texts} (ht : Sober t) (s : Subscription) : Clean (subscription t s) := by
  unfold subscription
  repeat' with_reducible apply clean_append
  all_goals first
    | exact clean_of (by decide +kernel)
    | exact clean_quoted ht _
    | exact clean_qos _

theorem clean_idOnly {v s : String} (hv : cleanB v.toList = true) (hs : cleanB s.toList = true) (id : UInt16) : Clean (idOnly v s id) := by
  unfold idOnly
  repeat' with_reducible apply clean_append
  all_goals first
    | exact clean_of (by decide +kernel)
    | exact clean_of hv
    | exact clean_of hs
    | exact clean_numeral _ _

theorem clean_packet {t : Texts} (ht : Sober t) (p : ControlPacket) : Clean (packet t p) := by
  cases p with
  | pubAck id => exact clean_idOnly (by decide +kernel) (by decide +kernel) id
  | pubRec id => exact clean_idOnly (by decide +kernel) (by decide +kernel) id
  | pubRel id => exact clean_idOnly (by decide +kernel) (by decide +kernel) id
  | pubComp id => exact clean_idOnly (by decide +kernel) (by decide +kernel) id
  | unsubAck id => exact clean_idOnly (by decide +kernel) (by decide +kernel) id
  | pingReq => exact clean_of (l := "PingReq".toList) (by decide +kernel)
  | pingResp => exact clean_of (l := "PingResp".toList) (by decide +kernel)
  | disconnect => exact clean_of (l := "Disconnect(DisconnectPacket)".toList) (by decide +kernel)
  | connect p => exact clean_append (a := "Connect(".toList ++ connect t p) (clean_append (clean_of (by decide +kernel)) (clean_connect ht p)) (clean_of (by decide +kernel))
  | connAck p =>
    change Clean ("ConnAck(ConnAckPacket { session_present: ".toList ++ bool p.sessionPresent ++ ", return_code: ".toList
      ++ connAckCode p.returnCode ++ " })".toList)
    repeat' with_reducible apply clean_append
    all_goals first
      | exact clean_of (by decide +kernel)
      | exact clean_bool _
      | exact clean_connAckCode _
  | publish p =>
    change Clean ("Publish(PublishPacket { packet_id: ".toList ++ option (fun n : UInt16 => decimal n.toNat) p.packetId ++ ", dup: ".toList
      ++ bool p.dup ++ ", message: ".toList ++ message t p.message ++ " })".toList)
    repeat' with_reducible apply clean_append
    all_goals first
      | exact clean_of (by decide +kernel)
      | exact clean_option (fun _ => clean_numeral _ _) _
      | exact clean_bool _
      | exact clean_message ht _
  | subscribe p =>
    change Clean ("Subscribe(SubscribePacket { packet_id: ".toList ++ decimal p.packetId.toNat ++ ", subscriptions: ".toList
      ++ vec (subscription t) p.subscriptions ++ " })".toList)
    repeat' with_reducible apply clean_append
    all_goals first
      | exact clean_of (by decide +kernel)
      | exact clean_vec (clean_subscription ht) _
      | exact clean_numeral _ _
  | subAck p =>
    change Clean ("SubAck(SubAckPacket { packet_id: ".toList ++ decimal p.packetId.toNat ++ ", return_codes: ".toList
      ++ vec subAckCode p.returnCodes ++ " })".toList)
    repeat' with_reducible apply clean_append
    all_goals first
      | exact clean_of (by decide +kernel)
      | exact clean_vec clean_subAckCode _
      | exact clean_numeral _ _
  | unsubscribe p =>
    change Clean ("Unsubscribe(UnsubscribePacket { packet_id: ".toList ++ decimal p.packetId.toNat ++ ", topics: ".toList
      ++ vec (quoted t) p.topics ++ " })".toList)
    repeat' with_reducible apply clean_append
    all_goals first
      | exact clean_of (by decide +kernel)
      | exact clean_vec (clean_quoted ht) _
      | exact clean_numeral _ _

theorem clean_packetName (p : ControlPacket) : Clean (packetName p) := by
  cases p with
  | connect _ => exact clean_of (l := "CONNECT".toList) (by decide +kernel)
  | connAck _ => exact clean_of (l := "CONNACK".toList) (by decide +kernel)
  | publish _ => exact clean_of (l := "PUBLISH".toList) (by decide +kernel)
  | pubAck _ => exact clean_of (l := "PUBACK".toList) (by decide +kernel)
  | pubRec _ => exact clean_of (l := "PUBREC".toList) (by decide +kernel)
  | pubRel _ => exact clean_of (l := "PUBREL".toList) (by decide +kernel)
  | pubComp _ => exact clean_of (l := "PUBCOMP".toList) (by decide +kernel)
  | subscribe _ => exact clean_of (l := "SUBSCRIBE".toList) (by decide +kernel)
  | subAck _ => exact clean_of (l := "SUBACK".toList) (by decide +kernel)
  | unsubscribe _ => exact clean_of (l := "UNSUBSCRIBE".toList) (by decide +kernel)
  | unsubAck _ => exact clean_of (l := "UNSUBACK".toList) (by decide +kernel)
  | pingReq => exact clean_of (l := "PINGREQ".toList) (by decide +kernel)
  | pingResp => exact clean_of (l := "PINGRESP".toList) (by decide +kernel)
  | disconnect => exact clean_of (l := "DISCONNECT".toList) (by decide +kernel)

theorem clean_clientEvent {t : Texts} (ht : Sober t) (ev : ClientEvent) : Clean (clientEvent t ev) := by
  cases ev with
  | connected p addr tx =>
    change Clean ("Connected(".toList ++ connect t p ++ ", ".toList ++ t.address addr ++ ", ".toList ++ t.sender tx ++ [')'])
    repeat' with_reducible apply clean_append
    all_goals first
      | exact clean_of (by decide +kernel)
      | exact clean_connect ht _
      | exact ht.address _
      | exact ht.sender _
  | controlPacket id p tx =>
    change Clean ("ControlPacket(".toList ++ quoted t id ++ ", ".toList ++ packet t p ++ ", ".toList ++ t.sender tx ++ [')'])
    repeat' with_reducible apply clean_append
    all_goals first
      | exact clean_of (by decide +kernel)
      | exact clean_packet ht _
      | exact clean_quoted ht _
      | exact ht.sender _
  | disconnected id =>
    exact clean_append (a := "Disconnected(".toList ++ quoted t id) (clean_append (clean_of (by decide +kernel)) (clean_quoted ht id))
      (clean_of (by decide +kernel))
  | connectionLost id =>
    exact clean_append (a := "ConnectionLost(".toList ++ quoted t id) (clean_append (clean_of (by decide +kernel)) (clean_quoted ht id))
      (clean_of (by decide +kernel))

theorem clean_serverEvent {t : Texts} (ht : Sober t) (ev : ServerEvent) : Clean (serverEvent t ev) := by
  cases ev with
  | controlPacket p =>
    exact clean_append (clean_append (clean_of (by decide +kernel)) (clean_packet ht p)) (clean_of (by decide +kernel))
  | disconnect => exact clean_of (l := "Disconnect".toList) (by decide +kernel)

end Fmt

/-- Control characters come in two ways only. -/
def CleanBut (t : Texts) (r : LogRecord) : Prop :=
  Clean r.message ∨ (∃ u e, r = Handler.refusalRecord t u e) ∨ ∃ id, r = Handler.strayPingRecord id

theorem clean_lit3 {a b c : List Char} (ha : cleanB a = true) (hb : Clean b) (hc : cleanB c = true) : Clean (a ++ b ++ c) :=
  clean_append (clean_append (clean_of ha) hb) (clean_of hc)

theorem clean_lit2 {a b : List Char} (ha : cleanB a = true) (hb : Clean b) : Clean (a ++ b) := clean_append (clean_of ha) hb

theorem records_clean {t : Texts} (ht : Sober t) {auth : IdentityProvider} {m : MessagingService} {ev : ClientEvent} {r : LogRecord}
    (hr : r ∈ Handler.records t auth m ev) : CleanBut t r := by
  unfold Handler.records at hr
  rcases List.mem_cons.mp hr with rfl | hr
  · exact .inl (clean_lit2 (by decide +kernel) (Fmt.clean_clientEvent ht ev))
  cases ev with
  | connected p addr tx =>
    simp only [Handler.connectRecords] at hr
    rcases List.mem_cons.mp hr with rfl | hr
    · exact .inl (clean_lit3 (by decide +kernel) (Fmt.clean_quoted ht _) (by decide +kernel))
    split at hr
    · split at hr
      · exact .inr (.inl ⟨_, _, List.mem_singleton.mp hr⟩)
      · simp at hr
    · simp at hr
  | controlPacket id p tx =>
    simp only [Handler.packetRecords] at hr
    rcases List.mem_cons.mp hr with rfl | hr
    · exact .inl (clean_lit2 (by decide +kernel) (Fmt.clean_packet ht p))
    split at hr
    · rcases List.mem_cons.mp hr with rfl | hr
      · exact .inl (clean_append (clean_lit3 (by decide +kernel) (Fmt.clean_quoted ht _) (by decide +kernel)) (Fmt.clean_quoted ht _))
      · simp only [Handler.publishWarnings] at hr
        split at hr
        · simp at hr
        · simp only [List.mem_filterMap] at hr
          obtain ⟨c, _, hc⟩ := hr
          split at hc
          · simp at hc
          · injection hc with hc
            subst hc
            exact .inl (clean_lit3 (by decide +kernel) (Fmt.clean_quoted ht _) (by decide +kernel))
    · rw [List.mem_singleton.mp hr]
      exact .inl (clean_append (clean_lit3 (by decide +kernel) (Fmt.clean_quoted ht _) (by decide +kernel))
        (Fmt.clean_vec (Fmt.clean_subscription ht) _))
    · rw [List.mem_singleton.mp hr]
      exact .inl (clean_append (clean_lit3 (by decide +kernel) (Fmt.clean_quoted ht _) (by decide +kernel))
        (Fmt.clean_vec (Fmt.clean_quoted ht) _))
    · split at hr
      · simp at hr
      · exact .inr (.inr ⟨_, List.mem_singleton.mp hr⟩)
    · rw [List.mem_singleton.mp hr]
      exact .inl (clean_lit3 (by decide +kernel) (Fmt.clean_quoted ht _) (by decide +kernel))
    · rw [List.mem_singleton.mp hr]
      exact .inl (clean_lit3 (by decide +kernel) (Fmt.clean_packetName _) (by decide +kernel))
  | disconnected id => simp at hr
  | connectionLost id =>
    rw [List.mem_singleton.mp hr]
    exact .inl (clean_lit3 (by decide +kernel) (Fmt.clean_quoted ht _) (by decide +kernel))

namespace Sys

theorem readRecords_clean {t : Texts} (ht : Sober t) {env : Env} {s : Sys} {c : ConnId} {r : LogRecord} (hr : r ∈ readRecords t env s c) :
    Clean r.message := by
  unfold readRecords at hr
  simp only at hr
  split at hr
  · split at hr
    · simp at hr
    · rw [List.mem_singleton.mp hr]; exact clean_of (by decide +kernel)
  · split at hr
    · split at hr
      · rcases List.mem_cons.mp hr with rfl | hr
        · exact clean_lit2 (by decide +kernel) (Fmt.clean_packet ht _)
        split at hr
        · split at hr
          · rw [List.mem_singleton.mp hr]; exact clean_of (by decide +kernel)
          · simp at hr
        · rw [List.mem_singleton.mp hr]; exact clean_of (by decide +kernel)
      · simp at hr
    · split at hr
      · rw [List.mem_singleton.mp hr]; exact clean_lit2 (by decide +kernel) (Fmt.clean_packet ht _)
      · rw [List.mem_singleton.mp hr]; exact clean_of (by decide +kernel)
      · simp at hr
    · simp at hr

theorem writeRecords_clean {t : Texts} (ht : Sober t) {env : Env} {s : Sys} {c : ConnId} {r : LogRecord} (hr : r ∈ writeRecords t env s c) :
    Clean r.message := by
  unfold writeRecords at hr
  simp only at hr
  split at hr
  · split at hr
    · rcases List.mem_append.mp hr with hr | hr
      · simp only [List.mem_cons, List.not_mem_nil, or_false] at hr
        rcases hr with rfl | rfl
        · exact clean_lit2 (by decide +kernel) (Fmt.clean_serverEvent ht _)
        · exact clean_lit2 (by decide +kernel) (Fmt.clean_packet ht _)
      · split at hr
        · rw [List.mem_singleton.mp hr]; exact clean_lit2 (by decide +kernel) (ht.ioError _)
        · simp at hr
    · simp only [List.mem_cons, List.not_mem_nil, or_false] at hr
      rcases hr with rfl | rfl
      · exact clean_lit2 (by decide +kernel) (Fmt.clean_serverEvent ht _)
      · exact clean_of (by decide +kernel)
    · split at hr
      · simp at hr
      · rw [List.mem_singleton.mp hr]; exact clean_of (by decide +kernel)
  · simp at hr

theorem transcript_clean {t : Texts} (ht : Sober t) {env : Env} {s : Sys} {sched : List Step} {r : LogRecord}
    (hr : r ∈ transcript t env s sched) : CleanBut t r := by
  induction sched generalizing s with
  | nil => simp [transcript] at hr
  | cons a sched ih =>
    rcases List.mem_append.mp hr with hr | hr
    · cases a with
      | read c => exact .inl (readRecords_clean ht hr)
      | write c => exact .inl (writeRecords_clean ht hr)
      | ctrlC =>
        simp only [records] at hr
        split at hr
        · simp at hr
        · rw [List.mem_singleton.mp hr]; exact .inl (clean_of (by decide +kernel))
      | stop =>
        simp only [records] at hr
        split at hr
        · split at hr
          · simp only [List.mem_cons, List.not_mem_nil, or_false] at hr
            rcases hr with rfl | rfl <;> exact .inl (clean_of (by decide +kernel))
          · simp at hr
        · simp at hr
      | handler now =>
        simp only [records, handlerRecords] at hr
        split at hr
        · exact records_clean ht hr
        · simp at hr
    · exact ih hr

end Sys

end Ratel
