/-
What is formatted with `{:?}` can be read in one way only, so the full log tells the events handled.
-/
import Verif.Proofs.LogText
import Verif.Proofs.LogAlike
import Verif.Spec.LogWhole

namespace Ratel

open Spec Fmt

/-! ### Texts that end where they end -/

/-- The lists differ before either ends. -/
def diverge : List Char → List Char → Bool
  | a :: l, b :: l' => if a = b then diverge l l' else true
  | _, _ => false

theorem diverge_ne {a b r r' : List Char} (h : diverge a b = true) : a ++ r ≠ b ++ r' := by
  induction a generalizing b with
  | nil => simp [diverge] at h
  | cons x a ih =>
    cases b with
    | nil => simp [diverge] at h
    | cons y b =>
      unfold diverge at h
      intro he
      simp only [List.cons_append, List.cons.injEq] at he
      rw [if_pos he.1] at h
      exact ih h he.2

/-- From the text of a value followed by anything, the value and what follows can be told. -/
def Apart {α : Type} (f : α → List Char) : Prop := ∀ a a' r r', f a ++ r = f a' ++ r' → a = a' ∧ r = r'

/-- No text begins with this character. -/
def Avoids {α : Type} (f : α → List Char) (c : Char) : Prop := ∀ a r r', f a ++ r ≠ c :: r'

theorem apart_cases {α : Type} {f : α → List Char} [DecidableEq α] (h : ∀ a a', a ≠ a' → diverge (f a) (f a') = true) : Apart f := by
  intro a a' r r' he
  by_cases hs : a = a'
  · subst hs; exact ⟨rfl, List.append_cancel_left he⟩
  · exact absurd he (diverge_ne (h a a' hs))

theorem apart_bool : Apart bool := apart_cases (by decide +kernel)

theorem apart_qos : Apart qos := apart_cases (by
  intro a a'
  cases a <;> cases a' <;> first | (intro h; exact absurd rfl h) | (intro; decide +kernel))

theorem apart_version : Apart version := apart_cases (by
  intro a a'
  cases a <;> cases a' <;> first | (intro h; exact absurd rfl h) | (intro; decide +kernel))

theorem apart_connAckCode : Apart connAckCode := apart_cases (by
  intro a a'
  cases a <;> cases a' <;> first | (intro h; exact absurd rfl h) | (intro; decide +kernel))

theorem apart_subAckCode : Apart subAckCode := apart_cases (by
  intro a a'
  cases a <;> cases a' <;> first | (intro h; exact absurd rfl h) | (intro; decide +kernel))

theorem apart_option {α : Type} {f : α → List Char} (h : Apart f) : Apart (option f) := by
  intro a a' r r' he
  cases a with
  | none =>
    cases a' with
    | none => exact ⟨rfl, List.append_cancel_left he⟩
    | some y =>
      simp only [option, List.append_assoc] at he
      exact absurd he (diverge_ne (by decide +kernel))
  | some x =>
    cases a' with
    | none =>
      simp only [option, List.append_assoc] at he
      exact absurd he (diverge_ne (by decide +kernel))
    | some y =>
      simp only [option, List.append_assoc] at he
      obtain ⟨rfl, k1⟩ := h _ _ _ _ (List.append_cancel_left he)
      exact ⟨rfl, List.append_cancel_left k1⟩

/-! ### Numbers -/

theorem digit_inj : ∀ a, a < 16 → ∀ b, b < 16 → Nat.digitChar a = Nat.digitChar b → a = b := by decide +kernel

theorem numeral_ne_nil (b n : Nat) : numeral b n ≠ [] := by
  unfold numeral
  split <;> simp

theorem numeral_inj {b : Nat} (hb : b ≤ 14) : ∀ n m : Nat, numeral b n = numeral b m → n = m := by
  intro n
  induction n using Nat.strongRecOn with
  | ind n ih =>
    intro m h
    unfold numeral at h
    split at h
    · rename_i hn
      split at h
      · rename_i hm
        simp only [List.cons.injEq, and_true] at h
        exact digit_inj _ (by omega) _ (by omega) h
      · exfalso
        have := congrArg List.length h
        have h2 := List.length_pos_iff.mpr (numeral_ne_nil b (m / (b + 2)))
        simp only [List.length_append, List.length_cons, List.length_nil] at this
        omega
    · rename_i hn
      split at h
      · exfalso
        have := congrArg List.length h
        have h2 := List.length_pos_iff.mpr (numeral_ne_nil b (n / (b + 2)))
        simp only [List.length_append, List.length_cons, List.length_nil] at this
        omega
      · rename_i hm
        have h' := List.append_inj' h rfl
        have h1 := ih (n / (b + 2)) (Nat.div_lt_self (by omega) (by omega)) _ h'.1
        have h2 := h'.2
        simp only [List.cons.injEq, and_true] at h2
        have := digit_inj _ (Nat.lt_of_lt_of_le (Nat.mod_lt _ (by omega)) (by omega)) _ (Nat.lt_of_lt_of_le (Nat.mod_lt _ (by omega)) (by omega)) h2
        rw [← Nat.div_add_mod n (b + 2), ← Nat.div_add_mod m (b + 2), h1, this]

theorem digit_plain : ∀ n : Nat, n < 16 → Nat.digitChar n ≠ '}' ∧ Nat.digitChar n ≠ ',' ∧ Nat.digitChar n ≠ ' ' ∧ Nat.digitChar n ≠ ')' := by
  decide +kernel

theorem numeral_plain {b : Nat} (hb : b ≤ 14) (n : Nat) {c : Char} (hc : c = '}' ∨ c = ',' ∨ c = ' ' ∨ c = ')') : c ∉ numeral b n := by
  induction n using Nat.strongRecOn with
  | ind n ih =>
    have key : ∀ k, k < 16 → c ≠ Nat.digitChar k := by
      intro k hk h
      have := digit_plain k hk
      rcases hc with rfl | rfl | rfl | rfl
      · exact this.1 h.symm
      · exact this.2.1 h.symm
      · exact this.2.2.1 h.symm
      · exact this.2.2.2 h.symm
    unfold numeral
    split
    · simp only [List.mem_singleton]
      exact key _ (by omega)
    · simp only [List.mem_append, List.mem_singleton, not_or]
      exact ⟨ih _ (Nat.div_lt_self (by omega) (by omega)), key _ (Nat.lt_of_lt_of_le (Nat.mod_lt _ (by omega)) (by omega))⟩

theorem cut_decimal {n n' : UInt16} {c : Char} (hc : c = '}' ∨ c = ',' ∨ c = ' ' ∨ c = ')') {r r' : List Char}
    (h : decimal n.toNat ++ c :: r = decimal n'.toNat ++ c :: r') : n = n' ∧ r = r' := by
  obtain ⟨h1, h2⟩ := cut_first (numeral_plain (by decide) _ hc) (numeral_plain (by decide) _ hc) h
  exact ⟨UInt16.toNat_inj.mp (numeral_inj (by decide) _ _ h1), h2⟩

/-! ### Quoted texts -/

/-- The characters with an escape of their own. -/
def shortEscapes : List (Char × Char) := [(Char.ofNat 0, '0'), ('\t', 't'), ('\r', 'r'), ('\n', 'n'), ('\\', '\\'), ('"', '"')]

theorem escapeChar_cases (t : Texts) (c : Char) :
    (∃ k, (c, k) ∈ shortEscapes ∧ escapeChar t c = ['\\', k])
    ∨ (c ≠ '\\' ∧ c ≠ '"' ∧ escapeChar t c = [c])
    ∨ escapeChar t c = ['\\', 'u', '{'] ++ numeral 14 c.toNat ++ ['}'] := by
  unfold escapeChar
  split
  · rename_i h; subst h; exact .inl ⟨'0', by simp [shortEscapes], rfl⟩
  split
  · rename_i h; subst h; exact .inl ⟨'t', by simp [shortEscapes], rfl⟩
  split
  · rename_i h; subst h; exact .inl ⟨'r', by simp [shortEscapes], rfl⟩
  split
  · rename_i h; subst h; exact .inl ⟨'n', by simp [shortEscapes], rfl⟩
  split
  · rename_i h; subst h; exact .inl ⟨'\\', by simp [shortEscapes], rfl⟩
  split
  · rename_i h; subst h; exact .inl ⟨'"', by simp [shortEscapes], rfl⟩
  split
  · rename_i h1 h2 _; exact .inr (.inl ⟨h1, h2, rfl⟩)
  · exact .inr (.inr rfl)

theorem shortEscapes_inj : ∀ x ∈ shortEscapes, ∀ y ∈ shortEscapes, x.2 = y.2 → x = y := by decide +kernel

theorem shortEscapes_u : ∀ x ∈ shortEscapes, x.2 ≠ 'u' := by decide +kernel

theorem apart_escapeChar (t : Texts) : Apart (escapeChar t) := by
  intro a b r r' h
  rcases escapeChar_cases t a with ⟨k, hk, e⟩ | ⟨h1, _, e⟩ | e <;> rcases escapeChar_cases t b with ⟨k', hk', e'⟩ | ⟨h1', _, e'⟩ | e' <;>
    rw [e, e'] at h <;> simp only [List.cons_append, List.nil_append, List.cons.injEq, true_and] at h
  · have := shortEscapes_inj _ hk _ hk' h.1
    exact ⟨congrArg Prod.fst this, h.2⟩
  · exact absurd h.1.symm h1'
  · exact absurd h.1 (shortEscapes_u _ hk)
  · exact absurd h.1 h1
  · exact h
  · exact absurd h.1 h1
  · exact absurd h.1.symm (shortEscapes_u _ hk')
  · exact absurd h.1.symm h1'
  · rw [List.append_assoc, List.append_assoc] at h
    obtain ⟨h2, h3⟩ := cut_first (numeral_plain (by decide) _ (.inl rfl)) (numeral_plain (by decide) _ (.inl rfl)) h
    exact ⟨Char.toNat_inj.mp (numeral_inj (by decide) _ _ h2), h3⟩

theorem avoids_escapeChar (t : Texts) : Avoids (escapeChar t) '"' := by
  intro a r r' h
  rcases escapeChar_cases t a with ⟨k, hk, e⟩ | ⟨_, h1, e⟩ | e <;> rw [e] at h <;> simp at h
  exact h1 h.1

theorem cut_flatMap {α : Type} {f : α → List Char} {c : Char} (h : Apart f) (hc : Avoids f c) (l l' : List α) (r r' : List Char)
    (he : l.flatMap f ++ c :: r = l'.flatMap f ++ c :: r') : l = l' ∧ r = r' := by
  induction l generalizing l' with
  | nil =>
    cases l' with
    | nil => simpa using he
    | cons b l' =>
      rw [List.flatMap_cons, List.append_assoc] at he
      exact absurd he.symm (hc _ _ _)
  | cons a l ih =>
    cases l' with
    | nil =>
      rw [List.flatMap_cons, List.append_assoc] at he
      exact absurd he (hc _ _ _)
    | cons b l' =>
      rw [List.flatMap_cons, List.flatMap_cons, List.append_assoc, List.append_assoc] at he
      obtain ⟨rfl, k2⟩ := h _ _ _ _ he
      obtain ⟨rfl, hr⟩ := ih _ k2
      exact ⟨rfl, hr⟩

theorem apart_quoted (t : Texts) : Apart (quoted t) := by
  intro a b r r' h
  simp only [quoted, List.append_assoc] at h
  obtain ⟨h1, h2⟩ := cut_flatMap (apart_escapeChar t) (avoids_escapeChar t) _ _ _ _ (List.append_cancel_left h)
  exact ⟨String.toList_inj.mp h1, h2⟩

theorem avoids_quoted (t : Texts) : Avoids (quoted t) ']' := by
  intro a r r' h
  simp [quoted] at h

/-- How long an escaped byte is, from its beginning. -/
def escapedLength : List Char → Nat
  | c :: d :: _ => if c = '\\' then if d = 'x' then 4 else 2 else 1
  | [c] => if c = '\\' then 2 else 1
  | [] => 1

theorem escapedLength_append {e : List Char} (h : escapedLength e = e.length) (r : List Char) : escapedLength (e ++ r) = e.length := by
  match e with
  | [] => simp [escapedLength] at h
  | [c] =>
    have hc : c ≠ '\\' := by
      intro hc
      simp [escapedLength, hc] at h
    cases r <;> simp [escapedLength, hc]
  | c :: d :: e => exact h

/-- The value of a hexadecimal digit. -/
def hexValue (c : Char) : Nat := if c.toNat < 58 then c.toNat - 48 else c.toNat - 87

/-- The byte an escape stands for. -/
def unescape : List Char → Nat
  | [c] => c.toNat
  | [_, k] => if k = 'n' then 10 else if k = 'r' then 13 else if k = 't' then 9 else if k = '0' then 0 else k.toNat
  | [_, _, h, l] => 16 * hexValue h + hexValue l
  | _ => 0

theorem escapeByte_table : ∀ a : Fin 256, unescape (escapeByte (UInt8.ofNat a.val)) = a.val
    ∧ escapedLength (escapeByte (UInt8.ofNat a.val)) = (escapeByte (UInt8.ofNat a.val)).length := by
  decide +kernel

theorem escapeByte_facts (a : UInt8) : unescape (escapeByte a) = a.toNat ∧ escapedLength (escapeByte a) = (escapeByte a).length := by
  have := escapeByte_table ⟨a.toNat, a.toNat_lt⟩
  simpa using this

theorem apart_escapeByte : Apart escapeByte := by
  intro a b r r' h
  have ha := escapeByte_facts a
  have hb := escapeByte_facts b
  have hl : (escapeByte a).length = (escapeByte b).length := by
    rw [← escapedLength_append ha.2 r, h, escapedLength_append hb.2 r']
  obtain ⟨h1, h2⟩ := List.append_inj h hl
  exact ⟨UInt8.toNat_inj.mp (by rw [← ha.1, ← hb.1, h1]), h2⟩

theorem escapeByte_quote : ∀ a : Fin 256, diverge (escapeByte (UInt8.ofNat a.val)) ['"'] = true := by decide +kernel

theorem avoids_escapeByte : Avoids escapeByte '"' := by
  intro a r r' h
  have := escapeByte_quote ⟨a.toNat, a.toNat_lt⟩
  simp only [UInt8.ofNat_toNat] at this
  exact diverge_ne (b := ['"']) this h

theorem apart_bytes : Apart bytes := by
  intro a b r r' h
  simp only [bytes, List.append_assoc] at h
  exact cut_flatMap apart_escapeByte avoids_escapeByte _ _ _ _ (List.append_cancel_left h)

/-! ### Lists -/

theorem cut_items {α : Type} {f : α → List Char} (h : Apart f) (hc : Avoids f ']') : ∀ (l l' : List α) (r r' : List Char),
    items f l ++ ']' :: r = items f l' ++ ']' :: r' → l = l' ∧ r = r'
  | [], [], r, r', he => by simpa [items] using he
  | [], [b], r, r', he => absurd he.symm (hc _ _ _)
  | [], b :: b' :: l', r, r', he => by
    simp only [items, List.append_assoc] at he
    exact absurd he.symm (hc _ _ _)
  | [a], [], r, r', he => absurd he (hc _ _ _)
  | a :: a' :: l, [], r, r', he => by
    simp only [items, List.append_assoc] at he
    exact absurd he (hc _ _ _)
  | [a], [b], r, r', he => by
    obtain ⟨rfl, k3⟩ := h _ _ _ _ he
    simp at k3
    exact ⟨rfl, k3⟩
  | [a], b :: b' :: l', r, r', he => by
    simp only [items, List.append_assoc] at he
    obtain ⟨rfl, k4⟩ := h _ _ _ _ he
    exact absurd k4 (diverge_ne (a := [']']) (b := ", ".toList) (by decide +kernel))
  | a :: a' :: l, [b], r, r', he => by
    simp only [items, List.append_assoc] at he
    obtain ⟨rfl, k5⟩ := h _ _ _ _ he
    exact absurd k5 (diverge_ne (a := ", ".toList) (b := [']']) (by decide +kernel))
  | a :: a' :: l, b :: b' :: l', r, r', he => by
    simp only [items, List.append_assoc] at he
    obtain ⟨rfl, k6⟩ := h _ _ _ _ he
    obtain ⟨e, hr⟩ := cut_items h hc (a' :: l) (b' :: l') r r' (List.append_cancel_left k6)
    exact ⟨by rw [e], hr⟩

theorem apart_vec {α : Type} {f : α → List Char} (h : Apart f) (hc : Avoids f ']') : Apart (vec f) := by
  intro a b r r' he
  simp only [vec, List.append_assoc] at he
  exact cut_items h hc _ _ _ _ (List.append_cancel_left he)

/-! ### Packets -/

theorem apart_message (t : Texts) : Apart (message t) := by
  rintro ⟨tp, pl, q, rt⟩ ⟨tp', pl', q', rt'⟩ r r' h
  unfold message at h
  simp only [List.append_assoc] at h
  rw [List.append_right_inj] at h
  obtain ⟨rfl, k7⟩ := apart_quoted t _ _ _ _ h
  rw [List.append_right_inj] at k7
  obtain ⟨rfl, k8⟩ := apart_bytes _ _ _ _ k7
  rw [List.append_right_inj] at k8
  obtain ⟨rfl, k9⟩ := apart_qos _ _ _ _ k8
  rw [List.append_right_inj] at k9
  obtain ⟨rfl, k10⟩ := apart_bool _ _ _ _ k9
  rw [List.append_right_inj] at k10
  exact ⟨rfl, k10⟩

theorem cut_decimal_lit {n n' : UInt16} {l : List Char} (hl : ∃ c x, (c = '}' ∨ c = ',' ∨ c = ' ' ∨ c = ')') ∧ l = c :: x) {r r' : List Char}
    (h : decimal n.toNat ++ (l ++ r) = decimal n'.toNat ++ (l ++ r')) : n = n' ∧ r = r' := by
  obtain ⟨c, x, hc, rfl⟩ := hl
  obtain ⟨h1, h2⟩ := cut_decimal hc h
  exact ⟨h1, List.append_cancel_left h2⟩

theorem apart_connect (t : Texts) : Apart (connect t) := by
  rintro ⟨v, i, k, cl, w, u, pw⟩ ⟨v', i', k', cl', w', u', pw'⟩ r r' h
  unfold connect at h
  simp only [List.append_assoc] at h
  rw [List.append_right_inj] at h
  obtain ⟨rfl, k11⟩ := apart_version _ _ _ _ h
  rw [List.append_right_inj] at k11
  obtain ⟨rfl, k12⟩ := apart_quoted t _ _ _ _ k11
  rw [List.append_right_inj] at k12
  obtain ⟨rfl, k13⟩ := cut_decimal_lit ⟨',', " clean_session: ".toList, by simp, by decide +kernel⟩ k12
  obtain ⟨rfl, k14⟩ := apart_bool _ _ _ _ k13
  rw [List.append_right_inj] at k14
  obtain ⟨rfl, k15⟩ := apart_option (apart_message t) _ _ _ _ k14
  rw [List.append_right_inj] at k15
  obtain ⟨rfl, k16⟩ := apart_option (apart_quoted t) _ _ _ _ k15
  rw [List.append_right_inj] at k16
  obtain ⟨rfl, k17⟩ := apart_option (apart_quoted t) _ _ _ _ k16
  rw [List.append_right_inj] at k17
  exact ⟨rfl, k17⟩

theorem apart_subscription (t : Texts) : Apart (subscription t) := by
  rintro ⟨tp, q⟩ ⟨tp', q'⟩ r r' h
  unfold subscription at h
  simp only [List.append_assoc] at h
  rw [List.append_right_inj] at h
  obtain ⟨rfl, k18⟩ := apart_quoted t _ _ _ _ h
  rw [List.append_right_inj] at k18
  obtain ⟨rfl, k19⟩ := apart_qos _ _ _ _ k18
  rw [List.append_right_inj] at k19
  exact ⟨rfl, k19⟩

theorem avoids_subscription (t : Texts) : Avoids (subscription t) ']' := by
  intro a r r' h
  unfold subscription at h
  simp only [List.append_assoc] at h
  exact diverge_ne (b := [']']) (by decide +kernel) h

theorem avoids_subAckCode : Avoids subAckCode ']' := by
  intro a r r' h
  exact diverge_ne (b := [']']) (by cases a <;> decide +kernel) h

theorem apart_idOnly (v s : String) : Apart (idOnly v s) := by
  intro a b r r' h
  unfold idOnly at h
  simp only [List.append_assoc] at h
  iterate 4 rw [List.append_right_inj] at h
  exact cut_decimal_lit ⟨' ', "})".toList, by simp, by decide +kernel⟩ h

/-- What the texts of packets begin with. -/
def packetTags : List (List Char) :=
  ["Connect(".toList, "ConnAck(ConnAckPacket { session_present: ".toList, "Publish(PublishPacket { packet_id: ".toList, "PubAck".toList,
    "PubRec".toList, "PubRel".toList, "PubComp".toList, "Subscribe(SubscribePacket { packet_id: ".toList,
    "SubAck(SubAckPacket { packet_id: ".toList, "Unsubscribe(UnsubscribePacket { packet_id: ".toList, "UnsubAck".toList, "PingReq".toList,
    "PingResp".toList, "Disconnect(DisconnectPacket)".toList]

/-- The kinds of packets. -/
def packetKind : ControlPacket → Nat
  | .connect _ => 0
  | .connAck _ => 1
  | .publish _ => 2
  | .pubAck _ => 3
  | .pubRec _ => 4
  | .pubRel _ => 5
  | .pubComp _ => 6
  | .subscribe _ => 7
  | .subAck _ => 8
  | .unsubscribe _ => 9
  | .unsubAck _ => 10
  | .pingReq => 11
  | .pingResp => 12
  | .disconnect => 13

theorem packetTags_diverge : ∀ i, i < 14 → ∀ j, j < 14 → i ≠ j → diverge (packetTags.getD i []) (packetTags.getD j []) = true := by
  decide +kernel

theorem packetKind_lt (p : ControlPacket) : packetKind p < 14 := by
  cases p <;> simp [packetKind]

theorem packet_tag (t : Texts) (p : ControlPacket) : ∃ x, packet t p = packetTags.getD (packetKind p) [] ++ x := by
  cases p with
  | connect p => exact ⟨connect t p ++ [')'], List.append_assoc _ _ _⟩
  | connAck p => exact ⟨bool p.sessionPresent ++ (", return_code: ".toList ++ (connAckCode p.returnCode ++ " })".toList)), by
      show _ ++ _ ++ _ ++ _ ++ _ = _
      rw [List.append_assoc, List.append_assoc, List.append_assoc]; rfl⟩
  | publish p => exact ⟨option (fun n : UInt16 => decimal n.toNat) p.packetId ++ (", dup: ".toList ++ (bool p.dup ++ (", message: ".toList
      ++ (message t p.message ++ " })".toList)))), by
      show _ ++ _ ++ _ ++ _ ++ _ ++ _ ++ _ = _
      rw [List.append_assoc, List.append_assoc, List.append_assoc, List.append_assoc, List.append_assoc]; rfl⟩
  | pubAck i => exact ⟨"(".toList ++ ("PubAckPacket".toList ++ (" { packet_id: ".toList ++ (decimal i.toNat ++ " })".toList))), by
      show _ ++ _ ++ _ ++ _ ++ _ ++ _ = _
      rw [List.append_assoc, List.append_assoc, List.append_assoc, List.append_assoc]; rfl⟩
  | pubRec i => exact ⟨"(".toList ++ ("PubRecPacket".toList ++ (" { packet_id: ".toList ++ (decimal i.toNat ++ " })".toList))), by
      show _ ++ _ ++ _ ++ _ ++ _ ++ _ = _
      rw [List.append_assoc, List.append_assoc, List.append_assoc, List.append_assoc]; rfl⟩
  | pubRel i => exact ⟨"(".toList ++ ("PubRelPacket".toList ++ (" { packet_id: ".toList ++ (decimal i.toNat ++ " })".toList))), by
      show _ ++ _ ++ _ ++ _ ++ _ ++ _ = _
      rw [List.append_assoc, List.append_assoc, List.append_assoc, List.append_assoc]; rfl⟩
  | pubComp i => exact ⟨"(".toList ++ ("PubCompPacket".toList ++ (" { packet_id: ".toList ++ (decimal i.toNat ++ " })".toList))), by
      show _ ++ _ ++ _ ++ _ ++ _ ++ _ = _
      rw [List.append_assoc, List.append_assoc, List.append_assoc, List.append_assoc]; rfl⟩
  | subscribe p => exact ⟨decimal p.packetId.toNat ++ (", subscriptions: ".toList ++ (vec (subscription t) p.subscriptions ++ " })".toList)), by
      show _ ++ _ ++ _ ++ _ ++ _ = _
      rw [List.append_assoc, List.append_assoc, List.append_assoc]; rfl⟩
  | subAck p => exact ⟨decimal p.packetId.toNat ++ (", return_codes: ".toList ++ (vec subAckCode p.returnCodes ++ " })".toList)), by
      show _ ++ _ ++ _ ++ _ ++ _ = _
      rw [List.append_assoc, List.append_assoc, List.append_assoc]; rfl⟩
  | unsubscribe p => exact ⟨decimal p.packetId.toNat ++ (", topics: ".toList ++ (vec (quoted t) p.topics ++ " })".toList)), by
      show _ ++ _ ++ _ ++ _ ++ _ = _
      rw [List.append_assoc, List.append_assoc, List.append_assoc]; rfl⟩
  | unsubAck i => exact ⟨"(".toList ++ ("UnSubAckPacket".toList ++ (" { packet_id: ".toList ++ (decimal i.toNat ++ " })".toList))), by
      show _ ++ _ ++ _ ++ _ ++ _ ++ _ = _
      rw [List.append_assoc, List.append_assoc, List.append_assoc, List.append_assoc]; rfl⟩
  | pingReq => exact ⟨[], (List.append_nil _).symm⟩
  | pingResp => exact ⟨[], (List.append_nil _).symm⟩
  | disconnect => exact ⟨[], (List.append_nil _).symm⟩

theorem packet_kind {t : Texts} {p p' : ControlPacket} {r r' : List Char} (h : packet t p ++ r = packet t p' ++ r') : packetKind p = packetKind p' := by
  obtain ⟨x, hx⟩ := packet_tag t p
  obtain ⟨x', hx'⟩ := packet_tag t p'
  rw [hx, hx', List.append_assoc, List.append_assoc] at h
  by_cases hk : packetKind p = packetKind p'
  · exact hk
  · exact absurd h (diverge_ne (packetTags_diverge _ (packetKind_lt p) _ (packetKind_lt p') hk))

theorem apart_id : Apart (fun o : Option UInt16 => option (fun n : UInt16 => decimal n.toNat) o) := by
  intro a a' r r' he
  cases a with
  | none =>
    cases a' with
    | none => exact ⟨rfl, List.append_cancel_left he⟩
    | some y =>
      simp only [option, List.append_assoc] at he
      exact absurd he (diverge_ne (by decide +kernel))
  | some x =>
    cases a' with
    | none =>
      simp only [option, List.append_assoc] at he
      exact absurd he (diverge_ne (by decide +kernel))
    | some y =>
      simp only [option, List.append_assoc] at he
      obtain ⟨rfl, k⟩ := cut_decimal (c := ')') (by simp) (List.append_cancel_left he)
      exact ⟨rfl, k⟩

theorem apart_packet (t : Texts) : Apart (packet t) := by
  intro p p' r r' h
  have hk := packet_kind h
  cases p with
  | connect p =>
    cases p' <;> first | (simp [packetKind] at hk; done) | skip
    rename_i p'
    change "Connect(".toList ++ connect t p ++ [')'] ++ r = "Connect(".toList ++ connect t p' ++ [')'] ++ r' at h
    simp only [List.append_assoc] at h
    rw [List.append_right_inj] at h
    obtain ⟨rfl, k⟩ := apart_connect t _ _ _ _ h
    rw [List.append_right_inj] at k
    exact ⟨rfl, k⟩
  | connAck p =>
    cases p' <;> first | (simp [packetKind] at hk; done) | skip
    rename_i p'
    obtain ⟨a, b⟩ := p
    obtain ⟨a', b'⟩ := p'
    change "ConnAck(ConnAckPacket { session_present: ".toList ++ bool a ++ ", return_code: ".toList ++ connAckCode b ++ " })".toList ++ r
      = "ConnAck(ConnAckPacket { session_present: ".toList ++ bool a' ++ ", return_code: ".toList ++ connAckCode b' ++ " })".toList ++ r' at h
    simp only [List.append_assoc] at h
    rw [List.append_right_inj] at h
    obtain ⟨rfl, k⟩ := apart_bool _ _ _ _ h
    rw [List.append_right_inj] at k
    obtain ⟨rfl, k1⟩ := apart_connAckCode _ _ _ _ k
    rw [List.append_right_inj] at k1
    exact ⟨rfl, k1⟩
  | publish p =>
    cases p' <;> first | (simp [packetKind] at hk; done) | skip
    rename_i p'
    obtain ⟨a, b, c⟩ := p
    obtain ⟨a', b', c'⟩ := p'
    change "Publish(PublishPacket { packet_id: ".toList ++ option (fun n : UInt16 => decimal n.toNat) a ++ ", dup: ".toList
        ++ bool b ++ ", message: ".toList ++ message t c ++ " })".toList ++ r
      = "Publish(PublishPacket { packet_id: ".toList ++ option (fun n : UInt16 => decimal n.toNat) a' ++ ", dup: ".toList
        ++ bool b' ++ ", message: ".toList ++ message t c' ++ " })".toList ++ r' at h
    simp only [List.append_assoc] at h
    rw [List.append_right_inj] at h
    obtain ⟨rfl, k⟩ := apart_id _ _ _ _ h
    rw [List.append_right_inj] at k
    obtain ⟨rfl, k1⟩ := apart_bool _ _ _ _ k
    rw [List.append_right_inj] at k1
    obtain ⟨rfl, k2⟩ := apart_message t _ _ _ _ k1
    rw [List.append_right_inj] at k2
    exact ⟨rfl, k2⟩
  | pubAck i =>
    cases p' <;> first | (simp [packetKind] at hk; done) | skip
    obtain ⟨rfl, k⟩ := apart_idOnly "PubAck" "PubAckPacket" _ _ _ _ h
    exact ⟨rfl, k⟩
  | pubRec i =>
    cases p' <;> first | (simp [packetKind] at hk; done) | skip
    obtain ⟨rfl, k⟩ := apart_idOnly "PubRec" "PubRecPacket" _ _ _ _ h
    exact ⟨rfl, k⟩
  | pubRel i =>
    cases p' <;> first | (simp [packetKind] at hk; done) | skip
    obtain ⟨rfl, k⟩ := apart_idOnly "PubRel" "PubRelPacket" _ _ _ _ h
    exact ⟨rfl, k⟩
  | pubComp i =>
    cases p' <;> first | (simp [packetKind] at hk; done) | skip
    obtain ⟨rfl, k⟩ := apart_idOnly "PubComp" "PubCompPacket" _ _ _ _ h
    exact ⟨rfl, k⟩
  | subscribe p =>
    cases p' <;> first | (simp [packetKind] at hk; done) | skip
    rename_i p'
    obtain ⟨a, b⟩ := p
    obtain ⟨a', b'⟩ := p'
    change "Subscribe(SubscribePacket { packet_id: ".toList ++ decimal a.toNat ++ ", subscriptions: ".toList ++ vec (subscription t) b
        ++ " })".toList ++ r
      = "Subscribe(SubscribePacket { packet_id: ".toList ++ decimal a'.toNat ++ ", subscriptions: ".toList ++ vec (subscription t) b'
        ++ " })".toList ++ r' at h
    simp only [List.append_assoc] at h
    rw [List.append_right_inj] at h
    obtain ⟨rfl, k⟩ := cut_decimal_lit ⟨',', " subscriptions: ".toList, by simp, by decide +kernel⟩ h
    obtain ⟨rfl, k1⟩ := apart_vec (apart_subscription t) (avoids_subscription t) _ _ _ _ k
    rw [List.append_right_inj] at k1
    exact ⟨rfl, k1⟩
  | subAck p =>
    cases p' <;> first | (simp [packetKind] at hk; done) | skip
    rename_i p'
    obtain ⟨a, b⟩ := p
    obtain ⟨a', b'⟩ := p'
    change "SubAck(SubAckPacket { packet_id: ".toList ++ decimal a.toNat ++ ", return_codes: ".toList ++ vec subAckCode b ++ " })".toList ++ r
      = "SubAck(SubAckPacket { packet_id: ".toList ++ decimal a'.toNat ++ ", return_codes: ".toList ++ vec subAckCode b' ++ " })".toList ++ r' at h
    simp only [List.append_assoc] at h
    rw [List.append_right_inj] at h
    obtain ⟨rfl, k⟩ := cut_decimal_lit ⟨',', " return_codes: ".toList, by simp, by decide +kernel⟩ h
    obtain ⟨rfl, k1⟩ := apart_vec apart_subAckCode avoids_subAckCode _ _ _ _ k
    rw [List.append_right_inj] at k1
    exact ⟨rfl, k1⟩
  | unsubscribe p =>
    cases p' <;> first | (simp [packetKind] at hk; done) | skip
    rename_i p'
    obtain ⟨a, b⟩ := p
    obtain ⟨a', b'⟩ := p'
    change "Unsubscribe(UnsubscribePacket { packet_id: ".toList ++ decimal a.toNat ++ ", topics: ".toList ++ vec (quoted t) b ++ " })".toList ++ r
      = "Unsubscribe(UnsubscribePacket { packet_id: ".toList ++ decimal a'.toNat ++ ", topics: ".toList ++ vec (quoted t) b' ++ " })".toList ++ r' at h
    simp only [List.append_assoc] at h
    rw [List.append_right_inj] at h
    obtain ⟨rfl, k⟩ := cut_decimal_lit ⟨',', " topics: ".toList, by simp, by decide +kernel⟩ h
    obtain ⟨rfl, k1⟩ := apart_vec (apart_quoted t) (avoids_quoted t) _ _ _ _ k
    rw [List.append_right_inj] at k1
    exact ⟨rfl, k1⟩
  | unsubAck i =>
    cases p' <;> first | (simp [packetKind] at hk; done) | skip
    obtain ⟨rfl, k⟩ := apart_idOnly "UnsubAck" "UnSubAckPacket" _ _ _ _ h
    exact ⟨rfl, k⟩
  | pingReq =>
    cases p' <;> first | (simp [packetKind] at hk; done) | skip
    exact ⟨rfl, List.append_cancel_left h⟩
  | pingResp =>
    cases p' <;> first | (simp [packetKind] at hk; done) | skip
    exact ⟨rfl, List.append_cancel_left h⟩
  | disconnect =>
    cases p' <;> first | (simp [packetKind] at hk; done) | skip
    exact ⟨rfl, List.append_cancel_left h⟩

/-- The text of an event tells it, but for addresses and connections. -/
theorem clientEvent_story {t : Texts} {ev ev' : ClientEvent} (h : clientEvent t ev = clientEvent t ev') : SameStory ev ev' := by
  have d1 : ∀ {x x' : List Char}, "Connected(".toList ++ x ≠ "ControlPacket(".toList ++ x' := diverge_ne (by decide +kernel)
  have d2 : ∀ {x x' : List Char}, "Connected(".toList ++ x ≠ "Disconnected(".toList ++ x' := diverge_ne (by decide +kernel)
  have d3 : ∀ {x x' : List Char}, "Connected(".toList ++ x ≠ "ConnectionLost(".toList ++ x' := diverge_ne (by decide +kernel)
  have d4 : ∀ {x x' : List Char}, "ControlPacket(".toList ++ x ≠ "Disconnected(".toList ++ x' := diverge_ne (by decide +kernel)
  have d5 : ∀ {x x' : List Char}, "ControlPacket(".toList ++ x ≠ "ConnectionLost(".toList ++ x' := diverge_ne (by decide +kernel)
  have d6 : ∀ {x x' : List Char}, "Disconnected(".toList ++ x ≠ "ConnectionLost(".toList ++ x' := diverge_ne (by decide +kernel)
  have e1 : ∀ p a c, clientEvent t (.connected p a c)
      = "Connected(".toList ++ (connect t p ++ (", ".toList ++ (t.address a ++ (", ".toList ++ (t.sender c ++ [')']))))) := by
    intro p a c
    show "Connected(".toList ++ connect t p ++ ", ".toList ++ t.address a ++ ", ".toList ++ t.sender c ++ [')'] = _
    simp only [List.append_assoc]
  have e2 : ∀ id p c, clientEvent t (.controlPacket id p c)
      = "ControlPacket(".toList ++ (quoted t id ++ (", ".toList ++ (packet t p ++ (", ".toList ++ (t.sender c ++ [')']))))) := by
    intro id p c
    show "ControlPacket(".toList ++ quoted t id ++ ", ".toList ++ packet t p ++ ", ".toList ++ t.sender c ++ [')'] = _
    simp only [List.append_assoc]
  have e3 : ∀ id, clientEvent t (.disconnected id) = "Disconnected(".toList ++ (quoted t id ++ [')']) := fun id => List.append_assoc _ _ _
  have e4 : ∀ id, clientEvent t (.connectionLost id) = "ConnectionLost(".toList ++ (quoted t id ++ [')']) := fun id => List.append_assoc _ _ _
  cases ev with
  | connected p a c =>
    rw [e1] at h
    cases ev' with
    | connected p' a' c' =>
      rw [e1, List.append_right_inj] at h
      exact (apart_connect t _ _ _ _ h).1
    | controlPacket id p' c' => rw [e2] at h; exact absurd h d1
    | disconnected id => rw [e3] at h; exact absurd h d2
    | connectionLost id => rw [e4] at h; exact absurd h d3
  | controlPacket id p c =>
    rw [e2] at h
    cases ev' with
    | connected p' a' c' => rw [e1] at h; exact absurd h.symm d1
    | controlPacket id p' c' =>
      rw [e2, List.append_right_inj] at h
      obtain ⟨h1, h2⟩ := apart_quoted t _ _ _ _ h
      rw [List.append_right_inj] at h2
      exact ⟨h1, (apart_packet t _ _ _ _ h2).1⟩
    | disconnected id => rw [e3] at h; exact absurd h d4
    | connectionLost id => rw [e4] at h; exact absurd h d5
  | disconnected id =>
    rw [e3] at h
    cases ev' with
    | connected p' a' c' => rw [e1] at h; exact absurd h.symm d2
    | controlPacket id p' c' => rw [e2] at h; exact absurd h.symm d4
    | disconnected id =>
      rw [e3, List.append_right_inj] at h
      exact (apart_quoted t _ _ _ _ h).1
    | connectionLost id => rw [e4] at h; exact absurd h d6
  | connectionLost id =>
    rw [e4] at h
    cases ev' with
    | connected p' a' c' => rw [e1] at h; exact absurd h.symm d3
    | controlPacket id p' c' => rw [e2] at h; exact absurd h.symm d5
    | disconnected id => rw [e3] at h; exact absurd h.symm d6
    | connectionLost id =>
      rw [e4, List.append_right_inj] at h
      exact (apart_quoted t _ _ _ _ h).1

/-! ### The events in the log -/

/-- The text of the event a record tells. -/
def gotEvent (r : LogRecord) : Option (List Char) :=
  if r.level = .trace ∧ r.origin = .handler ∧ "Got event ".toList.isPrefixOf r.message = true then some (r.message.drop 10) else none

/-- What a record tells: an event, or a refusal. -/
def note (t : Texts) (r : LogRecord) : Option (List Char ⊕ (String × AuthenticationError)) :=
  match gotEvent r with
  | some x => some (.inl x)
  | none => (shown t r).map .inr

theorem gotEvent_some (x : List Char) : gotEvent ⟨.trace, .handler, "Got event ".toList ++ x⟩ = some x := by
  unfold gotEvent
  rw [if_pos ⟨rfl, rfl, List.isPrefixOf_iff_prefix.mpr (List.prefix_append _ _)⟩]
  exact congrArg some (List.drop_left' (by decide +kernel))

theorem gotEvent_level {r : LogRecord} (h : r.level ≠ .trace) : gotEvent r = none := if_neg fun hc => h hc.1

theorem gotEvent_packet (x : List Char) : gotEvent ⟨.trace, .handler, "Got packet ".toList ++ x⟩ = none := by
  unfold gotEvent
  rw [if_neg]
  rintro ⟨_, _, h⟩
  obtain ⟨y, hy⟩ := List.isPrefixOf_iff_prefix.mp h
  exact diverge_ne (by decide +kernel) hy

theorem note_nil {t : Texts} {rs : List LogRecord} (h : ∀ r ∈ rs, gotEvent r = none) :
    rs.filterMap (note t) = (rs.filterMap (shown t)).map .inr := by
  induction rs with
  | nil => rfl
  | cons r rs ih =>
    have hr : note t r = (shown t r).map .inr := by unfold note; rw [h r List.mem_cons_self]
    have ih := ih fun r' hr' => h r' (List.mem_cons_of_mem _ hr')
    cases hs : shown t r with
    | none => rw [List.filterMap_cons_none (by rw [hr, hs]; rfl), List.filterMap_cons_none hs, ih]
    | some y => rw [List.filterMap_cons_some (b := .inr y) (by rw [hr, hs]; rfl), List.filterMap_cons_some hs, ih, List.map_cons]

theorem note_records (t : Texts) (auth : IdentityProvider) (m : MessagingService) (ev : ClientEvent) :
    (Handler.records t auth m ev).filterMap (note t) = .inl (clientEvent t ev) :: (refusal auth ev).toList.map .inr := by
  have hs := shown_records t auth m ev
  unfold Handler.records at hs ⊢
  rw [List.filterMap_cons_none (shown_level (.inl (by simp)))] at hs
  have hn : note t ⟨.trace, .handler, "Got event ".toList ++ clientEvent t ev⟩ = some (.inl (clientEvent t ev)) := by
    unfold note; rw [gotEvent_some]
  rw [List.filterMap_cons_some hn, ← hs]
  congr 1
  refine note_nil fun r hr => ?_
  cases ev with
  | connected p addr tx =>
    refine gotEvent_level ?_
    simp only [Handler.connectRecords] at hr
    rcases List.mem_cons.mp hr with rfl | hr
    · simp
    split at hr
    · split at hr
      · simp only [List.mem_singleton] at hr; subst hr; simp [Handler.refusalRecord]
      · simp at hr
    · simp at hr
  | controlPacket id p tx =>
    simp only [Handler.packetRecords] at hr
    rcases List.mem_cons.mp hr with rfl | hr
    · exact gotEvent_packet _
    refine gotEvent_level ?_
    split at hr
    · rcases List.mem_cons.mp hr with rfl | hr
      · simp
      · simp only [Handler.publishWarnings] at hr
        split at hr
        · simp at hr
        · simp only [List.mem_filterMap] at hr
          obtain ⟨c, _, hc⟩ := hr
          split at hc
          · simp at hc
          · injection hc with hc; subst hc; simp
    · simp only [List.mem_singleton] at hr; subst hr; simp
    · simp only [List.mem_singleton] at hr; subst hr; simp
    · split at hr
      · simp at hr
      · simp only [List.mem_singleton] at hr; subst hr; simp [Handler.strayPingRecord]
    · simp only [List.mem_singleton] at hr; subst hr; simp
    · simp only [List.mem_singleton] at hr; subst hr; simp
  | disconnected id => simp at hr
  | connectionLost id => simp only [List.mem_singleton] at hr; subst hr; exact gotEvent_level (by simp)

/-- What is told of an event. -/
def notes (t : Texts) (auth : IdentityProvider) (ev : ClientEvent) : List (List Char ⊕ (String × AuthenticationError)) :=
  .inl (clientEvent t ev) :: (refusal auth ev).toList.map .inr

theorem note_history (t : Texts) (auth : IdentityProvider) (m : MessagingService) (evs : List (ClientEvent × Instant))
    (hl : Handler.Lives auth m evs) : (Handler.history t auth m evs).filterMap (note t) = evs.flatMap fun x => notes t auth x.1 := by
  induction evs generalizing m with
  | nil => rfl
  | cons x evs ih =>
    obtain ⟨ev, now⟩ := x
    simp only [Handler.Lives] at hl
    simp only [Handler.history, List.filterMap_append, note_records, List.flatMap_cons]
    congr 1
    cases hx : Handler.handle auth now m ev with
    | none => rw [hx] at hl; simp only at hl; subst hl; rfl
    | some z => rw [hx] at hl; exact ih z.1 hl

theorem notes_matched {t : Texts} {auth auth' : IdentityProvider} : ∀ {evs evs' : List (ClientEvent × Instant)},
    evs.flatMap (fun x => notes t auth x.1) = evs'.flatMap (fun x => notes t auth' x.1) →
    Matched (fun x y => SameStory x.1 y.1 ∧ refusal auth x.1 = refusal auth' y.1) evs evs'
  | [], [], _ => .nil
  | [], _ :: _, h => by simp [notes] at h
  | _ :: _, [], h => by simp [notes] at h
  | (ev, now) :: evs, (ev', now') :: evs', h => by
    simp only [List.flatMap_cons, notes, List.cons_append, List.cons.injEq, Sum.inl.injEq] at h
    obtain ⟨h1, h2⟩ := h
    have hnot : ∀ (auth : IdentityProvider) (l : List (ClientEvent × Instant)) (y : String × AuthenticationError)
        (x : List (List Char ⊕ (String × AuthenticationError))), l.flatMap (fun x => notes t auth x.1) ≠ .inr y :: x := by
      intro auth l y x hc
      cases l <;> simp [notes] at hc
    have key : refusal auth ev = refusal auth' ev' := by
      cases hr : refusal auth ev with
      | none =>
        cases hr' : refusal auth' ev' with
        | none => rfl
        | some y' => rw [hr, hr'] at h2; exact absurd h2 (hnot _ _ _ _)
      | some y =>
        cases hr' : refusal auth' ev' with
        | none => rw [hr, hr'] at h2; exact absurd h2.symm (hnot _ _ _ _)
        | some y' =>
          rw [hr, hr'] at h2
          simp only [Option.toList, List.map_cons, List.cons_append, List.cons.injEq, Sum.inr.injEq] at h2
          rw [h2.1]
    rw [key, List.append_right_inj] at h2
    exact .cons ⟨clientEvent_story h1, key⟩ (notes_matched h2)

/-- The records of the packet handler tell the events handled. -/
theorem transcript_notes (t : Texts) (env : Env) (peers : ConnId → Sys.Peer) (sched : List Step) :
    ((Sys.transcript t env (Sys.init peers) sched).filter ofHandler).filterMap (note t)
      = (Sys.run env (Sys.init peers) sched).log.flatMap fun x => notes t env.auth x.1 := by
  obtain ⟨new, h1, h2, h3⟩ := Sys.transcript_handler t env (Sys.init peers) sched
  rw [h3, List.filterMap_append, note_history t env.auth _ _ h2]
  have he : (Sys.endsNow env (Sys.init peers) sched).filterMap (note t) = [] := by
    unfold Sys.endsNow
    split
    · refine filterMap_nil fun r hr => ?_
      simp only [Sys.stopRecords, List.mem_cons, List.not_mem_nil, or_false] at hr
      unfold note
      rcases hr with rfl | rfl
      · rw [gotEvent_level (by simp), shown_level (.inl (by simp))]; rfl
      · rw [gotEvent_level (by simp), shown_level (.inl (by simp))]; rfl
    · rfl
  rw [he, List.append_nil, h1]
  rfl

/-! ### What follows for the broker -/

theorem login_told {auth auth' : IdentityProvider} {p : ConnectPacket} {a a' : SocketAddr} {c c' : ConnId}
    (h : refusal auth (.connected p a c) = refusal auth' (.connected p a' c')) : login auth p = login auth' p := by
  unfold login
  simp only [refusal] at h
  cases hu : p.userName with
  | none => rfl
  | some u =>
    cases hp : p.password with
    | none => rfl
    | some pw =>
      simp only [hu, hp] at h ⊢
      cases ha : auth u pw <;> cases ha' : auth' u pw <;> simp [ha, ha'] at h ⊢

/-- The same subscriptions, and sessions of the same clients. -/
theorem story_after {auth auth' : IdentityProvider} {evs evs' : List (ClientEvent × Instant)} {b b' : Broker}
    (h : Matched (fun x y => SameStory x.1 y.1 ∧ refusal auth x.1 = refusal auth' y.1) evs evs') (hb : SameState b b') :
    SameStates (b.after auth (evs.map Prod.fst)) (b'.after auth' (evs'.map Prod.fst)) := by
  induction h generalizing b b' with
  | nil => exact hb
  | @cons x y l l' h hl ih =>
    obtain ⟨ev, now⟩ := x
    obtain ⟨ev', now'⟩ := y
    obtain ⟨hs, hr⟩ := h
    simp only [List.map_cons, Broker.after]
    have key : (b.step auth ev = none ∧ b'.step auth' ev' = none)
        ∨ ∃ b₁ o b₁' o', b.step auth ev = some (b₁, o) ∧ b'.step auth' ev' = some (b₁', o') ∧ SameState b₁ b₁' := by
      have hf : ∀ op, SameState (b.forget op) (b'.forget op) := by
        intro op
        refine ⟨by simp only [Broker.forget]; rw [hb.1], fun id => ?_⟩
        simp only [Broker.forget]
        split
        · rfl
        · exact hb.2 id
      cases ev with
      | connected p a c =>
        cases ev' with
        | connected p' a' c' =>
          have hs : p = p' := hs
          subst hs
          have hlog := login_told hr
          simp only [Broker.step, hlog]
          cases login auth' p with
          | accepted =>
            refine .inr ⟨_, _, _, _, rfl, rfl, hb.1, fun id => ?_⟩
            simp only
            split
            · rfl
            · exact hb.2 id
          | refused => exact .inr ⟨_, _, _, _, rfl, rfl, hb⟩
          | incomplete => exact .inl ⟨rfl, rfl⟩
        | controlPacket id p' c' => exact absurd hs (fun h => h)
        | disconnected id => exact absurd hs (fun h => h)
        | connectionLost id => exact absurd hs (fun h => h)
      | controlPacket id p c =>
        cases ev' with
        | controlPacket id' p' c' =>
          obtain ⟨h1, h2⟩ := hs
          subst h1; subst h2
          refine .inr ⟨_, _, _, _, rfl, rfl, ?_⟩
          cases p with
          | subscribe s => exact ⟨by simp only [Broker.packet]; rw [hb.1], hb.2⟩
          | unsubscribe u => exact ⟨by simp only [Broker.packet]; rw [hb.1], hb.2⟩
          | disconnect => exact hf _
          | _ => exact hb
        | connected p' a' c' => exact absurd hs (fun h => h)
        | disconnected id => exact absurd hs (fun h => h)
        | connectionLost id => exact absurd hs (fun h => h)
      | disconnected id =>
        cases ev' with
        | disconnected id' => exact .inr ⟨_, _, _, _, rfl, rfl, hb⟩
        | connected p' a' c' => exact absurd hs (fun h => h)
        | controlPacket id p' c' => exact absurd hs (fun h => h)
        | connectionLost id => exact absurd hs (fun h => h)
      | connectionLost id =>
        cases ev' with
        | connectionLost id' =>
          have hs : id = id' := hs
          subst hs
          exact .inr ⟨_, _, _, _, rfl, rfl, hf _⟩
        | connected p' a' c' => exact absurd hs (fun h => h)
        | controlPacket id p' c' => exact absurd hs (fun h => h)
        | disconnected id => exact absurd hs (fun h => h)
    rcases key with ⟨h1, h2⟩ | ⟨b₁, o, b₁', o', h1, h2, h3⟩
    · rw [h1, h2]; trivial
    · rw [h1, h2]; exact ih h3

end Ratel
