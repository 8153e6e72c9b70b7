/-
The directives of `RUST_LOG`.
-/
import Verif.Model.RustLog
import Verif.Spec.RustLog
import Verif.Props.Logging

namespace Ratel.RustLog

open Spec

/-! ### Splitting -/

theorem splitOn_none {c : Char} {a : List Char} (h : c ∉ a) : splitOn c a = [a] := by
  induction a with
  | nil => rfl
  | cons x xs ih =>
    have h1 : x ≠ c := fun e => h (by simp [e])
    rw [splitOn, if_neg h1, ih fun hm => h (List.mem_cons_of_mem _ hm)]

theorem splitOn_append {c : Char} {a : List Char} (h : c ∉ a) (b : List Char) : splitOn c (a ++ c :: b) = a :: splitOn c b := by
  induction a with
  | nil => simp [splitOn]
  | cons x xs ih =>
    have h1 : x ≠ c := fun e => h (by simp [e])
    rw [List.cons_append, splitOn, if_neg h1, ih fun hm => h (List.mem_cons_of_mem _ hm)]

theorem trim_none {white : Char → Bool} {a : List Char} (h : ∀ c ∈ a, white c = false) : trim white a = a := by
  have key : ∀ l : List Char, (∀ c ∈ l, white c = false) → l.dropWhile white = l := by
    intro l hl
    cases l with
    | nil => rfl
    | cons x xs => rw [List.dropWhile_cons_of_neg (by simp [hl x (by simp)])]
  unfold trim
  rw [key a h, key a.reverse fun c hc => h c (List.mem_reverse.mp hc), List.reverse_reverse]

/-! ### Levels -/

/-- The number of a level. -/
def number : Option Level → Nat
  | none => 0
  | some l => l.rank

theorem parseLevel_word (l : Option Level) : parseLevel (levelWord l) = some (number l) := by
  rcases l with _ | l
  · decide +kernel
  · cases l <;> decide +kernel

theorem word_plain (l : Option Level) : levelWord l ≠ [] ∧ ',' ∉ levelWord l ∧ '/' ∉ levelWord l ∧ '=' ∉ levelWord l := by
  rcases l with _ | l
  · decide +kernel
  · cases l <;> decide +kernel

/-! ### Rules -/

/-- The directive a rule becomes. -/
def directive : LogRule → Directive
  | .everywhere l => ⟨none, number l⟩
  | .within name l => ⟨some name, number l⟩

/-- What is asked of the rules. -/
def Sound (white : Char → Bool) (rs : List LogRule) : Prop := SoundWhite white ∧ ∀ r ∈ rs, SoundName white r.names

theorem parsePart_text {white : Char → Bool} (hw : SoundWhite white) {r : LogRule} (hr : SoundName white r.names) :
    parsePart white r.text = some (directive r) := by
  cases r with
  | everywhere l => simp only [parsePart, LogRule.text, splitOn_none (word_plain l).2.2.2, parseLevel_word, directive]
  | within name l =>
    have h1 : '=' ∉ name := fun hm => (hr _ hm).2.2.1 rfl
    simp only [parsePart, LogRule.text, splitOn_append h1, splitOn_none (word_plain l).2.2.2, trim_none (hw l), if_neg (word_plain l).1, parseLevel_word,
      directive, Option.map_some]

theorem text_plain {white : Char → Bool} {r : LogRule} (hr : SoundName white r.names) : ',' ∉ r.text ∧ '/' ∉ r.text ∧ r.text ≠ [] := by
  cases r with
  | everywhere l => exact ⟨(word_plain l).2.1, (word_plain l).2.2.1, (word_plain l).1⟩
  | within name l =>
    refine ⟨fun hm => ?_, fun hm => ?_, by simp [LogRule.text]⟩
    · rcases List.mem_append.mp hm with hm | hm
      · exact (hr _ hm).1 rfl
      · rcases List.mem_cons.mp hm with hm | hm
        · exact absurd hm (by decide)
        · exact (word_plain l).2.1 hm
    · rcases List.mem_append.mp hm with hm | hm
      · exact (hr _ hm).2.1 rfl
      · rcases List.mem_cons.mp hm with hm | hm
        · exact absurd hm (by decide)
        · exact (word_plain l).2.2.1 hm

theorem text_trim {white : Char → Bool} (hw : SoundWhite white) (heq : white '=' = false) {r : LogRule} (hr : SoundName white r.names) :
    trim white r.text = r.text := by
  refine trim_none fun c hc => ?_
  cases r with
  | everywhere l => exact hw l c hc
  | within name l =>
    rcases List.mem_append.mp hc with hm | hm
    · exact (hr _ hm).2.2.2
    · rcases List.mem_cons.mp hm with hm | hm
      · rw [hm]; exact heq
      · exact hw l c hm

theorem split_rules {white : Char → Bool} {rs : List LogRule} (hne : rs ≠ []) (hr : ∀ r ∈ rs, SoundName white r.names) :
    splitOn ',' (rulesText rs) = rs.map LogRule.text := by
  induction rs with
  | nil => exact absurd rfl hne
  | cons r rs ih =>
    cases rs with
    | nil => exact splitOn_none (text_plain (hr r (by simp))).1
    | cons r' rs' =>
      rw [rulesText, splitOn_append (text_plain (hr r (by simp))).1, ih (by simp) fun e he => hr e (List.mem_cons_of_mem _ he)]
      · rfl
      · simp

theorem rules_noSlash {white : Char → Bool} {rs : List LogRule} (hr : ∀ r ∈ rs, SoundName white r.names) : '/' ∉ rulesText rs := by
  induction rs with
  | nil => simp [rulesText]
  | cons r rs ih =>
    cases rs with
    | nil => exact (text_plain (hr r (by simp))).2.1
    | cons r' rs' =>
      have e : rulesText (r :: r' :: rs') = r.text ++ ',' :: rulesText (r' :: rs') := by
        rw [rulesText]
        simp
      rw [e]
      intro hm
      rcases List.mem_append.mp hm with hm | hm
      · exact (text_plain (hr r (by simp))).2.1 hm
      · rcases List.mem_cons.mp hm with hm | hm
        · exact absurd hm (by decide)
        · exact ih (fun e he => hr e (List.mem_cons_of_mem _ he)) hm

theorem parse_rules {white : Char → Bool} (trims : Bool) (hw : SoundWhite white) (heq : white '=' = false) {rs : List LogRule} (hne : rs ≠ [])
    (hr : ∀ r ∈ rs, SoundName white r.names) : parseSpec white trims (rulesText rs) = (rs.map directive, none) := by
  have h1 : (fun s => if trims then trim white s else s) = fun s => if trims = true then trim white s else s := rfl
  have h2 : ∀ l : List LogRule, (∀ r ∈ l, SoundName white r.names) →
      ((((l.map LogRule.text).map fun s => if trims then trim white s else s).filter (· ≠ [])).filterMap (parsePart white)) = l.map directive := by
    intro l hl
    induction l with
    | nil => rfl
    | cons r l ih =>
      have hs := hl r (by simp)
      have e1 : (if trims = true then trim white r.text else r.text) = r.text := by
        split
        · exact text_trim hw heq hs
        · rfl
      rw [List.map_cons, List.map_cons, e1, List.filter_cons_of_pos (by simpa using (text_plain hs).2.2),
        List.filterMap_cons_some (parsePart_text hw hs), ih fun e he => hl e (List.mem_cons_of_mem _ he), List.map_cons]
  simp only [parseSpec, splitOn_none (rules_noSlash hr), parseMods, split_rules hne hr]
  rw [h2 rs hr]

/-! ### The directive that decides -/

/-- The longest that fits, of several the last. -/
def pick (path : List Char) : List Directive → Option Directive
  | [] => none
  | d :: ds =>
    match pick path ds with
    | none => if d.isFor path then some d else none
    | some e => if d.isFor path && decide (e.len < d.len) then some d else some e

/-- Sorted by length. -/
inductive Ascending : List Directive → Prop
  | nil : Ascending []
  | cons (d : Directive) {ds : List Directive} : (∀ e ∈ ds, d.len ≤ e.len) → Ascending ds → Ascending (d :: ds)

theorem mem_insert {d e : Directive} {ds : List Directive} : e ∈ insert d ds ↔ e = d ∨ e ∈ ds := by
  induction ds with
  | nil => simp [insert]
  | cons x xs ih =>
    rw [insert]
    split
    · simp
    · simp only [List.mem_cons, ih]
      exact ⟨fun h => by rcases h with h | h | h <;> simp [h], fun h => by rcases h with h | h | h <;> simp [h]⟩

theorem Ascending.insert {ds : List Directive} (h : Ascending ds) (d : Directive) : Ascending (insert d ds) := by
  induction h with
  | nil => exact .cons d (by simp) .nil
  | cons x hx hs ih =>
    rw [RustLog.insert]
    split
    · rename_i hle
      refine .cons d (fun e he => ?_) (.cons x hx hs)
      rcases List.mem_cons.mp he with rfl | he
      · exact hle
      · exact Nat.le_trans hle (hx e he)
    · rename_i hlt
      refine .cons x (fun e he => ?_) ih
      rcases mem_insert.mp he with rfl | he
      · omega
      · exact hx e he

/-- The last of a list that fits. -/
def last (path : List Char) (ds : List Directive) : Option Directive := ds.reverse.find? (·.isFor path)

theorem last_cons (path : List Char) (d : Directive) (ds : List Directive) :
    last path (d :: ds) = (last path ds).or (if d.isFor path then some d else none) := by
  unfold last
  rw [List.reverse_cons, List.find?_append]
  congr 1
  by_cases h : d.isFor path = true <;> simp [h]

theorem last_mem {path : List Char} {ds : List Directive} {d : Directive} (h : last path ds = some d) : d ∈ ds ∧ d.isFor path = true :=
  ⟨List.mem_reverse.mp (List.mem_of_find?_eq_some h), List.find?_some (p := fun e : Directive => e.isFor path) h⟩

theorem last_none {path : List Char} {ds : List Directive} (h : last path ds = none) : ∀ e ∈ ds, e.isFor path = false := by
  intro e he
  have := List.find?_eq_none.mp h e (List.mem_reverse.mpr he)
  simpa using this

theorem last_insert (path : List Char) {ds : List Directive} (hs : Ascending ds) (d : Directive) :
    last path (insert d ds) = match last path ds with
      | none => if d.isFor path then some d else none
      | some e => if d.isFor path && decide (e.len < d.len) then some d else some e := by
  induction hs with
  | nil => simp only [insert, last_cons]; rfl
  | @cons x xs hx hs ih =>
    rw [insert]
    split
    · rename_i hle
      rw [last_cons path d]
      cases hl : last path (x :: xs) with
      | none => simp
      | some e =>
        have : d.len ≤ e.len := by
          rcases List.mem_cons.mp (last_mem hl).1 with rfl | he
          · exact hle
          · exact Nat.le_trans hle (hx e he)
        have hn : ¬ e.len < d.len := by omega
        simp [hn]
    · rename_i hlt
      rw [last_cons, last_cons, ih]
      cases hl : last path xs with
      | none =>
        by_cases hd : d.isFor path = true
        · have : x.len < d.len := by omega
          by_cases hx' : x.isFor path = true <;> simp [hd, hx', this]
        · by_cases hx' : x.isFor path = true <;> simp [hd, hx']
      | some e =>
        by_cases hc : (d.isFor path && decide (e.len < d.len)) = true <;> simp [hc]

theorem ascending_sorted (ds : List Directive) : Ascending (ds.foldr insert []) := by
  induction ds with
  | nil => exact .nil
  | cons d ds ih => exact ih.insert d

theorem last_sorted (path : List Char) (ds : List Directive) : last path (ds.foldr insert []) = pick path ds := by
  induction ds with
  | nil => rfl
  | cons d ds ih => rw [List.foldr_cons, last_insert path (ascending_sorted ds), ih, pick]

/-- The directive picked is the longest that fits, and of several the last. -/
theorem pick_some {path : List Char} {ds : List Directive} {d : Directive} :
    pick path ds = some d ↔ ∃ pre post, ds = pre ++ d :: post ∧ d.isFor path = true ∧ (∀ e ∈ pre, e.isFor path = true → e.len ≤ d.len)
      ∧ ∀ e ∈ post, e.isFor path = true → e.len < d.len := by
  have none_iff : ∀ ds, pick path ds = none ↔ ∀ e ∈ ds, e.isFor path = false := by
    intro ds
    induction ds with
    | nil => simp [pick]
    | cons x xs ih =>
      rw [pick]
      cases hp : pick path xs with
      | none =>
        have := ih.mp hp
        by_cases hx : x.isFor path = true
        · simp [hx]
        · simp only [hx, Bool.false_eq_true, if_false, true_iff]
          intro e he
          rcases List.mem_cons.mp he with rfl | he
          · simpa using hx
          · exact this e he
      | some e =>
        have hn : ¬ ∀ e ∈ x :: xs, e.isFor path = false := fun h => by
          rw [ih.mpr fun e he => h e (List.mem_cons_of_mem _ he)] at hp
          cases hp
        constructor
        · intro h
          dsimp only at h
          split at h <;> cases h
        · exact fun h => absurd h hn
  have sound : ∀ ds d, pick path ds = some d → ∃ pre post, ds = pre ++ d :: post ∧ d.isFor path = true
      ∧ (∀ e ∈ pre, e.isFor path = true → e.len ≤ d.len) ∧ ∀ e ∈ post, e.isFor path = true → e.len < d.len := by
    intro ds
    induction ds with
    | nil => intro d h; cases h
    | cons x xs ih =>
      intro d h
      rw [pick] at h
      cases hp : pick path xs with
      | none =>
        rw [hp] at h
        by_cases hx : x.isFor path = true
        · simp only [hx, if_true, Option.some.injEq] at h
          subst h
          exact ⟨[], xs, rfl, hx, by simp, fun e he hf => by rw [(none_iff xs).mp hp e he] at hf; cases hf⟩
        · simp [hx] at h
      | some e =>
        rw [hp] at h
        obtain ⟨pre, post, h1, h2, h3, h4⟩ := ih e hp
        by_cases hx : x.isFor path = true ∧ e.len < x.len
        · simp only [hx, decide_true, Bool.and_self, if_true, Option.some.injEq] at h
          subst h
          refine ⟨[], xs, rfl, hx.1, by simp, fun e' he hf => ?_⟩
          rw [h1] at he
          rcases List.mem_append.mp he with he | he
          · exact Nat.lt_of_le_of_lt (h3 e' he hf) hx.2
          · rcases List.mem_cons.mp he with rfl | he
            · exact hx.2
            · exact Nat.lt_trans (h4 e' he hf) hx.2
        · have hb : (x.isFor path && decide (e.len < x.len)) = false := by
            cases hxf : x.isFor path <;> simp_all
          simp only [hb, Bool.false_eq_true, if_false, Option.some.injEq] at h
          subst h
          refine ⟨x :: pre, post, by rw [h1]; rfl, h2, fun e' he hf => ?_, h4⟩
          rcases List.mem_cons.mp he with rfl | he
          · exact Nat.not_lt.mp fun hl => hx ⟨hf, hl⟩
          · exact h3 e' he hf
  refine ⟨sound ds d, ?_⟩
  rintro ⟨pre, post, h1, h2, h3, h4⟩
  subst h1
  induction pre with
  | nil =>
    rw [List.nil_append, pick]
    cases hp : pick path post with
    | none => simp [h2]
    | some e =>
      obtain ⟨_, _, g1, g2, _, _⟩ := sound post e hp
      have := h4 e (by rw [g1]; simp) g2
      simp [h2, this]
  | cons x pre ih =>
    rw [List.cons_append, pick, ih fun e he => h3 e (List.mem_cons_of_mem _ he)]
    by_cases hx : x.isFor path = true
    · have := h3 x (by simp) hx
      have hn : ¬ d.len < x.len := by omega
      simp [hn]
    · simp [hx]

/-! ### Lengths -/

theorem bytes_le {a b path : List Char} (ha : a <+: path) (hb : b <+: path) :
    (a.map Char.utf8Size).sum ≤ (b.map Char.utf8Size).sum ↔ a.length ≤ b.length := by
  have grow : ∀ {a b : List Char}, a <+: b → a.length < b.length → (a.map Char.utf8Size).sum < (b.map Char.utf8Size).sum := by
    rintro a b ⟨x, rfl⟩ hlt
    cases x with
    | nil => simp at hlt
    | cons y ys =>
      have := Char.utf8Size_pos y
      simp only [List.map_append, List.map_cons, List.sum_append, List.sum_cons]
      omega
  rcases Nat.lt_trichotomy a.length b.length with h | h | h
  · have := grow (List.prefix_of_prefix_length_le ha hb (Nat.le_of_lt h)) h
    omega
  · have e : a = b := (List.prefix_of_prefix_length_le ha hb (Nat.le_of_eq h)).eq_of_length h
    subst e
    simp
  · have := grow (List.prefix_of_prefix_length_le hb ha (Nat.le_of_lt h)) h
    omega

theorem directive_isFor (r : LogRule) (path : List Char) : (directive r).isFor path = true ↔ r.names <+: path := by
  cases r with
  | everywhere l => simp [directive, Directive.isFor, LogRule.names]
  | within name l => simp [directive, Directive.isFor, LogRule.names]

theorem directive_len (r : LogRule) : (directive r).len = (r.names.map Char.utf8Size).sum := by
  cases r <;> rfl

theorem directive_level (r : LogRule) (level : Level) : level.rank ≤ (directive r).level ↔ r.Allows level := by
  have h : ∀ l : Option Level, level.rank ≤ number l ↔ ∃ k, l = some k ∧ level.rank ≤ k.rank := by
    intro l
    cases l with
    | none => cases level <;> simp [number, Level.rank]
    | some k => simp [number]
  cases r with
  | everywhere l => exact h l
  | within name l => exact h l

theorem allowed_iff (rs : List LogRule) (level : Level) (path : List Char) :
    (∃ d, pick path (rs.map directive) = some d ∧ level.rank ≤ d.level) ↔ Allowed rs level path := by
  constructor
  · rintro ⟨d, hd, hl⟩
    obtain ⟨pre, post, h1, h2, h3, h4⟩ := pick_some.mp hd
    obtain ⟨pre', rest, rfl, rfl, e1⟩ := List.map_eq_append_iff.mp h1
    obtain ⟨r, post', rfl, rfl, rfl⟩ := List.map_eq_cons_iff.mp e1
    have hf := (directive_isFor r path).mp h2
    refine ⟨pre', r, post', rfl, hf, (directive_level r level).mp hl, fun e he hp => ?_, fun e he hp => ?_⟩
    · have := h3 _ (List.mem_map_of_mem he) ((directive_isFor e path).mpr hp)
      rw [directive_len, directive_len] at this
      exact (bytes_le hp hf).mp this
    · have := h4 _ (List.mem_map_of_mem he) ((directive_isFor e path).mpr hp)
      rw [directive_len, directive_len] at this
      exact Nat.lt_of_not_le fun hle => absurd ((bytes_le hf hp).mpr hle) (by omega)
  · rintro ⟨pre, r, post, rfl, hf, hl, h3, h4⟩
    refine ⟨directive r, pick_some.mpr ⟨pre.map directive, post.map directive, by simp, (directive_isFor r path).mpr hf, fun e he hp => ?_, fun e he hp => ?_⟩,
      (directive_level r level).mpr hl⟩
    · obtain ⟨e', he', rfl⟩ := List.mem_map.mp he
      have hp := (directive_isFor e' path).mp hp
      rw [directive_len, directive_len]
      exact (bytes_le hp hf).mpr (h3 e' he' hp)
    · obtain ⟨e', he', rfl⟩ := List.mem_map.mp he
      have hp := (directive_isFor e' path).mp hp
      rw [directive_len, directive_len]
      exact Nat.lt_of_not_le fun hle => absurd ((bytes_le hf hp).mp hle) (by have := h4 e' he' hp; omega)

theorem enabled_iff (ds : List Directive) (hne : ds ≠ []) (level : Level) (path : List Char) :
    enabled (build ds) level path = true ↔ ∃ d, pick path ds = some d ∧ level.rank ≤ d.level := by
  unfold enabled build
  rw [if_neg hne]
  have : (ds.foldr insert []).reverse.find? (·.isFor path) = pick path ds := last_sorted path ds
  rw [this]
  cases pick path ds <;> simp

theorem lets_rules {white : Char → Bool} (trims : Bool) (regex : List Char → Option (List Char → Bool)) (hw : SoundWhite white) (heq : white '=' = false)
    {rs : List LogRule} (hne : rs ≠ []) (hr : ∀ r ∈ rs, SoundName white r.names) (r : LogRecord) :
    lets white trims regex (some (rulesText rs)) r = true ↔ Allowed rs r.level r.origin.path := by
  rw [← allowed_iff, ← enabled_iff _ (by simpa using hne)]
  simp only [lets, parse_rules trims hw heq hne hr, Option.bind_none, Option.all_none, Bool.and_true]

theorem lets_word {white : Char → Bool} (trims : Bool) (regex : List Char → Option (List Char → Bool)) {l : Level} {w : List Char}
    (h : w.map Char.toLower = levelWord (some l)) (hw : ∀ c ∈ w, white c = false) (r : LogRecord) :
    lets white trims regex (some w) r = decide (r.level.rank ≤ l.rank) := by
  have hn : ∀ c : Char, c.toLower = c → c ∉ levelWord (some l) → c ∉ w := by
    intro c hc hm hx
    apply hm
    rw [← h, ← hc]
    exact List.mem_map_of_mem hx
  obtain ⟨h0, h1, h2, h3⟩ := word_plain (some l)
  have hne : w ≠ [] := fun e => by rw [e] at h; exact h0 h.symm
  have hp : parsePart white w = some ⟨none, l.rank⟩ := by
    have : parseLevel w = some l.rank := by
      have := parseLevel_word (some l)
      unfold parseLevel at this ⊢
      rw [h]
      have e : (levelWord (some l)).map Char.toLower = levelWord (some l) := by cases l <;> decide +kernel
      rw [e] at this
      exact this
    simp only [parsePart, splitOn_none (hn '=' (by decide) h3), this]
  have hs : parseSpec white trims w = ([⟨none, l.rank⟩], none) := by
    have e : (if trims = true then trim white w else w) = w := by
      split
      · exact trim_none hw
      · rfl
    simp only [parseSpec, splitOn_none (hn '/' (by decide) h2), parseMods, splitOn_none (hn ',' (by decide) h1), List.map_cons, List.map_nil, e]
    rw [List.filter_cons_of_pos (by simpa using hne), List.filter_nil, List.filterMap_cons_some hp, List.filterMap_nil]
  simp [lets, hs, build, insert, enabled, Directive.isFor]

/-! ### Records at TRACE -/

theorem trace_records {t : Texts} {auth : IdentityProvider} {m : MessagingService} {ev : ClientEvent} :
    ∀ r ∈ Handler.records t auth m ev, r.level = .trace → r.origin = .handler := by
  intro r hr hl
  rcases List.mem_cons.mp hr with rfl | hr
  · rfl
  cases ev with
  | connected p addr tx =>
    simp only [Handler.connectRecords] at hr
    rcases List.mem_cons.mp hr with rfl | hr
    · rfl
    split at hr
    · split at hr
      · simp only [List.mem_singleton] at hr; subst hr; rfl
      · simp at hr
    · simp at hr
  | controlPacket id p tx =>
    simp only [Handler.packetRecords] at hr
    rcases List.mem_cons.mp hr with rfl | hr
    · rfl
    split at hr
    · rcases List.mem_cons.mp hr with rfl | hr
      · rfl
      · simp only [Handler.publishWarnings] at hr
        split at hr
        · simp at hr
        · simp only [List.mem_filterMap] at hr
          obtain ⟨c, _, hc⟩ := hr
          split at hc
          · simp at hc
          · injection hc with hc; subst hc; cases hl
    · simp only [List.mem_singleton] at hr; subst hr; rfl
    · simp only [List.mem_singleton] at hr; subst hr; rfl
    · split at hr
      · simp at hr
      · simp only [List.mem_singleton] at hr; subst hr; rfl
    · simp only [List.mem_singleton] at hr; subst hr; rfl
    · simp only [List.mem_singleton] at hr; subst hr; rfl
  | disconnected id => simp at hr
  | connectionLost id => simp only [List.mem_singleton] at hr; subst hr; rfl

open Sys in
/-- The records at TRACE are of the packet handler and of the listener. -/
theorem trace_origin {t : Texts} {env : Env} {s : Sys} {sched : List Step} {r : LogRecord} (hr : r ∈ transcript t env s sched) (hl : r.level = .trace) :
    r.origin = .handler ∨ r.origin = .listener := by
  induction sched generalizing s with
  | nil => simp [transcript] at hr
  | cons a sched ih =>
    rcases List.mem_append.mp hr with hr | hr
    · cases a with
      | read c => exact .inr (readRecords_mem hr).1
      | write c => exact .inr (writeRecords_mem hr).1
      | ctrlC =>
        simp only [records] at hr
        split at hr
        · simp at hr
        · simp only [List.mem_singleton] at hr; subst hr; cases hl
      | stop =>
        simp only [records] at hr
        split at hr
        · split at hr
          · simp only [List.mem_cons, List.not_mem_nil, or_false] at hr
            rcases hr with rfl | rfl <;> exact .inl rfl
          · simp at hr
        · simp at hr
      | handler now =>
        simp only [records, handlerRecords] at hr
        split at hr
        · exact .inl (trace_records r hr hl)
        · simp at hr
    · exact ih hr

open Sys in
/-- The record of the CONNECT just read. -/
theorem first_shown (t : Texts) (env : Env) (peers : ConnId → Peer) (sched : List Step) (c : ConnId) (q : Connect)
    (more : List ClientPacket) (hq : Sendable (.connect q :: more)) (pw : String) (hp : q.password = some pw) (ht : PlainText t pw)
    (hb : (peers c).segs.flatten = clientBytes (.connect q :: more)) (hl : (clientBytes (.connect q :: more)).length < 4096)
    (hc : (run env (init peers) sched).conns c = (peers c).conn) :
    ∃ m, (⟨.trace, .listener, m⟩ : LogRecord) ∈ transcript t env (init peers) (sched ++ [.read c]) ∧ pw.toList <:+: m := by
  have hn := next_new (peers c) _ hb hq hl
  rw [← hc] at hn
  obtain ⟨h1, h2, h3⟩ := hn.legal _ List.mem_cons_self
  obtain ⟨rd, h4, _, _⟩ := read_legal env.alloc env.profile h1 h2 h3 (rest := clientBytes more) (fin := (peers c).fin) hn.rel hn.small
  have hmem : (⟨.trace, .listener, "Read the first packet: ".toList ++ Fmt.packet t (meaning (.connect q))⟩ : LogRecord)
      ∈ readRecords t env (run env (init peers) sched) c := by
    unfold readRecords
    simp only [hn.free]
    have hph : ((run env (init peers) sched).conns c).phase = .first := by rw [hc]; rfl
    simp only [hph]
    rw [h4]
    exact List.mem_cons_self
  refine ⟨"Read the first packet: ".toList ++ Fmt.packet t (meaning (.connect q)), ?_, ?_⟩
  · rw [transcript_append]
    exact List.mem_append_right _ (List.mem_append_left _ hmem)
  · refine infix_mid ((quoted_plain ht).trans ((password_shown t
      ⟨.mqtt3, q.clientId, q.keepAlive, q.cleanSession, q.will.map fun (t, m, q, r) => { topic := t, payload := m, qos := q, retain := r },
        q.userName, q.password⟩ hp).trans ?_))
    exact ⟨"Connect(".toList, [')'], rfl⟩

end Ratel.RustLog
