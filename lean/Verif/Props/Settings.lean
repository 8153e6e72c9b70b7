/-
C129–C131: settings from the configuration file and the environment.
-/
import Verif.Proofs.Settings
import Verif.Props.Boot

namespace Ratel

open Spec Sys Config

/-! ### Variables and their keys -/

theorem keyOf_eq {n k : String} (h : keyOf n = some k) :
    n.toList.map Char.toLower = "ratelmq_".toList ++ (n.toList.drop 8).map Char.toLower
    ∧ k.toList = dots ((n.toList.drop 8).map Char.toLower) := by
  unfold keyOf at h
  simp only at h
  split at h
  · next ht =>
    cases h
    constructor
    · rw [← ht, List.map_drop, List.take_append_drop]
    · rw [String.toList_ofList, dots_lower]
  · cases h

theorem keyOf_of_lower {n : String} {r : List Char} (h : n.toList.map Char.toLower = "ratelmq_".toList ++ r) :
    keyOf n = some (String.ofList (dots r)) := by
  unfold keyOf
  simp only
  have h1 : (n.toList.map Char.toLower).take 8 = "ratelmq_".toList := by
    rw [h]; exact List.take_left' rfl
  have h2 : (n.toList.drop 8).map Char.toLower = r := by
    rw [List.map_drop, h]; exact List.drop_left' rfl
  rw [if_pos h1, dots_lower, h2]

theorem keyOf_password {n : String} : keyOf n = some "authentication.password_file" ↔ IsVariable n "AUTHENTICATION" "PASSWORD_FILE" := by
  constructor
  · intro h
    obtain ⟨h1, h2⟩ := keyOf_eq h
    have h3 := mem_undot_dots ((n.toList.drop 8).map Char.toLower)
    rw [← h2] at h3
    have h4 : undot "authentication.password_file".toList
        = ["authentication.password_file".toList, "authentication__password_file".toList] := by decide +kernel
    rw [h4] at h3
    rcases List.mem_cons.mp h3 with h3 | h3
    · exact .inr (by rw [SameText, h1, h3]; decide +kernel)
    · rw [List.mem_singleton] at h3
      exact .inl (by rw [SameText, h1, h3]; decide +kernel)
  · rintro (h | h)
    · rw [keyOf_of_lower (r := "authentication__password_file".toList) (by rw [h]; decide +kernel)]
      decide +kernel
    · rw [keyOf_of_lower (r := "authentication.password_file".toList) (by rw [h]; decide +kernel)]
      decide +kernel

theorem keyOf_listeners {n : String} : keyOf n = some "mqtt.listeners_tcp" ↔ IsVariable n "MQTT" "LISTENERS_TCP" := by
  constructor
  · intro h
    obtain ⟨h1, h2⟩ := keyOf_eq h
    have h3 := mem_undot_dots ((n.toList.drop 8).map Char.toLower)
    rw [← h2] at h3
    have h4 : undot "mqtt.listeners_tcp".toList = ["mqtt.listeners_tcp".toList, "mqtt__listeners_tcp".toList] := by decide +kernel
    rw [h4] at h3
    rcases List.mem_cons.mp h3 with h3 | h3
    · exact .inr (by rw [SameText, h1, h3]; decide +kernel)
    · rw [List.mem_singleton] at h3
      exact .inl (by rw [SameText, h1, h3]; decide +kernel)
  · rintro (h | h)
    · rw [keyOf_of_lower (r := "mqtt__listeners_tcp".toList) (by rw [h]; decide +kernel)]
      decide +kernel
    · rw [keyOf_of_lower (r := "mqtt.listeners_tcp".toList) (by rw [h]; decide +kernel)]
      decide +kernel

/-- A beginning without dots and underscores is not changed by writing dots. -/
theorem prefix_dots {w r : List Char} (hw : '.' ∉ w) (h : w <+: dots r) : w <+: r := by
  induction w generalizing r with
  | nil => exact List.nil_prefix
  | cons c w ih =>
    cases r with
    | nil => simp [dots] at h
    | cons d r =>
      rcases dots_cons d r with ⟨r', rfl, rfl, he⟩ | he
      · rw [he] at h
        exact absurd (List.cons_prefix_cons.mp h).1 (fun he => hw (by simp [he]))
      · rw [he] at h
        obtain ⟨rfl, h'⟩ := List.cons_prefix_cons.mp h
        exact List.cons_prefix_cons.mpr ⟨rfl, ih (fun hm => hw (List.mem_cons_of_mem _ hm)) h'⟩

/-! ### Collecting variables -/

theorem insert_mem {m : AssocMap String} {k x : String} {e : String × String} (h : e ∈ m.insert k x) : e = (k, x) ∨ e ∈ m := by
  induction m with
  | nil => simp [AssocMap.insert] at h; exact .inl h
  | cons a m ih =>
    rcases a with ⟨k', x'⟩
    rw [AssocMap.insert] at h
    split at h
    · rcases List.mem_cons.mp h with h | h
      · exact .inl h
      · exact .inr (List.mem_cons_of_mem _ h)
    · rcases List.mem_cons.mp h with h | h
      · exact .inr (by simp [h])
      · rcases ih h with h | h
        · exact .inl h
        · exact .inr (List.mem_cons_of_mem _ h)

theorem insert_keys (m : AssocMap String) (k x k' : String) :
    k' ∈ (m.insert k x).map Prod.fst ↔ k' = k ∨ k' ∈ m.map Prod.fst := by
  induction m with
  | nil => simp [AssocMap.insert]
  | cons a m ih =>
    rcases a with ⟨k₀, x₀⟩
    rw [AssocMap.insert]
    split
    · next h => subst h; simp
    · rw [List.map_cons, List.map_cons, List.mem_cons, List.mem_cons, ih]
      constructor
      · rintro (h | h | h)
        · exact .inr (.inl h)
        · exact .inl h
        · exact .inr (.inr h)
      · rintro (h | h | h)
        · exact .inr (.inl h)
        · exact .inl h
        · exact .inr (.inr h)

theorem insert_nodup {m : AssocMap String} (h : (m.map Prod.fst).Nodup) (k x : String) : ((m.insert k x).map Prod.fst).Nodup := by
  induction m with
  | nil => simp [AssocMap.insert]
  | cons a m ih =>
    rcases a with ⟨k₀, x₀⟩
    rw [AssocMap.insert]
    rw [List.map_cons, List.nodup_cons] at h
    split
    · next he => subst he; rw [List.map_cons, List.nodup_cons]; exact h
    · next he =>
      rw [List.map_cons, List.nodup_cons, insert_keys]
      refine ⟨?_, ih h.2⟩
      rintro (hk | hk)
      · exact he hk
      · exact h.1 hk

/-- What is collected: one value for each key, from one of the variables. -/
theorem collect_spec {vars : List Var} {m m' : AssocMap String} (h : collect vars m = some m') (hm : (m.map Prod.fst).Nodup) :
    (m'.map Prod.fst).Nodup
    ∧ (∀ k x, (k, x) ∈ m' → (k, x) ∈ m ∨ ∃ n, ⟨some n, some x⟩ ∈ vars ∧ keyOf n = some k)
    ∧ (∀ k, k ∈ m.map Prod.fst → k ∈ m'.map Prod.fst)
    ∧ (∀ n x k, ⟨some n, some x⟩ ∈ vars → keyOf n = some k → k ∈ m'.map Prod.fst) := by
  induction vars generalizing m with
  | nil =>
    cases h
    exact ⟨hm, fun k x h => .inl h, fun k h => h, fun n x k h => by cases h⟩
  | cons v vars ih =>
    rcases v with ⟨_ | n, x⟩
    · cases x <;> cases h
    rcases x with _ | x
    · cases h
    rw [collect] at h
    split at h
    · next key hkey =>
      obtain ⟨h1, h2, h3, h4⟩ := ih h (insert_nodup hm key x)
      refine ⟨h1, ?_, ?_, ?_⟩
      · intro k y hy
        rcases h2 k y hy with hy | ⟨n', hn, hk⟩
        · rcases insert_mem hy with hy | hy
          · cases hy; exact .inr ⟨n, by simp, hkey⟩
          · exact .inl hy
        · exact .inr ⟨n', by simp [hn], hk⟩
      · exact fun k hk => h3 k ((insert_keys ..).mpr (.inr hk))
      · intro n' y k hn hk
        rcases List.mem_cons.mp hn with hn | hn
        · cases hn
          rw [hkey] at hk
          cases hk
          exact h3 _ ((insert_keys ..).mpr (.inl rfl))
        · exact h4 n' y k hn hk
    · next hkey =>
      obtain ⟨h1, h2, h3, h4⟩ := ih h hm
      refine ⟨h1, ?_, h3, ?_⟩
      · intro k y hy
        rcases h2 k y hy with hy | ⟨n', hn, hk⟩
        · exact .inl hy
        · exact .inr ⟨n', by simp [hn], hk⟩
      · intro n' y k hn hk
        rcases List.mem_cons.mp hn with hn | hn
        · cases hn
          rw [hkey] at hk
          cases hk
        · exact h4 n' y k hn hk

theorem collect_none_iff (vars : List Var) (m : AssocMap String) :
    collect vars m = none ↔ ∃ v ∈ vars, v.name = none ∨ v.value = none := by
  induction vars generalizing m with
  | nil => simp [collect]
  | cons v vars ih =>
    rcases v with ⟨_ | n, x⟩
    · cases x <;> simp [collect]
    rcases x with _ | x
    · simp [collect]
    rw [collect]
    split <;> (rw [ih]; simp)

theorem settings_eq {order : HashOrder} {file : Option Value} {vars : List Var} {s : Settings} (h : settings order file vars = some s) :
    ∃ f m, file = some f ∧ collect vars [] = some m ∧ ofValue (merged f (order.order m)) = some s := by
  unfold settings at h
  split at h
  · cases h
  · next f =>
    split at h
    · cases h
    · next m hm => exact ⟨f, m, rfl, hm, h⟩

/-- The collected variables in the order in which they are merged: one for each key. -/
theorem ordered_spec {order : HashOrder} {vars : List Var} {m : AssocMap String} (h : collect vars [] = some m) :
    ((order.order m).map Prod.fst).Nodup
    ∧ (∀ k x, (k, x) ∈ order.order m → ∃ n, ⟨some n, some x⟩ ∈ vars ∧ keyOf n = some k)
    ∧ (∀ n x k, ⟨some n, some x⟩ ∈ vars → keyOf n = some k → ∃ y, (k, y) ∈ order.order m) := by
  obtain ⟨h1, h2, -, h4⟩ := collect_spec h (by simp)
  have hp := order.perm m
  refine ⟨(hp.map Prod.fst).nodup_iff.mpr h1, fun k x hk => ?_, fun n x k hn hk => ?_⟩
  · rcases h2 k x (hp.mem_iff.mp hk) with h | h
    · cases h
    · exact h
  · obtain ⟨⟨k', y⟩, he, rfl⟩ := List.mem_map.mp (h4 n x k hn hk)
    exact ⟨y, hp.mem_iff.mpr he⟩

/-- A variable for a path of two names, merged with the others. -/
theorem merged_variable {es : List (String × String)} (hnd : (es.map Prod.fst).Nodup) {a b key x : String} (hx : (key, x) ∈ es)
    (hpath : pathOf key = [a, b]) (root : Value) :
    (merged root es).lookup [a, b] = some (.scalar x) ∨ (merged root es).lookup [a, b] = none
      ∨ ∃ m, (merged root es).lookup [a, b] = some (.table m) := by
  obtain ⟨pre, post, rfl⟩ := List.append_of_mem hx
  refine lookup_merged_set [a, b] pre post (key, x) hpath (fun y hy he => ?_) root
  rw [List.map_append, List.map_cons, List.nodup_append] at hnd
  have h1 := pathOf_two he
  have h2 := pathOf_two hpath
  exact (List.nodup_cons.mp hnd.2.1).1 (by rw [h2, ← h1]; exact List.mem_map.mpr ⟨y, hy, rfl⟩)

/-! ### C129 -/

theorem pathOf_password : pathOf "authentication.password_file" = ["authentication", "password_file"] := by decide +kernel

theorem pathOf_listeners : pathOf "mqtt.listeners_tcp" = ["mqtt", "listeners_tcp"] := by decide +kernel

/-- C129. If a variable RATELMQ_AUTHENTICATION__PASSWORD_FILE is set, then whatever the configuration file and other variables say, the
password file of the settings, if they can be loaded at all, is the one this variable names (if it is set in several spellings, one of these). -/
theorem C129_variable (order : HashOrder) (file : Option Value) (vars : List Var) (s : Settings) (h : settings order file vars = some s)
    (hv : ∃ n x, ⟨some n, some x⟩ ∈ vars ∧ IsVariable n "AUTHENTICATION" "PASSWORD_FILE") :
    ∃ n x, ⟨some n, some x⟩ ∈ vars ∧ IsVariable n "AUTHENTICATION" "PASSWORD_FILE" ∧ s.passwordFile = x := by
  obtain ⟨f, m, rfl, hm, hs⟩ := settings_eq h
  obtain ⟨h1, h2, h3⟩ := ordered_spec (order := order) hm
  obtain ⟨n, x, hn, hvar⟩ := hv
  obtain ⟨y, hy⟩ := h3 n x _ hn (keyOf_password.mpr hvar)
  obtain ⟨n', hn', hk'⟩ := h2 _ _ hy
  have hl := (ofValue_eq hs).2
  refine ⟨n', y, hn', keyOf_password.mp hk', ?_⟩
  rcases merged_variable h1 hy pathOf_password f with h | h | ⟨_, h⟩
  · rw [hl] at h; cases h; rfl
  · rw [hl] at h; cases h
  · rw [hl] at h; cases h

/-- C129. If it is not set, the password file is the one of the configuration file. -/
theorem C129_file (order : HashOrder) (file : Option Value) (vars : List Var) (s : Settings) (h : settings order file vars = some s)
    (hv : ∀ n x, ⟨some n, some x⟩ ∈ vars → ¬ IsVariable n "AUTHENTICATION" "PASSWORD_FILE") :
    ∃ f, file = some f ∧ f.lookup ["authentication", "password_file"] = some (.scalar s.passwordFile) := by
  obtain ⟨f, m, rfl, hm, hs⟩ := settings_eq h
  obtain ⟨h1, h2, h3⟩ := ordered_spec (order := order) hm
  have hl := (ofValue_eq hs).2
  refine ⟨f, rfl, ?_⟩
  rcases lookup_merged_other ["authentication", "password_file"] (order.order m) (fun ⟨k, x⟩ hx he => by
      obtain ⟨n, hn, hk⟩ := h2 k x hx
      have : k = "authentication.password_file" := pathOf_two he
      exact hv n x hn (keyOf_password.mp (this ▸ hk))) f with h | h | ⟨_, h⟩
  · rw [← h]; exact hl
  · rw [hl] at h; cases h
  · rw [hl] at h; cases h

/-! ### C130 -/

/-- C130 is violated: the addresses to listen on cannot be given by a variable. If RATELMQ_MQTT__LISTENERS_TCP is set, to whatever value,
the settings cannot be loaded, whatever the configuration file and other variables say, and the broker does not start. -/
theorem C130_listeners_fails (order : HashOrder) (file : Option Value) (vars : List Var)
    (hv : ∃ n x, ⟨some n, some x⟩ ∈ vars ∧ IsVariable n "MQTT" "LISTENERS_TCP") :
    settings order file vars = none
    ∧ ∀ sv hs env peers read, Boot.launch sv hs env peers (settings order file vars) read = none := by
  have hnone : settings order file vars = none := by
    cases h : settings order file vars with
    | none => rfl
    | some s =>
      exfalso
      obtain ⟨f, m, rfl, hm, hs⟩ := settings_eq h
      obtain ⟨h1, h2, h3⟩ := ordered_spec (order := order) hm
      obtain ⟨n, x, hn, hvar⟩ := hv
      obtain ⟨y, hy⟩ := h3 n x _ hn (keyOf_listeners.mpr hvar)
      obtain ⟨vs, hl, -⟩ := (ofValue_eq hs).1
      rcases merged_variable h1 hy pathOf_listeners f with h | h | ⟨_, h⟩ <;> (rw [hl] at h; cases h)
  exact ⟨hnone, fun sv hs env peers read => by rw [hnone]; rfl⟩

/-- C130, what holds: the addresses to listen on are always those of the configuration file. The password file can be given by a variable
(C129). -/
theorem C130_listeners_partial (order : HashOrder) (file : Option Value) (vars : List Var) (s : Settings)
    (h : settings order file vars = some s) :
    ∃ f vs, file = some f ∧ f.lookup ["mqtt", "listeners_tcp"] = some (.array vs) ∧ vs.mapM Value.text? = some s.listenersTcp := by
  have hv : ∀ n x, ⟨some n, some x⟩ ∈ vars → ¬ IsVariable n "MQTT" "LISTENERS_TCP" := fun n x hn hvar => by
    rw [(C130_listeners_fails order file vars ⟨n, x, hn, hvar⟩).1] at h
    cases h
  obtain ⟨f, m, rfl, hm, hs⟩ := settings_eq h
  obtain ⟨h1, h2, h3⟩ := ordered_spec (order := order) hm
  obtain ⟨vs, hl, hvs⟩ := (ofValue_eq hs).1
  refine ⟨f, vs, rfl, ?_, hvs⟩
  rcases lookup_merged_other ["mqtt", "listeners_tcp"] (order.order m) (fun ⟨k, x⟩ hx he => by
      obtain ⟨n, hn, hk⟩ := h2 k x hx
      have : k = "mqtt.listeners_tcp" := pathOf_two he
      exact hv n x hn (keyOf_listeners.mp (this ▸ hk))) f with h | h | ⟨_, h⟩
  · rw [← h]; exact hl
  · rw [hl] at h; cases h
  · rw [hl] at h; cases h

/-! ### C131 -/

/-- Keys below one of the two sections, or beginning like them. -/
def sectionKey (k : String) : Bool := "mqtt".toList.isPrefixOf k.toList || "authentication".toList.isPrefixOf k.toList

theorem sectionKey_concerns {n k : String} (h : keyOf n = some k) (hk : sectionKey k = true) : Concerns n := by
  obtain ⟨h1, h2⟩ := keyOf_eq h
  rw [sectionKey, Bool.or_eq_true, List.isPrefixOf_iff_prefix, List.isPrefixOf_iff_prefix, h2] at hk
  rcases hk with hk | hk
  · have := prefix_dots (by decide +kernel) hk
    refine .inl ?_
    rw [BeginsWith, h1]
    have he : "RATELMQ_MQTT".toList.map Char.toLower = "ratelmq_".toList ++ "mqtt".toList := by decide +kernel
    rw [he]
    exact (List.prefix_append_right_inj _).mpr this
  · have := prefix_dots (by decide +kernel) hk
    refine .inr ?_
    rw [BeginsWith, h1]
    have he : "RATELMQ_AUTHENTICATION".toList.map Char.toLower = "ratelmq_".toList ++ "authentication".toList := by decide +kernel
    rw [he]
    exact (List.prefix_append_right_inj _).mpr this

/-- The two sections are the same. -/
def SameSections (a b : Value) : Prop :=
  a.entries.get? "mqtt" = b.entries.get? "mqtt" ∧ a.entries.get? "authentication" = b.entries.get? "authentication"

theorem setAt_sections {a b : Value} (h : SameSections a b) (p : List String) (hp : p ≠ []) (v : Value) :
    SameSections (Value.setAt p v a) (Value.setAt p v b) := by
  cases p with
  | nil => exact absurd rfl hp
  | cons k ks =>
    obtain ⟨h1, h2⟩ := h
    constructor
    · simp only [Value.setAt, Value.entries_table, AssocMap.get?_upsert]
      split
      · next he => subst he; rw [h1]
      · exact h1
    · simp only [Value.setAt, Value.entries_table, AssocMap.get?_upsert]
      split
      · next he => subst he; rw [h2]
      · exact h2

theorem pathOf_ne_nil (key : String) : pathOf key ≠ [] := by
  unfold pathOf
  simp only
  split
  · simp [splitDots_ne_nil]
  · simp

theorem setAt_other_section {key : String} (h : sectionKey key = false) (v root : Value) :
    SameSections (Value.setAt (pathOf key) v root) root := by
  cases hp : pathOf key with
  | nil => exact absurd hp (pathOf_ne_nil key)
  | cons a r =>
    have hpre := pathOf_head hp
    rw [sectionKey, Bool.or_eq_false_iff, ← Bool.not_eq_true, ← Bool.not_eq_true, List.isPrefixOf_iff_prefix, List.isPrefixOf_iff_prefix] at h
    constructor
    · simp only [Value.setAt, Value.entries_table, AssocMap.get?_upsert]
      rw [if_neg]
      rintro rfl
      exact h.1 hpre
    · simp only [Value.setAt, Value.entries_table, AssocMap.get?_upsert]
      rw [if_neg]
      rintro rfl
      exact h.2 hpre

theorem SameSections.trans {a b c : Value} (h : SameSections a b) (h' : SameSections b c) : SameSections a c :=
  ⟨h.1.trans h'.1, h.2.trans h'.2⟩

/-- Only section keys matter. -/
theorem merged_filter {a b : Value} (h : SameSections a b) (es : List (String × String)) :
    SameSections (merged a es) (merged b (es.filter fun e => sectionKey e.1)) := by
  induction es generalizing a b with
  | nil => exact h
  | cons e es ih =>
    by_cases hk : sectionKey e.1 = true
    · rw [List.filter_cons, if_pos hk]
      exact ih (setAt_sections h _ (pathOf_ne_nil _) _)
    · rw [List.filter_cons, if_neg hk]
      exact ih ((setAt_other_section (by simpa using hk) _ _).trans h)

theorem ofValue_sections {a b : Value} (h : SameSections a b) : ofValue a = ofValue b := by
  unfold ofValue
  simp only [Value.lookup]
  rw [h.1, h.2]

theorem insert_filter (m : AssocMap String) (k x : String) :
    (m.insert k x).filter (fun e => sectionKey e.1)
      = if sectionKey k then AssocMap.insert (m.filter fun e => sectionKey e.1) k x else m.filter fun e => sectionKey e.1 := by
  induction m with
  | nil => by_cases h : sectionKey k = true <;> simp [AssocMap.insert, h]
  | cons a m ih =>
    rcases a with ⟨k₀, x₀⟩
    rw [AssocMap.insert]
    by_cases he : k₀ = k
    · subst he
      rw [if_pos rfl]
      by_cases h : sectionKey k₀ = true
      · simp [h, AssocMap.insert]
      · simp [h]
    · rw [if_neg he]
      by_cases h0 : sectionKey k₀ = true
      · rw [List.filter_cons, if_pos h0, List.filter_cons, if_pos h0, ih]
        by_cases h : sectionKey k = true
        · simp [h, AssocMap.insert, he]
        · simp [h]
      · rw [List.filter_cons, if_neg h0, List.filter_cons, if_neg h0, ih]

theorem collect_filter {vars : List Var} {m m₂ m' : AssocMap String} (hm : m.filter (fun e => sectionKey e.1) = m₂.filter fun e => sectionKey e.1)
    (h : collect vars m = some m') :
    ∃ m₂', collect vars m₂ = some m₂' ∧ m'.filter (fun e => sectionKey e.1) = m₂'.filter fun e => sectionKey e.1 := by
  induction vars generalizing m m₂ with
  | nil => cases h; exact ⟨m₂, rfl, hm⟩
  | cons v vars ih =>
    rcases v with ⟨_ | n, x⟩
    · cases x <;> cases h
    rcases x with _ | x
    · cases h
    rw [collect] at h
    rw [collect]
    cases hk : keyOf n with
    | none =>
      rw [hk] at h
      exact ih hm h
    | some key =>
      rw [hk] at h
      exact ih (by rw [insert_filter, insert_filter, hm]) h

/-- Variables that do not concern the settings: nothing is collected for them that matters. -/
theorem collect_skip {pre post : List Var} {n x : String} (hn : ¬ Concerns n) {m : AssocMap String}
    (h : collect (pre ++ ⟨some n, some x⟩ :: post) [] = some m) :
    ∃ m₂, collect (pre ++ post) [] = some m₂ ∧ m.filter (fun e => sectionKey e.1) = m₂.filter fun e => sectionKey e.1 := by
  suffices H : ∀ m₁ m', collect (pre ++ ⟨some n, some x⟩ :: post) m₁ = some m' →
      ∃ m₂, collect (pre ++ post) m₁ = some m₂ ∧ m'.filter (fun e => sectionKey e.1) = m₂.filter fun e => sectionKey e.1 from H [] m h
  clear h m
  induction pre with
  | nil =>
    intro m₁ m' h
    rw [List.nil_append, collect] at h
    split at h
    · next key hk =>
      refine collect_filter ?_ h
      rw [insert_filter, if_neg]
      exact fun hs => hn (sectionKey_concerns hk hs)
    · exact ⟨m', h, rfl⟩
  | cons v pre ih =>
    intro m₁ m' h
    rcases v with ⟨_ | n', x'⟩
    · cases x' <;> cases h
    rcases x' with _ | x'
    · cases h
    rw [List.cons_append, collect] at h ⊢
    cases hk : keyOf n' with
    | none =>
      rw [hk] at h
      exact ih _ _ h
    | some key =>
      rw [hk] at h
      exact ih _ _ h

theorem settings_section {f : Value} {es es₂ : List (String × String)}
    (h : es.filter (fun e => sectionKey e.1) = es₂.filter fun e => sectionKey e.1) : ofValue (merged f es) = ofValue (merged f es₂) :=
  (ofValue_sections (merged_filter ⟨rfl, rfl⟩ es)).trans
    (by rw [h]; exact (ofValue_sections (merged_filter ⟨rfl, rfl⟩ es₂)).symm)

/-- C131, what holds: a variable of the environment that is Unicode and whose name does not begin with RATELMQ_MQTT or
RATELMQ_AUTHENTICATION does not matter: with it, the settings are what they can be without it (they depend on the order of a hash map only
if several variables are about the same setting). -/
theorem C131_unrelated_partial (order : HashOrder) (file : Option Value) (pre post : List Var) (n x : String) (hn : ¬ Concerns n) :
    ∃ order', settings order file (pre ++ ⟨some n, some x⟩ :: post) = settings order' file (pre ++ post) := by
  cases file with
  | none => exact ⟨order, rfl⟩
  | some f =>
    cases h : collect (pre ++ ⟨some n, some x⟩ :: post) [] with
    | none =>
      have h' : collect (pre ++ post) [] = none := by
        rw [collect_none_iff] at h ⊢
        obtain ⟨v, hv, hno⟩ := h
        rcases List.mem_append.mp hv with hv | hv
        · exact ⟨v, List.mem_append_left _ hv, hno⟩
        · rcases List.mem_cons.mp hv with rfl | hv
          · rcases hno with h | h <;> cases h
          · exact ⟨v, List.mem_append_right _ hv, hno⟩
      exact ⟨order, by simp only [settings, h, h']⟩
    | some m =>
      obtain ⟨m₂, h', hf⟩ := collect_skip hn h
      let rel : String × String → Bool := fun e => sectionKey e.1
      have hperm : (((order.order m).filter rel) ++ m₂.filter (fun e => !rel e)).Perm m₂ :=
        (List.Perm.append_right _ (by rw [show m₂.filter rel = m.filter rel from hf.symm]; exact (order.perm m).filter rel)).trans
          (List.filter_append_perm rel m₂)
      refine ⟨⟨fun a => if a = m₂ then ((order.order m).filter rel) ++ m₂.filter (fun e => !rel e) else a, fun a => ?_⟩, ?_⟩
      · by_cases ha : a = m₂
        · subst ha
          rw [if_pos rfl]
          exact hperm
        · rw [if_neg ha]
      · simp only [settings, h, h']
        rw [if_pos trivial]
        apply settings_section
        rw [List.filter_append]
        have h1 : ((order.order m).filter rel).filter (fun e => sectionKey e.1) = (order.order m).filter rel := by
          rw [List.filter_filter]
          congr 1
          funext e
          simp [rel]
        have h2 : (m₂.filter (fun e => !rel e)).filter (fun e => sectionKey e.1) = [] := by
          rw [List.filter_filter, List.filter_eq_nil_iff]
          intro e _
          simp [rel]
        rw [h1, h2, List.append_nil]

/-- C131 is violated: if a variable of the environment, whatever its name, is not Unicode, the settings cannot be loaded, and the broker
does not start. -/
theorem C131_not_unicode_fails (order : HashOrder) (file : Option Value) (vars : List Var) (v : Var) (hv : v ∈ vars)
    (hno : v.name = none ∨ v.value = none) :
    settings order file vars = none
    ∧ ∀ sv hs env peers read, Boot.launch sv hs env peers (settings order file vars) read = none := by
  have hnone : settings order file vars = none := by
    cases file with
    | none => rfl
    | some f => simp only [settings, (collect_none_iff vars []).mpr ⟨v, hv, hno⟩]
  exact ⟨hnone, fun sv hs env peers read => by rw [hnone]; rfl⟩

/-! ### C129, when the settings can be loaded, and the file `.env` -/

/-- C129. The settings can be loaded if the configuration file lists the addresses and either the file or a variable names the password
file, all variables are Unicode, and those that concern the settings are for the password file. -/
theorem C129_loads (order : HashOrder) (f : Value) (vars : List Var) (vs : List Value) (listeners : List String)
    (hl : f.lookup ["mqtt", "listeners_tcp"] = some (.array vs)) (hvs : vs.mapM Value.text? = some listeners)
    (hp : (∃ y, f.lookup ["authentication", "password_file"] = some (.scalar y))
      ∨ ∃ n x, ⟨some n, some x⟩ ∈ vars ∧ IsVariable n "AUTHENTICATION" "PASSWORD_FILE")
    (hu : ∀ v ∈ vars, v.name ≠ none ∧ v.value ≠ none)
    (hc : ∀ n x, ⟨some n, some x⟩ ∈ vars → Concerns n → IsVariable n "AUTHENTICATION" "PASSWORD_FILE") :
    ∃ s, settings order (some f) vars = some s ∧ s.listenersTcp = listeners := by
  cases hm : collect vars [] with
  | none =>
    obtain ⟨v, hv, hno⟩ := (collect_none_iff vars []).mp hm
    rcases hno with h | h
    · exact absurd h (hu v hv).1
    · exact absurd h (hu v hv).2
  | some m =>
    obtain ⟨h1, h2, h3⟩ := ordered_spec (order := order) hm
    have hset : settings order (some f) vars = ofValue (merged f ((order.order m).filter fun e => sectionKey e.1)) := by
      simp only [settings, hm]
      exact ofValue_sections (merged_filter ⟨rfl, rfl⟩ _)
    have hkeys : ∀ e ∈ (order.order m).filter (fun e => sectionKey e.1), e.1 = "authentication.password_file" := by
      intro e he
      obtain ⟨he, hs⟩ := List.mem_filter.mp he
      obtain ⟨n, hn, hk⟩ := h2 e.1 e.2 he
      have := keyOf_password.mpr (hc n e.2 hn (sectionKey_concerns hk hs))
      rw [hk] at this
      exact Option.some.inj this
    have hnd : (((order.order m).filter fun e => sectionKey e.1).map Prod.fst).Nodup :=
      h1.sublist (List.filter_sublist.map _)
    rw [hset]
    generalize hes : (order.order m).filter (fun e => sectionKey e.1) = es at hkeys hnd
    match es, hkeys, hnd with
    | [], _, _ =>
      obtain ⟨y, hy⟩ : ∃ y, f.lookup ["authentication", "password_file"] = some (.scalar y) := by
        rcases hp with h | ⟨n, x, hn, hvar⟩
        · exact h
        · obtain ⟨y, hy⟩ := h3 n x _ hn (keyOf_password.mpr hvar)
          have : ("authentication.password_file", y) ∈ (order.order m).filter (fun e => sectionKey e.1) :=
            List.mem_filter.mpr ⟨hy, show sectionKey "authentication.password_file" = true by decide +kernel⟩
          rw [hes] at this
          cases this
      exact ⟨⟨listeners, y⟩, ofValue_some hl hvs hy, rfl⟩
    | [(k, y)], hkeys, _ =>
      have hk : k = "authentication.password_file" := hkeys (k, y) (List.mem_singleton_self _)
      subst hk
      have hmer : merged f [("authentication.password_file", y)] = Value.setAt ["authentication", "password_file"] (.scalar y) f := by
        rw [merged, List.foldl_cons, List.foldl_nil, pathOf_password]
      rw [hmer]
      refine ⟨⟨listeners, y⟩, ofValue_some (vs := vs) ?_ hvs (Value.lookup_setAt_self ..), rfl⟩
      rw [← hl]
      simp only [Value.lookup, Value.setAt, Value.entries_table, AssocMap.get?_upsert]
      rfl
    | (k, y) :: (k', y') :: es, hkeys, hnd =>
      have hk : k = "authentication.password_file" := hkeys (k, y) (by simp)
      have hk' : k' = "authentication.password_file" := hkeys (k', y') (by simp)
      subst hk; subst hk'
      simp at hnd

/-- C129. After reading the file `.env`, a variable has the value it had before, or, if it had none, that of its first entry in the file. -/
theorem C129_dotenv (vars : List Var) (entries : List (String × String)) (n y : String) :
    ⟨some n, some y⟩ ∈ dotenv vars entries ↔
      ⟨some n, some y⟩ ∈ vars
      ∨ (∀ z, ⟨some n, some z⟩ ∉ vars)
        ∧ ∃ pre post, entries = pre ++ (n, y) :: post ∧ ∀ z, (n, z) ∉ pre := by
  induction entries generalizing vars with
  | nil => simp [dotenv]
  | cons e entries ih =>
    obtain ⟨k, w⟩ := e
    rw [dotenv, List.foldl_cons]
    change _ ∈ dotenv _ entries ↔ _
    rw [ih]
    by_cases hany : vars.any (fun v => v.name = some k ∧ v.value.isSome) = true
    · rw [if_pos hany]
      obtain ⟨⟨vn, vv⟩, hv, hvk⟩ := List.any_eq_true.mp hany
      simp only [decide_eq_true_eq] at hvk
      obtain ⟨rfl, hvv⟩ := hvk
      obtain ⟨z, rfl⟩ := Option.isSome_iff_exists.mp hvv
      constructor
      · rintro (h | ⟨h, pre, post, rfl, hpre⟩)
        · exact .inl h
        · refine .inr ⟨h, (k, w) :: pre, post, rfl, fun z' hz' => ?_⟩
          rcases List.mem_cons.mp hz' with he | hz'
          · cases he; exact h z hv
          · exact hpre z' hz'
      · rintro (h | ⟨h, pre, post, he, hpre⟩)
        · exact .inl h
        · cases pre with
          | nil => cases he; exact absurd hv (h z)
          | cons a pre =>
            cases he
            exact .inr ⟨h, pre, post, rfl, fun z' hz' => hpre z' (List.mem_cons_of_mem _ hz')⟩
    · rw [if_neg hany]
      have hno : ∀ z, ⟨some k, some z⟩ ∉ vars := fun z hz => hany (List.any_eq_true.mpr ⟨_, hz, by simp⟩)
      have hmem : ∀ n y, (⟨some n, some y⟩ : Var) ∈ vars.filter (fun v => v.name ≠ some k) ++ [⟨some k, some w⟩]
          ↔ ⟨some n, some y⟩ ∈ vars ∨ (n = k ∧ y = w) := by
        intro n y
        simp only [List.mem_append, List.mem_filter, List.mem_singleton, decide_eq_true_eq, ne_eq, Option.some.injEq, Var.mk.injEq]
        constructor
        · rintro (⟨h, _⟩ | h)
          · exact .inl h
          · exact .inr h
        · rintro (h | h)
          · exact .inl ⟨h, fun he => hno y (he ▸ h)⟩
          · exact .inr h
      simp only [hmem]
      constructor
      · rintro ((h | ⟨rfl, rfl⟩) | ⟨h, pre, post, rfl, hpre⟩)
        · exact .inl h
        · exact .inr ⟨hno, [], entries, rfl, by simp⟩
        · refine .inr ⟨fun z hz => h z (.inl hz), (k, w) :: pre, post, rfl, fun z hz => ?_⟩
          rcases List.mem_cons.mp hz with he | hz
          · cases he; exact h w (.inr ⟨rfl, rfl⟩)
          · exact hpre z hz
      · rintro (h | ⟨h, pre, post, he, hpre⟩)
        · exact .inl (.inl h)
        · cases pre with
          | nil => cases he; exact .inl (.inr ⟨rfl, rfl⟩)
          | cons a pre =>
            cases he
            refine .inr ⟨?_, pre, post, rfl, fun z' hz' => hpre z' (List.mem_cons_of_mem _ hz')⟩
            rintro z (hz | ⟨rfl, rfl⟩)
            · exact h z hz
            · exact hpre z (by simp)

/-- C129. A broker that is started with the variable for the password file set to `x` (in one spelling, the same as in `.env` if it is
there too) decides about clients by the file `x`. -/
theorem C129_started (sv : StdVersion) (hs : Hashing) (env env' : Env) (peers : ConnId → Peer) (order : HashOrder) (file : Option Value)
    (dotfile : List (String × String)) (vars : List Var) (read : String → Option (List Char)) (b : Boot)
    (h : Boot.start sv hs env peers order file dotfile vars read = some (env', b)) (n x : String)
    (hn : IsVariable n "AUTHENTICATION" "PASSWORD_FILE") (hx : ⟨some n, some x⟩ ∈ vars)
    (honly : ∀ n' x', ⟨some n', some x'⟩ ∈ vars → IsVariable n' "AUTHENTICATION" "PASSWORD_FILE" → x' = x)
    (hdot : ∀ e ∈ dotfile, IsVariable e.1 "AUTHENTICATION" "PASSWORD_FILE" → e.1 = n) :
    ∃ text f, read x = some text ∧ FileIdentityManager.new sv text = some f ∧ env'.auth = f.authenticate hs := by
  obtain ⟨s, text, f, h1, h2, h3, rfl, rfl⟩ := Boot.launch_eq h
  obtain ⟨n', x', hn', hvar', hpw⟩ := C129_variable order file _ s h1 ⟨n, x, (C129_dotenv vars dotfile n x).mpr (.inl hx), hn⟩
  have : x' = x := by
    rcases (C129_dotenv vars dotfile n' x').mp hn' with h | ⟨h, pre, post, he, -⟩
    · exact honly n' x' h hvar'
    · have : n' = n := hdot (n', x') (by rw [he]; simp) hvar'
      subst this
      exact absurd hx (h x)
  subst this
  rw [hpw] at h2
  exact ⟨text, f, h2, h3, rfl⟩

/-! ### Examples -/

/-- A configuration file. -/
def exampleFile : Value :=
  .table [("mqtt", .table [("listeners_tcp", .array [.scalar "127.0.0.1:1883", .scalar "0.0.0.0:1884"])]),
    ("authentication", .table [("password_file", .scalar "/etc/ratelmq/passwords")])]

def hashOrder : HashOrder := ⟨id, fun _ => .refl _⟩

-- The file alone.
example : settings hashOrder (some exampleFile) [⟨some "HOME", some "/root"⟩]
    = some ⟨["127.0.0.1:1883", "0.0.0.0:1884"], "/etc/ratelmq/passwords"⟩ := by decide +kernel

-- The variable wins, in any case.
example : settings hashOrder (some exampleFile) [⟨some "HOME", some "/root"⟩, ⟨some "Ratelmq_Authentication__PASSWORD_FILE", some "p"⟩]
    = some ⟨["127.0.0.1:1883", "0.0.0.0:1884"], "p"⟩ := by decide +kernel

example : IsVariable "Ratelmq_Authentication__PASSWORD_FILE" "AUTHENTICATION" "PASSWORD_FILE" := .inl (by unfold SameText; decide +kernel)

-- The file does not have to name a password file then.
example : settings hashOrder (some (.table [("mqtt", .table [("listeners_tcp", .array [.scalar "127.0.0.1:1883"])])]))
    [⟨some "RATELMQ_AUTHENTICATION__PASSWORD_FILE", some "p"⟩] = some ⟨["127.0.0.1:1883"], "p"⟩ := by decide +kernel

-- With one underscore it is another variable.
example : settings hashOrder (some exampleFile) [⟨some "RATELMQ_AUTHENTICATION_PASSWORD_FILE", some "p"⟩]
    = some ⟨["127.0.0.1:1883", "0.0.0.0:1884"], "/etc/ratelmq/passwords"⟩ := by decide +kernel

-- C130: the addresses.
example : settings hashOrder (some exampleFile) [⟨some "RATELMQ_MQTT__LISTENERS_TCP", some "127.0.0.1:1885"⟩] = none := by decide +kernel

-- C131: a name that begins like a section, and one that spoils it.
example : settings hashOrder (some exampleFile) [⟨some "RATELMQ_MQTTX__A", some "1"⟩]
    = some ⟨["127.0.0.1:1883", "0.0.0.0:1884"], "/etc/ratelmq/passwords"⟩ := by decide +kernel
example : settings hashOrder (some exampleFile) [⟨some "RATELMQ_MQTT", some "1"⟩] = none := by decide +kernel
example : settings hashOrder (some exampleFile) [⟨some "LESSCHARSET", none⟩] = none := by decide +kernel
example : ¬ Concerns "PATH" := by unfold Concerns BeginsWith; decide +kernel

-- C129: `.env`.
example : dotenv [⟨some "A", some "1"⟩] [("A", "2"), ("B", "3"), ("B", "4")] = [⟨some "A", some "1"⟩, ⟨some "B", some "3"⟩] := by decide +kernel

-- C129: the broker is started with the file of the variable.
example (sv : StdVersion) : (Boot.start sv plainHashing exampleEnv examplePeers hashOrder (some exampleFile) [("RATELMQ_AUTHENTICATION__PASSWORD_FILE", "q")]
    [⟨some "RATELMQ_AUTHENTICATION__PASSWORD_FILE", some "p"⟩] (onlyFile "p" "ann:1\n".toList)).isSome = true := by
  have h : settings hashOrder (some exampleFile) (dotenv [⟨some "RATELMQ_AUTHENTICATION__PASSWORD_FILE", some "p"⟩]
      [("RATELMQ_AUTHENTICATION__PASSWORD_FILE", "q")]) = some ⟨["127.0.0.1:1883", "0.0.0.0:1884"], "p"⟩ := by decide +kernel
  rw [Boot.start, h]
  cases sv with | mk b => cases b <;> rfl

end Ratel
