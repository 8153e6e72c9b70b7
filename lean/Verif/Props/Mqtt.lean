/-
C20–C24, exactly: where the broker's idea of who gets a message is MQTT's and where it is not.
-/
import Verif.Props.Subscriptions
import Verif.Spec.Mqtt

namespace Ratel

open Spec

/-! ### C20, C21 -/

theorem mqttLevels_iff {fs ts : List String} (ht : ∀ t ∈ ts, t ≠ "+" ∧ t ≠ "#") :
    MqttLevels fs ts ↔ LevelsMatch fs ts ∨ ∃ gs, fs = gs ++ ["#"] ∧ "#" ∉ gs ∧ LevelsMatch gs ts := by
  constructor
  · intro h
    induction h with
    | done => exact .inl .done
    | hash ts =>
      cases ts with
      | nil => exact .inr ⟨[], rfl, by simp, .done⟩
      | cons t ts => exact .inl (.hash t ts)
    | plus t fs ts _ ih =>
      rcases ih fun x hx => ht x (List.mem_cons_of_mem _ hx) with h | ⟨gs, rfl, hg, h⟩
      · exact .inl (.plus t fs ts h)
      · exact .inr ⟨"+" :: gs, rfl, by simpa using hg, .plus t gs ts h⟩
    | literal t fs ts _ ih =>
      rcases ih fun x hx => ht x (List.mem_cons_of_mem _ hx) with h | ⟨gs, rfl, hg, h⟩
      · exact .inl (.literal t fs ts h)
      · refine .inr ⟨t :: gs, rfl, ?_, .literal t gs ts h⟩
        simp only [List.mem_cons, not_or]
        exact ⟨Ne.symm (ht t List.mem_cons_self).2, hg⟩
  · rintro (h | ⟨gs, rfl, hg, h⟩)
    · clear ht
      induction h with
      | done => exact .done
      | hash t ts => exact .hash _
      | plus t fs ts _ ih => exact .plus t fs ts ih
      | literal t fs ts _ ih => exact .literal t fs ts ih
    · clear ht
      induction h with
      | done => exact .hash _
      | hash t ts => simp at hg
      | plus t fs ts _ ih => exact .plus t _ ts (ih fun hm => hg (List.mem_cons_of_mem _ hm))
      | literal t fs ts _ ih => exact .literal t _ ts (ih fun hm => hg (List.mem_cons_of_mem _ hm))

theorem not_both {gs ts : List String} (ht : ∀ t ∈ ts, t ≠ "+" ∧ t ≠ "#") (hg : "#" ∉ gs) (h : LevelsMatch gs ts) :
    ¬ LevelsMatch (gs ++ ["#"]) ts := by
  -- a match of both kinds would have to take one level more
  have key : ∀ {fs ts : List String}, LevelsMatch fs ts → (∀ t ∈ ts, t ≠ "+" ∧ t ≠ "#") → ∀ {gs}, fs = gs ++ ["#"] → gs.length < ts.length := by
    intro fs ts h
    induction h with
    | done => intro _ gs hf; simp at hf
    | hash t ts =>
      intro _ gs hf
      have := congrArg List.length hf
      simp only [List.length_append, List.length_cons, List.length_nil] at this ⊢
      omega
    | plus t fs ts _ ih =>
      intro ht gs hf
      cases gs with
      | nil => simp at hf
      | cons g gs =>
        rw [List.cons_append, List.cons.injEq] at hf
        have := ih (fun x hx => ht x (List.mem_cons_of_mem _ hx)) hf.2
        simp only [List.length_cons]
        omega
    | literal t fs ts _ ih =>
      intro ht gs hf
      cases gs with
      | nil =>
        rw [List.nil_append, List.cons.injEq] at hf
        exact absurd hf.1 (ht t List.mem_cons_self).2
      | cons g gs =>
        rw [List.cons_append, List.cons.injEq] at hf
        have := ih (fun x hx => ht x (List.mem_cons_of_mem _ hx)) hf.2
        simp only [List.length_cons]
        omega
  have hlen : gs.length = ts.length := by
    clear key ht
    induction h with
    | done => rfl
    | hash t ts => simp at hg
    | plus t fs ts _ ih => simp [ih fun hm => hg (List.mem_cons_of_mem _ hm)]
    | literal t fs ts _ ih => simp [ih fun hm => hg (List.mem_cons_of_mem _ hm)]
  intro hb
  have := key hb ht rfl
  omega

/-- On plain topics MQTT's matching and the broker's differ only for the parent level and for topics beginning with '$'. -/
theorem mqttMatches_iff {f t : String} (ht : PlainTopic t) : MqttMatches f t ↔ (Matches f t ∨ Parent f t) ∧ ¬ Hidden f t := by
  have hp := plain_levels ht
  unfold MqttMatches
  refine and_congr_left fun _ => ?_
  constructor
  · rintro ⟨fs, ts, h1, h2, h3⟩
    rcases (mqttLevels_iff (levels_unique h2 ▸ hp)).mp h3 with h | ⟨gs, rfl, hg, h⟩
    · exact .inl ⟨fs, ts, h1, h2, h⟩
    · refine .inr ⟨gs, ts, h1, h2, ?_, hg, h⟩
      rintro rfl
      cases h
      exact h2.some rfl
  · rintro (⟨fs, ts, h1, h2, h⟩ | ⟨gs, ts, h1, h2, _, hg, h⟩)
    · exact ⟨fs, ts, h1, h2, (mqttLevels_iff (levels_unique h2 ▸ hp)).mpr (.inl h)⟩
    · exact ⟨_, ts, h1, h2, (mqttLevels_iff (levels_unique h2 ▸ hp)).mpr (.inr ⟨gs, rfl, hg, h⟩)⟩

theorem parent_not_matches {f t : String} (ht : PlainTopic t) (h : Parent f t) : ¬ Matches f t := by
  obtain ⟨gs, ts, h1, h2, _, hg, h⟩ := h
  rw [matches_iff, ← levels_unique h1, ← levels_unique h2]
  exact not_both (levels_unique h2 ▸ plain_levels ht) hg h

/-- What a client gets that holds one filter, perhaps several times, and no other. -/
theorem deliveries_only {h : List SubOp} {c : ClientId} {f t : String} (hc : ∀ g, (c, g) ∈ Entries.counted h ↔ g = f) (ht : PlainTopic t) :
    0 < deliveries (repo h) c t ↔ Matches f t := by
  rw [C19_matching _ _ _ ht]
  unfold Entries.matching
  rw [List.countP_pos_iff]
  constructor
  · rintro ⟨⟨c', g⟩, hm, hd⟩
    simp only [decide_eq_true_eq] at hd
    obtain ⟨rfl, hd⟩ := hd
    rw [← (hc g).mp hm]
    exact hd
  · intro hm
    exact ⟨(c, f), (hc f).mpr rfl, by simpa using hm⟩

/-- C20, exactly: a client that holds just one filter misses a message MQTT wants it to get if and only if the topic is the parent level of a
final "/#" of the filter (and it is not the case that the topic begins with '$' and the filter with a wildcard). -/
theorem C20_missed_iff (h : List SubOp) (c : ClientId) (f t : String) (hc : ∀ g, (c, g) ∈ Entries.counted h ↔ g = f) (ht : PlainTopic t) :
    (MqttMatches f t ∧ deliveries (repo h) c t = 0) ↔ Parent f t ∧ ¬ Hidden f t := by
  have hd := deliveries_only hc ht
  rw [mqttMatches_iff ht]
  constructor
  · rintro ⟨⟨h1 | h1, h2⟩, h3⟩
    · have := hd.mpr h1; omega
    · exact ⟨h1, h2⟩
  · rintro ⟨h1, h2⟩
    refine ⟨⟨.inr h1, h2⟩, Nat.eq_zero_of_not_pos fun h3 => parent_not_matches ht h1 (hd.mp h3)⟩

/-- C21, exactly: it gets a message MQTT does not want it to get if and only if the topic begins with '$', the filter begins with a wildcard, and
the filter matches all the same. -/
theorem C21_unwanted_iff (h : List SubOp) (c : ClientId) (f t : String) (hc : ∀ g, (c, g) ∈ Entries.counted h ↔ g = f) (ht : PlainTopic t) :
    (¬ MqttMatches f t ∧ 0 < deliveries (repo h) c t) ↔ Hidden f t ∧ Matches f t := by
  rw [mqttMatches_iff ht, deliveries_only hc ht]
  constructor
  · rintro ⟨h1, h2⟩
    exact ⟨Classical.byContradiction fun h3 => h1 ⟨.inl h2, h3⟩, h2⟩
  · rintro ⟨h1, h2⟩
    exact ⟨fun h3 => h3.2 h1, h2⟩

/-- "home/#" misses "home"; "+/broker" gets "$SYS/broker". -/
example : Parent "home/#" "home" ∧ ¬ Hidden "home/#" "home" ∧ Hidden "+/broker" "$SYS/broker" ∧ Matches "+/broker" "$SYS/broker"
    ∧ PlainTopic "home" ∧ PlainTopic "$SYS/broker" := by
  refine ⟨⟨["home"], ["home"], (C69_levels _ _).mpr (by decide +kernel), (C69_levels _ _).mpr (by decide +kernel), by simp, by decide,
    .literal _ _ _ .done⟩, by unfold Hidden; decide +kernel, by unfold Hidden; decide +kernel,
    ⟨["+", "broker"], ["$SYS", "broker"], (C69_levels _ _).mpr (by decide +kernel), (C69_levels _ _).mpr (by decide +kernel),
      .plus _ _ _ (.literal _ _ _ .done)⟩, by unfold PlainTopic; decide +kernel, by unfold PlainTopic; decide +kernel⟩

example : ∀ g, ("c", g) ∈ Entries.counted [.subscribe "c" ⟨"home/#", .atMostOnce⟩, .subscribe "d" ⟨"x", .atMostOnce⟩] ↔ g = "home/#" := by
  simp [Entries.counted, Entries.counting]

/-! ### C22, C23, C24 -/

/-- The broker never holds fewer subscriptions than MQTT wants. -/
theorem current_le_counted (c : ClientId) (f : String) (h : List SubOp) :
    (Entries.current h).count (c, f) ≤ (Entries.counted h).count (c, f) := by
  match hl : h.length with
  | 0 => rw [List.eq_nil_of_length_eq_zero hl]; exact Nat.le_refl _
  | k + 1 =>
    obtain ⟨h', op, rfl⟩ : ∃ h' op, h = h' ++ [op] := by
      have hne : h ≠ [] := by intro hc; simp [hc] at hl
      exact ⟨h.dropLast, h.getLast hne, (List.dropLast_concat_getLast hne).symm⟩
    have ih := current_le_counted c f h'
    have hd := (current_nodup h').count (a := (c, f))
    rw [current_append, counted_append]
    cases op with
    | subscribe c' s =>
      simp only [Entries.counting, Entries.standard, List.count_append]
      split
      · omega
      · rw [List.count_append]; omega
    | unsubscribe c' fs =>
      simp only [Entries.counting, Entries.standard, Entries.count_unsubscribe, count_filter_pos]
      by_cases hc : c = c'
      · by_cases hf : f ∈ fs
        · simp [hc, hf]
        · simp [hc, hf, List.count_eq_zero.mpr hf]
          rw [← hc]; exact ih
      · simp [hc]; exact ih
    | disconnected c' =>
      simp only [Entries.counting, Entries.standard, Entries.count_dropAll, count_filter_pos]
      by_cases hc : c = c'
      · simp [hc]
      · simp [hc]; exact ih
    | connectionLost c' =>
      simp only [Entries.counting, Entries.standard, Entries.count_dropAll, count_filter_pos]
      by_cases hc : c = c'
      · simp [hc]
      · simp [hc]; exact ih
termination_by h.length
decreasing_by simp at *; omega

theorem perm_of_count_le {α : Type} [BEq α] [LawfulBEq α] : ∀ (l' l : List α), (∀ a, l'.count a ≤ l.count a) → l.length ≤ l'.length →
    List.Perm l' l
  | [], l, _, h => by
    have : l = [] := List.eq_nil_of_length_eq_zero (by simpa using h)
    subst this
    exact .nil
  | a :: l', l, hc, hl => by
    have ha : a ∈ l := by
      have := hc a
      rw [List.count_cons_self] at this
      exact List.count_pos_iff.mp (by omega)
    have hlen := List.length_erase_of_mem ha
    have hpos := List.length_pos_of_mem ha
    refine List.Perm.trans (.cons a (perm_of_count_le l' (l.erase a) (fun b => ?_) ?_)) (List.perm_cons_erase ha).symm
    · have := hc b
      rw [List.count_erase]
      rw [List.count_cons] at this
      by_cases hab : a == b <;> simp_all <;> omega
    · simp only [List.length_cons] at hl
      omega

/-- If one list of subscriptions has at least those of the other, they call for the same copies on all plain topics exactly if they have the same
useful filters equally often. -/
theorem matching_eq_iff {es es' : Entries} {c : ClientId} (hle : ∀ f, es'.count (c, f) ≤ es.count (c, f)) :
    (∀ t, PlainTopic t → es.matching c t = es'.matching c t) ↔ ∀ f, Useful f → es.count (c, f) = es'.count (c, f) := by
  classical
  -- as sums over the filters
  have hfilter : ∀ (es : Entries) (t : String), es.matching c t
      = Entries.matching (es.filter fun e => decide (e.1 = c ∧ Useful e.2)) c t ∨ ¬ PlainTopic t := by
    intro es t
    by_cases ht : PlainTopic t
    · left
      unfold Entries.matching
      rw [List.countP_filter]
      apply List.countP_congr
      rintro ⟨c', f⟩ _
      simp only [decide_eq_true_eq, Bool.and_eq_true]
      exact ⟨fun h => ⟨h, h.1, t, ht, h.2⟩, fun h => h.1⟩
    · exact .inr ht
  constructor
  · intro h f ⟨t, ht, hm⟩
    have h := h t ht
    have hcount : ∀ es : Entries, es.matching c t = (es.filter fun e => decide (e.1 = c ∧ Matches e.2 t)).length := fun es =>
      List.countP_eq_length_filter
    rw [hcount, hcount] at h
    have hp := perm_of_count_le (es'.filter fun e => decide (e.1 = c ∧ Matches e.2 t)) (es.filter fun e => decide (e.1 = c ∧ Matches e.2 t))
      (fun ⟨c', g⟩ => by
        rw [count_filter_pos, count_filter_pos]
        by_cases hc : c' = c ∧ Matches g t
        · obtain ⟨rfl, hg⟩ := hc
          simpa [hg] using hle g
        · simp [hc]) (Nat.le_of_eq h)
    have := hp.count_eq (c, f)
    rw [count_filter_pos, count_filter_pos] at this
    simpa [hm] using this.symm
  · intro h t ht
    rw [(hfilter es t).resolve_right (fun hn => hn ht), (hfilter es' t).resolve_right (fun hn => hn ht)]
    apply matching_congr
    intro f
    rw [count_filter_pos, count_filter_pos]
    by_cases hu : Useful f
    · simp [hu, h f hu]
    · simp [hu]

/-- C22, exactly: after a history, a client gets on all plain topics just the copies MQTT wants if and only if the broker holds for it each useful
filter as often as MQTT wants: once or not at all. -/
theorem C22_standard_iff (h : List SubOp) (c : ClientId) :
    (∀ t, PlainTopic t → deliveries (repo h) c t = (Entries.current h).matching c t)
      ↔ ∀ f, Useful f → (Entries.counted h).count (c, f) = (Entries.current h).count (c, f) := by
  rw [← matching_eq_iff fun f => current_le_counted c f h]
  exact forall_congr' fun t => ⟨fun g ht => C19_matching h c t ht ▸ g ht, fun g ht => (C19_matching h c t ht).trans (g ht)⟩

/-- C23, exactly: after an UNSUBSCRIBE from a filter, a client gets on all plain topics just the copies its other filters call for if and only if it
held the filter at most once. -/
theorem C23_unsubscribe_iff (h : List SubOp) (c : ClientId) (f : String) (hf : Useful f) :
    (∀ t, PlainTopic t → deliveries (repo (h ++ [.unsubscribe c [f]])) c t
        = Entries.matching ((Entries.counted h).filter fun e => e ≠ (c, f)) c t)
      ↔ (Entries.counted h).count (c, f) ≤ 1 := by
  have hcount : ∀ g, (Entries.counted (h ++ [.unsubscribe c [f]])).count (c, g)
      = (Entries.counted h).count (c, g) - if g = f then 1 else 0 := by
    intro g
    rw [counted_append, Entries.counting, Entries.count_unsubscribe]
    by_cases hg : g = f
    · simp [hg]
    · simp [hg, Ne.symm hg]
  have hother : ∀ g, ((Entries.counted h).filter fun e => e ≠ (c, f)).count (c, g) = if g = f then 0 else (Entries.counted h).count (c, g) := by
    intro g
    rw [count_filter_pos]
    by_cases hg : g = f <;> simp [hg]
  have hiff := matching_eq_iff (c := c) (es := Entries.counted (h ++ [.unsubscribe c [f]]))
    (es' := (Entries.counted h).filter fun e => e ≠ (c, f)) fun g => by rw [hother, hcount]; split <;> omega
  rw [show (∀ t, PlainTopic t → deliveries (repo (h ++ [.unsubscribe c [f]])) c t
      = Entries.matching ((Entries.counted h).filter fun e => e ≠ (c, f)) c t) ↔ _ from
    forall_congr' fun t => ⟨fun g ht => C19_matching _ c t ht ▸ g ht, fun g ht => (C19_matching _ c t ht).trans (g ht)⟩, hiff]
  constructor
  · intro g
    have := g f hf
    rw [hother, hcount, if_pos rfl, if_pos rfl] at this
    omega
  · intro g f' _
    rw [hother, hcount]
    by_cases hf' : f' = f
    · subst hf'
      rw [if_pos rfl, if_pos rfl]
      omega
    · rw [if_neg hf', if_neg hf', Nat.sub_zero]

/-- C24, exactly: after a disconnect or a lost connection a client gets nothing on any plain topic if and only if it held every useful filter at most
once. -/
theorem C24_disconnect_iff (h : List SubOp) (c : ClientId) (op : SubOp) (hop : op = .disconnected c ∨ op = .connectionLost c) :
    (∀ t, PlainTopic t → deliveries (repo (h ++ [op])) c t = 0) ↔ ∀ f, Useful f → (Entries.counted h).count (c, f) ≤ 1 := by
  have hcount : ∀ g, (Entries.counted (h ++ [op])).count (c, g) = (Entries.counted h).count (c, g) - 1 := by
    intro g
    rw [counted_append]
    rcases hop with rfl | rfl <;> rw [Entries.counting, Entries.count_dropAll, if_pos rfl]
  have hiff := matching_eq_iff (c := c) (es := Entries.counted (h ++ [op])) (es' := []) fun g => by simp
  rw [show (∀ t, PlainTopic t → deliveries (repo (h ++ [op])) c t = 0) ↔ _ from
    forall_congr' fun t => ⟨fun g ht => C19_matching _ c t ht ▸ g ht, fun g ht => (C19_matching _ c t ht).trans (g ht)⟩]
  refine Iff.trans hiff (forall_congr' fun f => forall_congr' fun _ => ?_)
  rw [hcount, List.count_nil]
  omega

/-- "a/+" is useful; "#/a" is not. A client that subscribed twice and unsubscribed once still holds the filter, MQTT says it does not. -/
example : Useful "a/+" ∧ ¬ Useful "#/a" := by
  refine ⟨⟨"a/b", by unfold PlainTopic; decide +kernel, ["a", "+"], ["a", "b"], (C69_levels _ _).mpr (by decide +kernel),
    (C69_levels _ _).mpr (by decide +kernel), .literal _ _ _ (.plus _ _ _ .done)⟩, ?_⟩
  rintro ⟨t, ht, hm⟩
  rw [matches_iff, show splitTopic "#/a" = ["#", "a"] by decide +kernel] at hm
  generalize hts : splitTopic t = ts at hm
  have hp := plain_levels ht
  rw [hts] at hp
  generalize hfs : ["#", "a"] = fs at hm
  cases hm with
  | done => simp at hfs
  | hash => simp at hfs
  | plus => simp at hfs
  | literal x =>
    rw [List.cons.injEq] at hfs
    exact (hp x List.mem_cons_self).2 hfs.1.symm

example : (Entries.counted [.subscribe "c" ⟨"a/+", .atMostOnce⟩, .subscribe "c" ⟨"a/+", .atMostOnce⟩, .unsubscribe "c" ["a/+"]]).count ("c", "a/+") = 1
    ∧ (Entries.current [.subscribe "c" ⟨"a/+", .atMostOnce⟩, .subscribe "c" ⟨"a/+", .atMostOnce⟩, .unsubscribe "c" ["a/+"]]).count ("c", "a/+") = 0 := by
  decide +kernel

end Ratel
