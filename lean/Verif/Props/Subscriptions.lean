/-
C19–C27, C69: who gets a message. `repo h` is the repository after the requests `h`; `deliveries r c t` is how often
`subscribed_clients` names client `c` for topic `t`.
-/
import Verif.Proofs.Subs

namespace Ratel

open Spec

/-! ### C69 -/

/-- C69. Splitting a topic gives levels without '/' that joined with '/' are the topic, and it is the only such list. -/
theorem C69_levels (t : String) (ls : List String) : Levels t ls ↔ ls = splitTopic t :=
  ⟨levels_unique, fun h => h ▸ levels_splitTopic t⟩

/-- C69. Different topics have different levels. -/
theorem C69_levels_injective (t u : String) (h : splitTopic t = splitTopic u) : t = u := splitTopic_injective h

/-- C69. So a subscription to a filter is seen only by that filter: topics with equal levels are equal, whatever the empty levels. -/
theorem C69_levels_exist (ls : List String) (h0 : ls ≠ []) (hs : ∀ l ∈ ls, '/' ∉ l.toList) : ∃ t, splitTopic t = ls :=
  ⟨String.ofList (joinLevels (ls.map String.toList)), (levels_unique ⟨h0, hs, by simp⟩).symm⟩

example : splitTopic "a//b/" = ["a", "", "b", ""] := by decide +kernel
example : splitTopic "" = [""] := by decide +kernel

/-! ### C19 -/

/-- C19. After any history, a message on a plain topic goes to a client exactly once for each subscription the client holds (counted:
one more for every subscribe, one less for every unsubscribe) whose filter matches. -/
theorem C19_matching (h : List SubOp) (c : ClientId) (t : String) (ht : PlainTopic t) :
    deliveries (repo h) c t = (Entries.counted h).matching c t := deliveries_holds (holds_repo h) c ht

/-- C19. The same for topics of any shape: once for each way in which a subscription's filter matches the topic; there is such a way
exactly if the filter matches. -/
theorem C19_any_topic (h : List SubOp) (c : ClientId) (t : String) :
    deliveries (repo h) c t = (Entries.counted h).copies c t ∧ ∀ f, 0 < ways f t ↔ Matches f t :=
  ⟨deliveries_copies (holds_repo h) c t, fun _ => ways_pos⟩

/-- C19. For a client that never subscribes to a filter it already holds, these are the subscriptions as MQTT defines them: exactly
one delivery for each matching filter currently subscribed to. -/
theorem C19_matching_standard (h : List SubOp) (c : ClientId) (hn : NoRepeatBy c h) (t : String) (ht : PlainTopic t) :
    deliveries (repo h) c t = (Entries.current h).matching c t := by
  rw [C19_matching h c t ht, matching_congr (fun f => count_counted_eq c f h hn)]

/-- C19. A client is named at all only if one of its subscriptions matches. -/
theorem C19_no_other_client (h : List SubOp) (c : ClientId) (t : String) (ht : PlainTopic t)
    (hc : c ∈ ((repo h).subscribedClients t).getD []) : ∃ f, (c, f) ∈ Entries.counted h ∧ Matches f t := by
  have h1 : 0 < deliveries (repo h) c t := List.count_pos_iff.mpr hc
  rw [C19_matching h c t ht] at h1
  obtain ⟨⟨c', f⟩, h2, h3⟩ := List.countP_pos_iff.mp h1
  simp only [decide_eq_true_eq] at h3
  obtain ⟨rfl, h3⟩ := h3
  exact ⟨f, h2, h3⟩

example : PlainTopic "a/b" := by unfold PlainTopic; decide +kernel
example : Matches "a/+" "a/b" ∧ Matches "#" "a/b" ∧ ¬ Matches "a" "a/b" ∧ ¬ Matches "a/b/#" "a/b" := by
  simp only [matches_iff]
  rw [show splitTopic "a/+" = ["a", "+"] by decide +kernel, show splitTopic "a/b" = ["a", "b"] by decide +kernel,
    show splitTopic "#" = ["#"] by decide +kernel, show splitTopic "a" = ["a"] by decide +kernel,
    show splitTopic "a/b/#" = ["a", "b", "#"] by decide +kernel]
  simp only [← matchingPaths_iff]
  decide +kernel
example : ((repo [.subscribe "c" ⟨"a/+", .atMostOnce⟩, .subscribe "d" ⟨"#", .atMostOnce⟩, .subscribe "d" ⟨"a/b", .atMostOnce⟩,
    .subscribe "e" ⟨"x", .atMostOnce⟩]).subscribedClients "a/b") = some ["d", "d", "c"] := by decide +kernel
example : NoRepeatBy "d" [.subscribe "d" ⟨"#", .atMostOnce⟩, .subscribe "d" ⟨"a/b", .atMostOnce⟩] := by
  intro pre s post he
  match pre with
  | [] => simp [Entries.current]
  | [a] =>
    simp only [List.cons_append, List.nil_append, List.cons.injEq, SubOp.subscribe.injEq, true_and] at he
    obtain ⟨rfl, rfl, rfl⟩ := he
    decide +kernel
  | [a, b] => simp at he
  | a :: b :: x :: l => simp at he

/-! ### C20 -/

/-- C20 is violated: for every plain topic, a client whose only subscription is that topic followed by "/#" does not get the messages
published to the topic itself. -/
theorem C20_hash_parent_fails (c : ClientId) (q : QoS) (t filter : String) (ht : PlainTopic t)
    (hf : filter.toList = t.toList ++ ['/', '#']) : deliveries (repo [.subscribe c ⟨filter, q⟩]) c t = 0 := by
  have hs : splitTopic filter = splitTopic t ++ ["#"] := by
    refine (levels_unique ⟨by simp, ?_, ?_⟩).symm
    · intro l hl
      simp only [List.mem_append, List.mem_singleton] at hl
      rcases hl with hl | rfl
      · exact (levels_splitTopic t).noSlash l hl
      · decide +kernel
    · have hj : ∀ ls : List (List Char), ls ≠ [] → joinLevels (ls ++ [['#']]) = joinLevels ls ++ ['/', '#'] := by
        intro ls
        induction ls with
        | nil => simp
        | cons l ls ih =>
          intro _
          cases ls with
          | nil => simp [joinLevels]
          | cons l' ls => simp only [List.cons_append, joinLevels] at ih ⊢; rw [ih (by simp)]; simp
      rw [List.map_append, show (["#"].map String.toList) = [['#']] by decide +kernel,
        hj _ (by simpa using (levels_splitTopic t).some), (levels_splitTopic t).join, hf]
  have hno : ¬ Matches filter t := by
    rw [matches_iff, hs]
    have hp := plain_levels ht
    generalize splitTopic t = ts at hp
    induction ts with
    | nil =>
      intro h
      generalize hg : [] ++ ["#"] = g at h
      cases h
      simp at hg
    | cons x ts ih =>
      have hx := hp x List.mem_cons_self
      intro h
      have ih := ih fun l hl => hp l (List.mem_cons_of_mem _ hl)
      rw [List.cons_append] at h
      generalize hg : ts ++ ["#"] = g at h ih
      cases h with
      | hash => simp at hx
      | plus _ _ _ h => exact ih h
      | literal _ _ _ h => exact ih h
  rw [C19_matching _ _ _ ht]
  unfold Entries.matching
  rw [List.countP_eq_zero]
  intro e he
  simp only [Entries.counted, Entries.counting, List.foldl_cons, List.foldl_nil, List.nil_append, List.mem_singleton] at he
  subst he
  simpa using hno

/-- C20, the part that holds: "t/#" gets every message on a topic strictly below `t`. Missing: the topic `t` itself. -/
theorem C20_hash_parent_partial (h : List SubOp) (c : ClientId) (filter below : String) (ls rest : List String) (l : String)
    (hsub : (c, filter) ∈ Entries.counted h) (hf : Levels filter (ls ++ ["#"])) (hb : Levels below (ls ++ l :: rest))
    (hplain : PlainTopic below) : 0 < deliveries (repo h) c below := by
  rw [C19_matching _ _ _ hplain]
  unfold Entries.matching
  rw [List.countP_pos_iff]
  refine ⟨_, hsub, ?_⟩
  simp only [true_and, decide_eq_true_eq]
  refine ⟨_, _, hf, hb, ?_⟩
  clear hf hb
  induction ls with
  | nil => exact .hash l rest
  | cons x ls ih => exact .literal x _ _ ih

example : PlainTopic "a/b" ∧ "a/b/#".toList = "a/b".toList ++ ['/', '#'] := by
  unfold PlainTopic; decide +kernel
example : ("c", "a/#") ∈ Entries.counted [.subscribe "c" ⟨"a/#", .atMostOnce⟩] ∧ Levels "a/#" (["a"] ++ ["#"])
    ∧ Levels "a/b/c" (["a"] ++ "b" :: ["c"]) :=
  ⟨by decide +kernel, (C69_levels _ _).mpr (by decide +kernel), (C69_levels _ _).mpr (by decide +kernel)⟩

/-! ### C21 -/

/-- C21 is violated: a client subscribed to "#" gets the messages on every plain topic, those starting with '$' included. -/
theorem C21_dollar_fails (c : ClientId) (q : QoS) (t : String) (ht : PlainTopic t) :
    deliveries (repo [.subscribe c ⟨"#", q⟩]) c t = 1 := by
  have hm : Matches "#" t := by
    rw [matches_iff, show splitTopic "#" = ["#"] by decide +kernel]
    cases hs : splitTopic t with
    | nil => exact absurd hs (levels_splitTopic t).some
    | cons l ls => exact .hash l ls
  rw [C19_matching _ _ _ ht]
  simp [Entries.counted, Entries.counting, Entries.matching, hm]

/-- C21 is violated for '+' as well. -/
theorem C21_dollar_plus_fails (c : ClientId) (q : QoS) (l : String) (hl : '/' ∉ l.toList) (ht : PlainTopic l) :
    deliveries (repo [.subscribe c ⟨"+", q⟩]) c l = 1 := by
  have hm : Matches "+" l :=
    ⟨["+"], [l], (C69_levels _ _).mpr (by decide +kernel), ⟨by simp, by simpa using hl, by simp [joinLevels]⟩, .plus _ _ _ .done⟩
  rw [C19_matching _ _ _ ht]
  simp [Entries.counted, Entries.counting, Entries.matching, hm]

/-- C21, the part that holds: a filter whose first level is neither wildcard gets a message on a '$' topic only if its first level is
that topic's first level. Missing: filters starting with a wildcard. -/
theorem C21_dollar_partial (filter topic f t : String) (fs ts : List String) (hf : Levels filter (f :: fs)) (ht : Levels topic (t :: ts))
    (hw : f ≠ "+" ∧ f ≠ "#") (h : List SubOp) (c : ClientId) (hp : PlainTopic topic) (hc : Entries.counted h = [(c, filter)])
    (hd : deliveries (repo h) c topic ≠ 0) : f = t := by
  rw [C19_matching _ _ _ hp, hc] at hd
  have hm : Matches filter topic := by
    apply Classical.byContradiction
    intro hn
    simp [Entries.matching, hn] at hd
  rw [matches_iff, ← levels_unique hf, ← levels_unique ht] at hm
  cases hm with
  | hash => exact absurd rfl hw.2
  | plus => exact absurd rfl hw.1
  | literal => rfl

example : PlainTopic "$SYS/broker" := by unfold PlainTopic; decide +kernel

/-! ### C22, C23, C24 -/

/-- C22 is violated: a client that subscribes `n` times to the same filter gets each matching message `n` times. -/
theorem C22_resubscribe_fails (n : Nat) (c : ClientId) (s : Subscription) (t : String) (ht : PlainTopic t) (hm : Matches s.topic t) :
    deliveries (repo (List.replicate n (.subscribe c s))) c t = n := by
  rw [C19_matching _ _ _ ht]
  have : Entries.counted (List.replicate n (SubOp.subscribe c s)) = List.replicate n (c, s.topic) := by
    induction n with
    | zero => rfl
    | succ n ih => rw [List.replicate_succ', counted_append, ih, Entries.counting, List.replicate_succ']
  rw [this]
  unfold Entries.matching
  rw [List.countP_replicate]
  simp [hm]

/-- C22, the part that holds: a client that does not subscribe to a filter it already holds gets one copy per matching filter.
Missing: repeated subscriptions. -/
theorem C22_resubscribe_partial (h : List SubOp) (c : ClientId) (hn : NoRepeatBy c h) (t : String) (ht : PlainTopic t) (f : String)
    (hf : ∀ g, (c, g) ∈ Entries.current h → Matches g t → g = f) : deliveries (repo h) c t ≤ 1 := by
  rw [C19_matching_standard h c hn t ht]
  have : (Entries.current h).matching c t ≤ (Entries.current h).count (c, f) := by
    rw [List.count]
    apply List.countP_mono_left
    rintro ⟨c', g⟩ hg
    simp only [decide_eq_true_eq, beq_iff_eq, Prod.mk.injEq]
    rintro ⟨rfl, hm⟩
    exact ⟨rfl, hf g hg hm⟩
  have h1 := (current_nodup h).count (a := (c, f))
  split at h1 <;> omega

/-- C23 is violated: after two subscriptions and one unsubscription the messages still come. -/
theorem C23_unsubscribe_fails (c : ClientId) (s : Subscription) (t : String) (ht : PlainTopic t) (hm : Matches s.topic t) :
    deliveries (repo [.subscribe c s, .subscribe c s, .unsubscribe c [s.topic]]) c t = 1 := by
  rw [C19_matching _ _ _ ht]
  simp [Entries.counted, Entries.counting, Entries.unsubscribe, Entries.matching, hm]

/-- C23, the part that holds: if the client never subscribed to a filter it already held, then after it unsubscribes from `f` the
messages it gets are those of its other filters. Missing: repeated subscriptions. -/
theorem C23_unsubscribe_partial (h : List SubOp) (c : ClientId) (hn : NoRepeatBy c h) (f t : String) (ht : PlainTopic t) :
    deliveries (repo (h ++ [.unsubscribe c [f]])) c t
      = Entries.matching ((Entries.current h).filter fun e => e ≠ (c, f)) c t := by
  have hn' : NoRepeatBy c (h ++ [.unsubscribe c [f]]) := noRepeatBy_snoc hn fun s h => by cases h
  rw [C19_matching_standard _ c hn' t ht, current_append]
  unfold Entries.standard
  congr 1
  apply List.filter_congr
  rintro ⟨c', g⟩ _
  simp

/-- C24 is violated: after two subscriptions to one filter and a disconnect (or lost connection) the messages still come. -/
theorem C24_disconnect_fails (c : ClientId) (s : Subscription) (t : String) (ht : PlainTopic t) (hm : Matches s.topic t) :
    deliveries (repo [.subscribe c s, .subscribe c s, .disconnected c]) c t = 1
    ∧ deliveries (repo [.subscribe c s, .subscribe c s, .connectionLost c]) c t = 1 := by
  constructor
  all_goals
    rw [C19_matching _ _ _ ht, matching_congr (es' := [(c, s.topic)])]
    · simp [Entries.matching, hm]
    · intro f
      simp only [Entries.counted, List.foldl_cons, List.foldl_nil, Entries.counting, Entries.count_dropAll]
      by_cases hf : s.topic = f <;> simp [hf]

/-- C24, the part that holds: if the client never subscribed to a filter it already held, then after a disconnect or a lost connection
it gets nothing. Missing: repeated subscriptions. -/
theorem C24_disconnect_partial (h : List SubOp) (c : ClientId) (hn : NoRepeatBy c h) (t : String) (ht : PlainTopic t) (op : SubOp)
    (hop : op = .disconnected c ∨ op = .connectionLost c) : deliveries (repo (h ++ [op])) c t = 0 := by
  have hn' : NoRepeatBy c (h ++ [op]) := noRepeatBy_snoc hn fun s h => by rcases hop with rfl | rfl <;> cases h
  rw [C19_matching_standard _ c hn' t ht, current_append]
  have he : (Entries.current h).standard op = (Entries.current h).filter fun e => e.1 ≠ c := by rcases hop with rfl | rfl <;> rfl
  rw [he]
  unfold Entries.matching
  rw [List.countP_eq_zero]
  rintro ⟨c', f⟩ hf
  simp only [List.mem_filter, decide_eq_true_eq] at hf
  simp [hf.2]

/-- C22–C24. In general `d` disconnects take `d` copies of a subscription away. -/
theorem C24_disconnect_counts (h : List SubOp) (c : ClientId) (f : String) :
    (Entries.counted (h ++ [.disconnected c])).count (c, f) = (Entries.counted h).count (c, f) - 1 := by
  rw [counted_append, Entries.counting, Entries.count_dropAll]
  simp

example : PlainTopic "a" ∧ Matches (Subscription.mk "+" .atMostOnce).topic "a" :=
  ⟨by unfold PlainTopic; decide +kernel, ["+"], ["a"], (C69_levels _ _).mpr (by decide +kernel), (C69_levels _ _).mpr (by decide +kernel),
    .plus _ _ _ .done⟩
example : NoRepeatBy "c" [] := by intro pre s post he; simp at he
example : ((repo [.subscribe "c" ⟨"a", .atMostOnce⟩, .subscribe "c" ⟨"b", .atMostOnce⟩]).subscribedClients "a") = some ["c"] ∧
    ((repo [.subscribe "c" ⟨"a", .atMostOnce⟩, .subscribe "c" ⟨"b", .atMostOnce⟩, .unsubscribe "c" ["a"]]).subscribedClients "a") = some [] ∧
    ((repo [.subscribe "c" ⟨"a", .atMostOnce⟩, .subscribe "c" ⟨"b", .atMostOnce⟩, .unsubscribe "c" ["a"]]).subscribedClients "b") = some ["c"] ∧
    ((repo [.subscribe "c" ⟨"a", .atMostOnce⟩, .subscribe "c" ⟨"b", .atMostOnce⟩, .disconnected "c"]).subscribedClients "b") = some [] := by
  decide +kernel

/-! ### C25, C26, C27 -/

/-- C25. A request of one client leaves the deliveries to all others, on every topic, as they were, in number and order. -/
theorem C25_isolation (h : List SubOp) (op : SubOp) (t : String) :
    (((repo (h ++ [op])).subscribedClients t).getD []).filter (· ≠ op.client)
      = (((repo h).subscribedClients t).getD []).filter (· ≠ op.client) := by
  have : repo (h ++ [op]) = applyOp (repo h) op := by simp [repo]
  rw [this, subscribedClients_eq, subscribedClients_eq, Option.getD_some, Option.getD_some, List.filter_flatMap, List.filter_flatMap]
  congr 1
  funext p
  rw [clientsAt_applyOp, effect_others]

/-- C25. What a client gets depends on its own requests alone. -/
theorem C25_own_requests (h : List SubOp) (c : ClientId) (t : String) :
    deliveries (repo h) c t = deliveries (repo (h.filter fun op => op.client = c)) c t := by
  have hs : ∀ (h : List SubOp) (r r' : SubscriptionsRepository),
      (∀ p, (Node.clientsAt p r.root).count c = (Node.clientsAt p r'.root).count c) →
      ∀ p, (Node.clientsAt p (h.foldl applyOp r).root).count c
        = (Node.clientsAt p ((h.filter fun op => op.client = c).foldl applyOp r').root).count c := by
    intro h
    induction h with
    | nil => intro r r' hr; exact hr
    | cons op h ih =>
      intro r r' hr
      by_cases ho : op.client = c
      · simp only [List.filter_cons, ho, decide_true, ↓reduceIte, List.foldl_cons]
        refine ih _ _ fun p => ?_
        obtain ⟨g, hg, _⟩ := effect_count op p c
        rw [clientsAt_applyOp, clientsAt_applyOp, hg, hg, hr]
      · simp only [List.filter_cons, ho, decide_false, Bool.false_eq_true, ↓reduceIte, List.foldl_cons]
        refine ih _ _ fun p => ?_
        obtain ⟨g, hg, hid⟩ := effect_count op p c
        rw [clientsAt_applyOp, hg, hid ho, hr]
  have := hs h SubscriptionsRepository.new SubscriptionsRepository.new fun _ => rfl
  rw [deliveries_eq, deliveries_eq]
  congr 1
  apply List.map_congr_left
  intro p _
  exact this p

/-- C26. Two neighbouring requests of different clients may be swapped, anywhere in a history. -/
theorem C26_commute (h h' : List SubOp) (a b : SubOp) (hab : a.client ≠ b.client) (c : ClientId) (t : String) :
    deliveries (repo (h ++ a :: b :: h')) c t = deliveries (repo (h ++ b :: a :: h')) c t := by
  have : ∀ x y, repo (h ++ x :: y :: h') = h'.foldl applyOp (applyOp (applyOp (repo h) x) y) := by
    intro x y; simp [repo]
  rw [this, this]
  exact ((same_swap _ a b hab).foldl h').deliveries c t

/-- C27. Unsubscribing from filters the client is not subscribed to changes no list of receivers. -/
theorem C27_unknown_filter (h : List SubOp) (c : ClientId) (fs : List String) (hfs : ∀ f ∈ fs, (c, f) ∉ Entries.counted h) (t : String) :
    (repo (h ++ [.unsubscribe c fs])).subscribedClients t = (repo h).subscribedClients t := by
  have : repo (h ++ [.unsubscribe c fs]) = applyOp (repo h) (.unsubscribe c fs) := by simp [repo]
  rw [this, subscribedClients_eq, subscribedClients_eq]
  congr 2
  funext p
  rw [clientsAt_applyOp, effect]
  have hno : ∀ f ∈ fs, c ∉ Node.clientsAt (splitTopic f) (repo h).root := by
    intro f hf
    rw [← List.count_eq_zero, (holds_repo h).at_filter, List.count_eq_zero]
    exact hfs f hf
  clear hfs this
  induction fs with
  | nil => rfl
  | cons f fs ih =>
    rw [List.foldl_cons]
    have h1 := hno f List.mem_cons_self
    have : (if p = splitTopic f then (Node.clientsAt p (repo h).root).erase c else Node.clientsAt p (repo h).root)
        = Node.clientsAt p (repo h).root := by
      split
      · next hp => rw [hp, List.erase_of_not_mem h1]
      · rfl
    rw [this]
    exact ih fun f hf => hno f (List.mem_cons_of_mem _ hf)

/-- C27. A filter not currently subscribed to in the MQTT sense is not held by a client without repeated subscriptions. -/
theorem C27_unknown_filter_standard (h : List SubOp) (c : ClientId) (hn : NoRepeatBy c h) (f : String) (hf : (c, f) ∉ Entries.current h)
    (t : String) : (repo (h ++ [.unsubscribe c [f]])).subscribedClients t = (repo h).subscribedClients t := by
  apply C27_unknown_filter
  intro g hg
  rw [List.mem_singleton] at hg
  subst hg
  rw [← List.count_eq_zero, count_counted_eq c g h hn, List.count_eq_zero]
  exact hf

/-- C27. A client without subscriptions may disconnect without effect. -/
theorem C27_nothing_to_disconnect (h : List SubOp) (c : ClientId) (hc : ∀ f, (c, f) ∉ Entries.counted h) (op : SubOp)
    (hop : op = .disconnected c ∨ op = .connectionLost c) (t : String) :
    (repo (h ++ [op])).subscribedClients t = (repo h).subscribedClients t := by
  have : repo (h ++ [op]) = applyOp (repo h) op := by simp [repo]
  rw [this, subscribedClients_eq, subscribedClients_eq]
  congr 2
  funext p
  have he : effect op p (Node.clientsAt p (repo h).root) = (Node.clientsAt p (repo h).root).erase c := by
    rcases hop with rfl | rfl <;> rfl
  rw [clientsAt_applyOp, he]
  apply List.erase_of_not_mem
  by_cases hp : ∃ f, p = splitTopic f
  · obtain ⟨f, rfl⟩ := hp
    rw [← List.count_eq_zero, (holds_repo h).at_filter, List.count_eq_zero]
    exact hc f
  · rw [(holds_repo h).elsewhere p fun f hf => hp ⟨f, hf⟩]
    simp

example : (SubOp.subscribe "c" ⟨"a", .atMostOnce⟩).client ≠ (SubOp.disconnected "d").client := by decide +kernel
example : ∀ f ∈ ["b", "c"], ("c", f) ∉ Entries.counted [.subscribe "c" ⟨"a", .atMostOnce⟩, .subscribe "d" ⟨"b", .atMostOnce⟩] := by
  decide +kernel

end Ratel
