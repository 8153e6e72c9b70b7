/-
Subscription histories: the repository keeps, path by path, exactly the counted subscriptions.
-/
import Verif.Proofs.Topic

namespace Ratel

open Spec

/-- The repository operation for a request. -/
def applyOp (r : SubscriptionsRepository) : SubOp → SubscriptionsRepository
  | .subscribe c s => (r.subscribe c s).2
  | .unsubscribe c fs => r.unsubscribe c fs
  | .disconnected c => r.disconnected c
  | .connectionLost c => r.connectionsLost c

/-- The repository after a history. -/
def repo (h : List SubOp) : SubscriptionsRepository := h.foldl applyOp SubscriptionsRepository.new

/-- How often a message on topic `t` goes to client `c`. -/
def deliveries (r : SubscriptionsRepository) (c : ClientId) (t : String) : Nat := ((r.subscribedClients t).getD []).count c

/-- What a request does to the clients stored at a path. -/
def effect (op : SubOp) (p : List String) (l : List ClientId) : List ClientId :=
  match op with
  | .subscribe c s => if p = splitTopic s.topic then l ++ [c] else l
  | .unsubscribe c fs => fs.foldl (fun l f => if p = splitTopic f then l.erase c else l) l
  | .disconnected c => l.erase c
  | .connectionLost c => l.erase c

theorem clientsAt_unsubscribe (r : SubscriptionsRepository) (c : ClientId) (fs p : List String) :
    Node.clientsAt p (r.unsubscribe c fs).root
      = fs.foldl (fun l f => if p = splitTopic f then l.erase c else l) (Node.clientsAt p r.root) := by
  unfold SubscriptionsRepository.unsubscribe
  induction fs generalizing r with
  | nil => rfl
  | cons f fs ih =>
    simp only [List.foldl_cons]
    rw [ih, Node.clientsAt_modifyAt]

theorem clientsAt_applyOp (r : SubscriptionsRepository) (op : SubOp) (p : List String) :
    Node.clientsAt p (applyOp r op).root = effect op p (Node.clientsAt p r.root) := by
  cases op with
  | subscribe c s => exact Node.clientsAt_modifyAt _ _ _ _
  | unsubscribe c fs => exact clientsAt_unsubscribe r c fs p
  | disconnected c => exact Node.clientsAt_removeClient _ _ _
  | connectionLost c => exact Node.clientsAt_removeClient _ _ _

theorem nodup_eraseDups {α : Type} [BEq α] [LawfulBEq α] (l : List α) : l.eraseDups.Nodup := by
  match l with
  | [] => simp
  | a :: as =>
    rw [List.eraseDups_cons, List.nodup_cons]
    refine ⟨?_, nodup_eraseDups _⟩
    rw [List.mem_eraseDups, List.mem_filter]
    simp
termination_by l.length
decreasing_by
  have := List.length_filter_le (fun b => !b == a) as
  simp only [List.length_cons]
  omega

namespace Spec.Entries

theorem count_unsubscribe (c c' : ClientId) (f : String) (fs : List String) (es : Entries) :
    (es.unsubscribe c' fs).count (c, f) = es.count (c, f) - (if c = c' then fs.count f else 0) := by
  unfold unsubscribe
  induction fs generalizing es with
  | nil => simp
  | cons g fs ih =>
    rw [List.foldl_cons, ih, List.count_erase]
    by_cases hc : c = c'
    · subst hc
      by_cases hg : g = f
      · subst hg; simp; omega
      · simp [hg]
    · simp [hc, Ne.symm hc]

theorem count_filtersOf (c : ClientId) (f : String) (es : Entries) :
    (es.filtersOf c).count f = if (c, f) ∈ es then 1 else 0 := by
  unfold filtersOf
  rw [(nodup_eraseDups _).count]
  have : f ∈ ((es.filter fun e => e.1 = c).map Prod.snd).eraseDups ↔ (c, f) ∈ es := by
    rw [List.mem_eraseDups, List.mem_map]
    constructor
    · rintro ⟨⟨c', f'⟩, h, rfl⟩
      simp only [List.mem_filter, decide_eq_true_eq] at h
      obtain ⟨h, rfl⟩ := h
      exact h
    · intro h
      exact ⟨(c, f), by simp [h], rfl⟩
  simp only [this]

theorem count_dropAll (c c' : ClientId) (f : String) (es : Entries) :
    (es.unsubscribe c' (es.filtersOf c')).count (c, f) = es.count (c, f) - (if c = c' then 1 else 0) := by
  rw [count_unsubscribe, count_filtersOf]
  by_cases hc : c = c'
  · subst hc
    by_cases h : (c, f) ∈ es
    · simp [h]
    · have := List.count_eq_zero.mpr h
      simp [h, this]
  · simp [hc]

end Spec.Entries

/-- The repository holds exactly the given subscriptions. -/
structure Holds (r : SubscriptionsRepository) (es : Entries) : Prop where
  at_filter : ∀ f c, (Node.clientsAt (splitTopic f) r.root).count c = es.count (c, f)
  elsewhere : ∀ p, (∀ f, p ≠ splitTopic f) → Node.clientsAt p r.root = []

theorem effect_elsewhere (op : SubOp) (p : List String) (hp : ∀ f, p ≠ splitTopic f) : effect op p [] = [] := by
  cases op with
  | subscribe c s => simp [effect, hp]
  | unsubscribe c fs =>
    simp only [effect]
    induction fs with
    | nil => rfl
    | cons f fs ih => rw [List.foldl_cons, if_neg (hp f)]; exact ih
  | disconnected c => rfl
  | connectionLost c => rfl

theorem count_unsubEffect (c c' : ClientId) (f : String) (fs : List String) (l : List ClientId) :
    (fs.foldl (fun l g => if splitTopic f = splitTopic g then l.erase c' else l) l).count c
      = l.count c - (if c = c' then fs.count f else 0) := by
  induction fs generalizing l with
  | nil => simp
  | cons g fs ih =>
    rw [List.foldl_cons, ih]
    by_cases hg : splitTopic f = splitTopic g
    · have := splitTopic_injective hg
      subst this
      by_cases hc : c = c'
      · subst hc; simp; omega
      · simp [hc, Ne.symm hc]
    · have hfg : g ≠ f := fun h => hg (by rw [h])
      simp [hg, hfg]

theorem Holds.step {r : SubscriptionsRepository} {es : Entries} (h : Holds r es) (op : SubOp) :
    Holds (applyOp r op) (es.counting op) where
  at_filter := by
    intro f c
    rw [clientsAt_applyOp]
    have h0 := h.at_filter f c
    cases op with
    | subscribe c' s =>
      simp only [effect, Entries.counting, List.count_append]
      by_cases hf : splitTopic f = splitTopic s.topic
      · have := splitTopic_injective hf
        subst this
        by_cases hc : c' = c
        · subst hc; simp [h0]
        · simp [h0, hc]
      · have hfg : s.topic ≠ f := fun h => hf (by rw [h])
        simp [hf, h0, hfg]
    | unsubscribe c' fs => simp only [effect, Entries.counting, count_unsubEffect, Entries.count_unsubscribe, h0]
    | disconnected c' =>
      simp only [effect, Entries.counting, Entries.count_dropAll, List.count_erase, h0]
      simp only [beq_iff_eq, eq_comm (a := c)]
    | connectionLost c' =>
      simp only [effect, Entries.counting, Entries.count_dropAll, List.count_erase, h0]
      simp only [beq_iff_eq, eq_comm (a := c)]
  elsewhere := by
    intro p hp
    rw [clientsAt_applyOp, h.elsewhere p hp, effect_elsewhere op p hp]

theorem holds_new : Holds SubscriptionsRepository.new [] where
  at_filter := by intro f c; simp [SubscriptionsRepository.new, Node.clientsAt_new]
  elsewhere := by intro p _; exact Node.clientsAt_new p

theorem Holds.foldl {r : SubscriptionsRepository} {es : Entries} (hr : Holds r es) (h : List SubOp) :
    Holds (h.foldl applyOp r) (h.foldl Entries.counting es) := by
  induction h generalizing r es with
  | nil => exact hr
  | cons op h ih => exact ih (hr.step op)

theorem holds_repo (h : List SubOp) : Holds (repo h) (Entries.counted h) := holds_new.foldl h

theorem deliveries_eq (r : SubscriptionsRepository) (c : ClientId) (t : String) :
    deliveries r c t = ((matchingPaths (splitTopic t)).map fun p => (Node.clientsAt p r.root).count c).sum := by
  unfold deliveries
  rw [subscribedClients_eq, Option.getD_some, List.count_flatMap]
  have h := walkPaths_perm (splitTopic t) [[]]
  simp only [List.flatMap_cons, List.flatMap_nil, List.append_nil, List.nil_append, List.map_id'] at h
  exact (h.map _).sum_nat

theorem levelsOf_eq (s : String) : levelsOf s = splitTopic s := by
  have h : ∃ ls, Levels s ls := ⟨_, levels_splitTopic s⟩
  unfold levelsOf
  rw [dif_pos h]
  exact levels_unique h.choose_spec

theorem count_matchingPaths (fs ts : List String) : (matchingPaths ts).count fs = levelWays fs ts := by
  induction ts generalizing fs with
  | nil =>
    cases fs with
    | nil => rfl
    | cons f fs => simp [matchingPaths, levelWays]
  | cons t ts ih =>
    have hc : ∀ (x : String) (f : String) (fs : List String),
        ((matchingPaths ts).map (x :: ·)).count (f :: fs) = if f = x then (matchingPaths ts).count fs else 0 := by
      intro x f fs
      by_cases h : f = x
      · subst h
        rw [if_pos rfl, List.count, List.count, List.countP_map]
        apply List.countP_congr
        intro a _
        simp
      · rw [if_neg h, List.count_eq_zero]
        simp only [List.mem_map, List.cons.injEq, not_exists, not_and]
        exact fun _ _ h' _ => h h'.symm
    have hn : ∀ x : String, ((matchingPaths ts).map (x :: ·)).count [] = 0 := by
      intro x
      rw [List.count_eq_zero]
      simp
    cases fs with
    | nil => simp [matchingPaths, levelWays, hn]
    | cons f fs =>
      rw [matchingPaths, List.count_cons, List.count_append, hc, hc, ih, levelWays]
      have : (["#"] == f :: fs) = decide (f = "#" ∧ fs = []) := by
        rw [Bool.eq_iff_iff, beq_iff_eq, decide_eq_true_eq, List.cons.injEq]
        exact ⟨fun ⟨a, b⟩ => ⟨a.symm, b.symm⟩, fun ⟨a, b⟩ => ⟨a.symm, b.symm⟩⟩
      rw [this]
      simp only [decide_eq_true_eq]
      omega

theorem Holds.at_path {r : SubscriptionsRepository} {es : Entries} (h : Holds r es) (c : ClientId) (p : List String) :
    (Node.clientsAt p r.root).count c = es.countP fun e => decide (e.1 = c ∧ splitTopic e.2 = p) := by
  by_cases hf : ∃ f, p = splitTopic f
  · obtain ⟨f, rfl⟩ := hf
    rw [h.at_filter, List.count]
    apply List.countP_congr
    rintro ⟨c', f'⟩ _
    simp only [beq_iff_eq, decide_eq_true_eq, Prod.mk.injEq]
    exact ⟨fun ⟨h1, h2⟩ => ⟨h1, by rw [h2]⟩, fun ⟨h1, h2⟩ => ⟨h1, splitTopic_injective h2⟩⟩
  · rw [h.elsewhere p fun f hf' => hf ⟨f, hf'⟩]
    symm
    rw [List.count_nil, List.countP_eq_zero]
    rintro ⟨c', f'⟩ _
    simp only [decide_eq_true_eq, not_and]
    exact fun _ h2 => hf ⟨f', h2.symm⟩

theorem sum_map_add {α : Type} (f g : α → Nat) (l : List α) :
    (l.map fun a => f a + g a).sum = (l.map f).sum + (l.map g).sum := by
  induction l with
  | nil => rfl
  | cons a l ih => simp only [List.map_cons, List.sum_cons, ih]; omega

theorem sum_map_zero {α : Type} (l : List α) : (l.map fun _ => 0).sum = 0 := by
  induction l with
  | nil => rfl
  | cons a l ih => simpa using ih

theorem sum_indicator (L : List (List String)) (q : List String) :
    (L.map fun p => if q = p then 1 else 0).sum = L.count q := by
  induction L with
  | nil => rfl
  | cons p L ih =>
    rw [List.map_cons, List.sum_cons, ih, List.count_cons]
    by_cases h : q = p
    · subst h; simp; omega
    · simp [h, Ne.symm h]

theorem deliveries_copies {r : SubscriptionsRepository} {es : Entries} (h : Holds r es) (c : ClientId) (t : String) :
    deliveries r c t = es.copies c t := by
  rw [deliveries_eq]
  simp only [h.at_path c]
  unfold Entries.copies ways
  simp only [levelsOf_eq, ← count_matchingPaths]
  generalize matchingPaths (splitTopic t) = L
  clear h
  induction es with
  | nil => simp [sum_map_zero]
  | cons e es ih =>
    simp only [List.countP_cons]
    rw [sum_map_add, ih, List.filter_cons]
    by_cases hc : e.1 = c
    · simp only [hc, true_and, decide_eq_true_eq, decide_true, ↓reduceIte, List.map_cons, List.sum_cons, sum_indicator]
      omega
    · simp [hc, sum_map_zero]

theorem levelWays_pos {fs ts : List String} : 0 < levelWays fs ts ↔ LevelsMatch fs ts := by
  rw [← count_matchingPaths, List.count_pos_iff, matchingPaths_iff]

theorem ways_pos {f t : String} : 0 < ways f t ↔ Matches f t := by
  rw [ways, levelWays_pos, matches_iff, levelsOf_eq, levelsOf_eq]

theorem ways_plain {f t : String} (ht : PlainTopic t) : ways f t ≤ 1 := by
  rw [ways, levelsOf_eq, levelsOf_eq, ← count_matchingPaths, (matchingPaths_nodup (plain_levels ht)).count]
  split <;> omega

theorem copies_plain (es : Entries) (c : ClientId) {t : String} (ht : PlainTopic t) : es.copies c t = es.matching c t := by
  unfold Entries.copies Entries.matching
  induction es with
  | nil => rfl
  | cons e es ih =>
    rw [List.countP_cons, List.filter_cons, ← ih]
    by_cases hc : e.1 = c
    · have hp := ways_plain (f := e.2) ht
      simp only [hc, decide_true, ↓reduceIte, List.map_cons, List.sum_cons, true_and, decide_eq_true_eq, ← ways_pos]
      by_cases hw : 0 < ways e.2 t <;> simp only [hw, ↓reduceIte] <;> omega
    · simp [hc]

theorem deliveries_holds {r : SubscriptionsRepository} {es : Entries} (h : Holds r es) (c : ClientId) {t : String}
    (ht : PlainTopic t) : deliveries r c t = es.matching c t := by
  rw [deliveries_copies h, copies_plain es c ht]

/-! ### Two repositories no client can tell apart -/

/-- The same clients, equally often, at every path. -/
def Same (r r' : SubscriptionsRepository) : Prop :=
  ∀ p c, (Node.clientsAt p r.root).count c = (Node.clientsAt p r'.root).count c

theorem Same.deliveries {r r' : SubscriptionsRepository} (h : Same r r') (c : ClientId) (t : String) :
    deliveries r c t = deliveries r' c t := by
  rw [deliveries_eq, deliveries_eq]
  simp only [h _ c]

/-- What a request does to one client's count depends on that count only. -/
theorem effect_count (op : SubOp) (p : List String) (c : ClientId) :
    ∃ g : Nat → Nat, (∀ l, (effect op p l).count c = g (l.count c)) ∧ (op.client ≠ c → ∀ n, g n = n) := by
  cases op with
  | subscribe c' s =>
    refine ⟨fun n => n + (if p = splitTopic s.topic ∧ c' = c then 1 else 0), fun l => ?_, fun hc n => ?_⟩
    · simp only [effect]
      by_cases hp : p = splitTopic s.topic <;> by_cases hc : c' = c <;> simp [hp, hc]
    · simp only [SubOp.client] at hc
      simp [hc]
  | unsubscribe c' fs =>
    refine ⟨fun n => n - (if c' = c then fs.countP fun f => decide (p = splitTopic f) else 0), fun l => ?_, fun hc n => ?_⟩
    · simp only [effect]
      induction fs generalizing l with
      | nil => simp
      | cons f fs ih =>
        rw [List.foldl_cons, ih]
        by_cases hp : p = splitTopic f <;> by_cases hc : c' = c <;> simp [hp, hc, List.count_erase] <;> omega
    · simp only [SubOp.client] at hc
      simp [hc]
  | disconnected c' =>
    refine ⟨fun n => n - (if c' = c then 1 else 0), fun l => ?_, fun hc n => ?_⟩
    · simp [effect, List.count_erase]
    · simp only [SubOp.client] at hc
      simp [hc]
  | connectionLost c' =>
    refine ⟨fun n => n - (if c' = c then 1 else 0), fun l => ?_, fun hc n => ?_⟩
    · simp [effect, List.count_erase]
    · simp only [SubOp.client] at hc
      simp [hc]

theorem Same.step {r r' : SubscriptionsRepository} (h : Same r r') (op : SubOp) : Same (applyOp r op) (applyOp r' op) := by
  intro p c
  obtain ⟨g, hg, _⟩ := effect_count op p c
  rw [clientsAt_applyOp, clientsAt_applyOp, hg, hg, h p c]

theorem Same.foldl {r r' : SubscriptionsRepository} (h : Same r r') (ops : List SubOp) :
    Same (ops.foldl applyOp r) (ops.foldl applyOp r') := by
  induction ops generalizing r r' with
  | nil => exact h
  | cons op ops ih => exact ih (h.step op)

theorem same_swap (r : SubscriptionsRepository) (a b : SubOp) (hab : a.client ≠ b.client) :
    Same (applyOp (applyOp r a) b) (applyOp (applyOp r b) a) := by
  intro p c
  obtain ⟨ga, hga, ha⟩ := effect_count a p c
  obtain ⟨gb, hgb, hb⟩ := effect_count b p c
  simp only [clientsAt_applyOp, hga, hgb]
  by_cases h : a.client = c
  · have : b.client ≠ c := fun h' => hab (h.trans h'.symm)
    simp [hb this]
  · simp [ha h]

/-- Removing the client of a request from the lists, the request did nothing. -/
theorem effect_others (op : SubOp) (p : List String) (l : List ClientId) :
    (effect op p l).filter (· ≠ op.client) = l.filter (· ≠ op.client) := by
  have herase : ∀ (c : ClientId) (l : List ClientId), (l.erase c).filter (· ≠ c) = l.filter (· ≠ c) := by
    intro c l
    induction l with
    | nil => rfl
    | cons x l ih =>
      rw [List.erase_cons]
      by_cases hx : x = c
      · simp [hx]
      · simp only [beq_iff_eq, hx, ↓reduceIte]
        simp only [List.filter_cons, ih]
  cases op with
  | subscribe c s =>
    simp only [effect, SubOp.client]
    by_cases hp : p = splitTopic s.topic
    · simp [hp]
    · simp [hp]
  | unsubscribe c fs =>
    show (fs.foldl (fun l f => if p = splitTopic f then l.erase c else l) l).filter (· ≠ c) = l.filter (· ≠ c)
    induction fs generalizing l with
    | nil => rfl
    | cons f fs ih =>
      rw [List.foldl_cons, ih]
      by_cases hp : p = splitTopic f
      · simp only [hp, ↓reduceIte]; exact herase c l
      · simp only [hp, ↓reduceIte]
  | disconnected c => exact herase c l
  | connectionLost c => exact herase c l

/-! ### Without repeated subscriptions, counting is standard -/

theorem standard_nodup (es : Entries) (h : es.Nodup) (op : SubOp) : (es.standard op).Nodup := by
  cases op with
  | subscribe c s =>
    simp only [Entries.standard]
    split
    · exact h
    · rename_i hn
      rw [List.nodup_append]
      refine ⟨h, by simp, ?_⟩
      rintro a ha b hb rfl
      simp only [List.mem_singleton] at hb
      exact hn (hb ▸ ha)
  | unsubscribe c fs => exact h.filter _
  | disconnected c => exact h.filter _
  | connectionLost c => exact h.filter _

theorem current_nodup (h : List SubOp) : (Entries.current h).Nodup := by
  have : ∀ es : Entries, es.Nodup → (h.foldl Entries.standard es).Nodup := by
    induction h with
    | nil => exact fun _ h => h
    | cons op h ih => exact fun es hes => ih _ (standard_nodup es hes op)
  exact this [] List.nodup_nil

theorem current_append (h : List SubOp) (op : SubOp) : Entries.current (h ++ [op]) = (Entries.current h).standard op := by
  simp [Entries.current]

theorem counted_append (h : List SubOp) (op : SubOp) : Entries.counted (h ++ [op]) = (Entries.counted h).counting op := by
  simp [Entries.counted]

theorem noRepeatBy_init {c : ClientId} {h : List SubOp} {op : SubOp} (hn : NoRepeatBy c (h ++ [op])) : NoRepeatBy c h := by
  intro pre s post he
  exact hn pre s (post ++ [op]) (by rw [he]; simp)

theorem noRepeatBy_snoc {c : ClientId} {h : List SubOp} {op : SubOp} (hn : NoRepeatBy c h)
    (hop : ∀ s, op = .subscribe c s → (c, s.topic) ∉ Entries.current h) : NoRepeatBy c (h ++ [op]) := by
  intro pre s post he
  rcases List.append_eq_append_iff.mp he with ⟨l, h1, h2⟩ | ⟨l, h1, h2⟩
  · cases l with
    | nil =>
      simp only [List.nil_append, List.cons.injEq] at h2
      rw [h1, List.append_nil]
      exact hop s h2.1
    | cons x l => simp at h2
  · cases l with
    | nil =>
      simp only [List.nil_append, List.cons.injEq] at h2
      rw [List.append_nil] at h1
      rw [← h1]
      exact hop s h2.1.symm
    | cons x l =>
      simp only [List.cons_append, List.cons.injEq] at h2
      obtain ⟨rfl, _⟩ := h2
      exact hn pre s l h1

theorem count_filter_pos {α : Type} [BEq α] [LawfulBEq α] (l : List α) (p : α → Bool) (a : α) :
    (l.filter p).count a = if p a then l.count a else 0 := by
  by_cases h : p a = true
  · simp [h]
  · simp only [h, Bool.false_eq_true, ↓reduceIte, List.count_eq_zero, List.mem_filter, and_false, not_false_eq_true]

theorem count_counted_eq (c : ClientId) (f : String) (h : List SubOp) (hn : NoRepeatBy c h) :
    (Entries.counted h).count (c, f) = (Entries.current h).count (c, f) := by
  match hl : h.length with
  | 0 => rw [List.eq_nil_of_length_eq_zero hl]; rfl
  | k + 1 =>
    obtain ⟨h', op, rfl⟩ : ∃ h' op, h = h' ++ [op] := by
      have hne : h ≠ [] := by intro hc; simp [hc] at hl
      exact ⟨h.dropLast, h.getLast hne, (List.dropLast_concat_getLast hne).symm⟩
    have ih := count_counted_eq c f h' (noRepeatBy_init hn)
    have hd := (current_nodup h').count (a := (c, f))
    have hle : (Entries.current h').count (c, f) ≤ 1 := by rw [hd]; split <;> omega
    rw [current_append, counted_append]
    cases op with
    | subscribe c' s =>
      simp only [Entries.counting, Entries.standard, List.count_append, ih]
      by_cases hc : c' = c
      · subst hc
        have := hn h' s [] rfl
        simp [this]
      · by_cases hm : (c', s.topic) ∈ Entries.current h'
        · simp [hm, hc]
        · simp [hm, hc]
    | unsubscribe c' fs =>
      simp only [Entries.counting, Entries.standard, Entries.count_unsubscribe, count_filter_pos, ih]
      by_cases hc : c = c'
      · by_cases hf : f ∈ fs
        · have := List.count_pos_iff.mpr hf
          simp [hc, hf]
          rw [← hc]
          omega
        · simp [hc, hf, List.count_eq_zero.mpr hf]
      · simp [hc]
    | disconnected c' =>
      simp only [Entries.counting, Entries.standard, Entries.count_dropAll, count_filter_pos, ih]
      by_cases hc : c = c'
      · subst hc
        simp
        omega
      · simp [hc]
    | connectionLost c' =>
      simp only [Entries.counting, Entries.standard, Entries.count_dropAll, count_filter_pos, ih]
      by_cases hc : c = c'
      · subst hc
        simp
        omega
      · simp [hc]
termination_by h.length
decreasing_by simp at *; omega

theorem matching_congr {es es' : Entries} {c : ClientId} (h : ∀ f, es.count (c, f) = es'.count (c, f)) (t : String) :
    es.matching c t = es'.matching c t := by
  have hp : List.Perm (es.filter fun e => e.1 = c) (es'.filter fun e => e.1 = c) := by
    rw [List.perm_iff_count]
    rintro ⟨c', f⟩
    rw [count_filter_pos, count_filter_pos]
    by_cases hc : c' = c
    · subst hc; simp [h]
    · simp [hc]
  have hm : ∀ es : Entries, es.matching c t = Entries.matching (es.filter fun e => e.1 = c) c t := by
    intro es
    unfold Entries.matching
    rw [List.countP_filter]
    apply List.countP_congr
    rintro ⟨c', f⟩ _
    simp only [decide_eq_true_eq, Bool.and_eq_true]
    exact ⟨fun h => ⟨h, h.1⟩, fun h => h.1⟩
  rw [hm es, hm es']
  exact hp.countP_eq _

end Ratel
