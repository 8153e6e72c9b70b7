/-
Splitting topics; the trie seen as a function from paths to clients; walking it.
-/
import Verif.Model.Subscriptions
import Verif.Spec.Topic

namespace Ratel

open Spec

/-! ### Splitting -/

theorem splitSlashChars_ne_nil (cs : List Char) : splitSlashChars cs ≠ [] := by
  cases cs with
  | nil => simp [splitSlashChars]
  | cons c cs =>
    unfold splitSlashChars
    split
    · simp
    · split <;> simp

theorem splitSlashChars_noSlash (cs : List Char) : ∀ l ∈ splitSlashChars cs, '/' ∉ l := by
  induction cs with
  | nil => simp [splitSlashChars]
  | cons c cs ih =>
    unfold splitSlashChars
    split
    · simpa using ih
    · rename_i hc
      split
      · intro l hl
        simp only [List.mem_singleton] at hl
        subst hl
        simpa using Ne.symm hc
      · rename_i p ps he
        rw [he] at ih
        intro l hl
        simp only [List.mem_cons] at hl
        rcases hl with rfl | hl
        · simp only [List.mem_cons, not_or]
          exact ⟨Ne.symm hc, ih p List.mem_cons_self⟩
        · exact ih l (List.mem_cons_of_mem _ hl)

theorem joinLevels_cons_cons (c : Char) (p : List Char) (ps : List (List Char)) :
    joinLevels ((c :: p) :: ps) = c :: joinLevels (p :: ps) := by
  cases ps <;> rfl

theorem joinLevels_splitSlashChars (cs : List Char) : joinLevels (splitSlashChars cs) = cs := by
  induction cs with
  | nil => rfl
  | cons c cs ih =>
    unfold splitSlashChars
    split
    · rename_i hc
      subst hc
      cases hs : splitSlashChars cs with
      | nil => exact absurd hs (splitSlashChars_ne_nil cs)
      | cons p ps => rw [hs] at ih; simp [joinLevels, ih]
    · split
      · rename_i he
        exact absurd he (splitSlashChars_ne_nil cs)
      · rename_i p ps he
        rw [he] at ih
        rw [joinLevels_cons_cons, ih]

theorem splitSlashChars_joinLevels (ls : List (List Char)) (h0 : ls ≠ []) (hs : ∀ l ∈ ls, '/' ∉ l) :
    splitSlashChars (joinLevels ls) = ls := by
  have word : ∀ (l : List Char) (r : List Char), '/' ∉ l → splitSlashChars (l ++ '/' :: r) = l :: splitSlashChars r := by
    intro l r hl
    induction l with
    | nil => simp [splitSlashChars]
    | cons c l ih =>
      simp only [List.mem_cons, not_or] at hl
      rw [List.cons_append, splitSlashChars, if_neg (Ne.symm hl.1), ih hl.2]
  have last : ∀ l : List Char, '/' ∉ l → splitSlashChars l = [l] := by
    intro l hl
    induction l with
    | nil => rfl
    | cons c l ih =>
      simp only [List.mem_cons, not_or] at hl
      rw [splitSlashChars, if_neg (Ne.symm hl.1), ih hl.2]
  induction ls with
  | nil => exact absurd rfl h0
  | cons l ls ih =>
    cases ls with
    | nil => exact last l (hs l List.mem_cons_self)
    | cons l' ls =>
      rw [joinLevels, word _ _ (hs l List.mem_cons_self), ih (by simp) fun x hx => hs x (List.mem_cons_of_mem _ hx)]
      simp

theorem levels_splitTopic (t : String) : Levels t (splitTopic t) where
  some := by simp [splitTopic, splitSlashChars_ne_nil]
  noSlash := by
    intro l hl
    simp only [splitTopic, List.mem_map] at hl
    obtain ⟨l', hl', rfl⟩ := hl
    simpa using splitSlashChars_noSlash _ l' hl'
  join := by
    have : (splitTopic t).map String.toList = splitSlashChars t.toList := by
      simp [splitTopic, Function.comp_def]
    rw [this, joinLevels_splitSlashChars]

theorem levels_unique {t : String} {ls : List String} (h : Levels t ls) : ls = splitTopic t := by
  have h1 : splitSlashChars t.toList = ls.map String.toList := by
    rw [← h.join]
    apply splitSlashChars_joinLevels
    · simpa using h.some
    · intro l hl
      simp only [List.mem_map] at hl
      obtain ⟨l', hl', rfl⟩ := hl
      exact h.noSlash l' hl'
  rw [splitTopic, h1]
  simp [Function.comp_def]

theorem splitTopic_injective {t u : String} (h : splitTopic t = splitTopic u) : t = u := by
  have h1 := (levels_splitTopic t).join
  have h2 := (levels_splitTopic u).join
  rw [h] at h1
  exact String.toList_inj.mp (h1.symm.trans h2)

theorem matches_iff {f t : String} : Matches f t ↔ LevelsMatch (splitTopic f) (splitTopic t) := by
  constructor
  · rintro ⟨fs, ts, h1, h2, h3⟩
    rw [levels_unique h1, levels_unique h2] at h3
    exact h3
  · exact fun h => ⟨_, _, levels_splitTopic f, levels_splitTopic t, h⟩

theorem plain_levels {t : String} (h : PlainTopic t) : ∀ l ∈ splitTopic t, l ≠ "+" ∧ l ≠ "#" := by
  have key : ∀ (ls : List (List Char)) (l : List Char), l ∈ ls → ∀ c ∈ l, c ∈ joinLevels ls := by
    intro ls
    induction ls with
    | nil => simp
    | cons l' ls ih =>
      intro l hl c hc
      cases ls with
      | nil => simp at hl; subst hl; simpa [joinLevels] using hc
      | cons l'' ls =>
        rw [joinLevels]
        · simp only [List.mem_cons] at hl
          rcases hl with rfl | hl
          · exact List.mem_append_left _ hc
          · exact List.mem_append_right _ (List.mem_cons_of_mem _ (ih l (by simpa using hl) c hc))
        · simp
  intro l hl
  have hj := (levels_splitTopic t).join
  have hm : ∀ c ∈ l.toList, c ∈ t.toList := by
    intro c hc
    rw [← hj]
    exact key _ _ (List.mem_map_of_mem hl) c hc
  refine ⟨?_, ?_⟩ <;> rintro rfl
  · exact h.1 (hm '+' (by decide +kernel))
  · exact h.2 (hm '#' (by decide +kernel))

/-! ### The trie -/

namespace AssocMap

variable {V : Type}

theorem get?_upsert (d : V) (f : V → V) (m : AssocMap V) (k k' : String) :
    (upsert d f m k).get? k' = if k' = k then some (f ((m.get? k).getD d)) else m.get? k' := by
  induction m with
  | nil =>
    by_cases h : k' = k
    · subst h; simp [upsert, get?]
    · simp [upsert, get?, h, Ne.symm h]
  | cons e r ih =>
    rcases e with ⟨k₀, v⟩
    by_cases h0 : k₀ = k
    · subst h0
      by_cases h : k' = k₀
      · subst h; simp [upsert, get?]
      · simp [upsert, get?, h, Ne.symm h]
    · by_cases h : k' = k
      · subst h; simp [upsert, get?, h0, ih]
      · by_cases h' : k₀ = k'
        · subst h'; simp [upsert, get?, h0]
        · simp [upsert, get?, h0, h', ih, h]

theorem get?_insert (m : AssocMap V) (k k' : String) (v : V) :
    (m.insert k v).get? k' = if k' = k then some v else m.get? k' := by
  induction m with
  | nil =>
    by_cases h : k' = k
    · subst h; simp [insert, get?]
    · simp [insert, get?, h, Ne.symm h]
  | cons e r ih =>
    rcases e with ⟨k₀, v₀⟩
    by_cases h0 : k₀ = k
    · subst h0
      by_cases h : k' = k₀
      · subst h; simp [insert, get?]
      · simp [insert, get?, h, Ne.symm h]
    · by_cases h : k' = k
      · subst h; simp [insert, get?, h0, ih]
      · by_cases h' : k₀ = k'
        · subst h'; simp [insert, get?, h0]
        · simp [insert, get?, h0, h', ih, h]

theorem get?_erase (m : AssocMap V) (k k' : String) : (m.erase k).get? k' = if k' = k then none else m.get? k' := by
  induction m with
  | nil => simp [erase, get?]
  | cons e r ih =>
    rcases e with ⟨k₀, v₀⟩
    by_cases h0 : k₀ = k
    · subst h0
      by_cases h : k' = k₀
      · subst h; simp [erase, ih]
      · simp [erase, get?, h, ih, Ne.symm h]
    · by_cases h : k' = k
      · subst h; simp [erase, get?, h0, ih]
      · by_cases h' : k₀ = k'
        · subst h'; simp [erase, get?, h0]
        · simp [erase, get?, h0, h', ih, h]

end AssocMap

namespace Node

/-- The node reached by a path. -/
def at? : List String → Node → Option Node
  | [], n => some n
  | s :: p, n => (n.children.get? s).bind (at? p)

/-- The clients stored at a path. -/
def clientsAt (p : List String) (n : Node) : List ClientId := ((at? p n).map clients).getD []

theorem clientsAt_nil (n : Node) : clientsAt [] n = n.clients := rfl

theorem clientsAt_cons (s : String) (p : List String) (n : Node) :
    clientsAt (s :: p) n = match n.children.get? s with
      | some m => clientsAt p m
      | none => [] := by
  unfold clientsAt
  rw [at?]
  cases n.children.get? s <;> rfl

theorem clientsAt_new (p : List String) : clientsAt p new = [] := by
  cases p with
  | nil => rfl
  | cons s p => rw [clientsAt_cons]; rfl

theorem clientsAt_modifyAt (p q : List String) (f : List ClientId → List ClientId) (n : Node) :
    clientsAt q (modifyAt p f n) = if q = p then f (clientsAt q n) else clientsAt q n := by
  induction p generalizing q n with
  | nil =>
    rcases n with ⟨ch, cl⟩
    cases q with
    | nil => rfl
    | cons s q => simp [clientsAt_cons, modifyAt, children]
  | cons s p ih =>
    rcases n with ⟨ch, cl⟩
    cases q with
    | nil => rfl
    | cons s' q =>
      simp only [clientsAt_cons, modifyAt, children, AssocMap.get?_upsert]
      by_cases hs : s' = s
      · subst hs
        simp only [↓reduceIte, List.cons.injEq, true_and, ih]
        cases AssocMap.get? ch s' with
        | none => simp [clientsAt_new]
        | some m => simp
      · simp [hs]

theorem get?_removeClientChildren (c : ClientId) (ch : List (String × Node)) (s : String) :
    AssocMap.get? (removeClientChildren c ch) s = (AssocMap.get? ch s).map (removeClient c) := by
  induction ch with
  | nil => rfl
  | cons e r ih =>
    rcases e with ⟨k, m⟩
    by_cases h : k = s
    · simp [removeClientChildren, AssocMap.get?, h]
    · simp [removeClientChildren, AssocMap.get?, h, ih]

theorem clientsAt_removeClient (c : ClientId) (p : List String) (n : Node) :
    clientsAt p (removeClient c n) = (clientsAt p n).erase c := by
  induction p generalizing n with
  | nil => rcases n with ⟨ch, cl⟩; simp [clientsAt_nil, removeClient, clients]
  | cons s p ih =>
    rcases n with ⟨ch, cl⟩
    simp only [clientsAt_cons, removeClient, children, get?_removeClientChildren]
    cases AssocMap.get? ch s with
    | none => rfl
    | some m => exact ih m

theorem at?_append (p : List String) (s : String) (n : Node) :
    at? (p ++ [s]) n = (at? p n).bind fun m => m.children.get? s := by
  induction p generalizing n with
  | nil => simp [at?]
  | cons s' p ih =>
    simp only [List.cons_append, at?]
    cases n.children.get? s' with
    | none => rfl
    | some m => exact ih m

end Node

/-! ### Walking -/

/-- The paths one level further down that a topic level leads to. -/
def nextPaths (t : String) (ps : List (List String)) : List (List String) := ps.flatMap fun p => [p ++ [t], p ++ ["+"]]

/-- The paths at which the walk ends. -/
def finalPaths : List String → List (List String) → List (List String)
  | [], ps => ps
  | t :: ts, ps => finalPaths ts (nextPaths t ps)

/-- The '#' paths the walk passes. -/
def hashPaths : List String → List (List String) → List (List String)
  | [], _ => []
  | t :: ts, ps => ps.map (· ++ ["#"]) ++ hashPaths ts (nextPaths t ps)

/-- All paths the walk for a topic looks at, in the order in which it collects their clients. It does not depend on the tree. -/
def walkPaths (ts : List String) : List (List String) := hashPaths ts [[]] ++ finalPaths ts [[]]

theorem flatMap_filterMap' {α β γ : Type} (f : α → Option β) (g : β → List γ) (l : List α) :
    (l.filterMap f).flatMap g = l.flatMap fun a => ((f a).map g).getD [] := by
  induction l with
  | nil => rfl
  | cons a l ih => simp only [List.filterMap_cons, List.flatMap_cons]; cases f a <;> simp [ih]

theorem walk_eq (root : Node) (ts : List String) (ps : List (List String)) (acc : List ClientId) :
    SubscriptionsRepository.walk ts (ps.filterMap (Node.at? · root)) acc
      = ((finalPaths ts ps).filterMap (Node.at? · root), acc ++ (hashPaths ts ps).flatMap (Node.clientsAt · root)) := by
  induction ts generalizing ps acc with
  | nil => simp [SubscriptionsRepository.walk, finalPaths, hashPaths]
  | cons t ts ih =>
    have h1 : (ps.filterMap (Node.at? · root)).flatMap (SubscriptionsRepository.descendants t)
        = (nextPaths t ps).filterMap (Node.at? · root) := by
      rw [flatMap_filterMap']
      unfold nextPaths
      induction ps with
      | nil => rfl
      | cons p ps ihp =>
        simp only [List.flatMap_cons, List.filterMap_append, ihp]
        congr 1
        simp only [List.filterMap_cons, List.filterMap_nil, Node.at?_append]
        cases Node.at? p root with
        | none => rfl
        | some m =>
          simp only [Option.bind_some, Option.map_some, Option.getD_some, SubscriptionsRepository.descendants]
          cases m.children.get? t <;> cases m.children.get? "+" <;> rfl
    have h2 : (ps.filterMap (Node.at? · root)).flatMap SubscriptionsRepository.hashClients
        = (ps.map (· ++ ["#"])).flatMap (Node.clientsAt · root) := by
      rw [flatMap_filterMap', List.flatMap_map]
      congr 1
      funext p
      simp only [Node.clientsAt, Node.at?_append]
      cases Node.at? p root with
      | none => rfl
      | some m =>
        simp only [Option.bind_some, Option.map_some, Option.getD_some, SubscriptionsRepository.hashClients]
        cases m.children.get? "#" <;> rfl
    simp only [SubscriptionsRepository.walk, finalPaths, hashPaths, h1, h2, ih, List.flatMap_append, List.append_assoc]

/-- What `subscribed_clients` returns: the clients at the paths of the walk, in order. -/
theorem subscribedClients_eq (r : SubscriptionsRepository) (t : String) :
    r.subscribedClients t = some ((walkPaths (splitTopic t)).flatMap (Node.clientsAt · r.root)) := by
  have h := walk_eq r.root (splitTopic t) [[]] []
  simp only [SubscriptionsRepository.subscribedClients]
  rw [show [r.root] = ([[]] : List (List String)).filterMap (Node.at? · r.root) by rfl, h]
  simp only [List.nil_append, flatMap_filterMap', walkPaths, List.flatMap_append]
  rfl

/-- The filters a topic matches, as paths. -/
def matchingPaths : List String → List (List String)
  | [] => [[]]
  | t :: ts => ["#"] :: ((matchingPaths ts).map (t :: ·) ++ (matchingPaths ts).map ("+" :: ·))

theorem walkPaths_perm (ts : List String) (ps : List (List String)) :
    List.Perm (hashPaths ts ps ++ finalPaths ts ps) (ps.flatMap fun p => (matchingPaths ts).map (p ++ ·)) := by
  induction ts generalizing ps with
  | nil =>
    simp only [hashPaths, finalPaths, matchingPaths, List.nil_append, List.map_cons, List.append_nil, List.map_nil]
    rw [List.flatMap_singleton' ps]
  | cons t ts ih =>
    simp only [hashPaths, finalPaths, List.append_assoc]
    refine (List.Perm.append_left _ (ih (nextPaths t ps))).trans ?_
    induction ps with
    | nil => exact List.Perm.refl _
    | cons p ps ihp =>
      simp only [nextPaths, List.map_cons, List.flatMap_cons, List.cons_append, matchingPaths, List.map_append,
        List.map_map, List.nil_append, List.append_assoc] at ihp ⊢
      refine List.Perm.cons _ ?_
      refine List.Perm.trans ?_ (((ihp.append_left _).append_left _))
      simp only [List.append_nil, Function.comp_def, List.append_assoc, List.cons_append, List.nil_append]
      have : ∀ (a b c d : List (List String)), List.Perm (a ++ (b ++ (c ++ d))) (b ++ (c ++ (a ++ d))) := by
        intro a b c d
        have := (List.perm_append_comm (l₁ := a) (l₂ := b ++ c)).append_right d
        simpa [List.append_assoc] using this
      exact this _ _ _ _

theorem matchingPaths_iff {ts : List String} {p : List String} : p ∈ matchingPaths ts ↔ LevelsMatch p ts := by
  induction ts generalizing p with
  | nil =>
    simp only [matchingPaths, List.mem_singleton]
    exact ⟨fun h => h ▸ .done, fun h => by cases h; rfl⟩
  | cons t ts ih =>
    simp only [matchingPaths, List.mem_cons, List.mem_append, List.mem_map]
    constructor
    · rintro (rfl | ⟨q, hq, rfl⟩ | ⟨q, hq, rfl⟩)
      · exact .hash t ts
      · exact .literal t q ts (ih.mp hq)
      · exact .plus t q ts (ih.mp hq)
    · intro h
      cases h with
      | hash => exact .inl rfl
      | plus _ q _ h => exact .inr (.inr ⟨q, ih.mpr h, rfl⟩)
      | literal _ q _ h => exact .inr (.inl ⟨q, ih.mpr h, rfl⟩)

theorem matchingPaths_nodup {ts : List String} (h : ∀ t ∈ ts, t ≠ "+" ∧ t ≠ "#") : (matchingPaths ts).Nodup := by
  induction ts with
  | nil => simp [matchingPaths]
  | cons t ts ih =>
    have ih := ih fun x hx => h x (List.mem_cons_of_mem _ hx)
    have ht := h t List.mem_cons_self
    have hinj : ∀ s : String, ((matchingPaths ts).map (s :: ·)).Nodup := by
      intro s
      refine List.Pairwise.map _ ?_ ih
      intro a b hab hc
      exact hab (List.cons.inj hc).2
    simp only [matchingPaths, List.nodup_cons, List.mem_append, List.mem_map, not_or, List.nodup_append]
    refine ⟨⟨?_, ?_⟩, hinj t, hinj "+", ?_⟩
    · rintro ⟨q, _, hq⟩
      exact ht.2 (List.cons.inj hq).1
    · rintro ⟨q, _, hq⟩
      exact absurd (List.cons.inj hq).1 (by decide)
    · rintro a ⟨q, _, rfl⟩ b ⟨q', _, rfl⟩ hc
      exact ht.1 (List.cons.inj hc).1

end Ratel
