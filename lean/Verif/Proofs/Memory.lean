/-
The nodes of the subscription tree.
-/
import Verif.Proofs.Subs

namespace Ratel

open Spec

namespace Node

mutual
/-- The number of nodes of a tree. -/
def count : Node → Nat
  | mk ch _ => 1 + countChildren ch

/-- The number of nodes of some trees. -/
def countChildren : List (String × Node) → Nat
  | [] => 0
  | (_, n) :: r => count n + countChildren r
end

mutual
/-- The paths to the nodes of a tree. -/
def paths : Node → List (List String)
  | mk ch _ => [] :: pathsChildren ch

/-- The paths into some children. -/
def pathsChildren : List (String × Node) → List (List String)
  | [] => []
  | (k, n) :: r => (paths n).map (k :: ·) ++ pathsChildren r
end

mutual
theorem length_paths : ∀ n : Node, n.paths.length = n.count
  | mk ch _ => by
    rw [paths, count, List.length_cons, length_pathsChildren ch]
    omega

theorem length_pathsChildren : ∀ ch : List (String × Node), (pathsChildren ch).length = countChildren ch
  | [] => rfl
  | (k, n) :: r => by
    rw [pathsChildren, countChildren, List.length_append, List.length_map, length_paths n, length_pathsChildren r]
end

mutual
theorem paths_removeClient (c : ClientId) : ∀ n : Node, (n.removeClient c).paths = n.paths
  | mk ch _ => by rw [removeClient, paths, paths, pathsChildren_removeClient c ch]

theorem pathsChildren_removeClient (c : ClientId) : ∀ ch : List (String × Node),
    pathsChildren (removeClientChildren c ch) = pathsChildren ch
  | [] => rfl
  | (k, n) :: r => by rw [removeClientChildren, pathsChildren, pathsChildren, paths_removeClient c n, pathsChildren_removeClient c r]
end

theorem nil_mem_paths (n : Node) : [] ∈ n.paths := by
  cases n
  rw [paths]
  exact List.mem_cons_self

theorem mem_paths_mk {ch : List (String × Node)} {cl : List ClientId} {p : List String} :
    p ∈ (mk ch cl).paths ↔ p = [] ∨ p ∈ pathsChildren ch := by
  rw [paths, List.mem_cons]

theorem mem_pathsChildren_cons {k : String} {n : Node} {r : List (String × Node)} {p : List String} :
    p ∈ pathsChildren ((k, n) :: r) ↔ (∃ q, p = k :: q ∧ q ∈ n.paths) ∨ p ∈ pathsChildren r := by
  rw [pathsChildren, List.mem_append, List.mem_map]
  constructor
  · rintro (⟨q, h1, rfl⟩ | h)
    · exact .inl ⟨q, rfl, h1⟩
    · exact .inr h
  · rintro (⟨q, rfl, h1⟩ | h)
    · exact .inl ⟨q, h1, rfl⟩
    · exact .inr h

theorem nil_notMem_children (r : List (String × Node)) : [] ∉ pathsChildren r := by
  induction r with
  | nil => intro h; cases h
  | cons kn r ih =>
    obtain ⟨k, n⟩ := kn
    rw [mem_pathsChildren_cons]
    rintro (⟨q, h, _⟩ | h)
    · cases h
    · exact ih h

theorem single_mem {r : List (String × Node)} {k : String} {q : List String} (h : k :: q ∈ pathsChildren r) : [k] ∈ pathsChildren r := by
  induction r with
  | nil => cases h
  | cons kn r ih =>
    obtain ⟨k', n⟩ := kn
    rw [mem_pathsChildren_cons] at h ⊢
    rcases h with ⟨q', h1, _⟩ | h
    · cases h1
      exact .inl ⟨[], rfl, nil_mem_paths n⟩
    · exact .inr (ih h)

theorem mem_upsert {g : Node → Node} {segs : List String} (hg : ∀ n p, p ∈ (g n).paths ↔ p ∈ n.paths ∨ p <+: segs)
    (ch : List (String × Node)) (k : String) (p : List String) :
    p ∈ pathsChildren (AssocMap.upsert new g ch k) ↔ p ∈ pathsChildren ch ∨ ∃ q, p = k :: q ∧ q <+: segs := by
  induction ch with
  | nil =>
    rw [AssocMap.upsert, mem_pathsChildren_cons]
    constructor
    · rintro (⟨q, rfl, h⟩ | h)
      · refine .inr ⟨q, rfl, ?_⟩
        rcases (hg _ _).mp h with h | h
        · rw [new, mem_paths_mk] at h
          rcases h with rfl | h
          · exact List.nil_prefix
          · cases h
        · exact h
      · cases h
    · rintro (h | ⟨q, rfl, h⟩)
      · cases h
      · exact .inl ⟨q, rfl, (hg _ _).mpr (.inr h)⟩
  | cons kn ch ih =>
    obtain ⟨k', n⟩ := kn
    rw [AssocMap.upsert]
    split
    · rename_i hk
      subst hk
      rw [mem_pathsChildren_cons, mem_pathsChildren_cons]
      constructor
      · rintro (⟨q, rfl, h⟩ | h)
        · rcases (hg _ _).mp h with h | h
          · exact .inl (.inl ⟨q, rfl, h⟩)
          · exact .inr ⟨q, rfl, h⟩
        · exact .inl (.inr h)
      · rintro ((⟨q, rfl, h⟩ | h) | ⟨q, rfl, h⟩)
        · exact .inl ⟨q, rfl, (hg _ _).mpr (.inl h)⟩
        · exact .inr h
        · exact .inl ⟨q, rfl, (hg _ _).mpr (.inr h)⟩
    · rw [mem_pathsChildren_cons, mem_pathsChildren_cons, ih, or_assoc]

theorem mem_modifyAt (segs : List String) (f : List ClientId → List ClientId) (n : Node) (p : List String) :
    p ∈ (modifyAt segs f n).paths ↔ p ∈ n.paths ∨ p <+: segs := by
  induction segs generalizing n p with
  | nil =>
    cases n with
    | mk ch cl =>
      rw [modifyAt, mem_paths_mk, mem_paths_mk, List.prefix_nil]
      constructor
      · exact .inl
      · rintro (h | h)
        · exact h
        · exact .inl h
  | cons s segs ih =>
    cases n with
    | mk ch cl =>
      rw [modifyAt, mem_paths_mk, mem_upsert (segs := segs) (fun n p => ih n p), mem_paths_mk]
      cases p with
      | nil => simp
      | cons a p =>
        constructor
        · rintro (h | h | ⟨q, h, hq⟩)
          · cases h
          · exact .inl (.inr h)
          · cases h
            exact .inr (by rw [List.cons_prefix_cons]; exact ⟨rfl, hq⟩)
        · rintro ((h | h) | h)
          · cases h
          · exact .inr (.inl h)
          · rw [List.cons_prefix_cons] at h
            exact .inr (.inr ⟨p, by rw [h.1], h.2⟩)

theorem nodup_mk {ch : List (String × Node)} {cl : List ClientId} : (mk ch cl).paths.Nodup ↔ (pathsChildren ch).Nodup := by
  rw [paths, List.nodup_cons]
  exact ⟨fun h => h.2, fun h => ⟨nil_notMem_children ch, h⟩⟩

theorem nodup_children_cons {k : String} {n : Node} {r : List (String × Node)} :
    (pathsChildren ((k, n) :: r)).Nodup ↔ n.paths.Nodup ∧ (pathsChildren r).Nodup ∧ [k] ∉ pathsChildren r := by
  rw [pathsChildren, List.nodup_append]
  constructor
  · rintro ⟨h1, h2, h3⟩
    refine ⟨?_, h2, fun h => h3 [k] (List.mem_map.mpr ⟨[], nil_mem_paths n, rfl⟩) [k] h rfl⟩
    unfold List.Nodup at h1 ⊢
    rw [List.pairwise_map] at h1
    exact h1.imp fun h e => h (by rw [e])
  · rintro ⟨h1, h2, h3⟩
    refine ⟨?_, h2, ?_⟩
    · unfold List.Nodup at h1 ⊢
      rw [List.pairwise_map]
      exact h1.imp fun h e => h (List.cons.inj e).2
    · intro a ha b hb e
      subst e
      obtain ⟨q, _, rfl⟩ := List.mem_map.mp ha
      exact h3 (single_mem hb)

theorem nodup_upsert {g : Node → Node} {segs : List String} (hg : ∀ n p, p ∈ (g n).paths ↔ p ∈ n.paths ∨ p <+: segs)
    (hn : ∀ n : Node, n.paths.Nodup → (g n).paths.Nodup) (ch : List (String × Node)) (k : String) (h : (pathsChildren ch).Nodup) :
    (pathsChildren (AssocMap.upsert new g ch k)).Nodup := by
  induction ch with
  | nil =>
    rw [AssocMap.upsert, nodup_children_cons]
    refine ⟨hn _ ?_, List.nodup_nil, by intro h; cases h⟩
    rw [new, nodup_mk]
    exact List.nodup_nil
  | cons kn ch ih =>
    obtain ⟨k', n⟩ := kn
    obtain ⟨h1, h2, h3⟩ := nodup_children_cons.mp h
    rw [AssocMap.upsert]
    split
    · exact nodup_children_cons.mpr ⟨hn n h1, h2, h3⟩
    · rename_i hk
      refine nodup_children_cons.mpr ⟨h1, ih h2, ?_⟩
      rw [mem_upsert hg]
      rintro (h | ⟨q, h, _⟩)
      · exact h3 h
      · exact hk (List.cons.inj h).1

theorem nodup_modifyAt (segs : List String) (f : List ClientId → List ClientId) (n : Node) (h : n.paths.Nodup) :
    (modifyAt segs f n).paths.Nodup := by
  induction segs generalizing n with
  | nil =>
    cases n with
    | mk ch cl => rw [modifyAt, nodup_mk]; exact nodup_mk.mp h
  | cons s segs ih =>
    cases n with
    | mk ch cl =>
      rw [modifyAt, nodup_mk]
      exact nodup_upsert (segs := segs) (fun n p => mem_modifyAt segs f n p) ih ch s (nodup_mk.mp h)

end Node

theorem paths_unsubscribe (r : SubscriptionsRepository) (c : ClientId) (fs : List String) (hr : r.root.paths.Nodup) :
    (r.unsubscribe c fs).root.paths.Nodup
    ∧ ∀ p, p ∈ (r.unsubscribe c fs).root.paths ↔ p ∈ r.root.paths ∨ ∃ f ∈ fs, p <+: splitTopic f := by
  unfold SubscriptionsRepository.unsubscribe
  induction fs generalizing r with
  | nil => exact ⟨hr, fun p => by simp⟩
  | cons f fs ih =>
    simp only [List.foldl_cons]
    obtain ⟨h1, h2⟩ := ih ⟨r.root.modifyAt (splitTopic f) (·.erase c)⟩ (Node.nodup_modifyAt _ _ _ hr)
    refine ⟨h1, fun p => ?_⟩
    rw [h2, Node.mem_modifyAt, or_assoc]
    simp

theorem paths_applyOp (r : SubscriptionsRepository) (op : SubOp) (hr : r.root.paths.Nodup) :
    (applyOp r op).root.paths.Nodup
    ∧ ∀ p, p ∈ (applyOp r op).root.paths ↔ p ∈ r.root.paths ∨ ∃ f ∈ op.named, p <+: splitTopic f := by
  cases op with
  | subscribe c s =>
    refine ⟨Node.nodup_modifyAt _ _ _ hr, fun p => ?_⟩
    show p ∈ (Node.modifyAt _ _ _).paths ↔ _
    rw [Node.mem_modifyAt]
    simp [SubOp.named]
  | unsubscribe c fs => exact paths_unsubscribe r c fs hr
  | disconnected c =>
    show (Node.removeClient _ _).paths.Nodup ∧ ∀ p, p ∈ (Node.removeClient _ _).paths ↔ _
    rw [Node.paths_removeClient]
    exact ⟨hr, fun p => by simp [SubOp.named]⟩
  | connectionLost c =>
    show (Node.removeClient _ _).paths.Nodup ∧ ∀ p, p ∈ (Node.removeClient _ _).paths ↔ _
    rw [Node.paths_removeClient]
    exact ⟨hr, fun p => by simp [SubOp.named]⟩

/-- The paths of the tree after a history: the beginnings of the filters named. -/
theorem paths_repo (h : List SubOp) :
    (repo h).root.paths.Nodup ∧ ∀ p, p ∈ (repo h).root.paths ↔ p = [] ∨ ∃ f ∈ h.flatMap SubOp.named, p <+: splitTopic f := by
  have key : ∀ (h : List SubOp) (r : SubscriptionsRepository), r.root.paths.Nodup →
      (h.foldl applyOp r).root.paths.Nodup
      ∧ ∀ p, p ∈ (h.foldl applyOp r).root.paths ↔ p ∈ r.root.paths ∨ ∃ f ∈ h.flatMap SubOp.named, p <+: splitTopic f := by
    intro h
    induction h with
    | nil => intro r hr; exact ⟨hr, fun p => by simp⟩
    | cons op h ih =>
      intro r hr
      obtain ⟨h1, h2⟩ := paths_applyOp r op hr
      obtain ⟨h3, h4⟩ := ih _ h1
      refine ⟨h3, fun p => ?_⟩
      simp only [List.foldl_cons]
      rw [h4, h2, or_assoc]
      simp only [List.flatMap_cons, List.mem_append]
      constructor
      · rintro (h | ⟨f, hf, h⟩ | ⟨f, hf, h⟩)
        · exact .inl h
        · exact .inr ⟨f, .inl hf, h⟩
        · exact .inr ⟨f, .inr hf, h⟩
      · rintro (h | ⟨f, hf | hf, h⟩)
        · exact .inl h
        · exact .inr (.inl ⟨f, hf, h⟩)
        · exact .inr (.inr ⟨f, hf, h⟩)
  have hnew : SubscriptionsRepository.new.root.paths = [[]] := by
    rw [SubscriptionsRepository.new, Node.new, Node.paths, Node.pathsChildren]
  obtain ⟨h1, h2⟩ := key h SubscriptionsRepository.new (by rw [hnew]; simp)
  refine ⟨h1, fun p => ?_⟩
  show p ∈ (h.foldl applyOp SubscriptionsRepository.new).root.paths ↔ _
  rw [h2, hnew]
  simp

end Ratel
