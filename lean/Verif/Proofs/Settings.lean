/-
Lemmas about settings: paths, keys of variables.
-/
import Verif.Model.Settings
import Verif.Spec.Settings
import Verif.Proofs.Topic

namespace Ratel

namespace Config

open Spec

/-! ### Values -/

namespace Value

theorem entries_table (m : AssocMap Value) : entries (.table m) = m := rfl

theorem lookup_setAt_self (p : List String) (v root : Value) : lookup p (setAt p v root) = some v := by
  induction p generalizing root with
  | nil => rfl
  | cons k ks ih => simp [lookup, setAt, entries_table, AssocMap.get?_upsert, ih]

/-- Setting something beside a path changes nothing there. -/
theorem lookup_setAt_beside {p q : List String} (hpq : ¬ p <+: q) (hqp : ¬ q <+: p) (v root : Value) :
    lookup q (setAt p v root) = lookup q root := by
  induction p generalizing q root with
  | nil => exact absurd (List.nil_prefix) hpq
  | cons k ks ih =>
    cases q with
    | nil => exact absurd (List.nil_prefix) hqp
    | cons l ls =>
      simp only [lookup, setAt, entries_table, AssocMap.get?_upsert]
      by_cases h : l = k
      · subst h
        have h1 : ¬ ks <+: ls := fun h => hpq (List.cons_prefix_cons.mpr ⟨rfl, h⟩)
        have h2 : ¬ ls <+: ks := fun h => hqp (List.cons_prefix_cons.mpr ⟨rfl, h⟩)
        rw [if_pos rfl, Option.bind_some, ih h1 h2]
        cases hg : AssocMap.get? (entries root) l with
        | some x => rfl
        | none =>
          simp only [Option.getD_none, Option.bind_none]
          cases ls with
          | nil => exact absurd List.nil_prefix h2
          | cons => rfl
      · rw [if_neg h]

/-- Setting a text above a path leaves nothing there. -/
theorem lookup_setAt_above {p q : List String} (hpq : p <+: q) (hne : p ≠ q) (t : String) (root : Value) :
    lookup q (setAt p (.scalar t) root) = none := by
  induction p generalizing q root with
  | nil =>
    cases q with
    | nil => exact absurd rfl hne
    | cons => rfl
  | cons k ks ih =>
    cases q with
    | nil => exact absurd hpq (by simp)
    | cons l ls =>
      obtain ⟨rfl, h⟩ := List.cons_prefix_cons.mp hpq
      simp only [lookup, setAt, entries_table, AssocMap.get?_upsert, if_true, Option.bind_some]
      exact ih h (fun he => hne (by rw [he])) _

/-- Setting something below a path makes a table of what is there. -/
theorem lookup_setAt_below {p q : List String} (hqp : q <+: p) (hne : p ≠ q) (v root : Value) :
    ∃ m, lookup q (setAt p v root) = some (.table m) := by
  induction p generalizing q root with
  | nil => exact absurd (List.prefix_nil.mp hqp).symm hne
  | cons k ks ih =>
    cases q with
    | nil => exact ⟨_, rfl⟩
    | cons l ls =>
      obtain ⟨rfl, h⟩ := List.cons_prefix_cons.mp hqp
      simp only [lookup, setAt, entries_table, AssocMap.get?_upsert, if_true, Option.bind_some]
      exact ih h (fun he => hne (by rw [he])) _

/-- After setting a text at another path there is, at a path, what was there before; or nothing; or a table. -/
theorem lookup_setAt_other {p q : List String} (hne : p ≠ q) (t : String) (root : Value) :
    lookup q (setAt p (.scalar t) root) = lookup q root ∨ lookup q (setAt p (.scalar t) root) = none
      ∨ ∃ m, lookup q (setAt p (.scalar t) root) = some (.table m) := by
  by_cases h1 : p <+: q
  · exact .inr (.inl (lookup_setAt_above h1 hne t root))
  · by_cases h2 : q <+: p
    · exact .inr (.inr (lookup_setAt_below h2 hne _ root))
    · exact .inl (lookup_setAt_beside h1 h2 _ root)

end Value

/-- What a path leads to when variables, none of them for that path, have been merged in. -/
theorem lookup_merged_other (q : List String) (vars : List (String × String)) (h : ∀ x ∈ vars, pathOf x.1 ≠ q) (root : Value) :
    (merged root vars).lookup q = root.lookup q ∨ (merged root vars).lookup q = none ∨ ∃ m, (merged root vars).lookup q = some (.table m) := by
  induction vars generalizing root with
  | nil => exact .inl rfl
  | cons x vars ih =>
    rcases ih (fun y hy => h y (List.mem_cons_of_mem _ hy)) (Value.setAt (pathOf x.1) (.scalar x.2) root) with h1 | h1
    · rcases Value.lookup_setAt_other (h x List.mem_cons_self) x.2 root with h2 | h2 | ⟨m, h2⟩
      · exact .inl (h1.trans h2)
      · exact .inr (.inl (h1.trans h2))
      · exact .inr (.inr ⟨m, h1.trans h2⟩)
    · exact .inr h1

/-- … and none near it. -/
theorem lookup_merged_beside (q : List String) (vars : List (String × String)) (h : ∀ x ∈ vars, ¬ pathOf x.1 <+: q ∧ ¬ q <+: pathOf x.1)
    (root : Value) : (merged root vars).lookup q = root.lookup q := by
  induction vars generalizing root with
  | nil => rfl
  | cons x vars ih =>
    obtain ⟨h1, h2⟩ := h x List.mem_cons_self
    exact (ih (fun y hy => h y (List.mem_cons_of_mem _ hy)) _).trans (Value.lookup_setAt_beside h1 h2 _ _)

/-- A variable for a path, and no other for the same: at the path is its text, or nothing, or a table. -/
theorem lookup_merged_set (q : List String) (pre post : List (String × String)) (x : String × String) (hx : pathOf x.1 = q)
    (h : ∀ y ∈ post, pathOf y.1 ≠ q) (root : Value) :
    (merged root (pre ++ x :: post)).lookup q = some (.scalar x.2) ∨ (merged root (pre ++ x :: post)).lookup q = none
      ∨ ∃ m, (merged root (pre ++ x :: post)).lookup q = some (.table m) := by
  have : merged root (pre ++ x :: post) = merged (Value.setAt q (.scalar x.2) (merged root pre)) post := by
    simp [merged, List.foldl_append, hx]
  rw [this]
  have := lookup_merged_other q post h (Value.setAt q (.scalar x.2) (merged root pre))
  rwa [Value.lookup_setAt_self] at this

theorem ofValue_eq {root : Value} {s : Settings} (h : ofValue root = some s) :
    (∃ vs, root.lookup ["mqtt", "listeners_tcp"] = some (.array vs) ∧ vs.mapM Value.text? = some s.listenersTcp)
    ∧ root.lookup ["authentication", "password_file"] = some (.scalar s.passwordFile) := by
  unfold ofValue at h
  split at h
  · next l p hl hp =>
    cases h
    constructor
    · cases hm : root.lookup ["mqtt", "listeners_tcp"] with
      | none => rw [hm] at hl; cases hl
      | some v =>
        rw [hm] at hl
        cases v with
        | scalar t => cases hl
        | table m => cases hl
        | array vs => exact ⟨vs, rfl, hl⟩
    · cases hm : root.lookup ["authentication", "password_file"] with
      | none => rw [hm] at hp; cases hp
      | some v =>
        rw [hm] at hp
        cases v with
        | scalar t => cases hp; rfl
        | table m => cases hp
        | array vs => cases hp
  · cases h

theorem ofValue_some {root : Value} {s : Settings} {vs : List Value} (h1 : root.lookup ["mqtt", "listeners_tcp"] = some (.array vs))
    (h2 : vs.mapM Value.text? = some s.listenersTcp) (h3 : root.lookup ["authentication", "password_file"] = some (.scalar s.passwordFile)) :
    ofValue root = some s := by
  have h4 : (Value.array vs).texts? = some s.listenersTcp := h2
  have h5 : (Value.scalar s.passwordFile).text? = some s.passwordFile := rfl
  simp [ofValue, h1, h3, h4, h5]

/-! ### Keys -/

theorem splitDots_ne_nil (cs : List Char) : splitDots cs ≠ [] := by
  cases cs with
  | nil => simp [splitDots]
  | cons c cs =>
    rw [splitDots]
    split
    · simp
    · split <;> simp

/-- Joining the parts with dots gives the key back. -/
def joinDots : List (List Char) → List Char
  | [] => []
  | [p] => p
  | p :: q :: ps => p ++ '.' :: joinDots (q :: ps)

theorem joinDots_splitDots (cs : List Char) : joinDots (splitDots cs) = cs := by
  induction cs with
  | nil => rfl
  | cons c cs ih =>
    rw [splitDots]
    cases hs : splitDots cs with
    | nil => exact absurd hs (splitDots_ne_nil cs)
    | cons p ps =>
      rw [hs] at ih
      by_cases hc : c = '.'
      · subst hc; simp [joinDots, ih]
      · rw [if_neg hc]
        cases ps with
        | nil => simp only [joinDots] at ih ⊢; rw [ih]
        | cons q ps => simp only [joinDots] at ih ⊢; rw [← ih]; rfl

/-- Two parts: which key it is. -/
theorem pathOf_two {key a b : String} (h : pathOf key = [a, b]) : key = a ++ "." ++ b := by
  unfold pathOf at h
  simp only at h
  split at h
  · have hj := joinDots_splitDots key.toList
    obtain ⟨x, r, hx, rfl, hr⟩ := List.map_eq_cons_iff.mp h
    obtain ⟨y, r', hy, rfl, hr'⟩ := List.map_eq_cons_iff.mp hr
    rw [List.map_eq_nil_iff] at hr'
    subst hr' hy
    rw [hx] at hj
    simp only [joinDots] at hj
    apply String.toList_injective
    rw [← hj]
    simp
  · cases h

/-- The first part is where the key begins. -/
theorem pathOf_head {key a : String} {r : List String} (h : pathOf key = a :: r) : a.toList <+: key.toList := by
  unfold pathOf at h
  simp only at h
  split at h
  · have hj := joinDots_splitDots key.toList
    obtain ⟨x, r', hx, rfl, hr⟩ := List.map_eq_cons_iff.mp h
    rw [hx] at hj
    rw [← hj, String.toList_ofList]
    cases r' with
    | nil => exact List.prefix_rfl
    | cons q ps => exact ⟨_, rfl⟩
  · cases h; exact List.prefix_rfl

/-- What can become a key by writing dots for double underscores. -/
def undot : List Char → List (List Char)
  | [] => [[]]
  | c :: t => if c = '.' then (undot t).flatMap fun r => ['.' :: r, '_' :: '_' :: r] else (undot t).map (c :: ·)

theorem dots_cons (c : Char) (r : List Char) : (∃ r', c = '_' ∧ r = '_' :: r' ∧ dots (c :: r) = '.' :: dots r') ∨ dots (c :: r) = c :: dots r := by
  by_cases h : c = '_' ∧ ∃ r', r = '_' :: r'
  · obtain ⟨rfl, r', rfl⟩ := h
    exact .inl ⟨r', rfl, rfl, by rw [dots]⟩
  · refine .inr ?_
    rw [dots]
    intro r' h1 h2
    exact h ⟨h1, r', h2⟩

theorem mem_undot_dots (r : List Char) : r ∈ undot (dots r) := by
  induction hn : r.length using Nat.strongRecOn generalizing r with
  | ind n ih =>
    cases r with
    | nil => simp [dots, undot]
    | cons c r =>
      rcases dots_cons c r with ⟨r', rfl, rfl, h⟩ | h
      · rw [h, undot, if_pos rfl]
        have := ih r'.length (by simp at hn; omega) r' rfl
        exact List.mem_flatMap.mpr ⟨r', this, by simp⟩
      · rw [h, undot]
        have := ih r.length (by simp at hn; omega) r rfl
        by_cases hc : c = '.'
        · rw [if_pos hc, hc]
          exact List.mem_flatMap.mpr ⟨r, this, by simp⟩
        · rw [if_neg hc]
          exact List.mem_map_of_mem this

theorem toLower_underscore {c : Char} : c.toLower = '_' ↔ c = '_' := by
  constructor
  · intro h
    unfold Char.toLower at h
    split at h
    · next hc =>
      exfalso
      have h1 := congrArg Char.val h
      simp only at h1
      have h2 : c.val + 32 = 95 := h1
      obtain ⟨h3, h4⟩ := hc
      have h5 := congrArg UInt32.toNat h2
      rw [UInt32.toNat_add] at h5
      have h8 : (95 : UInt32).toNat = 95 := rfl
      have h9 : (32 : UInt32).toNat = 32 := rfl
      rw [h8, h9] at h5
      have h6 : c.val.toNat ≤ 90 := by
        have := UInt32.le_iff_toNat_le.mp h4
        simpa using this
      have h7 : 65 ≤ c.val.toNat := by
        have := UInt32.le_iff_toNat_le.mp h3
        simpa using this
      omega
    · exact h
  · rintro rfl; rfl

theorem dots_lower (r : List Char) : (dots r).map Char.toLower = dots (r.map Char.toLower) := by
  induction hn : r.length using Nat.strongRecOn generalizing r with
  | ind n ih =>
    cases r with
    | nil => simp [dots]
    | cons c r =>
      by_cases h : c = '_' ∧ ∃ r', r = '_' :: r'
      · obtain ⟨rfl, r', rfl⟩ := h
        have hl : Char.toLower '_' = '_' := rfl
        have hd : Char.toLower '.' = '.' := rfl
        rw [dots, List.map_cons, List.map_cons, List.map_cons, hl, hd, dots, ih r'.length (by simp at hn; omega) r' rfl]
      · have h1 : dots (c :: r) = c :: dots r := by
          rw [dots]
          intro r' h1 h2
          exact h ⟨h1, r', h2⟩
        have h2 : dots ((c :: r).map Char.toLower) = c.toLower :: dots (r.map Char.toLower) := by
          rw [List.map_cons, dots]
          intro r' h3 h2
          cases r with
          | nil => cases h2
          | cons d r =>
            rw [List.map_cons] at h2
            injection h2 with h2 _
            exact h ⟨toLower_underscore.mp h3, r, by rw [toLower_underscore.mp h2]⟩
        rw [h1, h2, List.map_cons, ih r.length (by simp at hn; omega) r rfl]

end Config

end Ratel
