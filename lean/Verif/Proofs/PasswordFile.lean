/-
Loading password files, and what ratelmq-passwd does to them.
-/
import Verif.Model.Passwd
import Verif.Proofs.Topic
import Verif.Spec.PasswordFile

namespace Ratel

open Spec

/-! ### Lines -/

theorem withoutCr_stripCr (l : List Char) : WithoutCr l (stripCr l) := by
  unfold stripCr WithoutCr
  by_cases h : l.getLast? = some '\r'
  · rw [if_pos h]
    left
    rw [List.getLast?_eq_some_iff] at h
    obtain ⟨ys, rfl⟩ := h
    simp
  · rw [if_neg h]
    right
    refine ⟨rfl, ?_⟩
    rintro x rfl
    simp at h

theorem withoutCr_unique {l a b : List Char} (ha : WithoutCr l a) (hb : WithoutCr l b) : a = b := by
  rcases ha with ha | ⟨ha, hna⟩ <;> rcases hb with hb | ⟨hb, hnb⟩
  · rw [ha] at hb; exact List.append_cancel_right hb
  · exact absurd ha (hnb a)
  · exact absurd hb (hna b)
  · rw [ha, hb]

theorem splitLines_line (l rest : List Char) (h : '\n' ∉ l) : splitLines (l ++ '\n' :: rest) = (l, true) :: splitLines rest := by
  induction l with
  | nil => simp [splitLines]
  | cons c l ih =>
    have hc : c ≠ '\n' := fun hc => h (by simp [hc])
    rw [List.cons_append, splitLines, if_neg hc, ih fun hm => h (List.mem_cons_of_mem _ hm)]

theorem splitLines_unterminated (l : List Char) (h0 : l ≠ []) (h : '\n' ∉ l) : splitLines l = [(l, false)] := by
  induction l with
  | nil => exact absurd rfl h0
  | cons c l ih =>
    have hc : c ≠ '\n' := fun hc => h (by simp [hc])
    rw [splitLines, if_neg hc]
    cases l with
    | nil => rfl
    | cons d l => rw [ih (by simp) fun hm => h (List.mem_cons_of_mem _ hm)]

theorem lines_of_fileLines {sv : StdVersion} {text : List Char} {ls : List (List Char)} (h : FileLines sv text ls) : lines sv text = ls := by
  induction h with
  | empty => rfl
  | unterminated l l' h0 hn hc =>
    rw [lines, splitLines_unterminated l h0 hn]
    simp only [List.map_cons, List.map_nil, Bool.false_or]
    by_cases hs : sv.stripFinalCr = true
    · rw [if_pos hs] at hc ⊢
      rw [withoutCr_unique (withoutCr_stripCr l) hc]
    · rw [if_neg hs] at hc ⊢
      rw [hc]
  | line l l' rest ls hn hc _ ih =>
    rw [lines, splitLines_line l rest hn, List.map_cons]
    simp only [Bool.true_or, ↓reduceIte]
    rw [withoutCr_unique (withoutCr_stripCr l) hc]
    congr 1

theorem exists_first_line (text : List Char) (hn : '\n' ∈ text) : ∃ l rest, text = l ++ '\n' :: rest ∧ '\n' ∉ l := by
  induction text with
  | nil => simp at hn
  | cons c t ih =>
    by_cases hc : c = '\n'
    · exact ⟨[], t, by simp [hc], by simp⟩
    · have ht : '\n' ∈ t := by
        rcases List.mem_cons.mp hn with h | h
        · exact absurd h.symm hc
        · exact h
      obtain ⟨l, rest, rfl, h⟩ := ih ht
      exact ⟨c :: l, rest, rfl, by simp [h, Ne.symm hc]⟩

theorem exists_fileLines (sv : StdVersion) (text : List Char) : ∃ ls, FileLines sv text ls := by
  by_cases hn : '\n' ∈ text
  · obtain ⟨l, rest, ht, hl⟩ := exists_first_line text hn
    have : rest.length < text.length := by rw [ht, List.length_append, List.length_cons]; omega
    obtain ⟨ls, hls⟩ := exists_fileLines sv rest
    rw [ht]
    exact ⟨_, .line l _ rest ls hl (withoutCr_stripCr l) hls⟩
  · cases text with
    | nil => exact ⟨[], .empty⟩
    | cons c t =>
      by_cases hs : sv.stripFinalCr = true
      · exact ⟨[stripCr (c :: t)], .unterminated _ _ (by simp) hn (by rw [if_pos hs]; exact withoutCr_stripCr _)⟩
      · exact ⟨[c :: t], .unterminated _ _ (by simp) hn (by rw [if_neg hs])⟩
termination_by text.length

theorem fileLines_iff {sv : StdVersion} {text : List Char} {ls : List (List Char)} : FileLines sv text ls ↔ lines sv text = ls := by
  constructor
  · exact lines_of_fileLines
  · rintro rfl
    obtain ⟨ls, h⟩ := exists_fileLines sv text
    rw [lines_of_fileLines h]
    exact h

/-! ### Loading -/

theorem splitOnceColon_eq_some {l u c : List Char} : splitOnceColon l = some (u, c) ↔ Gives l u c := by
  induction l generalizing u with
  | nil =>
    simp only [splitOnceColon, Gives, reduceCtorEq, false_iff, not_and]
    intro _ h
    simp at h
  | cons x l ih =>
    rw [splitOnceColon]
    by_cases hx : x = ':'
    · subst hx
      simp only [↓reduceIte, Option.some.injEq, Prod.mk.injEq, Gives]
      constructor
      · rintro ⟨rfl, rfl⟩; simp
      · rintro ⟨hu, he⟩
        cases u with
        | nil => simp at he; exact ⟨rfl, he⟩
        | cons y u =>
          simp only [List.cons_append, List.cons.injEq] at he
          exact absurd (by rw [← he.1]; exact List.mem_cons_self) hu
    · rw [if_neg hx]
      constructor
      · intro h
        cases hs : splitOnceColon l with
        | none => rw [hs] at h; cases h
        | some r =>
          obtain ⟨a, b⟩ := r
          rw [hs] at h
          cases h
          obtain ⟨h1, h2⟩ := ih.mp hs
          exact ⟨by simp [h1, Ne.symm hx], by rw [h2]; rfl⟩
      · rintro ⟨hu, he⟩
        cases u with
        | nil =>
          simp only [List.nil_append, List.cons.injEq] at he
          exact absurd he.1 hx
        | cons y u =>
          simp only [List.cons_append, List.cons.injEq] at he
          obtain ⟨rfl, he⟩ := he
          rw [ih.mpr ⟨fun h => hu (List.mem_cons_of_mem _ h), he⟩]

theorem splitOnceColon_isSome {l : List Char} : (splitOnceColon l).isSome = true ↔ ':' ∈ l := by
  induction l with
  | nil => simp [splitOnceColon]
  | cons x l ih =>
    rw [splitOnceColon]
    by_cases hx : x = ':'
    · simp [hx]
    · rw [if_neg hx, List.mem_cons]
      cases hs : splitOnceColon l with
      | none => rw [hs] at ih; simp at ih; simp [Ne.symm hx, ih]
      | some r => rw [hs] at ih; simp at ih; simp [ih]

theorem loadLines_isSome (ls : List (List Char)) (m : AssocMap String) :
    (FileIdentityManager.loadLines ls m).isSome = true ↔ ∀ l ∈ ls, ':' ∈ l := by
  induction ls generalizing m with
  | nil => simp [FileIdentityManager.loadLines]
  | cons l ls ih =>
    rw [FileIdentityManager.loadLines]
    have h1 := splitOnceColon_isSome (l := l)
    cases hs : splitOnceColon l with
    | none => rw [hs] at h1; simp at h1; simp [h1]
    | some r => rw [hs] at h1; simp at h1; simp [h1, ih]

theorem gives_unique {l u u' c c' : List Char} (h : Gives l u c) (h' : Gives l u' c') : u = u' ∧ c = c' := by
  rw [← splitOnceColon_eq_some] at h h'
  rw [h] at h'
  cases h'
  exact ⟨rfl, rfl⟩

theorem loadLines_get (ls : List (List Char)) (m f : AssocMap String) (h : FileIdentityManager.loadLines ls m = some f)
    (user : String) (cred : String) :
    f.get? user = some cred ↔ CredentialIn ls user.toList cred.toList
      ∨ (m.get? user = some cred ∧ ∀ l ∈ ls, ∀ c, ¬ Gives l user.toList c) := by
  induction ls generalizing m with
  | nil =>
    simp only [FileIdentityManager.loadLines, Option.some.injEq] at h
    subst h
    constructor
    · intro h; exact .inr ⟨h, by simp⟩
    · rintro (⟨pre, line, post, he, _⟩ | ⟨h, _⟩)
      · simp at he
      · exact h
  | cons l ls ih =>
    rw [FileIdentityManager.loadLines] at h
    cases hs : splitOnceColon l with
    | none => rw [hs] at h; cases h
    | some r =>
      obtain ⟨u, c⟩ := r
      rw [hs] at h
      have hg := splitOnceColon_eq_some.mp hs
      rw [ih _ h, AssocMap.get?_insert]
      constructor
      · rintro (⟨pre, line, post, rfl, h1, h2⟩ | ⟨h1, h2⟩)
        · exact .inl ⟨l :: pre, line, post, rfl, h1, h2⟩
        · by_cases hu : user = String.ofList u
          · rw [if_pos hu, Option.some.injEq] at h1
            subst hu
            subst h1
            simp only [String.toList_ofList] at h2 ⊢
            exact .inl ⟨[], l, ls, rfl, hg, h2⟩
          · rw [if_neg hu] at h1
            refine .inr ⟨h1, ?_⟩
            intro x hx c' hc'
            rcases List.mem_cons.mp hx with rfl | hx
            · have := (gives_unique hg hc').1
              exact hu (by rw [this]; simp)
            · exact h2 x hx c' hc'
      · rintro (⟨pre, line, post, he, h1, h2⟩ | ⟨h1, h2⟩)
        · cases pre with
          | nil =>
            simp only [List.nil_append, List.cons.injEq] at he
            obtain ⟨rfl, rfl⟩ := he
            obtain ⟨rfl, rfl⟩ := gives_unique hg h1
            refine .inr ⟨?_, h2⟩
            simp
          | cons x pre =>
            simp only [List.cons_append, List.cons.injEq] at he
            obtain ⟨rfl, rfl⟩ := he
            exact .inl ⟨pre, line, post, rfl, h1, h2⟩
        · refine .inr ⟨?_, fun x hx => h2 x (List.mem_cons_of_mem _ hx)⟩
          have hu : user ≠ String.ofList u := by
            rintro rfl
            exact h2 l List.mem_cons_self c (by simpa using hg)
          rw [if_neg hu]
          exact h1

/-! ### Files of entries -/

theorem fileLines_fileOf (sv : StdVersion) (es : List Entry) (h : ∀ e ∈ es, e.Ok) : FileLines sv (fileOf es) (es.map Entry.line) := by
  induction es with
  | nil => exact .empty
  | cons e es ih =>
    have he := h e List.mem_cons_self
    have : fileOf (e :: es) = e.line ++ '\n' :: fileOf es := by simp [fileOf]
    rw [this, List.map_cons]
    refine .line _ _ _ _ ?_ (.inr ⟨rfl, ?_⟩) (ih fun e he => h e (List.mem_cons_of_mem _ he))
    · simp [Entry.line, he.userNl, he.hashNl]
    · intro x hx
      rcases List.eq_nil_or_concat e.hash with h0 | ⟨y, z, h1⟩
      · rw [Entry.line, h0] at hx
        have := List.append_inj_right' hx rfl
        simp at this
      · rw [List.concat_eq_append] at h1
        rw [Entry.line, h1, ← List.cons_append, ← List.append_assoc] at hx
        have := List.append_inj_right' hx rfl
        simp only [List.cons.injEq, and_true] at this
        exact he.hashCr y (by rw [h1, this])

theorem gives_line {e : Entry} (h : e.Ok) : Gives e.line e.user e.hash := ⟨h.userColon, rfl⟩

/-- The credential of a user in a file of entries with distinct names. -/
theorem credentialIn_entries {es : List Entry} (h : ∀ e ∈ es, e.Ok) (hd : (es.map Entry.user).Nodup) (user cred : List Char) :
    CredentialIn (es.map Entry.line) user cred ↔ ⟨user, cred⟩ ∈ es := by
  constructor
  · rintro ⟨pre, line, post, he, h1, _⟩
    have : line ∈ es.map Entry.line := by rw [he]; simp
    obtain ⟨e, hm, rfl⟩ := List.mem_map.mp this
    obtain ⟨h1, h2⟩ := gives_unique (gives_line (h e hm)) h1
    rw [← h1, ← h2]
    exact hm
  · intro hm
    obtain ⟨pre, post, rfl⟩ := List.append_of_mem hm
    refine ⟨pre.map Entry.line, _, post.map Entry.line, by simp, gives_line (h _ hm), ?_⟩
    intro l hl c hc
    obtain ⟨e, he, rfl⟩ := List.mem_map.mp hl
    have h1 := (gives_unique (gives_line (h e (by simp [he]))) hc).1
    rw [List.map_append, List.map_cons, List.nodup_append] at hd
    have := (List.nodup_cons.mp hd.2.1).1
    exact this (List.mem_map.mpr ⟨e, he, h1⟩)

/-! ### The tool -/

namespace Passwd

open Spec

variable {ci : CaseEq}

theorem matchName_same {user tail : List Char} (h : SameName ci user tail) (rest : List Char) :
    matchName ci user (tail ++ rest) = some (tail, rest) := by
  induction h with
  | nil => simp [matchName]
  | cons a b x y hab _ ih => simp [matchName, hab, ih]

theorem matchName_some {user text m r : List Char} (h : matchName ci user text = some (m, r)) : text = m ++ r ∧ SameName ci user m := by
  induction user generalizing text m with
  | nil => simp only [matchName, Option.some.injEq, Prod.mk.injEq] at h; obtain ⟨rfl, rfl⟩ := h; exact ⟨rfl, .nil⟩
  | cons p user ih =>
    cases text with
    | nil => cases h
    | cons c text =>
      rw [matchName] at h
      by_cases hc : ci p c = true
      · rw [if_pos hc] at h
        cases hm : matchName ci user text with
        | none => rw [hm] at h; cases h
        | some x =>
          obtain ⟨m', r'⟩ := x
          rw [hm] at h
          cases h
          obtain ⟨h1, h2⟩ := ih hm
          exact ⟨by rw [h1]; rfl, .cons _ _ _ _ hc h2⟩
      · rw [if_neg hc] at h; cases h

theorem sameName_mem {user m : List Char} (h : SameName ci user m) (c : Char) (hc : c ∈ m) : ∃ p ∈ user, ci p c = true := by
  induction h with
  | nil => cases hc
  | cons a b x y hab _ ih =>
    rcases List.mem_cons.mp hc with rfl | hc
    · exact ⟨a, List.mem_cons_self, hab⟩
    · obtain ⟨p, h1, h2⟩ := ih hc
      exact ⟨p, List.mem_cons_of_mem _ h1, h2⟩

theorem sameName_refl (hci : CaseOk ci) (user : List Char) : SameName ci user user := by
  induction user with
  | nil => exact .nil
  | cons c user ih => exact .cons _ _ _ _ (hci.refl c) ih

theorem matchLine_line (l rest : List Char) (h : '\n' ∉ l) : matchLine (l ++ '\n' :: rest) = some (l ++ ['\n'], rest) := by
  induction l with
  | nil => simp [matchLine]
  | cons c l ih =>
    have hc : c ≠ '\n' := fun hc => h (by simp [hc])
    rw [List.cons_append, matchLine, if_neg hc, ih fun hm => h (List.mem_cons_of_mem _ hm)]
    rfl

/-- A match of the name, followed by ':', can only end at a ':' of the text that precedes every line feed. -/
theorem matchEntry_some {user text m rest : List Char} (h : matchEntry ci user text = some (m, rest)) :
    ∃ name r, text = name ++ ':' :: r ∧ SameName ci user name ∧ ∃ l, m = name ++ ':' :: l ∧ r = l ++ rest := by
  unfold matchEntry at h
  split at h
  · next m' r hn =>
    obtain ⟨h1, h2⟩ := matchName_some hn
    cases hl : matchLine r with
    | none => rw [hl] at h; cases h
    | some x =>
      obtain ⟨l, rest'⟩ := x
      rw [hl] at h
      cases h
      refine ⟨m', r, h1, h2, l, rfl, ?_⟩
      clear h1 h2 hn
      induction r generalizing l with
      | nil => cases hl
      | cons c r ih =>
        rw [matchLine] at hl
        by_cases hc : c = '\n'
        · rw [if_pos hc] at hl; cases hl; simp [hc]
        · rw [if_neg hc] at hl
          cases hm : matchLine r with
          | none => rw [hm] at hl; cases hl
          | some y =>
            obtain ⟨a, b⟩ := y
            rw [hm] at hl
            cases hl
            rw [ih _ hm]
            rfl
  · cases h

theorem no_colon_before {x y a b : List Char} (hx : ':' ∉ x) (hy : ':' ∉ y) (h : x ++ ':' :: a = y ++ ':' :: b) : x = y ∧ a = b := by
  have h1 : Gives (x ++ ':' :: a) x a := ⟨hx, rfl⟩
  have h2 : Gives (x ++ ':' :: a) y b := ⟨hy, h⟩
  exact gives_unique h1 h2

/-- Matching inside a line, at or before its ':'. -/
theorem matchEntry_name (hci : CaseOk ci) {user u hash rest : List Char} (huc : ':' ∉ user) (hu : ':' ∉ u) (hh : '\n' ∉ hash) :
    (SameName ci user u → matchEntry ci user (u ++ ':' :: (hash ++ '\n' :: rest)) = some (u ++ ':' :: hash ++ ['\n'], rest))
    ∧ (¬ SameName ci user u → matchEntry ci user (u ++ ':' :: (hash ++ '\n' :: rest)) = none) := by
  constructor
  · intro h
    unfold matchEntry
    rw [matchName_same h]
    simp only
    rw [matchLine_line hash rest hh]
    simp
  · intro h
    cases hm : matchEntry ci user (u ++ ':' :: (hash ++ '\n' :: rest)) with
    | none => rfl
    | some x =>
      obtain ⟨m, r⟩ := x
      obtain ⟨name, r', h1, h2, _⟩ := matchEntry_some hm
      have hn : ':' ∉ name := by
        intro hc
        obtain ⟨p, hp, hpc⟩ := sameName_mem h2 _ hc
        exact huc (hci.colon p hpc ▸ hp)
      have := (no_colon_before hu hn h1).1
      subst this
      exact absurd h2 h

/-- Matching inside the credential of a line: never. -/
theorem matchEntry_hash (hci : CaseOk ci) {user hash rest : List Char} (huc : ':' ∉ user) (hun : '\n' ∉ user) (hc : ':' ∉ hash) :
    matchEntry ci user (hash ++ '\n' :: rest) = none := by
  cases hm : matchEntry ci user (hash ++ '\n' :: rest) with
  | none => rfl
  | some x =>
    obtain ⟨m, r⟩ := x
    obtain ⟨name, r', h1, h2, hl⟩ := matchEntry_some hm
    clear hl
    have hn : ':' ∉ name ∧ '\n' ∉ name := by
      constructor <;> intro hc
      · obtain ⟨p, hp, hpc⟩ := sameName_mem h2 _ hc
        exact huc (hci.colon p hpc ▸ hp)
      · obtain ⟨p, hp, hpc⟩ := sameName_mem h2 _ hc
        exact hun (hci.nl p hpc ▸ hp)
    exfalso
    clear hm h2
    induction hash generalizing name with
    | nil =>
      cases name with
      | nil => simp at h1
      | cons c name => simp only [List.nil_append, List.cons_append, List.cons.injEq] at h1; exact hn.2 (by simp [← h1.1])
    | cons d hash ih =>
      cases name with
      | nil => simp only [List.nil_append, List.cons_append, List.cons.injEq] at h1; exact hc (by simp [h1.1])
      | cons c name =>
        simp only [List.cons_append, List.cons.injEq] at h1
        exact ih (fun h => hc (List.mem_cons_of_mem _ h)) name h1.2
          ⟨fun h => hn.1 (List.mem_cons_of_mem _ h), fun h => hn.2 (List.mem_cons_of_mem _ h)⟩

/-- Prefixing to the text before a match. -/
def prepend (l : List Char) : Option (List Char × List Char × List Char) → Option (List Char × List Char × List Char) :=
  Option.map fun (pre, m, post) => (l ++ pre, m, post)

theorem search_skip {user : List Char} (l rest : List Char)
    (h : ∀ s t, l = s ++ t → t ≠ [] → matchEntry ci user (t ++ rest) = none) :
    search ci user (l ++ rest) = prepend l (search ci user rest) := by
  induction l with
  | nil =>
    cases hs : search ci user rest with
    | none => rw [List.nil_append, hs]; rfl
    | some x => rw [List.nil_append, hs]; rfl
  | cons c l ih =>
    have h0 := h [] (c :: l) rfl (by simp)
    rw [List.cons_append] at h0 ⊢
    rw [search, h0, ih fun s t hst ht => h (c :: s) t (by rw [hst]; rfl) ht]
    cases hs : search ci user rest with
    | none => rfl
    | some x => rfl

/-- The search passes over entries whose name does not end like the user's. -/
theorem search_other (hci : CaseOk ci) {user : List Char} (huc : ':' ∉ user) (hun : '\n' ∉ user) (es : List Entry) (rest : List Char)
    (h : ∀ e ∈ es, e.Ok ∧ ¬ EndsLike ci user e.user) :
    search ci user (fileOf es ++ rest) = prepend (fileOf es) (search ci user rest) := by
  induction es with
  | nil => cases hs : search ci user rest <;> simp [fileOf, hs, prepend]
  | cons e es ih =>
    obtain ⟨hok, hne⟩ := h e List.mem_cons_self
    have hf : fileOf (e :: es) = (e.line ++ ['\n']) ++ fileOf es := by simp [fileOf]
    rw [hf, List.append_assoc, search_skip, ih fun e he => h e (List.mem_cons_of_mem _ he)]
    · cases search ci user rest <;> simp [prepend]
    · intro s t hst ht
      have hst : e.user ++ (':' :: (e.hash ++ ['\n'])) = s ++ t := by rw [← hst]; simp [Entry.line]
      rcases List.append_eq_append_iff.mp hst with ⟨x, h1, h2⟩ | ⟨x, h1, h2⟩
      · -- `t` lies behind the name
        cases x with
        | nil =>
          simp only [List.nil_append] at h2
          rw [← h2]
          have := (matchEntry_name hci (u := []) (hash := e.hash) (rest := fileOf es ++ rest) huc (by simp) hok.hashNl).2
            (fun hs => hne ⟨e.user, [], by simp, hs⟩)
          simpa using this
        | cons c x =>
          simp only [List.cons_append, List.cons.injEq] at h2
          obtain ⟨rfl, h2⟩ := h2
          rcases List.eq_nil_or_concat t with rfl | ⟨t', z, rfl⟩
          · exact absurd rfl ht
          · rw [List.concat_eq_append, ← List.append_assoc] at h2
            have hz := List.append_inj_right' h2 rfl
            have hx := List.append_inj_left' h2 rfl
            simp only [List.cons.injEq, and_true] at hz
            subst hz
            rw [List.concat_eq_append, List.append_assoc]
            have hc : ':' ∉ t' := fun hc => hok.hashColon (by rw [hx]; simp [hc])
            exact matchEntry_hash hci huc hun hc
      · -- `t` begins inside the name
        rw [h2]
        have := (matchEntry_name hci (u := x) (hash := e.hash) (rest := fileOf es ++ rest) huc
          (fun hc => hok.userColon (by rw [h1]; simp [hc])) hok.hashNl).2 (fun hs => hne ⟨s, x, h1, hs⟩)
        simpa using this

theorem search_found (hci : CaseOk ci) {e : Entry} (hok : e.Ok) (rest : List Char) :
    search ci e.user (e.line ++ '\n' :: rest) = some ([], e.line ++ ['\n'], rest) := by
  have h := (matchEntry_name hci (user := e.user) (u := e.user) (hash := e.hash) (rest := rest) hok.userColon hok.userColon hok.hashNl).1
    (sameName_refl hci e.user)
  have he : e.line ++ '\n' :: rest = e.user ++ ':' :: (e.hash ++ '\n' :: rest) := by simp [Entry.line]
  rw [he]
  cases hu : e.user ++ ':' :: (e.hash ++ '\n' :: rest) with
  | nil => simp at hu
  | cons c cs =>
    rw [hu] at h
    rw [search, h]
    simp [Entry.line]

theorem search_none (hci : CaseOk ci) {user : List Char} (huc : ':' ∉ user) (hun : '\n' ∉ user) (es : List Entry)
    (h : ∀ e ∈ es, e.Ok ∧ ¬ EndsLike ci user e.user) : search ci user (fileOf es) = none := by
  have := search_other hci huc hun es [] h
  rw [List.append_nil] at this
  rw [this]
  have : search ci user [] = none := by
    rw [search]
    cases hm : matchEntry ci user [] with
    | none => rfl
    | some x =>
      obtain ⟨m, r⟩ := x
      obtain ⟨name, r', h1, _⟩ := matchEntry_some hm
      simp at h1
  rw [this]
  rfl

theorem expand_escapeDollar (m t : List Char) : expand m (escapeDollar t) = t := by
  induction t with
  | nil => rw [escapeDollar, List.flatMap_nil, expand]
  | cons c t ih =>
    unfold escapeDollar at ih ⊢
    rw [List.flatMap_cons]
    by_cases hc : c = '$'
    · subst hc
      rw [if_pos rfl]
      rw [List.cons_append, List.cons_append, List.nil_append]
      rw [expand, ih]
    · rw [if_neg hc]
      rw [List.cons_append, List.nil_append]
      rw [expand, ih]
      · exact fun r h _ => hc h
      · exact fun h => hc h

theorem run_of_search {user text pre m post : List Char} (h : search ci user text = some (pre, m, post)) (hash : List Char) :
    run ci user (.set hash) text = pre ++ (user ++ ':' :: hash ++ ['\n']) ++ post ∧ run ci user .delete text = pre ++ post := by
  constructor
  · simp only [run, updated, isMatch, h, Option.isSome_some, ↓reduceIte, replaceFirst, Option.getD_some, expand_escapeDollar, buildEntry]
  · simp only [run, updated, isMatch, h, Option.isSome_some, ↓reduceIte, replaceFirst, Option.getD_some]
    rw [expand]
    simp

/-- A name in the file: its entry is replaced by the new text, whatever that is. -/
theorem run_present (hci : CaseOk ci) (pre post : List Entry) (e : Entry) (hash : List Char) (hok : e.Ok)
    (h : ∀ x ∈ pre, x.Ok ∧ ¬ EndsLike ci e.user x.user) :
    run ci e.user (.set hash) (fileOf (pre ++ e :: post)) = fileOf (pre ++ ⟨e.user, hash⟩ :: post)
    ∧ run ci e.user .delete (fileOf (pre ++ e :: post)) = fileOf (pre ++ post) := by
  have hf : fileOf (pre ++ e :: post) = fileOf pre ++ (e.line ++ '\n' :: fileOf post) := by simp [fileOf]
  have hs : search ci e.user (fileOf (pre ++ e :: post)) = some (fileOf pre, e.line ++ ['\n'], fileOf post) := by
    rw [hf, search_other hci hok.userColon hok.userNl pre _ h, search_found hci hok]
    simp [prepend]
  constructor
  · simp only [run, updated, isMatch, hs, Option.isSome_some, ↓reduceIte, replaceFirst, Option.getD_some, expand_escapeDollar, buildEntry]
    simp [fileOf, Entry.line]
  · simp only [run, updated, isMatch, hs, Option.isSome_some, ↓reduceIte, replaceFirst, Option.getD_some]
    rw [expand]
    simp [fileOf]

/-- A name not in the file: its entry is appended, there is nothing to delete. -/
theorem run_absent (hci : CaseOk ci) (es : List Entry) (user hash : List Char) (huc : ':' ∉ user) (hun : '\n' ∉ user)
    (h : ∀ x ∈ es, x.Ok ∧ ¬ EndsLike ci user x.user) :
    run ci user (.set hash) (fileOf es) = fileOf (es ++ [⟨user, hash⟩]) ∧ run ci user .delete (fileOf es) = fileOf es := by
  have hs := search_none hci huc hun es h
  constructor
  · simp only [run, updated, isMatch, hs, Option.isSome_none, Bool.false_eq_true, ↓reduceIte, Option.getD_some, buildEntry]
    simp [fileOf, Entry.line]
  · simp [run, updated, isMatch, hs]

end Passwd

end Ratel
