/-
C56, C57, C59–C62: the password file and the tool that edits it.
-/
import Verif.Proofs.PasswordFile

namespace Ratel

open Spec

/-! ### C56 -/

/-- C56: a file is accepted exactly when each of its lines contains ':'. -/
theorem C56_accepted (sv : StdVersion) (text : List Char) (ls : List (List Char)) (h : FileLines sv text ls) :
    (FileIdentityManager.new sv text).isSome = true ↔ ∀ l ∈ ls, ':' ∈ l := by
  rw [FileIdentityManager.new, Option.isSome_map, lines_of_fileLines h]
  exact loadLines_isSome ls []

/-- C56: the credential of a user in an accepted file is the one its last line for that user gives. -/
theorem C56_credential (sv : StdVersion) (text : List Char) (ls : List (List Char)) (h : FileLines sv text ls)
    (f : FileIdentityManager) (hf : FileIdentityManager.new sv text = some f) (user cred : String) :
    f.passwordsByUsername.get? user = some cred ↔ CredentialIn ls user.toList cred.toList := by
  rw [FileIdentityManager.new, lines_of_fileLines h, Option.map_eq_some_iff] at hf
  obtain ⟨m, hm, rfl⟩ := hf
  rw [loadLines_get ls [] m hm user cred]
  constructor
  · rintro (h | ⟨h, _⟩)
    · exact h
    · cases h
  · exact .inl

/-- C56: every text has lines, and only one way of dividing it into lines. -/
theorem C56_lines (sv : StdVersion) (text : List Char) : ∃ ls, FileLines sv text ls ∧ ∀ ls', FileLines sv text ls' → ls' = ls := by
  obtain ⟨ls, h⟩ := exists_fileLines sv text
  exact ⟨ls, h, fun ls' h' => by rw [← lines_of_fileLines h, ← lines_of_fileLines h']⟩

/-- Two entries for `a`, one of them with a carriage return and a second colon; the last one counts. -/
example (sv : StdVersion) : ∃ f, FileIdentityManager.new sv "a:1\nb:2:3\r\na:4\n".toList = some f
    ∧ f.passwordsByUsername.get? "a" = some "4" ∧ f.passwordsByUsername.get? "b" = some "2:3" := by
  cases sv with
  | mk b => cases b <;> exact ⟨_, rfl, by decide +kernel, by decide +kernel⟩

/-- An empty line makes the whole file invalid. -/
example (sv : StdVersion) : FileIdentityManager.new sv "a:1\n\nb:2\n".toList = none := by cases sv with | mk b => cases b <;> rfl

/-! ### C57 -/

/-- C57: who is authenticated, in terms of the lines of the file. -/
theorem C57_success (sv : StdVersion) (hs : Hashing) (text : List Char) (ls : List (List Char)) (h : FileLines sv text ls)
    (f : FileIdentityManager) (hf : FileIdentityManager.new sv text = some f) (user password : String) :
    f.authenticate hs user password = .ok ()
      ↔ ∃ cred, CredentialIn ls user.toList cred.toList ∧ ∃ hash, hs.parse cred = some hash ∧ hs.verify (strBytes password) hash = true := by
  simp only [← C56_credential sv text ls h f hf]
  unfold FileIdentityManager.authenticate
  cases hg : f.passwordsByUsername.get? user with
  | none => simp
  | some cred =>
    cases hp : hs.parse cred with
    | none => simp [hp]
    | some hash => cases hv : hs.verify (strBytes password) hash <;> simp [hp, hv]

/-- C57: who is reported as unknown. -/
theorem C57_unknown (sv : StdVersion) (hs : Hashing) (text : List Char) (ls : List (List Char)) (h : FileLines sv text ls)
    (f : FileIdentityManager) (hf : FileIdentityManager.new sv text = some f) (user password : String) :
    f.authenticate hs user password = .error .userNotFound ↔ ¬ ∃ cred : String, CredentialIn ls user.toList cred.toList := by
  simp only [← C56_credential sv text ls h f hf]
  unfold FileIdentityManager.authenticate
  cases hg : f.passwordsByUsername.get? user with
  | none => simp
  | some cred =>
    cases hp : hs.parse cred with
    | none => simp [hp]
    | some hash => cases hv : hs.verify (strBytes password) hash <;> simp [hp, hv]

/-- A toy hash function: the hash is the password. -/
def plainHashing : Hashing := ⟨String, some, fun pw h => pw == strBytes h⟩

example (sv : StdVersion) : ∃ f, FileIdentityManager.new sv "a:1\nb:2\n".toList = some f
    ∧ f.authenticate plainHashing "b" "2" = .ok () ∧ f.authenticate plainHashing "b" "1" = .error .invalidPassword
    ∧ f.authenticate plainHashing "B" "2" = .error .userNotFound := by
  cases sv with
  | mk b => cases b <;> exact ⟨_, rfl, rfl, rfl, rfl⟩

/-! ### C59–C62: the tool -/

/-- A password file the tool itself could have written: entries on lines of their own, every user once. -/
structure WellFormed (es : List Entry) : Prop where
  ok : ∀ e ∈ es, e.Ok
  distinct : (es.map Entry.user).Nodup

/-- The broker, loading `text`, has exactly these credentials. -/
def Loads (sv : StdVersion) (text : List Char) (es : List Entry) : Prop :=
  ∃ f, FileIdentityManager.new sv text = some f
    ∧ ∀ user cred : List Char, f.passwordsByUsername.get? (String.ofList user) = some (String.ofList cred) ↔ ⟨user, cred⟩ ∈ es

theorem loads_fileOf (sv : StdVersion) {es : List Entry} (h : WellFormed es) : Loads sv (fileOf es) es := by
  have hl := fileLines_fileOf sv es h.ok
  have ha : (FileIdentityManager.new sv (fileOf es)).isSome = true := (C56_accepted sv _ _ hl).mpr (by
    intro l hl
    obtain ⟨e, _, rfl⟩ := List.mem_map.mp hl
    simp [Entry.line])
  obtain ⟨f, hf⟩ := Option.isSome_iff_exists.mp ha
  refine ⟨f, hf, fun user cred => ?_⟩
  rw [C56_credential sv _ _ hl f hf, String.toList_ofList, String.toList_ofList, credentialIn_entries h.ok h.distinct]

/-- Loading a file without disturbance: what a well-formed file means to the broker. -/
example (sv : StdVersion) : Loads sv "ann:1\nbob:2\n".toList [⟨"ann".toList, "1".toList⟩, ⟨"bob".toList, "2".toList⟩] := by
  refine loads_fileOf sv (es := [⟨"ann".toList, "1".toList⟩, ⟨"bob".toList, "2".toList⟩]) ⟨?_, by decide +kernel⟩
  intro e he
  simp only [List.mem_cons, List.not_mem_nil, or_false] at he
  rcases he with rfl | rfl <;> exact ⟨by decide +kernel, by decide +kernel, by decide +kernel, by decide +kernel, fun x hx => by
    have := congrArg List.getLast? hx
    simp at this⟩

/-- No name of another user ends like `user`. -/
def NoneEndsLike (ci : Char → Char → Bool) (user : List Char) (es : List Entry) : Prop :=
  ∀ e ∈ es, e.user ≠ user → ¬ EndsLike ci user e.user

/-- C59, C60 for files where no other name ends like the user's: the broker then has the new credential for the user
and the old ones for everybody else. -/
theorem set_loads (sv : StdVersion) {ci : Char → Char → Bool} (hci : CaseOk ci) {es : List Entry} (h : WellFormed es)
    {user hash : List Char} (hok : (Entry.mk user hash).Ok) (hne : NoneEndsLike ci user es) :
    ∃ es', Loads sv (Passwd.run ci user (.set hash) (fileOf es)) es'
      ∧ ∀ e : Entry, e ∈ es' ↔ if e.user = user then e.hash = hash else e ∈ es := by
  by_cases hm : user ∈ es.map Entry.user
  · obtain ⟨e, he, rfl⟩ := List.mem_map.mp hm
    obtain ⟨pre, post, rfl⟩ := List.append_of_mem he
    have hd := h.distinct
    rw [List.map_append, List.map_cons, List.nodup_append] at hd
    obtain ⟨hd1, hd2, hd3⟩ := hd
    have hpre : ∀ x ∈ pre, x.user ≠ e.user := fun x hx => hd3 _ (List.mem_map_of_mem hx) _ (by simp)
    have hpost : ∀ x ∈ post, x.user ≠ e.user := fun x hx hx' =>
      (List.nodup_cons.mp hd2).1 (hx' ▸ List.mem_map_of_mem hx)
    rw [(Passwd.run_present hci pre post e hash (h.ok e he)
      fun x hx => ⟨h.ok x (by simp [hx]), hne x (by simp [hx]) (hpre x hx)⟩).1]
    refine ⟨_, loads_fileOf sv (es := pre ++ ⟨e.user, hash⟩ :: post) ⟨?_, ?_⟩, ?_⟩
    · intro x hx
      rcases List.mem_append.mp hx with hx | hx
      · exact h.ok x (by simp [hx])
      · rcases List.mem_cons.mp hx with rfl | hx
        · exact hok
        · exact h.ok x (by simp [hx])
    · have := h.distinct
      simpa using this
    · intro x
      simp only [List.mem_append, List.mem_cons]
      by_cases hx : x.user = e.user
      · rw [if_pos hx]
        constructor
        · rintro (h | rfl | h)
          · exact absurd hx (hpre x h)
          · rfl
          · exact absurd hx (hpost x h)
        · rintro rfl
          exact .inr (.inl (by rw [← hx]))
      · rw [if_neg hx]
        constructor
        · rintro (h | rfl | h)
          · exact .inl h
          · exact absurd rfl hx
          · exact .inr (.inr h)
        · rintro (h | rfl | h)
          · exact .inl h
          · exact absurd rfl hx
          · exact .inr (.inr h)
  · have hne' : ∀ x ∈ es, x.user ≠ user := fun x hx hx' => hm (hx' ▸ List.mem_map_of_mem hx)
    rw [(Passwd.run_absent hci es user hash hok.userColon hok.userNl fun x hx => ⟨h.ok x hx, hne x hx (hne' x hx)⟩).1]
    refine ⟨_, loads_fileOf sv (es := es ++ [⟨user, hash⟩]) ⟨?_, ?_⟩, ?_⟩
    · intro x hx
      rcases List.mem_append.mp hx with hx | hx
      · exact h.ok x hx
      · rw [List.mem_singleton] at hx
        exact hx ▸ hok
    · rw [List.map_append, List.nodup_append]
      refine ⟨h.distinct, by simp, ?_⟩
      intro a ha b hb
      obtain ⟨x, hx, rfl⟩ := List.mem_map.mp ha
      simp only [List.map_cons, List.map_nil, List.mem_singleton] at hb
      exact hb ▸ hne' x hx
    · intro x
      simp only [List.mem_append, List.mem_singleton]
      by_cases hx : x.user = user
      · rw [if_pos hx]
        constructor
        · rintro (h | rfl)
          · exact absurd hx (hne' x h)
          · rfl
        · rintro rfl
          exact .inr (by rw [← hx])
      · rw [if_neg hx]
        constructor
        · rintro (h | rfl)
          · exact h
          · exact absurd rfl hx
        · exact .inl

/-- C59 restricted to files where no other name ends like the user's: after setting the password the broker authenticates the user
with it. `hash` is what the hashing library returned for the password. Missing: names ending like each other (see below), names or
hashes containing ':' or line feeds, and files not ending with a line feed. -/
theorem C59_set_works_partial (sv : StdVersion) (ci : Char → Char → Bool) (hci : CaseOk ci) (hs : Hashing) (es : List Entry)
    (h : WellFormed es) (user hash : List Char) (password : String) (hok : (Entry.mk user hash).Ok) (hne : NoneEndsLike ci user es)
    (parsed : hs.Hash) (hp : hs.parse (String.ofList hash) = some parsed) (hv : hs.verify (strBytes password) parsed = true) :
    ∃ f, FileIdentityManager.new sv (Passwd.run ci user (.set hash) (fileOf es)) = some f
      ∧ f.authenticate hs (String.ofList user) password = .ok () := by
  obtain ⟨es', ⟨f, hf, hl⟩, he⟩ := set_loads sv hci h hok hne
  refine ⟨f, hf, ?_⟩
  have hg := (hl user hash).mpr ((he _).mpr (by rw [if_pos rfl]))
  simp [FileIdentityManager.authenticate, hg, hp, hv]

/-- C60 restricted like C59: every other user's credential is what it was. -/
theorem C60_others_partial (sv : StdVersion) (ci : Char → Char → Bool) (hci : CaseOk ci) (es : List Entry)
    (h : WellFormed es) (user hash : List Char) (hok : (Entry.mk user hash).Ok) (hne : NoneEndsLike ci user es) :
    ∃ f, FileIdentityManager.new sv (Passwd.run ci user (.set hash) (fileOf es)) = some f
      ∧ ∀ other cred : List Char, other ≠ user →
          (f.passwordsByUsername.get? (String.ofList other) = some (String.ofList cred) ↔ ⟨other, cred⟩ ∈ es) := by
  obtain ⟨es', ⟨f, hf, hl⟩, he⟩ := set_loads sv hci h hok hne
  refine ⟨f, hf, fun other cred ho => ?_⟩
  rw [hl, he, if_neg ho]

/-- C61 restricted like C59: afterwards the file holds the other users' entries, each as before, and no others. -/
theorem C61_delete_works_partial (sv : StdVersion) (ci : Char → Char → Bool) (hci : CaseOk ci) (es : List Entry)
    (h : WellFormed es) (user : List Char) (hu : ':' ∉ user) (hn : '\n' ∉ user) (hne : NoneEndsLike ci user es) :
    Passwd.run ci user .delete (fileOf es) = fileOf (es.filter fun e => e.user ≠ user)
    ∧ ∃ f, FileIdentityManager.new sv (Passwd.run ci user .delete (fileOf es)) = some f
      ∧ ∀ other cred : List Char,
          f.passwordsByUsername.get? (String.ofList other) = some (String.ofList cred) ↔ other ≠ user ∧ ⟨other, cred⟩ ∈ es := by
  have hfile : Passwd.run ci user .delete (fileOf es) = fileOf (es.filter fun e => e.user ≠ user) := by
    by_cases hm : user ∈ es.map Entry.user
    · obtain ⟨e, he, rfl⟩ := List.mem_map.mp hm
      obtain ⟨pre, post, rfl⟩ := List.append_of_mem he
      have hd := h.distinct
      rw [List.map_append, List.map_cons, List.nodup_append] at hd
      obtain ⟨hd1, hd2, hd3⟩ := hd
      have hpre : ∀ x ∈ pre, x.user ≠ e.user := fun x hx => hd3 _ (List.mem_map_of_mem hx) _ (by simp)
      have hpost : ∀ x ∈ post, x.user ≠ e.user := fun x hx hx' =>
        (List.nodup_cons.mp hd2).1 (hx' ▸ List.mem_map_of_mem hx)
      rw [(Passwd.run_present hci pre post e [] (h.ok e he)
        fun x hx => ⟨h.ok x (by simp [hx]), hne x (by simp [hx]) (hpre x hx)⟩).2]
      congr 1
      rw [List.filter_append, List.filter_cons_of_neg (by simp), List.filter_eq_self.mpr fun x hx => by simp [hpre x hx],
        List.filter_eq_self.mpr fun x hx => by simp [hpost x hx]]
    · have hne' : ∀ x ∈ es, x.user ≠ user := fun x hx hx' => hm (hx' ▸ List.mem_map_of_mem hx)
      rw [(Passwd.run_absent hci es user [] hu hn fun x hx => ⟨h.ok x hx, hne x hx (hne' x hx)⟩).2,
        List.filter_eq_self.mpr fun x hx => by simp [hne' x hx]]
  refine ⟨hfile, ?_⟩
  have hwf : WellFormed (es.filter fun e => e.user ≠ user) :=
    ⟨fun e he => h.ok e (List.mem_filter.mp he).1, h.distinct.sublist (List.filter_sublist.map _)⟩
  obtain ⟨f, hf, hl⟩ := loads_fileOf sv hwf
  refine ⟨f, hfile ▸ hf, fun other cred => ?_⟩
  rw [hl, List.mem_filter]
  simp [and_comm]

/-- C62: the '$' signs of an entry survive: the text inserted by the replacement is the entry itself, whatever was matched. -/
theorem C62_verbatim (matched text : List Char) : Passwd.expand matched (Passwd.escapeDollar text) = text :=
  Passwd.expand_escapeDollar matched text

/-- C62, about the file: whether the tool replaces or appends, the new entry appears in it literally. -/
theorem C62_in_file (ci : Char → Char → Bool) (user hash text : List Char) :
    ∃ pre post, Passwd.run ci user (.set hash) text = pre ++ (user ++ ':' :: hash ++ ['\n']) ++ post := by
  unfold Passwd.run Passwd.updated Passwd.isMatch Passwd.replaceFirst
  cases hs : Passwd.search ci user text with
  | none => exact ⟨text, [], by simp [Passwd.buildEntry]⟩
  | some x =>
    obtain ⟨pre, m, post⟩ := x
    refine ⟨pre, post, ?_⟩
    simp [Passwd.expand_escapeDollar, Passwd.buildEntry]

/-- Case-insensitive comparison of ASCII letters. -/
def asciiCase (a b : Char) : Bool := a.toLower == b.toLower

theorem asciiCase_ok : CaseOk asciiCase := by
  have key : ∀ (c d : Char), (d = ':' ∨ d = '\n') → asciiCase c d = true → c = d := by
    intro c d hd h
    simp only [asciiCase, beq_iff_eq] at h
    have hd' : d.toLower = d := by rcases hd with rfl | rfl <;> decide
    rw [hd'] at h
    unfold Char.toLower at h
    split at h
    · rename_i hc
      exfalso
      have h2 := congrArg (fun c : Char => c.val.toNat) h
      have h3 := hc.1
      have h4 := hc.2
      simp only [GE.ge, UInt32.le_iff_toNat_le] at h3 h4
      rcases hd with rfl | rfl <;> simp [UInt32.toNat_add] at h2 h3 h4 <;> omega
    · exact h
  exact ⟨fun c => by simp [asciiCase], fun c h => key c _ (.inl rfl) h, fun c h => key c _ (.inr rfl) h⟩

/-- `$argon2` hashes survive, though `$0` and `$1` mean something to the regular-expression library. -/
example : Passwd.run asciiCase "bob".toList (.set "$argon2id$1$0".toList) "ann:1\nbob:$0$2\n".toList = "ann:1\nbob:$argon2id$1$0\n".toList := by
  rw [(Passwd.run_of_search (pre := "ann:1\n".toList) (m := "bob:$0$2\n".toList) (post := []) (by decide +kernel) _).1]
  decide +kernel

/-- The restricted theorems apply to an ordinary file, for setting and for deleting. -/
example : NoneEndsLike asciiCase "bob".toList [⟨"ann".toList, "1".toList⟩, ⟨"bob".toList, "2".toList⟩] := by
  rintro e he hne ⟨pre, tail, h1, h2⟩
  simp only [List.mem_cons, List.not_mem_nil, or_false] at he
  rcases he with rfl | rfl
  · cases h2 with
    | cons a b x y h3 h4 =>
    cases h4 with
    | cons a b x y h4 h5 =>
    cases h5 with
    | cons a b x y h5 h6 =>
    cases h6
    have := congrArg List.getLast? h1
    simp at this
    subst this
    exact absurd h5 (by decide +kernel)
  · exact hne rfl

/-- The file of the counterexamples: one user, whose name ends with another name. -/
def rebob : List Entry := [⟨"rebob".toList, "1".toList⟩]

theorem rebob_wellFormed : WellFormed rebob := by
  refine ⟨?_, by decide +kernel⟩
  intro e he
  simp only [rebob, List.mem_singleton] at he
  subst he
  exact ⟨by decide +kernel, by decide +kernel, by decide +kernel, by decide +kernel, fun x hx => by
    have := congrArg List.getLast? hx
    simp at this⟩

theorem bob_ok : (Entry.mk "bob".toList "2".toList).Ok :=
  ⟨by decide +kernel, by decide +kernel, by decide +kernel, by decide +kernel, fun x hx => by
    have := congrArg List.getLast? hx
    simp at this⟩

theorem rebob_run : Passwd.run asciiCase "bob".toList (.set "2".toList) (fileOf rebob) = "rebob:2\n".toList
    ∧ Passwd.run asciiCase "bob".toList .delete (fileOf rebob) = "re".toList := by
  have h := Passwd.run_of_search (ci := asciiCase) (user := "bob".toList) (text := fileOf rebob) (pre := "re".toList)
    (m := "bob:1\n".toList) (post := []) (by decide +kernel) "2".toList
  rw [h.1, h.2]
  constructor <;> decide +kernel

/-- C59 fails: with the single user `rebob` in the file, setting the password of `bob` overwrites the credential of `rebob`,
and `bob` remains unknown. -/
theorem C59_set_works_fails : ¬ ∀ (sv : StdVersion) (ci : Char → Char → Bool), CaseOk ci → ∀ (hs : Hashing) (es : List Entry),
    WellFormed es → ∀ (user hash : List Char) (password : String), (Entry.mk user hash).Ok →
    ∀ parsed : hs.Hash, hs.parse (String.ofList hash) = some parsed → hs.verify (strBytes password) parsed = true →
    ∃ f, FileIdentityManager.new sv (Passwd.run ci user (.set hash) (fileOf es)) = some f
      ∧ f.authenticate hs (String.ofList user) password = .ok () := by
  intro h
  obtain ⟨f, hf, ha⟩ := h ⟨true⟩ asciiCase asciiCase_ok plainHashing rebob rebob_wellFormed "bob".toList "2".toList "2" bob_ok
    (String.ofList "2".toList) rfl (by decide +kernel)
  rw [rebob_run.1] at hf
  cases hf
  cases ha

/-- C60 fails: the same run changes the credential of `rebob`. -/
theorem C60_others_fails : ¬ ∀ (sv : StdVersion) (ci : Char → Char → Bool), CaseOk ci → ∀ (es : List Entry),
    WellFormed es → ∀ (user hash : List Char), (Entry.mk user hash).Ok →
    ∃ f, FileIdentityManager.new sv (Passwd.run ci user (.set hash) (fileOf es)) = some f
      ∧ ∀ other cred : List Char, other ≠ user →
          (f.passwordsByUsername.get? (String.ofList other) = some (String.ofList cred) ↔ ⟨other, cred⟩ ∈ es) := by
  intro h
  obtain ⟨f, hf, ha⟩ := h ⟨true⟩ asciiCase asciiCase_ok rebob rebob_wellFormed "bob".toList "2".toList bob_ok
  rw [rebob_run.1] at hf
  cases hf
  have := (ha "rebob".toList "2".toList (by decide +kernel)).mp (by decide +kernel)
  exact absurd this (by decide +kernel)

/-- C61 fails: deleting the absent user `bob` destroys the entry of `rebob`; the broker does not even accept the resulting file. -/
theorem C61_delete_works_fails : ¬ ∀ (sv : StdVersion) (ci : Char → Char → Bool), CaseOk ci → ∀ (es : List Entry),
    WellFormed es → ∀ (user : List Char), ':' ∉ user → '\n' ∉ user →
    ∃ f, FileIdentityManager.new sv (Passwd.run ci user .delete (fileOf es)) = some f
      ∧ ∀ other cred : List Char,
          f.passwordsByUsername.get? (String.ofList other) = some (String.ofList cred) ↔ other ≠ user ∧ ⟨other, cred⟩ ∈ es := by
  intro h
  obtain ⟨f, hf, ha⟩ := h ⟨true⟩ asciiCase asciiCase_ok rebob rebob_wellFormed "bob".toList (by decide +kernel) (by decide +kernel)
  rw [rebob_run.2] at hf
  cases hf

end Ratel
