/-
C126–C128: the password tool and its file.
-/
import Verif.Props.Boot

namespace Ratel

open Spec Sys

/-! ### C126 -/

theorem fileOf_ne_nil {es : List Entry} (hes : es ≠ []) : fileOf es ≠ [] := by
  cases es with
  | nil => exact absurd rfl hes
  | cons e es => simp [fileOf]

theorem run_set_ne_nil (ci : Char → Char → Bool) (user hash text : List Char) : Passwd.run ci user (.set hash) text ≠ [] := by
  cases hs : Passwd.search ci user text with
  | none => simp [Passwd.run, Passwd.updated, Passwd.isMatch, hs, Passwd.buildEntry]
  | some x =>
    obtain ⟨pre, m, post⟩ := x
    rw [(Passwd.run_of_search hs hash).1]
    simp

/-- C126 is violated: whenever the tool sets a password there is a moment at which the file is empty, so that an interrupted run loses all
users. If the file was a password file with at least one entry, this is neither the old nor the new content. -/
theorem C126_atomic_fails (ci : Char → Char → Bool) (es : List Entry) (hes : es ≠ []) (user hash : List Char) :
    some [] ∈ (Passwd.main ci user (.set hash) (some (fileOf es))).moments
    ∧ [] ≠ fileOf es ∧ [] ≠ Passwd.run ci user (.set hash) (fileOf es) := by
  refine ⟨?_, (fileOf_ne_nil hes).symm, Ne.symm (run_set_ne_nil ci user hash _)⟩
  have : ∃ x, Passwd.updated ci user (.set hash) (fileOf es) = some x := by
    unfold Passwd.updated
    split <;> exact ⟨_, rfl⟩
  obtain ⟨x, hx⟩ := this
  simp [Passwd.main, hx]

/-- C126: a broker started at that moment starts, and refuses every client that gives a user name, as long as it runs. -/
theorem C126_started_meanwhile_fails (sv : StdVersion) (hs : Hashing) (env : Env) (W : Nat) (s : Settings)
    (read : String → Option (List Char)) (hread : read s.passwordFile = some []) (peers : ConnId → Peer) :
    ∃ env' b, Boot.launch sv hs env peers (some s) read = some (env', b)
      ∧ ∀ bs d p, Decodes env.profile (peers d).segs.flatten (peers d).fin [.connect p] → p.userName ≠ none →
        ∀ a, .controlPacket (.connAck a) ∈ ((b.run env' W bs).proc.sys.conns d).delivered → a = ⟨false, .notAuthorized⟩ := by
  have hls : FileLines sv [] [] := .empty
  obtain ⟨env', b, hlaunch⟩ := (C116_launch sv hs env peers (some s) read).1.mpr ⟨s, _, _, rfl, hread, hls, by simp⟩
  refine ⟨env', b, hlaunch, fun bs d p hp hpu a ha => ?_⟩
  obtain ⟨q, ps, hq, hor⟩ := C118_access sv hs env _ peers s read _ _ _ W hlaunch hread hls bs d a ha
  have := Decodes.head hq hp
  cases this
  rcases hor with ⟨_, had⟩ | ⟨rfl, _⟩
  · rcases had with h | ⟨_, _, _, _, _, ⟨pre, line, post, h, _⟩, _⟩
    · exact absurd h hpu
    · cases pre <;> cases h
  · rfl

/-- C126, what holds: apart from that moment the file holds the old or the new content; it is the old one as long as nothing is written, and
in particular if the tool panics; if there is nothing to change nothing is written; and in the end it is what C59 to C61 speak about. -/
theorem C126_moments_partial (ci : Char → Char → Bool) (user : List Char) (action : Passwd.Action) (file : Option (List Char)) :
    ((Passwd.main ci user action file).moments.head? = some file)
    ∧ (∀ x ∈ (Passwd.main ci user action file).moments, x = file ∨ x = some [] ∨ x = file.map (Passwd.run ci user action))
    ∧ (Passwd.main ci user action file).moments.getLast? = some (file.map (Passwd.run ci user action))
    ∧ ((Passwd.main ci user action file).panicked = true → (Passwd.main ci user action file).moments = [file])
    ∧ (∀ es, file = some (fileOf es) → action = .delete → CaseOk ci → ':' ∉ user → '\n' ∉ user →
        (∀ e ∈ es, e.Ok ∧ ¬ EndsLike ci user e.user) → (Passwd.main ci user action file).moments = [file]) := by
  refine ⟨?_, ?_, ?_, ?_, ?_⟩
  iterate 4
    cases file with
    | none => simp [Passwd.main]
    | some t => cases hu : Passwd.updated ci user action t <;> simp [Passwd.main, Passwd.run, hu]
  rintro es rfl rfl hci huc hun hes
  have hs := Passwd.search_none hci huc hun es hes
  simp [Passwd.main, Passwd.updated, Passwd.isMatch, hs]

example : Passwd.main (fun a b => a == b) "bob".toList (.set "h2".toList) (some "bob:h1\namy:h3\n".toList)
    = ⟨[some "bob:h1\namy:h3\n".toList, some [], some "bob:h2\namy:h3\n".toList], false⟩ := by decide +kernel

example : Passwd.main (fun a b => a == b) "eve".toList .delete (some "bob:h1\namy:h3\n".toList)
    = ⟨[some "bob:h1\namy:h3\n".toList], false⟩ := by decide +kernel

/-! ### C127 -/

/-- C127 is violated: if there is no file the tool panics and there is still none. -/
theorem C127_first_user_fails (ci : Char → Char → Bool) (user hash : List Char) :
    (Passwd.main ci user (.set hash) none).panicked = true ∧ (Passwd.main ci user (.set hash) none).moments = [none] := ⟨rfl, rfl⟩

/-- C127, what holds: with an empty file to begin with, the file in the end holds exactly the new entry, and the broker loading it
authenticates the user. -/
theorem C127_first_user_partial (sv : StdVersion) (ci : Char → Char → Bool) (hci : CaseOk ci) (hs : Hashing) (user hash : List Char)
    (password : String) (hok : (Entry.mk user hash).Ok) (parsed : hs.Hash) (hp : hs.parse (String.ofList hash) = some parsed)
    (hv : hs.verify (strBytes password) parsed = true) :
    (Passwd.main ci user (.set hash) (some [])).panicked = false
    ∧ (Passwd.main ci user (.set hash) (some [])).moments.getLast? = some (some (fileOf [⟨user, hash⟩]))
    ∧ ∃ f, FileIdentityManager.new sv (fileOf [⟨user, hash⟩]) = some f ∧ f.authenticate hs (String.ofList user) password = .ok () := by
  have hrun : Passwd.run ci user (.set hash) [] = fileOf [⟨user, hash⟩] :=
    (Passwd.run_absent hci [] user hash hok.userColon hok.userNl (by simp)).1
  refine ⟨?_, ?_, ?_⟩
  · unfold Passwd.main
    simp only
    split <;> rfl
  · rw [(C126_moments_partial ci user (.set hash) (some [])).2.2.1, Option.map_some, hrun]
  · rw [← hrun]
    exact C59_set_works_partial sv ci hci hs [] ⟨by simp, by simp⟩ user hash password hok (by intro x hx; cases hx) parsed hp hv

/-! ### C128: the effect of the tool, exactly -/

theorem sameName_length {ci : Char → Char → Bool} {a b : List Char} (h : SameName ci a b) : a.length = b.length := by
  induction h with
  | nil => rfl
  | cons _ _ _ _ _ _ ih => simp [ih]

/-- The search finds the end of the first name that ends like the user's. -/
theorem search_ends {ci : Char → Char → Bool} (hci : CaseOk ci) {user p tail hash : List Char} (rest : List Char) (huc : ':' ∉ user)
    (hu : ':' ∉ p ++ tail) (hh : '\n' ∉ hash) (hsame : SameName ci user tail) :
    Passwd.search ci user (p ++ (tail ++ ':' :: (hash ++ '\n' :: rest))) = some (p, tail ++ ':' :: hash ++ ['\n'], rest) := by
  have hlen := sameName_length hsame
  rw [Passwd.search_skip]
  · have hm := (Passwd.matchEntry_name hci (user := user) (u := tail) (hash := hash) (rest := rest) huc
      (fun h => hu (List.mem_append_right _ h)) hh).1 hsame
    have : Passwd.search ci user (tail ++ ':' :: (hash ++ '\n' :: rest)) = some ([], tail ++ ':' :: hash ++ ['\n'], rest) := by
      cases ht : tail ++ ':' :: (hash ++ '\n' :: rest) with
      | nil => simp at ht
      | cons c cs =>
        rw [ht] at hm
        rw [Passwd.search, hm]
    rw [this]
    simp [Passwd.prepend]
  · intro s t hst ht
    have := (Passwd.matchEntry_name hci (user := user) (u := t ++ tail) (hash := hash) (rest := rest) huc
      (fun h => hu (by rw [hst]; simp at h ⊢; rcases h with h | h <;> simp [h])) hh).2 (by
        intro h
        have h1 := sameName_length h
        rw [List.length_append] at h1
        have h2 : t.length ≠ 0 := fun h => ht (List.length_eq_zero_iff.mp h)
        omega)
    simpa using this

/-- C128: if some name in the file ends like the user's, setting a password rewrites the first such entry and nothing else: its name keeps
what precedes the part that is like the user's, that part becomes the user's name as given, and the credential becomes the new one. -/
theorem C128_set_found (ci : Char → Char → Bool) (hci : CaseOk ci) (pre post : List Entry) (x : Entry) (user p tail hash : List Char)
    (huc : ':' ∉ user) (hun : '\n' ∉ user) (hpre : ∀ e ∈ pre, e.Ok ∧ ¬ EndsLike ci user e.user) (hx : x.Ok)
    (hxu : x.user = p ++ tail) (hsame : SameName ci user tail) :
    Passwd.run ci user (.set hash) (fileOf (pre ++ x :: post)) = fileOf (pre ++ ⟨p ++ user, hash⟩ :: post) := by
  have hf : fileOf (pre ++ x :: post) = fileOf pre ++ (p ++ (tail ++ ':' :: (x.hash ++ '\n' :: fileOf post))) := by
    simp [fileOf, Entry.line, hxu]
  have hs := search_ends hci (fileOf post) huc (hxu ▸ hx.userColon) hx.hashNl hsame
  have hs' : Passwd.search ci user (fileOf (pre ++ x :: post)) = some (fileOf pre ++ p, tail ++ ':' :: x.hash ++ ['\n'], fileOf post) := by
    rw [hf, Passwd.search_other hci huc hun pre _ hpre, hs]
    rfl
  rw [(Passwd.run_of_search hs' hash).1]
  simp [fileOf, Entry.line]

/-- C128: and deleting removes the rest of that entry from there on, so that what precedes it in the name is put in front of the next entry,
or left without a ':' if there is none. -/
theorem C128_delete_found (ci : Char → Char → Bool) (hci : CaseOk ci) (pre post : List Entry) (x : Entry) (user p tail : List Char)
    (huc : ':' ∉ user) (hun : '\n' ∉ user) (hpre : ∀ e ∈ pre, e.Ok ∧ ¬ EndsLike ci user e.user) (hx : x.Ok)
    (hxu : x.user = p ++ tail) (hsame : SameName ci user tail) :
    Passwd.run ci user .delete (fileOf (pre ++ x :: post)) = (match post with
      | [] => fileOf pre ++ p
      | y :: post => fileOf (pre ++ ⟨p ++ y.user, y.hash⟩ :: post)) := by
  have hf : fileOf (pre ++ x :: post) = fileOf pre ++ (p ++ (tail ++ ':' :: (x.hash ++ '\n' :: fileOf post))) := by
    simp [fileOf, Entry.line, hxu]
  have hs := search_ends hci (fileOf post) huc (hxu ▸ hx.userColon) hx.hashNl hsame
  have hs' : Passwd.search ci user (fileOf (pre ++ x :: post)) = some (fileOf pre ++ p, tail ++ ':' :: x.hash ++ ['\n'], fileOf post) := by
    rw [hf, Passwd.search_other hci huc hun pre _ hpre, hs]
    rfl
  rw [(Passwd.run_of_search hs' []).2]
  cases post <;> simp [fileOf, Entry.line]

/-- `bob` after `rebob`: the tool takes the entry of `rebob` for the one of `bob`. -/
example : Passwd.run (fun a b => a == b) "bob".toList (.set "h9".toList)
      (fileOf ([⟨"amy".toList, "h0".toList⟩] ++ ⟨"rebob".toList, "h1".toList⟩ :: [⟨"bob".toList, "h2".toList⟩]))
    = fileOf ([⟨"amy".toList, "h0".toList⟩] ++ ⟨"re".toList ++ "bob".toList, "h9".toList⟩ :: [⟨"bob".toList, "h2".toList⟩]) := by decide +kernel

example : Passwd.run (fun a b => a == b) "bob".toList .delete
      (fileOf ([⟨"amy".toList, "h0".toList⟩] ++ ⟨"rebob".toList, "h1".toList⟩ :: [⟨"bob".toList, "h2".toList⟩]))
    = fileOf ([⟨"amy".toList, "h0".toList⟩] ++ [⟨"re".toList ++ "bob".toList, "h2".toList⟩]) := by decide +kernel

/-- The other way round all is well. -/
example : Passwd.run (fun a b => a == b) "bob".toList (.set "h9".toList)
      (fileOf [⟨"bob".toList, "h2".toList⟩, ⟨"rebob".toList, "h1".toList⟩])
    = fileOf [⟨"bob".toList, "h9".toList⟩, ⟨"rebob".toList, "h1".toList⟩] := by decide +kernel

/-- C128: if no name in the file ends like the user's, setting a password appends an entry and deleting changes nothing. -/
theorem C128_absent (ci : Char → Char → Bool) (hci : CaseOk ci) (es : List Entry) (user hash : List Char) (huc : ':' ∉ user) (hun : '\n' ∉ user)
    (h : ∀ e ∈ es, e.Ok ∧ ¬ EndsLike ci user e.user) :
    Passwd.run ci user (.set hash) (fileOf es) = fileOf (es ++ [⟨user, hash⟩]) ∧ Passwd.run ci user .delete (fileOf es) = fileOf es :=
  Passwd.run_absent hci es user hash huc hun h

/-- Every file of entries is of one of these kinds. -/
theorem C128_cases (ci : Char → Char → Bool) (user : List Char) (es : List Entry) :
    (∀ e ∈ es, ¬ EndsLike ci user e.user)
    ∨ ∃ pre x post p tail, es = pre ++ x :: post ∧ (∀ e ∈ pre, ¬ EndsLike ci user e.user) ∧ x.user = p ++ tail ∧ SameName ci user tail := by
  induction es with
  | nil => exact .inl (by simp)
  | cons e es ih =>
    by_cases he : EndsLike ci user e.user
    · obtain ⟨p, tail, h1, h2⟩ := he
      exact .inr ⟨[], e, es, p, tail, rfl, by simp, h1, h2⟩
    · rcases ih with h | ⟨pre, x, post, p, tail, rfl, h1, h2⟩
      · exact .inl (by
          intro y hy
          rcases List.mem_cons.mp hy with rfl | hy
          · exact he
          · exact h y hy)
      · exact .inr ⟨e :: pre, x, post, p, tail, rfl, by
          intro y hy
          rcases List.mem_cons.mp hy with rfl | hy
          · exact he
          · exact h1 y hy, h2⟩

/-- The last entry of a user counts. -/
theorem credentialIn_entries_last {es : List Entry} (h : ∀ e ∈ es, e.Ok) (user cred : List Char) :
    CredentialIn (es.map Entry.line) user cred ↔ ∃ pre post, es = pre ++ ⟨user, cred⟩ :: post ∧ ∀ e ∈ post, e.user ≠ user := by
  constructor
  · rintro ⟨pre, line, post, h1, h2, h3⟩
    obtain ⟨pre', r, rfl, rfl, hr⟩ := List.map_eq_append_iff.mp h1
    obtain ⟨e, post', rfl, rfl, rfl⟩ := List.map_eq_cons_iff.mp hr
    obtain ⟨hu, hc⟩ := gives_unique (gives_line (h e (by simp))) h2
    refine ⟨pre', post', ?_, fun x hx hxu => ?_⟩
    · rw [← hu, ← hc]
    · exact h3 _ (List.mem_map_of_mem hx) x.hash (hxu ▸ gives_line (h x (by simp [hx])))
  · rintro ⟨pre, post, rfl, h3⟩
    refine ⟨pre.map Entry.line, (Entry.mk user cred).line, post.map Entry.line, by simp, gives_line (h ⟨user, cred⟩ (by simp)), ?_⟩
    intro l hl c hg
    obtain ⟨x, hx, rfl⟩ := List.mem_map.mp hl
    exact h3 x hx (gives_unique (gives_line (h x (by simp [hx]))) hg).1

/-- `x` is the first entry whose name ends like the user's: the one the tool takes for the user's entry. -/
def FirstLike (ci : Char → Char → Bool) (user : List Char) (es : List Entry) (x : Entry) : Prop :=
  ∃ pre post, es = pre ++ x :: post ∧ (∀ e ∈ pre, ¬ EndsLike ci user e.user) ∧ EndsLike ci user x.user

/-- What a file of entries means to the broker, names occurring several times included. -/
theorem loads_last (sv : StdVersion) {es : List Entry} (h : ∀ e ∈ es, e.Ok) :
    ∃ f, FileIdentityManager.new sv (fileOf es) = some f ∧ ∀ user cred : List Char,
      f.passwordsByUsername.get? (String.ofList user) = some (String.ofList cred)
        ↔ ∃ pre post, es = pre ++ ⟨user, cred⟩ :: post ∧ ∀ e ∈ post, e.user ≠ user := by
  have hl := fileLines_fileOf sv es h
  have ha : (FileIdentityManager.new sv (fileOf es)).isSome = true := (C56_accepted sv _ _ hl).mpr (by
    intro l hl
    obtain ⟨e, _, rfl⟩ := List.mem_map.mp hl
    simp [Entry.line])
  obtain ⟨f, hf⟩ := Option.isSome_iff_exists.mp ha
  refine ⟨f, hf, fun user cred => ?_⟩
  rw [C56_credential sv _ _ hl f hf, String.toList_ofList, String.toList_ofList, credentialIn_entries_last h]

theorem firstLike_none {ci : Char → Char → Bool} {user : List Char} {es : List Entry} (h : ∀ e ∈ es, ¬ EndsLike ci user e.user) (x : Entry) :
    ¬ FirstLike ci user es x := by
  rintro ⟨pre, post, rfl, _, hx⟩
  exact h x (by simp) hx

theorem firstLike_unique {ci : Char → Char → Bool} {user : List Char} {pre post : List Entry} {x y : Entry}
    (hpre : ∀ e ∈ pre, ¬ EndsLike ci user e.user) (hx : EndsLike ci user x.user) (hy : FirstLike ci user (pre ++ x :: post) y) : y = x := by
  obtain ⟨pre', post', h, hpre', hy⟩ := hy
  induction pre generalizing pre' with
  | nil =>
    cases pre' with
    | nil => cases h; rfl
    | cons a pre' => cases h; exact absurd hx (hpre' _ (by simp))
  | cons b pre ih =>
    cases pre' with
    | nil => cases h; exact absurd hy (hpre _ (by simp))
    | cons a pre' =>
      simp only [List.cons_append, List.cons.injEq] at h
      exact ih (fun e he => hpre e (by simp [he])) pre' h.2 fun e he => hpre' e (by simp [he])

/-- Names before and after an entry of a well-formed file are different from its name. -/
theorem WellFormed.others {pre post : List Entry} {x : Entry} (h : WellFormed (pre ++ x :: post)) :
    (∀ e ∈ pre, e.user ≠ x.user) ∧ (∀ e ∈ post, e.user ≠ x.user) := by
  have hd := h.distinct
  rw [List.map_append, List.map_cons, List.nodup_append] at hd
  obtain ⟨_, hd2, hd3⟩ := hd
  exact ⟨fun e he => hd3 _ (List.mem_map_of_mem he) _ (by simp), fun e he he' => (List.nodup_cons.mp hd2).1 (he' ▸ List.mem_map_of_mem he)⟩

/-- C59, exactly: setting a password gives the user the new credential just when the first name ending like the user's is that user's, or is
that user's but for upper and lower case while the user has no entry; or there is none. The new hash is supposed to be a new one. -/
theorem C59_set_works_iff (sv : StdVersion) (ci : Char → Char → Bool) (hci : CaseOk ci) (es : List Entry) (h : WellFormed es)
    (user hash : List Char) (hok : (Entry.mk user hash).Ok) (hfresh : ∀ e ∈ es, e.hash ≠ hash) :
    (∃ f, FileIdentityManager.new sv (Passwd.run ci user (.set hash) (fileOf es)) = some f
      ∧ f.passwordsByUsername.get? (String.ofList user) = some (String.ofList hash))
    ↔ ∀ x, FirstLike ci user es x → x.user = user ∨ (SameName ci user x.user ∧ user ∉ es.map Entry.user) := by
  rcases C128_cases ci user es with hn | ⟨pre, x, post, p, tail, rfl, hpre, hxu, hsame⟩
  · refine ⟨fun _ x hx => absurd hx (firstLike_none hn x), fun _ => ?_⟩
    rw [(C128_absent ci hci es user hash hok.userColon hok.userNl fun e he => ⟨h.ok e he, hn e he⟩).1]
    obtain ⟨f, hf, hl⟩ := loads_last sv (es := es ++ [⟨user, hash⟩]) (by
      intro e he
      rcases List.mem_append.mp he with he | he
      · exact h.ok e he
      · rw [List.mem_singleton] at he; exact he ▸ hok)
    exact ⟨f, hf, (hl user hash).mpr ⟨es, [], rfl, by simp⟩⟩
  · have hxok := h.ok x (by simp)
    have hfirst : FirstLike ci user (pre ++ x :: post) x := ⟨pre, post, rfl, hpre, p, tail, hxu, hsame⟩
    rw [C128_set_found ci hci pre post x user p tail hash hok.userColon hok.userNl (fun e he => ⟨h.ok e (by simp [he]), hpre e he⟩)
      hxok hxu hsame]
    have hnew : (Entry.mk (p ++ user) hash).Ok := ⟨fun hc => (List.mem_append.mp hc).elim
        (fun hc => hxok.userColon (by rw [hxu]; simp [hc])) hok.userColon, fun hc => (List.mem_append.mp hc).elim
        (fun hc => hxok.userNl (by rw [hxu]; simp [hc])) hok.userNl, hok.hashColon, hok.hashNl, hok.hashCr⟩
    obtain ⟨f, hf, hl⟩ := loads_last sv (es := pre ++ ⟨p ++ user, hash⟩ :: post) (by
      intro e he
      rcases List.mem_append.mp he with he | he
      · exact h.ok e (by simp [he])
      · rcases List.mem_cons.mp he with rfl | he
        · exact hnew
        · exact h.ok e (by simp [he]))
    have hlen := sameName_length hsame
    constructor
    · rintro ⟨f', hf', hg⟩ y hy
      rw [firstLike_unique hpre ⟨p, tail, hxu, hsame⟩ hy]
      cases hf.symm.trans hf'
      obtain ⟨a, b, hab, hb⟩ := (hl user hash).mp hg
      -- the user's entry is the rewritten one, as its hash is new
      have hmem : (Entry.mk user hash) ∈ pre ++ (⟨p ++ user, hash⟩ : Entry) :: post := by rw [hab]; simp
      have hp : p = [] := by
        rcases List.mem_append.mp hmem with hm | hm
        · exact absurd rfl (hfresh ⟨user, hash⟩ (by simp [hm]))
        · rcases List.mem_cons.mp hm with hm | hm
          · injection hm with hm
            have := congrArg List.length hm
            rw [List.length_append] at this
            exact List.length_eq_zero_iff.mp (by omega)
          · exact absurd rfl (hfresh ⟨user, hash⟩ (by simp [hm]))
      subst hp
      rw [List.nil_append] at hxu hab
      by_cases hx : x.user = user
      · exact .inl hx
      refine .inr ⟨hxu ▸ hsame, fun hm => ?_⟩
      obtain ⟨e, he, heu⟩ := List.mem_map.mp hm
      rcases List.mem_append.mp he with he | he
      · exact hpre e he ⟨[], user, heu, Passwd.sameName_refl hci user⟩
      · rcases List.mem_cons.mp he with rfl | he
        · exact hx heu
        -- a later entry of the user would count instead
        · rcases List.append_eq_append_iff.mp hab with ⟨c, hc1, hc2⟩ | ⟨c, hc1, hc2⟩
          · cases c with
            | nil =>
              simp only [List.nil_append, List.cons.injEq] at hc2
              exact hb e (hc2.2 ▸ he) heu
            | cons d c =>
              simp only [List.cons_append, List.cons.injEq] at hc2
              exact absurd rfl (hfresh ⟨user, hash⟩ (by rw [hc2.2]; simp))
          · cases c with
            | nil =>
              simp only [List.nil_append, List.cons.injEq] at hc2
              exact hb e (hc2.2 ▸ he) heu
            | cons d c =>
              simp only [List.cons_append, List.cons.injEq] at hc2
              exact absurd rfl (hfresh ⟨user, hash⟩ (by rw [hc1, hc2.1]; simp))
    · intro hall
      refine ⟨f, hf, (hl user hash).mpr ?_⟩
      have hor := hall x hfirst
      have hp : p = [] := by
        have h1 : x.user.length = user.length := by
          rcases hor with h | ⟨h, _⟩
          · rw [h]
          · exact (sameName_length h).symm
        rw [hxu, List.length_append] at h1
        exact List.length_eq_zero_iff.mp (by omega)
      subst hp
      refine ⟨pre, post, rfl, fun e he heu => ?_⟩
      rcases hor with hx | ⟨_, hm⟩
      · exact h.others.2 e he (heu.trans hx.symm)
      · exact hm (List.mem_map.mpr ⟨e, by simp [he], heu⟩)

/-- C60, exactly: setting a password leaves all other users' credentials as they were just when the first name ending like the user's, if
there is one, is that user's. -/
theorem C60_others_iff (sv : StdVersion) (ci : Char → Char → Bool) (hci : CaseOk ci) (es : List Entry) (h : WellFormed es)
    (user hash : List Char) (hok : (Entry.mk user hash).Ok) (hfresh : ∀ e ∈ es, e.hash ≠ hash) :
    (∃ f, FileIdentityManager.new sv (Passwd.run ci user (.set hash) (fileOf es)) = some f
      ∧ ∀ other cred : List Char, other ≠ user →
          (f.passwordsByUsername.get? (String.ofList other) = some (String.ofList cred) ↔ ⟨other, cred⟩ ∈ es))
    ↔ ∀ x, FirstLike ci user es x → x.user = user := by
  rcases C128_cases ci user es with hn | ⟨pre, x, post, p, tail, rfl, hpre, hxu, hsame⟩
  · exact ⟨fun _ x hx => absurd hx (firstLike_none hn x), fun _ => C60_others_partial sv ci hci es h user hash hok fun e he _ => hn e he⟩
  · have hxok := h.ok x (by simp)
    have hfirst : FirstLike ci user (pre ++ x :: post) x := ⟨pre, post, rfl, hpre, p, tail, hxu, hsame⟩
    rw [C128_set_found ci hci pre post x user p tail hash hok.userColon hok.userNl (fun e he => ⟨h.ok e (by simp [he]), hpre e he⟩)
      hxok hxu hsame]
    have hnew : (Entry.mk (p ++ user) hash).Ok := ⟨fun hc => (List.mem_append.mp hc).elim
        (fun hc => hxok.userColon (by rw [hxu]; simp [hc])) hok.userColon, fun hc => (List.mem_append.mp hc).elim
        (fun hc => hxok.userNl (by rw [hxu]; simp [hc])) hok.userNl, hok.hashColon, hok.hashNl, hok.hashCr⟩
    have hallok : ∀ e ∈ pre ++ (⟨p ++ user, hash⟩ : Entry) :: post, e.Ok := by
      intro e he
      rcases List.mem_append.mp he with he | he
      · exact h.ok e (by simp [he])
      · rcases List.mem_cons.mp he with rfl | he
        · exact hnew
        · exact h.ok e (by simp [he])
    obtain ⟨f, hf, hl⟩ := loads_last sv hallok
    constructor
    · rintro ⟨f', hf', hg⟩ y hy
      rw [firstLike_unique hpre ⟨p, tail, hxu, hsame⟩ hy]
      cases hf.symm.trans hf'
      refine Classical.byContradiction fun hne => ?_
      obtain ⟨a, b, hab, -⟩ := (hl x.user x.hash).mp ((hg x.user x.hash hne).mpr (by simp))
      have hmem : x ∈ pre ++ (⟨p ++ user, hash⟩ : Entry) :: post := by rw [hab]; simp
      rcases List.mem_append.mp hmem with hm | hm
      · exact h.others.1 x hm rfl
      · rcases List.mem_cons.mp hm with hm | hm
        · exact hfresh x (by simp) (by rw [hm])
        · exact h.others.2 x hm rfl
    · intro hall
      have hx := hall x hfirst
      have hp : p = [] := by
        have h1 := congrArg List.length hxu
        have h2 := sameName_length hsame
        rw [hx, List.length_append] at h1
        exact List.length_eq_zero_iff.mp (by omega)
      subst hp
      have hw : WellFormed (pre ++ (⟨user, hash⟩ : Entry) :: post) := ⟨hallok, by
        have := h.distinct
        rw [List.map_append, List.map_cons, hx] at this
        simpa using this⟩
      obtain ⟨f', hf', hl'⟩ := loads_fileOf sv hw
      refine ⟨f', hf', fun other cred ho => ?_⟩
      rw [hl']
      simp only [List.mem_append, List.mem_cons]
      refine or_congr Iff.rfl (or_congr ⟨fun he => ?_, fun he => ?_⟩ Iff.rfl)
      · cases he; exact absurd rfl ho
      · exact absurd (he ▸ hx : (Entry.mk other cred).user = user) ho

/-- C61, exactly: deleting a user leaves the others, with their credentials, and no more just when the first name ending like the user's, if
there is one, is that user's. Different entries are supposed to have different hashes. -/
theorem C61_delete_works_iff (sv : StdVersion) (ci : Char → Char → Bool) (hci : CaseOk ci) (es : List Entry) (h : WellFormed es)
    (user : List Char) (hu : ':' ∉ user) (hn : '\n' ∉ user) (hhash : (es.map Entry.hash).Nodup) :
    Loads sv (Passwd.run ci user .delete (fileOf es)) (es.filter fun e => e.user ≠ user)
    ↔ ∀ x, FirstLike ci user es x → x.user = user := by
  rcases C128_cases ci user es with hno | ⟨pre, x, post, p, tail, rfl, hpre, hxu, hsame⟩
  · refine ⟨fun _ x hx => absurd hx (firstLike_none hno x), fun _ => ?_⟩
    obtain ⟨-, f, hf, hl⟩ := C61_delete_works_partial sv ci hci es h user hu hn fun e he _ => hno e he
    exact ⟨f, hf, fun a c => by rw [hl]; simp [and_comm]⟩
  · have hxok := h.ok x (by simp)
    have hfirst : FirstLike ci user (pre ++ x :: post) x := ⟨pre, post, rfl, hpre, p, tail, hxu, hsame⟩
    have hpok : ∀ e ∈ pre, e.Ok ∧ ¬ EndsLike ci user e.user := fun e he => ⟨h.ok e (by simp [he]), hpre e he⟩
    have hdel := C128_delete_found ci hci pre post x user p tail hu hn hpok hxok hxu hsame
    constructor
    · rintro ⟨f, hf, hg⟩ y hy
      rw [firstLike_unique hpre ⟨p, tail, hxu, hsame⟩ hy]
      refine Classical.byContradiction fun hne => ?_
      have hgx := (hg x.user x.hash).mpr (List.mem_filter.mpr ⟨by simp, by simpa using hne⟩)
      rw [hdel] at hf
      cases post with
      | nil =>
        simp only at hf
        by_cases hp : p = []
        · subst hp
          rw [List.append_nil] at hf
          obtain ⟨f', hf', hl⟩ := loads_last sv (es := pre) fun e he => h.ok e (by simp [he])
          cases hf.symm.trans hf'
          obtain ⟨a, b, hab, -⟩ := (hl x.user x.hash).mp hgx
          exact h.others.1 x (by rw [hab]; simp) rfl
        · -- the rest of the name stands alone on the last line
          have hlines : ∃ l, FileLines sv (fileOf pre ++ p) (pre.map Entry.line ++ [l]) ∧ ':' ∉ l := by
            have hpn : '\n' ∉ p := fun hc => hxok.userNl (by rw [hxu]; simp [hc])
            have hpc : ':' ∉ p := fun hc => hxok.userColon (by rw [hxu]; simp [hc])
            clear hf hdel hy hfirst hgx hg hhash
            have hpre' : ∀ e ∈ pre, e.Ok := fun e he => (hpok e he).1
            clear hpre hpok h
            induction pre with
            | nil =>
              obtain ⟨l, hl, hlc⟩ : ∃ l, (if sv.stripFinalCr then WithoutCr p l else l = p) ∧ ':' ∉ l := by
                by_cases hs : sv.stripFinalCr = true
                · simp only [hs, if_true]
                  refine ⟨stripCr p, withoutCr_stripCr p, fun hc => hpc ?_⟩
                  rcases withoutCr_stripCr p with hw | ⟨hw, _⟩
                  · rw [hw]; simp [hc]
                  · exact hw ▸ hc
                · simp only [hs]
                  exact ⟨p, rfl, hpc⟩
              exact ⟨l, .unterminated p l hp hpn hl, hlc⟩
            | cons e pre ih =>
              obtain ⟨l, hl, hlc⟩ := ih fun e he => hpre' e (by simp [he])
              have hok := hpre' e (by simp)
              refine ⟨l, ?_, hlc⟩
              have : fileOf (e :: pre) ++ p = e.line ++ '\n' :: (fileOf pre ++ p) := by simp [fileOf]
              rw [this, List.map_cons, List.cons_append]
              refine .line _ _ _ _ ?_ (.inr ⟨rfl, ?_⟩) hl
              · simp [Entry.line, hok.userNl, hok.hashNl]
              · intro z hz
                rcases List.eq_nil_or_concat e.hash with hh | ⟨w, c, hh⟩
                · rw [Entry.line, hh] at hz
                  have := List.append_inj_right' hz rfl
                  simp at this
                · rw [List.concat_eq_append] at hh
                  rw [Entry.line, hh, ← List.cons_append, ← List.append_assoc] at hz
                  have := List.append_inj_right' hz rfl
                  exact hok.hashCr w (by rw [hh, this])
          obtain ⟨l, hl, hlc⟩ := hlines
          exact hlc ((C56_accepted sv _ _ hl).mp (by rw [hf]; rfl) l (by simp))
      | cons y post =>
        simp only at hf
        have hyok := h.ok y (by simp)
        obtain ⟨f', hf', hl⟩ := loads_last sv (es := pre ++ ⟨p ++ y.user, y.hash⟩ :: post) (by
          intro e he
          rcases List.mem_append.mp he with he | he
          · exact h.ok e (by simp [he])
          · rcases List.mem_cons.mp he with rfl | he
            · exact ⟨fun hc => (List.mem_append.mp hc).elim
                (fun hc => hxok.userColon (by rw [hxu]; simp [hc])) hyok.userColon, fun hc => (List.mem_append.mp hc).elim
                (fun hc => hxok.userNl (by rw [hxu]; simp [hc])) hyok.userNl, hyok.hashColon, hyok.hashNl, hyok.hashCr⟩
            · exact h.ok e (by simp [he]))
        cases hf.symm.trans hf'
        obtain ⟨a, b, hab, -⟩ := (hl x.user x.hash).mp hgx
        have hmem : x ∈ pre ++ (⟨p ++ y.user, y.hash⟩ : Entry) :: post := by rw [hab]; simp
        rcases List.mem_append.mp hmem with hm | hm
        · exact h.others.1 x hm rfl
        · rcases List.mem_cons.mp hm with hm | hm
          · have hh : x.hash = y.hash := by rw [hm]
            rw [List.map_append, List.map_cons, List.map_cons, List.nodup_append] at hhash
            exact (List.nodup_cons.mp hhash.2.1).1 (by rw [hh]; simp)
          · exact h.others.2 x (by simp [hm]) rfl
    · intro hall
      have hx := hall x hfirst
      subst hx
      rw [(Passwd.run_present hci pre post x [] hxok hpok).2]
      have hfilter : (pre ++ x :: post).filter (fun e => e.user ≠ x.user) = pre ++ post := by
        rw [List.filter_append, List.filter_cons_of_neg (by simp), List.filter_eq_self.mpr fun e he => by simp [h.others.1 e he],
          List.filter_eq_self.mpr fun e he => by simp [h.others.2 e he]]
      rw [hfilter]
      refine loads_fileOf sv ⟨fun e he => h.ok e (by
        rcases List.mem_append.mp he with he | he <;> simp [he]), ?_⟩
      refine List.Nodup.sublist ?_ h.distinct
      exact (List.Sublist.append_left (List.sublist_cons_self x post) pre).map _

end Ratel
